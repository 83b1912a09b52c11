import Verif.Proofs.Reductions
import Verif.Proofs.Safe
import Verif.Spec.Cycles
import Mathlib.Data.Finset.Card
import Mathlib.Data.Prod.Lex
/-! # The loop of the parser ends if no infinite sequence of reductions is possible -/

namespace Pomelo

open Spec

variable {g : Grammar}

/-! ## Ranks of symbols -/

/-- Ranks that witness the absence of cycles -/
structure Grammar.Ranks (g : Grammar) (u w : SymbolId → Nat) : Prop where
  unit : ∀ {A X}, UnitOf g A X → u X < u A
  left : ∀ {α A X}, LeftOf g α A X → w X ≤ w A
  hidden : ∀ {α A X}, α ≠ [] → LeftOf g α A X → w X < w A

theorem Grammar.Ranks.noCycle {u w : SymbolId → Nat} (h : g.Ranks u w) : NoCycle g := by
  have : ∀ A B, Relation.TransGen (UnitOf g) A B → u B < u A := by
    intro A B hab
    induction hab with
    | single h1 => exact h.unit h1
    | tail _ h1 ih => exact (h.unit h1).trans ih
  exact fun A hA => Nat.lt_irrefl _ (this A A hA)

theorem Grammar.Ranks.noHidden {u w : SymbolId → Nat} (h : g.Ranks u w) : NoHidden g := by
  have : ∀ X A, Relation.ReflTransGen (fun B Y => ∃ δ, LeftOf g δ B Y) X A → w A ≤ w X := by
    intro X A hr
    induction hr with
    | refl => exact Nat.le_refl _
    | tail _ h1 ih => obtain ⟨_, h1⟩ := h1; exact (h.left h1).trans ih
  exact fun α A X hα hl hr => Nat.lt_irrefl _ (Nat.lt_of_lt_of_le (h.hidden hα hl) (this X A hr))

open Classical in
/-- The number of symbols a symbol can be made of -/
noncomputable def unitRank (g : Grammar) (A : SymbolId) : Nat :=
  ((Finset.range g.syms.length).filter (fun B => Relation.TransGen (UnitOf g) A B)).card

open Classical in
/-- The number of symbols that a symbol may begin with behind others that vanish -/
noncomputable def leftRank (g : Grammar) (A : SymbolId) : Nat :=
  ((Finset.range g.syms.length).filter (fun B => ∃ C α, α ≠ [] ∧ Relation.ReflTransGen (fun B Y => ∃ δ, LeftOf g δ B Y) A C ∧ LeftOf g α C B)).card

theorem unitRank_lt (hi : GInv g) (hc : NoCycle g) {A X : SymbolId} (h : UnitOf g A X) : unitRank g X < unitRank g A := by
  classical
  have hX : X < g.syms.length := by
    obtain ⟨r, α, β, hr, _, he, _⟩ := h
    exact (hi.rhs r hr X (by rw [he]; simp)).1
  refine Finset.card_lt_card ⟨?_, ?_⟩
  · intro B hB
    simp only [Finset.mem_filter] at hB ⊢
    exact ⟨hB.1, .head h hB.2⟩
  · intro hs
    have := hs (x := X) (by simp only [Finset.mem_filter, Finset.mem_range]; exact ⟨hX, .single h⟩)
    simp only [Finset.mem_filter] at this
    exact hc X this.2

theorem leftRank_le {α : List SymbolId} {A X : SymbolId} (h : LeftOf g α A X) : leftRank g X ≤ leftRank g A := by
  classical
  refine Finset.card_le_card ?_
  intro B hB
  simp only [Finset.mem_filter] at hB ⊢
  obtain ⟨h0, C, δ, h1, h2, h3⟩ := hB
  exact ⟨h0, C, δ, h1, .head ⟨α, h⟩ h2, h3⟩

theorem leftRank_lt (hi : GInv g) (hc : NoHidden g) {α : List SymbolId} {A X : SymbolId} (hα : α ≠ []) (h : LeftOf g α A X) : leftRank g X < leftRank g A := by
  classical
  have hX : X < g.syms.length := by
    obtain ⟨r, β, hr, _, he, _⟩ := h
    exact (hi.rhs r hr X (by rw [he]; simp)).1
  refine Finset.card_lt_card ⟨?_, ?_⟩
  · intro B hB
    simp only [Finset.mem_filter] at hB ⊢
    obtain ⟨h0, C, δ, h1, h2, h3⟩ := hB
    exact ⟨h0, C, δ, h1, .head ⟨α, h⟩ h2, h3⟩
  · intro hs
    have := hs (x := X) (by simp only [Finset.mem_filter, Finset.mem_range]; exact ⟨hX, A, α, hα, .refl, h⟩)
    simp only [Finset.mem_filter] at this
    obtain ⟨_, C, δ, h1, h2, h3⟩ := this
    exact hc δ C X h1 h3 h2

theorem unitRank_le (A : SymbolId) : unitRank g A ≤ g.syms.length := by
  classical
  exact (Finset.card_filter_le _ _).trans (by simp)

theorem leftRank_le_length (A : SymbolId) : leftRank g A ≤ g.syms.length := by
  classical
  exact (Finset.card_filter_le _ _).trans (by simp)

/-! ## Growth is bounded without hidden left recursion -/

/-- A bound for the length of right-hand sides -/
def maxLen (g : Grammar) : Nat := (g.rules.map (fun r => r.rhs.length)).sum

theorem mem_le_sum {l : List Nat} {x : Nat} (h : x ∈ l) : x ≤ l.sum := by
  induction l with
  | nil => cases h
  | cons y l ih =>
    rw [List.sum_cons]
    rcases List.mem_cons.1 h with rfl | h
    · omega
    · have := ih h; omega

theorem rhs_le_maxLen {r : RuleId} (hr : r < g.rules.length) : (g.rhsSyms r).length ≤ maxLen g := by
  unfold maxLen Grammar.rhsSyms Grammar.rule
  rw [List.length_map, List.getD_eq_getElem?_getD, List.getElem?_eq_getElem hr]
  exact mem_le_sum (List.mem_map.2 ⟨_, List.getElem_mem hr, rfl⟩)

theorem viable_bound (hi : GInv g) (hc : NoHidden g) {γ : List SymbolId} {c : Item} (h : Viable g γ c) : ∀ {δ ν : List SymbolId}, γ = δ ++ ν → g.Null ν →
    ν.length ≤ c.dot + maxLen g * (g.syms.length - leftRank g (g.rule c.rule).lhs) + maxLen g := by
  induction h with
  | start _ => intro δ ν h; simp at h; simp [h.2]
  | @close γ c A r h1 h2 h3 ih =>
    intro δ ν he hn
    have h4 := ih he hn
    have hdot : c.dot ≤ maxLen g := ((viable_prefix h1).choose_spec.2.1).trans (rhs_le_maxLen h1.rule)
    rw [show (⟨r, 0⟩ : Item).dot = 0 from rfl, show (⟨r, 0⟩ : Item).rule = r from rfl, h3.2, Nat.zero_add]
    obtain ⟨γ0, e, hl, _⟩ := viable_prefix h1
    by_cases hlt : ν.length ≤ c.dot
    · exact (hlt.trans hdot).trans (Nat.le_add_left _ _)
    · -- the part before the dot vanishes
      have hpre : g.Null ((g.rhsSyms c.rule).take c.dot) := by
        rw [he] at e
        obtain ⟨ν0, hν⟩ : ∃ ν0, ν = ν0 ++ (g.rhsSyms c.rule).take c.dot := by
          have hle : ((g.rhsSyms c.rule).take c.dot).length ≤ ν.length := by rw [List.length_take]; omega
          obtain ⟨x, hx⟩ := List.suffix_of_suffix_length_le (⟨γ0, e.symm⟩ : _ <:+ δ ++ ν) (List.suffix_append δ ν) hle
          exact ⟨x, hx.symm⟩
        rw [hν] at hn
        exact hn.split.2
      have hL : LeftOf g ((g.rhsSyms c.rule).take c.dot) (g.rule c.rule).lhs A := by
        refine ⟨c.rule, behind g c, h1.rule, rfl, ?_, hpre.derives⟩
        have := List.take_append_drop c.dot (g.rhsSyms c.rule)
        rw [show (g.rhsSyms c.rule).drop c.dot = A :: behind g c from rest_of_atDot h2] at this
        exact this.symm
      by_cases hd : c.dot = 0
      · rw [hd] at h4
        refine h4.trans ?_
        have := leftRank_le hL
        have : maxLen g * (g.syms.length - leftRank g (g.rule c.rule).lhs) ≤ maxLen g * (g.syms.length - leftRank g A) :=
          Nat.mul_le_mul_left _ (by omega)
        omega
      · have hne : (g.rhsSyms c.rule).take c.dot ≠ [] := by
          intro e
          have := congrArg List.length e
          rw [List.length_take] at this
          simp at this
          rcases this with h | h
          · exact hd h
          · rw [h] at hl; simp at hl; exact hd hl
        have h5 := leftRank_lt hi hc hne hL
        have h6 := leftRank_le_length (g := g) (g.rule c.rule).lhs
        have : maxLen g * (g.syms.length - leftRank g (g.rule c.rule).lhs) + maxLen g ≤ maxLen g * (g.syms.length - leftRank g A) := by
          rw [← Nat.mul_succ]
          exact Nat.mul_le_mul_left _ (by omega)
        omega
  | @shift γ c X h1 h2 ih =>
    intro δ ν he hn
    rcases List.eq_nil_or_concat ν with rfl | ⟨ν', Y, rfl⟩
    · simp
    · rw [List.concat_eq_append, ← List.append_assoc] at he
      obtain ⟨e1, _⟩ := List.append_inj' he rfl
      have := ih e1 (by rw [List.concat_eq_append] at hn; exact hn.split.1)
      simp only [List.length_append, List.length_singleton, List.concat_eq_append] at this ⊢
      omega

/-! ## A measure for sequences of reductions -/

/-- The ranks of the symbols as digits in base `b`, the first symbol being the `k`-th digit -/
def digits (b : Nat) (u : SymbolId → Nat) : Nat → List SymbolId → Nat
  | 0, _ => 0
  | _ + 1, [] => 0
  | k + 1, X :: ν => (u X + 1) * b ^ k + digits b u k ν

theorem digits_lt {b : Nat} {u : SymbolId → Nat} (hu : ∀ X, u X + 2 ≤ b) (k : Nat) (ν : List SymbolId) : digits b u k ν < b ^ k := by
  induction k generalizing ν with
  | zero => simp [digits]
  | succ k ih =>
    cases ν with
    | nil => exact Nat.pow_pos (Nat.lt_of_lt_of_le (by omega) (hu 0))
    | cons X ν =>
      have h1 := ih ν
      have h2 := hu X
      calc (u X + 1) * b ^ k + digits b u k ν < (u X + 1) * b ^ k + b ^ k := Nat.add_lt_add_left h1 _
        _ = (u X + 2) * b ^ k := by rw [← Nat.succ_mul]
        _ ≤ b * b ^ k := Nat.mul_le_mul_right _ h2
        _ = b ^ (k + 1) := by rw [Nat.pow_succ, Nat.mul_comm]

theorem digits_up {b : Nat} {u : SymbolId → Nat} (hu : ∀ X, u X + 2 ≤ b) {A : SymbolId} {ρ : List SymbolId} (hρ : ∀ X ρ', ρ = X :: ρ' → u X < u A)
    (ν : List SymbolId) {k : Nat} (hk : (ν ++ [A]).length ≤ k) : digits b u k (ν ++ ρ) < digits b u k (ν ++ [A]) := by
  induction ν generalizing k with
  | nil =>
    obtain ⟨k, rfl⟩ : ∃ j, k = j + 1 := ⟨k - 1, by simp at hk; omega⟩
    have hpos : 0 < b ^ k := Nat.pow_pos (Nat.lt_of_lt_of_le (by omega) (hu 0))
    cases ρ with
    | nil =>
      simp only [List.append_nil, List.nil_append, digits]
      exact Nat.lt_of_lt_of_le (Nat.mul_pos (Nat.succ_pos _) hpos) (Nat.le_add_right _ _)
    | cons X ρ =>
      simp only [List.nil_append, digits]
      calc (u X + 1) * b ^ k + digits b u k ρ < (u X + 1) * b ^ k + b ^ k := Nat.add_lt_add_left (digits_lt hu k ρ) _
        _ = (u X + 2) * b ^ k := by rw [← Nat.succ_mul]
        _ ≤ (u A + 1) * b ^ k := Nat.mul_le_mul_right _ (by have := hρ X ρ rfl; omega)
        _ ≤ _ := Nat.le_add_right _ _
  | cons Y ν ih =>
    obtain ⟨k, rfl⟩ : ∃ j, k = j + 1 := ⟨k - 1, by simp at hk; omega⟩
    simp only [List.cons_append, digits]
    exact Nat.add_lt_add_left (ih (by simpa using hk)) _

/-- Rank of the last symbol -/
def lastRank (u : SymbolId → Nat) (δ : List SymbolId) : Nat := (δ.getLast?.map u).getD 0

/-- There is no infinite sequence of reductions if no symbol derives itself and the number of symbols
that vanish on the top of the stack is bounded. -/
theorem acc_ranked (hi : GInv g) (hc : NoCycle g) (P : List SymbolId → Prop) (B : Nat)
    (hB : ∀ {γ : List SymbolId} {c : Item} {δ ν : List SymbolId}, Viable g γ c → P γ → γ = δ ++ ν → g.Null ν → ν.length ≤ B) (γ : List SymbolId) :
    Acc (fun γ' γ => ∃ r, g.Red γ γ' r ∧ P γ') γ := by
  have hu : ∀ X, unitRank g X + 2 ≤ g.syms.length + 2 := fun X => Nat.add_le_add_right (unitRank_le X) 2
  have key : ∀ (L k m : Nat) (δ ν : List SymbolId), δ.length = L → g.syms.length - lastRank (unitRank g) δ = k →
      (g.syms.length + 2) ^ B - digits (g.syms.length + 2) (unitRank g) B ν = m → g.Null ν →
      Acc (fun γ' γ => ∃ r, g.Red γ γ' r ∧ P γ') (δ ++ ν) := by
    intro L
    induction L using Nat.strongRecOn with
    | ind L ihL =>
    intro k
    induction k using Nat.strongRecOn with
    | ind k ihk =>
    intro m
    induction m using Nat.strongRecOn with
    | ind m ihm =>
    intro δ ν hL hk hm hν
    constructor
    rintro γ' ⟨r, ⟨δ1, c, e, hv, rfl, hvc, hd⟩, hP⟩
    have hr := hv.rule
    by_cases hlen : (g.rhsSyms r).length ≤ ν.length
    · -- above the base
      obtain ⟨ν0, hν0⟩ : ∃ ν0, ν = ν0 ++ g.rhsSyms r := by
        obtain ⟨x, hx⟩ := List.suffix_of_suffix_length_le (⟨δ1, e.symm⟩ : _ <:+ δ ++ ν) (List.suffix_append δ ν) hlen
        exact ⟨x, hx.symm⟩
      subst hν0
      rw [← List.append_assoc] at e
      obtain ⟨e1, _⟩ := List.append_inj' e rfl
      obtain ⟨n1, n2⟩ := hν.split
      have hν' : g.Null (ν0 ++ [(g.rule r).lhs]) := n1.append (.cons hr n2 .nil)
      have hle := hB (Viable.shift hvc hd) hP (by rw [← e1, List.append_assoc]) hν'
      have hup := digits_up hu (A := (g.rule r).lhs) (ρ := g.rhsSyms r) (by
        intro X ρ' he
        rw [he] at n2
        exact unitRank_lt hi hc ⟨r, [], ρ', hr, rfl, by simp [he], .refl _, (Grammar.Null.split (α := [X]) n2).2.derives⟩) ν0 hle
      have hlt := digits_lt hu B (ν0 ++ [(g.rule r).lhs])
      rw [← e1, List.append_assoc]
      exact ihm _ (by omega) δ _ hL hk rfl hν'
    · -- into the base
      have hlen' : ν.length ≤ (g.rhsSyms r).length := by omega
      obtain ⟨σ, hσ⟩ : ∃ σ, g.rhsSyms r = σ ++ ν := by
        obtain ⟨x, hx⟩ := List.suffix_of_suffix_length_le (List.suffix_append δ ν) (⟨δ1, e.symm⟩ : _ <:+ δ ++ ν) hlen'
        exact ⟨x, hx.symm⟩
      rw [hσ, ← List.append_assoc] at e
      obtain ⟨e1, _⟩ := List.append_inj' e rfl
      have hσl : σ.length ≠ 0 := by
        intro h0
        rw [hσ, List.length_append] at hlen
        omega
      have hnil : δ1 ++ [(g.rule r).lhs] = (δ1 ++ [(g.rule r).lhs]) ++ [] := by simp
      rw [hnil]
      by_cases h2 : 2 ≤ σ.length
      · refine ihL _ ?_ _ _ _ _ rfl rfl rfl .nil
        rw [← hL, e1]; simp; omega
      · obtain ⟨X, rfl⟩ : ∃ X, σ = [X] := List.length_eq_one_iff.1 (by omega)
        have hlt : unitRank g X < unitRank g (g.rule r).lhs :=
          unitRank_lt hi hc ⟨r, [], ν, hr, rfl, by simpa using hσ, .refl _, hν.derives⟩
        have hle := unitRank_le (g := g) (g.rule r).lhs
        refine ihk _ ?_ _ _ _ ?_ rfl rfl .nil
        · rw [← hk, e1]
          simp only [lastRank, List.getLast?_append, List.getLast?_singleton, Option.some_or, Option.map_some, Option.getD_some]
          omega
        · rw [← hL, e1]; simp
  have := key _ _ _ γ [] rfl rfl rfl .nil
  simpa using this

/-- Without hidden left recursion -/
theorem acc_noHidden (hi : GInv g) (hc : NoCycle g) (hh : NoHidden g) (γ : List SymbolId) : Acc (fun γ' γ => ∃ r, g.Red γ γ' r) γ := by
  have := acc_ranked hi hc (fun _ => True) (maxLen g + maxLen g * g.syms.length + maxLen g) (by
    intro γ c δ ν hv _ he hn
    have h1 := viable_bound hi hh hv he hn
    have hdot : c.dot ≤ maxLen g := ((viable_prefix hv).choose_spec.2.1).trans (rhs_le_maxLen hv.rule)
    have : maxLen g * (g.syms.length - leftRank g (g.rule c.rule).lhs) ≤ maxLen g * g.syms.length := Nat.mul_le_mul_left _ (by omega)
    omega) γ
  simpa using this

/-- With a limit on the stack -/
theorem acc_limit (hi : GInv g) (hc : NoCycle g) (N : Nat) (γ : List SymbolId) : Acc (fun γ' γ => ∃ r, g.Red γ γ' r ∧ γ'.length < N) γ :=
  acc_ranked hi hc (fun γ => γ.length < N) N (by
    intro γ c δ ν _ h e _
    rw [e, List.length_append] at h
    omega) γ

/-! ## The loop -/

section
variable {V X E : Type} {ord : List (SymbolId × SymbolId) → List (SymbolId × SymbolId)} {ds : List Decl} {t : Tables} {s : CSpec ord ds t} {dflt : SymbolId}

theorem Made.loop_ends (m : Made s dflt) (ho : OrdOk ord) (hA : apart ord ds = true) (sem : Sem V X E) {a : SymbolId} (ha : a < s.g.syms.length)
    (hk : (s.g.sym a).kind = .terminal) (mn : Minor V) {γ : List SymbolId}
    (hacc : Acc (fun γ' γ => ∃ r, s.g.Red γ γ' r ∧ (t.stackLimit = 0 ∨ γ'.length < t.stackLimit)) γ) :
    ∀ {p : Parser V X} {q : StateId}, Stk s p.stack γ q → ∃ fuel r, loop t sem (s.g.sym a).index mn fuel p = some r := by
  induction hacc with
  | intro γ _ ih =>
  intro p q hs
  have hone : ∀ r, step t sem p (s.g.sym a).index mn = .done r → ∃ fuel r, loop t sem (s.g.sym a).index mn fuel p = some r := by
    intro r hr
    refine ⟨1, ?_⟩
    cases hst : p.status with
    | normal => exact ⟨r, by simp [loop, hst, hr]⟩
    | failed => exact ⟨_, by simp [loop, hst]; rfl⟩
    | accepted v => exact ⟨_, by simp [loop, hst]; rfl⟩
  obtain ⟨top, rest, _, _, hcase⟩ := m.step_stk ho hA sem hs ha hk mn
  rcases hcase with ⟨w, _, h⟩ | ⟨k, Y, b, _, _, _, _, _, h⟩ | ⟨r, b, _, hcr, _, h⟩ | ⟨_, h⟩
  · exact hone _ h
  · rcases h with ⟨_, _, _, h⟩ | ⟨_, h⟩ <;> exact hone _ h
  · rcases h with ⟨w, _, h⟩ | ⟨_, _, _, h⟩ | ⟨p1, h1, h⟩
    · exact hone _ h
    · exact hone _ h
    · have hr := (canReduce_rule m.inv m.auto hcr).2.2
      obtain ⟨rc, hrc, htc, hpl, hcase⟩ := m.reduce_stk sem hs hr
      rcases hcase with ⟨_, e⟩ | ⟨vs, hvs, hcase⟩
      · rw [e] at h1; cases h1
      rcases hcase with ⟨e, x, _, e'⟩ | ⟨v, x, γ0, q0, hrun, hγ, hs0, hcase⟩
      · rw [e'] at h1; cases h1
      -- the loop goes on with `p1`
      have hgo : (∃ fuel r, loop t sem (s.g.sym a).index mn fuel p1 = some r) → ∃ fuel r, loop t sem (s.g.sym a).index mn fuel p = some r := by
        rintro ⟨fuel, r', hl⟩
        cases hst : p.status with
        | normal => exact ⟨fuel + 1, r', by simp only [loop, hst, h]; exact hl⟩
        | failed => exact ⟨1, _, by simp [loop, hst]; rfl⟩
        | accepted v => exact ⟨1, _, by simp [loop, hst]; rfl⟩
      refine hgo ?_
      rcases hcase with ⟨_, _, _, e⟩ | ⟨k, hk2, e⟩
      · -- accepted
        rw [h1] at e
        have : ∃ v, p1.status = .accepted v := by
          unfold accept at e
          split at e
          · split at e
            · cases e; exact ⟨_, rfl⟩
            · cases e
          · cases e; exact ⟨_, rfl⟩
        obtain ⟨v, hv⟩ := this
        exact ⟨1, _, by simp [loop, hv]; rfl⟩
      · rw [h1] at e
        rcases shift_cases t sem { p with stack := p.stack.drop rc.pats.length, extra := x, trace := .reduce r vs :: p.trace } (s.num k) (s.g.sym (s.g.rule r).lhs).index ⟨rc.lhsDt, v⟩ with ⟨_, _, e'⟩ | ⟨hlim, e'⟩
        · rw [e'] at e; cases e
        · rw [e'] at e
          cases e
          have hrl := m.auto.item_rule m.inv (Path.lt m.auto hs.path) hr
          obtain ⟨c, hc1, hc2⟩ := hk2.some
          have hlen := hs0.length
          simp only at hlim
          refine ih (γ0 ++ [(s.g.rule r).lhs]) ⟨r, ⟨γ0, c, hγ, (path_items m.inv m.auto hs.path _).1 hr, rfl, (path_items m.inv m.auto hs0.path c).1 hc1, hc2⟩, ?_⟩ (q := k)
            (.push hs0 hk2 rfl (.inl ⟨(m.inv.lhs r hrl).2.1, rfl⟩))
          rcases hlim with h | h
          · exact .inl h
          · right
            rw [hlen] at h
            simpa using h
  · exact hone _ h

end

end Pomelo
