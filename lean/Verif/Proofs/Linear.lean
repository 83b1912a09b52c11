import Verif.Proofs.Stops
import Verif.Proofs.RunCalls
import Verif.Spec.Linear
/-! # A bound for the number of reductions -/

namespace Pomelo

open Spec

variable {g : Grammar}

/-! ## A potential that every reduction lowers -/

/-- The weight of the symbols that vanish on the top -/
def pot1 (g : Grammar) (B : Nat) : Nat := (g.syms.length + 2) ^ B + 1
/-- The weight of a symbol of the base -/
def pot2 (g : Grammar) (B : Nat) : Nat := (g.syms.length + 1) * pot1 g B

/-- The potential of a stack with base `δ`, on which `ν` has been built from nothing -/
noncomputable def pot (g : Grammar) (B : Nat) (δ ν : List SymbolId) : Nat :=
  δ.length * pot2 g B + (g.syms.length - lastRank (unitRank g) δ) * pot1 g B +
    ((g.syms.length + 2) ^ B - digits (g.syms.length + 2) (unitRank g) B ν)

theorem lastRank_le (δ : List SymbolId) : lastRank (unitRank g) δ ≤ g.syms.length := by
  unfold lastRank
  cases δ.getLast? with
  | none => simp
  | some X => exact unitRank_le X

/-- The part of the potential that is not due to the length of the base -/
theorem pot_lt (B : Nat) (δ ν : List SymbolId) : pot g B δ ν < δ.length * pot2 g B + pot2 g B := by
  unfold pot
  rw [Nat.add_assoc]
  refine Nat.add_lt_add_left ?_ _
  have h1 : (g.syms.length - lastRank (unitRank g) δ) * pot1 g B ≤ g.syms.length * pot1 g B := Nat.mul_le_mul_right _ (Nat.sub_le _ _)
  have h2 : (g.syms.length + 2) ^ B - digits (g.syms.length + 2) (unitRank g) B ν < pot1 g B := by unfold pot1; omega
  have h3 : pot2 g B = g.syms.length * pot1 g B + pot1 g B := by unfold pot2; rw [Nat.succ_mul]
  omega

theorem pot_ge (B : Nat) (δ ν : List SymbolId) : δ.length * pot2 g B ≤ pot g B δ ν := by
  unfold pot; omega

theorem red_pot (hi : GInv g) (hc : NoCycle g) (P : List SymbolId → Prop) (B : Nat)
    (hB : ∀ {γ : List SymbolId} {c : Item} {δ ν : List SymbolId}, Viable g γ c → P γ → γ = δ ++ ν → g.Null ν → ν.length ≤ B)
    {δ ν γ' : List SymbolId} {r : RuleId} (hν : g.Null ν) (h : g.Red (δ ++ ν) γ' r) (hP : P γ') :
    ∃ δ' ν', γ' = δ' ++ ν' ∧ g.Null ν' ∧ ν'.length ≤ B ∧ pot g B δ' ν' < pot g B δ ν := by
  have hu : ∀ X, unitRank g X + 2 ≤ g.syms.length + 2 := fun X => Nat.add_le_add_right (unitRank_le X) 2
  obtain ⟨δ1, c, e, hv, rfl, hvc, hd⟩ := h
  have hr := hv.rule
  by_cases hlen : (g.rhsSyms r).length ≤ ν.length
  · -- above the base
    obtain ⟨ν0, hν0⟩ : ∃ ν0, ν = ν0 ++ g.rhsSyms r := by
      obtain ⟨x, hx⟩ := List.suffix_of_suffix_length_le (⟨δ1, e.symm⟩ : _ <:+ δ ++ ν) (List.suffix_append δ ν) hlen
      exact ⟨x, hx.symm⟩
    subst hν0
    rw [← List.append_assoc] at e
    obtain ⟨e1, _⟩ := List.append_inj' e rfl
    obtain ⟨n1, n2⟩ := hν.split
    have hν' : g.Null (ν0 ++ [(g.rule r).lhs]) := n1.append (.cons hr n2 .nil)
    have hle := hB (Viable.shift hvc hd) hP (by rw [← e1, List.append_assoc]) hν'
    have hup := digits_up hu (A := (g.rule r).lhs) (ρ := g.rhsSyms r) (by
      intro X ρ' he
      rw [he] at n2
      exact unitRank_lt hi hc ⟨r, [], ρ', hr, rfl, by simp [he], .refl _, (Grammar.Null.split (α := [X]) n2).2.derives⟩) ν0 hle
    have hlt := digits_lt hu B (ν0 ++ [(g.rule r).lhs])
    refine ⟨δ, ν0 ++ [(g.rule r).lhs], by rw [← e1, List.append_assoc], hν', hle, ?_⟩
    unfold pot
    omega
  · -- into the base
    have hlen' : ν.length ≤ (g.rhsSyms r).length := by omega
    obtain ⟨σ, hσ⟩ : ∃ σ, g.rhsSyms r = σ ++ ν := by
      obtain ⟨x, hx⟩ := List.suffix_of_suffix_length_le (List.suffix_append δ ν) (⟨δ1, e.symm⟩ : _ <:+ δ ++ ν) hlen'
      exact ⟨x, hx.symm⟩
    rw [hσ, ← List.append_assoc] at e
    obtain ⟨e1, _⟩ := List.append_inj' e rfl
    have hσl : σ.length ≠ 0 := by
      intro h0
      rw [hσ, List.length_append] at hlen
      omega
    refine ⟨δ1 ++ [(g.rule r).lhs], [], by simp, .nil, Nat.zero_le _, ?_⟩
    by_cases h2 : 2 ≤ σ.length
    · refine Nat.lt_of_lt_of_le (pot_lt B _ _) ((?_ : _ ≤ _).trans (pot_ge B δ ν))
      rw [← Nat.succ_mul]
      refine Nat.mul_le_mul_right _ ?_
      rw [e1]; simp; omega
    · obtain ⟨X, rfl⟩ : ∃ X, σ = [X] := List.length_eq_one_iff.1 (by omega)
      have hlt : unitRank g X < unitRank g (g.rule r).lhs :=
        unitRank_lt hi hc ⟨r, [], ν, hr, rfl, by simpa using hσ, .refl _, hν.derives⟩
      have hle := unitRank_le (g := g) (g.rule r).lhs
      subst e1
      unfold pot
      simp only [lastRank, List.getLast?_append, List.getLast?_singleton, Option.some_or, Option.map_some, Option.getD_some, List.length_append, List.length_singleton]
      have h3 : (g.syms.length - unitRank g (g.rule r).lhs) * pot1 g B + pot1 g B ≤ (g.syms.length - unitRank g X) * pot1 g B := by
        rw [← Nat.succ_mul]
        exact Nat.mul_le_mul_right _ (by omega)
      have h4 : (g.syms.length + 2) ^ B - digits (g.syms.length + 2) (unitRank g) B [] < pot1 g B := by unfold pot1; omega
      omega

/-! ## What the reactions to an error leave unchanged -/

section
variable {V X E : Type} {t : Tables} {sem : Sem V X E}

theorem syntaxError_red {p p' : Parser V X} {major : Nat} {m : Minor V} {ex : List Nat} (h : (syntaxError t sem p major m ex).parser? = some p') :
    reductions p'.trace = reductions p.trace ∧ p'.stack = p.stack := by
  unfold syntaxError at h
  simp only at h
  split at h <;> cases h <;> exact ⟨rfl, rfl⟩

theorem shift_red {p p' : Parser V X} {st major : Nat} {m : Minor V} (h : (shift t sem p st major m).parser? = some p') :
    reductions p'.trace = reductions p.trace ∧ p'.stack.length ≤ p.stack.length + 1 := by
  rcases shift_cases t sem p st major m with ⟨_, _, e⟩ | ⟨_, e⟩
  · rw [e] at h; cases h; exact ⟨rfl, Nat.le_succ _⟩
  · rw [e] at h; cases h; exact ⟨rfl, Nat.le_refl _⟩

theorem recover_red {major : Nat} {m : Minor V} {ex : List Nat} : ∀ {stk : List (Entry V)} {p p' : Parser V X},
    (recover t sem major m ex stk p).parser? = some p' → reductions p'.trace = reductions p.trace ∧ p'.stack.length ≤ stk.length + 1 := by
  intro stk
  induction stk with
  | nil => intro p p' h; cases h; exact ⟨rfl, Nat.zero_le _⟩
  | cons top rest ih =>
    intro p p' h
    unfold recover at h
    split at h
    · cases h; exact ⟨rfl, Nat.le_succ _⟩
    · split at h
      · cases h
      · split at h
        · split at h
          · cases h
          · rename_i he
            cases h
            have := syntaxError_red (sem := sem) (p := { p with stack := top :: rest }) (major := major) (m := m) (ex := ex) (by rw [he]; rfl)
            exact ⟨this.1, by rw [this.2]; exact Nat.le_succ _⟩
          · rename_i p1 e he
            have h1 := syntaxError_red (sem := sem) (p := { p with stack := top :: rest }) (major := major) (m := m) (ex := ex) (by rw [he]; rfl)
            have h2 := shift_red h
            exact ⟨h2.1.trans h1.1, by rw [h1.2] at h2; exact h2.2⟩
        · have := ih h
          exact ⟨this.1, by simp only [List.length_cons]; omega⟩

theorem onError_red {p p' : Parser V X} {top : Entry V} {major : Nat} {m : Minor V} (h : (onError t sem p top major m).parser? = some p') :
    reductions p'.trace = reductions p.trace ∧ p'.stack.length ≤ p.stack.length + 1 := by
  unfold onError at h
  split at h
  · cases h; exact ⟨rfl, Nat.zero_le _⟩
  · split at h
    · cases h
    · split at h
      · split at h
        · cases h
        · rename_i he; cases h; exact recover_red (by rw [he]; rfl)
        · rename_i p1 he
          have h1 := recover_red (sem := sem) (p' := p1) (by rw [he]; rfl)
          split at h
          · cases h; exact ⟨h1.1, Nat.zero_le _⟩
          · cases h; exact h1
      · split at h
        · split at h
          · cases h
          · rename_i he; cases h
            have := syntaxError_red (by rw [he]; rfl)
            exact ⟨this.1, by rw [this.2]; exact Nat.le_succ _⟩
          · rename_i p1 v he; cases h
            have := syntaxError_red (by rw [he]; rfl)
            exact ⟨this.1, by simp only; rw [this.2]; exact Nat.le_succ _⟩
        · cases h; exact ⟨rfl, Nat.le_succ _⟩

end

/-! ## The loop -/

section
variable {V X E : Type} {ord : List (SymbolId × SymbolId) → List (SymbolId × SymbolId)} {ds : List Decl} {t : Tables} {s : CSpec ord ds t} {dflt : SymbolId}

theorem pot_pos (B : Nat) (δ ν : List SymbolId) : 0 < pot g B δ ν := by
  have hu : ∀ X, unitRank g X + 2 ≤ g.syms.length + 2 := fun X => Nat.add_le_add_right (unitRank_le X) 2
  have := digits_lt hu B ν
  unfold pot; omega

theorem accept_red {sem : Sem V X E} {p p' : Parser V X} {m : Minor V} (h : (accept t sem p m).parser? = some p') :
    p'.trace = p.trace ∧ ∃ v, p'.status = .accepted v := by
  unfold accept at h
  split at h
  · split at h
    · cases h; exact ⟨rfl, _, rfl⟩
    · cases h
  · cases h; exact ⟨rfl, _, rfl⟩

theorem reductions_cons_reduce {V : Type} (r : RuleId) (vs : List V) (l : List (Event V)) : reductions (.reduce r vs :: l) = reductions l + 1 := by
  unfold reductions; simp

/-- What a call may leave behind, starting with potential `k` -/
def Within (B c n0 k : Nat) (r : Res V X E Unit) : Prop :=
  ∀ p', r.parser? = some p' → reductions p'.trace ≤ n0 + k ∧
    (r = .ok p' () → p'.status = .normal → reductions p'.trace + p'.stack.length * c ≤ n0 + k + (B + 2) * c)

theorem Within.of_len {B c n0 k L : Nat} {r : Res V X E Unit} (hk : 0 < k) (hL : L * c ≤ k) (h : ∀ p', r.parser? = some p' → reductions p'.trace = n0 ∧ p'.stack.length ≤ L + B + 2) :
    Within B c n0 k r := by
  intro p' hp
  obtain ⟨h1, h2⟩ := h p' hp
  refine ⟨by omega, fun _ _ => ?_⟩
  have : p'.stack.length * c ≤ (L + B + 2) * c := Nat.mul_le_mul_right _ h2
  rw [show L + B + 2 = L + (B + 2) by omega, Nat.add_mul] at this
  omega

theorem Made.loop_bound (m : Made s dflt) (ho : OrdOk ord) (hA : apart ord ds = true) (sem : Sem V X E) {a : SymbolId} (ha : a < s.g.syms.length)
    (hk : (s.g.sym a).kind = .terminal) (mn : Minor V) (hcy : NoCycle s.g) (B : Nat)
    (hB : ∀ {γ : List SymbolId} {c : Item} {δ ν : List SymbolId}, Viable s.g γ c → (t.stackLimit = 0 ∨ γ.length < t.stackLimit) → γ = δ ++ ν → s.g.Null ν → ν.length ≤ B) :
    ∀ (k : Nat) {p : Parser V X} {δ ν : List SymbolId} {q : StateId}, pot s.g B δ ν ≤ k → s.g.Null ν → ν.length ≤ B → p.status = .normal → Stk s p.stack (δ ++ ν) q →
      ∃ r, (∀ fuel, k < fuel → loop t sem (s.g.sym a).index mn fuel p = some r) ∧ Within B (pot2 s.g B) (reductions p.trace) k r := by
  intro k
  induction k with
  | zero => intro p δ ν q hp; have := pot_pos (g := s.g) B δ ν; omega
  | succ k ih =>
  intro p δ ν q hpot hν hνB hst hs
  have hL := (pot_ge (g := s.g) B δ ν).trans hpot
  have hlen : p.stack.length ≤ δ.length + B + 1 := by
    have := hs.length
    rw [List.length_append] at this
    omega
  have hone : ∀ r, step t sem p (s.g.sym a).index mn = .done r →
      (∀ p', r.parser? = some p' → reductions p'.trace = reductions p.trace ∧ p'.stack.length ≤ p.stack.length + 1) →
      ∃ r, (∀ fuel, k + 1 < fuel → loop t sem (s.g.sym a).index mn fuel p = some r) ∧ Within B (pot2 s.g B) (reductions p.trace) (k + 1) r := by
    intro r hr hp
    refine ⟨r, fun fuel hf => ?_, .of_len (Nat.succ_pos _) hL fun p' h' => ⟨(hp p' h').1, ?_⟩⟩
    · obtain ⟨f, rfl⟩ : ∃ f, fuel = f + 1 := ⟨fuel - 1, by omega⟩
      simp [loop, hst, hr]
    · have := (hp p' h').2
      omega
  obtain ⟨top, rest, hstk, _, hcase⟩ := m.step_stk ho hA sem hs ha hk mn
  rcases hcase with ⟨w, _, h⟩ | ⟨k', Y, b, _, _, _, _, _, h⟩ | ⟨r, b, _, hcr, _, h⟩ | ⟨_, h⟩
  · exact hone _ h (by intro p' h'; cases h')
  · rcases h with ⟨p1, e, h1, h⟩ | ⟨_, h⟩
    · refine hone _ h (fun p' h' => ?_)
      exact shift_red (sem := sem) (by rw [h1]; exact h')
    · refine hone _ h (fun p' h' => ?_)
      cases h'
      exact ⟨rfl, by simp⟩
  · have hr := (canReduce_rule m.inv m.auto hcr).2.2
    obtain ⟨rc, hrc, htc, hpl, hcase⟩ := m.reduce_stk sem hs hr
    rcases h with ⟨w, _, h⟩ | ⟨p1, e1, h1, h⟩ | ⟨p1, h1, h⟩
    · exact hone _ h (by intro p' h'; cases h')
    · -- the block or the push fails
      refine ⟨.err p1 e1, fun fuel hf => ?_, fun p' h' => ⟨?_, by intro h; cases h⟩⟩
      · obtain ⟨f, rfl⟩ : ∃ f, fuel = f + 1 := ⟨fuel - 1, by omega⟩
        simp only [loop, hst, h]
      · cases h'
        have : reductions p1.trace = reductions p.trace + 1 := by
          rcases hcase with ⟨_, e⟩ | ⟨vs, hvs, hcase⟩
          · rw [e] at h1; cases h1
          rcases hcase with ⟨e, x, _, e'⟩ | ⟨v, x, γ0, q0, hrun, hγ, hs0, hcase⟩
          · rw [e'] at h1; cases h1; exact reductions_cons_reduce _ _ _
          rcases hcase with ⟨_, _, _, e⟩ | ⟨k', hk2, e⟩
          · have := (accept_red (p' := p1) (by rw [← e, h1]; rfl)).1
            rw [this]; exact reductions_cons_reduce _ _ _
          · have := (shift_red (p' := p1) (by rw [← e, h1]; rfl)).1
            rw [this]; exact reductions_cons_reduce _ _ _
        omega
    · rcases hcase with ⟨_, e⟩ | ⟨vs, hvs, hcase⟩
      · rw [e] at h1; cases h1
      rcases hcase with ⟨e, x, _, e'⟩ | ⟨v, x, γ0, q0, hrun, hγ, hs0, hcase⟩
      · rw [e'] at h1; cases h1
      rcases hcase with ⟨_, _, _, e⟩ | ⟨k', hk2, e⟩
      · -- accepted
        obtain ⟨e1, v', e2⟩ := accept_red (p' := p1) (by rw [← e, h1]; rfl)
        refine ⟨.ok p1 (), fun fuel hf => ?_, fun p' h' => ?_⟩
        · obtain ⟨f, rfl⟩ : ∃ f, fuel = f + 2 := ⟨fuel - 2, by omega⟩
          simp only [loop, hst, h, e2]
        · cases h'
          refine ⟨?_, by intro _ h; rw [e2] at h; cases h⟩
          rw [e1]
          simp only [reductions_cons_reduce]
          omega
      · rw [h1] at e
        rcases shift_cases t sem { p with stack := p.stack.drop rc.pats.length, extra := x, trace := .reduce r vs :: p.trace } (s.num k') (s.g.sym (s.g.rule r).lhs).index ⟨rc.lhsDt, v⟩ with ⟨_, _, e'⟩ | ⟨hlim, e'⟩
        · rw [e'] at e; cases e
        · rw [e'] at e
          cases e
          have hrl := m.auto.item_rule m.inv (Path.lt m.auto hs.path) hr
          obtain ⟨c, hc1, hc2⟩ := hk2.some
          have hlen := hs0.length
          simp only at hlim
          have hP : t.stackLimit = 0 ∨ (γ0 ++ [(s.g.rule r).lhs]).length < t.stackLimit := by
            rcases hlim with h | h
            · exact .inl h
            · right
              rw [hlen] at h
              simpa using h
          obtain ⟨δ', ν', hγ', hn', hl', hlt⟩ := red_pot m.inv hcy _ B hB hν
            ⟨γ0, c, hγ, (path_items m.inv m.auto hs.path _).1 hr, rfl, (path_items m.inv m.auto hs0.path c).1 hc1, hc2⟩ hP
          have hs1 : Stk s (⟨s.num k', (s.g.sym (s.g.rule r).lhs).index, ⟨rc.lhsDt, v⟩⟩ :: p.stack.drop rc.pats.length) (δ' ++ ν') k' := by
            rw [← hγ']
            exact .push hs0 hk2 rfl (.inl ⟨(m.inv.lhs r hrl).2.1, rfl⟩)
          obtain ⟨r', h2, h3⟩ := ih (p := { p with stack := ⟨s.num k', (s.g.sym (s.g.rule r).lhs).index, ⟨rc.lhsDt, v⟩⟩ :: p.stack.drop rc.pats.length, extra := x, trace := .reduce r vs :: p.trace })
            (δ := δ') (ν := ν') (by omega) hn' hl' hst hs1
          refine ⟨r', fun fuel hf => ?_, fun p' h' => ?_⟩
          · obtain ⟨f, rfl⟩ : ∃ f, fuel = f + 1 := ⟨fuel - 1, by omega⟩
            have h4 := h2 f (by omega)
            simp only [hst] at h4
            simp only [loop, hst, h]
            exact h4
          · have := h3 p' h'
            simp only [reductions_cons_reduce] at this
            exact ⟨by omega, fun h4 h5 => by have := this.2 h4 h5; omega⟩
  · exact hone _ h (fun p' h' => onError_red h')

end

end Pomelo
