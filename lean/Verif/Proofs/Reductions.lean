import Verif.Proofs.Unique
import Verif.Proofs.Stack
import Verif.Proofs.Flat
import Mathlib.Order.OrderIsoNat
import Mathlib.Data.Finset.Lattice.Fold
/-! # Sequences of reductions of a grammar without conflicts end -/

namespace Pomelo

open Spec

variable {g : Grammar}

/-! ## Empty derivations and first tokens, by induction on the derivation tree -/

/-- The symbols derive the empty string. -/
inductive Grammar.Null (g : Grammar) : List SymbolId → Prop
  | nil : g.Null []
  | cons {r β} : r < g.rules.length → g.Null (g.rhsSyms r) → g.Null β → g.Null ((g.rule r).lhs :: β)

/-- The token number may begin what the symbols derive. -/
inductive Grammar.Starts (g : Grammar) : List SymbolId → Nat → Prop
  | read {X a β} : Reads g X a → g.Starts (X :: β) (g.sym a).index
  | rule {r β n} : r < g.rules.length → g.Starts (g.rhsSyms r) n → g.Starts ((g.rule r).lhs :: β) n
  | skip {X β n} : g.Null [X] → g.Starts β n → g.Starts (X :: β) n

theorem Grammar.Null.derives {α : List SymbolId} (h : g.Null α) : Derives g α [] := by
  induction h with
  | nil => exact .refl _
  | cons hr _ _ ih1 ih2 => exact ((Derives.rule hr).trans ih1).append ih2

theorem Grammar.Null.append {α β : List SymbolId} (h : g.Null α) (h' : g.Null β) : g.Null (α ++ β) := by
  induction h with
  | nil => exact h'
  | cons hr h1 _ _ ih2 => exact .cons hr h1 ih2

theorem Grammar.Null.split {α β : List SymbolId} (h : g.Null (α ++ β)) : g.Null α ∧ g.Null β := by
  induction α with
  | nil => exact ⟨.nil, h⟩
  | cons x α ih =>
    cases h with
    | cons hr h1 h2 => exact ⟨.cons hr h1 (ih h2).1, (ih h2).2⟩

theorem null_of_derives {α : List SymbolId} (h : Derives g α []) : g.Null α := by
  induction h using Relation.ReflTransGen.head_induction_on with
  | refl => exact .nil
  | head h _ ih =>
    obtain ⟨u, v, r, hr, rfl, rfl⟩ := h
    obtain ⟨h1, h2⟩ := ih.split
    obtain ⟨h0, h1⟩ := h1.split
    exact h0.append (.cons hr h1 h2)

theorem Grammar.Starts.begins {α : List SymbolId} {n : Nat} (h : g.Starts α n) : Begins g α n := by
  induction h with
  | @read X a β h => exact ⟨a, X, β, rfl, .refl _, h⟩
  | @rule r β n hr _ ih =>
    obtain ⟨a, X, δ, h1, h2, h3⟩ := ih
    exact ⟨a, X, δ ++ β, h1, ((Derives.rule hr).trans h2).append_right β, h3⟩
  | @skip X β n h0 _ ih =>
    obtain ⟨a, Y, δ, h1, h2, h3⟩ := ih
    exact ⟨a, Y, δ, h1, h0.derives.append h2, h3⟩

theorem Grammar.Starts.split {α β : List SymbolId} {n : Nat} (h : g.Starts (α ++ β) n) : g.Starts α n ∨ (g.Null α ∧ g.Starts β n) := by
  induction α with
  | nil => exact .inr ⟨.nil, h⟩
  | cons x α ih =>
    cases h with
    | read h => exact .inl (.read h)
    | rule hr h => exact .inl (.rule hr h)
    | skip h0 h =>
      rcases ih h with h | ⟨h1, h2⟩
      · exact .inl (.skip h0 h)
      · exact .inr ⟨h0.append h1, h2⟩

theorem Grammar.Starts.left {α : List SymbolId} {n : Nat} (h : g.Starts α n) (β : List SymbolId) : g.Starts (α ++ β) n := by
  induction h with
  | read h => exact .read h
  | rule hr h _ => exact .rule hr h
  | skip h0 _ ih => exact .skip h0 ih

theorem Grammar.Null.starts {α β : List SymbolId} {n : Nat} (h : g.Null α) (h' : g.Starts β n) : g.Starts (α ++ β) n := by
  induction h with
  | nil => exact h'
  | cons hr h1 _ _ ih2 => exact .skip (.cons hr h1 .nil) ih2

theorem Grammar.Starts.rewrite {α β : List SymbolId} {n : Nat} (h : Rewrites g α β) (h' : g.Starts β n) : g.Starts α n := by
  obtain ⟨u, v, r, hr, rfl, rfl⟩ := h
  rw [List.append_assoc] at h'
  rcases h'.split with h | ⟨h0, h⟩
  · exact h.left _
  · rcases h.split with h | ⟨h1, h⟩
    · exact h0.starts (.rule hr h)
    · exact h0.starts (.skip (.cons hr h1 .nil) h)

theorem starts_of_begins {α : List SymbolId} {n : Nat} (h : Begins g α n) : g.Starts α n := by
  obtain ⟨a, X, β, rfl, h, hr⟩ := h
  induction h using Relation.ReflTransGen.head_induction_on with
  | refl => exact .read hr
  | head h _ ih => exact ih.rewrite h

/-! ## Lookaheads -/

/-- What comes after the dot -/
def rest (g : Grammar) (c : Item) : List SymbolId := (g.rhsSyms c.rule).drop c.dot

theorem rest_of_atDot {c : Item} {X : SymbolId} (h : atDot g c = some X) : rest g c = X :: behind g c := by
  unfold rest behind
  obtain ⟨hl, he⟩ := List.getElem?_eq_some_iff.1 h
  rw [List.drop_eq_getElem_cons hl, he]

theorem atDot_of_rest {c : Item} {X : SymbolId} {β : List SymbolId} (h : rest g c = X :: β) : atDot g c = some X ∧ behind g c = β := by
  unfold rest at h
  have h1 : atDot g c = some X := by
    unfold atDot
    have := congrArg List.head? h
    rwa [List.head?_drop] at this
  refine ⟨h1, ?_⟩
  have := rest_of_atDot h1
  unfold rest at this
  rw [h] at this
  exact (List.cons.inj this).2.symm

theorem rest_zero (r : RuleId) : rest g ⟨r, 0⟩ = g.rhsSyms r := rfl
theorem rest_full (r : RuleId) : rest g ⟨r, (g.rhsSyms r).length⟩ = [] := by simp [rest]

/-- Reading the rest of the right-hand side -/
theorem ahead_whole {γ : List SymbolId} {c : Item} {n : Nat} (h : Ahead g γ c n) :
    Ahead g (γ ++ rest g c) ⟨c.rule, (g.rhsSyms c.rule).length⟩ n := by
  have hle : c.dot ≤ (g.rhsSyms c.rule).length := (viable_prefix h.viable).choose_spec.2.1
  generalize hα : rest g c = α
  induction α generalizing γ c with
  | nil =>
    have : c.dot = (g.rhsSyms c.rule).length := by
      unfold rest at hα
      have := List.drop_eq_nil_iff.1 hα
      omega
    rw [← this]; simpa using h
  | cons X α ih =>
    obtain ⟨h1, h2⟩ := atDot_of_rest hα
    have := ih (.shift h h1) (List.getElem?_eq_some_iff.1 h1).1 h2
    simpa using this

/-- Every item has a lookahead. -/
theorem ahead_exists (hv : NoVoid g) {γ : List SymbolId} {c : Item} (h : Viable g γ c) : ∃ n, Ahead g γ c n := by
  induction h with
  | start h => exact ⟨0, .start h⟩
  | @close γ c A r h1 h2 h3 ih =>
    have hb : (∃ n, Begins g (behind g c) n) ∨ Derives g (behind g c) [] :=
      begins_or_nil (fun X hX => hv c.rule h1.rule X (List.mem_of_mem_drop hX))
    rcases hb with ⟨n, hb⟩ | hb
    · exact ⟨n, .first h1 h2 h3 hb⟩
    · obtain ⟨n, ih⟩ := ih
      exact ⟨n, .pass ih h2 h3 hb⟩
  | shift _ h2 ih => obtain ⟨n, ih⟩ := ih; exact ⟨n, .shift ih h2⟩

/-- What may begin the rest of an item after `A` is a lookahead of the rules of `A` before it. -/
theorem ahead_of_begins {γ δ : List SymbolId} {A : SymbolId} {c : Item} {n : Nat} (h : Viable g γ c) (hγ : γ = δ ++ [A]) (hb : g.Starts (rest g c) n)
    {r : RuleId} (hr : RuleOf g A r) : Ahead g δ ⟨r, 0⟩ n := by
  induction h with
  | start _ => simp at hγ
  | @close γ c B r' h1 h2 h3 ih =>
    rw [rest_zero] at hb
    refine ih hγ ?_
    rw [rest_of_atDot h2, ← h3.2]
    exact .rule h3.1 hb
  | @shift γ c X h1 h2 _ =>
    obtain ⟨rfl, e⟩ := List.append_inj' hγ rfl
    cases e
    exact .first h1 h2 hr (Grammar.Starts.begins hb)

/-- A lookahead of an item whose rest may vanish, after `A`, is a lookahead of the rules of `A`. -/
theorem ahead_back {γ δ : List SymbolId} {A : SymbolId} {c : Item} {n : Nat} (h : Ahead g γ c n) (hγ : γ = δ ++ [A]) (hb : g.Null (rest g c))
    {r : RuleId} (hr : RuleOf g A r) : Ahead g δ ⟨r, 0⟩ n := by
  induction h with
  | start _ => simp at hγ
  | @first γ c B r' n h1 h2 h3 h4 =>
    rw [rest_zero] at hb
    refine ahead_of_begins h1 hγ ?_ hr
    rw [rest_of_atDot h2, ← h3.2]
    exact .skip (.cons h3.1 hb .nil) (starts_of_begins h4)
  | @pass γ c B r' n h1 h2 h3 h4 ih =>
    rw [rest_zero] at hb
    refine ih hγ ?_
    rw [rest_of_atDot h2, ← h3.2]
    exact .cons h3.1 hb (null_of_derives h4)
  | @shift γ c X n h1 h2 _ =>
    obtain ⟨rfl, e⟩ := List.append_inj' hγ rfl
    cases e
    exact .pass h1 h2 hr (Grammar.Null.derives hb)

/-! ## Reductions -/

/-- A rule complete at the end of `γ`, not the last one of a parse, is replaced by its left side. -/
def Grammar.Red (g : Grammar) (γ γ' : List SymbolId) (r : RuleId) : Prop :=
  ∃ δ c, γ = δ ++ g.rhsSyms r ∧ Viable g γ ⟨r, (g.rhsSyms r).length⟩ ∧ γ' = δ ++ [(g.rule r).lhs] ∧
    Viable g δ c ∧ atDot g c = some (g.rule r).lhs

/-- The same, when `n` is a lookahead of the rule. -/
def Grammar.RedOn (g : Grammar) (n : Nat) (γ' γ : List SymbolId) : Prop :=
  ∃ r, g.Red γ γ' r ∧ Ahead g γ ⟨r, (g.rhsSyms r).length⟩ n

theorem red_back {γ γ' : List SymbolId} {r r' : RuleId} {n : Nat} (h : g.Red γ γ' r) (h' : Ahead g γ' ⟨r', (g.rhsSyms r').length⟩ n) :
    Ahead g γ ⟨r, (g.rhsSyms r).length⟩ n := by
  obtain ⟨δ, c, rfl, hv, rfl, _⟩ := h
  have := ahead_back h' rfl (by rw [rest_full]; exact .nil) (r := r) ⟨hv.rule, rfl⟩
  exact ahead_whole this

/-- A token that a symbol of a right-hand side is read as -/
theorem reads_terminal (hi : GInv g) (hfl : g.Flat) {r : RuleId} (hr : r < g.rules.length) {X a : SymbolId} (hX : X ∈ g.rhsSyms r) (h : Reads g X a) :
    a < g.syms.length ∧ (g.sym a).kind = .terminal := by
  have hl := (hi.rhs r hr X hX).1
  unfold Reads at h
  split at h
  · rename_i hk; subst h; exact ⟨hl, hk⟩
  · exact ⟨(hi.subs X hl a h).1, hfl r hr X hX a h⟩
  · exact h.elim

theorem starts_tokIdx (hi : GInv g) (hfl : g.Flat) {α : List SymbolId} {n : Nat} (h : g.Starts α n)
    (hα : ∀ X ∈ α, ∃ r, r < g.rules.length ∧ X ∈ g.rhsSyms r) : g.TokIdx n := by
  induction h with
  | @read X a β h =>
    obtain ⟨r, hr, hx⟩ := hα X (by simp)
    obtain ⟨h1, h2⟩ := reads_terminal hi hfl hr hx h
    exact ⟨a, h1, h2, rfl⟩
  | rule hr _ ih => exact ih (fun X hX => ⟨_, hr, hX⟩)
  | skip _ _ ih => exact ih (fun X hX => hα X (by simp [hX]))

theorem ahead_tokIdx (hi : GInv g) (hfl : g.Flat) {γ : List SymbolId} {c : Item} {n : Nat} (h : Ahead g γ c n) : g.TokIdx n := by
  induction h with
  | start _ => exact ⟨0, Nat.lt_of_lt_of_le Nat.zero_lt_two hi.two, hi.dollar.2.1, hi.dollar.2.2⟩
  | first h1 _ _ h4 => exact starts_tokIdx hi hfl (starts_of_begins h4) (fun X hX => ⟨_, h1.rule, List.mem_of_mem_drop hX⟩)
  | pass _ _ _ _ ih => exact ih
  | shift _ _ ih => exact ih

section
variable (hi : GInv g) (hfl : g.Flat) (hnc : NoClash g)
include hi hfl hnc

theorem red_det {γ : List SymbolId} {r r' : RuleId} {n : Nat} (h : Ahead g γ ⟨r, (g.rhsSyms r).length⟩ n) (h' : Ahead g γ ⟨r', (g.rhsSyms r').length⟩ n) :
    r = r' := by
  obtain ⟨b, h1, h2, rfl⟩ := ahead_tokIdx hi hfl h
  exact hnc.reduceReduce (γ := γ) (a := b) ⟨h1, h2, γ, fun _ => Iff.rfl, h⟩ ⟨h1, h2, γ, fun _ => Iff.rfl, h'⟩

theorem acc_whole {γ : List SymbolId} {r : RuleId} {n : Nat} (h : Ahead g γ ⟨r, 0⟩ n) (hacc : Acc (g.RedOn n) (γ ++ [(g.rule r).lhs])) :
    Acc (g.RedOn n) (γ ++ g.rhsSyms r) := by
  constructor
  rintro γ' ⟨r', ⟨δ, c, e, _, rfl, _⟩, ha⟩
  have := red_det hi hfl hnc ha (ahead_whole h)
  subst this
  have := List.append_inj' e rfl
  rw [← this.1]; exact hacc

theorem acc_null {α : List SymbolId} (h : g.Null α) : ∀ {γ : List SymbolId} {c : Item} {β : List SymbolId} {n : Nat}, Viable g γ c → rest g c = α ++ β →
    (g.Starts β n ∨ (g.Null β ∧ Ahead g γ c n)) → Acc (g.RedOn n) (γ ++ α) → Acc (g.RedOn n) γ := by
  induction h with
  | nil => intro γ c β n _ _ _ h; simpa using h
  | @cons r α hr h1 h2 ih1 ih2 =>
    intro γ c β n hv he hl hacc
    obtain ⟨hd, hb⟩ := atDot_of_rest (he.trans (List.cons_append ..))
    have h3 : Ahead g γ ⟨r, 0⟩ n := by
      rcases hl with hl | ⟨hl, ha⟩
      · exact .first hv hd ⟨hr, rfl⟩ (by rw [hb]; exact (h2.starts hl).begins)
      · exact .pass ha hd ⟨hr, rfl⟩ (by rw [hb]; exact (h2.append hl).derives)
    have h4 : Acc (g.RedOn n) (γ ++ [(g.rule r).lhs]) := by
      refine ih2 (β := β) (.shift hv hd) hb ?_ (by simpa using hacc)
      rcases hl with hl | ⟨hl, ha⟩
      · exact .inl hl
      · exact .inr ⟨hl, .shift ha hd⟩
    exact ih1 (c := ⟨r, 0⟩) (β := []) h3.viable (by rw [rest_zero]; simp) (.inr ⟨.nil, h3⟩) (acc_whole hi hfl hnc h3 h4)

theorem acc_starts {α : List SymbolId} {n : Nat} (h : g.Starts α n) : ∀ {γ : List SymbolId} {c : Item}, Viable g γ c → rest g c = α → Acc (g.RedOn n) γ := by
  induction h with
  | @read X a β hX =>
    intro γ c hv he
    obtain ⟨hd, _⟩ := atDot_of_rest he
    constructor
    rintro γ' ⟨r', ⟨δ, c', e, _, rfl, _⟩, ha⟩
    obtain ⟨h4, h5⟩ := reads_terminal hi hfl hv.rule (List.mem_of_getElem? hd) hX
    exact absurd ⟨h4, h5, γ, fun _ => Iff.rfl, ha⟩ (hnc.shiftReduce (γ := γ) (a := a) (X := X) ⟨c, hv, hd, hX⟩)
  | @rule r β n hr _ ih =>
    intro γ c hv he
    obtain ⟨hd, _⟩ := atDot_of_rest he
    exact ih (.close hv hd ⟨hr, rfl⟩) rfl
  | @skip X β n h0 hb ih =>
    intro γ c hv he
    obtain ⟨hd, hbe⟩ := atDot_of_rest he
    exact acc_null hi hfl hnc h0 (β := β) hv he (.inl hb) (ih (.shift hv hd) hbe)

theorem acc_ahead (hns : g.NoStart) {γ : List SymbolId} {c : Item} {n : Nat} (h : Ahead g γ c n) : Acc (g.RedOn n) (γ ++ rest g c) := by
  induction h with
  | @start r hr =>
    constructor
    rintro γ' ⟨r', ⟨δ, c, e, _, rfl, hv, hd⟩, ha⟩
    have := red_det hi hfl hnc ha (ahead_whole (.start hr))
    subst this
    exfalso
    obtain ⟨s', hs1, _⟩ := hi.start
    refine hns c.rule hv.rule _ (List.mem_of_getElem? hd) ?_
    rw [hs1, hr.2, hs1]; rfl
  | @first γ c A r n h1 h2 h3 h4 =>
    have := acc_starts hi hfl hnc (starts_of_begins h4) (.shift h1 h2) rfl
    rw [← h3.2] at this
    exact acc_whole hi hfl hnc (.first h1 h2 h3 h4) this
  | @pass γ c A r n h1 h2 h3 h4 ih =>
    rw [rest_of_atDot h2] at ih
    have := acc_null hi hfl hnc (null_of_derives h4) (β := []) (.shift h1.viable h2) (by simp [rest, behind]) (.inr ⟨.nil, .shift h1 h2⟩) (by simpa using ih)
    rw [← h3.2] at this
    exact acc_whole hi hfl hnc (.pass h1 h2 h3 h4) this
  | @shift γ c X n h1 h2 ih =>
    rw [rest_of_atDot h2] at ih
    simpa [rest, behind] using ih

/-- There is no infinite sequence of reductions. -/
theorem acc_red (hns : g.NoStart) (hv : NoVoid g) (γ : List SymbolId) : Acc (fun γ' γ => ∃ r, g.Red γ γ' r) γ := by
  by_contra hna
  obtain ⟨f, _, hf⟩ := not_acc_iff_exists_descending_chain.1 hna
  choose r hr using hf
  have hback : ∀ (n k i : Nat), Ahead g (f (i + k)) ⟨r (i + k), (g.rhsSyms (r (i + k))).length⟩ n → Ahead g (f i) ⟨r i, (g.rhsSyms (r i)).length⟩ n := by
    intro n k
    induction k with
    | zero => intro i h; exact h
    | succ k ih => intro i h; exact red_back (hr i) (ih (i + 1) (by rw [Nat.add_right_comm]; exact h))
  -- one token works for any initial part
  have h1 : ∀ N, ∃ n, ∀ i, i ≤ N → Ahead g (f i) ⟨r i, (g.rhsSyms (r i)).length⟩ n := by
    intro N
    obtain ⟨_, _, _, h, _⟩ := hr N
    obtain ⟨n, hn⟩ := ahead_exists hv h
    refine ⟨n, fun i hi => ?_⟩
    obtain ⟨k, rfl⟩ := Nat.exists_eq_add_of_le hi
    exact hback n k i hn
  -- hence for the whole
  have h2 : ∃ n, ∀ i, Ahead g (f i) ⟨r i, (g.rhsSyms (r i)).length⟩ n := by
    by_contra hno
    have hno' : ∀ n, ∃ i, ¬ Ahead g (f i) ⟨r i, (g.rhsSyms (r i)).length⟩ n := fun n => not_forall.1 (not_exists.1 hno n)
    choose w hw using hno'
    obtain ⟨n, hn⟩ := h1 ((Finset.range g.syms.length).sup fun b => w (g.sym b).index)
    obtain ⟨b, hb, _, rfl⟩ := ahead_tokIdx hi hfl (hn 0 (Nat.zero_le _))
    exact hw _ (hn _ (Finset.le_sup (f := fun b => w (g.sym b).index) (Finset.mem_range.2 hb)))
  obtain ⟨n, hn⟩ := h2
  have h3 := acc_ahead hi hfl hnc hns (hn 0)
  rw [rest_full, List.append_nil] at h3
  exact not_acc_iff_exists_descending_chain.2 ⟨f, rfl, fun i => ⟨r i, hr i, hn i⟩⟩ h3

end

end Pomelo
