import Verif.Proofs.Types
import Verif.Proofs.Written
import Verif.Spec.Conflict
import Verif.Spec.Order
/-! # The order of the optional symbols -/

namespace Pomelo

open Spec

/-- Positions of a permuted list -/
theorem perm_positions {α : Type} {l l' : List α} (h : l.Perm l') :
    ∃ σ τ : Nat → Nat, (∀ i, i < l.length → l'[σ i]? = l[i]? ∧ τ (σ i) = i) ∧ (∀ i, i < l'.length → l[τ i]? = l'[i]? ∧ σ (τ i) = i) := by
  induction h with
  | nil => exact ⟨id, id, by simp, by simp⟩
  | cons a _ ih =>
    obtain ⟨σ, τ, h1, h2⟩ := ih
    refine ⟨fun | 0 => 0 | i + 1 => σ i + 1, fun | 0 => 0 | i + 1 => τ i + 1, ?_, ?_⟩
    · rintro (_ | i) hi
      · simp
      · have := h1 i (by simpa using hi)
        simp [this.1, this.2]
    · rintro (_ | i) hi
      · simp
      · have := h2 i (by simpa using hi)
        simp [this.1, this.2]
  | swap a b l =>
    refine ⟨fun | 0 => 1 | 1 => 0 | i + 2 => i + 2, fun | 0 => 1 | 1 => 0 | i + 2 => i + 2, ?_, ?_⟩
    · rintro (_ | _ | i) hi <;> simp
    · rintro (_ | _ | i) hi <;> simp
  | trans p1 p2 ih1 ih2 =>
    obtain ⟨σ, τ, h1, h2⟩ := ih1
    obtain ⟨σ', τ', h3, h4⟩ := ih2
    refine ⟨fun i => σ' (σ i), fun i => τ (τ' i), ?_, ?_⟩
    · intro i hi
      have a := h1 i hi
      have b := h3 (σ i) (by
        by_contra hc
        rw [List.getElem?_eq_none (Nat.le_of_not_lt hc), List.getElem?_eq_getElem hi] at a
        cases a.1)
      exact ⟨b.1.trans a.1, by simp only [b.2, a.2]⟩
    · intro i hi
      have a := h4 i hi
      have b := h2 (τ' i) (by
        by_contra hc
        rw [List.getElem?_eq_none (Nat.le_of_not_lt hc), List.getElem?_eq_getElem hi] at a
        cases a.1)
      exact ⟨b.1.trans a.1, by simp only [b.2, a.2]⟩

/-- The same for lists that begin alike -/
theorem perm_positions_prefix {α : Type} (c : List α) {l l' : List α} (h : l.Perm l') :
    ∃ σ τ : Nat → Nat, (∀ i, i < (c ++ l).length → (c ++ l')[σ i]? = (c ++ l)[i]? ∧ τ (σ i) = i) ∧
      (∀ i, i < (c ++ l').length → (c ++ l)[τ i]? = (c ++ l')[i]? ∧ σ (τ i) = i) ∧ ∀ i, i < c.length → σ i = i ∧ τ i = i := by
  induction c with
  | nil =>
    obtain ⟨σ, τ, h1, h2⟩ := perm_positions h
    exact ⟨σ, τ, h1, h2, by simp⟩
  | cons a c ih =>
    obtain ⟨σ, τ, h1, h2, h3⟩ := ih
    refine ⟨fun | 0 => 0 | i + 1 => σ i + 1, fun | 0 => 0 | i + 1 => τ i + 1, ?_, ?_, ?_⟩
    · rintro (_ | i) hi
      · simp
      · have := h1 i (by simpa using hi)
        simp only [List.cons_append, List.getElem?_cons_succ]
        exact ⟨this.1, by rw [this.2]⟩
    · rintro (_ | i) hi
      · simp
      · have := h2 i (by simpa using hi)
        simp only [List.cons_append, List.getElem?_cons_succ]
        exact ⟨this.1, by rw [this.2]⟩
    · rintro (_ | i) hi
      · simp
      · have := h3 i (by simpa using hi)
        simp [this.1, this.2]

/-- `g'` is `g` with its rules renumbered. -/
structure Renumbered (g g' : Grammar) where
  σ : RuleId → RuleId
  τ : RuleId → RuleId
  len : g'.syms.length = g.syms.length
  name : ∀ x, x < g.syms.length → (g'.sym x).name = (g.sym x).name
  kind : ∀ x, x < g.syms.length → (g'.sym x).kind = (g.sym x).kind
  subs : ∀ x, x < g.syms.length → (g'.sym x).subs = (g.sym x).subs
  prec : ∀ x, x < g.syms.length → (g.sym x).name ≠ .dflt → (g'.sym x).precedence = (g.sym x).precedence
  index : ∀ x, x < g.syms.length → (g'.sym x).index = (g.sym x).index
  start : g'.start = g.start
  rule : ∀ r, r < g.rules.length → σ r < g'.rules.length ∧ (g'.rule (σ r)).bare = (g.rule r).bare ∧ τ (σ r) = r
  rule' : ∀ r, r < g'.rules.length → τ r < g.rules.length ∧ (g.rule (τ r)).bare = (g'.rule r).bare ∧ σ (τ r) = r

def Renumbered.symm {g g' : Grammar} (h : Renumbered g g') : Renumbered g' g where
  σ := h.τ
  τ := h.σ
  len := h.len.symm
  name := fun x hx => (h.name x (h.len ▸ hx)).symm
  kind := fun x hx => (h.kind x (h.len ▸ hx)).symm
  subs := fun x hx => (h.subs x (h.len ▸ hx)).symm
  prec := fun x hx hn => (h.prec x (h.len ▸ hx) (by rw [← h.name x (h.len ▸ hx)]; exact hn)).symm
  index := fun x hx => (h.index x (h.len ▸ hx)).symm
  start := h.start.symm
  rule := h.rule'
  rule' := h.rule

namespace Renumbered
variable {g g' : Grammar} (h : Renumbered g g')
include h

theorem lhs {r : RuleId} (hr : r < g.rules.length) : (g'.rule (h.σ r)).lhs = (g.rule r).lhs := by
  have := congrArg Rule.lhs (h.rule r hr).2.1
  exact this

theorem rhsSyms {r : RuleId} (hr : r < g.rules.length) : g'.rhsSyms (h.σ r) = g.rhsSyms r := by
  have := congrArg Rule.rhs (h.rule r hr).2.1
  unfold Grammar.rhsSyms
  rw [show (g'.rule (h.σ r)).rhs = (g.rule r).rhs from this]

theorem rulePrec {r : RuleId} (hr : r < g.rules.length) : (g'.rule (h.σ r)).precedence = (g.rule r).precedence := by
  have := congrArg Rule.precedence (h.rule r hr).2.1
  exact this

theorem rewrites {α β : List SymbolId} (hr : Rewrites g α β) : Rewrites g' α β := by
  obtain ⟨u, v, r, h1, h2, h3⟩ := hr
  exact ⟨u, v, h.σ r, (h.rule r h1).1, by rw [h.lhs h1, h2], by rw [h.rhsSyms h1, h3]⟩

theorem derives {α β : List SymbolId} (hr : Derives g α β) : Derives g' α β := by
  induction hr with
  | refl => exact Relation.ReflTransGen.refl
  | tail _ h2 ih => exact ih.tail (h.rewrites h2)

theorem ruleOf {A : SymbolId} {r : RuleId} (hr : RuleOf g A r) : RuleOf g' A (h.σ r) :=
  ⟨(h.rule r hr.1).1, by rw [h.lhs hr.1, hr.2]⟩

theorem reads {X a : SymbolId} (hX : X < g.syms.length) (hr : Reads g X a) : Reads g' X a := by
  unfold Reads at *
  rw [h.kind X hX, h.subs X hX]
  exact hr

omit h in
theorem _root_.Pomelo.GInv.reads_lt (hi : GInv g) {X a : SymbolId} (hX : X < g.syms.length) (hr : Reads g X a) : a < g.syms.length := by
  unfold Reads at hr
  split at hr
  · rw [hr]; exact hX
  · exact (hi.subs X hX a hr).1
  · exact hr.elim

omit h in
theorem _root_.Pomelo.GInv.derives_lt (hi : GInv g) {α β : List SymbolId} (hr : Derives g α β) (ha : ∀ x ∈ α, x < g.syms.length) : ∀ x ∈ β, x < g.syms.length := by
  induction hr with
  | refl => exact ha
  | tail _ h2 ih =>
    obtain ⟨u, v, r, h1, h3, h4⟩ := h2
    subst h3 h4
    intro x hx
    simp only [List.mem_append, List.mem_cons] at ih hx
    rcases hx with (hx | hx) | hx
    · exact ih x (.inl hx)
    · exact (hi.rhs r h1 x hx).1
    · exact ih x (.inr (.inr hx))

theorem begins (hi : GInv g) {α : List SymbolId} {n : Nat} (ha : ∀ x ∈ α, x < g.syms.length) (hr : Begins g α n) : Begins g' α n := by
  obtain ⟨a, X, β, h1, h2, h3⟩ := hr
  have hX := hi.derives_lt h2 ha X List.mem_cons_self
  exact ⟨a, X, β, by rw [h.index a (hi.reads_lt hX h3)]; exact h1, h.derives h2, h.reads hX h3⟩

/-- The item of the other grammar -/
def item (c : Item) : Item := ⟨h.σ c.rule, c.dot⟩

omit h in
theorem _root_.Pomelo.Spec.Viable.rule_lt {γ : List SymbolId} {c : Item} (hv : Viable g γ c) : c.rule < g.rules.length := by
  induction hv with
  | start hr => exact hr.1
  | close _ _ hr _ => exact hr.1
  | shift _ _ ih => exact ih

theorem atDot {c : Item} (hc : c.rule < g.rules.length) : Spec.atDot g' (h.item c) = Spec.atDot g c := by
  unfold Spec.atDot item
  rw [h.rhsSyms hc]

theorem behind {c : Item} (hc : c.rule < g.rules.length) : Spec.behind g' (h.item c) = Spec.behind g c := by
  unfold Spec.behind item
  rw [h.rhsSyms hc]

theorem viable {γ : List SymbolId} {c : Item} (hv : Viable g γ c) : Viable g' γ (h.item c) := by
  induction hv with
  | start hr => exact .start (by rw [h.start]; exact h.ruleOf hr)
  | close h1 h2 h3 ih => exact .close ih (by rw [h.atDot h1.rule_lt]; exact h2) (h.ruleOf h3)
  | shift h1 h2 ih => exact .shift (c := h.item _) ih (by rw [h.atDot h1.rule_lt]; exact h2)

omit h in
theorem behind_lt (hi : GInv g) {c : Item} (hc : c.rule < g.rules.length) : ∀ x ∈ Spec.behind g c, x < g.syms.length :=
  fun x hx => (hi.rhs _ hc x (List.mem_of_mem_drop hx)).1

omit h in
theorem _root_.Pomelo.Spec.Ahead.rule_lt {γ : List SymbolId} {c : Item} {n : Nat} (hv : Ahead g γ c n) : c.rule < g.rules.length := by
  induction hv with
  | start hr => exact hr.1
  | first _ _ hr _ => exact hr.1
  | pass _ _ hr _ _ => exact hr.1
  | shift _ _ ih => exact ih

theorem ahead (hi : GInv g) {γ : List SymbolId} {c : Item} {n : Nat} (hv : Ahead g γ c n) : Ahead g' γ (h.item c) n := by
  induction hv with
  | start hr => exact .start (by rw [h.start]; exact h.ruleOf hr)
  | first h1 h2 h3 h4 =>
    exact .first (h.viable h1) (by rw [h.atDot h1.rule_lt]; exact h2) (h.ruleOf h3)
      (by rw [h.behind h1.rule_lt]; exact h.begins hi (behind_lt hi h1.rule_lt) h4)
  | pass h1 h2 h3 h4 ih =>
    exact .pass ih (by rw [h.atDot h1.rule_lt]; exact h2) (h.ruleOf h3) (by rw [h.behind h1.rule_lt]; exact h.derives h4)
  | shift h1 h2 ih => exact .shift (c := h.item _) ih (by rw [h.atDot h1.rule_lt]; exact h2)

theorem item_symm {c : Item} (hc : c.rule < g'.rules.length) : h.item (h.symm.item c) = c := by
  unfold item
  show (⟨h.σ (h.τ c.rule), c.dot⟩ : Item) = c
  rw [(h.rule' _ hc).2.2]

theorem viable_iff {γ : List SymbolId} {c : Item} (hc : c.rule < g'.rules.length) : Viable g' γ c ↔ Viable g γ (h.symm.item c) :=
  ⟨h.symm.viable, fun hv => by rw [← h.item_symm hc]; exact h.viable hv⟩

theorem sameState {γ γ' : List SymbolId} (hs : SameState g γ γ') : SameState g' γ γ' := by
  intro c
  constructor
  · intro hv
    have hc := hv.rule_lt
    rw [h.viable_iff hc] at hv ⊢; exact (hs _).1 hv
  · intro hv
    have hc := hv.rule_lt
    rw [h.viable_iff hc] at hv ⊢; exact (hs _).2 hv

theorem shiftsOn (hi : GInv g) {γ : List SymbolId} {a X : SymbolId} (hs : ShiftsOn g γ a X) : ShiftsOn g' γ a X := by
  obtain ⟨it, h1, h2, h3⟩ := hs
  have hX : X < g.syms.length := (hi.rhs _ h1.rule_lt X (List.mem_of_getElem? h2)).1
  exact ⟨_, h.viable h1, by rw [h.atDot h1.rule_lt]; exact h2, h.reads hX h3⟩

omit h in
theorem _root_.Pomelo.Spec.ShiftsOn.lt (hi : GInv g) {γ : List SymbolId} {a X : SymbolId} (hs : ShiftsOn g γ a X) : X < g.syms.length ∧ a < g.syms.length ∧ (g.sym a).name ≠ .dflt := by
  obtain ⟨it, h1, h2, h3⟩ := hs
  have hX : X < g.syms.length := (hi.rhs _ h1.rule_lt X (List.mem_of_getElem? h2)).1
  refine ⟨hX, hi.reads_lt hX h3, ?_⟩
  unfold Reads at h3
  split at h3
  · rw [h3]; exact (hi.rhs _ h1.rule_lt X (List.mem_of_getElem? h2)).2.2
  · intro e
    have := (hi.subs X hX a h3).2
    rw [e] at this
    cases this
  · exact h3.elim

omit h in
theorem _root_.Pomelo.Spec.ReducesOn.lt {γ : List SymbolId} {a : SymbolId} {r : RuleId} (hs : ReducesOn g γ a r) : r < g.rules.length := by
  obtain ⟨_, _, _, _, h⟩ := hs
  exact h.rule_lt

theorem reducesOn (hi : GInv g) {γ : List SymbolId} {a : SymbolId} {r : RuleId} (hs : ReducesOn g γ a r) : ReducesOn g' γ a (h.σ r) := by
  have hr := hs.lt
  obtain ⟨h1, h2, γ', h3, h4⟩ := hs
  refine ⟨by rw [h.len]; exact h1, by rw [h.kind a h1]; exact h2, γ', h.sameState h3, ?_⟩
  rw [h.rhsSyms hr, h.index a h1]
  exact h.ahead hi h4

theorem unsettled (hi : GInv g) {γ : List SymbolId} {a : SymbolId} (hs : Unsettled g γ a) : Unsettled g' γ a := by
  cases hs with
  | shiftShift h1 h2 h3 => exact .shiftShift (h.shiftsOn hi h1) (h.shiftsOn hi h2) h3
  | repeated h1 h2 => exact .repeated (h.shiftsOn hi h1) (by rw [h.subs _ (h1.lt hi).1]; exact h2)
  | shiftReduce h1 h2 h3 =>
    exact .shiftReduce (h.shiftsOn hi h1) (h.reducesOn hi h2) (by rw [h.prec _ (h1.lt hi).2.1 (h1.lt hi).2.2, h.rulePrec h2.lt]; exact h3)
  | reduceReduce h1 h2 h3 h4 =>
    refine .reduceReduce (h.reducesOn hi h1) (h.reducesOn hi h2) ?_ ?_
    · intro e
      apply h3
      rw [← (h.rule _ h1.lt).2.2, e, (h.rule _ h2.lt).2.2]
    · rw [h.rulePrec h1.lt, h.rulePrec h2.lt]
      exact h4

end Renumbered

namespace Bridge
variable {ord ord' : List (SymbolId × SymbolId) → List (SymbolId × SymbolId)} {ds : List Decl} {g g' : Grammar}

theorem sameD (b : Bridge ord ds g) (b' : Bridge ord' ds g') : b'.gD = b.gD := by
  have := b.parsed
  rw [b'.parsed] at this
  exact Except.ok.inj this

theorem typedP (ho : OrdOk ord) (ho' : OrdOk ord') (b : Bridge ord ds g) (b' : Bridge ord' ds g') {x : SymbolId} (hx : x < b.gD.syms.length) :
    (b'.gP.sym x).dataType = (b.gP.sym x).dataType := by
  obtain ⟨h1, h2⟩ := b.dataTypeP ho
  obtain ⟨h1', h2'⟩ := b'.dataTypeP ho'
  have hD := b.sameD b'
  rw [hD] at h1' h2'
  have plain : ∀ x, x < b.gD.syms.length → (∀ o ∈ b.gD.optionals, x ≠ o.2) → (b'.gP.sym x).dataType = (b.gP.sym x).dataType := by
    intro x hx hn
    rw [h2 x hx hn, h2' x hx hn]
  by_cases hn : ∀ o ∈ b.gD.optionals, x ≠ o.2
  · exact plain x hx hn
  · push Not at hn
    obtain ⟨o, ho1, rfl⟩ := hn
    rw [h1 o ho1, h1' o ho1, plain o.1 (b.opt_name ho1).1]
    intro o' h3 e
    obtain ⟨_, _, h4, _⟩ := b.opt_name ho1
    obtain ⟨_, _, _, k, _, h5⟩ := b.opt_name h3
    rw [e, h5] at h4
    simp [SymName.isTok, SymName.isNt] at h4

/-- The symbols of a rule are declared. -/
def _root_.Pomelo.Rule.Within (a : Rule) (n : Nat) : Prop :=
  a.lhs < n ∧ (∀ x ∈ a.rhs, x.sym < n) ∧ ∀ p, a.precSym = some p → p < n

theorem within (ho : OrdOk ord) (b : Bridge ord ds g) {a : Rule} (ha : a ∈ b.gP.rules) : a.Within b.gD.syms.length := by
  rw [b.rulesP, List.mem_append] at ha
  rcases ha with ha | ha
  · obtain ⟨r, hr, rfl⟩ := List.getElem_of_mem ha
    have e : b.gD.rule r = b.gD.rules[r] := getD_of_lt hr
    rw [← e]
    exact ⟨(b.dinv.lhs r hr).1, fun x hx => (b.dinv.rhs r hr x hx).1, fun p hp => (b.dinv.precSym r hr p hp).1⟩
  · obtain ⟨o, h1, h2⟩ := List.mem_flatMap.1 ha
    have hm := b.opt_name ((ho b.gD.optionals).mem_iff.1 h1)
    unfold optRules at h2
    rcases List.mem_cons.1 h2 with rfl | h2
    · exact ⟨hm.2.1, by simp, by simp⟩
    · rw [List.mem_singleton] at h2
      subst h2
      refine ⟨hm.2.1, ?_, by simp⟩
      intro x hx
      simp only [List.mem_singleton] at hx
      subst hx
      exact hm.1

theorem precP (b : Bridge ord ds g) (b' : Bridge ord' ds g') {x : SymbolId} (hx : x < b.gD.syms.length) :
    (b'.gP.sym x).precedence = (b.gP.sym x).precedence ∧ (b'.gP.sym x).kind = (b.gP.sym x).kind ∧ (b'.gP.sym x).subs = (b.gP.sym x).subs := by
  have hk := b.keepP x hx
  have hk' := b'.keepP x (by rw [b.sameD b']; exact hx)
  rw [b.sameD b', ← hk] at hk'
  unfold Symbol.keep at hk'
  simp only [Prod.mk.injEq] at hk'
  exact ⟨hk'.2.2.2.2.1, hk'.2.1, hk'.2.2.1⟩

theorem symPrecP' (b : Bridge ord ds g) (b' : Bridge ord' ds g') {x : SymbolId} (hx : x < b.gD.syms.length) : b'.gP.symPrec x = b.gP.symPrec x := by
  rw [b.symPrecP hx, b'.symPrecP (by rw [b.sameD b']; exact hx), b.sameD b']

theorem rulePrecP (b : Bridge ord ds g) (b' : Bridge ord' ds g') {a : Rule} (ha : a.Within b.gD.syms.length) : b'.gP.rulePrec a = b.gP.rulePrec a := by
  unfold Grammar.rulePrec
  cases hp : a.precSym with
  | some p => simp only [(b.precP b' (ha.2.2 p hp)).1]
  | none =>
    simp only
    have hf : a.rhs.find? (fun s => (b'.gP.symPrec s.sym).isSome) = a.rhs.find? (fun s => (b.gP.symPrec s.sym).isSome) := by
      have := ha.2.1
      generalize a.rhs = l at this
      induction l with
      | nil => rfl
      | cons m l ih =>
        rw [List.find?_cons, List.find?_cons, b.symPrecP' b' (this m List.mem_cons_self), ih (fun m hm => this m (List.mem_cons_of_mem _ hm))]
    rw [hf]
    cases h : a.rhs.find? (fun s => (b.gP.symPrec s.sym).isSome) with
    | none => rfl
    | some s => simp only [b.symPrecP' b' (ha.2.1 s (List.mem_of_find?_eq_some h))]

theorem normalP (ho : OrdOk ord) (ho' : OrdOk ord') (b : Bridge ord ds g) (b' : Bridge ord' ds g') {a : Rule} (ha : a.Within b.gD.syms.length) :
    b'.gP.normalizeRule (b'.gP.rulePrec a) = b.gP.normalizeRule (b.gP.rulePrec a) := by
  rw [b.rulePrecP b' ha]
  have hw : (b.gP.rulePrec a).lhs = a.lhs ∧ (b.gP.rulePrec a).rhs = a.rhs := by
    unfold Grammar.rulePrec
    split
    · exact ⟨rfl, rfl⟩
    · split <;> exact ⟨rfl, rfl⟩
  have ht : ∀ x, x < b.gD.syms.length → b'.gP.typed x = b.gP.typed x := by
    intro x hx
    unfold Grammar.typed
    rw [b.typedP ho ho' b' hx]
  obtain ⟨hw1, hw2⟩ := hw
  generalize b.gP.rulePrec a = c at *
  have hr : ∀ s ∈ c.rhs, b'.gP.typed s.sym = b.gP.typed s.sym := by
    intro s hs
    rw [hw2] at hs
    exact ht _ (ha.2.1 s hs)
  unfold Grammar.normalizeRule
  rw [hw1, ht _ ha.1, List.filter_congr (fun s hs => hr s hs)]
  have hm : c.rhs.map (fun s => if b'.gP.typed s.sym then { s with «alias» := true } else s) =
      c.rhs.map (fun s => if b.gP.typed s.sym then { s with «alias» := true } else s) := by
    apply List.map_congr_left
    intro s hs
    rw [hr s hs]
  rw [hm]

/-- The written rules are the same, the others differ in their order. -/
theorem rules_split (ho : OrdOk ord) (ho' : OrdOk ord') (b : Bridge ord ds g) (b' : Bridge ord' ds g') :
    ∃ c l l', g.rules.map Rule.bare = c ++ l ∧ g'.rules.map Rule.bare = c ++ l' ∧ l.Perm l' ∧ c.length = (rulesOf ds).length := by
  let F : Rule → Rule := fun a => match b.gP.normalizeRule (b.gP.rulePrec a) with
    | .ok c => c.bare
    | .error _ => a
  have hD := b.sameD b'
  have key : ∀ {l l' : List Rule} {gP : Grammar}, List.Forall₂ (fun a b => ∃ c, gP.normalizeRule (gP.rulePrec a) = .ok c ∧ b = { c with lhsStart := b.lhsStart }) l l' →
      (∀ a ∈ l, gP.normalizeRule (gP.rulePrec a) = b.gP.normalizeRule (b.gP.rulePrec a)) → l'.map Rule.bare = l.map F := by
    intro l l' gP h
    induction h with
    | nil => intro _; rfl
    | cons h1 _ ih =>
      intro hl
      obtain ⟨c, h2, h3⟩ := h1
      rw [List.map_cons, List.map_cons, ih (fun a ha => hl a (List.mem_cons_of_mem _ ha))]
      congr 1
      rw [hl _ List.mem_cons_self] at h2
      show _ = (match b.gP.normalizeRule (b.gP.rulePrec _) with | .ok c => c.bare | .error _ => _)
      rw [h2, h3]
      rfl
  rw [key b.rules (fun _ _ => rfl), key b'.rules (fun a ha => b.normalP ho ho' b' (by rw [← hD]; exact b'.within ho' ha)), b.rulesP, b'.rulesP, hD,
    List.map_append, List.map_append]
  refine ⟨_, _, _, rfl, rfl, ?_, by rw [List.length_map, b.nrules]⟩
  apply List.Perm.map
  apply List.Perm.flatMap_right
  exact (ho _).trans (ho' _).symm

/-- The rules are the same but for their order. -/
theorem rules_perm (ho : OrdOk ord) (ho' : OrdOk ord') (b : Bridge ord ds g) (b' : Bridge ord' ds g') :
    (g.rules.map Rule.bare).Perm (g'.rules.map Rule.bare) := by
  obtain ⟨c, l, l', h1, h2, h3, _⟩ := b.rules_split ho ho' b'
  rw [h1, h2]
  exact h3.append_left c

/-- The two grammars differ in the numbers of the rules that were not written only. -/
theorem renumbered (ho : OrdOk ord) (ho' : OrdOk ord') (b : Bridge ord ds g) (b' : Bridge ord' ds g')
    (hi : GInv g) (hs : Shape b.gP g) (hs' : Shape b'.gP g') :
    ∃ R : Renumbered g g', ∀ r, r < (rulesOf ds).length → R.σ r = r ∧ R.τ r = r := by
  obtain ⟨cc, l, l', hc1, hc2, hc3, hc4⟩ := b.rules_split ho ho' b'
  obtain ⟨σ, τ, h1, h2, h3⟩ := perm_positions_prefix cc hc3
  rw [← hc1, ← hc2] at h1 h2
  have hD := b.sameD b'
  have hlen : g'.syms.length = g.syms.length := by rw [b.len, b'.len, hD]
  have hrlen : g'.rules.length = g.rules.length := by
    have := (b.rules_perm ho ho' b').length_eq
    simpa using this.symm
  have hkeep : ∀ {ord} {g : Grammar} (b : Bridge ord ds g), Shape b.gP g → ∀ x, (g.sym x).index = ((b.gD.pushSym { name := .dflt, kind := .nonTerminal }).indexed.sym x).index ∧
      (g.sym x).name = ((b.gD.pushSym { name := .dflt, kind := .nonTerminal }).indexed.sym x).name ∧
      (g.sym x).kind = ((b.gD.pushSym { name := .dflt, kind := .nonTerminal }).indexed.sym x).kind ∧
      (g.sym x).subs = ((b.gD.pushSym { name := .dflt, kind := .nonTerminal }).indexed.sym x).subs := by
    intro ord g b hs x
    have hc := hs.core x
    have : (b.gP.sym x).index = ((b.gD.pushSym { name := .dflt, kind := .nonTerminal }).indexed.sym x).index ∧
      (b.gP.sym x).name = ((b.gD.pushSym { name := .dflt, kind := .nonTerminal }).indexed.sym x).name ∧
      (b.gP.sym x).kind = ((b.gD.pushSym { name := .dflt, kind := .nonTerminal }).indexed.sym x).kind ∧
      (b.gP.sym x).subs = ((b.gD.pushSym { name := .dflt, kind := .nonTerminal }).indexed.sym x).subs := by
      rw [b.gP_eq, prepare_eq]
      refine ⟨?_, ?_, ?_, ?_⟩
      · rw [proj_addOptionals Symbol.index (fun _ _ => rfl) (fun _ _ => rfl), proj_addExtraToken Symbol.index (fun _ _ => rfl)]
      · rw [proj_addOptionals Symbol.name (fun _ _ => rfl) (fun _ _ => rfl), proj_addExtraToken Symbol.name (fun _ _ => rfl)]
      · rw [proj_addOptionals Symbol.kind (fun _ _ => rfl) (fun _ _ => rfl), proj_addExtraToken Symbol.kind (fun _ _ => rfl)]
      · rw [proj_addOptionals Symbol.subs (fun _ _ => rfl) (fun _ _ => rfl), proj_addExtraToken Symbol.subs (fun _ _ => rfl)]
    unfold Symbol.core at hc
    simp only [Prod.mk.injEq] at hc
    exact ⟨hc.2.1.trans this.1, hc.1.trans this.2.1, hc.2.2.1.trans this.2.2.1, hc.2.2.2.2.1.trans this.2.2.2⟩
  have get : ∀ {l : List Rule} {r : Nat}, r < l.length → (l.map Rule.bare)[r]? = some (l.getD r default).bare := by
    intro l r hr
    rw [List.getElem?_map, List.getElem?_eq_getElem hr, getD_of_lt hr]; rfl
  have hσ : ∀ {l l' : List Rule} {r s : Nat}, r < l.length → (l'.map Rule.bare)[s]? = (l.map Rule.bare)[r]? → s < l'.length ∧ (l'.getD s default).bare = (l.getD r default).bare := by
    intro l l' r s hr he
    rw [get hr] at he
    have hlt : s < l'.length := by
      by_contra hc
      rw [List.getElem?_eq_none (by simpa using Nat.le_of_not_lt hc)] at he
      cases he
    rw [get hlt] at he
    exact ⟨hlt, Option.some.inj he⟩
  refine ⟨⟨σ, τ, hlen, ?_, ?_, ?_, ?_, ?_, by rw [b.start, b'.start, hD], ?_, ?_⟩, fun r hr => h3 r (by rw [hc4]; exact hr)⟩
  · intro x _; rw [(hkeep b hs x).2.1, (hkeep b' hs' x).2.1, hD]
  · intro x _; rw [(hkeep b hs x).2.2.1, (hkeep b' hs' x).2.2.1, hD]
  · intro x _; rw [(hkeep b hs x).2.2.2, (hkeep b' hs' x).2.2.2, hD]
  · intro x hx hn
    have hxD := b.dropped hi hx hn
    rw [b.precedence hxD, b'.precedence (by rw [hD]; exact hxD), hD]
  · intro x _; rw [(hkeep b hs x).1, (hkeep b' hs' x).1, hD]
  · intro r hr
    obtain ⟨e1, e2⟩ := h1 r (by simpa using hr)
    obtain ⟨e3, e4⟩ := hσ hr e1
    exact ⟨e3, e4, e2⟩
  · intro r hr
    obtain ⟨e1, e2⟩ := h2 r (by simpa using hr)
    obtain ⟨e3, e4⟩ := hσ hr e1
    exact ⟨e3, e4, e2⟩

end Bridge

end Pomelo
