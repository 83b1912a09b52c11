import Verif.Props.Complete
import Verif.Props.Operators
import Verif.Props.OpSound
/-!
# C60: how large the stack must be

`Verif/Spec/Height.lean` has the height of a tree and the declared size of the stack.
-/

namespace Pomelo

open Spec

variable {ord : List (SymbolId × SymbolId) → List (SymbolId × SymbolId)} {ds : List Decl} {t : Tables} {V X E : Type}

/-- C60: the limit of the parser is the size that was declared last, or 100. -/
theorem C60_size (hc : compile ord ds = .ok t) : t.stackLimit = stackSizeOf ds := by
  obtain ⟨s⟩ := compile_cspec hc
  exact s.stackLimit

/-- C60 in full, for a language of values: the tokens of a tree whose blocks succeed are accepted iff the stack is large enough. -/
def C60_statement : Prop :=
  ∀ (ord : List (SymbolId × SymbolId) → List (SymbolId × SymbolId)), OrdOk ord → ∀ (ds : List Decl) (t : Tables), compile ord ds = .ok t →
    noAssoc ds = true → wildcardOf ds = none → ∀ (sem : Sem Int (List Nat) Unit) (x : List Nat) (T : Tree Int), IsOwnTree ds t.tokenNames T →
      (∀ tok ∈ T.yield, tok.Valid t sem) → (∃ v x', T.value ds sem x = (.ok v, x')) → (AcceptsTree ds t sem x T ↔ HasRoom ds T)

theorem AcceptsTree.not_overflows {sem : Sem V X E} {x : X} {T : Tree V} (h : AcceptsTree ds t sem x T) : ¬ OverflowsTree t sem x T := by
  rintro ⟨_, e, p', f', tok, log, h2, _⟩
  obtain ⟨v, p, f, _, h1, _⟩ := h
  have h3 := runAll_mono h1 (Nat.le_max_left f f')
  rw [runAll_mono h2 (Nat.le_max_right f f')] at h3
  cases h3

theorem room_cases {sem : Sem V X E} {x : X} {T : Tree V}
    (key : (AcceptsTree ds t sem x T ∧ HasRoom ds T) ∨ FailsTree ds t sem x T ∨ (OverflowsTree t sem x T ∧ ¬ HasRoom ds T)) :
    (AcceptsTree ds t sem x T ↔ HasRoom ds T ∧ ∃ v x', T.value ds sem x = (.ok v, x')) ∧
    (OverflowsTree t sem x T → ¬ HasRoom ds T) ∧
    (¬ HasRoom ds T → (∃ v x', T.value ds sem x = (.ok v, x')) → OverflowsTree t sem x T) := by
  refine ⟨⟨fun ha => ?_, fun ⟨he, v, x', hval⟩ => ?_⟩, fun hov he => ?_, fun he ⟨v, x', hval⟩ => ?_⟩
  · refine ⟨?_, ?_⟩
    · rcases key with h | ⟨e, p, f, h, _⟩ | h
      · exact h.2
      · obtain ⟨v, p', _, hv, _⟩ := ha
        rw [hv] at h; cases h
      · exact absurd h.1 ha.not_overflows
    · obtain ⟨v, p, _, hv, _⟩ := ha
      exact ⟨v, _, hv⟩
  · rcases key with h | ⟨e, p, f, h, _⟩ | h
    · exact h.1
    · rw [hval] at h; cases h
    · exact absurd he h.2
  · rcases key with h | ⟨e, p, f, h, h1, h2⟩ | h
    · exact h.1.not_overflows hov
    · obtain ⟨_, e', p', f', tok, log, h3, h4, _⟩ := hov
      have h5 := runAll_mono h1 (Nat.le_max_left f f')
      rw [runAll_mono h3 (Nat.le_max_right f f')] at h5
      cases h5
      rw [h4] at h2
      cases h2
    · exact h.2 he
  · rcases key with h | ⟨e, p, f, h, _⟩ | h
    · exact absurd h.2 he
    · rw [hval] at h; cases h
    · exact h.1

/-- C60: if no conflict had to be settled, the stack overflows only if it is not large enough for the tree, and if the blocks succeed it overflows
exactly then.
Missing: as for `C03_partial`. -/
theorem C60_partial (ho : OrdOk ord) (hc : compile ord ds = .ok t) (hf : flat ds = true) (hA : apart ord ds = true) (hr : rootOk ds = true)
    (hw : wildcardOf ds = none) (R : Run ord ds) (hn : NoClash R.g) (sem : Sem V X E) (x : X) {T : Tree V} (h : IsOwnTree ds t.tokenNames T)
    (hv : ∀ tok ∈ T.yield, tok.Valid t sem) :
    (AcceptsTree ds t sem x T ↔ HasRoom ds T ∧ ∃ v x', T.value ds sem x = (.ok v, x')) ∧
    (OverflowsTree t sem x T → ¬ HasRoom ds T) ∧
    (¬ HasRoom ds T → (∃ v x', T.value ds sem x = (.ok v, x')) → OverflowsTree t sem x T) :=
  room_cases (accepts_room ho hc hf hA hr hw R hn sem x h hv)

/-- C60 with a wildcard
Missing: as for `C03_wildcard_partial`. -/
theorem C60_wildcard_partial (ho : OrdOk ord) (hc : compile ord ds = .ok t) (hf : flat ds = true) (hA : apart ord ds = true) (hr : rootOk ds = true)
    (R : Run ord ds) (hn : NoClash R.g) (hw : WildAlone R.g) (hu : wildUnbound ds = true) (sem : Sem V X E) (x : X) {T : Tree V} (h : IsOwnTree ds t.tokenNames T)
    (hv : ∀ tok ∈ T.yield, tok.Valid t sem) :
    (AcceptsTree ds t sem x T ↔ HasRoom ds T ∧ ∃ v x', T.value ds sem x = (.ok v, x')) ∧
    (OverflowsTree t sem x T → ¬ HasRoom ds T) ∧
    (¬ HasRoom ds T → (∃ v x', T.value ds sem x = (.ok v, x')) → OverflowsTree t sem x T) :=
  room_cases (accepts_room_wildcard ho hc hf hA hr R hn hw hu sem x h hv)

/-- C60 for grammars without precedences
Missing: as for `C03_partial`. -/
theorem C60_noAssoc_partial (ho : OrdOk ord) (hc : compile ord ds = .ok t) (hf : flat ds = true) (hA : apart ord ds = true) (hr : rootOk ds = true)
    (hw : wildcardOf ds = none) (hn : noAssoc ds = true) (sem : Sem V X E) (x : X) {T : Tree V} (h : IsOwnTree ds t.tokenNames T)
    (hv : ∀ tok ∈ T.yield, tok.Valid t sem) :
    (AcceptsTree ds t sem x T ↔ HasRoom ds T ∧ ∃ v x', T.value ds sem x = (.ok v, x')) ∧
    (OverflowsTree t sem x T → ¬ HasRoom ds T) ∧
    (¬ HasRoom ds T → (∃ v x', T.value ds sem x = (.ok v, x')) → OverflowsTree t sem x T) := by
  obtain ⟨R⟩ := run_exists hc
  exact C60_partial ho hc hf hA hr hw R (noClash_of_noAssoc ho R hn) sem x h hv

/-- C60 for the trees that agree with the precedences
Missing: as for `C51_respects_partial`. -/
theorem C60_operators_partial (ho : OrdOk ord) (hc : compile ord ds = .ok t) (hf : flat ds = true) (hA : apart ord ds = true) (hr : rootOk ds = true)
    (hw : wildcardOf ds = none) {s e : Ident} (hop : operators ds s e = true) (sem : Sem V X E) (x : X) {T : Tree V} (h : IsOwnTree ds t.tokenNames T)
    (hres : Respects ds t.tokenNames T) (hv : ∀ tok ∈ T.yield, tok.Valid t sem) :
    (AcceptsTree ds t sem x T ↔ HasRoom ds T ∧ ∃ v x', T.value ds sem x = (.ok v, x')) ∧
    (OverflowsTree t sem x T → ¬ HasRoom ds T) ∧
    (¬ HasRoom ds T → (∃ v x', T.value ds sem x = (.ok v, x')) → OverflowsTree t sem x T) := by
  obtain ⟨R⟩ := run_exists hc
  obtain ⟨dflt, m⟩ := (R.cspec hc).made ho hf
  obtain ⟨b⟩ := bridge ho R.decls R.auto
  obtain ⟨r, kids, q', h1, h2, h3, h4, h5, h6⟩ := respects_drive ho hc hA hw R hop m h hres (fun tok ht => (hv tok ht).pos)
  have hw' : R.g.wildcard = none := by
    have h1 := b.decl.wildcard
    rw [hw, ← b.wildcard] at h1
    simpa using h1
  exact room_cases (m.acceptsTree_room ho hf b hr (.of_none hw') sem x h1 h2 h3 h4 h5 h6 hv)

/-- C60: whenever an input is accepted without syntax errors, the stack is large enough for its tree. Fallbacks, wildcards and
precedences are allowed here.
Missing: rows in collision and classes of classes. -/
theorem C60_accepted_partial (ho : OrdOk ord) (hc : compile ord ds = .ok t) (hf : flat ds = true) (hA : apart ord ds = true) (sem : Sem V X E) {x : X}
    {toks : List (Tok V)} {p : Parser V X} {v : V} (h : AcceptedRun t sem x toks p v) : ∃ T, TreeOfRun ds t sem x toks p v T ∧ HasRoom ds T := by
  obtain ⟨s⟩ := compile_cspec hc
  obtain ⟨dflt, m⟩ := s.made ho hf
  obtain ⟨b⟩ := bridge ho s.decls s.auto
  obtain ⟨_, _, _, _, _, _, _, hT⟩ := accepted_drive ho hA m b sem h
  exact ⟨_, hT, hT.room⟩

/-! ## Where C60 fails -/

open Complex in
/-- C60 fails where C03 does: `s ::= a; a ::= A; a ::= ;` panics at the end of the empty input. -/
theorem C60_false : ¬ C60_statement := by
  intro h
  exact runPanics_iff (by decide +kernel) (.inl ((h id OrdOk.id maybe _ (Examples.compiles_iff (by decide +kernel)) (by decide) (by decide) Tests.logSem [] maybeTree
    maybeTree_ok (by intro tok ht; simp [maybeTree, Tree.yield, Tree.yields] at ht) ⟨_, _, rfl⟩).2 (by decide)))

/-! ## Lists -/

namespace Heightx
open Tests (U L s r logSem)
open Examples

/-- `%stack_size 3; s ::= l; l ::= l A; l ::= A` -/
def left : List Decl := [.stackSize 3 none, r (L 0) [s (L 1)], r (L 1) [s (L 1), s (U 1)], r (L 1) [s (U 1)]]

/-- `%stack_size 3; s ::= l; l ::= A l; l ::= A` -/
def right : List Decl := [.stackSize 3 none, r (L 0) [s (L 1)], r (L 1) [s (U 1), s (L 1)], r (L 1) [s (U 1)]]

/-- The list of `n + 1` tokens, to the left -/
def leftList : Nat → Tree Int
  | 0 => .rule 2 [.tok ⟨1, 0⟩]
  | n + 1 => .rule 1 [leftList n, .tok ⟨1, 0⟩]

/-- The list of `n + 1` tokens, to the right -/
def rightList : Nat → Tree Int
  | 0 => .rule 2 [.tok ⟨1, 0⟩]
  | n + 1 => .rule 1 [.tok ⟨1, 0⟩, rightList n]

theorem names : (tablesOf left).tokenNames = [.dollar, .ident (U 1)] ∧ (tablesOf right).tokenNames = [.dollar, .ident (U 1)] := by decide +kernel

theorem leftList_fits (n : Nat) {al : Bool} {ts es} (h : Spec.Fits (ownTokens left) [.dollar, .ident (U 1)] ts es) :
    Spec.Fits (ownTokens left) [.dollar, .ident (U 1)] (leftList n :: ts) (⟨[L 1], false, al⟩ :: es) := by
  induction n generalizing al ts es with
  | zero => exact .rule (u := ⟨L 1, [⟨[U 1], false, false⟩], none, none⟩) (by rfl) (.tok (i := U 1) (j := U 1) (by rfl) .self ⟨rfl, rfl⟩ .nil) h
  | succ n ih =>
    exact .rule (u := ⟨L 1, [⟨[L 1], false, false⟩, ⟨[U 1], false, false⟩], none, none⟩) (by rfl) (ih (.tok (i := U 1) (j := U 1) (by rfl) .self ⟨rfl, rfl⟩ .nil)) h

theorem rightList_fits (n : Nat) {al : Bool} {ts es} (h : Spec.Fits (ownTokens right) [.dollar, .ident (U 1)] ts es) :
    Spec.Fits (ownTokens right) [.dollar, .ident (U 1)] (rightList n :: ts) (⟨[L 1], false, al⟩ :: es) := by
  induction n generalizing al ts es with
  | zero => exact .rule (u := ⟨L 1, [⟨[U 1], false, false⟩], none, none⟩) (by rfl) (.tok (i := U 1) (j := U 1) (by rfl) .self ⟨rfl, rfl⟩ .nil) h
  | succ n ih =>
    exact .rule (u := ⟨L 1, [⟨[U 1], false, false⟩, ⟨[L 1], false, false⟩], none, none⟩) (by rfl) (.tok (i := U 1) (j := U 1) (by rfl) .self ⟨rfl, rfl⟩ (ih .nil)) h

theorem left_ok (n : Nat) : IsOwnTree left (tablesOf left).tokenNames (.rule 0 [leftList n]) := by
  rw [names.1]
  exact ⟨L 0, by decide, .rule (u := ⟨L 0, [⟨[L 1], false, false⟩], none, none⟩) (by rfl) (leftList_fits n .nil) .nil⟩

theorem right_ok (n : Nat) : IsOwnTree right (tablesOf right).tokenNames (.rule 0 [rightList n]) := by
  rw [names.2]
  exact ⟨L 0, by decide, .rule (u := ⟨L 0, [⟨[L 1], false, false⟩], none, none⟩) (by rfl) (rightList_fits n .nil) .nil⟩

theorem leftList_yield (n : Nat) : (leftList n).yield = List.replicate (n + 1) ⟨1, 0⟩ := by
  induction n with
  | zero => rfl
  | succ n ih => rw [List.replicate_succ', ← ih]; simp [leftList, Tree.yield, Tree.yields]

theorem rightList_yield (n : Nat) : (rightList n).yield = List.replicate (n + 1) ⟨1, 0⟩ := by
  induction n with
  | zero => rfl
  | succ n ih => rw [List.replicate_succ, ← ih]; simp [rightList, Tree.yield, Tree.yields]

theorem leftList_need (n : Nat) : (leftList n).need ≤ 2 := by
  induction n with
  | zero => decide
  | succ n ih => simp only [leftList, Tree.need, Tree.needs]; omega

theorem rightList_need (n : Nat) : (rightList n).need = n + 1 := by
  induction n with
  | zero => rfl
  | succ n ih => simp only [rightList, Tree.need, Tree.needs, ih]; omega

theorem leftList_value (n : Nat) (x : List Nat) : (leftList n).value left logSem x = (.ok 0, x) := by
  induction n generalizing x with
  | zero => rfl
  | succ n ih => simp only [leftList, Tree.value, Tree.values, ih]; rfl

theorem rightList_value (n : Nat) (x : List Nat) : (rightList n).value right logSem x = (.ok 0, x) := by
  induction n generalizing x with
  | zero => rfl
  | succ n ih => simp only [rightList, Tree.value, Tree.values, ih]; rfl

theorem valid {t : Tables} (h : validB t logSem ⟨1, 0⟩ = true) (n : Nat) : ∀ tok ∈ List.replicate n (⟨1, 0⟩ : Tok Int), tok.Valid t logSem := by
  intro tok ht
  rw [List.eq_of_mem_replicate ht]
  exact validB_iff h

/-- A list written with left recursion needs three entries, however long it is. -/
theorem left_accepted (n : Nat) : ∃ p fuel, Pomelo.runAll (tablesOf left) logSem fuel [] (List.replicate (n + 1) ⟨1, 0⟩) = some (.ok p 0) := by
  have hy : (Tree.rule 0 [leftList n]).yield = List.replicate (n + 1) ⟨1, 0⟩ := by simp [Tree.yield, Tree.yields, leftList_yield]
  have hval : (Tree.rule 0 [leftList n]).value left logSem [] = (.ok 0, []) := by simp only [Tree.value, Tree.values, leftList_value]; rfl
  have := (C60_noAssoc_partial OrdOk.id (compiles_iff (by decide +kernel)) (by decide) (by decide +kernel) (by decide) (by decide) (by decide) logSem [] (left_ok n)
    (by rw [hy]; exact valid (by decide +kernel) _)).1.2 ⟨.inr (by
      have := leftList_need n
      have h3 : stackSizeOf left = 3 := by decide
      simp only [Tree.height, Tree.needs, h3]; omega), 0, _, hval⟩
  obtain ⟨v, p, fuel, h1, h2, _⟩ := this
  rw [hval] at h1
  simp only [Prod.mk.injEq, Except.ok.injEq] at h1
  rw [hy, ← h1.1] at h2
  exact ⟨p, fuel, h2⟩

/-- Written with right recursion it needs one entry for each of its elements, and one for the bottom. -/
theorem right_accepted (n : Nat) : (∃ p v fuel, Pomelo.runAll (tablesOf right) logSem fuel [] (List.replicate (n + 1) ⟨1, 0⟩) = some (.ok p v)) ↔ n < 2 := by
  have hy : (Tree.rule 0 [rightList n]).yield = List.replicate (n + 1) ⟨1, 0⟩ := by simp [Tree.yield, Tree.yields, rightList_yield]
  have hval : (Tree.rule 0 [rightList n]).value right logSem [] = (.ok 0, []) := by simp only [Tree.value, Tree.values, rightList_value]; rfl
  have key := C60_noAssoc_partial OrdOk.id (compiles_iff (by decide +kernel)) (by decide) (by decide +kernel) (by decide) (by decide) (by decide) logSem [] (right_ok n)
    (by rw [hy]; exact valid (by decide +kernel) _)
  have hroom : HasRoom right (.rule 0 [rightList n]) ↔ n < 2 := by
    have h3 : stackSizeOf right = 3 := by decide
    unfold HasRoom
    simp only [Tree.height, Tree.needs, h3, rightList_need]; omega
  constructor
  · rintro ⟨p, v, fuel, h⟩
    by_contra hn
    obtain ⟨_, e, p', f', tok, log, h2, _⟩ := key.2.2 (fun h => hn (hroom.1 h)) ⟨0, _, hval⟩
    rw [hy] at h2
    have h3 := runAll_mono h (Nat.le_max_left fuel f')
    rw [runAll_mono h2 (Nat.le_max_right fuel f')] at h3
    cases h3
  · intro hn
    obtain ⟨v, p, fuel, h1, h2, _⟩ := key.1.2 ⟨hroom.2 hn, 0, _, hval⟩
    rw [hy] at h2
    exact ⟨p, _, fuel, h2⟩

-- all hypotheses of `C60_operators_partial` are met; the default size is enough for `+ 2 - 3 * 4 ? 5 : 6 ? 7 : 8`, and 10 entries are needed
example : AcceptsTree Opex.sums (tablesOf Opex.sums) Opex.calcSem [] Opex.even :=
  (C60_operators_partial OrdOk.id (compiles_iff (by decide +kernel)) (by decide +kernel) (by decide +kernel) (by decide +kernel) (by decide)
    (by decide +kernel : operators Opex.sums (L 0) (L 1) = true) Opex.calcSem [] Opex.even_ok Opex.even_respects (Opex.odd_valid Opex.calcSem rfl)).1.2
    ⟨by decide, 5, [], by decide +kernel⟩
example : Opex.even.height = 10 := by decide

-- an overflow: three elements, right recursion
example : OverflowsTree (tablesOf right) logSem [] (.rule 0 [rightList 2]) :=
  (C60_noAssoc_partial OrdOk.id (compiles_iff (by decide +kernel)) (by decide) (by decide +kernel) (by decide) (by decide) (by decide) logSem [] (right_ok 2)
    (by intro tok ht; exact validB_iff (List.all_eq_true.1 (by decide +kernel : (Tree.rule 0 [rightList 2]).yield.all (validB _ _) = true) tok ht))).2.2
    (by decide) ⟨0, [], by decide⟩

-- `C60_accepted_partial` meets its hypotheses with fallbacks, precedences and types
example : ∃ p T, TreeOfRun C01ex.sums (tablesOf C01ex.sums) C01ex.sumsSem [] C01ex.input p 997 T ∧ HasRoom C01ex.sums T := by
  obtain ⟨p, h, _⟩ := C01ex.sums_accepted
  obtain ⟨T, hT⟩ := C60_accepted_partial OrdOk.id C01ex.sums_ok.1 C01ex.sums_ok.2.1 C01ex.sums_ok.2.2 C01ex.sumsSem h
  exact ⟨p, T, hT⟩

end Heightx

end Pomelo
