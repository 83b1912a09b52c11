import Verif.Proofs.Borrow
import Verif.Spec.Borrow
import Verif.Props.Tables
import Verif.Props.Ends
/-!
# C61: the generator and its `RefCell`s
-/

namespace Pomelo

open Spec

variable {ord : List (SymbolId × SymbolId) → List (SymbolId × SymbolId)} {ds : List Decl}

/-! ## Proofs -/

theorem norm_inv (ho : OrdOk ord) {g0 gN : Grammar} (h0 : newFromDecls ds = .ok g0) (hN : (g0.prepare ord).findRulePrecedences.normalizeRules = .ok gN) : GInv gN := by
  obtain ⟨gD, _, hd, _, hne, rfl⟩ := newFromDecls_spec h0
  exact (GInv.prepare hd hne ho).shape ((findRulePrecedences_shape _).trans (normalizeRules_shape hN))

theorem links_fine (ho : OrdOk ord) {g0 gN gF g : Grammar} {sts : List LState} (h0 : newFromDecls ds = .ok g0)
    (hN : (g0.prepare ord).findRulePrecedences.normalizeRules = .ok gN) (hF : gN.findFirstSets = .ok gF) (hs : gF.findStates = .ok (g, sts)) : fine (linksEvents sts) := by
  have hi := (norm_inv ho h0 hN).shape ((findFirstSets_shape hF).trans (markStart_shape gF (gF.start.getD 0)))
  unfold Grammar.findStates at hs
  simp only at hs
  split at hs
  · cases hs
  · split at hs
    · cases hs
    · rename_i k hg
      cases hs
      have hsh : Shape gF (gF.markStart (gF.start.getD 0)) := markStart_shape _ _
      have hst : gF.start.getD 0 = (gF.markStart (gF.start.getD 0)).start.getD 0 := by rw [hsh.start]
      have hc := startBasis_ok (g := gF) (g' := gF.markStart (gF.start.getD 0)) (sp := gF.start.getD 0) (by
        have := hi.start_kind.1
        rwa [← hst, hsh.kind] at this)
      have hp := getState_ok _ _ _ _ _ _ _ (SInv.nil _ _) hc hg
      refine linksEvents_bal fun q hq it l h => ?_
      obtain ⟨_, _, _, _, h⟩ := hp.inv.links q hq it l h
      exact h

theorem raw_inj (ho : OrdOk ord) {g0 g : Grammar} {sts : List LState} (h0 : newFromDecls ds = .ok g0) (h1 : g0.automaton ord = .ok (g, sts)) {q : StateId}
    (hq : q < sts.length) : ∀ a ∈ g.rawActions q (sts.getD q default), ∀ b ∈ g.rawActions q (sts.getD q default), (g.sym a.la).index = (g.sym b.la).index → a.la = b.la := by
  have hi := GInv.automaton h0 ho h1
  have ha := automaton_auto ho h0 h1
  intro a h b h' e
  exact hi.index_inj (raw_la hi ha hq a h).1 (raw_la hi ha hq b h').1 e

theorem again_fine (ho : OrdOk ord) {g0 g : Grammar} {sts : List LState} {acts : List (List Action)} {n : Nat} (h0 : newFromDecls ds = .ok g0)
    (h1 : g0.automaton ord = .ok (g, sts)) (h2 : g.findActions sts = .ok (acts, n)) {q : StateId} (hq : q < sts.length) {dflt : SymbolId} {ig : List SymbolId}
    {r : RuleId} (hd : g.symbolFind .dflt = some dflt) {pairs : List (Nat × Nat)} (hp : compares (acts.getD q []).length pairs) :
    fine (g.sortEvents q (makeDefault ig dflt r (acts.getD q [])) pairs) := by
  have hi := GInv.automaton h0 ho h1
  have ha := automaton_auto ho h0 h1
  have he := (findActions_get h2).2.1 q hq
  have hone : OneShift (acts.getD q []) := by rw [he]; exact resolveL_oneShift _ _ rfl (sorted_raw hi ha hq)
  have hla : ∀ a ∈ acts.getD q [], a.la < g.syms.length := by
    intro a h
    rw [he] at h
    have : a.la ∈ ((g.resolveState (g.rawActions q (sts.getD q default))).1).map (·.la) := List.mem_map_of_mem h
    have hm : ((g.resolveState (g.rawActions q (sts.getD q default))).1).map (·.la) = (sortBy g.actionLt (g.rawActions q (sts.getD q default))).map (·.la) :=
      resolveL_la _ _ rfl
    rw [hm] at this
    obtain ⟨b, hb, e⟩ := List.mem_map.1 this
    rw [mem_sortBy] at hb
    rw [← e]
    exact (raw_la hi ha hq b hb).1
  have hdl : dflt < g.syms.length := by
    unfold Grammar.symbolFind at hd
    have h2 := List.mem_of_find?_eq_some hd
    obtain ⟨i, hi1, hi2⟩ := List.mem_iff_getElem.1 h2
    have h3 := (hi.index i (by rw [← hi.slen]; exact hi1)).1
    rwa [getD_of_lt hi1, hi2] at h3
  have hlen : ∀ l : List Action, (makeDefault ig dflt r l).length = l.length := by
    intro l
    induction l with
    | nil => rfl
    | cons a l ih =>
      unfold makeDefault
      split
      · simp
      · simp [ih]
  have hlas : ∀ a ∈ makeDefault ig dflt r (acts.getD q []), a.la < g.syms.length := by
    intro a h
    have := makeDefault_las h
    rcases this with h | ⟨b, hb, h⟩
    · rw [h]; exact hdl
    · rw [← h]; exact hla b hb
  exact sortEvents_bal ((makeDefault_oneShift hone).noSelf q) (fun a h b h' e => hi.index_inj (hlas a h) (hlas b h') e) (by rw [hlen]; exact hp)

theorem assignTypes_head : ∀ {ss : List SymbolId} {g g' : Grammar} {ts ts' : List Ty}, g.assignTypes ts ss = .ok (g', ts') →
    ∀ s ∈ ss, g.wildcard ≠ some s → (g.sym s).kind = .multiTerminal → (g.sym s).subs.head? ≠ some s
  | [], _, _, _, _, _ => by simp
  | s :: ss, g, g', ts, ts', h => by
    have step : ∀ {d : Option Ty} {n : Nat} {ts : List Ty}, (g.modifySym s (fun b => { b with dataType := d, dtNum := n })).assignTypes ts ss = .ok (g', ts') →
        ∀ s ∈ ss, g.wildcard ≠ some s → (g.sym s).kind = .multiTerminal → (g.sym s).subs.head? ≠ some s := by
      intro d n ts h x hx
      have := assignTypes_head h x hx
      rwa [proj_modifySym (·.kind) (by exact fun _ => rfl), proj_modifySym (·.subs) (by exact fun _ => rfl)] at this
    unfold Grammar.assignTypes at h
    intro x hx hw hk
    split at h
    · rename_i hs
      rcases List.mem_cons.1 hx with rfl | hx
      · exact absurd hs hw
      · exact assignTypes_head h x hx hw hk
    · rcases List.mem_cons.1 hx with rfl | hx
      · intro hh
        have : g.finalType x = .error .panic := by
          unfold Grammar.finalType
          simp only [hk]
          cases hs : (g.sym x).subs with
          | nil => rfl
          | cons f l =>
            rw [hs] at hh
            simp only [List.head?_cons, Option.some.injEq] at hh
            simp only [if_pos hh]; rfl
        rw [this] at h
        cases h
      · split at h
        · cases h
        · exact step h x hx hw hk
        · exact step h x hx hw hk

/-! ## The property -/

/-- C61: no two borrows of a cell are in conflict, in any pass of the generator. -/
def C61_statement : Prop := ∀ ord, OrdOk ord → ∀ ds, written ds = true → EarlyFine ord ds ∧ SortFine ord ds ∧ TypesFine ord ds

/-- C61 for all passes but the first sort of the actions and the numbering of the types.
Missing: these two, where it is false (`C61_false_sort`, `C61_false_types`); they are exact in `C61_sort` and `C61_types`. -/
theorem C61_partial (ho : OrdOk ord) (ds : List Decl) : EarlyFine ord ds where
  first := fun _ _ h0 hN => firstEvents_bal (norm_inv ho h0 hN)
  merge := fun _ _ bp hk => mergeEvents_bal hk bp
  links := fun _ _ _ _ _ h0 hN hF hs => links_fine ho h0 hN hF hs
  resolve := fun _ _ _ same h => resolveEvents_bal (Nat.ne_of_lt h) same
  again := fun _ _ _ _ _ h0 h1 h2 _ hq _ _ _ hd _ _ hp => again_fine ho h0 h1 h2 hq hd hp

/-- C61, the first sort of the actions of a state: if no token has two shifts of which one leads back to the state, then it does not
matter what is compared.  Otherwise there are two actions whose comparison panics and which are neighbours in the result; so every sort must
compare them. -/
theorem C61_sort (ho : OrdOk ord) {g0 g : Grammar} {sts : List LState} (h0 : newFromDecls ds = .ok g0) (h1 : g0.automaton ord = .ok (g, sts)) {q : StateId}
    (hq : q < sts.length) :
    (selfShift q (g.rawActions q (sts.getD q default)) = false → ∀ pairs, compares (g.rawActions q (sts.getD q default)).length pairs →
      fine (g.sortEvents q (g.rawActions q (sts.getD q default)) pairs)) ∧
    (selfShift q (g.rawActions q (sts.getD q default)) = true → ∃ pre a b post, sortBy g.actionLt (g.rawActions q (sts.getD q default)) = pre ++ a :: b :: post ∧
      (∃ i j : Nat, i ≠ j ∧ (g.rawActions q (sts.getD q default))[i]? = some a ∧ (g.rawActions q (sts.getD q default))[j]? = some b) ∧
      ∀ i j : Nat, (g.rawActions q (sts.getD q default))[i]? = some a → (g.rawActions q (sts.getD q default))[j]? = some b →
        ∀ before after, compares (g.rawActions q (sts.getD q default)).length before →
        borrowRun [] (g.sortEvents q (g.rawActions q (sts.getD q default)) (before ++ (i, j) :: after)) = none ∧
        borrowRun [] (g.sortEvents q (g.rawActions q (sts.getD q default)) (before ++ (j, i) :: after)) = none) := by
  have hinj := raw_inj ho h0 h1 hq
  generalize g.rawActions q (sts.getD q default) = acts at hinj
  refine ⟨fun h pairs hp => sortEvents_bal (selfShift_noSelf h) hinj hp, fun h => ?_⟩
  obtain ⟨pre, a, b, post, e, hl, ha, hb, hab⟩ := selfShift_neighbours h hinj
  refine ⟨pre, a, b, post, e, two_positions ?_, ?_⟩
  · have h1 : [a, b].Sublist (sortBy g.actionLt acts) := by
      rw [e]
      exact ((List.Sublist.cons₂ a (List.Sublist.cons₂ b (List.nil_sublist post)))).trans (List.sublist_append_right pre _)
    exact h1.subperm.trans (perm_sortBy _ _).subperm
  · intro i j hi hj before after hbef
    have key : ∀ p : Nat × Nat, borrowRun [(.state q, true)] (g.cmpEvents q acts p) = none →
        borrowRun [] (g.sortEvents q acts (before ++ p :: after)) = none := by
      intro p hp
      unfold Grammar.sortEvents
      have : borrowRun [(.state q, true)] (before.flatMap (g.cmpEvents q acts)) = none ∨
          borrowRun [(.state q, true)] (before.flatMap (g.cmpEvents q acts)) = some [(.state q, true)] := by
        induction before with
        | nil => exact .inr rfl
        | cons x xs ih =>
          rw [List.flatMap_cons, borrowRun_append]
          have hx : borrowRun [(.state q, true)] (g.cmpEvents q acts x) = none ∨ borrowRun [(.state q, true)] (g.cmpEvents q acts x) = some [(.state q, true)] := by
            have hx := hbef x (by simp)
            by_cases hbad : ∃ a b, acts[x.1]? = some a ∧ acts[x.2]? = some b ∧ a.la = b.la ∧ a.detail.isShift = true ∧ b.detail.isShift = true ∧
                (a.detail = .shift q ∨ b.detail = .shift q)
            · obtain ⟨a, b, h1, h2, h3, h4, h5, h6⟩ := hbad
              exact .inl (cmpEvents_panics (i := x.1) (j := x.2) h1 h2 h3 h4 h5 h6)
            · right
              have h1 : acts[x.1]? = some acts[x.1] := List.getElem?_eq_getElem hx.2.1
              have h2 : acts[x.2]? = some acts[x.2] := List.getElem?_eq_getElem hx.2.2
              exact cmpEvents_bal' hinj hx.2.1 hx.2.2 (fun hl ha hb => by
                rw [getD_of_lt hx.2.1, getD_of_lt hx.2.2] at *
                by_contra hn
                refine hbad ⟨_, _, h1, h2, hl, ha, hb, ?_⟩
                tauto)
          rcases hx with hx | hx
          · rw [hx]; exact .inl rfl
          · rw [hx]; exact ih fun p hp => hbef p (by simp [hp])
      rw [List.cons_append]
      simp only [borrowRun, borrowStep, List.any_nil, Bool.false_eq_true, if_false, Option.bind_some]
      rw [borrowRun_append, List.flatMap_append, borrowRun_append, List.flatMap_cons]
      rcases this with h | h
      · rw [h]; rfl
      · rw [h, Option.bind_some, borrowRun_append, hp]; rfl
    exact ⟨key _ (cmpEvents_panics hi hj hl ha hb hab), key _ (cmpEvents_panics hj hi hl.symm hb ha hab.symm)⟩

/-- C61, the numbering of the types: the conflict is exactly that a class other than the wildcard begins with itself. -/
theorem C61_types (R : Run ord ds) : fine (R.g.typeEvents R.g.symbols) ↔
    ∀ s ∈ R.g.symbols, R.g.wildcard ≠ some s → (R.g.sym s).kind = .multiTerminal → (R.g.sym s).subs.head? ≠ some s := typeEvents_bal

/-- One pass over the rules for the FIRST sets (mod.rs:797-844) -/
def firstPass (rules : List Rule) (syms : List Symbol) : List Symbol × Bool := rules.foldl (fun acc r => firstRhs r.lhs acc r.rhs) (syms, false)

/-- The borrows are those of all passes, up to the first that changes nothing. -/
theorem C61_passes (rules : List Rule) : ∀ (n : Nat) (syms : List Symbol), ∃ k,
    firstLoopEvents rules n syms = (List.range k).flatMap (fun i => firstPassEvents 0 ((fun s => (firstPass rules s).1)^[i] syms, false) rules) ∧
    (k = n ∨ 0 < k ∧ (firstPass rules ((fun s => (firstPass rules s).1)^[k - 1] syms)).2 = false)
  | 0, _ => ⟨0, rfl, .inl rfl⟩
  | n + 1, syms => by
    unfold firstLoopEvents
    cases hp : (firstPass rules syms).2 with
    | false =>
      refine ⟨1, ?_, .inr ⟨Nat.one_pos, hp⟩⟩
      show _ ++ (if (firstPass rules syms).2 = true then _ else _) = _
      rw [hp]
      rfl
    | true =>
      obtain ⟨k, h1, h2⟩ := C61_passes rules n (firstPass rules syms).1
      refine ⟨k + 1, ?_, ?_⟩
      · show _ ++ (if (firstPass rules syms).2 = true then firstLoopEvents rules n (firstPass rules syms).1 else _) = _
        rw [hp, if_pos rfl, h1, List.range_succ_eq_map, List.flatMap_cons, List.flatMap_map]
        rfl
      · rcases h2 with rfl | ⟨h2, h3⟩
        · exact .inl rfl
        · obtain ⟨k, rfl⟩ := Nat.exists_eq_succ_of_ne_zero h2.ne'
          exact .inr ⟨Nat.succ_pos _, h3⟩

/-- C61: if the macro does not panic, then no pass has a conflict: the two above are panics. -/
theorem C61_complete (ho : OrdOk ord) (h : compile ord ds ≠ .error .panic) : EarlyFine ord ds ∧ SortFine ord ds ∧ TypesFine ord ds := by
  refine ⟨C61_partial ho ds, fun g0 g sts h0 h1 q hq pairs hp => (C61_sort ho h0 h1 hq).1 ?_ pairs hp, fun R hw => (C61_types R).2 ?_⟩
  · rw [Bool.eq_false_iff]
    intro hs
    apply h
    have h2 : g.findActions sts = .error .panic := by
      unfold Grammar.findActions
      rw [if_pos]
      rw [List.any_eq_true]
      refine ⟨(sts[q], q), ?_, by simp only; rwa [getD_of_lt hq] at hs⟩
      rw [List.mem_zipIdx_iff_getElem?]; simp [List.getElem?_eq_getElem hq]
    unfold compile Grammar.build
    simp only [bind, Except.bind, h0, h1, h2]
  · have hc : compile ord ds = R.g.generate (R.g.resortStates R.final) := by
      unfold compile Grammar.build
      simp only [bind, Except.bind, R.decls, R.auto, R.actions, R.compress, gt_iff_lt, Nat.lt_irrefl, if_false, pure, Except.pure]
    cases hass : R.g.assignTypes [] R.g.symbols with
    | ok x => exact assignTypes_head hass
    | error e =>
      exfalso
      obtain ⟨rfl, _⟩ := assignTypes_err hass
      apply h
      rw [hc]
      unfold Grammar.generate
      rw [if_neg, hass]
      cases hwc : R.g.wildcard with
      | none => simp
      | some w => simp [hw w hwc]

/-! ## Concrete cases -/

namespace C61ex
open Tests (U L s r)

/-- Lists with an empty rule, a class and an optional token; the state after `[` is left by two items. -/
def lists : List Decl :=
  [ .tokenClass (U 1) [U 2, U 3], r (L 0) [s (L 1)], r (L 1) [], r (L 1) [s (L 1), s (L 2)], r (L 2) [s (U 1)],
    r (L 2) [s (U 4), s (L 1), s (U 5)], r (L 2) [s (U 6) (opt := true), s (U 7)] ]

/-- The events of `find_first_sets` and `find_links`, the actions of the states -/
def eventsOf (ds : List Decl) : Option (List BorrowEv × List BorrowEv) :=
  match newFromDecls ds with
  | .error _ => none
  | .ok g0 => match (g0.prepare id).findRulePrecedences.normalizeRules with
    | .error _ => none
    | .ok gN => match gN.findFirstSets with
      | .error _ => none
      | .ok gF => match gF.findStates with
        | .error _ => none
        | .ok (_, sts) => some (gN.firstEvents, linksEvents sts)

-- the premisses of `C61_complete`, and that the passes borrow cells mutably under other borrows
example : compile id lists ≠ .error .panic ∧ Examples.compiles lists = true ∧ (eventsOf lists).any (fun e => e.1.length > 100 && e.2.length > 100 &&
    e.1.any (fun x => match x with | .getMut (.symbol _) => true | _ => false) &&
    e.2.any (fun x => match x with | .getMut (.config _) => true | _ => false)) = true := by decide +kernel
-- more than one pass: the first rule is borrowed again in each
example : (eventsOf lists).map (fun e => decide (2 ≤ e.1.count (.get (.rule 0)))) = some true := by decide +kernel
-- with a class that contains the left side, or a link of a configuration to itself, the passes would panic
example : borrowRun [] (firstRhsEvents 0 ([{ name := .dollar, kind := .nonTerminal }, { name := .dollar, kind := .multiTerminal, subs := [0] }], false) [⟨1, false⟩]) = none := by
  decide +kernel
example : borrowRun [] (linksEvents [{ basis := [], configs := [{ item := ⟨0, 0⟩, fws := [], bplp := [⟨0, ⟨0, 0⟩⟩], fplp := [] }], actions := [] }]) = none := by
  decide +kernel

/-- The raw actions of the states that have two shifts on a token, one of them back -/
def twiceB : Bool :=
  match newFromDecls C45ex.twice with
  | .error _ => false
  | .ok g0 => match g0.automaton id with
    | .error _ => false
    | .ok (g, sts) => sts.zipIdx.any fun (st, q) => selfShift q (g.rawActions q st) &&
        ((List.range (g.rawActions q st).length).flatMap (fun i => (List.range (g.rawActions q st).length).map (i, ·))).any fun p =>
          decide (p.1 ≠ p.2) && (borrowRun [] (g.sortEvents q (g.rawActions q st) [p])).isNone
end C61ex

/-- C61 is false in the first sort of the actions: in `s ::= x; x ::= A x; x ::= A|B C;` after `A`. -/
theorem C61_false_sort : ¬ SortFine id C45ex.twice := by
  intro h
  have h1 : C61ex.twiceB = true := by decide +kernel
  unfold C61ex.twiceB at h1
  split at h1
  · cases h1
  · rename_i g0 h0
    split at h1
    · cases h1
    · rename_i g sts ha
      obtain ⟨⟨st, q⟩, hq, h1⟩ := List.any_eq_true.1 h1
      rw [List.mem_zipIdx_iff_getElem?] at hq
      obtain ⟨hq, he⟩ := List.getElem?_eq_some_iff.1 hq
      simp only at hq he h1
      rw [Bool.and_eq_true] at h1
      obtain ⟨p, hp, h2⟩ := List.any_eq_true.1 h1.2
      rw [Bool.and_eq_true, decide_eq_true_eq] at h2
      have := h g0 g sts h0 ha q hq [p] (by
        rw [getD_of_lt hq, he]
        intro p' hp'
        rw [List.mem_singleton] at hp'
        subst hp'
        obtain ⟨i, hi, hp⟩ := List.mem_flatMap.1 hp
        obtain ⟨j, hj, rfl⟩ := List.mem_map.1 hp
        exact ⟨h2.1, List.mem_range.1 hi, List.mem_range.1 hj⟩)
      rw [getD_of_lt hq, he] at this
      unfold fine at this
      rw [this] at h2
      cases h2.2

/-- C61 is false in the numbering of the types: `%token_class A A B; s ::= A;` -/
theorem C61_false_types : ¬ TypesFine id C45ex.selfFirst := by
  intro h
  have h1 : (runOf C45ex.selfFirst).any (fun R => R.g.wildcard.isNone && (borrowRun [] (R.g.typeEvents R.g.symbols)).isNone) = true := by decide +kernel
  cases hr : runOf C45ex.selfFirst with
  | none => rw [hr] at h1; cases h1
  | some R =>
    rw [hr, Option.any_some, Bool.and_eq_true, Option.isNone_iff_eq_none, Option.isNone_iff_eq_none] at h1
    have := h R (by rw [h1.1]; simp)
    unfold fine at this
    rw [h1.2] at this
    cases this

theorem C61_false : ¬ C61_statement := fun h => C61_false_sort (h id (fun _ => List.Perm.refl _) C45ex.twice (by decide)).2.1

end Pomelo
