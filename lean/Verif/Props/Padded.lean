import Verif.Spec.Padded
import Verif.Proofs.Padded
import Verif.Props.Api
import Verif.Props.Tables
import Verif.Props.Complete
import Verif.Props.Safe
/-!
# Tokens that keep the rows apart

The rows of the packed action table may overlap, and then the parser acts on tokens that it should refuse (`C12_false`).
Most of what is proved of the parser needs that they do not (`apart`), which is a property of the tables and not of the
declarations.  Here is one of the declarations: it begins with tokens that no rule uses, as many as there are rules.
-/

namespace Pomelo

open Spec

variable {ord : List (SymbolId × SymbolId) → List (SymbolId × SymbolId)} {ds : List Decl} {t : Tables} {V X E : Type}

theorem optionalSym_some {e : RhsElem} {i : Ident} : optionalSym e = some i ↔ e.toks = [i] ∧ e.optional = true := by
  unfold optionalSym
  split
  · rename_i j h1 h2
    rw [h1, h2]; simp
  · rename_i h
    constructor
    · intro h; cases h
    · rintro ⟨h1, h2⟩; exact absurd h2 (h i h1)

theorem mem_optionalOf {i : Ident} : i ∈ optionalOf ds ↔ ∃ u ∈ rulesOf ds, ∃ e ∈ u.rhs, e.toks = [i] ∧ e.optional = true := by
  unfold optionalOf
  rw [List.mem_eraseDups, List.mem_flatMap]
  simp only [List.mem_filterMap, optionalSym_some]

theorem Bridge0.optionals_length {g : Grammar} (ho : OrdOk ord) (b : Bridge0 ord ds g) : b.gD.optionals.length = (optionalOf ds).length := by
  have hin : ∀ o ∈ b.gD.optionals, o.1 < b.gD.syms.length := by
    intro o h
    obtain ⟨k, hk⟩ := List.mem_iff_getElem?.1 h
    exact (b.dinv.opts k o.1 o.2 hk).1
  have h1 : (b.gD.optionals.map fun o => (b.gD.sym o.1).name).Nodup := by
    have := b.dinv.optKeys
    unfold List.Nodup at this ⊢
    rw [List.pairwise_map] at this ⊢
    refine this.imp_of_mem ?_
    intro o o' h h' hne he
    obtain ⟨_, _, _, _, _, i, _, hi⟩ := b.opt_ident h
    exact hne (b.same_name (hin o h) (hin o' h') hi (he ▸ hi))
  have h2 : ((optionalOf ds).map SymName.ident).Nodup := by
    have := nodup_eraseDups _ ((rulesOf ds).flatMap fun u => u.rhs.filterMap optionalSym) (Nat.le_refl _)
    unfold List.Nodup at this ⊢
    rw [List.pairwise_map]
    exact this.imp fun h he => h (SymName.ident.inj he)
  have h3 : ∀ n, n ∈ (b.gD.optionals.map fun o => (b.gD.sym o.1).name) ↔ n ∈ (optionalOf ds).map SymName.ident := by
    intro n
    rw [List.mem_map, List.mem_map]
    constructor
    · rintro ⟨o, h, rfl⟩
      obtain ⟨u, hu, e, he, h4, i, h5, h6⟩ := b.opt_ident h
      exact ⟨i, mem_optionalOf.2 ⟨u, hu, e, he, h5, h4⟩, h6.symm⟩
    · rintro ⟨i, h, rfl⟩
      obtain ⟨u, hu, e, he, h5, h4⟩ := mem_optionalOf.1 h
      obtain ⟨n, hn⟩ := List.mem_iff_getElem?.1 hu
      obtain ⟨_, _, _, w4, _, _⟩ := b.written ho hn
      obtain ⟨x, _, hs⟩ := forall₂_mem_left w4 he
      rcases hs with ⟨tok, t1, t2, t3⟩ | ⟨tok, symR, t1, t2, _, t4, t5⟩ | ⟨t1, t2, _⟩
      · rw [h4] at t2; cases t2
      · rw [h5] at t1
        cases t1
        exact ⟨_, t4, t5⟩
      · exact absurd h5 (t1 i)
  have := ((List.perm_ext_iff_of_nodup h1 h2).2 h3).length_eq
  simpa using this

/-- The number of rules -/
theorem CSpec.ruleCount (ho : OrdOk ord) (s : CSpec ord ds t) : t.nRule = ruleCount ds := by
  obtain ⟨b⟩ := bridge ho s.decls s.auto
  have h2 : ∀ l : List (SymbolId × SymbolId), (l.flatMap optRules).length = 2 * l.length := by
    intro l
    induction l with
    | nil => rfl
    | cons o l ih =>
      rw [List.flatMap_cons, List.length_append, ih, List.length_cons]
      show 2 + _ = _
      omega
  rw [(s.nStates ho).2, ← b.rules.length_eq, b.rulesP, List.length_append, h2, b.nrules, (ho b.gD.optionals).length_eq, b.optionals_length ho]
  rfl

/-- C64, for the tables: if the list begins with tokens that are not used, as many as there are rules, then no row of the packed table sees
an entry of another one. -/
theorem C64_rows (ho : OrdOk ord) (hc : compile ord ds = .ok t) (hp : padded ds = true) : apart ord ds = true := by
  obtain ⟨s⟩ := compile_cspec hc
  obtain ⟨_, _, _, hn, _⟩ := C52_partial ho hc
  unfold padded at hp
  rw [Bool.and_eq_true, decide_eq_true_eq, List.all_eq_true] at hp
  refine s.apart_of_pads ho fun k h1 h2 => ?_
  rw [s.ruleCount ho] at h2
  have hk : k - 1 < (tokensOf ds).length := by omega
  have hm : (tokensOf ds)[k - 1] ∈ tokensOf ds := List.getElem_mem hk
  refine ⟨(tokensOf ds)[k - 1], ?_, (mem_tokensOf.1 hm).2.1, hp.2 _ ?_⟩
  · obtain ⟨j, rfl⟩ : ∃ j, k = j + 1 := ⟨k - 1, by omega⟩
    rw [hn, List.getElem?_cons_succ, List.getElem?_map]
    simp only [Nat.add_sub_cancel] at hk ⊢
    rw [List.getElem?_eq_getElem hk]
    rfl
  · rw [List.mem_iff_getElem?]
    refine ⟨k - 1, ?_⟩
    rw [List.getElem?_take, if_pos (by omega), List.getElem?_eq_getElem hk]

/-- The same with the number of rules of the tables -/
theorem C64_count (ho : OrdOk ord) (hc : compile ord ds = .ok t) : t.nRule = ruleCount ds := by
  obtain ⟨s⟩ := compile_cspec hc
  exact s.ruleCount ho

/-- C64: if the list begins with tokens that are not used, as many as there are rules, then the tables say what the states say (this is C12
without an exception). -/
theorem C64 (ho : OrdOk ord) (hc : compile ord ds = .ok t) (hf : flat ds = true) (hp : padded ds = true) (R : Run ord ds) {q : StateId}
    (hq : q < R.sts.length) :
    (∀ a, IsToken R.g a → ∀ d, (actionsFor (R.finalOf q) a).getLast? = some d →
      (t.findShift (R.row q) (R.g.sym a).index).toOption = R.encode d) ∧
    (∀ a, IsToken R.g a → actionsFor (R.finalOf q) a = [] →
      a = 0 ∨ ((R.g.sym a).fallback = none ∧ ∀ w, R.g.wildcard = some w → actionsFor (R.finalOf q) w = []) →
      (t.findShift (R.row q) (R.g.sym a).index).toOption = R.encode (R.defaultOf q)) ∧
    (∀ A, A < R.g.syms.length → (R.g.sym A).kind = .nonTerminal → (R.g.sym A).name ≠ .dflt →
      ∀ d, (actionsFor (R.finalOf q) A).getLast? = some d →
      (t.findReduce (R.row q) (R.g.sym A).index).toOption = R.encode d) := by
  obtain ⟨h1, h2, h3⟩ := C12_partial ho hc hf R hq
  exact ⟨h1, fun a ha hn => h2 a ha hn (C64_rows ho hc hp), h3⟩

/-- Accepted inputs are sentences (C01). -/
theorem C64_sound (ho : OrdOk ord) (hc : compile ord ds = .ok t) (hf : flat ds = true) (hp : padded ds = true) (sem : Sem V X E) {x : X}
    {toks : List (Tok V)} {p : Parser V X} {v : V} (h : AcceptedRun t sem x toks p v) : ∃ T, IsTree ds t.tokenNames T ∧ T.yield = toks :=
  C01_partial ho hc hf (C64_rows ho hc hp) sem h

/-- Sentences are accepted (C03). -/
theorem C64_complete (ho : OrdOk ord) (hc : compile ord ds = .ok t) (hf : flat ds = true) (hp : padded ds = true) (hr : rootOk ds = true)
    (hw : wildcardOf ds = none) (hn : noAssoc ds = true) (sem : Sem V X E) (x : X) {T : Tree V} (h : IsOwnTree ds t.tokenNames T)
    (hv : ∀ tok ∈ T.yield, tok.Valid t sem) : AcceptsTree ds t sem x T ∨ FailsTree ds t sem x T ∨ OverflowsTree t sem x T :=
  C03_noAssoc_partial ho hc hf (C64_rows ho hc hp) hr hw hn sem x h hv

/-- The parser does not panic (C07). -/
theorem C64_safe (ho : OrdOk ord) (hc : compile ord ds = .ok t) (hf : flat ds = true) (hp : padded ds = true) (hn : noSelfFallback ds = true)
    (ha : aliasOk ds = true) (hr : rootOk ds = true) {sem : Sem V X E} {p : Parser V X} (h : OkReach t sem p) : NoPanic t sem p (fun _ => True) :=
  C07_partial ho hc hf (C64_rows ho hc hp) hn ha hr h

namespace C64ex
open Tests (U L s r)
open Examples (compiles compiles_iff tablesOf)

/-- `%type P1; %type P2;` before `s ::= a; a ::= A;` -/
def tinyPadded : List Decl := [ .type false (U 11) none, .type false (U 12) none ] ++ C12ex.tiny

-- Without the two tokens the rows overlap, with them they do not.
example : compiles C12ex.tiny = true ∧ padded C12ex.tiny = false ∧ apart id C12ex.tiny = false := by decide +kernel
example : compiles tinyPadded = true ∧ flat tinyPadded = true ∧ padded tinyPadded = true ∧ apart id tinyPadded = true := by decide +kernel

/-- `%type P1; %type X; s ::= A; s ::= B; s ::= C X;`: three rules -/
def three (pads : List Decl) : List Decl := pads ++ [ .type false (U 9) none, r (L 0) [s (U 1)], r (L 0) [s (U 2)], r (L 0) [s (U 3), s (U 9)] ]

-- With one token that is not used the rows still overlap, with three they cannot.
example : compiles (three [.type false (U 11) none]) = true ∧ ruleCount (three [.type false (U 11) none]) = 3 ∧
    apart id (three [.type false (U 11) none]) = false := by decide +kernel
example : padded (three [.type false (U 11) none, .type false (U 12) none, .type false (U 13) none]) = true ∧
    compiles (three [.type false (U 11) none, .type false (U 12) none, .type false (U 13) none]) = true := by decide +kernel

/-- Tokens that are not used, then an optional symbol: `%type P1; … %type P4; s ::= a; a ::= A B?;` -/
def optPadded : List Decl :=
  [ .type false (U 11) none, .type false (U 12) none, .type false (U 13) none, .type false (U 14) none,
    r (L 0) [s (L 1)], r (L 1) [s (U 1), s (U 2) false true] ]

example : compiles optPadded = true ∧ ruleCount optPadded = 4 ∧ padded optPadded = true ∧ flat optPadded = true := by decide +kernel
example : (tablesOf optPadded).nRule = 4 := C64_count OrdOk.id (compiles_iff (by decide +kernel))
end C64ex

end Pomelo
