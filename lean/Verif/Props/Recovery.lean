import Verif.Proofs.Recovery
import Verif.Proofs.Repairs
import Verif.Proofs.ErrUse
import Verif.Props.Prefix
/-!
# C49: what is accepted after syntax errors

`Verif/Spec/Recovery.lean` has derivation trees with `error`, and what it means to parse with recovery.
-/

namespace Pomelo

open Spec

variable {ord : List (SymbolId × SymbolId) → List (SymbolId × SymbolId)} {ds : List Decl} {t : Tables} {V X E : Type}

/-- An accepted run over valid tokens, with or without errors -/
structure EndedRun (t : Tables) (sem : Sem V X E) (x : X) (toks : List (Tok V)) (p : Parser V X) (v : V) : Prop where
  valid : ∀ tok ∈ toks, tok.Valid t sem
  run : ∃ fuel, runAll t sem fuel x toks = some (.ok p v)

/-- C49 in full -/
def C49_statement : Prop :=
  ∀ (ord : List (SymbolId × SymbolId) → List (SymbolId × SymbolId)), OrdOk ord → ∀ (ds : List Decl) (t : Tables), compile ord ds = .ok t →
    ∀ (sem : Sem Int (List Nat) Unit) (x : List Nat) (toks : List (Tok Int)) p v, EndedRun t sem x toks p v →
      ∃ T w, IsRTree ds t.tokenNames T ∧
        Recovery ds sem (ds.any namesError) x toks [(T, w)] p.extra (rmovesOf (rulesOf ds).length p.trace) ∧ v = rootValue ds sem w

/-- C49: what is accepted is a derivation tree of the start symbol with `error` for parts of the input; the value and
the extra argument are those of the blocks run while it was built, and so is the order of reading, reducing, reporting
and throwing away.
Missing: tables with overlapping rows and classes of classes; there it is false, see `C49_false`. -/
theorem C49_partial (ho : OrdOk ord) (hc : compile ord ds = .ok t) (hf : flat ds = true) (hA : apart ord ds = true) (sem : Sem V X E) {x : X}
    {toks : List (Tok V)} {p : Parser V X} {v : V} (h : EndedRun t sem x toks p v) :
    ∃ T w, IsRTree ds t.tokenNames T ∧
      Recovery ds sem (ds.any namesError) x toks [(T, w)] p.extra (rmovesOf (rulesOf ds).length p.trace) ∧ v = rootValue ds sem w := by
  obtain ⟨s⟩ := compile_cspec hc
  obtain ⟨dflt, m⟩ := s.made ho hf
  obtain ⟨b⟩ := bridge ho s.decls s.auto
  obtain ⟨fuel, hrun⟩ := h.run
  rw [← m.decide_error ho b]
  exact m.run_recovery ho hA b sem h.valid hrun

/-- C49, with the symbol `error`: the leaves of the tree are the input with `error` in the place of some parts, each
of which contains the token at which the error was found; and the postorder of the tree is among the moves.
Missing: as `C49_partial`, and grammars with a rule for `error` itself. -/
theorem C49_repairs_partial (ho : OrdOk ord) (hc : compile ord ds = .ok t) (hf : flat ds = true) (hA : apart ord ds = true) (he : ds.any namesError = true)
    (hno : ∀ u ∈ rulesOf ds, u.lhs ≠ .error) (sem : Sem V X E) {x : X} {toks : List (Tok V)} {p : Parser V X} {v : V} (h : EndedRun t sem x toks p v) :
    ∃ T, IsRTree ds t.tokenNames T ∧ Repairs toks T.leaves ∧ T.post.Sublist (rmovesOf (rulesOf ds).length p.trace) ∧
      (PureBlocks sem → ∃ w, T.value ds sem x = .ok w ∧ v = rootValue ds sem w) := by
  obtain ⟨T, w, h1, h2, h3⟩ := C49_partial ho hc hf hA sem h
  refine ⟨T, h1, ?_, ?_, fun hp => ⟨w, ?_, h3⟩⟩
  · have := recovery_repairs h2 he hno
    simpa [RTree.leavess] using this
  · have := recovery_posts h2
    simpa [RTree.posts] using this
  · have := recovery_values hp x h2
    simp only [List.map_cons, List.map_nil, RTree.values] at this
    cases hT : T.value ds sem x with
    | error e => rw [hT] at this; cases this
    | ok w' => rw [hT] at this; cases this; rfl

/-- C49, without the symbol `error`: the tokens that are read, which are some of the input in their order, have a
derivation tree.
Missing: as `C49_partial`. -/
theorem C49_skips_partial (ho : OrdOk ord) (hc : compile ord ds = .ok t) (hf : flat ds = true) (hA : apart ord ds = true) (he : ds.any namesError = false)
    (sem : Sem V X E) {x : X} {toks : List (Tok V)} {p : Parser V X} {v : V} (h : EndedRun t sem x toks p v) :
    ∃ T, IsTree ds t.tokenNames T ∧ T.yield.Sublist toks ∧ T.yield.map (·.major) = (rmovesOf (rulesOf ds).length p.trace).filterMap RMove.read? := by
  obtain ⟨T, w, ⟨i, h1, h1'⟩, h2, h3⟩ := C49_partial ho hc hf hA sem h
  obtain ⟨P, h4, h5, h6⟩ := recovery_plain h2 he
  have h7 := rfits_plain h1' h4
  obtain ⟨T', rfl⟩ : ∃ T', P = [T'] := by
    simp only [List.map_cons, List.map_nil, RTree.plains?, Option.bind_eq_some_iff, Option.map_eq_some_iff] at h4
    obtain ⟨T', _, _, e, rfl⟩ := h4
    cases e
    exact ⟨T', rfl⟩
  refine ⟨T', ⟨i, h1, h7⟩, ?_, ?_⟩
  · simpa [Tree.yields] using h5
  · simpa [Tree.yields] using h6

/-- C49 before the end: as long as `parse` returns `Ok`, after errors as before, what has been read and not thrown away
is a row of trees that begins a sentential form.
Missing: as `C49_partial`. -/
theorem C49_prefix_partial (ho : OrdOk ord) (hc : compile ord ds = .ok t) (hf : flat ds = true) (hA : apart ord ds = true) (sem : Sem V X E) {x : X}
    {toks : List (Tok V)} (hv : ∀ tok ∈ toks, tok.Valid t sem) {fuel : Nat} {p : Parser V X} (h : feed t sem fuel (Parser.new sem x) toks = some (.ok p ())) :
    ∃ F es rest, Recovery ds sem (ds.any namesError) x toks F p.extra (rmovesOf (rulesOf ds).length p.trace) ∧
      SentForm ds (es ++ rest) ∧ RFits ds t.tokenNames (F.map (·.1)) es := by
  obtain ⟨s⟩ := compile_cspec hc
  obtain ⟨dflt, m⟩ := s.made ho hf
  obtain ⟨b⟩ := bridge ho s.decls s.auto
  have := m.rkept_feed ho hA b sem hv (RKept.new b sem x) h
  rw [List.nil_append] at this
  rw [← m.decide_error ho b]
  exact m.rkept_form ho b this

/-- C49 fails for tables with overlapping rows: the parser of `C01_false` accepts what has no tree. -/
theorem C49_false : ¬ C49_statement := by
  intro h
  obtain ⟨p, h1, _, h2, h3⟩ := C01ex.g2_accepts
  obtain ⟨T, w, ⟨i, g1, g2⟩, g3, _⟩ := h id OrdOk.id C01ex.g2 _ (Examples.compiles_iff (by decide +kernel)) Tests.logSem [] _ p 0 ⟨h1.valid, h1.run⟩
  obtain ⟨P, g4, g5, g6⟩ := recovery_plain g3 (by decide)
  have g7 := rfits_plain g2 g4
  obtain ⟨T', rfl⟩ : ∃ T', P = [T'] := by
    simp only [List.map_cons, List.map_nil, RTree.plains?, Option.bind_eq_some_iff, Option.map_eq_some_iff] at g4
    obtain ⟨T', _, _, e, rfl⟩ := g4
    cases e
    exact ⟨T', rfl⟩
  refine C01ex.g2_not T' ⟨i, g1, g7⟩ ?_
  have hlen : (rmovesOf (rulesOf C01ex.g2).length p.trace).filterMap RMove.read? = [3] := by
    have hp : ∀ q, runAll (Examples.tablesOf C01ex.g2) Tests.logSem 1000 [] [⟨3, 0⟩] = some (.ok q 0) →
        (rmovesOf (rulesOf C01ex.g2).length q.trace).filterMap RMove.read? = [3] := by
      intro q hq
      have hd : (match runAll (Examples.tablesOf C01ex.g2) Tests.logSem 1000 [] [⟨3, 0⟩] with
        | some (.ok q _) => decide ((rmovesOf (rulesOf C01ex.g2).length q.trace).filterMap RMove.read? = [3])
        | _ => true) = true := by decide +kernel
      rw [hq] at hd
      simpa using hd
    exact hp p h3
  rw [hlen] at g6
  have g8 : T'.yield.Sublist [⟨3, 0⟩] := by simpa [Tree.yields] using g5
  have g9 : T'.yield.map (·.major) = [3] := by simpa [Tree.yields] using g6
  have hl : T'.yield.length = 1 := by rw [← List.length_map (f := (·.major)), g9]; rfl
  exact g8.eq_of_length (by simp [hl])

/-! ## The hypotheses can be met -/

namespace Recoverex
open Tests (U L s r)
open Examples (compiles compiles_iff tablesOf validB validB_iff)

/-- `%type Num Int; %type l, e, error Int; s ::= l; l ::= ; l ::= l(A) e(B) Semi { A + B }; e ::= Num; e ::= e(A) Plus e(B) { A + B };
e ::= error;` with `%left Plus` (Plus 1, Num 2, Semi 3) -/
def lines : List Decl :=
  [ .assoc .left [U 1], .type false (U 2) (some (.named 0)), .type false (L 0) (some (.named 0)), .type false (L 1) (some (.named 0))
  , .type false (L 2) (some (.named 0)), .type false .error (some (.named 0))
  , r (L 0) [s (L 1)], r (L 1) [] (some 1), r (L 1) [s (L 1) true, s (L 2) true, s (U 3)] (some 0)
  , r (L 2) [s (U 2)], r (L 2) [s (L 2) true, s (U 1), s (L 2) true] (some 0), r (L 2) [s .error] ]

/-- Rule 0 adds, rule 1 is 0, an error counts 100 and is logged. -/
def linesSem : Sem Int (List Nat) Unit :=
  Tests.sem (fun n vs x => (.ok (match n, vs with | 0, [a, b] => a + b | _, _ => 0), x)) (fun k _ x => (.ok 100, x ++ [(k.map (·.major)).getD 0]))

/-- `Num(5) Semi Num(7) Num(8) Plus Num(1) Semi Num(2) Semi`: 5, an error, 2 -/
def input : List (Tok Int) := [⟨2, 5⟩, ⟨3, 0⟩, ⟨2, 7⟩, ⟨2, 8⟩, ⟨1, 0⟩, ⟨2, 1⟩, ⟨3, 0⟩, ⟨2, 2⟩, ⟨3, 0⟩]

def endedB (t : Tables) (m : Sem Int (List Nat) Unit) (toks : List (Tok Int)) (v : Int) (f : Parser Int (List Nat) → Bool) : Bool :=
  toks.all (validB t m) && match runAll t m 1000 [] toks with
    | some (.ok p w) => decide (w = v) && f p
    | _ => false

theorem endedB_iff {t : Tables} {m : Sem Int (List Nat) Unit} {toks : List (Tok Int)} {v : Int} {f : Parser Int (List Nat) → Bool} (h : endedB t m toks v f = true) :
    ∃ p, EndedRun t m [] toks p v ∧ f p = true := by
  unfold endedB at h
  rw [Bool.and_eq_true, List.all_eq_true] at h
  obtain ⟨h1, h2⟩ := h
  split at h2
  · rename_i p w ho
    rw [Bool.and_eq_true, decide_eq_true_eq] at h2
    obtain ⟨rfl, h3⟩ := h2
    exact ⟨p, ⟨fun tok ht => validB_iff (h1 tok ht), 1000, ho⟩, h3⟩
  · cases h2

/-- One error reported, at `Num(8)`; the sum is 5 + (100 + 1) + 2. -/
theorem lines_run : ∃ p, EndedRun (tablesOf lines) linesSem [] input p 108 ∧
    decide (p.extra = [2] ∧ (rmovesOf (rulesOf lines).length p.trace).filterMap RMove.read? = [2, 3, 2, 1, 2, 3, 2, 3]) = true :=
  endedB_iff (by decide +kernel)

theorem lines_error : lines.any namesError = true := by decide

theorem lines_noRule : ∀ u ∈ rulesOf lines, u.lhs ≠ .error := by decide

example : ∃ (p : Parser Int (List Nat)) (T : _) (w : _), IsRTree lines (tablesOf lines).tokenNames T ∧
    Recovery lines linesSem true [] input [(T, w)] p.extra (rmovesOf (rulesOf lines).length p.trace) ∧ p.extra = [2] ∧ (108 : Int) = rootValue lines linesSem w := by
  obtain ⟨p, h, hp⟩ := lines_run
  simp only [decide_eq_true_eq] at hp
  obtain ⟨T, w, h1, h2, h3⟩ := C49_partial OrdOk.id (compiles_iff (by decide +kernel)) (by decide) (by decide +kernel) linesSem h
  rw [lines_error] at h2
  exact ⟨p, T, w, h1, h2, hp.1, h3⟩

/-- The tree of the run above: `error` stands for `Num(7) Num(8)` and was found at `Num(8)`. -/
def linesTree : RTree Int :=
  .rule 0 [.rule 2 [.rule 2 [.rule 2 [.rule 1 [], .rule 3 [.tok ⟨2, 5⟩], .tok ⟨3, 0⟩],
    .rule 4 [.rule 5 [.error ⟨2, 8⟩ [1, 3] 100], .tok ⟨1, 0⟩, .rule 3 [.tok ⟨2, 1⟩]], .tok ⟨3, 0⟩], .rule 3 [.tok ⟨2, 2⟩], .tok ⟨3, 0⟩]]

example : Repairs input linesTree.leaves := by
  have h0 : Repairs (V := Int) [] [] := .nil
  have h1 := (h0.keep (k := ⟨2, 5⟩)).keep (k := ⟨3, 0⟩)
  have h2 := h1.cut (d := [⟨2, 7⟩, ⟨2, 8⟩]) (k := ⟨2, 8⟩) (by simp)
  exact ((((h2.keep (k := ⟨1, 0⟩)).keep (k := ⟨2, 1⟩)).keep (k := ⟨3, 0⟩)).keep (k := ⟨2, 2⟩)).keep (k := ⟨3, 0⟩)

example : (match linesTree.value lines linesSem [] with | .ok v => v | _ => 0) = 108 := by decide +kernel

/-- Leaves that are not the input with parts replaced: a token that was not read, and an error found elsewhere -/
example : ¬ Repairs [(⟨1, 0⟩ : Tok Int)] [.tok ⟨2, 0⟩] := by
  intro h
  generalize e1 : [(⟨1, 0⟩ : Tok Int)] = ts at h
  generalize e2 : [Leaf.tok (⟨2, 0⟩ : Tok Int)] = ls at h
  cases h with
  | nil => cases e1
  | @keep ts ls k h =>
    have a := congrArg List.getLast? e1
    have b := congrArg List.getLast? e2
    simp at a b
    rw [← b] at a
    cases a
  | @cut ts ls d k h hk =>
    have b := congrArg List.getLast? e2
    simp at b

example : ¬ Repairs [(⟨1, 0⟩ : Tok Int)] [.error ⟨2, 0⟩] := by
  intro h
  generalize e1 : [(⟨1, 0⟩ : Tok Int)] = ts at h
  generalize e2 : [Leaf.error (⟨2, 0⟩ : Tok Int)] = ls at h
  cases h with
  | nil => cases e1
  | @keep ts ls k h =>
    have b := congrArg List.getLast? e2
    simp at b
  | @cut ts ls d k h hk =>
    have b := congrArg List.getLast? e2
    simp at b
    have : k ∈ [(⟨1, 0⟩ : Tok Int)] := by rw [e1]; simp [hk]
    simp [← b] at this

example : ∃ p T, EndedRun (tablesOf lines) linesSem [] input p 108 ∧ IsRTree lines (tablesOf lines).tokenNames T ∧ Repairs input T.leaves := by
  obtain ⟨p, h, hp⟩ := lines_run
  obtain ⟨T, h1, h2, _⟩ := C49_repairs_partial OrdOk.id (compiles_iff (by decide +kernel)) (by decide) (by decide +kernel) lines_error lines_noRule linesSem h
  exact ⟨p, T, h, h1, h2⟩

/-- The blocks of `linesSem` return the same whatever the extra argument. -/
example : PureBlocks linesSem := fun _ _ _ _ => rfl

/-- Without `error`: tests/pass/error2.rs, `One Two Three Eol Two Eol One Two Three Eol` -/
def input2 : List (Tok Int) := [2, 3, 4, 1, 3, 1, 2, 3, 4, 1].map fun k => ⟨k, 0⟩

theorem error2_run : ∃ p, EndedRun (tablesOf Tests.error2) Tests.logSem [] input2 p 0 ∧
    decide (p.extra = [1, 99, 1]) = true := endedB_iff (by decide +kernel)

example : ∃ (p : Parser Int (List Nat)) (T : Tree Int), IsTree Tests.error2 (tablesOf Tests.error2).tokenNames T ∧ T.yield.Sublist input2 ∧ p.extra = [1, 99, 1] ∧
    T.yield.map (·.major) = (rmovesOf (rulesOf Tests.error2).length p.trace).filterMap RMove.read? := by
  obtain ⟨p, h, hp⟩ := error2_run
  obtain ⟨T, h1, h2, h3⟩ := C49_skips_partial OrdOk.id (compiles_iff (by decide +kernel)) (by decide) (by decide +kernel) (by decide) Tests.logSem h
  exact ⟨p, T, h1, h2, by simpa using hp, h3⟩

/-- The documentation (src/lib.rs:810-813) says that a grammar without `error` fails at the first syntax error; the code
skips the token and goes on (mod.rs:2771-2784). -/
theorem _root_.Pomelo.C49_documented : Tests.error2.any namesError = false ∧ ∃ p, EndedRun (tablesOf Tests.error2) Tests.logSem [] input2 p 0 ∧ p.extra = [1, 99, 1] := by
  obtain ⟨p, h, hp⟩ := error2_run
  exact ⟨by decide, p, h, by simpa using hp⟩

/-- The number of runs of `%syntax_error` before the parser gave up -/
def failedAfter : Option (Res Int (List Nat) Unit Int) → Option Nat
  | some (.err p _) => some (p.trace.countP fun | .syntaxError _ _ => true | _ => false)
  | _ => none

/-- It is enough to give `error` a type: then the same input is refused, and this without running `%syntax_error`, which
according to the documentation (src/lib.rs:800-801) comes first. -/
theorem _root_.Pomelo.C49_typed :
    failedAfter (runAll (tablesOf (Tests.error2 ++ [.type false .error (some (.named 0))])) Tests.logSem 1000 [] input2) = some 0 := by
  decide +kernel

/-- In the middle of the input, right after the error -/
example : ∃ p : Parser Int (List Nat), ∃ F es rest, Recovery lines linesSem true [] (input.take 4) F p.extra (rmovesOf (rulesOf lines).length p.trace) ∧
    SentForm lines (es ++ rest) ∧ RFits lines (tablesOf lines).tokenNames (F.map (·.1)) es ∧ p.extra = [2] := by
  have hv : ((input.take 4).all (validB (tablesOf lines) linesSem) &&
      match feed (tablesOf lines) linesSem 100 (Parser.new linesSem []) (input.take 4) with
      | some (.ok p _) => decide (p.extra = [2])
      | _ => false) = true := by decide +kernel
  rw [Bool.and_eq_true, List.all_eq_true] at hv
  obtain ⟨hv, hr⟩ := hv
  split at hr
  · rename_i p u hp
    obtain ⟨F, es, rest, h1, h2, h3⟩ := C49_prefix_partial OrdOk.id (compiles_iff (by decide +kernel)) (by decide) (by decide +kernel) linesSem
      (fun tok ht => validB_iff (hv tok ht)) hp
    rw [lines_error] at h1
    exact ⟨p, F, es, rest, h1, h2, h3, by simpa using hr⟩
  · cases hr

end Recoverex
end Pomelo
