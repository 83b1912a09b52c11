import Verif.Proofs.Root
import Verif.Proofs.Height
import Verif.Proofs.RunClean
import Verif.Props.Decls
/-!
# C01, C02, C44: accepted inputs

`Verif/Spec/Parse.lean` has the derivation trees over the written rules and their values.
-/

namespace Pomelo

open Spec

variable {ord : List (SymbolId × SymbolId) → List (SymbolId × SymbolId)} {ds : List Decl} {t : Tables} {V X E : Type}

mutual
/-- The tokens of a tree in the order of its postorder -/
theorem Tree.post_yield : ∀ T : Tree V, T.post.filterMap (fun | .read n => some n | .rule _ => none) = T.yield.map (·.major)
  | .tok k => rfl
  | .absent => rfl
  | .present T => by simp only [Tree.post, Tree.yield]; exact Tree.post_yield T
  | .rule n kids => by simp only [Tree.post, Tree.yield, List.filterMap_append, Tree.posts_yields kids]; simp
theorem Tree.posts_yields : ∀ ts : List (Tree V), (Tree.posts ts).filterMap (fun | .read n => some n | .rule _ => none) = (Tree.yields ts).map (·.major)
  | [] => rfl
  | T :: ts => by simp only [Tree.posts, Tree.yields, List.filterMap_append, List.map_append, Tree.post_yield T, Tree.posts_yields ts]
end

/-- An accepted run over valid tokens that threw no token away -/
structure AcceptedRun (t : Tables) (sem : Sem V X E) (x : X) (toks : List (Tok V)) (p : Parser V X) (v : V) : Prop where
  valid : ∀ tok ∈ toks, tok.Valid t sem
  run : ∃ fuel, runAll t sem fuel x toks = some (.ok p v)
  kept : ∀ n, Event.discard n ∉ p.trace

/-- `T` is a derivation tree of the whole input, its value is returned, and its postorder is the order in which
tokens were read and rules reduced; the stack was large enough for it. -/
structure TreeOfRun (ds : List Decl) (t : Tables) (sem : Sem V X E) (x : X) (toks : List (Tok V)) (p : Parser V X) (v : V) (T : Tree V) : Prop where
  tree : IsTree ds t.tokenNames T
  yield : T.yield = toks
  value : ∃ w, T.value ds sem x = (.ok w, p.extra) ∧ v = rootValue ds sem w
  post : movesOf (rulesOf ds).length p.trace = T.post
  room : HasRoom ds T

theorem accepted_drive_start (ho : OrdOk ord) (hA : apart ord ds = true) {s : CSpec ord ds t} {dflt : SymbolId} (m : Made s dflt) (b : Bridge ord ds s.g)
    (sem : Sem V X E) {x : X} {toks : List (Tok V)} {p : Parser V X} {v : V} (h : AcceptedRun t sem x toks p v) :
    ∃ r kids q c, (s.g.rule r).lhs = s.g.start.getD 0 ∧ Drive s 0 kids 0 (s.g.rhsSyms r) q ∧ s.g.CanReduce s.sts q c r ∧ t.findShift (s.num q) 0 = .ok (t.nState + r) ∧
      TreeOfRun ds t sem x toks p v (GTree.toTree (rulesOf ds).length (.node r kids)) := by
  obtain ⟨fuel, hrun⟩ := h.run
  obtain ⟨w, r, kids, q, c, ⟨h1, h1', h1''⟩, ⟨h2, h2'⟩, h3, h4, h5, h6, h7⟩ := m.run_tree ho hA sem h.valid hrun (by rintro ⟨n, hn⟩; exact h.kept n hn)
  have h2'' := h2'
  obtain ⟨st, i, g1, g2, g3, g4, g5⟩ := b.start_name m.inv
  rw [g1, Option.getD_some] at h2'
  have hF : s.g.Forest [GTree.node r kids] [st] := h2' ▸ .node h2 (h1.forest m.inv m.auto) .nil
  obtain ⟨c1, c2, c3, c4⟩ := m.conv ho b sem hF
  refine ⟨r, kids, q, c, h2'', h1, h1', h1'', ⟨i, g4, ?_⟩, ?_, ⟨w, ?_, ?_⟩, ?_, (m.enough ho b h2 (by rw [h2', g1]; rfl) (h1.forest m.inv m.auto)).2 h6.2⟩
  · exact c4 [⟨[i], false, false⟩] (by simpa using g2) (.cons (.inl ⟨i, rfl, rfl, g3⟩) .nil)
  · simp only [GTree.toTrees, Tree.yields, GTree.yields, GTree.yield, List.append_nil] at c1
    rw [c1, h3]
  · have := c3 x
    simp only [GTree.toTrees, Tree.values, GTree.evals] at this
    rw [h4] at this
    rcases hv : Tree.value ds sem (GTree.toTree (rulesOf ds).length (.node r kids)) x with ⟨e | v', x'⟩
    · rw [hv] at this; simp at this
    · rw [hv] at this; simp at this; rw [this.1, this.2]
  · rw [h5]; exact m.root ho b sem w h7
  · rw [movesOf_acts, h6.1]
    simp only [GTree.toTrees, Tree.posts, GTree.posts, List.append_nil] at c2
    exact c2.symm

theorem accepted_drive (ho : OrdOk ord) (hA : apart ord ds = true) {s : CSpec ord ds t} {dflt : SymbolId} (m : Made s dflt) (b : Bridge ord ds s.g)
    (sem : Sem V X E) {x : X} {toks : List (Tok V)} {p : Parser V X} {v : V} (h : AcceptedRun t sem x toks p v) :
    ∃ r kids q c, Drive s 0 kids 0 (s.g.rhsSyms r) q ∧ s.g.CanReduce s.sts q c r ∧ t.findShift (s.num q) 0 = .ok (t.nState + r) ∧
      TreeOfRun ds t sem x toks p v (GTree.toTree (rulesOf ds).length (.node r kids)) := by
  obtain ⟨r, kids, q, c, _, h⟩ := accepted_drive_start ho hA m b sem h
  exact ⟨r, kids, q, c, h⟩

/-- C01, C02 and C44 in one -/
theorem accepted_tree (ho : OrdOk ord) (hc : compile ord ds = .ok t) (hf : flat ds = true) (hA : apart ord ds = true) (sem : Sem V X E) {x : X}
    {toks : List (Tok V)} {p : Parser V X} {v : V} (h : AcceptedRun t sem x toks p v) :
    ∃ T w, IsTree ds t.tokenNames T ∧ T.yield = toks ∧ T.value ds sem x = (.ok w, p.extra) ∧ v = rootValue ds sem w ∧
      movesOf (rulesOf ds).length p.trace = T.post := by
  obtain ⟨s⟩ := compile_cspec hc
  obtain ⟨dflt, m⟩ := s.made ho hf
  obtain ⟨b⟩ := bridge ho s.decls s.auto
  obtain ⟨_, _, _, _, _, _, _, ⟨h1, h2, ⟨w, h3, h4⟩, h5, _⟩⟩ := accepted_drive ho hA m b sem h
  exact ⟨_, w, h1, h2, h3, h4, h5⟩

/-! ## C01 -/

/-- C01 in full -/
def C01_statement : Prop :=
  ∀ (ord : List (SymbolId × SymbolId) → List (SymbolId × SymbolId)), OrdOk ord → ∀ (ds : List Decl) (t : Tables), compile ord ds = .ok t →
    ∀ (sem : Sem Int (List Nat) Unit) (x : List Nat) (toks : List (Tok Int)), (∀ tok ∈ toks, tok.Valid t sem) →
      ∀ fuel p v, runAll t sem fuel x toks = some (.ok p v) → (∀ tok ex, Event.syntaxError tok ex ∉ p.trace) →
        ∃ T, IsTree ds t.tokenNames T ∧ T.yield = toks

/-- C01: accepted inputs are derived by the start symbol, if the rows of the packed action table are
apart, classes have no classes as members, and no token was thrown away.
Missing: the general case, which is false, see `C01_false`. -/
theorem C01_partial (ho : OrdOk ord) (hc : compile ord ds = .ok t) (hf : flat ds = true) (hA : apart ord ds = true) (sem : Sem V X E) {x : X}
    {toks : List (Tok V)} {p : Parser V X} {v : V} (h : AcceptedRun t sem x toks p v) :
    ∃ T, IsTree ds t.tokenNames T ∧ T.yield = toks := by
  obtain ⟨T, _, h1, h2, _⟩ := accepted_tree ho hc hf hA sem h
  exact ⟨T, h1, h2⟩

/-- The error symbol of the tables is no left side if no rule is written for `error`. -/
theorem CSpec.noErrorRule (ho : OrdOk ord) (s : CSpec ord ds t) (he : ∀ u ∈ rulesOf ds, u.lhs ≠ .error) :
    ∀ r : Nat, t.errorSymbol ≠ 0 → t.ruleInfo[r]? ≠ some t.errorSymbol := by
  intro r h0 h
  rw [s.ruleInfo_get] at h
  split at h
  · rename_i hr
    obtain ⟨b⟩ := bridge ho s.decls s.auto
    have hi := s.ginv ho
    have hgT := s.ginvT ho
    have hE := s.gen.errorSymbol
    split at hE
    · have hlen : s.gen.gT.syms.length = s.g.syms.length := s.gen.shape.len
      have h1 : (1 : Nat) < s.g.syms.length := Nat.lt_of_lt_of_le Nat.one_lt_two hi.two
      have hidx : (s.g.sym (s.g.rule r).lhs).index = (s.g.sym 1).index := by
        simp only [Option.some.injEq] at h
        rw [h, hE, hgT.errSym]; exact s.gen.shape.index 1
      have hl := hi.lhs r hr
      have hlhs : (s.g.rule r).lhs = 1 := by
        have p1 := (hi.perm _ hl.1).2
        have p2 := (hi.perm 1 h1).2
        rw [hidx] at p1
        exact p1.symm.trans p2
      have hname : (s.g.sym (s.g.rule r).lhs).name = .ident .error := by rw [hlhs]; exact hi.err.1
      have hD : (s.g.rule r).lhs < b.gD.syms.length := b.dropped hi hl.1 (by rw [hname]; simp)
      by_cases hn : r < (rulesOf ds).length
      · obtain ⟨_, _, h2, _⟩ := b.written ho (List.getElem?_eq_getElem hn)
        rw [← b.name hD, hname] at h2
        injection h2 with h2
        exact he _ (List.getElem_mem hn) h2.symm
      · obtain ⟨o, ho1, h2, _⟩ := b.unwritten ho hr (Nat.le_of_not_lt hn)
        obtain ⟨_, _, _, k, _, h3⟩ := b.opt_name ho1
        rw [h2] at hname hD
        rw [b.name hD, h3] at hname
        cases hname
    · exact h0 hE
  · cases h

/-- If `error` has no rules of its own, a run in which `%syntax_error` did not run throws nothing away. -/
theorem acceptedRun_of_noReport (ho : OrdOk ord) (hc : compile ord ds = .ok t) (he : ∀ u ∈ rulesOf ds, u.lhs ≠ .error) {sem : Sem V X E} {x : X}
    {toks : List (Tok V)} {p : Parser V X} {v : V} (hv : ∀ tok ∈ toks, tok.Valid t sem) {fuel : Nat}
    (h : runAll t sem fuel x toks = some (.ok p v)) (hn : ∀ tok ex, Event.syntaxError tok ex ∉ p.trace) : AcceptedRun t sem x toks p v := by
  obtain ⟨s⟩ := compile_cspec hc
  exact ⟨hv, ⟨fuel, h⟩, (Clean.runAll (s.lhsOk ho) (s.noErrorRule ho he) hv h hn).2.1⟩

/-- C01 with its own hypothesis: `%syntax_error` did not run; then no rule may have `error` on its left.
Missing: as for `C01_partial`. -/
theorem C01_noReport_partial (ho : OrdOk ord) (hc : compile ord ds = .ok t) (hf : flat ds = true) (hA : apart ord ds = true)
    (he : ∀ u ∈ rulesOf ds, u.lhs ≠ .error) (sem : Sem V X E) {x : X}
    {toks : List (Tok V)} {p : Parser V X} {v : V} (hv : ∀ tok ∈ toks, tok.Valid t sem) {fuel : Nat}
    (h : runAll t sem fuel x toks = some (.ok p v)) (hn : ∀ tok ex, Event.syntaxError tok ex ∉ p.trace) :
    ∃ T, IsTree ds t.tokenNames T ∧ T.yield = toks :=
  C01_partial ho hc hf hA sem (acceptedRun_of_noReport ho hc he hv h hn)

/-! ### A grammar with types, optional symbols, a fallback and precedence -/

namespace C01ex
open Tests (U L s r)
open Examples

/-- `%left Plus; %type Num i; %type s i; %type e i; %fallback Plus Dash; s ::= e; e ::= e(A) Plus e(B) { 0 }
e ::= Num; e ::= LP Neg?(A) e(B) RP { 1 }`; numbers: Plus 1, Num 2, Dash 3, LP 4, Neg 5, RP 6 -/
def sums : List Decl :=
  [ .assoc .left [U 1], .type false (U 2) (some (.named 0)), .type false (L 0) (some (.named 0)), .type false (L 1) (some (.named 0))
  , .fallback (U 1) [U 3]
  , r (L 0) [s (L 1)], r (L 1) [s (L 1) true, s (U 1), s (L 1) true] (some 0), r (L 1) [s (U 2)]
  , r (L 1) [s (U 4), s (U 5) true true, s (L 1) true, s (U 6)] (some 1) ]

/-- Rule 0 adds, rule 1 subtracts its second from its first argument; both log. An absent symbol is 1000. -/
def sumsSem : Sem Int (List Nat) Unit :=
  Tests.sem (fun n vs x => (.ok (match n, vs with | 0, [a, b] => a + b | 1, [a, b] => a - b | _, _ => -1), x ++ [n])) (fun _ _ x => (.error (), x))

/-- `Num(5) Dash LP Num(7) Plus Num(1) RP` -/
def input : List (Tok Int) := [⟨2, 5⟩, ⟨3, 0⟩, ⟨4, 0⟩, ⟨2, 7⟩, ⟨1, 0⟩, ⟨2, 1⟩, ⟨6, 0⟩]

/-- Result and log of a run that ends well -/
def outcome (t : Tables) (m : Sem Int (List Nat) Unit) (toks : List (Tok Int)) : Option (Parser Int (List Nat) × Int) :=
  match runAll t m 1000 [] toks with
  | some (.ok p v) => some (p, v)
  | _ => none

theorem outcome_iff {t : Tables} {m : Sem Int (List Nat) Unit} {toks : List (Tok Int)} {x} (h : outcome t m toks = some x) :
    runAll t m 1000 [] toks = some (.ok x.1 x.2) := by
  unfold outcome at h
  split at h
  · cases h; assumption
  · cases h

/-- Decidable version of `AcceptedRun`, with the result -/
def acceptedB (t : Tables) (m : Sem Int (List Nat) Unit) (toks : List (Tok Int)) (v : Int) (x : List Nat) : Bool :=
  toks.all (validB t m) && match outcome t m toks with
    | some (p, w) => decide (w = v) && decide (p.extra = x) && p.trace.all (fun e => kind e ≠ 5 && kind e ≠ 1)
    | none => false

theorem acceptedB_iff {t : Tables} {m : Sem Int (List Nat) Unit} {toks : List (Tok Int)} {v : Int} {x : List Nat} (h : acceptedB t m toks v x = true) :
    ∃ p, AcceptedRun t m [] toks p v ∧ p.extra = x ∧ (∀ tok ex, Event.syntaxError tok ex ∉ p.trace) ∧ runAll t m 1000 [] toks = some (.ok p v) := by
  unfold acceptedB at h
  rw [Bool.and_eq_true, List.all_eq_true] at h
  obtain ⟨h1, h2⟩ := h
  split at h2
  · rename_i p w ho
    simp only [Bool.and_eq_true, decide_eq_true_eq, List.all_eq_true] at h2
    obtain ⟨⟨rfl, h3⟩, h4⟩ := h2
    refine ⟨p, ⟨fun tok ht => validB_iff (h1 tok ht), ⟨1000, outcome_iff ho⟩, ?_⟩, h3, ?_, outcome_iff ho⟩
    · intro n hn; have := h4 _ hn; simp [kind] at this
    · intro tok ex hn; have := h4 _ hn; simp [kind] at this
  · cases h2

-- the hypotheses of `accepted_tree` are met: 5 + (1000 - (7 + 1)), with the blocks 0, 1, 0 run in this order
theorem sums_accepted : ∃ p, AcceptedRun (tablesOf sums) sumsSem [] input p 997 ∧ p.extra = [0, 1, 0] ∧
    (∀ tok ex, Event.syntaxError tok ex ∉ p.trace) ∧ runAll (tablesOf sums) sumsSem 1000 [] input = some (.ok p 997) :=
  acceptedB_iff (by decide +kernel)
theorem sums_ok : compile id sums = .ok (tablesOf sums) ∧ flat sums = true ∧ apart id sums = true :=
  ⟨compiles_iff (by decide +kernel), by decide +kernel, by decide +kernel⟩
example : ∃ T, IsTree sums (tablesOf sums).tokenNames T ∧ T.yield = input := by
  obtain ⟨p, h, _, _⟩ := sums_accepted
  exact C01_partial OrdOk.id sums_ok.1 sums_ok.2.1 sums_ok.2.2 sumsSem h
example : ∃ T, IsTree sums (tablesOf sums).tokenNames T ∧ T.yield = input := by
  obtain ⟨p, h, _, h2, h3⟩ := sums_accepted
  exact C01_noReport_partial OrdOk.id sums_ok.1 sums_ok.2.1 sums_ok.2.2 (by decide) sumsSem h.valid h3 h2

/-- `%left A; s ::= C; s ::= B A;` (numbers: A 1, C 2, B 3): the rows of the action table overlap. -/
def g2 : List Decl := [.assoc .left [U 0], r (L 0) [s (U 2)], r (L 0) [s (U 1), s (U 0)]]

theorem g2_names : (tablesOf g2).tokenNames = [.dollar, .ident (U 0), .ident (U 2), .ident (U 1)] := by decide +kernel

theorem g2_taken {i j : Ident} (h : TakenFor g2 i j) : j = i := by
  cases h with
  | self => rfl
  | fallback h => exact absurd h (by show none ≠ _; simp)
  | wildcard h => exact absurd h (by show none ≠ _; simp)

theorem g2_elem {T : Tree Int} {i : Ident} {ts es} (h : Spec.Fits g2 (tablesOf g2).tokenNames (T :: ts) (⟨[i], false, false⟩ :: es)) :
    Spec.Fits g2 (tablesOf g2).tokenNames ts es ∧
    ((∃ k, T = .tok k ∧ (tablesOf g2).tokenNames[k.major]? = some (.ident i)) ∨
     (i = L 0 ∧ ∃ kids, (T = .rule 0 kids ∧ Spec.Fits g2 (tablesOf g2).tokenNames kids [s (U 2)]) ∨
      (T = .rule 1 kids ∧ Spec.Fits g2 (tablesOf g2).tokenNames kids [s (U 1), s (U 0)]))) := by
  cases h with
  | tok h1 h2 h3 h4 =>
    refine ⟨h4, .inl ⟨_, rfl, ?_⟩⟩
    have h3 := h3.2
    rw [if_neg (by show ¬ (false = true); simp)] at h3
    rw [h1, ← h3, g2_taken h2]
  | @rule n u kids _ _ _ h1 h2 h3 =>
    refine ⟨h3, .inr ?_⟩
    match n, h1 with
    | 0, h1 => cases h1; exact ⟨rfl, kids, .inl ⟨rfl, h2⟩⟩
    | 1, h1 => cases h1; exact ⟨rfl, kids, .inr ⟨rfl, h2⟩⟩
    | n + 2, h1 => cases h1

theorem g2_name {n : Nat} {i : Ident} (h : (tablesOf g2).tokenNames[n]? = some (.ident i)) : (n = 1 ∧ i = U 0) ∨ (n = 2 ∧ i = U 2) ∨ (n = 3 ∧ i = U 1) := by
  rw [g2_names] at h
  match n, h with
  | 0, h => cases h
  | 1, h => cases h; simp
  | 2, h => cases h; simp
  | 3, h => cases h; simp
  | n + 4, h => cases h

/-- `B` is no sentence. -/
theorem g2_not (T : Tree Int) (h : IsTree g2 (tablesOf g2).tokenNames T) : T.yield ≠ [⟨3, 0⟩] := by
  obtain ⟨i, hs, h⟩ := h
  have hi : i = L 0 := by cases hs; rfl
  subst hi
  rcases (g2_elem h).2 with ⟨k, rfl, hk⟩ | ⟨_, kids, ⟨rfl, hk⟩ | ⟨rfl, hk⟩⟩
  · rcases g2_name hk with ⟨_, h⟩ | ⟨_, h⟩ | ⟨_, h⟩ <;> cases h
  · match kids, hk with
    | a :: ts, hk =>
      obtain ⟨h1, h2⟩ := g2_elem hk
      cases h1
      rcases h2 with ⟨k, rfl, hk2⟩ | ⟨h, _⟩
      · rcases g2_name hk2 with ⟨_, h⟩ | ⟨e, _⟩ | ⟨_, h⟩
        · cases h
        · intro hy
          simp only [Tree.yield, Tree.yields, List.append_nil, List.cons.injEq, and_true] at hy
          rw [hy] at e; cases e
        · cases h
      · cases h
  · match kids, hk with
    | a :: ts, hk =>
      obtain ⟨h1, h2⟩ := g2_elem hk
      match ts, h1 with
      | b :: us, h1 =>
        obtain ⟨h3, h4⟩ := g2_elem h1
        cases h3
        rcases h2 with ⟨k, rfl, _⟩ | ⟨h, _⟩
        · rcases h4 with ⟨k', rfl, _⟩ | ⟨h, _⟩
          · intro hy; simp [Tree.yield, Tree.yields] at hy
          · cases h
        · cases h

theorem g2_accepts : ∃ p, AcceptedRun (tablesOf g2) Tests.logSem [] [⟨3, 0⟩] p 0 ∧ p.extra = [] ∧ (∀ tok ex, Event.syntaxError tok ex ∉ p.trace) ∧
    runAll (tablesOf g2) Tests.logSem 1000 [] [⟨3, 0⟩] = some (.ok p 0) := acceptedB_iff (by decide +kernel)
example : apart id g2 = false := by decide +kernel
end C01ex

/-- C01 fails: `%left A; s ::= C; s ::= B A;` gives a parser that accepts `B` alone, because a row of the
action table may overlap another one. -/
theorem C01_false : ¬ C01_statement := by
  intro h
  obtain ⟨p, h1, _, h2, h3⟩ := C01ex.g2_accepts
  obtain ⟨T, h4, h5⟩ := h id OrdOk.id C01ex.g2 _ (Examples.compiles_iff (by decide +kernel)) Tests.logSem [] _ h1.valid 1000 p 0 h3 h2
  exact C01ex.g2_not T h4 h5

/-! ## C02 -/

/-- C02: the result and the extra argument are those of the blocks of a derivation tree of the input, run
bottom-up from left to right, each once, each alias bound to the value of its own symbol.
Missing: inputs with syntax errors, and tables with overlapping rows (false there, see `C01_false`). -/
theorem C02_partial (ho : OrdOk ord) (hc : compile ord ds = .ok t) (hf : flat ds = true) (hA : apart ord ds = true) (sem : Sem V X E) {x : X}
    {toks : List (Tok V)} {p : Parser V X} {v : V} (h : AcceptedRun t sem x toks p v) :
    ∃ T w, IsTree ds t.tokenNames T ∧ T.yield = toks ∧ T.value ds sem x = (.ok w, p.extra) ∧ v = rootValue ds sem w := by
  obtain ⟨T, w, h1, h2, h3, h4, _⟩ := accepted_tree ho hc hf hA sem h
  exact ⟨T, w, h1, h2, h3, h4⟩

namespace C01ex
open Examples
-- the value 997 of the example is that of its tree
example : ∃ T w, IsTree sums (tablesOf sums).tokenNames T ∧ T.yield = input ∧ T.value sums sumsSem [] = (.ok w, [0, 1, 0]) ∧
    997 = rootValue sums sumsSem w := by
  obtain ⟨p, h, h2, _⟩ := sums_accepted
  rw [← h2]
  exact C02_partial OrdOk.id sums_ok.1 sums_ok.2.1 sums_ok.2.2 sumsSem h
end C01ex

/-! ## C44 -/

/-- C44: the tokens read and the written rules reduced are the postorder of a derivation tree of the input;
every token is read once, in order.
Missing: inputs with syntax errors, and tables with overlapping rows. -/
theorem C44_partial (ho : OrdOk ord) (hc : compile ord ds = .ok t) (hf : flat ds = true) (hA : apart ord ds = true) (sem : Sem V X E) {x : X}
    {toks : List (Tok V)} {p : Parser V X} {v : V} (h : AcceptedRun t sem x toks p v) :
    (∃ T, IsTree ds t.tokenNames T ∧ T.yield = toks ∧ movesOf (rulesOf ds).length p.trace = T.post) ∧
    (movesOf (rulesOf ds).length p.trace).filterMap (fun | .read n => some n | .rule _ => none) = toks.map (·.major) := by
  obtain ⟨T, _, h1, h2, _, _, h3⟩ := accepted_tree ho hc hf hA sem h
  refine ⟨⟨T, h1, h2, h3⟩, ?_⟩
  rw [h3, ← h2]
  exact Tree.post_yield T

namespace C01ex
open Examples
-- the moves of the example
example : ∃ p, AcceptedRun (tablesOf sums) sumsSem [] input p 997 ∧
    (movesOf (rulesOf sums).length p.trace).filterMap (fun | .read n => some n | .rule _ => none) = [2, 3, 4, 2, 1, 2, 6] := by
  obtain ⟨p, h, _⟩ := sums_accepted
  exact ⟨p, h, (C44_partial OrdOk.id sums_ok.1 sums_ok.2.1 sums_ok.2.2 sumsSem h).2⟩
end C01ex

end Pomelo
