import Verif.Proofs.Sentences
import Verif.Props.Safe
/-!
# C03, C04: sentences are accepted, and have one tree

`Verif/Spec/Sentence.lean` has the trees in which tokens stand for themselves and the grammars without conflicts.
-/

namespace Pomelo

open Spec

variable {ord : List (SymbolId × SymbolId) → List (SymbolId × SymbolId)} {ds : List Decl} {t : Tables} {V X E : Type}

theorem runAll_mono {sem : Sem V X E} {fuel k : Nat} {x : X} {toks : List (Tok V)} {r : Res V X E V} (h : runAll t sem fuel x toks = some r) (hk : fuel ≤ k) :
    runAll t sem k x toks = some r := by
  rw [runAll_eq, Option.map_eq_some_iff] at h ⊢
  obtain ⟨r', h1, h2⟩ := h
  exact ⟨r', runPend_mono h1 hk, h2⟩

/-- Without `%left`, `%right`, `%nonassoc` an accepted grammar has no conflicts. -/
theorem noClash_of_noAssoc (ho : OrdOk ord) (R : Run ord ds) (h : noAssoc ds = true) : NoClash R.g :=
  noAssoc_noClash ho R.decls R.auto R.actions h

/-! ## C03 -/

/-- The parser accepts the tokens of `T` and returns the value of `T`, having done nothing but shifts and reductions. -/
def AcceptsTree (ds : List Decl) (t : Tables) (sem : Sem V X E) (x : X) (T : Tree V) : Prop :=
  ∃ v p fuel, T.value ds sem x = (.ok v, p.extra) ∧ runAll t sem fuel x T.yield = some (.ok p (rootValue ds sem v)) ∧ onlyMoves p.trace = true

/-- A block returned `Err` when evaluating `T`, and so did the parser, having done nothing but shifts and reductions. -/
def FailsTree (ds : List Decl) (t : Tables) (sem : Sem V X E) (x : X) (T : Tree V) : Prop :=
  ∃ e p fuel, T.value ds sem x = (.error e, p.extra) ∧ runAll t sem fuel x T.yield = some (.err p e) ∧ onlyMoves p.trace = true

/-- The stack was full. -/
def OverflowsTree (t : Tables) (sem : Sem V X E) (x : X) (T : Tree V) : Prop :=
  t.stackLimit ≠ 0 ∧ ∃ e p fuel tok log, runAll t sem fuel x T.yield = some (.err p e) ∧ p.trace = .stackOverflow tok :: log ∧ noSyntaxError p.trace = true

/-- C03 in full, for a language of values -/
def C03_statement : Prop :=
  ∀ (ord : List (SymbolId × SymbolId) → List (SymbolId × SymbolId)), OrdOk ord → ∀ (ds : List Decl) (t : Tables), compile ord ds = .ok t →
    noAssoc ds = true → wildcardOf ds = none → ∀ (sem : Sem Int (List Nat) Unit) (x : List Nat) (T : Tree Int), IsOwnTree ds t.tokenNames T →
      (∀ tok ∈ T.yield, tok.Valid t sem) → AcceptsTree ds t sem x T ∨ FailsTree ds t sem x T ∨ OverflowsTree t sem x T

/-- A tree whose moves the parser finds in the table is accepted, unless a block returns `Err` or the stack is full.
In the first case the stack is large enough for it, in the last it is not. -/
theorem Made.acceptsTree_room {s : CSpec ord ds t} {dflt : SymbolId} (m : Made s dflt) (ho : OrdOk ord) (hf : flat ds = true) (b : Bridge ord ds s.g) (hr : rootOk ds = true)
    (hw : s.AliasW) (sem : Sem V X E) (x : X) {T : Tree V} {r : RuleId} {kids : List (GTree V)} {q' : StateId}
    (h1 : s.g.Plain [.node r kids] [s.g.start.getD 0]) (h2 : GTree.toTrees (rulesOf ds).length [.node r kids] = [T]) (h3 : (GTree.node r kids).yield = T.yield)
    (hd : PDrive s 0 kids 0 (s.g.rhsSyms r) q') (hc : s.g.CanReduce s.sts q' 0 r) (hlook : t.findShift (s.num q') 0 = .ok (t.nState + r))
    (hv : ∀ tok ∈ T.yield, tok.Valid t sem) :
    (AcceptsTree ds t sem x T ∧ HasRoom ds T) ∨ FailsTree ds t sem x T ∨ (OverflowsTree t sem x T ∧ ¬ HasRoom ds T) := by
  have hR := m.rootTyped ho b hr
  have hl : (s.g.rule r).lhs = s.g.start.getD 0 := by
    obtain ⟨r', kids', _, e, hl, _⟩ := h1.root m.inv m.auto
    cases e; exact hl
  obtain ⟨_, _, c3, _⟩ := m.conv ho b sem h1.forest
  have hval : ∀ z, (GTree.node r kids).eval t sem x = z → T.value ds sem x = z := by
    intro z hz
    have := c3 x
    rw [h2] at this
    simp only [Tree.values, GTree.evals] at this
    rw [hz] at this
    obtain ⟨r1, x1⟩ := z
    rcases hT : T.value ds sem x with ⟨e | v, x2⟩
    · rw [hT] at this
      cases r1 with
      | error e' => simp at this; rw [this.1, this.2]
      | ok v => simp at this
    · rw [hT] at this
      cases r1 with
      | error e' => simp at this
      | ok v => simp at this; rw [this.1, this.2]
  have hE : HasRoom ds T ↔ Room t 1 (GTree.needs kids) := by
    have := m.enough ho b (canReduce_rule m.inv m.auto hc).1 hl (kids := kids) (γ := s.g.rhsSyms r) (by
      have key : ∀ {ts : List (GTree V)} {γ}, s.g.Plain ts γ → ts = [.node r kids] → s.g.Plain kids (s.g.rhsSyms r) := by
        intro ts γ h e
        cases h with
        | nil => cases e
        | leaf => cases e
        | node _ h _ => cases e; exact h
      exact (key h1 rfl).forest)
    simp only [GTree.toTrees, List.cons.injEq, and_true] at h2
    rwa [h2] at this
  rw [hE]
  rcases m.accepts ho hf b hw hR sem hl hd hc hlook (by rw [h3]; exact hv) x with ⟨v, p, a1, a2, a3, a5, f, a4⟩ | ⟨e, p, a1, a2, a3, f, a4⟩ | ⟨a0, a5, e, p, tok, tr, a1, a2, a3, f, a4⟩
  · left
    refine ⟨⟨v, p, f, hval _ a1, ?_, a3⟩, a5⟩
    rw [runAll_eq, ← h3, a4]
    simp only [Option.map_some, a2]
    rw [m.root ho b sem v hR]
  · right; left
    refine ⟨e, p, f, hval _ a1, ?_, a3⟩
    rw [runAll_eq, ← h3, a4]; rfl
  · right; right
    refine ⟨⟨a0, e, p, f, tok, tr, ?_, a1, a3⟩, a5⟩
    rw [runAll_eq, ← h3, a4]; rfl

theorem Made.acceptsTree {s : CSpec ord ds t} {dflt : SymbolId} (m : Made s dflt) (ho : OrdOk ord) (hf : flat ds = true) (b : Bridge ord ds s.g) (hr : rootOk ds = true)
    (hw : s.AliasW) (sem : Sem V X E) (x : X) {T : Tree V} {r : RuleId} {kids : List (GTree V)} {q' : StateId}
    (h1 : s.g.Plain [.node r kids] [s.g.start.getD 0]) (h2 : GTree.toTrees (rulesOf ds).length [.node r kids] = [T]) (h3 : (GTree.node r kids).yield = T.yield)
    (hd : PDrive s 0 kids 0 (s.g.rhsSyms r) q') (hc : s.g.CanReduce s.sts q' 0 r) (hlook : t.findShift (s.num q') 0 = .ok (t.nState + r))
    (hv : ∀ tok ∈ T.yield, tok.Valid t sem) : AcceptsTree ds t sem x T ∨ FailsTree ds t sem x T ∨ OverflowsTree t sem x T := by
  rcases m.acceptsTree_room ho hf b hr hw sem x h1 h2 h3 hd hc hlook hv with h | h | h
  · exact .inl h.1
  · exact .inr (.inl h)
  · exact .inr (.inr h.1)

theorem Spec.Run.no_wild (ho : OrdOk ord) (R : Run ord ds) (hw : wildcardOf ds = none) : R.g.wildcard = none := by
  obtain ⟨b⟩ := bridge ho R.decls R.auto
  have h1 := b.decl.wildcard
  rw [hw, ← b.wildcard] at h1
  simpa using h1

/-- `C03_wildcard_partial` with the size of the stack -/
theorem accepts_room_wildcard (ho : OrdOk ord) (hc : compile ord ds = .ok t) (hf : flat ds = true) (hA : apart ord ds = true) (hr : rootOk ds = true)
    (R : Run ord ds) (hn : NoClash R.g) (hw : WildAlone R.g) (hu : wildUnbound ds = true) (sem : Sem V X E) (x : X) {T : Tree V} (h : IsOwnTree ds t.tokenNames T)
    (hv : ∀ tok ∈ T.yield, tok.Valid t sem) :
    (AcceptsTree ds t sem x T ∧ HasRoom ds T) ∨ FailsTree ds t sem x T ∨ (OverflowsTree t sem x T ∧ ¬ HasRoom ds T) := by
  obtain ⟨dflt, m⟩ := (R.cspec hc).made ho hf
  obtain ⟨b⟩ := bridge ho (R.cspec hc).decls (R.cspec hc).auto
  have hs : (R.cspec hc).g.Settled (R.cspec hc).sts := NoClash.settled m.inv m.auto m.aspec hn
  have hw' := Spec.WildAlone.ok m hs hw
  obtain ⟨gt, h1, h2, h3⟩ := (R.cspec hc).unconv_root ho h (fun tok ht => (hv tok ht).pos)
  obtain ⟨r, kids, q', rfl, _, hm, hcr⟩ := h1.root m.inv m.auto
  have hlook := m.look_reduce ho hA hs hw' hcr
  rw [m.inv.dollar.2.2] at hlook
  exact m.acceptsTree_room ho hf b hr (m.aliasW ho hf b hu) sem x h1 h2 h3 (m.pdrive ho hA hs hw' hm) hcr hlook hv

/-- `C03_partial` with the size of the stack -/
theorem accepts_room (ho : OrdOk ord) (hc : compile ord ds = .ok t) (hf : flat ds = true) (hA : apart ord ds = true) (hr : rootOk ds = true)
    (hw : wildcardOf ds = none) (R : Run ord ds) (hn : NoClash R.g) (sem : Sem V X E) (x : X) {T : Tree V} (h : IsOwnTree ds t.tokenNames T)
    (hv : ∀ tok ∈ T.yield, tok.Valid t sem) :
    (AcceptsTree ds t sem x T ∧ HasRoom ds T) ∨ FailsTree ds t sem x T ∨ (OverflowsTree t sem x T ∧ ¬ HasRoom ds T) :=
  accepts_room_wildcard ho hc hf hA hr R hn (wildAlone_of_none (R.no_wild ho hw)) (wildUnbound_of_none hw) sem x h hv

/-- C03 with a wildcard: if no conflict had to be settled, the wildcard is on its own where it is reduced and is not a place whose value is
used, then the tokens of every derivation tree in which tokens stand for themselves are accepted with the value of the tree, unless a block
returns `Err` or the stack is full.
Missing: as for `C03_partial`; and trees in which tokens stand for the wildcard or a fallback, whose tokens may be those of another tree.
Without `WildAlone` it is false, see `C03_wildcard_false`. -/
theorem C03_wildcard_partial (ho : OrdOk ord) (hc : compile ord ds = .ok t) (hf : flat ds = true) (hA : apart ord ds = true) (hr : rootOk ds = true)
    (R : Run ord ds) (hn : NoClash R.g) (hw : WildAlone R.g) (hu : wildUnbound ds = true) (sem : Sem V X E) (x : X) {T : Tree V} (h : IsOwnTree ds t.tokenNames T)
    (hv : ∀ tok ∈ T.yield, tok.Valid t sem) : AcceptsTree ds t sem x T ∨ FailsTree ds t sem x T ∨ OverflowsTree t sem x T := by
  rcases accepts_room_wildcard ho hc hf hA hr R hn hw hu sem x h hv with h | h | h
  · exact .inl h.1
  · exact .inr (.inl h)
  · exact .inr (.inr h.1)

/-- C03: if no conflict had to be settled, the tokens of every derivation tree are accepted with the
value of the tree, unless a block returns `Err` or the stack is full.
Missing: grammars with rows of the action table in collision, with classes of classes, or whose untyped start symbol
panics because of another symbol of type `()`; there it is false, see `C03_false`. -/
theorem C03_partial (ho : OrdOk ord) (hc : compile ord ds = .ok t) (hf : flat ds = true) (hA : apart ord ds = true) (hr : rootOk ds = true)
    (hw : wildcardOf ds = none) (R : Run ord ds) (hn : NoClash R.g) (sem : Sem V X E) (x : X) {T : Tree V} (h : IsOwnTree ds t.tokenNames T)
    (hv : ∀ tok ∈ T.yield, tok.Valid t sem) : AcceptsTree ds t sem x T ∨ FailsTree ds t sem x T ∨ OverflowsTree t sem x T := by
  rcases accepts_room ho hc hf hA hr hw R hn sem x h hv with h | h | h
  · exact .inl h.1
  · exact .inr (.inl h)
  · exact .inr (.inr h.1)

/-- C03 without precedences
Missing: as for `C03_partial`. -/
theorem C03_noAssoc_partial (ho : OrdOk ord) (hc : compile ord ds = .ok t) (hf : flat ds = true) (hA : apart ord ds = true) (hr : rootOk ds = true)
    (hw : wildcardOf ds = none) (hn : noAssoc ds = true) (sem : Sem V X E) (x : X) {T : Tree V} (h : IsOwnTree ds t.tokenNames T)
    (hv : ∀ tok ∈ T.yield, tok.Valid t sem) : AcceptsTree ds t sem x T ∨ FailsTree ds t sem x T ∨ OverflowsTree t sem x T := by
  obtain ⟨R⟩ := run_exists hc
  exact C03_partial ho hc hf hA hr hw R (noClash_of_noAssoc ho R hn) sem x h hv

/-! ## C04 -/

/-- C04: if no conflict had to be settled, two derivation trees with the same tokens are the same. -/
theorem C04 (ho : OrdOk ord) (hc : compile ord ds = .ok t) (R : Run ord ds) (hn : NoClash R.g) {T T' : Tree V} (h : IsOwnTree ds t.tokenNames T)
    (h' : IsOwnTree ds t.tokenNames T') (hp : ∀ tok ∈ T.yield, 0 < tok.major) (hy : T.yield = T'.yield) : T = T' := by
  have hi := (R.cspec hc).ginv ho
  have ha := automaton_auto ho (R.cspec hc).decls (R.cspec hc).auto
  obtain ⟨b⟩ := bridge ho (R.cspec hc).decls (R.cspec hc).auto
  obtain ⟨g1, a1, a2, a3⟩ := (R.cspec hc).unconv_root ho h hp
  obtain ⟨g2, b1, b2, b3⟩ := (R.cspec hc).unconv_root ho h' (by rw [← hy]; exact hp)
  have := plain_unique hi ha b.noStart (NoClash.settled hi ha (R.aspec ho).2.2 hn) a1 b1 (by rw [a3, b3, hy])
  rw [this, b2] at a2
  simp only [List.cons.injEq, and_true] at a2
  exact a2.symm

/-- C04 without precedences -/
theorem C04_noAssoc (ho : OrdOk ord) (hc : compile ord ds = .ok t) (hn : noAssoc ds = true) {T T' : Tree V} (h : IsOwnTree ds t.tokenNames T)
    (h' : IsOwnTree ds t.tokenNames T') (hp : ∀ tok ∈ T.yield, 0 < tok.major) (hy : T.yield = T'.yield) : T = T' := by
  obtain ⟨R⟩ := run_exists hc
  exact C04 ho hc R (noClash_of_noAssoc ho R hn) h h' hp hy

/-! ## Where C03 fails, and where its hypotheses are met -/

namespace Complex
open Tests (U L s r logSem)
open Examples

/-- The run panics. -/
def runPanics (t : Tables) (m : Sem Int (List Nat) Unit) (toks : List (Tok Int)) : Bool :=
  match runAll t m 1000 [] toks with
  | some (.panic _) => true
  | _ => false

theorem runPanics_iff {t : Tables} {m : Sem Int (List Nat) Unit} {T : Tree Int} (h : runPanics t m T.yield = true) {ds : List Decl} :
    ¬ (AcceptsTree ds t m [] T ∨ FailsTree ds t m [] T ∨ OverflowsTree t m [] T) := by
  unfold runPanics at h
  split at h
  · rename_i w hw
    rintro (⟨v, p, f, _, h2, _⟩ | ⟨e, p, f, _, h2, _⟩ | ⟨_, e, p, f, tok, log, h2, _⟩)
    all_goals
      have h3 := runAll_mono h2 (Nat.le_max_left f 1000)
      rw [runAll_mono hw (Nat.le_max_right f 1000)] at h3
      cases h3
  · cases h

/-- `s ::= a; a ::= A; a ::= ;` -/
def maybe : List Decl := [r (L 0) [s (L 1)], r (L 1) [s (U 1)], r (L 1) []]

/-- The tree of the empty sentence -/
def maybeTree : Tree Int := .rule 0 [.rule 2 []]

theorem maybeTree_ok : IsOwnTree maybe (tablesOf maybe).tokenNames maybeTree :=
  ⟨L 0, by decide, .rule (u := ⟨L 0, [⟨[L 1], false, false⟩], none, none⟩) (by rfl) (.rule (u := ⟨L 1, [], none, none⟩) (by rfl) .nil .nil) .nil⟩

/-- The tree of the sentence `B A` of `Safex.unitRoot` -/
def unitTree : Tree Int := .rule 0 [.rule 1 [.tok ⟨2, 0⟩], .tok ⟨1, 0⟩]

theorem unitRoot_names : (tablesOf Safex.unitRoot).tokenNames = [.dollar, .ident (U 1), .ident (U 2)] := by decide +kernel

theorem unitTree_ok : IsOwnTree Safex.unitRoot (tablesOf Safex.unitRoot).tokenNames unitTree := by
  rw [unitRoot_names]
  exact ⟨L 0, by decide, .rule (u := ⟨L 0, [⟨[L 1], false, false⟩, ⟨[U 1], false, false⟩], none, none⟩) (by rfl)
    (.rule (u := ⟨L 1, [⟨[U 2], false, false⟩], some 0, none⟩) (by rfl) (.tok (i := U 2) (j := U 2) (by rfl) .self ⟨rfl, rfl⟩ .nil)
      (.tok (i := U 1) (j := U 1) (by rfl) .self ⟨rfl, rfl⟩ .nil)) .nil⟩

end Complex

open Complex in
/-- C03 fails: `s ::= a; a ::= A; a ::= ;` panics at the end of the empty input, though this is a sentence. -/
theorem C03_false : ¬ C03_statement := by
  intro h
  exact runPanics_iff (by decide +kernel) (h id OrdOk.id maybe _ (Examples.compiles_iff (by decide +kernel)) (by decide) (by decide) Tests.logSem [] maybeTree
    maybeTree_ok (by intro tok ht; simp [maybeTree, Tree.yield, Tree.yields] at ht))

open Complex in
/-- C03 also fails where no rows collide: `Safex.unitRoot` panics after the sentence `B A`. -/
theorem C03_false_root : ¬ C03_statement := by
  intro h
  exact runPanics_iff (by decide +kernel) (h id OrdOk.id Safex.unitRoot _ (Examples.compiles_iff (by decide +kernel)) (by decide) (by decide) Tests.logSem [] unitTree
    unitTree_ok (by intro tok ht; exact Examples.validB_iff (List.all_eq_true.1 (by decide +kernel : unitTree.yield.all (Examples.validB _ _) = true) tok ht)))
example : apart id Complex.maybe = false ∧ rootOk Complex.maybe = true ∧ apart id Safex.unitRoot = true ∧ rootOk Safex.unitRoot = false := by decide +kernel

namespace Complex
open Tests (U L s r logSem)
open Examples

/-- `%type Num i; %type s i; %type e i; %type f i; %fallback Plus Dash; s ::= e; e ::= e(A) Plus f(B) { 0 }; e ::= f;
f ::= Num; f ::= LP Neg?(A) e(B) RP { 1 }`; numbers: Num 1, Dash 2, Plus 3, LP 4, Neg 5, RP 6 -/
def sums : List Decl :=
  [ .type false (U 2) (some (.named 0)), .type false (L 0) (some (.named 0)), .type false (L 1) (some (.named 0)), .type false (L 2) (some (.named 0))
  , .fallback (U 1) [U 3]
  , r (L 0) [s (L 1)], r (L 1) [s (L 1) true, s (U 1), s (L 2) true] (some 0), r (L 1) [s (L 2)], r (L 2) [s (U 2)]
  , r (L 2) [s (U 4), s (U 5) true true, s (L 1) true, s (U 6)] (some 1) ]

/-- `Num(5) Plus LP Num(7) Plus Num(1) RP` -/
def sumsTree : Tree Int :=
  .rule 0 [.rule 1 [.rule 2 [.rule 3 [.tok ⟨1, 5⟩]], .tok ⟨3, 0⟩,
    .rule 4 [.tok ⟨4, 0⟩, .absent, .rule 1 [.rule 2 [.rule 3 [.tok ⟨1, 7⟩]], .tok ⟨3, 0⟩, .rule 3 [.tok ⟨1, 1⟩]], .tok ⟨6, 0⟩]]]

/-- Its tokens by number -/
def names : List SymName := [.dollar, .ident (U 2), .ident (U 3), .ident (U 1), .ident (U 4), .ident (U 5), .ident (U 6)]

theorem sums_names : (tablesOf sums).tokenNames = names := by decide +kernel

/-- The written rules -/
def rule0 : URule := ⟨L 0, [⟨[L 1], false, false⟩], none, none⟩
def rule1 : URule := ⟨L 1, [⟨[L 1], false, true⟩, ⟨[U 1], false, false⟩, ⟨[L 2], false, true⟩], some 0, none⟩
def rule2 : URule := ⟨L 1, [⟨[L 2], false, false⟩], none, none⟩
def rule3 : URule := ⟨L 2, [⟨[U 2], false, false⟩], none, none⟩
def rule4 : URule := ⟨L 2, [⟨[U 4], false, false⟩, ⟨[U 5], true, true⟩, ⟨[L 1], false, true⟩, ⟨[U 6], false, false⟩], some 1, none⟩

theorem sumsTree_ok : IsOwnTree sums (tablesOf sums).tokenNames sumsTree := by
  rw [sums_names]
  refine ⟨L 0, by decide, ?_⟩
  have num : ∀ {v : Int} {al ts es}, Spec.Fits (ownTokens sums) names ts es → Spec.Fits (ownTokens sums) names (.rule 3 [.tok ⟨1, v⟩] :: ts) (⟨[L 2], false, al⟩ :: es) :=
    fun h => .rule (u := rule3) (by rfl) (.tok (i := U 2) (j := U 2) (by rfl) .self ⟨rfl, rfl⟩ .nil) h
  refine .rule (u := rule0) (by rfl) (.rule (u := rule1) (by rfl) (.rule (u := rule2) (by rfl) (num .nil) ?_) .nil) .nil
  refine .tok (i := U 1) (j := U 1) (by rfl) .self ⟨rfl, rfl⟩ (.rule (u := rule4) (by rfl) ?_ .nil)
  refine .tok (i := U 4) (j := U 4) (by rfl) .self ⟨rfl, rfl⟩ (.absent (.rule (u := rule1) (by rfl) ?_ ?_))
  · exact .rule (u := rule2) (by rfl) (num .nil) (.tok (i := U 1) (j := U 1) (by rfl) .self ⟨rfl, rfl⟩ (num .nil))
  · exact .tok (i := U 6) (j := U 6) (by rfl) .self ⟨rfl, rfl⟩ .nil

theorem sumsTree_valid (sem : Sem Int X E) (h : sem.unit = 0) : ∀ tok ∈ sumsTree.yield, tok.Valid (tablesOf sums) sem := by
  intro tok ht
  have := List.all_eq_true.1 (by decide +kernel : sumsTree.yield.all (fun tok => 0 < tok.major && tok.major < (tablesOf sums).numTerminals &&
    ((tablesOf sums).tokenDt.getD tok.major 0 != 0 || tok.val == 0)) = true) tok ht
  simp only [Bool.and_eq_true, decide_eq_true_eq, Bool.or_eq_true, bne_iff_ne, beq_iff_eq] at this
  exact ⟨this.1.1, this.1.2, fun h0 => by rw [h]; exact this.2.resolve_left (fun hn => hn h0)⟩

-- all hypotheses of `C03_noAssoc_partial` are met, with types, an optional symbol and a fallback
example (sem : Sem Int X E) (h : sem.unit = 0) (x : X) :
    AcceptsTree sums (tablesOf sums) sem x sumsTree ∨ FailsTree sums (tablesOf sums) sem x sumsTree ∨ OverflowsTree (tablesOf sums) sem x sumsTree :=
  C03_noAssoc_partial OrdOk.id (compiles_iff (by decide +kernel)) (by decide +kernel) (by decide +kernel) (by decide +kernel) (by decide) (by decide)
    sem x sumsTree_ok (sumsTree_valid sem h)
-- and C04 says this is the only tree of its tokens
example {T : Tree Int} (h : IsOwnTree sums (tablesOf sums).tokenNames T) (hy : T.yield = sumsTree.yield) : T = sumsTree :=
  (C04_noAssoc OrdOk.id (compiles_iff (by decide +kernel)) (by decide) sumsTree_ok h
    (fun tok ht => (sumsTree_valid Tests.logSem rfl tok ht).pos) hy.symm).symm

/-- `%left Plus; s ::= e; e ::= e Plus e; e ::= Num`; numbers: Plus 1, Num 2 -/
def plus : List Decl := [.assoc .left [U 1], r (L 0) [s (L 1)], r (L 1) [s (L 1), s (U 1), s (L 1)], r (L 1) [s (U 2)]]

-- with a conflict settled by precedence the conclusion of C04 fails
example : compiles plus = true ∧ ∃ T T' : Tree Int, IsOwnTree plus (tablesOf plus).tokenNames T ∧ IsOwnTree plus (tablesOf plus).tokenNames T' ∧
    (∀ tok ∈ T.yield, 0 < tok.major) ∧ T.yield = T'.yield ∧ T.post ≠ T'.post := by
  have hn : (tablesOf plus).tokenNames = [.dollar, .ident (U 1), .ident (U 2)] := by decide +kernel
  have num : ∀ {al ts es}, Spec.Fits (V := Int) (ownTokens plus) [.dollar, .ident (U 1), .ident (U 2)] ts es →
      Spec.Fits (ownTokens plus) [.dollar, .ident (U 1), .ident (U 2)] (.rule 2 [.tok ⟨2, 0⟩] :: ts) (⟨[L 1], false, al⟩ :: es) :=
    fun h => .rule (u := ⟨L 1, [⟨[U 2], false, false⟩], none, none⟩) (by rfl) (.tok (i := U 2) (j := U 2) (by rfl) .self ⟨rfl, rfl⟩ .nil) h
  have op : ∀ {a b : Tree Int} {al ts es}, Spec.Fits (ownTokens plus) [.dollar, .ident (U 1), .ident (U 2)] [a, .tok ⟨1, 0⟩, b]
        [⟨[L 1], false, false⟩, ⟨[U 1], false, false⟩, ⟨[L 1], false, false⟩] →
      Spec.Fits (ownTokens plus) [.dollar, .ident (U 1), .ident (U 2)] ts es →
      Spec.Fits (ownTokens plus) [.dollar, .ident (U 1), .ident (U 2)] (.rule 1 [a, .tok ⟨1, 0⟩, b] :: ts) (⟨[L 1], false, al⟩ :: es) :=
    fun h1 h2 => .rule (u := ⟨L 1, [⟨[L 1], false, false⟩, ⟨[U 1], false, false⟩, ⟨[L 1], false, false⟩], none, none⟩) (by rfl) h1 h2
  have pl : ∀ {ts es}, Spec.Fits (V := Int) (ownTokens plus) [.dollar, .ident (U 1), .ident (U 2)] ts es →
      Spec.Fits (ownTokens plus) [.dollar, .ident (U 1), .ident (U 2)] (.tok ⟨1, 0⟩ :: ts) (⟨[U 1], false, false⟩ :: es) :=
    fun h => .tok (i := U 1) (j := U 1) (by rfl) .self ⟨rfl, rfl⟩ h
  rw [hn]
  refine ⟨by decide +kernel, .rule 0 [.rule 1 [.rule 1 [.rule 2 [.tok ⟨2, 0⟩], .tok ⟨1, 0⟩, .rule 2 [.tok ⟨2, 0⟩]], .tok ⟨1, 0⟩, .rule 2 [.tok ⟨2, 0⟩]]],
    .rule 0 [.rule 1 [.rule 2 [.tok ⟨2, 0⟩], .tok ⟨1, 0⟩, .rule 1 [.rule 2 [.tok ⟨2, 0⟩], .tok ⟨1, 0⟩, .rule 2 [.tok ⟨2, 0⟩]]]],
    ⟨L 0, by decide, .rule (u := ⟨L 0, [⟨[L 1], false, false⟩], none, none⟩) (by rfl) (op (op (num (pl (num .nil))) (pl (num .nil))) .nil) .nil⟩,
    ⟨L 0, by decide, .rule (u := ⟨L 0, [⟨[L 1], false, false⟩], none, none⟩) (by rfl) (op (num (pl (op (num (pl (num .nil))) .nil))) .nil) .nil⟩, ?_, rfl, by decide⟩
  simp [Tree.yield, Tree.yields]

end Complex

end Pomelo
