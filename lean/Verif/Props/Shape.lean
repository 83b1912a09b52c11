import Verif.Proofs.Shape
import Verif.Props.Prec
import Verif.Props.Parse
/-!
# C16: precedence and the shape of the trees

`Verif/Spec/Shape.lean` says what operands are.
-/

namespace Pomelo

open Spec

variable {ord : List (SymbolId × SymbolId) → List (SymbolId × SymbolId)} {ds : List Decl} {t : Tables} {V X E : Type}

section
variable {g : Grammar}

theorem viable_back {γ : List SymbolId} {r : RuleId} {d : Nat} (h : Viable g γ ⟨r, d + 1⟩) : ∃ γ' X, γ = γ' ++ [X] ∧ Viable g γ' ⟨r, d⟩ ∧ atDot g ⟨r, d⟩ = some X := by
  generalize hc : (⟨r, d + 1⟩ : Item) = c at h
  cases h with
  | start h => cases hc
  | close => cases hc
  | @shift γ c X h1 h2 =>
    rcases c with ⟨r', d'⟩
    cases hc
    exact ⟨γ, X, rfl, h1, h2⟩

/-- `N` can be continued after `N ::= .. N` -/
theorem shiftsOn_open {δ α γ : List SymbolId} {N Y a : SymbolId} {r1 r2 : RuleId} (hv : Viable g (δ ++ g.rhsSyms r1) ⟨r1, (g.rhsSyms r1).length⟩)
    (h1 : g.rhsSyms r1 = α ++ [N]) (h2 : RuleOf g N r2) (h3 : g.rhsSyms r2 = N :: Y :: γ) (hY : Reads g Y a) : ShiftsOn g (δ ++ g.rhsSyms r1) a Y := by
  rw [h1] at hv ⊢
  rw [← List.append_assoc] at hv ⊢
  simp only [List.length_append, List.length_singleton] at hv
  obtain ⟨γ', X, e, hv, hd⟩ := viable_back hv
  have hX : X = N := by
    unfold atDot at hd
    simp only [h1] at hd
    simpa using hd.symm
  subst hX
  have := List.append_inj_left' e rfl
  subst this
  have hv2 := Viable.close hv hd h2
  refine ⟨⟨r2, 1⟩, .shift hv2 ?_, ?_, hY⟩
  · unfold atDot; simp [h3]
  · unfold atDot; simp [h3]

theorem ahead_along {δ : List SymbolId} {r : RuleId} {n : Nat} (h : Ahead g δ ⟨r, 0⟩ n) : ∀ d, d ≤ (g.rhsSyms r).length → Ahead g (δ ++ (g.rhsSyms r).take d) ⟨r, d⟩ n := by
  intro d
  induction d with
  | zero => intro _; simpa using h
  | succ d ih =>
    intro hd
    have h1 := ih (Nat.le_of_succ_le hd)
    have hx : (g.rhsSyms r)[d]? = some ((g.rhsSyms r)[d]'hd) := List.getElem?_eq_getElem hd
    have := Ahead.shift h1 (X := (g.rhsSyms r)[d]'hd) hx
    rwa [List.append_assoc, show (g.rhsSyms r).take d ++ [(g.rhsSyms r)[d]'hd] = (g.rhsSyms r).take (d + 1) from by rw [List.take_add_one, hx]; rfl] at this

/-- The operator of `N ::= N t ..` is a lookahead of `N ::= .. N`. -/
theorem reducesOn_open {δ γ : List SymbolId} {N Y a : SymbolId} {r1 r2 : RuleId} (hn : ∀ x ∈ g.rhsSyms r1, some x ≠ g.start) (hstart : g.start.isSome)
    (hv : Viable g (δ ++ g.rhsSyms r1) ⟨r1, (g.rhsSyms r1).length⟩) (hN : N ∈ g.rhsSyms r1)
    (hr1 : RuleOf g N r1) (h2 : RuleOf g N r2) (h3 : g.rhsSyms r2 = N :: Y :: γ) (hY : Reads g Y a) (ha : IsToken g a) : ReducesOn g (δ ++ g.rhsSyms r1) a r1 := by
  obtain ⟨γ0, e, _, hv0⟩ := viable_prefix hv
  simp only [List.take_length] at e
  have := List.append_cancel_right e
  subst this
  have hA : Ahead g δ ⟨r1, 0⟩ (g.sym a).index := by
    rcases viable_zero hv0 with ⟨_, h⟩ | ⟨c, hc, hd⟩
    · exfalso
      apply hn N hN
      rw [← hr1.2, h.2]
      cases hs : g.start with
      | none => rw [hs] at hstart; cases hstart
      | some x => rfl
    · rw [hr1.2] at hd
      have hv2 := Viable.close hc hd h2
      refine .first hv2 (A := N) (by unfold atDot; simp [h3]) hr1 ⟨a, Y, γ, rfl, ?_, hY⟩
      unfold behind
      simp only [h3]
      exact Relation.ReflTransGen.refl
  refine ⟨ha.1, ha.2, _, fun _ => Iff.rfl, ?_⟩
  have := ahead_along hA _ (Nat.le_refl _)
  rwa [List.take_length] at this

end

theorem forall₂_concat {α β : Type} {P : α → β → Prop} {l : List α} {a : α} {m : List β} (h : List.Forall₂ P (l ++ [a]) m) :
    ∃ m' b, m = m' ++ [b] ∧ List.Forall₂ P l m' ∧ P a b := by
  induction l generalizing m with
  | nil =>
    cases h with
    | cons h1 h2 => cases h2; exact ⟨[], _, rfl, .nil, h1⟩
  | cons x l ih =>
    cases h with
    | cons h1 h2 =>
      obtain ⟨m', b, rfl, h3, h4⟩ := ih h2
      exact ⟨_ :: m', b, rfl, .cons h1 h3, h4⟩

theorem Bridge.elem_name {g : Grammar} (b : Bridge ord ds g) {N : Ident} {al : Bool} {Y : SymbolId} (h : ElemSym b.gD ⟨[N], false, al⟩ Y) :
    (b.gD.sym Y).name = .ident N := by
  rcases h with ⟨_, e1, _, e3⟩ | ⟨_, _, _, e2, _⟩ | ⟨e1, _⟩
  · cases e1; exact e3
  · cases e2
  · exact absurd rfl (e1 N)

theorem Bridge.open_end {g : Grammar} (ho : OrdOk ord) (b : Bridge ord ds g) {r : RuleId} {u : URule} (hu : (rulesOf ds)[r]? = some u) (h : EndsOpen u) :
    ∃ α, g.rhsSyms r = α ++ [(g.rule r).lhs] := by
  obtain ⟨front, al, he⟩ := h
  obtain ⟨_, w1, w2, w3, w4, _⟩ := b.written ho hu
  rw [he] at w3
  obtain ⟨α, Z, e, _, hZ⟩ := forall₂_concat w3
  refine ⟨α, ?_⟩
  rw [e]
  have hn := b.elem_name hZ
  rw [b.dinv.names Z (g.rule r).lhs (w4 Z (by rw [e]; simp)) w1 (by rw [hn, w2]) (by rw [hn]; simp)]

theorem Bridge.open_begin {g : Grammar} (ho : OrdOk ord) (b : Bridge ord ds g) {r : RuleId} {u : URule} (hu : (rulesOf ds)[r]? = some u) {e : RhsElem} (h : BeginsOpen u e) :
    ∃ Y γ, g.rhsSyms r = (g.rule r).lhs :: Y :: γ ∧ ElemSym b.gD e Y ∧ Y < b.gD.syms.length := by
  obtain ⟨al, rest, he⟩ := h
  obtain ⟨_, w1, w2, w3, w4, _⟩ := b.written ho hu
  rw [he] at w3
  generalize hs : g.rhsSyms r = l at w3 w4
  cases w3 with
  | @cons _ Z _ l hZ w3 =>
    cases w3 with
    | @cons _ Y _ l hY w3 =>
      have hn := b.elem_name hZ
      rw [b.dinv.names Z (g.rule r).lhs (w4 Z (by simp)) w1 (by rw [hn, w2]) (by rw [hn]; simp)]
      exact ⟨Y, l, rfl, hY, w4 Y (by simp)⟩

theorem Bridge.same_lhs {g : Grammar} (ho : OrdOk ord) (b : Bridge ord ds g) {r r' : RuleId} {u u' : URule} (hu : (rulesOf ds)[r]? = some u)
    (hu' : (rulesOf ds)[r']? = some u') (h : u.lhs = u'.lhs) : (g.rule r).lhs = (g.rule r').lhs := by
  obtain ⟨_, w1, w2, _⟩ := b.written ho hu
  obtain ⟨_, w1', w2', _⟩ := b.written ho hu'
  exact b.dinv.names _ _ w1 w1' (by rw [w2, w2', h]) (by rw [w2]; simp)

/-- In a conflict, the action for a token without fallback is the one that was chosen, if there is no wildcard. -/
theorem Spec.Run.chosen (ho : OrdOk ord) (hc : compile ord ds = .ok t) (hf : flat ds = true) (hA : apart ord ds = true) (R : Run ord ds)
    (hw : R.g.wildcard = none) {γ : List SymbolId} {q : StateId} (hq : R.StateOf γ q) {a X : SymbolId} (ha : IsToken R.g a) (hfb : (R.g.sym a).fallback = none)
    (hX : ShiftsOn R.g γ a X) : ∃ d n, R.Own q a d ∧ R.encode d = some n ∧ t.findShift (R.row q) (R.g.sym a).index = .ok n ∧
      ((∃ k, d = .shift k ∧ k < R.sts.length) ∨ (∃ r, d = .reduce r ∧ ReducesOn R.g γ a r) ∨ d = .error) := by
  obtain ⟨hi, hau, hs⟩ := R.aspec ho
  obtain ⟨it, hv, _⟩ := id hX
  have hp := (R.stateOf_path ho hv).1 hq
  obtain ⟨sh, rd, h1, h2, h3⟩ := R.outcome ho hq.1 ha
  obtain ⟨⟨k, hk⟩, hk2⟩ := (shiftsOn_iff hi hau hp).1 hX
  have hks : k ∈ sh := (h1 k).2 ⟨X, hk, (reads_iff (Reads.kind hk2)).2 hk2⟩
  have look := (C22_partial ho hc hf hA R hq.1 ha).1
  have hQ : R.Quiet q := fun w e => by rw [hw] at e; cases e
  have hW : R.NoWild q := fun w e => by rw [hw] at e; cases e
  have fin : ∀ d, R.Own q a d → ∀ n, R.encode d = some n → t.findShift (R.row q) (R.g.sym a).index = .ok n := fun d h n he =>
    toOption_ok ((look d h (fun _ _ => hQ) (fun _ => ⟨hfb, hW⟩)).trans he)
  have hl := h3
  unfold Run.Own at fin ⊢
  generalize actionsFor (R.actionsOf q) a = l at hl fin ⊢
  cases hl with
  | nothing h _ => rw [h] at hks; cases hks
  | @shift k' e => exact ⟨_, _, rfl, rfl, fin _ rfl _ rfl, .inl ⟨_, rfl, (by
      obtain ⟨Y, hY, _⟩ := (h1 k').1 (by rw [e]; simp)
      exact hY.dst)⟩⟩
  | reduce h => exact ⟨_, _, rfl, rfl, fin _ rfl _ rfl, .inr (.inl ⟨_, rfl, (reducesOn_iff hi hau hp).2 ((h2 _).1 h)⟩)⟩
  | error => exact ⟨_, _, rfl, rfl, fin _ rfl _ rfl, .inr (.inr rfl)⟩

theorem Spec.Run.row_lt (ho : OrdOk ord) (hc : compile ord ds = .ok t) (R : Run ord ds) {k : StateId} (hk : k < R.sts.length) : R.row k < t.nState := by
  obtain ⟨hi, ha, hs⟩ := R.aspec ho
  obtain ⟨_, _, _, _, d4, _⟩ := compressTables_spec hi R.compress
  have hlen : R.final.length = R.sts.length := by rw [d4, hs.len]
  rw [(R.sizes ho hc).1, ← hlen]
  exact stateNum_lt _ (by rw [hlen]; exact hk)

/-- C16 in full -/
def C16_statement : Prop :=
  ∀ (ord : List (SymbolId × SymbolId) → List (SymbolId × SymbolId)), OrdOk ord → ∀ (ds : List Decl) (t : Tables), compile ord ds = .ok t →
    flat ds = true → apart ord ds = true →
    ∀ (sem : Sem Int (List Nat) Unit) (x : List Nat) (toks : List (Tok Int)) (p : Parser Int (List Nat)) (v : Int), AcceptedRun t sem x toks p v →
      ∃ T, TreeOfRun ds t sem x toks p v T ∧
        ∀ m n u u' e k i P P', (rulesOf ds)[n]? = some u → (rulesOf ds)[m]? = some u' → u.lhs = u'.lhs → EndsOpen u → BeginsOpen u' e →
          t.tokenNames[k.major]? = some (.ident i) → Matches ds e i → precOf ds i = some P → rulePrec ds u = some P' →
          (Tighter P P' ∨ Excluded P P' → ¬ LeftOperand T m n k) ∧ (Looser P P' ∨ Excluded P P' → ¬ RightOperand T n m k)

/-- C16 for operators without a fallback, without a wildcard.  The tree is that of the moves of the parser.
Missing: operators with a fallback (`C16_false`), grammars with a wildcard, tables with overlapping rows, runs that recovered from an error. -/
theorem C16_partial (ho : OrdOk ord) (hc : compile ord ds = .ok t) (hf : flat ds = true) (hA : apart ord ds = true) (hw : wildcardOf ds = none)
    (sem : Sem V X E) {x : X} {toks : List (Tok V)} {p : Parser V X} {v : V} (h : AcceptedRun t sem x toks p v) :
    ∃ T, TreeOfRun ds t sem x toks p v T ∧
      ∀ m n u u' e k i P P', (rulesOf ds)[n]? = some u → (rulesOf ds)[m]? = some u' → u.lhs = u'.lhs → EndsOpen u → BeginsOpen u' e →
        t.tokenNames[k.major]? = some (.ident i) → Matches ds e i → fallbackOf ds i = none → precOf ds i = some P → rulePrec ds u = some P' →
        (Tighter P P' ∨ Excluded P P' → ¬ LeftOperand T m n k) ∧ (Looser P P' ∨ Excluded P P' → ¬ RightOperand T n m k) := by
  obtain ⟨R⟩ := run_exists hc
  obtain ⟨dflt, mm⟩ := (R.cspec hc).made ho hf
  obtain ⟨b⟩ := bridge ho R.decls R.auto
  have hi : GInv R.g := mm.inv
  have hau : Auto R.g R.sts := mm.auto
  obtain ⟨r0, kids0, q0, c0, hD, hR0, hF0, hT⟩ := accepted_drive ho hA mm b sem h
  refine ⟨_, hT, ?_⟩
  intro m n u u' e k i P P' hu hu' hlhs hopen hbeg hname hmatch hfb hP hP'
  -- the grammar
  have hwild : R.g.wildcard = none := by
    have := b.decl.wildcard
    rw [hw] at this
    rw [b.wildcard]
    cases hh : b.gD.wildcard with
    | none => rfl
    | some x => rw [hh] at this; cases this
  have hl := b.same_lhs ho hu hu' hlhs
  obtain ⟨α, hα⟩ := b.open_end ho hu hopen
  obtain ⟨Y, γ, hYγ, hYe, hYl⟩ := b.open_begin ho hu' hbeg
  have hn : RuleOf R.g (R.g.rule m).lhs n := ⟨(b.written ho hu).1, hl⟩
  have hm : RuleOf R.g (R.g.rule m).lhs m := ⟨(b.written ho hu').1, rfl⟩
  rw [hl] at hα
  have hprec : (R.g.rule n).precedence = some P' := (C17_rule_precedence ho R.decls R.auto hu).trans hP'
  obtain ⟨hs1, hs2⟩ := R.sizes ho hc
  -- the token
  have tokenOf : ∀ {a : SymbolId}, a < R.g.syms.length → (R.g.sym a).kind = .terminal → a ≠ 0 → k.major = (R.g.sym a).index →
      IsToken R.g a ∧ Reads R.g Y a ∧ (R.g.sym a).precedence = some P ∧ (R.g.sym a).fallback = none := by
    intro a ha hk ha0 hmaj
    have h1 := mm.tokenName ha hk
    have h1 : t.tokenNames[(R.g.sym a).index]? = some (R.g.sym a).name := h1
    rw [← hmaj, hname] at h1
    have hna : (R.g.sym a).name = .ident i := (Option.some.inj h1).symm
    have haD : a < b.gD.syms.length := b.dropped hi ha (by rw [hna]; simp)
    have hnaD : (b.gD.sym a).name = .ident i := (b.name haD).symm.trans hna
    refine ⟨⟨ha, hk⟩, ?_, (token_precedence ho R ha hna).trans hP, ?_⟩
    · refine (b.reads_matches hYl hYe haD hnaD ?_).2 hmatch
      have hkk := hi.kinds a ha
      rw [hk, hna] at hkk
      rw [hnaD]
      cases i <;> simp [kindOk] at hkk ⊢
      rfl
    · rw [b.fallback haD]
      have := (b.decl.sym b.dinv haD hnaD).2.2.2.1
      rw [hfb] at this
      cases hh : (b.gD.sym a).fallback with
      | none => rfl
      | some x => rw [hh] at this; cases this
  have hroot : ∀ {r ks}, Sub (.rule r ks) (GTree.toTree (rulesOf ds).length (.node r0 kids0)) →
      ∃ δ0 q0 kids n0 q1 b, R.g.Path R.sts δ0 q0 ∧ ks = GTree.toTrees (rulesOf ds).length kids ∧ r < (rulesOf ds).length ∧
        Drive (R.cspec hc) q0 kids n0 (R.g.rhsSyms r) q1 ∧ R.g.CanReduce R.sts q1 b r := by
    intro r ks hs
    generalize hU : GTree.toTree (rulesOf ds).length (.node r0 kids0) = U at hs
    cases hs with
    | refl =>
      obtain ⟨hr, kids', e1, e2⟩ := toTree_rule hU
      cases e1
      exact ⟨[], 0, kids0, 0, q0, c0, .nil, e2, hr, hD, hR0⟩
    | @present U hs =>
      simp only [GTree.toTree] at hU
      split at hU
      · cases hU
      · split at hU
        · cases hU
        · cases hU
          rename_i e
          obtain ⟨δ0, q0, kids, n0, q1, b, g1, g2, g3, g4, g5, _⟩ := hD.sub (N := (rulesOf ds).length) .nil (by rw [e]; exact List.mem_cons_self) hs
          exact ⟨δ0, q0, kids, n0, q1, b, g1, g2, g3, g4, g5⟩
    | rule hmem hs =>
      obtain ⟨hr, kids', e1, e2⟩ := toTree_rule hU
      cases e1
      obtain ⟨δ0, q0, kids, n0, q1, b, g1, g2, g3, g4, g5, _⟩ := hD.sub (N := (rulesOf ds).length) .nil (by rw [← e2]; exact hmem) hs
      exact ⟨δ0, q0, kids, n0, q1, b, g1, g2, g3, g4, g5⟩
  constructor
  · rintro hcmp ⟨kids, rest, hs⟩
    obtain ⟨δ, q0, ts, n0, q1, c, hp, e1, _, hd, hr⟩ := hroot hs
    rw [toTrees_map] at e1
    match ts, e1 with
    | T1 :: T2 :: ts, e1 =>
      simp only [List.map_cons, List.cons.injEq] at e1
      obtain ⟨e1, e2, _⟩ := e1
      obtain ⟨_, kids', rfl, _⟩ := toTree_rule e1.symm
      cases toTree_tok e2.symm
      generalize hg : R.g.rhsSyms m = l at hd
      cases hd with
      | @node _ _ _ _ _ γ1 qa c' k' _ d1 d2 d3 d4 d5 =>
        rw [nextOf_leaf] at d1 d3
        cases d5 with
        | @leaf _ _ _ _ γ2 a _ Y' _ _ f1 f2 f3 f4 _ _ f7 f8 _ =>
          obtain ⟨ht1, ht2, ht3, ht4⟩ := tokenOf f1 f2 f3 f4
          have hpa := d1.path hp
          have hva := (path_items hi hau hpa _).1 (canReduce_rule hi hau d2).2.2
          have hsh := shiftsOn_open hva hα hm hYγ ht2
          have hst := (R.stateOf_path ho hva).2 hpa
          obtain ⟨d, N, o1, o2, o3, o4⟩ := R.chosen ho hc hf hA hwild hst ht1 ht4 hsh
          rw [f4] at d3
          have heq : N = t.nState + n := by
            have := o3.symm.trans d3
            exact Except.ok.inj this
          subst heq
          rcases o4 with ⟨k, rfl, hk⟩ | ⟨r, rfl, hr⟩ | rfl
          · have := R.row_lt ho hc hk
            simp only [Run.encode, Option.some.injEq] at o2
            omega
          · simp only [Run.encode, Option.some.injEq, hs1] at o2
            have : r = n := Nat.add_left_cancel o2
            subst this
            obtain ⟨p1, p2, e3, e4, e5, _, e7⟩ := C14_losers ho R hst hsh hr
            rw [ht3] at e3; rw [hprec] at e4; cases e3; cases e4
            rcases hcmp with hcmp | hcmp
            · exact e5 hcmp o1
            · exact (e7 hcmp).1 o1
          · simp only [Run.encode, Option.some.injEq, hs1] at o2
            have : R.g.rules.length = n := Nat.add_left_cancel o2
            exact absurd hn.1 (by rw [this]; exact Nat.lt_irrefl _)
    | [_], e1 => simp at e1
    | [], e1 => simp at e1
  · rintro hcmp ⟨front, left, rest, hs⟩
    obtain ⟨δ, q0, ts, n0, q1, c, hp, e1, _, hd, hr⟩ := hroot hs
    rw [toTrees_map] at e1
    obtain ⟨fr, la, rfl, _, e2⟩ := List.map_eq_append_iff.1 e1.symm
    match la, e2 with
    | [T], e2 =>
      simp only [List.map_cons, List.map_nil, List.cons.injEq, and_true] at e2
      obtain ⟨_, kids', rfl, e3⟩ := toTree_rule e2
      rw [toTrees_map] at e3
      match kids', e3 with
      | T1 :: T2 :: ks, e3 =>
        simp only [List.map_cons, List.cons.injEq] at e3
        cases toTree_tok e3.2.1.symm
        have hpq := hd.path hp
        have hva := (path_items hi hau hpq _).1 (canReduce_rule hi hau hr).2.2
        rw [hα] at hd
        obtain ⟨a1, b1, qa, e4, d1, d2⟩ := hd.split
        have hb1 : b1 = [GTree.node m (T1 :: .leaf k :: ks)] := by
          have := (d2.forest mm.inv mm.auto).length
          have h2 := congrArg List.length e4
          simp at h2 this
          exact (List.append_inj_right' e4 (by simp [this])).symm
        subst hb1
        cases d2 with
        | @node _ _ _ _ _ _ q2 _ _ _ d3 d4 d5 d6 d7 =>
          generalize hg : (R.cspec hc).g.rhsSyms m = l at d3
          have hg : R.g.rhsSyms m = l := hg
          rw [hYγ] at hg
          subst hg
          obtain ⟨a2, b2, qb, e5, f1, f2⟩ := Drive.split (γ := [(R.g.rule m).lhs]) (δ := Y :: γ) d3
          have hlen := (f1.forest mm.inv mm.auto).length
          obtain ⟨A, rfl⟩ : ∃ A, a2 = [A] := by
            match a2, hlen with
            | [A], _ => exact ⟨A, rfl⟩
          simp only [List.singleton_append, List.cons.injEq] at e5
          obtain ⟨rfl, rfl⟩ := e5
          have hqb : qb = q1 := by
            refine Path.unique hau (γ := δ ++ R.g.rhsSyms n) ?_ hpq
            have := f1.path (d1.path hp)
            rw [hα, ← List.append_assoc]
            exact this
          subst hqb
          cases f2 with
          | @leaf _ _ _ _ _ a _ _ k' _ f3 f4 f5 f6 _ _ f7 f8 _ =>
            obtain ⟨ht1, ht2, ht3, ht4⟩ := tokenOf f3 f4 f5 f6
            have hred := reducesOn_open (b.noStart n hn.1) (by rw [b.start]; rfl) hva (by rw [hα]; simp) hn hm hYγ ht2 ht1
            have hsh := shiftsOn_open hva hα hm hYγ ht2
            have hst := (R.stateOf_path ho hva).2 hpq
            obtain ⟨d, N, o1, o2, o3, o4⟩ := R.chosen ho hc hf hA hwild hst ht1 ht4 hsh
            rw [f6] at f8
            have heq : N = R.row k' := Except.ok.inj (o3.symm.trans f8)
            have hlt : N < t.nState := by rw [heq]; exact R.row_lt ho hc f7.dst
            obtain ⟨p1, p2, e3, e4, _, e6, e7⟩ := C14_losers ho R hst hsh hred
            rw [ht3] at e3; rw [hprec] at e4; cases e3; cases e4
            rcases o4 with ⟨k, rfl, hk⟩ | ⟨r, rfl, hr⟩ | rfl
            · rcases hcmp with hcmp | hcmp
              · exact e6 hcmp _ o1
              · exact (e7 hcmp).2 _ o1
            · simp only [Run.encode, Option.some.injEq] at o2
              have hle : R.sts.length ≤ N := o2 ▸ Nat.le_add_right _ _
              exact absurd hlt (Nat.not_lt.2 (hs1 ▸ hle))
            · simp only [Run.encode, Option.some.injEq] at o2
              have hle : R.sts.length ≤ N := o2 ▸ Nat.le_add_right _ _
              exact absurd hlt (Nat.not_lt.2 (hs1 ▸ hle))
      | [_], e3 => simp at e3
      | [], e3 => simp at e3
    | [], e2 => simp at e2
    | _ :: _ :: _, e2 => simp at e2

/-! ### The tree of a run is unique -/

/-- No rule has an optional symbol. -/
def NoOptional (ds : List Decl) : Prop := ∀ u ∈ rulesOf ds, ∀ e ∈ u.rhs, ∀ i al, e ≠ ⟨[i], true, al⟩

/-- The trees left on a stack by some moves -/
def rebuild (ar : Nat → Nat) : List Move → List (Tok V) → List (Tree V) → List (Tree V)
  | [], _, st => st
  | .read _ :: ms, k :: ks, st => rebuild ar ms ks (.tok k :: st)
  | .read _ :: ms, [], st => rebuild ar ms [] st
  | .rule n :: ms, ks, st => rebuild ar ms ks (.rule n (st.take (ar n)).reverse :: st.drop (ar n))

/-- Length of the right-hand side of a written rule -/
def arity (ds : List Decl) (n : Nat) : Nat := match (rulesOf ds)[n]? with | some u => u.rhs.length | none => 0

theorem fits_length {names : List SymName} {ts : List (Tree V)} {es : List RhsElem} (h : Spec.Fits ds names ts es) : ts.length = es.length := by
  induction h <;> simp_all

theorem rebuild_fits (ho : NoOptional ds) {names : List SymName} {ts : List (Tree V)} {es : List RhsElem} (h : Spec.Fits ds names ts es) (hes : ∀ e ∈ es, ∀ i al, e ≠ ⟨[i], true, al⟩) :
    ∀ ms ks st, rebuild (arity ds) (Tree.posts ts ++ ms) (Tree.yields ts ++ ks) st = rebuild (arity ds) ms ks (ts.reverse ++ st) := by
  induction h with
  | nil => intro ms ks st; rfl
  | @tok k _ _ _ ts _ _ _ _ _ ih =>
    intro ms ks st
    simp only [Tree.posts, Tree.post, Tree.yields, Tree.yield, List.nil_append, List.cons_append, rebuild]
    rw [ih (fun e he => hes e (List.mem_cons_of_mem _ he))]
    simp
  | absent => exact absurd rfl (hes _ List.mem_cons_self _ _)
  | present => exact absurd rfl (hes _ List.mem_cons_self _ _)
  | @rule n u kids al ts es hu h1 _ ihk ih =>
    intro ms ks st
    simp only [Tree.posts, Tree.post, Tree.yields, Tree.yield, List.append_assoc]
    rw [ihk (fun e he => ho u (List.mem_of_getElem? hu) e he)]
    simp only [List.singleton_append, rebuild]
    have har : arity ds n = kids.reverse.length := by unfold arity; rw [hu]; simp [fits_length h1]
    rw [har, List.take_left' rfl, List.drop_left' rfl, ih (fun e he => hes e (List.mem_cons_of_mem _ he))]
    simp

/-- Without optional symbols a tree is determined by its postorder and its tokens, so there is one tree for a run. -/
theorem tree_unique (ho : NoOptional ds) {names : List SymName} {T : Tree V} (h : IsTree ds names T) : rebuild (arity ds) T.post T.yield [] = [T] := by
  obtain ⟨i, _, hf⟩ := h
  have := rebuild_fits ho hf (by intro e he; simp at he; subst he; intro i al h; cases h) [] [] []
  simpa [Tree.posts, Tree.yields, rebuild] using this

namespace C16ex
/-- Tokens without values -/
def word (l : List Nat) : List (Tok Int) := l.map (⟨·, 0⟩)
open Tests (U L s r)
open Examples (compiles compiles_iff tablesOf)
open C01ex (outcome outcome_iff acceptedB acceptedB_iff sumsSem)

theorem ops_ok : compile id C14ex.ops = .ok (tablesOf C14ex.ops) ∧ flat C14ex.ops = true ∧ apart id C14ex.ops = true :=
  ⟨compiles_iff (by decide +kernel), by decide +kernel, by decide +kernel⟩
-- `X P X P X W X W X E X`: left-associative, tighter and right-associative, looser; rules 1 (E), 2 (P), 3 (W)
example : (outcome (tablesOf C14ex.ops) sumsSem (C16ex.word [4, 2, 4, 2, 4, 3, 4, 3, 4, 1, 4])).map (fun x => (movesOf 5 x.1.trace).filter (fun | .rule 4 => false | .rule _ => true | _ => false)) =
    some [.rule 2, .rule 3, .rule 3, .rule 2, .rule 1, .rule 0] := by decide +kernel
example : ∃ p v T, AcceptedRun (tablesOf C14ex.ops) sumsSem [] (C16ex.word [4, 2, 4, 2, 4, 3, 4, 3, 4, 1, 4]) p v ∧
    TreeOfRun C14ex.ops (tablesOf C14ex.ops) sumsSem [] (C16ex.word [4, 2, 4, 2, 4, 3, 4, 3, 4, 1, 4]) p v T ∧
    (∀ k, k.major = 2 → ¬ RightOperand T 2 2 k) ∧ (∀ k, k.major = 3 → ¬ LeftOperand T 3 2 k ∧ ¬ LeftOperand T 3 3 k) ∧
    (∀ k, k.major = 1 → ¬ RightOperand T 2 1 k ∧ ¬ RightOperand T 1 1 k ∧ ¬ LeftOperand T 1 1 k) := by
  obtain ⟨p, h, _⟩ := acceptedB_iff (t := tablesOf C14ex.ops) (m := sumsSem) (toks := C16ex.word [4, 2, 4, 2, 4, 3, 4, 3, 4, 1, 4]) (v := 0) (x := []) (by decide +kernel)
  obtain ⟨T, h1, h2⟩ := C16_partial OrdOk.id ops_ok.1 ops_ok.2.1 ops_ok.2.2 (by decide) sumsSem h
  have hn1 : (tablesOf C14ex.ops).tokenNames[1]? = some (.ident (U 0)) := by decide +kernel
  have hn2 : (tablesOf C14ex.ops).tokenNames[2]? = some (.ident (U 1)) := by decide +kernel
  have hn3 : (tablesOf C14ex.ops).tokenNames[3]? = some (.ident (U 2)) := by decide +kernel
  have e1 : EndsOpen ⟨L 1, [s (L 1), s (U 0), s (L 1)], none, none⟩ := ⟨[s (L 1), s (U 0)], false, rfl⟩
  have e2 : EndsOpen ⟨L 1, [s (L 1), s (U 1), s (L 1)], none, none⟩ := ⟨[s (L 1), s (U 1)], false, rfl⟩
  have e3 : EndsOpen ⟨L 1, [s (L 1), s (U 2), s (L 1)], none, none⟩ := ⟨[s (L 1), s (U 2)], false, rfl⟩
  refine ⟨p, 0, T, h, h1, ?_, ?_, ?_⟩
  · intro k hk
    exact (h2 2 2 _ _ (s (U 1)) k (U 1) ⟨2, .left⟩ ⟨2, .left⟩ rfl rfl rfl e2 ⟨_, _, rfl⟩ (by rw [hk]; exact hn2) ⟨rfl, rfl⟩ rfl (by decide) (by decide)).2 (.inl (.inr ⟨rfl, rfl⟩))
  · intro k hk
    exact ⟨(h2 3 2 _ _ (s (U 2)) k (U 2) ⟨3, .right⟩ ⟨2, .left⟩ rfl rfl rfl e2 ⟨_, _, rfl⟩ (by rw [hk]; exact hn3) ⟨rfl, rfl⟩ rfl (by decide) (by decide)).1 (.inl (.inl (by decide))),
      (h2 3 3 _ _ (s (U 2)) k (U 2) ⟨3, .right⟩ ⟨3, .right⟩ rfl rfl rfl e3 ⟨_, _, rfl⟩ (by rw [hk]; exact hn3) ⟨rfl, rfl⟩ rfl (by decide) (by decide)).1 (.inl (.inr ⟨rfl, rfl⟩))⟩
  · intro k hk
    have g1 := h2 1 1 _ _ (s (U 0)) k (U 0) ⟨1, .none⟩ ⟨1, .none⟩ rfl rfl rfl e1 ⟨_, _, rfl⟩ (by rw [hk]; exact hn1) ⟨rfl, rfl⟩ rfl (by decide) (by decide)
    exact ⟨(h2 1 2 _ _ (s (U 0)) k (U 0) ⟨1, .none⟩ ⟨2, .left⟩ rfl rfl rfl e2 ⟨_, _, rfl⟩ (by rw [hk]; exact hn1) ⟨rfl, rfl⟩ rfl (by decide) (by decide)).2 (.inl (.inl (by decide))),
      g1.2 (.inr ⟨rfl, rfl⟩), g1.1 (.inr ⟨rfl, rfl⟩)⟩

/-- `%nonassoc E; %right W; %wildcard W; %token_class C E W; s ::= e; e ::= e C e [E]; e ::= X;` (numbers: E 1, W 2, X 3) -/
def wild : List Decl :=
  [ .assoc .none [U 0], .assoc .right [U 1], .wildcard (U 1), .tokenClass (U 2) [U 0, U 1], r (L 0) [s (L 1)],
    r (L 1) [s (L 1), s (U 2), s (L 1)] none (some (U 0)), r (L 1) [s (U 3)] ]
theorem wild_ok : compile id wild = .ok (tablesOf wild) ∧ flat wild = true ∧ apart id wild = true :=
  ⟨compiles_iff (by decide +kernel), by decide +kernel, by decide +kernel⟩
theorem wild_noOptional : NoOptional wild := by
  intro u hu e he i al h
  have : (rulesOf wild).all (fun u => u.rhs.all (fun e => !e.optional)) = true := by decide
  rw [List.all_eq_true] at this
  have := List.all_eq_true.1 (this u hu) e he
  rw [h] at this
  cases this

/-- `%nonassoc E; %right P; %fallback P E; s ::= e E e F; e ::= e E e; e ::= e P e; e ::= X;` (numbers: E 1, P 2, F 3, X 4) -/
def fall : List Decl :=
  [ .assoc .none [U 0], .assoc .right [U 1], .fallback (U 1) [U 0], r (L 0) [s (L 1), s (U 0), s (L 1), s (U 4)], r (L 1) [s (L 1), s (U 0), s (L 1)],
    r (L 1) [s (L 1), s (U 1), s (L 1)], r (L 1) [s (U 3)] ]
-- a fallback breaks it in the same way: `((X E X) E X) E X F`
example : (outcome (tablesOf fall) sumsSem (C16ex.word [4, 1, 4, 1, 4, 1, 4, 3])).map (fun x => (movesOf 4 x.1.trace).filter (· ≠ .rule 3)) =
    some [.read 4, .read 1, .read 4, .rule 1, .read 1, .read 4, .rule 1, .read 1, .read 4, .read 3, .rule 0] := by decide +kernel
end C16ex

/-- C16 fails: with a wildcard, `X E X E X` is accepted as `(X E X) E X` although `E` is `%nonassoc`. -/
theorem C16_false : ¬ C16_statement := by
  intro h
  obtain ⟨x, hx⟩ : ∃ x, C01ex.outcome (Examples.tablesOf C16ex.wild) C01ex.sumsSem (C16ex.word [3, 1, 3, 1, 3]) = some x :=
    Option.isSome_iff_exists.1 (by decide +kernel)
  have hm : movesOf 3 x.1.trace = [.read 3, .rule 2, .read 1, .read 3, .rule 2, .rule 1, .read 1, .read 3, .rule 2, .rule 1, .rule 0] := by
    have : (C01ex.outcome (Examples.tablesOf C16ex.wild) C01ex.sumsSem (C16ex.word [3, 1, 3, 1, 3])).map (fun x => movesOf 3 x.1.trace) =
      some [.read 3, .rule 2, .read 1, .read 3, .rule 2, .rule 1, .read 1, .read 3, .rule 2, .rule 1, .rule 0] := by decide +kernel
    rw [hx] at this
    exact Option.some.inj this
  obtain ⟨p, ha, _, _, hrun⟩ := C01ex.acceptedB_iff (t := Examples.tablesOf C16ex.wild) (m := C01ex.sumsSem) (toks := C16ex.word [3, 1, 3, 1, 3]) (v := 0) (x := []) (by decide +kernel)
  have hp : x.1 = p := by
    have := C01ex.outcome_iff hx
    rw [hrun] at this
    simp only [Option.some.injEq, Res.ok.injEq] at this
    exact this.1.symm
  rw [hp] at hm
  obtain ⟨T, h1, h2⟩ := h id OrdOk.id C16ex.wild _ C16ex.wild_ok.1 C16ex.wild_ok.2.1 C16ex.wild_ok.2.2 C01ex.sumsSem [] _ p 0 ha
  have h3 := tree_unique C16ex.wild_noOptional h1.tree
  rw [← h1.post, h1.yield, show (rulesOf C16ex.wild).length = 3 from by decide, hm] at h3
  have h4 := List.head_eq_of_cons_eq h3
  refine (h2 1 1 _ _ (Tests.s (Tests.U 2)) ⟨1, 0⟩ (Tests.U 0) ⟨1, .none⟩ ⟨1, .none⟩ rfl rfl rfl ⟨[Tests.s (Tests.L 1), Tests.s (Tests.U 2)], false, rfl⟩ ⟨_, _, rfl⟩
    (by decide +kernel) ⟨rfl, by decide⟩ (by decide) (by decide)).1 (.inr ⟨rfl, rfl⟩) ?_
  rw [← h4]
  exact ⟨_, _, .rule (List.mem_cons_self) .refl⟩

end Pomelo
