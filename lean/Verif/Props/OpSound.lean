import Verif.Props.Operators
/-!
# C51: trees of accepted expressions

What is accepted has a tree that agrees with the precedences, also with `%nonassoc`.
-/

namespace Pomelo

open Spec

variable {ord : List (SymbolId × SymbolId) → List (SymbolId × SymbolId)} {ds : List Decl} {t : Tables} {V X E : Type}

section
variable (ho : OrdOk ord) (hc : compile ord ds = .ok t) (hf : flat ds = true) (hA : apart ord ds = true) (R : Run ord ds) (hw : R.g.wildcard = none)
include ho hc hf hA hw

/-- The parser reduced before an operator: the operator binds looser. -/
theorem took_reduce (b : Bridge ord ds R.g) {e : SymbolId} {δ α γ : List SymbolId} {q : StateId} {r m : RuleId} {a c Y : SymbolId} (hp : R.g.Path R.sts (δ ++ R.g.rhsSyms r) q)
    (hr : R.g.CanReduce R.sts q c r) (hl : t.findShift (R.row q) (R.g.sym a).index = .ok (t.nState + r)) (ha : IsToken R.g a) (hfb : (R.g.sym a).fallback = none)
    (h1 : RuleOf R.g e r) (hα : R.g.rhsSyms r = α ++ [e]) (h2 : RuleOf R.g e m) (hγ : R.g.rhsSyms m = e :: Y :: γ) (hY : Reads R.g Y a) :
    ∃ p p', (R.g.sym a).precedence = some p ∧ (R.g.rule r).precedence = some p' ∧ Looser p p' := by
  obtain ⟨hi, hau, _⟩ := R.aspec ho
  have hva := (path_items hi hau hp _).1 (canReduce_rule hi hau hr).2.2
  have hsh := shiftsOn_open hva hα h2 hγ hY
  have hst := (R.stateOf_path ho hva).2 hp
  have hred := reducesOn_open (b.noStart r h1.1) (by rw [b.start]; rfl) hva (by rw [hα]; simp) h1 h2 hγ hY ha
  obtain ⟨d, N, o1, o2, o3, o4⟩ := R.chosen ho hc hf hA hw hst ha hfb hsh
  have hs1 := (R.sizes ho hc).1
  have heq : N = t.nState + r := Except.ok.inj (o3.symm.trans hl)
  subst heq
  have hown : R.Own q a (.reduce r) := by
    rcases o4 with ⟨k, rfl, hk⟩ | ⟨r', rfl, hr'⟩ | rfl
    · have := R.row_lt ho hc hk
      simp only [Run.encode, Option.some.injEq] at o2
      omega
    · simp only [Run.encode, Option.some.injEq, hs1] at o2
      have : r' = r := Nat.add_left_cancel o2
      subst this
      exact o1
    · simp only [Run.encode, Option.some.injEq, hs1] at o2
      have : R.g.rules.length = r := Nat.add_left_cancel o2
      exact absurd h1.1 (by rw [this]; exact Nat.lt_irrefl _)
  obtain ⟨p, p', e1, e2, e3, _, e5⟩ := C14_losers ho R hst hsh hred
  refine ⟨p, p', e1, e2, ?_⟩
  rcases Nat.lt_trichotomy p.level p'.level with h | h | h
  · exact .inl h
  · cases has : p.assoc with
    | left => exact .inr ⟨h, has⟩
    | right => exact absurd hown (e3 (.inr ⟨h, has⟩))
    | none => exact absurd hown (e5 ⟨h, has⟩).1
  · exact absurd hown (e3 (.inl h))

/-- The parser read an operator where a rule was complete: the operator binds tighter. -/
theorem took_shift (b : Bridge ord ds R.g) {e : SymbolId} {δ α γ : List SymbolId} {q k : StateId} {r m : RuleId} {a c Y : SymbolId} (hp : R.g.Path R.sts (δ ++ R.g.rhsSyms r) q)
    (hr : R.g.CanReduce R.sts q c r) (hk : k < R.sts.length) (hl : t.findShift (R.row q) (R.g.sym a).index = .ok (R.row k)) (ha : IsToken R.g a) (hfb : (R.g.sym a).fallback = none)
    (h1 : RuleOf R.g e r) (hα : R.g.rhsSyms r = α ++ [e]) (h2 : RuleOf R.g e m) (hγ : R.g.rhsSyms m = e :: Y :: γ) (hY : Reads R.g Y a) :
    ∃ p p', (R.g.sym a).precedence = some p ∧ (R.g.rule r).precedence = some p' ∧ Tighter p p' := by
  obtain ⟨hi, hau, _⟩ := R.aspec ho
  have hva := (path_items hi hau hp _).1 (canReduce_rule hi hau hr).2.2
  have hsh := shiftsOn_open hva hα h2 hγ hY
  have hst := (R.stateOf_path ho hva).2 hp
  have hred := reducesOn_open (b.noStart r h1.1) (by rw [b.start]; rfl) hva (by rw [hα]; simp) h1 h2 hγ hY ha
  obtain ⟨d, N, o1, o2, o3, o4⟩ := R.chosen ho hc hf hA hw hst ha hfb hsh
  have hs1 := (R.sizes ho hc).1
  have heq : N = R.row k := Except.ok.inj (o3.symm.trans hl)
  have hlt : N < t.nState := by rw [heq]; exact R.row_lt ho hc hk
  have hown : ∃ k, R.Own q a (.shift k) := by
    rcases o4 with ⟨k, rfl, hk⟩ | ⟨r', rfl, hr'⟩ | rfl
    · exact ⟨k, o1⟩
    · simp only [Run.encode, Option.some.injEq] at o2
      have hle : R.sts.length ≤ N := o2 ▸ Nat.le_add_right _ _
      exact absurd hlt (Nat.not_lt.2 (hs1 ▸ hle))
    · simp only [Run.encode, Option.some.injEq] at o2
      have hle : R.sts.length ≤ N := o2 ▸ Nat.le_add_right _ _
      exact absurd hlt (Nat.not_lt.2 (hs1 ▸ hle))
  obtain ⟨k0, hown⟩ := hown
  obtain ⟨p, p', e1, e2, _, e4, e5⟩ := C14_losers ho R hst hsh hred
  refine ⟨p, p', e1, e2, ?_⟩
  rcases Nat.lt_trichotomy p.level p'.level with h | h | h
  · exact absurd hown (e4 (.inl h) _)
  · cases has : p.assoc with
    | left => exact absurd hown (e4 (.inr ⟨h, has⟩) _)
    | right => exact .inr ⟨h, has⟩
    | none => exact absurd hown ((e5 ⟨h, has⟩).2 _)
  · exact .inl h

end

section
variable {s : CSpec ord ds t}

/-- The last of a driven forest -/
theorem Drive.last_node (hi : GInv s.g) (ha : Auto s.g s.sts) {δ γ : List SymbolId} {q q' : StateId} {ts : List (GTree V)} {r : RuleId} {kids : List (GTree V)} {n : Nat}
    (h : Drive s q (ts ++ [.node r kids]) n γ q') (hp : s.g.Path s.sts δ q) :
    ∃ α qa q1 b, γ = α ++ [(s.g.rule r).lhs] ∧ s.g.Path s.sts (δ ++ α) qa ∧ Drive s qa kids n (s.g.rhsSyms r) q1 ∧ s.g.CanReduce s.sts q1 b r ∧
      t.findShift (s.num q1) n = .ok (t.nState + r) ∧ s.g.Trans s.sts qa (s.g.rule r).lhs q' := by
  have hlen := (h.forest hi ha).length
  simp only [List.length_append, List.length_singleton] at hlen
  obtain ⟨α, Z, rfl⟩ : ∃ α Z, γ = α ++ [Z] := by
    rcases List.eq_nil_or_concat γ with rfl | ⟨α, Z, rfl⟩
    · simp at hlen
    · exact ⟨α, Z, by simp⟩
  obtain ⟨a1, b1, qa, e4, d1, d2⟩ := h.split
  have hb1 : b1 = [.node r kids] := by
    have := (d2.forest hi ha).length
    exact (List.append_inj_right' e4 (by simpa using this.symm)).symm
  subst hb1
  generalize hZ : [Z] = w at d2
  cases d2 with
  | @node _ _ _ _ _ γ' q2 c k _ d3 d4 d5 d6 d7 =>
    simp only [List.cons.injEq] at hZ
    obtain ⟨rfl, rfl⟩ := hZ
    cases d7
    exact ⟨α, qa, q2, c, rfl, d1.path hp, d3, d4, d5, d6⟩

/-- All rules on the right edge were reduced before the same token. -/
theorem Drive.on_right (hi : GInv s.g) (ha : Auto s.g s.sts) {S e : SymbolId} {s0 : RuleId} (G : OpG s.g S e s0) {N : Nat} {T : Tree V} {r : Nat} (h : OnRight T r) :
    ∀ {r0 : RuleId} {kids : List (GTree V)}, T = (GTree.node r0 kids).toTree N → RuleOf s.g e r0 →
    ∀ {δ : List SymbolId} {q q1 : StateId} {c : SymbolId} {n : Nat}, s.g.Path s.sts δ q → Drive s q kids n (s.g.rhsSyms r0) q1 → s.g.CanReduce s.sts q1 c r0 →
    t.findShift (s.num q1) n = .ok (t.nState + r0) →
    ∃ δ' q' c' α, s.g.Path s.sts (δ' ++ s.g.rhsSyms r) q' ∧ s.g.CanReduce s.sts q' c' r ∧ t.findShift (s.num q') n = .ok (t.nState + r) ∧
      s.g.rhsSyms r = α ++ [e] ∧ RuleOf s.g e r := by
  have key : ∀ {n' m : Nat} {front : List (Tree V)} {k : Tok V} {ks : List (Tree V)} {r0 : RuleId} {kids : List (GTree V)},
      Tree.rule n' (front ++ [.tok k, .rule m ks]) = (GTree.node r0 kids).toTree N → RuleOf s.g e r0 →
      ∀ {δ : List SymbolId} {q q1 : StateId} {n : Nat}, s.g.Path s.sts δ q → Drive s q kids n (s.g.rhsSyms r0) q1 →
      n' = r0 ∧ ∃ δ' q' q1' c' kids' α, Tree.rule m ks = (GTree.node m kids').toTree N ∧ RuleOf s.g e m ∧ s.g.Path s.sts δ' q' ∧ Drive s q' kids' n (s.g.rhsSyms m) q1' ∧
        s.g.CanReduce s.sts q1' c' m ∧ t.findShift (s.num q1') n = .ok (t.nState + m) ∧ s.g.rhsSyms r0 = α ++ [e] := by
    intro n' m front k ks r0 kids hT hr δ q q1 n hp hD
    obtain ⟨_, kids', e1, e2⟩ := toTree_rule hT.symm
    cases e1
    rw [toTrees_map] at e2
    obtain ⟨fr, la, rfl, _, e3⟩ := List.map_eq_append_iff.1 e2.symm
    match la, e3 with
    | [A, B], e3 =>
      simp only [List.map_cons, List.map_nil, List.cons.injEq, and_true] at e3
      have hB := e3.2
      obtain ⟨_, kids1, rfl, _⟩ := toTree_rule hB
      obtain ⟨α, qa, q2, c2, f1, f2, f3, f4, f5, f6⟩ := Drive.last_node hi ha (ts := fr ++ [A]) (by simpa using hD) hp
      have he : (s.g.rule m).lhs = e := G.closed (.inr hr) (by rw [f1]; simp) ⟨(canReduce_rule hi ha f4).1, rfl⟩
      exact ⟨rfl, _, _, _, _, _, α, hB.symm, ⟨(canReduce_rule hi ha f4).1, he⟩, f2, f3, f4, f5, by rw [f1, he]⟩
    | [], e3 => simp at e3
    | [_], e3 => simp at e3
    | _ :: _ :: _ :: _, e3 => simp at e3
  induction h with
  | here =>
    intro r0 kids hT hr δ q q1 c n hp hD hR hF
    obtain ⟨rfl, _, _, _, _, _, α, _, _, _, _, _, _, h8⟩ := key hT hr hp hD
    exact ⟨δ, q1, c, α, hD.path hp, hR, hF, h8, hr⟩
  | down _ ih =>
    intro r0 kids hT hr δ q q1 c n hp hD hR hF
    obtain ⟨rfl, _, _, _, _, _, _, h1, h2, h3, h4, h5, h6, _⟩ := key hT hr hp hD
    exact ih h1 h2 h3 h4 h5 h6

/-- All operators on the left edge were read in the same state. -/
theorem Drive.on_left (hi : GInv s.g) (ha : Auto s.g s.sts) {S e : SymbolId} {s0 : RuleId} (G : OpG s.g S e s0) {N : Nat} {T : Tree V} {j : Tok V} (h : OnLeft T j) :
    ∀ {r0 : RuleId} {kids : List (GTree V)}, T = (GTree.node r0 kids).toTree N → RuleOf s.g e r0 →
    ∀ {δ : List SymbolId} {q q1 : StateId} {n : Nat}, s.g.Path s.sts δ q → Drive s q kids n (s.g.rhsSyms r0) q1 →
    ∃ qe m Y γ a c k, s.g.Path s.sts (δ ++ [e]) qe ∧ RuleOf s.g e m ∧ s.g.rhsSyms m = e :: Y :: γ ∧ a < s.g.syms.length ∧ (s.g.sym a).kind = .terminal ∧ a ≠ 0 ∧
      j.major = (s.g.sym a).index ∧ Stands s.g a c ∧ Reads s.g Y c ∧ s.g.Trans s.sts qe Y k ∧ t.findShift (s.num qe) j.major = .ok (s.num k) := by
  induction h with
  | @here n' m ks k rest =>
    intro r0 kids hT hr δ q q1 n hp hD
    obtain ⟨_, kids', e1, e2⟩ := toTree_rule hT.symm
    cases e1
    rw [toTrees_map] at e2
    match kids, e2 with
    | A :: B :: ts, e2 =>
      simp only [List.map_cons, List.cons.injEq] at e2
      obtain ⟨e2, e3, _⟩ := e2
      obtain ⟨_, kids1, rfl, _⟩ := toTree_rule e2.symm
      cases toTree_tok e3.symm
      generalize hg : s.g.rhsSyms n' = l at hD
      cases hD with
      | @node _ _ _ _ _ γ1 qa c' k' _ d1 d2 d3 d4 d5 =>
        have he : (s.g.rule m).lhs = e := G.closed (.inr hr) (by rw [hg]; simp) ⟨(canReduce_rule hi ha d2).1, rfl⟩
        rw [he] at d4 hg
        cases d5 with
        | @leaf _ _ _ _ γ2 a c'' Y k'' _ f1 f2 f3 f4 f5 f6 f7 f8 _ =>
          exact ⟨k', n', Y, γ2, a, c'', k'', .snoc hp d4, hr, hg, f1, f2, f3, f4, f5, f6, f7, f8⟩
    | [], e2 => simp at e2
    | [_], e2 => simp at e2
  | @down n' m ks k k' rest _ ih =>
    intro r0 kids hT hr δ q q1 n hp hD
    obtain ⟨_, kids', e1, e2⟩ := toTree_rule hT.symm
    cases e1
    rw [toTrees_map] at e2
    match kids, e2 with
    | A :: ts, e2 =>
      simp only [List.map_cons, List.cons.injEq] at e2
      obtain ⟨e2, _⟩ := e2
      obtain ⟨_, kids1, rfl, _⟩ := toTree_rule e2.symm
      generalize hg : s.g.rhsSyms n' = l at hD
      cases hD with
      | @node _ _ _ _ _ γ1 qa c' k' _ d1 d2 d3 d4 d5 =>
        have he : (s.g.rule m).lhs = e := G.closed (.inr hr) (by rw [hg]; simp) ⟨(canReduce_rule hi ha d2).1, rfl⟩
        exact ih e2 ⟨(canReduce_rule hi ha d2).1, he⟩ hp d1
    | [], e2 => simp at e2

end

/-- Without fallbacks and wildcard, tokens stand for themselves. -/
theorem fits_own {names : List SymName} (hw : wildcardOf ds = none) (hfb : ∀ i, fallbackOf ds i = none) {ts : List (Tree V)} {es : List RhsElem} (h : Spec.Fits ds names ts es) :
    Spec.Fits (ownTokens ds) names ts es := by
  induction h with
  | nil => exact .nil
  | tok h1 h2 h3 _ ih =>
    have : ∀ {i j : Ident}, TakenFor ds i j → i = j := by
      intro i j h
      cases h with
      | self => rfl
      | fallback h => rw [hfb] at h; cases h
      | wildcard h => rw [hw] at h; cases h
    cases this h2
    exact .tok h1 .self (own_matches.2 h3) ih
  | absent _ ih => exact .absent ih
  | present _ _ ih1 ih2 => exact .present ih1 ih2
  | rule h1 _ _ ih1 ih2 => exact .rule (by rw [own_rules]; exact h1) ih1 ih2

/-- C51: what is accepted without a syntax error has a tree that agrees with the precedences, and its value is returned;
also with `%nonassoc`.
Missing: fallbacks and wildcards, and grammars where `flat` or `apart` fail. -/
theorem C51_sound_partial (ho : OrdOk ord) (hc : compile ord ds = .ok t) (hf : flat ds = true) (hA : apart ord ds = true) (hw : wildcardOf ds = none)
    (hfb : ∀ i, fallbackOf ds i = none) {s e : Ident} (hop : operators ds s e = true) (sem : Sem V X E) {x : X} {toks : List (Tok V)} {p : Parser V X} {v : V}
    (h : AcceptedRun t sem x toks p v) : ∃ T, TreeOfRun ds t sem x toks p v T ∧ IsOwnTree ds t.tokenNames T ∧ Respects ds t.tokenNames T := by
  obtain ⟨R⟩ := run_exists hc
  obtain ⟨dflt, mm⟩ := (R.cspec hc).made ho hf
  obtain ⟨b⟩ := bridge ho R.decls R.auto
  have hi : GInv R.g := mm.inv
  have hau : Auto R.g R.sts := mm.auto
  obtain ⟨r0, kids0, q0, c0, hD, hR0, hF0, hT⟩ := accepted_drive ho hA mm b sem h
  obtain ⟨n0, D⟩ := operators_opD hop
  obtain ⟨S, eS, G, e1, e2, e3⟩ := b.toBridge0.opG ho hi D
  have hwild : R.g.wildcard = none := by
    have h1 := b.decl.wildcard
    rw [hw, ← b.wildcard] at h1
    simpa using h1
  have hown : IsOwnTree ds t.tokenNames (GTree.toTree (rulesOf ds).length (.node r0 kids0)) := by
    obtain ⟨i, h1, h2⟩ := hT.tree
    exact ⟨i, by rw [own_startOf]; exact h1, fits_own hw hfb h2⟩
  refine ⟨_, hT, hown, ?_⟩
  -- tokens
  have tokenOf : ∀ {k : Tok V} {a c : SymbolId}, a < R.g.syms.length → (R.g.sym a).kind = .terminal → a ≠ 0 → k.major = (R.g.sym a).index → Stands R.g a c →
      c = a ∧ (R.g.sym a).fallback = none ∧ ∃ i, t.tokenNames[k.major]? = some (.ident i) ∧ (R.g.sym a).name = .ident i := by
    intro k a c ha hk ha0 hmaj hst
    obtain ⟨haD, i, hia, _⟩ := b.toBridge0.terminal_name hi ha hk ha0
    have hna : (R.g.sym a).name = .ident i := (b.name haD).trans hia
    have hfa : (R.g.sym a).fallback = none := by
      rw [b.fallback haD]
      have := (b.decl.sym b.dinv haD hia).2.2.2.1
      rw [hfb] at this
      cases hh : (b.gD.sym a).fallback with
      | none => rfl
      | some x => rw [hh] at this; cases this
    refine ⟨?_, hfa, i, ?_, hna⟩
    · cases hst with
      | self => rfl
      | fallback h => rw [hfa] at h; cases h
      | wildcard h => rw [hwild] at h; cases h
    · rw [hmaj, ← hna]
      exact mm.tokenName ha hk
  have hroot : ∀ {r ks}, Sub (.rule r ks) (GTree.toTree (rulesOf ds).length (.node r0 kids0)) →
      ∃ δ0 q0 kids n0 q1 b, R.g.Path R.sts δ0 q0 ∧ ks = GTree.toTrees (rulesOf ds).length kids ∧ r < (rulesOf ds).length ∧
        Drive (R.cspec hc) q0 kids n0 (R.g.rhsSyms r) q1 ∧ R.g.CanReduce R.sts q1 b r := by
    intro r ks hs
    generalize hU : GTree.toTree (rulesOf ds).length (.node r0 kids0) = U at hs
    cases hs with
    | refl =>
      obtain ⟨hr, kids', e1, e2⟩ := toTree_rule hU
      cases e1
      exact ⟨[], 0, kids0, 0, q0, c0, .nil, e2, hr, hD, hR0⟩
    | @present U hs =>
      simp only [GTree.toTree] at hU
      split at hU
      · cases hU
      · split at hU
        · cases hU
        · cases hU
          rename_i e
          obtain ⟨δ0, q0, kids, n0, q1, b, g1, g2, g3, g4, g5, _⟩ := hD.sub (N := (rulesOf ds).length) .nil (by rw [e]; exact List.mem_cons_self) hs
          exact ⟨δ0, q0, kids, n0, q1, b, g1, g2, g3, g4, g5⟩
    | rule hmem hs =>
      obtain ⟨hr, kids', e1, e2⟩ := toTree_rule hU
      cases e1
      obtain ⟨δ0, q0, kids, n0, q1, b, g1, g2, g3, g4, g5, _⟩ := hD.sub (N := (rulesOf ds).length) .nil (by rw [← e2]; exact hmem) hs
      exact ⟨δ0, q0, kids, n0, q1, b, g1, g2, g3, g4, g5⟩
  have ruleE : ∀ {δ : List SymbolId} {q q1 : StateId} {kids : List (GTree V)} {n : Nat} {c : SymbolId} {m : RuleId}, R.g.Path R.sts δ q →
      Drive (R.cspec hc) q kids n (R.g.rhsSyms m) q1 → R.g.CanReduce R.sts q1 c m → 2 ≤ kids.length → RuleOf R.g eS m := by
    intro δ q q1 kids n c m hp hd hr hlen
    have hva := (path_items hi hau (hd.path hp) _).1 (canReduce_rule hi hau hr).2.2
    rcases G.viable_rule hva with h1 | h1
    · exfalso
      have h2 := (hd.forest mm.inv mm.auto).length
      change kids.length = (R.g.rhsSyms m).length at h2
      simp only at h1
      rw [h1, G.s0rhs] at h2
      simp only [List.length_singleton] at h2
      omega
    · exact h1
  constructor
  · intro m L k rest hs r hr
    obtain ⟨δ, q0, ts, n1, q1, c, hp, e4, _, hd, hr1⟩ := hroot hs
    rw [toTrees_map] at e4
    match ts, e4 with
    | T1 :: T2 :: ts, e4 =>
      have hmE := ruleE hp hd hr1 (by simp)
      simp only [List.map_cons, List.cons.injEq] at e4
      obtain ⟨e4, e5, _⟩ := e4
      cases toTree_tok e5.symm
      obtain ⟨rl, ksl, rfl⟩ : ∃ rl ksl, L = .rule rl ksl := by
        cases hr <;> exact ⟨_, _, rfl⟩
      obtain ⟨_, kids', rfl, _⟩ := toTree_rule e4.symm
      generalize hg : R.g.rhsSyms m = l at hd
      cases hd with
      | @node _ _ _ _ _ γ1 qa c' k' _ d1 d2 d3 d4 d5 =>
        rw [nextOf_leaf] at d1 d3
        have d2' : R.g.CanReduce R.sts qa c' rl := d2
        have he : (R.g.rule rl).lhs = eS := G.closed (.inr hmE) (by rw [hg]; exact List.mem_cons_self) ⟨(canReduce_rule hi hau d2').1, rfl⟩
        obtain ⟨δ', q', c2, α, g1, g2, g3, g4, g5⟩ := Drive.on_right mm.inv mm.auto G hr e4 ⟨(canReduce_rule hi hau d2').1, he⟩ hp d1 d2 d3
        cases d5 with
        | @leaf _ _ _ _ γ2 a _ Y' _ _ f1 f2 f3 f4 f5 f6 f7 f8 _ =>
          obtain ⟨rfl, t2, i, t3, t4⟩ := tokenOf f1 f2 f3 f4 f5
          have hg' : R.g.rhsSyms m = eS :: Y' :: γ2 := by rw [hg, ← he]; rfl
          rw [f4] at g3
          obtain ⟨p1, p2, a1, a2, a3⟩ := took_reduce ho hc hf hA R hwild b g1 g2 g3 ⟨f1, f2⟩ t2 g5 g4 hmE hg' f6
          obtain ⟨u, hu, _⟩ := e3 r g5
          refine ⟨i, u, p1, p2, t3, hu, ?_, ?_, a3⟩
          · rw [← token_precedence ho R f1 t4]; exact a1
          · rw [← C17_rule_precedence ho R.decls R.auto hu]; exact a2
    | [_], e4 => simp at e4
    | [], e4 => simp at e4
  · intro n front k' RR hs k hk
    obtain ⟨δ, q0, ts, n1, q1, c, hp, e4, _, hd, hr1⟩ := hroot hs
    rw [toTrees_map] at e4
    obtain ⟨fr, la, rfl, _, e5⟩ := List.map_eq_append_iff.1 e4.symm
    match la, e5 with
    | [A, B], e5 =>
      have hnE := ruleE hp hd hr1 (by simp)
      simp only [List.map_cons, List.map_nil, List.cons.injEq, and_true] at e5
      obtain ⟨_, e6⟩ := e5
      obtain ⟨rl, ksl, rfl⟩ : ∃ rl ksl, RR = .rule rl ksl := by
        cases hk <;> exact ⟨_, _, rfl⟩
      obtain ⟨_, kids', rfl, _⟩ := toTree_rule e6
      obtain ⟨α, qa, q2, c2, f1, f2, f3, f4, f5, f6⟩ := Drive.last_node mm.inv mm.auto (ts := fr ++ [A]) (by simpa using hd) hp
      have f4' : R.g.CanReduce R.sts q2 c2 rl := f4
      have f1' : R.g.rhsSyms n = α ++ [(R.g.rule rl).lhs] := f1
      have he : (R.g.rule rl).lhs = eS := G.closed (.inr hnE) (by rw [f1']; simp) ⟨(canReduce_rule hi hau f4').1, rfl⟩
      obtain ⟨qe, m, Y, γ, a, c3, kk, g1, g2, g3, g4, g5, g6, g7, g8, g9, g10, g11⟩ := Drive.on_left mm.inv mm.auto G hk e6.symm ⟨(canReduce_rule hi hau f4').1, he⟩ f2 f3
      rw [he] at f1'
      have hqe : qe = q1 := by
        refine Path.unique hau (γ := δ ++ R.g.rhsSyms n) ?_ (hd.path hp)
        rw [f1', ← List.append_assoc]
        exact g1
      subst hqe
      obtain ⟨rfl, t2, i, t3, t4⟩ := tokenOf g4 g5 g6 g7 g8
      rw [g7] at g11
      obtain ⟨p1, p2, a1, a2, a3⟩ := took_shift ho hc hf hA R hwild b (hd.path hp) hr1 g10.dst g11 ⟨g4, g5⟩ t2 hnE f1' g2 g3 g9
      obtain ⟨u, hu, _⟩ := e3 n hnE
      refine ⟨i, u, p1, p2, t3, hu, ?_, ?_, a3⟩
      · rw [← token_precedence ho R g4 t4]; exact a1
      · rw [← C17_rule_precedence ho R.decls R.auto hu]; exact a2
    | [], e5 => simp at e5
    | [_], e5 => simp at e5
    | _ :: _ :: _ :: _, e5 => simp at e5

/-- C51: what has no tree that agrees with the precedences is not accepted without a syntax error.
Missing: as for `C51_sound_partial`. -/
theorem C51_refused_partial (ho : OrdOk ord) (hc : compile ord ds = .ok t) (hf : flat ds = true) (hA : apart ord ds = true) (hw : wildcardOf ds = none)
    (hfb : ∀ i, fallbackOf ds i = none) {s e : Ident} (hop : operators ds s e = true) (sem : Sem V X E) (x : X) {toks : List (Tok V)}
    (hno : ∀ T : Tree V, IsOwnTree ds t.tokenNames T → Respects ds t.tokenNames T → T.yield ≠ toks) (p : Parser V X) (v : V) : ¬ AcceptedRun t sem x toks p v := by
  intro h
  obtain ⟨T, h1, h2, h3⟩ := C51_sound_partial ho hc hf hA hw hfb hop sem h
  exact hno T h2 h3 h1.yield

namespace Opex
open Tests (U L s r)
open Examples

-- all hypotheses of `C51_sound_partial` are met: `+ 2 - 3 * 4 ? 5 : 6 ? 7 : 8` with the value 5
theorem sums_accepted : ∃ p, AcceptedRun (tablesOf sums) calcSem [] even.yield p 5 ∧ p.extra = [] ∧
    (∀ tok ex, Event.syntaxError tok ex ∉ p.trace) ∧ runAll (tablesOf sums) calcSem 1000 [] even.yield = some (.ok p 5) :=
  C01ex.acceptedB_iff (by decide +kernel)
example : ∃ p T, TreeOfRun sums (tablesOf sums) calcSem [] even.yield p 5 T ∧ Respects sums (tablesOf sums).tokenNames T := by
  obtain ⟨p, h, _⟩ := sums_accepted
  obtain ⟨T, h1, _, h3⟩ := C51_sound_partial OrdOk.id (compiles_iff (by decide +kernel)) (by decide +kernel) (by decide +kernel) (by decide) (fun _ => rfl)
    (by decide +kernel : operators sums (L 0) (L 1) = true) calcSem h
  exact ⟨p, T, h1, h3⟩
-- so the value of the tree that agrees with the precedences is 5
example : even.value sums calcSem [] = (.ok 5, []) := by
  obtain ⟨p, h, hx, _⟩ := sums_accepted
  obtain ⟨T, h1, h2, h3⟩ := C51_sound_partial OrdOk.id (compiles_iff (by decide +kernel)) (by decide +kernel) (by decide +kernel) (by decide) (fun _ => rfl)
    (by decide +kernel : operators sums (L 0) (L 1) = true) calcSem h
  have := C51_unique OrdOk.id (compiles_iff (by decide +kernel)) (by decide +kernel : operators sums (L 0) (L 1) = true) even_ok h2 even_respects h3
    (fun tok ht => (odd_valid calcSem rfl tok ht).pos) h1.yield.symm
  subst this
  obtain ⟨w, e1, e2⟩ := h1.value
  rw [hx] at e1
  have h6 : rootValue sums calcSem w = w := if_pos (by decide)
  rw [e1, e2, h6]

/-! `%nonassoc`: `Num Lt Num Lt Num` has no tree that agrees with the precedences. -/

theorem less_names : (tablesOf less).tokenNames = [.dollar, .ident (U 1), .ident (U 2)] := by decide +kernel

theorem less_prec {k : Tok Int} {names : List SymName} : ¬ TokLooser less names k 1 ∧ ¬ TokTighter less names k 1 := by
  have key : ∀ {i : Ident} {p : Precedence}, precOf less i = some p → p = ⟨1, .none⟩ := by
    intro i p h
    have : precOf less i = if i = U 1 then some ⟨1, .none⟩ else none := by
      by_cases h : i = U 1
      · subst h; rfl
      · rw [if_neg h]
        simp [precOf, precFrom, less, r, s, h]
    rw [this] at h
    split at h
    · exact (Option.some.inj h).symm
    · cases h
  have key2 : ∀ {u : URule} {p' : Precedence}, (rulesOf less)[1]? = some u → rulePrec less u = some p' → p' = ⟨1, .none⟩ := by
    intro u p' h1 h2
    cases h1
    have : rulePrec less ⟨L 1, [⟨[L 1], false, false⟩, ⟨[U 1], false, false⟩, ⟨[L 1], false, false⟩], none, none⟩ = some ⟨1, .none⟩ := by decide
    exact (Option.some.inj (this.symm.trans h2)).symm
  constructor
  · rintro ⟨i, u, p, p', _, h2, h3, h4, h5⟩
    cases key h3; cases key2 h2 h4
    rcases h5 with h | h
    · exact absurd h (by decide)
    · exact absurd h.2 (by decide)
  · rintro ⟨i, u, p, p', _, h2, h3, h4, h5⟩
    cases key h3; cases key2 h2 h4
    rcases h5 with h | h
    · exact absurd h (by decide)
    · exact absurd h.2 (by decide)

/-- The tree of an element that is a nonterminal -/
theorem less_rule {V : Type} {names : List SymName} (hn : names = [.dollar, .ident (U 1), .ident (U 2)]) {n : Nat} {al : Bool} {ts : List (Tree V)} {es : List RhsElem}
    (h : Spec.Fits (ownTokens less) names ts (⟨[L n], false, al⟩ :: es)) :
    ∃ (m : Nat) (u : URule) (kids : List (Tree V)) (ts' : List (Tree V)), ts = .rule m kids :: ts' ∧ (rulesOf less)[m]? = some u ∧ u.lhs = L n ∧
      Spec.Fits (ownTokens less) names kids u.rhs ∧ Spec.Fits (ownTokens less) names ts' es := by
  generalize hes : (⟨[L n], false, al⟩ : RhsElem) = e at h
  cases h with
  | @tok k i j x ts es h1 h2 h3 _ =>
    exfalso
    cases own_taken h2
    have h4 : i = L n := by
      have := own_matches.1 h3
      rw [← hes] at this
      simpa [isClass, less, r, s] using this.2
    subst h4
    rw [hn] at h1
    rcases hk : k.major with _ | _ | _ | m <;> rw [hk] at h1 <;> cases h1
  | @rule m u kids al ts es h1 h2 h3 =>
    rw [own_rules] at h1
    have h4 : [L n] = [u.lhs] := congrArg RhsElem.toks hes
    exact ⟨m, u, kids, ts, rfl, h1, (List.cons.inj h4).1.symm, h2, h3⟩
  | absent => cases hes
  | present => cases hes
/-- The tree of an element that is a token -/
theorem less_tok {V : Type} {names : List SymName} {n : Nat} {al : Bool} {ts : List (Tree V)} {es : List RhsElem}
    (h : Spec.Fits (ownTokens less) names ts (⟨[U n], false, al⟩ :: es)) : ∃ (k : Tok V) (ts' : List (Tree V)), ts = .tok k :: ts' ∧ Spec.Fits (ownTokens less) names ts' es := by
  generalize hes : (⟨[U n], false, al⟩ : RhsElem) = e at h
  cases h with
  | @tok k i j x ts es h1 h2 h3 h4 => exact ⟨k, ts, rfl, h4⟩
  | @rule m u kids al ts es h1 h2 h3 =>
    exfalso
    rw [own_rules] at h1
    rcases m with _ | _ | _ | m <;> cases h1 <;> cases hes
  | absent => cases hes
  | present => cases hes

/-- The trees of the expressions -/
theorem less_expr {V : Type} {names : List SymName} (hn : names = [.dollar, .ident (U 1), .ident (U 2)]) {al : Bool} {ts : List (Tree V)} {es : List RhsElem}
    (h : Spec.Fits (ownTokens less) names ts (⟨[L 1], false, al⟩ :: es)) :
    ∃ ts', Spec.Fits (ownTokens less) names ts' es ∧
      ((∃ A k B, ts = .rule 1 [A, .tok k, B] :: ts' ∧ Spec.Fits (ownTokens less) names [A, .tok k, B] [⟨[L 1], false, false⟩, ⟨[U 1], false, false⟩, ⟨[L 1], false, false⟩]) ∨ ∃ k, ts = .rule 2 [.tok k] :: ts') := by
  obtain ⟨m, u, kids, ts', rfl, h1, h2, h3, h4⟩ := less_rule hn h
  refine ⟨ts', h4, ?_⟩
  rcases m with _ | _ | _ | m
  · cases h1; cases h2
  · cases h1
    obtain ⟨_, _, _, _, rfl, _, _, _, h5⟩ := less_rule hn h3
    obtain ⟨_, _, rfl, h6⟩ := less_tok h5
    obtain ⟨_, _, _, _, rfl, _, _, _, h7⟩ := less_rule hn h6
    cases h7
    exact .inl ⟨_, _, _, rfl, h3⟩
  · cases h1
    obtain ⟨_, _, rfl, h6⟩ := less_tok h3
    cases h6
    exact .inr ⟨_, rfl⟩
  · cases h1

theorem less_short {names : List SymName} (hn : names = [.dollar, .ident (U 1), .ident (U 2)]) {T : Tree Int} (h : IsOwnTree less names T) (hr : Respects less names T) :
    T.yield.length ≤ 3 := by
  obtain ⟨i, h1, h2⟩ := h
  rw [own_startOf] at h1
  cases h1
  obtain ⟨m, u, kids, ts', e1, h1, h3, h4, _⟩ := less_rule hn h2
  cases e1
  rcases m with _ | _ | _ | m <;> cases h1 <;> try cases h3
  obtain ⟨ts', h5, h6⟩ := less_expr hn h4
  cases h5
  rcases h6 with ⟨A, k, B, rfl, h6⟩ | ⟨k, rfl⟩
  swap
  · simp [Tree.yield, Tree.yields]
  have hs : Sub (.rule 1 [A, .tok k, B]) (.rule 0 [.rule 1 [A, .tok k, B]]) := .rule (by simp) .refl
  obtain ⟨ts', h7, hA⟩ := less_expr hn h6
  obtain ⟨k', ts'', h8, h9⟩ := less_tok h7
  subst h8
  obtain ⟨ts3, h10, hB⟩ := less_expr hn h9
  rcases hA with ⟨A1, k1, B1, e1, hA⟩ | ⟨k1, e1⟩
  · exfalso
    cases e1
    obtain ⟨ts4, h11, hB1⟩ := less_expr hn hA
    obtain ⟨_, _, h12, h13⟩ := less_tok h11
    subst h12
    obtain ⟨_, _, _, _, h14, _⟩ := less_rule hn h13
    cases h14
    rcases hB1 with ⟨_, _, _, h14, _⟩ | ⟨_, h14⟩ <;> cases h14 <;>
    exact less_prec.1 (hr.left hs 1 (.here (front := [_])))
  rcases hB with ⟨A2, k2, B2, e2, hB⟩ | ⟨k2, e2⟩
  · exfalso
    rw [e2] at e1
    cases e1
    obtain ⟨_, _, _, _, h14, _⟩ := less_rule hn hB
    cases h14
    exact less_prec.2 (hr.right (front := [_]) hs _ .here)
  rw [e2] at e1
  cases e1
  simp [Tree.yield, Tree.yields]

-- so `Num Lt Num Lt Num` is not accepted without a syntax error
example (p : Parser Int (List Nat)) (v : Int) : ¬ AcceptedRun (tablesOf less) Tests.logSem [] [⟨2, 0⟩, ⟨1, 0⟩, ⟨2, 0⟩, ⟨1, 0⟩, ⟨2, 0⟩] p v :=
  C51_refused_partial OrdOk.id (compiles_iff (by decide +kernel)) (by decide +kernel) (by decide +kernel) (by decide) (fun _ => rfl)
    (by decide +kernel : operators less (L 0) (L 1) = true) _ _ (fun T h1 h2 h3 => absurd (less_short less_names h1 h2) (by rw [h3]; decide)) p v

end Opex

end Pomelo
