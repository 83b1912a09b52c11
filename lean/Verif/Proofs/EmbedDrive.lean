import Verif.Proofs.EmbedRun
import Verif.Props.Shape
import Verif.Props.Deterministic
/-! # The parsers of two grammars with other numbers of symbols follow the same trees -/

namespace Pomelo
open Spec

variable {ord ord' : List (SymbolId × SymbolId) → List (SymbolId × SymbolId)} {ds ds' : List Decl} {t t' : Tables} {V X E : Type}

/-- The table has the action of the state for a token with no fallback, if there is no wildcard. -/
theorem Spec.Run.own_look (ho : OrdOk ord) (hc : compile ord ds = .ok t) (hf : flat ds = true) (hA : apart ord ds = true) (R : Run ord ds)
    (hw : R.g.wildcard = none) {q : StateId} (hq : q < R.sts.length) {a : SymbolId} (ha : IsToken R.g a) (hfb : (R.g.sym a).fallback = none) {d : Detail}
    (h : R.Own q a d) {n : Nat} (he : R.encode d = some n) : t.findShift (R.row q) (R.g.sym a).index = .ok n :=
  toOption_ok (((C22_partial ho hc hf hA R hq ha).1 d h (fun _ _ w e => by rw [hw] at e; cases e) (fun _ => ⟨hfb, fun w e => by rw [hw] at e; cases e⟩)).trans he)

/-- Where the grammar can shift or reduce, a state has an action. -/
theorem Spec.Run.own_exists (ho : OrdOk ord) (R : Run ord ds) {q : StateId} (hq : q < R.sts.length) {a : SymbolId} (ha : IsToken R.g a)
    (h : (∃ k, R.g.CanShift R.sts q a k) ∨ ∃ r, R.g.CanReduce R.sts q a r) :
    ∃ d n, R.Own q a d ∧ R.encode d = some n ∧ ((∃ k, d = .shift k ∧ k < R.sts.length) ∨ (∃ r, d = .reduce r ∧ (r : Nat) < R.g.rules.length) ∨ d = .error) := by
  obtain ⟨hi, hau, hs⟩ := R.aspec ho
  obtain ⟨sh, rd, h1, h2, h3⟩ := R.outcome ho hq ha
  unfold Run.Own
  generalize actionsFor (R.actionsOf q) a = l at h3 ⊢
  cases h3 with
  | nothing e1 e2 =>
    rcases h with ⟨k, h⟩ | ⟨r, h⟩
    · have := (h1 k).2 h
      rw [e1] at this; cases this
    · have := (h2 r).2 h
      rw [e2] at this; cases this
  | @shift k' e => exact ⟨_, _, rfl, rfl, .inl ⟨_, rfl, (by
      obtain ⟨Y, hY, _⟩ := (h1 k').1 (by rw [e]; simp)
      exact hY.dst)⟩⟩
  | reduce h => exact ⟨_, _, rfl, rfl, .inr (.inl ⟨_, rfl, (canReduce_rule hi hau ((h2 _).1 h)).1⟩)⟩
  | error => exact ⟨_, _, rfl, rfl, .inr (.inr rfl)⟩

/-- What the table says is the action of the state. -/
theorem Spec.Run.look_own (ho : OrdOk ord) (hc : compile ord ds = .ok t) (hf : flat ds = true) (hA : apart ord ds = true) (R : Run ord ds)
    (hw : R.g.wildcard = none) {q : StateId} (hq : q < R.sts.length) {a : SymbolId} (ha : IsToken R.g a) (hfb : (R.g.sym a).fallback = none) :
    (∀ k, R.g.CanShift R.sts q a k → t.findShift (R.row q) (R.g.sym a).index = .ok (R.row k) → R.Own q a (.shift k)) ∧
    (∀ r : Nat, R.g.CanReduce R.sts q a r → t.findShift (R.row q) (R.g.sym a).index = .ok (t.nState + r) → R.Own q a (.reduce r)) := by
  obtain ⟨hi, hau, hs⟩ := R.aspec ho
  obtain ⟨_, _, _, _, d4, _⟩ := compressTables_spec hi R.compress
  have hlen : R.final.length = R.sts.length := by rw [d4, hs.len]
  have hsz := (R.sizes ho hc).1
  constructor
  · intro k hk hl
    obtain ⟨X, hX, _⟩ := id hk
    have hkl : k < R.sts.length := hX.dst
    have hrow := R.row_lt ho hc hkl
    obtain ⟨d, n, h1, h2, h3⟩ := R.own_exists ho hq ha (.inl ⟨k, hk⟩)
    have := R.own_look ho hc hf hA hw hq ha hfb h1 h2
    rw [this] at hl
    cases hl
    rcases h3 with ⟨k', rfl, hk'⟩ | ⟨r, rfl, _⟩ | rfl
    · simp only [Run.encode, Option.some.injEq] at h2
      have : k' = k := stateNum_inj _ (by rw [hlen]; exact hk') (by rw [hlen]; exact hkl) h2
      rw [← this]; exact h1
    · simp only [Run.encode, Option.some.injEq] at h2
      have : R.sts.length ≤ R.row k := h2 ▸ Nat.le_add_right _ _
      omega
    · simp only [Run.encode, Option.some.injEq] at h2
      omega
  · intro r hr hl
    have hrl := (canReduce_rule hi hau hr).1
    obtain ⟨d, n, h1, h2, h3⟩ := R.own_exists ho hq ha (.inr ⟨r, hr⟩)
    have := R.own_look ho hc hf hA hw hq ha hfb h1 h2
    rw [this] at hl
    cases hl
    rw [hsz] at h2
    rcases h3 with ⟨k', rfl, hk'⟩ | ⟨r', rfl, _⟩ | rfl
    · simp only [Run.encode, Option.some.injEq] at h2
      have := R.row_lt ho hc hk'
      omega
    · simp only [Run.encode, Option.some.injEq] at h2
      have h2 : R.sts.length + (show Nat from r') = R.sts.length + r := h2
      have : r' = r := Nat.add_left_cancel h2
      rw [← this]; exact h1
    · simp only [Run.encode, Option.some.injEq] at h2
      have hrl : r < R.g.rules.length := hrl
      omega

section
variable {R : Run ord ds} {R' : Run ord' ds'}

/-- The actions for corresponding tokens in corresponding states -/
theorem own_mate (ho : OrdOk ord) (ho' : OrdOk ord') (e : Embed R.g R'.g) {q q' : StateId} (hm : e.Mate R.sts R'.sts q q') {a a' : SymbolId}
    (hr : e.rel a a') (ha : (R.g.sym a).kind = .terminal) {d : Detail} (h : R.Own q a d) :
    ∃ d', RelD (e.Mate R.sts R'.sts) R.g.rules.length d d' ∧ R'.Own q' a' d' := by
  obtain ⟨hi, hau, _⟩ := R.aspec ho
  obtain ⟨hi', hau', _⟩ := R'.aspec ho'
  obtain ⟨b⟩ := bridge ho R.decls R.auto
  obtain ⟨b'⟩ := bridge ho' R'.decls R'.auto
  have hst : a ≠ R.g.start.getD 0 := by
    rintro rfl
    rw [hi.start_kind.1] at ha; cases ha
  have := relA_head (e.acts hi hi' hau hau' b.levels b.noStart b'.levels b'.noStart R.actions R'.actions hm hr hst)
  unfold Run.Own actionsFor Run.actionsOf at *
  unfold onSym at this
  generalize List.filter counts _ = l at this h
  generalize List.filter counts _ = l' at this ⊢
  cases this with
  | nil => cases h
  | cons h1 _ => cases h; exact ⟨_, h1, rfl⟩

/-- In a tree of tokens without fallbacks every token stands for itself, if there is no wildcard. -/
theorem Drive.pdrive {s : CSpec ord ds t} (hw : s.g.wildcard = none) {q q' : StateId} {ts : List (GTree V)} {n : Nat} {γ : List SymbolId} (h : Drive s q ts n γ q') :
    (∀ tok ∈ GTree.yields ts, ∀ a, a < s.g.syms.length → (s.g.sym a).kind = .terminal → a ≠ 0 → tok.major = (s.g.sym a).index →
      (s.g.sym a).fallback = none) → PDrive s q ts n γ q' := by
  induction h with
  | nil => intro _; exact .nil
  | leaf h1 h2 h3 h4 h5 h6 h7 h8 _ ih =>
    intro hF
    have hfa := hF _ (by simp [GTree.yields, GTree.yield]) _ h1 h2 h3 h4
    have ih := ih fun tok ht => hF tok (by simp [GTree.yields, ht])
    cases h5 with
    | self => exact .leaf h1 h2 h3 h4 h6 h7 h8 ih
    | fallback h => rw [hfa] at h; cases h
    | wildcard h => rw [hw] at h; cases h
  | node _ h2 h3 h4 _ ih1 ih2 =>
    intro hF
    exact .node (ih1 fun tok ht => hF tok (by simp [GTree.yields, GTree.yield, ht])) h2 h3 h4 (ih2 fun tok ht => hF tok (by simp [GTree.yields, ht]))

theorem PDrive.plain {s : CSpec ord ds t} (hi : GInv s.g) (ha : Auto s.g s.sts) {q q' : StateId} {ts : List (GTree V)} {n : Nat} {γ : List SymbolId}
    (h : PDrive s q ts n γ q') : s.g.Plain ts γ := by
  induction h with
  | nil => exact .nil
  | leaf h1 h2 h3 h4 h6 _ _ _ ih => exact .leaf h1 h2 h3 h4 h6 ih
  | node _ h2 _ _ _ ih1 ih2 => exact .node (canReduce_rule hi ha h2).1 ih1 ih2

theorem nextOf_mem (F : Nat → Prop) {ts : List (GTree V)} {n : Nat} (h : ∀ tok ∈ GTree.yields ts, F tok.major) (hn : F n) : F (nextOf ts n) := by
  unfold nextOf
  cases hy : GTree.yields ts with
  | nil => exact hn
  | cons k l => exact h k (by rw [hy]; simp)

/-- The moves of the one parser are moves of the other. -/
theorem drive_transfer (ho : OrdOk ord) (ho' : OrdOk ord') (hc : compile ord ds = .ok t) (hc' : compile ord' ds' = .ok t') (hf : flat ds = true)
    (hf' : flat ds' = true) (hA : apart ord ds = true) (hA' : apart ord' ds' = true) (hw : R.g.wildcard = none) (hw' : R'.g.wildcard = none)
    (e : Embed R.g R'.g) {F : Nat → Prop} {ρ : Nat → Nat}
    (hF : ∀ {a b}, e.rel a b → (R.g.sym a).kind = .terminal → F (R.g.sym a).index →
      (R.g.sym a).fallback = none ∧ (R'.g.sym b).fallback = none ∧ (R'.g.sym b).index = ρ (R.g.sym a).index)
    (h0 : ∀ {a b}, e.rel a b → a ≠ 0 → b ≠ 0) {q q1 : StateId} {ts : List (GTree V)} {n : Nat} {γ : List SymbolId} (h : R.g.Moves R.sts q ts n γ q1) :
    ∀ {p q' : StateId}, PDrive (R.cspec hc) q ts n γ p → e.Mate R.sts R'.sts q q' → (∀ tok ∈ GTree.yields ts, F tok.major) → F n →
      p = q1 ∧ ∃ γ' q1', List.Forall₂ e.rel γ γ' ∧ e.Mate R.sts R'.sts q1 q1' ∧ PDrive (R'.cspec hc') q' (GTree.swaps ρ ts) (ρ n) γ' q1' := by
  obtain ⟨hi, hau, _⟩ := R.aspec ho
  obtain ⟨hi', hau', _⟩ := R'.aspec ho'
  have mlt : ∀ {q q'}, e.Mate R.sts R'.sts q q' → q < R.sts.length ∧ q' < R'.sts.length := by
    rintro q q' ⟨_, _, _, h1, h2⟩
    exact ⟨Path.lt hau h1, Path.lt hau' h2⟩
  induction h with
  | nil =>
    intro p q' hd hm _ _
    cases hd
    exact ⟨rfl, [], q', .nil, hm, .nil⟩
  | @leaf q tok ts n γ a Y k q1 a1 a2 a3 a4 a5 a6 _ ih =>
    intro p q' hd hm hFt hFn
    cases hd with
    | @leaf _ _ _ _ _ c _ k2 _ c1 c2 c3 c4 c5 c6 c7 c8 =>
      have hca : c = a := hi.index_inj c1 a1 (by rw [← a4]; exact c4.symm)
      subst hca
      have hk : k2 = k := hau.unique c6 a6
      subst hk
      obtain ⟨Y', k', m1, m2, m3⟩ := e.mate_trans hi hi' hau hau' hm a6
      obtain ⟨a', r1, r2⟩ := e.reads m1 a5
      have hFa : F (R.g.sym c).index := a4 ▸ hFt tok (by simp [GTree.yields, GTree.yield])
      obtain ⟨f1, f2, f3⟩ := hF r1 a2 hFa
      have htok : IsToken R.g c := ⟨a1, a2⟩
      have htok' : IsToken R'.g a' := ⟨(e.lt r1).2, by rw [e.kind r1]; exact a2⟩
      obtain ⟨d1, ih⟩ := ih c8 m2 (fun tok ht => hFt tok (by simp [GTree.yields, ht])) hFn
      obtain ⟨γ', q1', i1, i2, i3⟩ := ih
      have hsh : R.g.CanShift R.sts q c k2 := ⟨Y, a6, (reads_iff (Reads.kind a5)).2 a5⟩
      rw [c4] at c7
      have hown := (R.look_own ho hc hf hA hw (mlt hm).1 htok f1).1 k2 hsh c7
      obtain ⟨d', hd', hown'⟩ := own_mate ho ho' e hm r1 a2 hown
      cases hd' with
      | @shift _ k3 hk3 =>
        have := e.mate_fn hi hi' hau hau' hk3 m2
        subst this
        have hl := R'.own_look ho' hc' hf' hA' hw' (mlt hm).2 htok' f2 hown' (n := R'.row k3) rfl
        refine ⟨d1, Y' :: γ', q1', .cons m1 i1, i2, ?_⟩
        have hmaj : (tok.swap ρ).major = (R'.g.sym a').index := by
          show ρ tok.major = _
          rw [f3, a4]
        exact .leaf htok'.1 htok'.2 (h0 r1 a3) hmaj r2 m3 (by rw [hmaj]; exact hl) i3
  | @node q r kids ts n γ q1 b k q2 b1 b2 b3 b4 _ ih1 ih2 =>
    intro p q' hd hm hFt hFn
    generalize hγ : (R.g.rule r).lhs :: γ = γ0 at hd
    cases hd with
    | @node _ _ _ _ _ _ p1 c k2 _ c1 c2 c3 c4 c5 =>
      change (R.g.rule r).lhs :: γ = (R.g.rule r).lhs :: _ at hγ
      cases hγ
      have hk : k2 = k := hau.unique c4 b4
      subst hk
      have hFts : F (nextOf ts n) := nextOf_mem F (fun tok ht => hFt tok (by simp [GTree.yields, ht])) hFn
      obtain ⟨d1, γ1, q1', i1, i2, i3⟩ := ih1 c1 hm (fun tok ht => hFt tok (by simp [GTree.yields, GTree.yield, ht])) hFts
      subst d1
      obtain ⟨X', k', m1, m2, m3⟩ := e.mate_trans hi hi' hau hau' hm b4
      obtain ⟨d2, γ2, q2', j1, j2, j3⟩ := ih2 c5 m2 (fun tok ht => hFt tok (by simp [GTree.yields, ht])) hFn
      have hrl : r < R.g.rules.length := (canReduce_rule hi hau b2).1
      have hX' : X' = (R'.g.rule r).lhs := e.fn m1 (e.lhs r hrl)
      subst hX'
      have hγ1 : γ1 = R'.g.rhsSyms r := forall₂_fn (R := e.rel) (fun h k => e.fn h k) i1 (e.rhs r hrl)
      subst hγ1
      obtain ⟨b', r1, r2⟩ := e.canReduce hi hi' hau hau' i2 b2
      have htok : IsToken R.g b := ⟨b2.1, b2.2.1⟩
      have htok' : IsToken R'.g b' := ⟨r2.1, r2.2.1⟩
      obtain ⟨f1, f2, f3⟩ := hF r1 htok.2 (by rw [b3]; exact hFts)
      rw [← b3] at c3
      have hown := (R.look_own ho hc hf hA hw (mlt i2).1 htok f1).2 r b2 c3
      obtain ⟨d', hd', hown'⟩ := own_mate ho ho' e i2 r1 htok.2 hown
      cases hd' with
      | reduce _ =>
        have hl := R'.own_look ho' hc' hf' hA' hw' (mlt i2).2 htok' f2 hown' (n := R'.sts.length + r) rfl
        rw [f3, b3, ← nextOf_swap ρ, ← (R'.sizes ho' hc').1] at hl
        rw [← nextOf_swap ρ] at i3
        exact ⟨d2, _, q2', .cons m1 j1, j2, .node i3 r2 hl m3 j3⟩

end

end Pomelo
