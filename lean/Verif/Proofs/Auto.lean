import Verif.Proofs.Links
/-! # The automaton: what the state construction and the follow sets amount to -/

namespace Pomelo

open Spec

/-- LALR(1) lookaheads of the items of the states -/
inductive Grammar.LA (g : Grammar) (sts : List LState) : StateId → Item → Nat → Prop
  | start {it} : it ∈ basisOf sts 0 → g.LA sts 0 it 0
  | first {q c r' n} : q < sts.length → c ∈ items (cfgs sts q) → g.Step c r' → Begins g (g.after c) n → g.LA sts q ⟨r', 0⟩ n
  | pass {q c r' n} : g.LA sts q c n → g.Step c r' → Derives g (g.after c) [] → g.LA sts q ⟨r', 0⟩ n
  | shift {q c sp k n} : g.LA sts q c n → g.next c = some sp → g.Trans sts q sp k → g.LA sts k c.succ n

/-- The LALR(1) automaton of the grammar -/
structure Auto (g : Grammar) (sts : List LState) : Prop where
  pos : 0 < sts.length
  nodup : ∀ q, q < sts.length → (items (cfgs sts q)).Nodup
  sorted : ∀ q, q < sts.length → (basisOf sts q).Pairwise (fun a b => a.lt b = true)
  sub : ∀ q, q < sts.length → ∀ it ∈ basisOf sts q, it ∈ items (cfgs sts q)
  closed : ∀ q, q < sts.length → ∀ c ∈ items (cfgs sts q), ∀ r', g.Step c r' → (⟨r', 0⟩ : Item) ∈ items (cfgs sts q)
  just : ∀ q, q < sts.length → ∀ it ∈ items (cfgs sts q), g.Just (basisOf sts q) it
  ok : ∀ q, q < sts.length → ∀ c ∈ items (cfgs sts q), g.NextOk c
  start : ∀ it, it ∈ basisOf sts 0 ↔ ∃ r ∈ (g.sym (g.start.getD 0)).rules, it = ⟨r, 0⟩
  distinct : ∀ q q', q < sts.length → q' < sts.length → basisOf sts q = basisOf sts q' → q = q'
  reach : ∀ q, q < sts.length → q = 0 ∨ ∃ p sp, p < q ∧ g.Trans sts p sp q
  moves : ∀ q, q < sts.length → ∃ L : List (SymbolId × StateId), (L.map Prod.fst).Nodup ∧
    (∀ e ∈ L, g.Trans sts q e.1 e.2) ∧ actsOf sts q = L.flatMap (fun e => g.shiftActions e.1 e.2) ∧
    ∀ c ∈ items (cfgs sts q), ∀ sp, g.next c = some sp → sp ∈ L.map Prod.fst
  fws : ∀ q, q < sts.length → ∀ it n, HasFw (cfgs sts q) it n ↔ g.LA sts q it n

theorem SameShape.transB {g : Grammar} {a b : List LState} (h : SameShape a b) {q k : StateId} {sp : SymbolId} :
    g.Trans b q sp k ↔ g.Trans a q sp k := by
  constructor
  · intro ht
    refine ⟨by rw [← h.len]; exact ht.src, by rw [← h.len]; exact ht.dst, by rw [← h.items]; exact ht.some, ?_⟩
    intro it
    rw [← h.basis, ht.basis]
    unfold Grammar.Succs
    rw [h.items]
  · intro ht
    refine ⟨by rw [h.len]; exact ht.src, by rw [h.len]; exact ht.dst, by rw [h.items]; exact ht.some, ?_⟩
    intro it
    rw [h.basis, ht.basis]
    unfold Grammar.Succs
    rw [h.items]

/-- The successor over a symbol is unique. -/
theorem Trans.unique {g : Grammar} {sts : List LState}
    (hs : ∀ q, q < sts.length → (basisOf sts q).Pairwise (fun a b => a.lt b = true))
    (hd : ∀ q q', q < sts.length → q' < sts.length → basisOf sts q = basisOf sts q' → q = q')
    {q k k' : StateId} {sp : SymbolId} (h1 : g.Trans sts q sp k) (h2 : g.Trans sts q sp k') : k = k' := by
  apply hd k k' h1.dst h2.dst
  apply sorted_ext (hs k h1.dst) (hs k' h2.dst)
  intro x
  rw [h1.basis, h2.basis]

theorem Auto.unique {g : Grammar} {sts : List LState} (h : Auto g sts) {q k k' : StateId} {sp : SymbolId}
    (h1 : g.Trans sts q sp k) (h2 : g.Trans sts q sp k') : k = k' := Trans.unique h.sorted h.distinct h1 h2

theorem Auto.move {g : Grammar} {sts : List LState} (h : Auto g sts) {q : StateId} (hq : q < sts.length) {c : Item}
    (hc : c ∈ items (cfgs sts q)) {sp : SymbolId} (hn : g.next c = some sp) : ∃ k, g.Trans sts q sp k := by
  obtain ⟨L, _, h2, _, h4⟩ := h.moves q hq
  obtain ⟨e, he, h5⟩ := List.mem_map.1 (h4 c hc sp hn)
  exact ⟨e.2, by rw [← h5]; exact h2 e he⟩

/-- The actions of the transitions are exactly the shift actions of the state. -/
theorem Auto.mem_acts {g : Grammar} {sts : List LState} (h : Auto g sts) {q : StateId} (hq : q < sts.length) (a : Action) :
    a ∈ actsOf sts q ↔ ∃ sp k, g.Trans sts q sp k ∧ a ∈ g.shiftActions sp k := by
  obtain ⟨L, _, h2, h3, h4⟩ := h.moves q hq
  rw [h3, List.mem_flatMap]
  constructor
  · rintro ⟨e, he, ha⟩; exact ⟨e.1, e.2, h2 e he, ha⟩
  · rintro ⟨sp, k, ht, ha⟩
    obtain ⟨c, hc, hn⟩ := ht.some
    obtain ⟨e, he, h5⟩ := List.mem_map.1 (h4 c hc sp hn)
    have hk : k = e.2 := h.unique ht (by rw [← h5]; exact h2 e he)
    exact ⟨e, he, by rw [h5, ← hk]; exact ha⟩

/-! ## The first state -/

theorem startBasis_fold : ∀ (R : List RuleId) (cur : List Cfg), (items cur).Nodup → (∀ it n, HasFw cur it n ↔ it ∈ items cur ∧ n = 0) →
    (∀ it l, ¬ HasFp cur it l) → (∀ it l, ¬ HasBp cur it l) →
    ∀ res, res = R.foldl (fun cur rp =>
      modifyCfg (addConfig cur ⟨rp, 0⟩) ⟨rp, 0⟩ (fun c => { c with fws := setInsert c.fws 0 })) cur →
    (items res).Nodup ∧ (∀ it, it ∈ items res ↔ it ∈ items cur ∨ ∃ r ∈ R, it = ⟨r, 0⟩) ∧
    (∀ it n, HasFw res it n ↔ it ∈ items res ∧ n = 0) ∧ (∀ it l, ¬ HasFp res it l) ∧ (∀ it l, ¬ HasBp res it l) := by
  intro R
  induction R with
  | nil =>
    intro cur h1 h2 h3 h4 res hr
    subst hr
    exact ⟨h1, fun it => by simp, h2, h3, h4⟩
  | cons r R ih =>
    intro cur h1 h2 h3 h4 res hr
    rw [List.foldl_cons] at hr
    have hf : (fun c : Cfg => { c with fws := setInsert c.fws 0 }) = fun c => { c with fws := setUnion c.fws [0] } := rfl
    rw [hf] at hr
    have hit : items (modifyCfg (addConfig cur ⟨r, 0⟩) ⟨r, 0⟩ (fun c => { c with fws := setUnion c.fws [0] })) =
        items (addConfig cur ⟨r, 0⟩) := items_fws [0]
    have hadd := items_addConfig cur ⟨r, 0⟩
    have hmem : ∀ it, it ∈ items (addConfig cur ⟨r, 0⟩) ↔ it ∈ items cur ∨ it = ⟨r, 0⟩ := by
      intro it
      rw [hadd]
      split
      · rename_i h
        constructor
        · exact .inl
        · rintro (h5 | rfl)
          · exact h5
          · exact h
      · simp
    obtain ⟨a1, a2, a3, a4, a5⟩ := ih _ (by
        rw [hit, hadd]
        split
        · exact h1
        · rename_i hn
          rw [List.nodup_append]
          refine ⟨h1, by simp, ?_⟩
          rintro a ha b hb rfl
          rw [List.mem_singleton] at hb
          subst hb; exact hn ha) (by
        intro it n
        have h7 := (hmem ⟨r, 0⟩).2 (.inr rfl)
        rw [hasFw_union, hasFw_addConfig, h2, hit, hmem it]
        simp only [List.mem_singleton]
        constructor
        · rintro (⟨h5, h6⟩ | ⟨rfl, _, h6⟩)
          · exact ⟨.inl h5, h6⟩
          · exact ⟨.inr rfl, h6⟩
        · rintro ⟨h5 | rfl, h6⟩
          · exact .inl ⟨h5, h6⟩
          · exact .inr ⟨rfl, h7, h6⟩) (by
        intro it l
        rw [hasFp_fws, hasFp_addConfig]; exact h3 it l) (by
        intro it l
        rw [hasBp_fws, hasBp_addConfig]; exact h4 it l) res hr
    refine ⟨a1, ?_, a3, a4, a5⟩
    intro it
    rw [a2, hit, hmem]
    simp only [List.mem_cons, exists_eq_or_imp, or_assoc]

theorem SInv.nil (g : Grammar) (S : List RuleId) : SInv g S [] := by
  refine ⟨?_, ?_, ?_, ?_, ?_⟩ <;> simp

theorem startBasis_ok {g g' : Grammar} {sp : SymbolId} (hk : (g.sym sp).kind = .nonTerminal) :
    CurOk g' (g.sym sp).rules [] (g.startBasis sp) := by
  have h := startBasis_fold (g.sym sp).rules [] (by simp) (by intro it n; simp [HasFw]) (by intro it l; simp [HasFp])
    (by intro it l; simp [HasBp]) (g.startBasis sp) (by unfold Grammar.startBasis; rw [hk])
  obtain ⟨a1, a2, a3, a4, a5⟩ := h
  refine ⟨a1, a4, .inl ⟨rfl, ?_, a3, a5⟩⟩
  intro it
  rw [a2]; simp

/-! ## Everything together -/

theorem auto_of {g : Grammar} (hf : FirstExact g) (hk : ∀ x, (g.sym x).firstSet ≠ [] → (g.sym x).kind = .nonTerminal)
    {sts sts' : List LState} {cur : List Cfg} {k : StateId} {n : Nat}
    (hc : CurOk g (g.sym (g.start.getD 0)).rules [] cur) {fuel : Nat} (hs : g.getState fuel [] cur = .ok (sts, k))
    (hfo : findFollowSets n (findLinks sts) = .ok sts') : Auto g sts' := by
  have hp := getState_ok g _ fuel [] cur sts k (SInv.nil _ _) hc hs
  have hi := hp.inv
  have hpos : 0 < sts.length := Nat.lt_of_le_of_lt (Nat.zero_le _) hp.lt
  have hdone : ∀ q, q < sts.length → Done g sts q := fun q hq => hp.done q (Nat.zero_le _) hq
  -- nodup everywhere
  have hnd : ∀ q, (items (cfgs sts q)).Nodup := by
    intro q
    by_cases hq : q < sts.length
    · exact (hi.built q hq).nodup
    · rw [cfgs_nil hq]; simp
  have vfw : ∀ (x : CRef) m, m ∈ (getRef sts x).fws ↔ HasFw (cfgs sts x.state) x.item m :=
    fun x m => view_getRef (hnd _) (fun c => c.fws) rfl m
  have vfp : ∀ (x : CRef) m, m ∈ (getRef sts x).fplp ↔ HasFp (cfgs sts x.state) x.item m :=
    fun x m => view_getRef (hnd _) (fun c => c.fplp) rfl m
  have vbp : ∀ (x : CRef) m, m ∈ (getRef sts x).bplp ↔ HasBp (cfgs sts x.state) x.item m :=
    fun x m => view_getRef (hnd _) (fun c => c.bplp) rfl m
  have hlt : ∀ {x : CRef} {P : Cfg → Prop}, (∃ c ∈ cfgs sts x.state, c.item = x.item ∧ P c) → x.state < sts.length := by
    rintro x P ⟨c, h1, _⟩
    by_contra hn
    rw [cfgs_nil hn] at h1; cases h1
  obtain ⟨l1, l2⟩ := findLinks_spec (sts := sts) (by
    intro x l hl
    rw [vbp] at hl
    obtain ⟨sp, h1, h2, _⟩ := hi.links x.state (hlt hl) x.item l hl
    exact ⟨h1.src, h2⟩)
  have hlinks : ∀ x y, y ∈ (getRef (findLinks sts) x).fplp ↔
      (x.state < sts.length ∧ x.item ∈ items (cfgs sts x.state) ∧ (g.followOf (g.after x.item)).2 = false ∧
        ∃ r', g.Step x.item r' ∧ y = ⟨x.state, ⟨r', 0⟩⟩) ∨
      (∃ sp, g.next x.item = some sp ∧ g.Trans sts x.state sp y.state ∧ x.item ∈ items (cfgs sts x.state) ∧ y.item = x.item.succ) := by
    intro x y
    rw [(l2 x).2, vfp, vbp]
    constructor
    · rintro (h | h)
      · have hq := hlt h
        exact .inl ⟨hq, ((hi.built _ hq).fplp _ _).1 h⟩
      · obtain ⟨sp, h1, h2, h3, h4⟩ := hi.links _ (hlt h) _ _ h
        exact .inr ⟨sp, h3, h1, h2, h4⟩
    · rintro (⟨hq, h⟩ | ⟨sp, h1, h2, h3, h4⟩)
      · exact .inl (((hi.built _ hq).fplp _ _).2 h)
      · right
        obtain ⟨L, m1, _, m3⟩ := hdone _ h2.src
        obtain ⟨e, he, h5⟩ := List.mem_map.1 (m3 x.item h3 sp h1)
        have hk : y.state = e.2 := Trans.unique (fun q hq => (hi.built q hq).sorted) hi.distinct h2 (by rw [← h5]; exact m1.trans e he)
        rw [h4, hk]
        exact m1.back e he x.item h3 (by rw [h5]; exact h1)
  have hfs := findFollowSets_spec (sts := findLinks sts) (by
    intro x l hl
    rw [hlinks] at hl
    apply l1.valid.2
    rcases hl with ⟨hq, h1, _, r', h2, rfl⟩ | ⟨sp, h1, h2, h3, h4⟩
    · exact ⟨hq, (hi.built _ hq).closed _ h1 r' h2⟩
    · refine ⟨h2.dst, (hi.built _ h2.dst).sub _ ?_⟩
      rw [h2.basis, h4]
      exact ⟨x.item, h3, h1, rfl⟩) hfo
  have hsh := l1.trans hfs.shape
  have hnd' : ∀ q, (items (cfgs sts' q)).Nodup := by intro q; rw [hsh.items]; exact hnd q
  have vfw' : ∀ (q : StateId) it m, HasFw (cfgs sts' q) it m ↔ Flows (findLinks sts) ⟨q, it⟩ m := by
    intro q it m
    rw [← hfs.fws]
    exact (view_getRef (r := ⟨q, it⟩) (hnd' _) (fun c => c.fws) rfl m).symm
  refine ⟨by rw [hsh.len]; exact hpos, fun q _ => hnd' q, ?_, ?_, ?_, ?_, ?_, ?_, ?_, ?_, ?_, ?_⟩
  · intro q hq; rw [hsh.len] at hq; rw [hsh.basis]; exact (hi.built q hq).sorted
  · intro q hq; rw [hsh.len] at hq; rw [hsh.basis, hsh.items]; exact (hi.built q hq).sub
  · intro q hq; rw [hsh.len] at hq; rw [hsh.items]; exact (hi.built q hq).closed
  · intro q hq; rw [hsh.len] at hq; rw [hsh.items, hsh.basis]; exact (hi.built q hq).just
  · intro q hq; rw [hsh.len] at hq; rw [hsh.items]; exact (hi.built q hq).ok
  · intro it; rw [hsh.basis]; exact hi.zero hpos it
  · intro q q' h1 h2; rw [hsh.len] at h1 h2; rw [hsh.basis, hsh.basis]; exact hi.distinct q q' h1 h2
  · intro q hq; rw [hsh.len] at hq
    rcases hi.reach q hq with h | ⟨p, sp, h1, h2⟩
    · exact .inl h
    · exact .inr ⟨p, sp, h1, hsh.transB.2 h2⟩
  · intro q hq; rw [hsh.len] at hq
    obtain ⟨L, m1, m2, m3⟩ := hdone q hq
    exact ⟨L, m1.nodup, fun e he => hsh.transB.2 (m1.trans e he), by rw [hsh.acts]; exact m2, by rw [hsh.items]; exact m3⟩
  · intro q hq it m
    rw [vfw']
    constructor
    · intro h
      have key : ∀ {x : CRef} {m}, Flows (findLinks sts) x m → g.LA sts' x.state x.item m := by
        intro x m h
        induction h with
        | base h =>
          rw [(l2 _).1, vfw] at h
          have hq := hlt h
          rcases ((hi.built _ hq).fws _ _).1 h with ⟨h1, h2, h3⟩ | ⟨c, h1, r', h2, h3, h4⟩
          · rw [h1] at h2 ⊢
            rw [h3]
            exact .start (by rw [hsh.basis]; exact h2)
          · rw [h3]
            exact .first (by rw [hsh.len]; exact hq) (by rw [hsh.items]; exact h1) h2 ((hf.follow hk _).1 h4)
        | link _ h2 ih =>
          rw [hlinks] at h2
          rcases h2 with ⟨hq, h1, h3, r', h4, rfl⟩ | ⟨sp, h1, h2, h3, h4⟩
          · exact .pass ih h4 (hf.broken.1 h3)
          · rw [h4]
            exact .shift ih h1 (hsh.transB.2 h2)
      exact key h
    · intro h
      have key : ∀ {q it m}, g.LA sts' q it m → (q < sts.length ∧ it ∈ items (cfgs sts q)) ∧ Flows (findLinks sts) ⟨q, it⟩ m := by
        intro q it m h
        induction h with
        | start h =>
          rw [hsh.basis] at h
          refine ⟨⟨hpos, (hi.built 0 hpos).sub _ h⟩, .base ?_⟩
          rw [(l2 _).1, vfw]
          exact ((hi.built 0 hpos).fws _ _).2 (.inl ⟨rfl, h, rfl⟩)
        | first h1 h2 h3 h4 =>
          rw [hsh.len] at h1
          rw [hsh.items] at h2
          refine ⟨⟨h1, (hi.built _ h1).closed _ h2 _ h3⟩, .base ?_⟩
          rw [(l2 _).1, vfw]
          exact ((hi.built _ h1).fws _ _).2 (.inr ⟨_, h2, _, h3, rfl, (hf.follow hk _).2 h4⟩)
        | pass h1 h2 h3 ih =>
          obtain ⟨⟨i1, i2⟩, i3⟩ := ih
          refine ⟨⟨i1, (hi.built _ i1).closed _ i2 _ h2⟩, .link i3 ?_⟩
          rw [hlinks]
          exact .inl ⟨i1, i2, hf.broken.2 h3, _, h2, rfl⟩
        | shift h1 h2 h3 ih =>
          obtain ⟨⟨i1, i2⟩, i3⟩ := ih
          have h3 := hsh.transB.1 h3
          refine ⟨⟨h3.dst, (hi.built _ h3.dst).sub _ ?_⟩, .link i3 ?_⟩
          · rw [h3.basis]; exact ⟨_, i2, h2, rfl⟩
          · rw [hlinks]
            exact .inr ⟨_, h2, h3, i2, rfl⟩
      exact (key h).2

/-- Start symbol of the grammar -/
theorem GInv.start_kind {g : Grammar} (h : GInv g) : (g.sym (g.start.getD 0)).kind = .nonTerminal ∧ g.start.getD 0 < g.syms.length ∧
    (g.sym (g.start.getD 0)).name.isNt = true := by
  obtain ⟨s, h1, h2, h3⟩ := h.start
  rw [h1]
  exact ⟨h.isNt_kind h2 h3, h2, h3⟩

theorem AutoSpec.auto {gD : Grammar} (hd : DInv gD) (hne : gD.rules ≠ []) {ord} (ho : OrdOk ord) {g' : Grammar} {sts' : List LState}
    (hi : GInv g') (s : AutoSpec (gD.pushSym { name := .dflt, kind := .nonTerminal }) ord g' sts') : Auto g' sts' := by
  obtain ⟨h1, h2⟩ := s.firstExact hd hne ho
  obtain ⟨k, hk⟩ := s.states
  have hmk := s.marked
  have hsh : Shape s.gF g' := Eq.mpr (congrArg (Shape s.gF) hmk) (markStart_shape _ _)
  have hst : s.gF.start.getD 0 = g'.start.getD 0 := by rw [hsh.start]
  refine auto_of h1 h2 (cur := s.gF.startBasis (s.gF.start.getD 0)) ?_ hk s.follow
  have := startBasis_ok (g := s.gF) (g' := g') (sp := s.gF.start.getD 0) (by rw [← hsh.kind, hst]; exact hi.start_kind.1)
  rw [← hsh.rules, hst] at this
  rw [hst]
  exact this

/-- The automaton of a grammar that gets that far -/
theorem automaton_auto {ord : List (SymbolId × SymbolId) → List (SymbolId × SymbolId)} {ds : List Decl} (ho : OrdOk ord)
    {g0 g : Grammar} {sts : List LState} (h0 : newFromDecls ds = .ok g0) (h : g0.automaton ord = .ok (g, sts)) : Auto g sts := by
  have hi := GInv.automaton h0 ho h
  obtain ⟨gD, _, hd, _, hne, rfl⟩ := newFromDecls_spec h0
  obtain ⟨s⟩ := automaton_spec h
  exact s.auto hd hne ho hi

end Pomelo
