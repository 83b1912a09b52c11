import Verif.Proofs.OpStates
import Verif.Proofs.Wins
import Verif.Proofs.Shape
import Verif.Spec.Operators
/-! # Trees that agree with the precedences win the conflicts -/

namespace Pomelo

open Spec

variable {V : Type} {g : Grammar}

theorem Grammar.Plain.append {ts us : List (GTree V)} {γ γ' : List SymbolId} (h : g.Plain ts γ) (h' : g.Plain us γ') : g.Plain (ts ++ us) (γ ++ γ') := by
  induction h with
  | nil => exact h'
  | leaf h1 h2 h3 h4 h5 _ ih => exact .leaf h1 h2 h3 h4 h5 ih
  | node h1 h2 _ _ ih => exact .node h1 h2 ih

theorem Grammar.Plain.len {ts : List (GTree V)} {γ : List SymbolId} (h : g.Plain ts γ) : ts.length = γ.length := by
  induction h with
  | nil => rfl
  | leaf _ _ _ _ _ _ ih => simp [ih]
  | node _ _ _ _ ih => simp [ih]

theorem Grammar.Plain.split {ts : List (GTree V)} {γ γ' : List SymbolId} (h : g.Plain ts (γ ++ γ')) : ∃ us vs, ts = us ++ vs ∧ g.Plain us γ ∧ g.Plain vs γ' := by
  induction γ generalizing ts with
  | nil => exact ⟨[], ts, rfl, .nil, h⟩
  | cons X γ ih =>
    generalize hw : X :: γ ++ γ' = w at h
    cases h with
    | nil => cases hw
    | leaf h1 h2 h3 h4 h5 h6 =>
      cases hw
      obtain ⟨us, vs, rfl, a, b⟩ := ih h6
      exact ⟨_ :: us, vs, rfl, .leaf h1 h2 h3 h4 h5 a, b⟩
    | node h1 h2 h3 =>
      cases hw
      obtain ⟨us, vs, rfl, a, b⟩ := ih h3
      exact ⟨_ :: us, vs, rfl, .node h1 h2 a, b⟩

theorem toTree_node {N : Nat} {r : RuleId} (hr : r < N) (kids : List (GTree V)) : (GTree.node r kids).toTree N = .rule r (kids.map (GTree.toTree N)) := by
  rw [GTree.toTree, if_pos hr, toTrees_map]

theorem toTree_leaf {N : Nat} (k : Tok V) : (GTree.leaf k).toTree N = .tok k := rfl

theorem Spec.Sub.trans {s t u : Tree V} (h : Sub s t) (h' : Sub t u) : Sub s u := by
  induction h' with
  | refl => exact h
  | present _ ih => exact .present ih
  | rule hm _ ih => exact .rule hm ih

theorem Spec.Respects.sub {ds : List Decl} {names : List SymName} {T T' : Tree V} (h : Respects ds names T) (hs : Sub T' T) : Respects ds names T' :=
  ⟨fun h1 => h.left (h1.trans hs), fun h1 => h.right (h1.trans hs)⟩

namespace OpG

variable {S e : SymbolId} {s0 : RuleId} {N : Nat} {ds : List Decl} {names : List SymName}

/-- A tree in place of `e` is a node of one of its rules. -/
theorem plain_e (hi : GInv g) (hk : (g.sym e).kind = .nonTerminal) {T : GTree V} {ts : List (GTree V)} {γ : List SymbolId} (h : g.Plain (T :: ts) (e :: γ)) :
    ∃ r kids, T = .node r kids ∧ RuleOf g e r ∧ g.Plain kids (g.rhsSyms r) ∧ g.Plain ts γ := by
  generalize hw : e :: γ = w at h
  cases h with
  | leaf _ _ _ _ h5 _ =>
    cases hw
    exact absurd hk (Reads.kind h5)
  | node h1 h2 h3 =>
    simp only [List.cons.injEq] at hw
    obtain ⟨rfl, rfl⟩ := hw
    exact ⟨_, _, rfl, ⟨h1, rfl⟩, h2, h3⟩

/-- A tree in place of another symbol of a right-hand side is a token. -/
theorem plain_tok (G : OpG g S e s0) {r : RuleId} (hr : RuleOf g e r) {Y : SymbolId} (hY : Y ∈ g.rhsSyms r) (hne : Y ≠ e) {T : GTree V} {ts : List (GTree V)} {γ : List SymbolId}
    (h : g.Plain (T :: ts) (Y :: γ)) :
    ∃ tok a, T = .leaf tok ∧ a < g.syms.length ∧ (g.sym a).kind = .terminal ∧ a ≠ 0 ∧ tok.major = (g.sym a).index ∧ Reads g Y a ∧ g.Plain ts γ := by
  generalize hw : Y :: γ = w at h
  cases h with
  | leaf h1 h2 h3 h4 h5 h6 =>
    cases hw
    exact ⟨_, _, rfl, h1, h2, h3, h4, h5, h6⟩
  | @node r' kids _ _ h1 h2 h3 =>
    exfalso
    simp only [List.cons.injEq] at hw
    obtain ⟨rfl, rfl⟩ := hw
    exact hne (G.closed (.inr hr) hY ⟨h1, rfl⟩)

/-- The operators on the left edge bind tighter than the rule around the tree. -/
def LeftOk (g : Grammar) (s0 : RuleId) (N : Nat) (ds : List Decl) (names : List SymName) (c : Item) (T : GTree V) : Prop :=
  c.dot + 1 = (g.rhsSyms c.rule).length → c.rule ≠ s0 → ∀ k, OnLeft (T.toTree N) k → TokTighter ds names k c.rule

/-- An operator behind the tree binds looser than the rules on its right edge. -/
def RightOk (g : Grammar) (e : SymbolId) (N : Nat) (n : Nat) (T : GTree V) : Prop :=
  ∀ b, b < g.syms.length → (g.sym b).kind = .terminal → (g.sym b).index = n → ∀ m Y, RuleOf g e m → (g.rhsSyms m)[0]? = some e → (g.rhsSyms m)[1]? = some Y →
    Reads g Y b → ∀ r, OnRight (T.toTree N) r → g.TokVs b r .lt

variable (hN : ∀ r, RuleOf g e r → r < N)
  (hT : ∀ {k : Tok V} {a : SymbolId} {r : RuleId}, a < g.syms.length → (g.sym a).kind = .terminal → k.major = (g.sym a).index → TokTighter ds names k r → g.TokVs a r .gt)
  (hL : ∀ {k : Tok V} {a : SymbolId} {r : RuleId}, a < g.syms.length → (g.sym a).kind = .terminal → k.major = (g.sym a).index → TokLooser ds names k r → g.TokVs a r .lt)

include hN in
/-- The reduction of the node wins. -/
theorem node_wins (G : OpG g S e s0) (hi : GInv g) {δ : List SymbolId} {c : Item} (hC : Ctx g e s0 δ c) {r : RuleId} (hr : RuleOf g e r) {kids : List (GTree V)}
    (hk : g.Plain kids (g.rhsSyms r)) {n : Nat} (hR : RightOk g e N n (.node r kids)) {b : SymbolId} (hb : b < g.syms.length) (hbk : (g.sym b).kind = .terminal)
    (hbn : (g.sym b).index = n) : (∀ r', ReducesOn g (δ ++ g.rhsSyms r) b r' → r' = r) ∧ ∀ Z, ShiftsOn g (δ ++ g.rhsSyms r) b Z → g.TokVs b r .lt := by
  obtain ⟨h1, h2⟩ := G.reduce_ok hC hr (b := b)
  refine ⟨h1, ?_⟩
  intro Z hZ
  obtain ⟨⟨α, hα, he⟩, m, m1, m2, m3⟩ := h2 Z hZ
  refine hR b hb hbk hbn m Z m1 m2 m3 hZ.choose_spec.2.2 r ?_
  -- the last two symbols are a token and an operand
  obtain ⟨β, Y, rfl⟩ : ∃ β Y, α = β ++ [Y] := ⟨_, _, (List.dropLast_append_getLast hα).symm⟩
  have hek : (g.sym e).kind = .nonTerminal := hr.2 ▸ (hi.lhs r hr.1).2.1
  have hYe : Y ≠ e := by
    rintro rfl
    refine G.spaced hr (d := β.length) ?_ ?_ <;> rw [he] <;> simp
  rw [he] at hk
  obtain ⟨us, vs, rfl, k1, k2⟩ := hk.split
  obtain ⟨us, ws, rfl, k1, k3⟩ := k1.split
  have l1 := k2.len
  have l2 := k3.len
  match vs, ws, l1, l2 with
  | [T2], [T1], _, _ =>
    obtain ⟨r2, kids2, rfl, hr2, _⟩ := plain_e hi hek k2
    obtain ⟨tok, _, rfl, _⟩ := G.plain_tok hr (by rw [he]; simp) hYe k3
    rw [toTree_node (hN r hr)]
    simp only [List.map_append, List.map_cons, List.map_nil, toTree_leaf, toTree_node (hN r2 hr2), List.append_assoc, List.cons_append, List.nil_append]
    exact .here

include hN hT hL in
theorem plain_wins (G : OpG g S e s0) (hi : GInv g) {ts : List (GTree V)} {γ : List SymbolId} (h : g.Plain ts γ) :
    ∀ {δ : List SymbolId} {c : Item} {r : RuleId} {d : Nat} {front : List (GTree V)} {n : Nat}, Ctx g e s0 δ c → RuleOf g e r → (g.rhsSyms r).drop d = γ →
      d ≤ (g.rhsSyms r).length → g.Plain front ((g.rhsSyms r).take d) → Respects ds names ((GTree.node r (front ++ ts)).toTree N) →
      LeftOk g s0 N ds names c (.node r (front ++ ts)) → RightOk g e N n (.node r (front ++ ts)) → g.Wins (δ ++ (g.rhsSyms r).take d) ts n γ := by
  induction h with
  | nil => intros; exact .nil
  | @leaf tok a Y ts γ h1 h2 h3 h4 h5 hts ih =>
    intro δ c r d front n hC hr hd hdl hfr hres hleft hright
    have hY : (g.rhsSyms r)[d]? = some Y := by
      have := congrArg List.head? hd
      rwa [List.head?_drop] at this
    have hdlt : d < (g.rhsSyms r).length := (List.getElem?_eq_some_iff.1 hY).1
    have hek : (g.sym e).kind = .nonTerminal := hr.2 ▸ (hi.lhs r hr.1).2.1
    refine .leaf ?_ ?_
    · intro a' ha' hk' hm' r' hred
      have haa : a' = a := hi.index_inj ha' h1 (hm'.symm.trans h4)
      subst haa
      match d, hd, hY, hdlt, hfr, hred with
      | 0, _, _, _, _, hred =>
        simp only [List.take_zero, List.append_nil] at hred
        exact absurd hred (G.reduce_at hC)
      | d + 1, hd, hY, hdlt, hfr, hred =>
        have hZ : (g.rhsSyms r)[d]? = some (g.rhsSyms r)[d] := List.getElem?_eq_getElem _
        by_cases hZe : (g.rhsSyms r)[d] = e
        · rw [hZe] at hZ
          have htk : (g.rhsSyms r).take (d + 1) = (g.rhsSyms r).take d ++ [e] := by rw [List.take_add_one, hZ]; rfl
          match d, hd, hY, hdlt, hfr, hred, hZ, htk with
          | 0, _, hY, _, hfr, hred, hZ, htk =>
            rw [htk] at hred hfr
            simp only [List.take_zero, List.nil_append] at hred hfr
            obtain ⟨rfl, hlen⟩ := G.reduce_after_e hC hred
            by_cases hs : c.rule = s0
            · exfalso
              obtain ⟨_, _, γ', _, ha⟩ := hred
              have := G.start_ahead ha hs
              exact h3 (hi.index_inj h1 (Nat.lt_of_lt_of_le Nat.zero_lt_two hi.two) (this.trans hi.dollar.2.2.symm))
            · refine hT h1 h2 h4 (hleft hlen hs tok ?_)
              have hl := hfr.len
              match front, hl with
              | [f], _ =>
                obtain ⟨r2, kids2, rfl, hr2, _⟩ := plain_e hi hek hfr
                rw [toTree_node (hN r hr)]
                simp only [List.map_cons, List.cons_append, List.nil_append, toTree_leaf, toTree_node (hN r2 hr2)]
                exact .here
          | d + 1, _, hY, hdlt, _, hred, hZ, htk =>
            exfalso
            rw [htk, ← List.append_assoc] at hred
            have := (G.reduce_after_e (.inside hC hr (by omega) hZ) hred).2
            simp only at this
            omega
        · exfalso
          have := (G.reduce_after_tok hC hr hZ hZe hred).2
          omega
    · have htk : (g.rhsSyms r).take (d + 1) = (g.rhsSyms r).take d ++ [Y] := by rw [List.take_add_one, hY]; rfl
      have := ih (d := d + 1) (front := front ++ [.leaf tok]) hC hr (by rw [← List.drop_drop, hd]; rfl) hdlt
        (by rw [htk]; exact hfr.append (.leaf h1 h2 h3 h4 h5 .nil)) (by simpa using hres) (by simpa using hleft) (n := n) (by simpa using hright)
      rwa [htk, ← List.append_assoc] at this
  | @node r' kids ts γ h1 hkids hts ih1 ih2 =>
    intro δ c r d front n hC hr hd hdl hfr hres hleft hright
    have hek : (g.sym e).kind = .nonTerminal := hr.2 ▸ (hi.lhs r hr.1).2.1
    have hY : (g.rhsSyms r)[d]? = some (g.rule r').lhs := by
      have := congrArg List.head? hd
      rwa [List.head?_drop] at this
    have hdlt : d < (g.rhsSyms r).length := (List.getElem?_eq_some_iff.1 hY).1
    have hr' : RuleOf g e r' := ⟨h1, G.closed (.inr hr) (List.mem_of_getElem? hY) ⟨h1, rfl⟩⟩
    have hYe : (g.rhsSyms r)[d]? = some e := by rw [hY, hr'.2]
    have hdrop : (g.rhsSyms r).drop (d + 1) = γ := by rw [← List.drop_drop, hd]; rfl
    have hsub : Sub ((GTree.node r' kids).toTree N) ((GTree.node r (front ++ .node r' kids :: ts)).toTree N) := by
      rw [toTree_node (hN r hr)]
      exact .rule (by simp) .refl
    have hfl : front.length = d := by rw [hfr.len, List.length_take]; omega
    -- the place of the operand
    obtain ⟨c', hC', hleft', hright'⟩ : ∃ c', Ctx g e s0 (δ ++ (g.rhsSyms r).take d) c' ∧ LeftOk g s0 N ds names c' (.node r' kids) ∧
        RightOk g e N (nextOf ts n) (.node r' kids) := by
      rcases Nat.eq_zero_or_pos d with rfl | hpos
      · refine ⟨c, by simpa using hC, ?_, ?_⟩
        all_goals
          have h2 := G.rhs_two hr hYe
          have hZ : (g.rhsSyms r)[1]? = some (g.rhsSyms r)[1] := List.getElem?_eq_getElem _
          have hZe : (g.rhsSyms r)[1] ≠ e := by
            intro h
            rw [h] at hZ
            exact G.spaced hr hYe hZ
          have hγ : γ = (g.rhsSyms r)[1] :: (g.rhsSyms r).drop 2 := by
            rw [← hdrop]
            exact (List.drop_eq_getElem_cons h2)
          have hfr0 : front = [] := List.eq_nil_of_length_eq_zero hfl
          subst hfr0
          rw [hγ] at hts
          match ts, hts with
          | [], hts => cases hts
          | T2 :: ts, hts =>
            obtain ⟨tok, a, rfl, a1, a2, a3, a4, a5, _⟩ := G.plain_tok hr (List.getElem_mem h2) hZe hts
            have htree : (GTree.node r ([] ++ .node r' kids :: .leaf tok :: ts)).toTree N =
                .rule r (.rule r' (kids.map (GTree.toTree N)) :: .tok tok :: ts.map (GTree.toTree N)) := by
              rw [toTree_node (hN r hr)]
              simp only [List.nil_append, List.map_cons, toTree_leaf, toTree_node (hN r' hr')]
            rw [htree] at hres
            unfold LeftOk at hleft
            rw [htree] at hleft
            first
              | intro q1 q2 k hk
                rw [toTree_node (hN r' hr')] at hk
                exact hleft q1 q2 k (.down hk)
              | intro b b1 b2 b3 m Y' m1 m2 m3 m4 r'' hon
                rw [toTree_node (hN r' hr')] at hon
                rw [nextOf_leaf] at b3
                exact hL b1 b2 b3.symm (hres.left .refl r'' hon)
      · refine ⟨⟨r, d⟩, .inside hC hr hpos hYe, ?_, ?_⟩
        all_goals
          -- the token before the operand
          obtain ⟨d, rfl⟩ : ∃ d', d = d' + 1 := ⟨d - 1, by omega⟩
          have hd' : d < (g.rhsSyms r).length := by omega
          have hZ : (g.rhsSyms r)[d]? = some (g.rhsSyms r)[d] := List.getElem?_eq_getElem _
          have hZe : (g.rhsSyms r)[d] ≠ e := by
            intro h
            rw [h] at hZ
            exact G.spaced hr hZ hYe
          have htk : (g.rhsSyms r).take (d + 1) = (g.rhsSyms r).take d ++ [(g.rhsSyms r)[d]] := by rw [List.take_add_one, hZ]; rfl
          rw [htk] at hfr
          obtain ⟨us, vs, rfl, f1, f2⟩ := hfr.split
          have hvl := f2.len
          match vs, hvl with
          | [T1], _ =>
            obtain ⟨tok, a, rfl, a1, a2, a3, a4, a5, _⟩ := G.plain_tok hr (List.getElem_mem hd') hZe f2
            have htree : (GTree.node r (us ++ [.leaf tok] ++ .node r' kids :: ts)).toTree N =
                .rule r (us.map (GTree.toTree N) ++ .tok tok :: .rule r' (kids.map (GTree.toTree N)) :: ts.map (GTree.toTree N)) := by
              rw [toTree_node (hN r hr)]
              simp only [List.map_append, List.map_cons, List.map_nil, toTree_leaf, toTree_node (hN r' hr'), List.append_assoc, List.cons_append, List.nil_append]
            rw [htree] at hres
            first
              | intro q1 q2 k hk
                rw [toTree_node (hN r' hr')] at hk
                have : γ = [] := by
                  rw [← hdrop]
                  simp only at q1
                  rw [q1]
                  simp
                subst this
                cases hts
                exact hres.right .refl k hk
              | intro b b1 b2 b3 m Y' m1 m2 m3 m4 r'' hon
                rw [toTree_node (hN r' hr')] at hon
                rcases hcase : (g.rhsSyms r)[d + 2]? with _ | Z
                · have : γ = [] := by
                    rw [← hdrop]
                    exact List.drop_eq_nil_of_le (List.getElem?_eq_none_iff.1 hcase)
                  subst this
                  cases hts
                  rw [nextOf_nil] at b3
                  unfold RightOk at hright
                  rw [htree] at hright
                  exact hright b b1 b2 b3 m Y' m1 m2 m3 m4 r'' (.down hon)
                · exfalso
                  have hZl : d + 2 < (g.rhsSyms r).length := (List.getElem?_eq_some_iff.1 hcase).1
                  have hγ : γ = Z :: (g.rhsSyms r).drop (d + 3) := by
                    rw [← hdrop, List.drop_eq_getElem_cons hZl]
                    rw [List.getElem?_eq_getElem hZl] at hcase
                    rw [Option.some.inj hcase]
                  have hZe' : Z ≠ e := by
                    rintro rfl
                    exact G.spaced hr hYe hcase
                  rw [hγ] at hts
                  match ts, hts with
                  | [], hts => cases hts
                  | T2 :: ts, hts =>
                    obtain ⟨tok2, a', rfl, c1, c2, c3, c4, c5, _⟩ := G.plain_tok hr (List.mem_of_getElem? hcase) hZe' hts
                    rw [nextOf_leaf] at b3
                    have : b = a' := hi.index_inj b1 c1 (b3.trans c4)
                    subst this
                    exact G.innerTok hr m1 (d := d + 1) (by omega) hYe hcase m2 m3 c1 c2 c3 c5 m4
    refine .node ?_ ?_ ?_
    · have := ih1 (d := 0) (front := []) (n := nextOf ts n) hC' hr' rfl (Nat.zero_le _) .nil (hres.sub hsub) hleft' hright'
      simpa using this
    · intro b b1 b2 b3
      exact node_wins hN G hi hC' hr' hkids hright' b1 b2 b3
    · have htk : (g.rhsSyms r).take (d + 1) = (g.rhsSyms r).take d ++ [(g.rule r').lhs] := by rw [List.take_add_one, hY]; rfl
      have := ih2 (d := d + 1) (front := front ++ [.node r' kids]) hC hr hdrop hdlt
        (by rw [htk]; exact hfr.append (.node h1 hkids .nil)) (by simpa using hres) (by simpa using hleft) (n := n) (by simpa using hright)
      rwa [htk, ← List.append_assoc] at this

end OpG

end Pomelo
