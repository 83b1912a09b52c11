import Verif.Proofs.Errors
import Verif.Proofs.DeclAnon
import Verif.Proofs.Made
import Verif.Proofs.Conflicts
import Verif.Proofs.Sound
import Verif.Proofs.RulePrec
import Verif.Proofs.Written
import Verif.Spec.Macro
/-! # Where the macro panics -/

namespace Pomelo

open Spec

variable {g : Grammar}

/-! ## Two shifts -/

theorem two_of_length {α : Type} {l : List α} (hn : l.Nodup) (h : 2 ≤ l.length) : ∃ x ∈ l, ∃ y ∈ l, x ≠ y := by
  match l, h with
  | a :: b :: l, _ =>
    refine ⟨a, by simp, b, by simp, ?_⟩
    simp only [List.nodup_cons, List.mem_cons, not_or] at hn
    exact hn.1.1

/-- After `γ` the token can be read in two ways. -/
theorem selfShift_unsettled {sts : List LState} (hi : GInv g) (ha : Auto g sts) {q : StateId} (hq : q < sts.length)
    (h : selfShift q (g.rawActions q (sts.getD q default)) = true) :
    ∃ γ a, ReadTwice g γ a := by
  obtain ⟨γ, hp⟩ := ha.exists_path q hq
  by_cases hs : ∀ X k, g.Trans sts q X k → (g.sym X).subs.Nodup
  · have hnd := nodup_raw hi ha hq hs
    unfold selfShift at h
    obtain ⟨a, _, h⟩ := List.any_eq_true.1 h
    simp only [Bool.and_eq_true, decide_eq_true_eq] at h
    obtain ⟨x, hx, y, hy, hne⟩ := two_of_length (hnd.filter _) h.2
    obtain ⟨hx, hx'⟩ := List.mem_filter.1 hx
    obtain ⟨hy, hy'⟩ := List.mem_filter.1 hy
    simp only [Bool.and_eq_true, decide_eq_true_eq] at hx' hy'
    have hla : x.la = y.la := hx'.1.trans hy'.1.symm
    rw [mem_rawActions hi ha hq] at hx hy
    rcases hx with ⟨k, ⟨X, hX, hX2⟩, hxd⟩ | ⟨r, hr, hxd⟩ | ⟨_, hxd⟩
    · rcases hy with ⟨k', ⟨Y, hY, hY2⟩, hyd⟩ | ⟨r, hr, hyd⟩ | ⟨_, hyd⟩
      · have hXY : X ≠ Y := by
          rintro rfl
          have := ha.unique hX hY
          subst this
          apply hne
          cases x; cases y; simp_all
        obtain ⟨r0, hr0, hXr⟩ := hX.rhs hi ha
        have hXlt := (hi.rhs r0 hr0 X hXr).1
        obtain ⟨r1, hr1, hYr⟩ := hY.rhs hi ha
        have hYlt := (hi.rhs r1 hr1 Y hYr).1
        have key : ∀ {Z W : SymbolId} {z w : Action} {k k' : StateId}, Z < g.syms.length → W < g.syms.length → z.la = w.la → Z ≠ W →
            (⟨z.la, .shift k⟩ : Action) ∈ g.shiftActions Z k → (⟨w.la, .shift k'⟩ : Action) ∈ g.shiftActions W k' → (g.sym Z).kind ≠ .nonTerminal := by
          intro Z W z w k k' hZl hWl hla hZW hZ hW hk
          rcases (mem_shiftActions.1 hZ).2 with ⟨h4, _⟩ | ⟨_, h4⟩
          · rw [hk] at h4; cases h4
          · simp only at h4
            rcases (mem_shiftActions.1 hW).2 with ⟨_, h5⟩ | ⟨_, h5⟩
            · simp only at h5
              rw [← hla, h4] at h5
              have h6 := (hi.subs W hWl Z h5).2
              rcases hi.isTok_kind hZl h6 with h7 | h7 <;> rw [hk] at h7 <;> cases h7
            · simp only at h5
              exact hZW (by rw [← h4, hla, h5])
        have hkX := key hXlt hYlt hla hXY hX2 hY2
        have hkY := key hYlt hXlt hla.symm (Ne.symm hXY) hY2 hX2
        exact ⟨γ, x.la, .inl ⟨X, Y, (shiftsOn_iff hi ha hp).2 ⟨⟨k, hX⟩, (reads_iff hkX).1 hX2⟩,
          (shiftsOn_iff hi ha hp).2 ⟨⟨k', hY⟩, (reads_iff hkY).1 (by rw [hla]; exact hY2)⟩, hXY⟩⟩
      · rw [hyd] at hy'; exact absurd hy'.2 (by simp)
      · rw [hyd] at hy'; exact absurd hy'.2 (by simp)
    · rw [hxd] at hx'; exact absurd hx'.2 (by simp)
    · rw [hxd] at hx'; exact absurd hx'.2 (by simp)
  · obtain ⟨X, hX⟩ := Classical.not_forall.1 hs
    obtain ⟨k, hX⟩ := Classical.not_forall.1 hX
    obtain ⟨hX, hnd⟩ := Classical.not_imp.1 hX
    obtain ⟨r0, hr0, hXr⟩ := hX.rhs hi ha
    have hXlt := (hi.rhs r0 hr0 X hXr).1
    cases hsub : (g.sym X).subs with
    | nil => rw [hsub] at hnd; simp at hnd
    | cons a as =>
      have hk := hi.subsKind X hXlt (by rw [hsub]; simp)
      refine ⟨γ, a, .inr ⟨X, (shiftsOn_iff hi ha hp).2 ⟨⟨k, hX⟩, ?_⟩, hnd⟩⟩
      unfold Reads
      rw [hk, hsub]
      simp

/-! ## Rows -/

theorem rstate_tkn (n : Nat) (id : StateId) (acts : List Action) :
    (g.rstate n id acts).nTkn = (acts.filter (fun a => a.detail.live && decide ((g.sym a.la).index < g.numTerminals))).length ∧
    (g.rstate n id acts).nNt = (acts.filter (fun a => a.detail.live && (decide (g.numTerminals ≤ (g.sym a.la).index) &&
      decide ((g.sym a.la).index < g.defaultIndex)))).length := by
  have key : ∀ (l : List Action) (st : RState),
    (l.foldl (g.rstep n) st).nTkn = st.nTkn + (l.filter (fun a => a.detail.live && decide ((g.sym a.la).index < g.numTerminals))).length ∧
    (l.foldl (g.rstep n) st).nNt = st.nNt + (l.filter (fun a => a.detail.live && (decide (g.numTerminals ≤ (g.sym a.la).index) &&
      decide ((g.sym a.la).index < g.defaultIndex)))).length := by
    intro l
    induction l with
    | nil => intro st; exact ⟨rfl, rfl⟩
    | cons a l ih =>
      intro st
      rw [List.foldl_cons]
      obtain ⟨i1, i2⟩ := ih (g.rstep n st a)
      rw [i1, i2]
      unfold Grammar.rstep
      cases hv : a.detail.live with
      | false => simp [computeAction_none hv, hv]
      | true =>
        simp only [computeAction_some hv, List.filter_cons, hv, Bool.true_and]
        by_cases h3 : (g.sym a.la).index < g.numTerminals
        · simp [h3, Nat.not_le.2 h3]; omega
        · by_cases h4 : (g.sym a.la).index < g.defaultIndex
          · simp [h3, h4, Nat.le_of_not_lt h3]; omega
          · simp [h3, h4]
  obtain ⟨h1, h2⟩ := key acts { id := id, actions := acts, nTkn := 0, nNt := 0, dflt := n + g.rules.length }
  rw [rstate_eq, h1, h2]
  simp

theorem insert_total' {t : ActTab} {row : List LaAct} (h : row ≠ []) (hs : row.Pairwise (fun a b => a.la ≤ b.la)) :
    ∃ t' o, t.insert row = some (t', o) := by
  unfold ActTab.insert
  cases row with
  | nil => exact absurd rfl h
  | cons m row0 =>
    simp only
    rw [if_pos]
    · exact ⟨_, _, rfl⟩
    · rw [List.all_eq_true]
      intro a ha
      have : m.la ≤ a.la := by
        rcases List.mem_cons.1 ha with rfl | ha
        · exact Nat.le_refl _
        · exact (List.pairwise_cons.1 hs).1 a ha
      rw [decide_eq_true_eq]
      have hnn : ∀ i : Nat, 0 ≤ (a.la : Int) + ((i : Int) - m.la) := by intro i; omega
      split
      · exact hnn _
      · split
        · exact hnn _
        · exact hnn _

theorem pack_total {acts : List (List Action)} (hs : ∀ q, q < acts.length → SortedActs g (acts.getD q [])) :
    ∃ p, g.pack (g.resortStates acts) = some p := by
  unfold Grammar.pack
  have key : ∀ (l : List Ax) (p : Packed), (∀ a ∈ l, a ∈ axSets (g.resortStates acts)) →
      ∃ p', l.foldlM (g.packOne (g.resortStates acts)) p = some p' := by
    intro l
    induction l with
    | nil => intro p _; exact ⟨p, rfl⟩
    | cons a l ih =>
      intro p hl
      rw [List.foldlM_cons]
      have : ∃ p1, g.packOne (g.resortStates acts) p a = some p1 := by
        unfold Grammar.packOne
        split
        · exact ⟨_, rfl⟩
        · rename_i hn
          obtain ⟨h1, h2⟩ := mem_axSets.1 (hl a (by simp))
          rw [resort_len] at h1
          obtain ⟨q, hq, he⟩ := stateNum_surj (g := g) acts h1
          have hact := getD_resort (g := g) q hq
          have hgd : (g.resortStates acts).getD a.pos default = g.rstate acts.length q (acts.getD q []) := by
            rw [← he, List.getD_eq_getElem?_getD, resort_get acts hq]; rfl
          rw [he] at hact
          have hrow : g.row (g.resortStates acts) a.isTkn ((g.resortStates acts).getD a.pos default).actions ≠ [] := by
            rw [hact]
            rw [hgd, (rstate_tkn _ _ _).1, (rstate_tkn _ _ _).2] at h2
            cases hk : a.isTkn with
            | true =>
              rw [hk, if_pos rfl] at h2
              obtain ⟨x, hx⟩ := List.exists_mem_of_ne_nil _ (List.length_pos_iff.1 (Nat.pos_of_ne_zero (h2 ▸ hn)))
              obtain ⟨hx, hc⟩ := List.mem_filter.1 hx
              simp only [Bool.and_eq_true, decide_eq_true_eq] at hc
              refine List.ne_nil_of_mem (a := ⟨(g.sym x.la).index, codeOf (g.resortStates acts).length g.rules.length (stateNum (g.resortStates acts)) x.detail⟩) ?_
              unfold Grammar.row
              refine List.mem_filterMap.2 ⟨x, hx, ?_⟩
              simp only [if_true, if_neg (Nat.not_le.2 hc.2), computeAction_some hc.1, Option.map_some]
            | false =>
              rw [hk, if_neg (by simp)] at h2
              obtain ⟨x, hx⟩ := List.exists_mem_of_ne_nil _ (List.length_pos_iff.1 (Nat.pos_of_ne_zero (h2 ▸ hn)))
              obtain ⟨hx, hc⟩ := List.mem_filter.1 hx
              simp only [Bool.and_eq_true, decide_eq_true_eq] at hc
              refine List.ne_nil_of_mem (a := ⟨(g.sym x.la).index, codeOf (g.resortStates acts).length g.rules.length (stateNum (g.resortStates acts)) x.detail⟩) ?_
              unfold Grammar.row
              refine List.mem_filterMap.2 ⟨x, hx, ?_⟩
              simp only [Bool.false_eq_true, if_false, if_neg (Nat.not_lt.2 hc.2.1), if_neg (Nat.ne_of_lt hc.2.2), computeAction_some hc.1, Option.map_some]
          obtain ⟨t', o, hins⟩ := insert_total' (t := p.tab) hrow (row_sorted (by rw [hact]; exact hs q hq))
          rw [hins]
          simp only
          split <;> exact ⟨_, rfl⟩
      obtain ⟨p1, h1⟩ := this
      rw [h1]
      exact ih p1 (fun a ha => hl a (by simp [ha]))
  exact key _ _ (fun a ha => ha)

theorem ofstTable_some {n : Nat} {l : List (Nat × Int)} {i : Nat} {o : Int} (hi : i < n) (h : (i, o) ∈ l) : ofstTable n l ≠ none := by
  unfold ofstTable
  split
  · rename_i hf
    rw [List.find?_eq_none] at hf
    have := hf i (by simp [hi])
    exfalso
    apply this
    rw [Option.isSome_iff_ne_none]
    intro hn
    rw [List.lookup_eq_none_iff] at hn
    have := hn _ h
    simp at this
  · simp

/-! ## Live actions that remain -/

theorem markStart_flag {sp : SymbolId} (hk : (g.sym sp).kind = .nonTerminal) {r : RuleId} (hr : r ∈ (g.sym sp).rules) (hl : r < g.rules.length) :
    ((g.markStart sp).rule r).lhsStart = true := by
  unfold Grammar.markStart
  rw [hk]
  simp only
  unfold Grammar.rule
  simp only
  have key : ∀ (l : List RuleId) (rs : List Rule), r < rs.length → (r ∈ l ∨ (rs.getD r default).lhsStart = true) →
      ((l.foldl (fun rs rp => rs.modify rp (fun r => { r with lhsStart := true })) rs).getD r default).lhsStart = true := by
    intro l
    induction l with
    | nil =>
      intro rs _ h
      rcases h with h | h
      · cases h
      · exact h
    | cons x l ih =>
      intro rs hlt h
      rw [List.foldl_cons]
      refine ih _ (by simpa using hlt) ?_
      by_cases hm : r ∈ l
      · exact .inl hm
      · refine .inr ?_
        rw [List.getD_eq_getElem?_getD, List.getElem?_modify, List.getElem?_eq_getElem hlt]
        by_cases hx : x = r
        · simp [hx]
        · rcases h with h | h
          · rcases List.mem_cons.1 h with h | h
            · exact absurd h.symm hx
            · exact absurd h hm
          · rw [List.getD_eq_getElem?_getD, List.getElem?_eq_getElem hlt] at h
            simpa [hx] using h
  exact key _ _ hl (.inl hr)

theorem startRule_of_viable {γ : List SymbolId} {c : Item} (h : Viable g γ c) : ∃ r, RuleOf g (g.start.getD 0) r := by
  induction h with
  | start h => exact ⟨_, h⟩
  | close _ _ _ ih => exact ih
  | shift _ _ ih => exact ih

section
variable {ord : List (SymbolId × SymbolId) → List (SymbolId × SymbolId)} {ds : List Decl} {g0 : Grammar} {sts : List LState}

/-- What the phases up to the compression have done -/
structure Upto (ord : List (SymbolId × SymbolId) → List (SymbolId × SymbolId)) (ds : List Decl) (g : Grammar) (sts : List LState)
    (acts acts' : List (List Action)) (dflt : SymbolId) : Prop where
  inv : GInv g
  auto : Auto g sts
  noStart : g.NoStart
  aspec : ActsSpec g sts acts
  flag : ∀ r, RuleOf g (g.start.getD 0) r → (g.rule r).lhsStart = true
  nonempty : 0 < g.rules.length
  dflt1 : dflt < g.syms.length
  dflt2 : (g.sym dflt).index = g.defaultIndex
  dflt3 : (g.sym dflt).name = .dflt
  clen : acts'.length = acts.length
  comp : ∀ q, q < acts.length → ∃ d ig, CompSpec g dflt (acts.getD q []) (acts'.getD q []) d ig

theorem upto (ho : OrdOk ord) (h0 : newFromDecls ds = .ok g0) (h1 : g0.automaton ord = .ok (g, sts)) {acts acts' : List (List Action)}
    (h2 : g.findActions sts = .ok (acts, 0)) (h3 : g.compressTables acts = .ok acts') : ∃ dflt, Upto ord ds g sts acts acts' dflt := by
  have hi := GInv.automaton h0 ho h1
  have ha := automaton_auto ho h0 h1
  obtain ⟨b⟩ := bridge ho h0 h1
  have hsp := findActions_spec hi ha b.levels b.noStart h2
  obtain ⟨dflt, d1, d2, d3, d4, d5⟩ := compressTables_spec hi h3
  refine ⟨dflt, hi, ha, b.noStart, hsp, ?_, ?_, d1, d2, d3, d4, d5⟩
  · obtain ⟨s⟩ := automaton_spec h1
    have hsh := markStart_shape s.gF (s.gF.start.getD 0)
    rw [← s.marked] at hsh
    intro r hr
    have hst : g.start = s.gF.start := (congrArg Grammar.start s.marked).trans (by unfold Grammar.markStart; split <;> rfl)
    have hk : (s.gF.sym (s.gF.start.getD 0)).kind = .nonTerminal := by rw [← hsh.kind, ← hst]; exact hi.start_kind.1
    have hrl : r < s.gF.rules.length := by rw [← hsh.rlen]; exact hr.1
    have hmem : r ∈ (s.gF.sym (s.gF.start.getD 0)).rules := by
      have e : (g.sym (g.start.getD 0)).rules = (s.gF.sym (g.start.getD 0)).rules := congrArg (·.2.2.2.1) (hsh.core (g.start.getD 0))
      rw [← hst, ← e, hi.rulesOf _ hi.start_kind.2.1]
      exact List.mem_filter.2 ⟨List.mem_range.2 hr.1, by simpa using hr.2⟩
    have := markStart_flag hk hmem hrl
    rw [← s.marked] at this
    exact this
  · rw [← b.rules.length_eq, b.rulesP, List.length_append]
    exact Nat.lt_of_lt_of_le (List.length_pos_iff.2 b.nonempty) (Nat.le_add_right _ _)

variable {acts acts' : List (List Action)} {dflt : SymbolId}

theorem Upto.reduce (u : Upto ord ds g sts acts acts' dflt) {q : StateId} (hq : q < sts.length) {x : Action} (hx : x ∈ acts.getD q []) {r : RuleId}
    (hr : x.detail = .reduce r) : g.CanReduce sts q x.la r ∧ (lives (onSym x.la (acts.getD q [])) = [.reduce r] ∨
      lives (onSym x.la (acts.getD q [])) = [.error, .reduce r]) := by
  by_cases hst : q ≠ 0 ∨ x.la ≠ g.start.getD 0
  · have hmem : x.detail ∈ lives (onSym x.la (acts.getD q [])) := by
      unfold lives
      rw [List.mem_filter]
      exact ⟨List.mem_map.2 ⟨x, mem_onSym.2 ⟨hx, rfl⟩, rfl⟩, by rw [hr]; rfl⟩
    obtain ⟨sh, rd, h1, h2, hout⟩ := u.aspec.out q hq x.la hst
    rw [hr] at hmem
    generalize lives (onSym x.la (acts.getD q [])) = l at hmem hout
    cases hout with
    | nothing => simp at hmem
    | shift _ _ => simp at hmem
    | reduce h _ _ _ =>
      simp only [List.mem_singleton, Detail.reduce.injEq] at hmem; subst hmem
      exact ⟨(h2 _).1 h, .inl rfl⟩
    | error _ h _ _ _ _ =>
      simp only [List.mem_cons, List.not_mem_nil, or_false, Detail.reduce.injEq, reduceCtorEq, false_or] at hmem
      subst hmem
      exact ⟨(h2 _).1 h, .inr rfl⟩
  · have h1 : q = 0 := by by_contra h; exact hst (.inl h)
    have h2 : x.la = g.start.getD 0 := by by_contra h; exact hst (.inr h)
    subst h1
    have : x ∈ onSym (g.start.getD 0) (acts.getD 0 []) := mem_onSym.2 ⟨hx, h2⟩
    rw [u.aspec.acc, List.mem_singleton] at this
    subst this
    cases hr

theorem Upto.startRule (u : Upto ord ds g sts acts acts' dflt) : ∃ r, RuleOf g (g.start.getD 0) r := by
  obtain ⟨q, hq, x, hx, hr⟩ := u.aspec.all 0 u.nonempty
  obtain ⟨hc, _⟩ := u.reduce hq hx hr
  obtain ⟨γ, _, hA⟩ := (la_iff u.inv u.auto).1 hc.2.2
  exact startRule_of_viable hA.viable

theorem Upto.las_ne (u : Upto ord ds g sts acts acts' dflt) {q : StateId} (hq : q < sts.length) : ∀ a ∈ acts.getD q [], a.la ≠ dflt := by
  intro a ha he
  have hk : (g.sym dflt).kind = .nonTerminal := u.inv.default_name u.dflt1 u.dflt2 ▸ u.inv.default_name u.dflt1 u.dflt2
  have hi := u.inv
  rcases u.aspec.las q hq a ha with ⟨k, X, hX, h2⟩ | ⟨r, hr⟩ | ⟨_, h⟩
  · obtain ⟨r, hr, hXr⟩ := hX.rhs hi u.auto
    rcases (mem_shiftActions.1 h2).2 with ⟨_, h3⟩ | ⟨_, h3⟩
    · have := (hi.subs X (hi.rhs r hr X hXr).1 _ h3).2
      simp only at this
      rw [he, u.dflt3] at this; cases this
    · have := (hi.rhs r hr X hXr).2.2
      simp only at h3
      rw [← h3, he] at this
      exact this u.dflt3
  · have := hr.2.1
    rw [he, hk] at this; cases this
  · obtain ⟨s, hs1, hs2, hs3⟩ := hi.start
    rw [h, hs1] at he
    simp only [Option.getD_some] at he
    rw [he, u.dflt3] at hs3; cases hs3

/-- The first state still accepts, and some state still has an action on the end of input. -/
theorem Upto.rows (u : Upto ord ds g sts acts acts' dflt) :
    (∃ q, q < acts'.length ∧ ∃ x ∈ acts'.getD q [], x.detail.live = true ∧ (g.sym x.la).index < g.numTerminals) ∧
    (∃ q, q < acts'.length ∧ ∃ x ∈ acts'.getD q [], x.detail.live = true ∧ g.numTerminals ≤ (g.sym x.la).index ∧ (g.sym x.la).index < g.defaultIndex) := by
  have own : ∀ {l : List Action} {s d}, ownOf l s = some d → ∃ x ∈ l, x.la = s ∧ x.detail.live = true := by
    intro l s d h
    unfold ownOf at h
    have : d ∈ lives (onSym s l) := by
      first
        | exact List.mem_of_mem_head? h
        | exact List.mem_of_getLast? h
    unfold lives at this
    obtain ⟨h1, h2⟩ := List.mem_filter.1 this
    obtain ⟨x, hx, rfl⟩ := List.mem_map.1 h1
    obtain ⟨hx1, hx2⟩ := mem_onSym.1 hx
    exact ⟨x, hx1, hx2, h2⟩
  constructor
  · obtain ⟨r, hr⟩ := u.startRule
    obtain ⟨q, hq, x, hx, hd⟩ := u.aspec.all r hr.1
    obtain ⟨hc, hl⟩ := u.reduce hq hx hd
    have h0 := canReduce_start u.inv u.auto u.noStart hc hr.2
    have hq' : q < acts.length := u.aspec.len ▸ hq
    obtain ⟨d, ig, hcs⟩ := u.comp q hq'
    have hos := hcs.own (u.las_ne hq)
    have hne := u.las_ne hq x hx
    refine ⟨q, u.clen ▸ hq', ?_⟩
    have : ∃ d, ownOf (acts'.getD q []) x.la = some d := by
      rcases hl with hl | hl
      · rcases hos.reduce x.la hne r hl with ⟨h, _⟩ | ⟨_, h, _⟩
        · exact ⟨_, h⟩
        · have := (hcs.dOk r h).1
          rw [u.flag r hr] at this; cases this
      · rcases hos.error x.la hne r hl with ⟨h, _⟩ | ⟨h, _⟩ <;> exact ⟨_, h⟩
    obtain ⟨d, hd⟩ := this
    obtain ⟨y, hy, hy1, hy2⟩ := own hd
    refine ⟨y, hy, hy2, ?_⟩
    rw [hy1, h0, u.inv.dollar.2.2]
    exact u.inv.nterm.1
  · have hq' : 0 < acts.length := u.aspec.len ▸ u.auto.pos
    obtain ⟨d, ig, hcs⟩ := u.comp 0 hq'
    have hos := hcs.own (u.las_ne u.auto.pos)
    have hm : (⟨g.start.getD 0, .accept⟩ : Action) ∈ acts.getD 0 [] := by
      have : (⟨g.start.getD 0, .accept⟩ : Action) ∈ onSym (g.start.getD 0) (acts.getD 0 []) := by rw [u.aspec.acc]; simp
      exact (mem_onSym.1 this).1
    have hne := u.las_ne u.auto.pos _ hm
    have h1 := hos.accept (g.start.getD 0) hne (by rw [u.aspec.acc]; rfl)
    obtain ⟨y, hy, hy1, hy2⟩ := own h1
    refine ⟨0, u.clen ▸ hq', y, hy, hy2, ?_⟩
    rw [hy1]
    obtain ⟨k1, k2, _⟩ := u.inv.start_kind
    obtain ⟨h2, h3⟩ := (u.inv.nt _ k2).1 k1
    refine ⟨h2, Nat.lt_of_le_of_ne h3 ?_⟩
    rw [← u.dflt2]
    intro e
    exact hne (u.inv.index_inj k2 u.dflt1 e)

theorem Upto.sorted (u : Upto ord ds g sts acts acts' dflt) {q : StateId} (hq : q < acts'.length) : SortedActs g (acts'.getD q []) := by
  have hq' : q < acts.length := u.clen ▸ hq
  obtain ⟨d, ig, hc⟩ := u.comp q hq'
  exact hc.sorted (u.aspec.sorted q (u.aspec.len ▸ hq')).le

/-- The rows can be placed, and there is a row of each kind. -/
theorem Upto.packs (u : Upto ord ds g sts acts acts' dflt) : ∃ p, g.pack (g.resortStates acts') = some p ∧
    ofstTable (g.resortStates acts').length p.tkn ≠ none ∧ ofstTable (g.resortStates acts').length p.nt ≠ none := by
  have hs := fun q hq => u.sorted (q := q) hq
  obtain ⟨p, hp⟩ := pack_total hs
  have hpos : ∀ pos, SortedActs g ((g.resortStates acts').getD pos default).actions := by
    intro pos
    by_cases hq : pos < acts'.length
    · obtain ⟨q, hq', rfl⟩ := stateNum_surj (g := g) acts' hq
      rw [getD_resort q hq']; exact hs q hq'
    · rw [List.getD_eq_getElem?_getD, List.getElem?_eq_none (by rw [resort_len]; omega)]
      exact List.Pairwise.nil
  have hpi := pack_inv hpos hp
  have key : ∀ k, (∃ q, q < acts'.length ∧ 0 < (if k then (g.rstate acts'.length q (acts'.getD q [])).nTkn else (g.rstate acts'.length q (acts'.getD q [])).nNt)) →
      ofstTable (g.resortStates acts').length (p.ofs k) ≠ none := by
    rintro k ⟨q, hq, hn⟩
    have hgd : (g.resortStates acts').getD (stateNum (g.resortStates acts') q) default = g.rstate acts'.length q (acts'.getD q []) := by
      rw [List.getD_eq_getElem?_getD, resort_get acts' hq]; rfl
    have hlt : stateNum (g.resortStates acts') q < (g.resortStates acts').length := by rw [resort_len]; exact stateNum_lt acts' hq
    obtain ⟨ofs, hofs⟩ := (hpi.keys k (stateNum (g.resortStates acts') q)).2 ⟨⟨stateNum (g.resortStates acts') q, k,
        if k then ((g.resortStates acts').getD (stateNum (g.resortStates acts') q) default).nTkn
        else ((g.resortStates acts').getD (stateNum (g.resortStates acts') q) default).nNt⟩,
      mem_axSets.2 ⟨hlt, rfl⟩, by simp only; rw [hgd]; exact Nat.ne_of_gt hn, rfl, rfl⟩
    exact ofstTable_some hlt hofs
  have hpos' : ∀ {l : List Action} {f : Action → Bool} {x : Action}, x ∈ l → f x = true → 0 < (l.filter f).length :=
    fun hx hf => List.length_pos_iff.2 (List.ne_nil_of_mem (List.mem_filter.2 ⟨hx, hf⟩))
  obtain ⟨⟨q1, hq1, x1, hx1, hl1, hi1⟩, ⟨q2, hq2, x2, hx2, hl2, hi2, hi3⟩⟩ := u.rows
  have k1 := key true ⟨q1, hq1, by
    rw [if_pos rfl, (rstate_tkn _ _ _).1]
    exact hpos' hx1 (by simp [hl1, hi1])⟩
  have k2 := key false ⟨q2, hq2, by
    rw [if_neg (by simp), (rstate_tkn _ _ _).2]
    exact hpos' hx2 (by simp [hl2, hi2, hi3])⟩
  exact ⟨p, hp, k1, k2⟩

/-- Writing the tables panics only on a bad class. -/
theorem Upto.generate (u : Upto ord ds g sts acts acts' dflt) (h : g.generate (g.resortStates acts') = .error .panic) :
    ∃ s, s < g.syms.length ∧ (g.sym s).kind = .multiTerminal ∧ ((g.sym s).subs = [] ∨ (g.sym s).subs.head? = some s) := by
  rcases generate_err h with h | ⟨_, h⟩
  · exact absurd rfl h.2.2
  · rcases h with ⟨s, hs, h⟩ | ⟨gT, types, hT, h⟩
    · refine ⟨s, ?_, h⟩
      obtain ⟨i, hi, rfl⟩ := List.getElem_of_mem hs
      have := (u.inv.index i (u.inv.slen ▸ hi)).1
      rw [getD_of_lt hi] at this
      exact this
    · exfalso
      have hsh := (assignTypes_shape hT).1
      rw [hsh.pack] at h
      obtain ⟨p, hp, k1, k2⟩ := u.packs
      rw [hp] at h
      rcases h with h | ⟨p', hp', h⟩
      · cases h
      · cases hp'
        rcases h with h | h
        · exact k1 h
        · exact k2 h

/-- Symbols with members -/
theorem Bridge.multi (b : Bridge ord ds g) (hi : GInv g) {x : SymbolId} (hx : x < g.syms.length) (hk : (g.sym x).kind = .multiTerminal) :
    x < b.gD.syms.length ∧ (b.gD.sym x).kind = .multiTerminal ∧ (g.sym x).subs = (b.gD.sym x).subs ∧
      ((b.gD.sym x).name = .anon ∨ ∃ i, (b.gD.sym x).name = .ident i ∧ isClass ds i = true) := by
  have hx' : x < b.gD.syms.length := by
    apply b.dropped hi hx
    intro h
    have := hi.kinds x hx
    rw [h, hk] at this
    cases this
  have h1 : (g.sym x).kind = (b.gD.sym x).kind := congrArg (·.2.1) (b.keep x hx')
  have h2 : (g.sym x).subs = (b.gD.sym x).subs := congrArg (·.2.2.1) (b.keep x hx')
  rw [h1] at hk
  refine ⟨hx', hk, h2, ?_⟩
  cases hn : (b.gD.sym x).name with
  | anon => exact .inl rfl
  | ident i => exact .inr ⟨i, rfl, (b.decl.sym b.dinv hx' hn).2.1.1 hk⟩
  | _ =>
    have := b.dinv.kinds x hx'
    rw [hn, hk] at this
    cases this

theorem elemLen_of {T : Nat → Prop} (h : ∀ u ∈ rulesOf ds, ∀ e ∈ u.rhs, (∀ tok, e.toks ≠ [tok]) → T e.toks.length) : ∀ d ∈ ds, ElemLen T d := by
  rintro d hd l rhs a p rfl e he ht
  exact h ⟨l, rhs, a, p⟩ (List.mem_filterMap.2 ⟨_, hd, rfl⟩) e he ht

theorem isClass_mem {i : Ident} (h : isClass ds i = true) : ∃ ids, Decl.tokenClass i ids ∈ ds := by
  unfold isClass at h
  obtain ⟨d, hd, h⟩ := List.any_eq_true.1 h
  split at h
  · rename_i tk ids
    simp only [decide_eq_true_eq] at h
    subst h
    exact ⟨ids, hd⟩
  · cases h

/-- The only panics of the macro -/
theorem compile_panic (ho : OrdOk ord) (hw : written ds = true) (h : compile ord ds = .error .panic) :
    badClass ds = true ∨ ∃ g0 g sts, newFromDecls ds = .ok g0 ∧ g0.automaton ord = .ok (g, sts) ∧ ∃ γ a, ReadTwice g γ a := by
  unfold compile Grammar.build at h
  simp only [bind, Except.bind, throw, throwThe, MonadExceptOf.throw] at h
  split at h
  · rename_i h1
    cases h
    rcases newFromDecls_err h1 with h2 | ⟨h2, _⟩
    · exact absurd rfl h2.2.2
    · cases h2
  · rename_i g0 h0
    split at h
    · rename_i h1
      cases h
      rcases automaton_err h0 ho h1 with h | h | h <;> cases h
    · rename_i x h1
      obtain ⟨g, sts⟩ := x
      have hi := GInv.automaton h0 ho h1
      have ha := automaton_auto ho h0 h1
      simp only at h
      split at h
      · rename_i h2
        cases h
        rcases findActions_err h2 with h | ⟨_, q, hq, hs⟩
        · cases h
        · exact .inr ⟨g0, g, sts, h0, h1, selfShift_unsettled hi ha hq hs⟩
      · rename_i x h2
        obtain ⟨acts, n⟩ := x
        simp only at h
        split at h
        · cases h
        · rename_i hn
          obtain rfl : n = 0 := by omega
          split at h
          · rename_i h3
            cases h
            obtain ⟨h4, _⟩ := compressTables_err hi h3
            cases h4
          · rename_i acts' h3
            left
            obtain ⟨dflt, u⟩ := upto ho h0 h1 h2 h3
            obtain ⟨x, hx, hk, hbad⟩ := u.generate h
            obtain ⟨b⟩ := bridge ho h0 h1
            obtain ⟨hx', hk', hsub, hn⟩ := b.multi hi hx hk
            rw [hsub] at hbad
            rcases hn with hn | ⟨i, hn, hc⟩
            · exfalso
              have hal : AnonLen (fun n => n ≠ 0) b.gD := by
                refine AnonLen.initial.parseDecls ?_ DInv.initial b.parsed
                apply elemLen_of
                intro u hu e he _
                unfold written at hw
                have := List.all_eq_true.1 (List.all_eq_true.1 hw u hu) e he
                simpa using this
              have h5 := hal x hx' hn
              rcases hbad with h | h
              · exact h5 (by rw [h]; rfl)
              · have h6 := (b.dinv.subs x hx' x (List.mem_of_mem_head? h)).2
                rw [hn] at h6; cases h6
            · have h5 := (b.decl.sym b.dinv hx' hn).2.2.1
              obtain ⟨ids, hm⟩ := isClass_mem hc
              unfold badClass
              refine List.any_eq_true.2 ⟨_, hm, ?_⟩
              simp only [Bool.or_eq_true, beq_iff_eq]
              rcases hbad with h | h
              · left
                rw [h] at h5
                exact (List.map_eq_nil_iff.1 h5.symm)
              · right
                have h6 := congrArg List.head? h5
                rw [List.head?_map, h, List.head?_map] at h6
                simp only [Option.map_some, hn] at h6
                cases hh : (classMembers ds i).head? with
                | none => rw [hh] at h6; cases h6
                | some j =>
                  rw [hh] at h6
                  simp only [Option.map_some, Option.some.injEq, SymName.ident.injEq] at h6
                  rw [h6]

theorem no_multi (ho : OrdOk ord) (hf : classFree ds = true) (h0 : newFromDecls ds = .ok g0) (h1 : g0.automaton ord = .ok (g, sts))
    {x : SymbolId} (hx : x < g.syms.length) : (g.sym x).kind ≠ .multiTerminal := by
  intro hk
  obtain ⟨b⟩ := bridge ho h0 h1
  unfold classFree at hf
  rw [Bool.and_eq_true] at hf
  obtain ⟨hx', _, _, hn⟩ := b.multi (GInv.automaton h0 ho h1) hx hk
  rcases hn with hn | ⟨i, hn, hc⟩
  · have hal : AnonLen (fun _ => False) b.gD := by
      refine AnonLen.initial.parseDecls ?_ DInv.initial b.parsed
      apply elemLen_of
      intro u hu e he ht
      have := List.all_eq_true.1 (List.all_eq_true.1 hf.2 u hu) e he
      split at this
      · rename_i tok h; exact ht tok h
      · cases this
    exact hal x hx' hn
  · obtain ⟨ids, hm⟩ := isClass_mem hc
    have := List.all_eq_true.1 hf.1 _ hm
    cases this

theorem not_readTwice (ho : OrdOk ord) (hf : classFree ds = true) (h0 : newFromDecls ds = .ok g0) (h1 : g0.automaton ord = .ok (g, sts))
    {γ : List SymbolId} {a : SymbolId} : ¬ ReadTwice g γ a := by
  have hi := GInv.automaton h0 ho h1
  have ha := automaton_auto ho h0 h1
  have hlt : ∀ {X}, ShiftsOn g γ a X → X < g.syms.length := by
    rintro X ⟨it, hv, hd, _⟩
    obtain ⟨q, hp⟩ := viable_path hi ha hv
    obtain ⟨k, hk⟩ := ha.move (Path.lt ha hp) ((path_items hi ha hp it).2 hv) hd
    obtain ⟨r, hr, hX⟩ := hk.rhs hi ha
    exact (hi.rhs r hr X hX).1
  have key : ∀ {X}, ShiftsOn g γ a X → X = a := by
    intro X h
    have hk := no_multi ho hf h0 h1 (hlt h)
    obtain ⟨_, _, _, hr⟩ := h
    unfold Reads at hr
    cases hkk : (g.sym X).kind <;> rw [hkk] at hr
    · exact hr.symm
    · exact hr.elim
    · exact absurd hkk hk
  rintro (⟨X, Y, h2, h3, hne⟩ | ⟨X, h2, hnd⟩)
  · exact hne ((key h2).trans (key h3).symm)
  · apply no_multi ho hf h0 h1 (hlt h2)
    apply hi.subsKind X (hlt h2)
    intro h; rw [h] at hnd; simp at hnd

end

end Pomelo
