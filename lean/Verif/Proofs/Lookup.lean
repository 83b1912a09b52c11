import Verif.Proofs.Resort
import Verif.Proofs.Flat
import Verif.Model.Runtime
/-! # What the searches in the tables find -/

namespace Pomelo

open Spec

/-! ## Types do not matter for packing -/

theorem Shape.row {g g' : Grammar} (h : Shape g g') (rs : List RState) (k : Bool) (acts : List Action) : g'.row rs k acts = g.row rs k acts := by
  unfold Grammar.row
  simp only [h.index, h.nterm, h.dflt, h.rlen]

theorem Shape.pack {g g' : Grammar} (h : Shape g g') (rs : List RState) : g'.pack rs = g.pack rs := by
  unfold Grammar.pack
  congr 1
  funext p a
  unfold Grammar.packOne
  rw [h.row]

/-- What is looked up in the tables, in terms of the actions of the states.  `A` is needed to know that nothing else is found. -/
structure TabSpec (g : Grammar) (acts : List (List Action)) (dflt : SymbolId) (num : StateId → Nat) (t : Tables) (A : Prop) : Prop where
  nState : t.nState = acts.length
  nRule : t.nRule = g.rules.length
  noCode : t.noCode = g.syms.length
  num_lt : ∀ q, q < acts.length → num q < acts.length
  num_inj : ∀ a b, a < acts.length → b < acts.length → num a = num b → a = b
  num_zero : 0 < acts.length → num 0 = 0
  num_surj : ∀ n, n < acts.length → ∃ q, q < acts.length ∧ num q = n
  tok : ∀ q, q < acts.length →
    ((t.shiftOfst[num q]? = none ∨ t.shiftOfst[num q]? = some t.shiftUseDflt) ∧
      ∀ s, s < g.syms.length → (g.sym s).kind ≠ .nonTerminal → ownOf (acts.getD q []) s = none) ∨
    ∃ ofs, t.shiftOfst[num q]? = some ofs ∧ ofs ≠ t.shiftUseDflt ∧
      ∀ s, s < g.syms.length → (g.sym s).kind ≠ .nonTerminal →
        (∀ d, ownOf (acts.getD q []) s = some d → t.lookup (ofs + (g.sym s).index) (g.sym s).index = some (codeOf acts.length g.rules.length num d)) ∧
        (A → ownOf (acts.getD q []) s = none → t.lookup (ofs + (g.sym s).index) (g.sym s).index = none)
  nt : ∀ q, q < acts.length →
    ((t.reduceOfst[num q]? = none ∨ t.reduceOfst[num q]? = some t.reduceUseDflt) ∧
      ∀ s, s < g.syms.length → (g.sym s).kind = .nonTerminal → s ≠ dflt → ownOf (acts.getD q []) s = none) ∨
    ∃ ofs, t.reduceOfst[num q]? = some ofs ∧ ofs ≠ t.reduceUseDflt ∧
      ∀ s, s < g.syms.length → (g.sym s).kind = .nonTerminal → s ≠ dflt →
        (∀ d, ownOf (acts.getD q []) s = some d → t.lookup (ofs + (g.sym s).index) (g.sym s).index = some (codeOf acts.length g.rules.length num d)) ∧
        (A → ownOf (acts.getD q []) s = none → t.lookup (ofs + (g.sym s).index) (g.sym s).index = none)
  dflt : ∀ q, q < acts.length → t.dflt[num q]? =
    some ((ownOf (acts.getD q []) dflt).elim (acts.length + g.rules.length) (codeOf acts.length g.rules.length (fun s => s)))
  fb : ∀ s, s < g.syms.length → t.fallback.getD (g.sym s).index 0 = ((g.sym s).fallback.map (fun f => (g.sym f).index)).getD 0
  wild : t.wildcard = (g.wildcard.map (fun f => (g.sym f).index)).getD 0
  errorSymbol : t.errorSymbol = 0 ∨ t.errorSymbol = (g.sym g.errorSymbol).index

/-- Actions are on known symbols, not on classes. -/
structure LasOk (g : Grammar) (acts : List (List Action)) : Prop where
  lt : ∀ q, q < acts.length → ∀ a ∈ acts.getD q [], a.la < g.syms.length
  kind : ∀ q, q < acts.length → ∀ a ∈ acts.getD q [], (g.sym a.la).kind ≠ .multiTerminal
  sorted : ∀ q, q < acts.length → SortedActs g (acts.getD q [])

theorem lookup_vis {gT : Grammar} {p : Packed} {t : Tables} {n : Nat}
    (ha : t.action = p.tab.map (fun c => match c with
      | none => n
      | some a => a.act))
    (hl : t.lookahead = p.tab.map (fun c => match c with
      | none => gT.defaultIndex
      | some a => a.la)) {la : Nat} (hla : la ≠ gT.defaultIndex) (ofs : Int) :
    t.lookup (ofs + la) la = p.tab.vis ofs la := by
  unfold Tables.lookup ActTab.vis ActTab.at
  by_cases h0 : ofs + la < 0
  · rw [if_pos h0, if_pos h0]
  · rw [if_neg h0, if_neg h0, ha, hl, List.length_map]
    by_cases h1 : (ofs + la).toNat < p.tab.length
    · rw [List.getD_eq_getElem?_getD, List.getElem?_map, List.getElem?_eq_getElem h1, List.getD_eq_getElem?_getD, List.getElem?_map,
        List.getElem?_eq_getElem h1, List.getD_eq_getElem?_getD, List.getElem?_eq_getElem h1]
      simp only [Option.map_some, Option.getD_some]
      cases p.tab[(ofs + la).toNat] with
      | none => simp [Ne.symm hla]
      | some a => simp [h1]
    · rw [if_neg (fun h => h1 h.1), List.getD_eq_getElem?_getD, List.getElem?_eq_none (by omega)]
      rfl

theorem GInv.default_name {g : Grammar} (h : GInv g) {s : SymbolId} (hs : s < g.syms.length) (he : (g.sym s).index = g.defaultIndex) :
    (g.sym s).kind = .nonTerminal := (h.nt s hs).2 ⟨by rw [he]; exact h.nterm.2.1, Nat.le_of_eq he⟩

/-- Fallback table -/
theorem fallbackTable_get {g : Grammar} (hi : GInv g) {fb : List Nat} (h : g.fallbackTable = .ok fb) {s : SymbolId} (hs : s < g.syms.length) :
    fb.getD (g.sym s).index 0 = ((g.sym s).fallback.map (fun f => (g.sym f).index)).getD 0 := by
  unfold Grammar.fallbackTable at h
  simp only at h
  have hf := mapM_except_forall₂ h
  obtain ⟨hix, hsy⟩ := hi.perm s hs
  have hsy2 : g.symbols[(g.sym s).index]? = some s := by
    rw [List.getElem?_eq_getElem (by rw [hi.slen]; exact hix)]
    rw [getD_of_lt (by rw [hi.slen]; exact hix)] at hsy
    rw [hsy]
  by_cases hc : (g.sym s).index < fb.length
  · obtain ⟨x, y, h1, hy, h2⟩ : ∃ x y, _ ∧ _ ∧ _ := by
      rcases forall₂_getElem? hf (g.sym s).index with ⟨_, h2⟩ | h
      · rw [List.getElem?_eq_getElem hc] at h2; cases h2
      · exact h
    have hyd : fb.getD (g.sym s).index 0 = y := by rw [List.getD_eq_getElem?_getD, hy]; rfl
    rw [List.getElem?_take, ite_eq_iff] at h1
    rcases h1 with ⟨_, h1⟩ | ⟨_, h1⟩
    · rw [hsy2] at h1
      cases h1
      split at h2
      · rename_i hn
        rw [hn]
        simp only [Except.ok.injEq] at h2
        rw [hyd, ← h2]; rfl
      · rename_i f hn
        rw [hn]
        split at h2
        · simp only [Except.ok.injEq] at h2
          rw [hyd, ← h2]; rfl
        · cases h2
    · cases h1
  · have h0 : fb.getD (g.sym s).index 0 = 0 := by
      rw [List.getD_eq_getElem?_getD, List.getElem?_eq_none (by omega)]; rfl
    rw [h0]
    have hlen := hf.length_eq
    rw [List.length_take] at hlen
    cases hfb : (g.sym s).fallback with
    | none => rfl
    | some f =>
      exfalso
      have hlt : (g.sym s).index < g.symbols.length := by rw [hi.slen]; exact hix
      cases hfind : (List.range g.symbols.length).reverse.find? (fun i => ((g.sym (g.symbols.getD i 0)).fallback).isSome) with
      | none =>
        rw [List.find?_eq_none] at hfind
        have := hfind (g.sym s).index (by simp [hlt])
        rw [hsy, hfb] at this
        simp at this
      | some x =>
        rw [hfind] at hlen
        simp only at hlen
        rw [List.find?_eq_some_iff_append] at hfind
        obtain ⟨_, as, bs, h1, h2⟩ := hfind
        have hmem : (g.sym s).index ∈ (List.range g.symbols.length).reverse := by simp [hlt]
        rw [h1] at hmem
        rcases List.mem_append.1 hmem with h3 | h3
        · have := h2 _ h3
          rw [hsy, hfb] at this; simp at this
        · have hsorted : ((List.range g.symbols.length).reverse).Pairwise (· > ·) := by
            rw [List.pairwise_reverse]; exact List.pairwise_lt_range
          rw [h1, List.pairwise_append] at hsorted
          have : (g.sym s).index ≤ x := by
            rcases List.mem_cons.1 h3 with h3 | h3
            · omega
            · have := (List.pairwise_cons.1 hsorted.2.1).1 _ h3
              omega
          have hx : x < g.symbols.length := by
            have : x ∈ (List.range g.symbols.length).reverse := by rw [h1]; simp
            simpa using this
          omega

section
variable {g : Grammar} {acts : List (List Action)} {t : Tables}

theorem getD_resort (q : StateId) (hq : q < acts.length) :
    ((g.resortStates acts).getD (stateNum (g.resortStates acts) q) default).actions = acts.getD q [] := by
  rw [List.getD_eq_getElem?_getD, resort_get acts hq]
  simp only [Option.getD_some]
  exact rstate_actions _ _ _

theorem vis_of_at {tab : ActTab} {ofs : Int} {la act : Nat} (h : tab.at (ofs + la) = some ⟨la, act⟩) : tab.vis ofs la = some act := by
  unfold ActTab.vis; rw [h]; simp

theorem tabSpec (hi : GInv g) (hl : LasOk g acts) {dflt : SymbolId} (hd : dflt < g.syms.length) (hdi : (g.sym dflt).index = g.defaultIndex)
    (hgen : GenSpec g (g.resortStates acts) t) {A : Prop}
    (hA : A → ownRows g (g.resortStates acts) hgen.p = true) :
    TabSpec g acts dflt (stateNum (g.resortStates acts)) t A := by
  have hsh := hgen.shape
  have hT := hi.shape hsh
  have hlen := resort_len (g := g) acts
  have hrl : hgen.gT.rules.length = g.rules.length := hsh.rlen
  have hpk : g.pack (g.resortStates acts) = some hgen.p := by rw [← hsh.pack]; exact hgen.pack
  have hinj : ∀ q, q < acts.length → ∀ s, s < g.syms.length → ∀ a ∈ acts.getD q [], (g.sym a.la).index = (g.sym s).index → a.la = s :=
    fun q hq s hs a ha he => hi.index_inj (hl.lt q hq a ha) hs he
  have hnc : ∀ q, q < acts.length → g.NoClassLa (acts.getD q []) := by
    intro q hq a ha _
    have h1 := hl.kind q hq a ha
    have h2 := hl.lt q hq a ha
    cases hk : (g.sym a.la).kind with
    | terminal => have := (hi.term _ h2).1 hk; have := hi.nterm.2.1; omega
    | nonTerminal => exact ((hi.nt _ h2).1 hk).2
    | multiTerminal => exact absurd hk h1
  have hpos : ∀ pos, SortedActs g ((g.resortStates acts).getD pos default).actions := by
    intro pos
    by_cases hp : pos < acts.length
    · obtain ⟨q, hq, rfl⟩ := stateNum_surj (g := g) acts hp
      rw [getD_resort q hq]; exact hl.sorted q hq
    · rw [List.getD_eq_getElem?_getD, List.getElem?_eq_none (by omega)]
      exact List.Pairwise.nil
  have hpi := pack_inv hpos hpk
  have hrow : ∀ k q, q < acts.length → g.rowOf (g.resortStates acts) k (stateNum (g.resortStates acts) q) = g.row (g.resortStates acts) k (acts.getD q []) := by
    intro k q hq
    unfold Grammar.rowOf
    rw [getD_resort q hq]
  -- rows that were not placed are empty
  have hempty : ∀ k q, q < acts.length → (∀ ofs, (stateNum (g.resortStates acts) q, ofs) ∉ hgen.p.ofs k) →
      g.row (g.resortStates acts) k (acts.getD q []) = [] := by
    intro k q hq hno
    obtain ⟨c1, c2⟩ := rstate_counts hi.nterm.2.1 (rs := g.resortStates acts) acts.length q (hnc q hq)
    have hget := resort_get (g := g) acts hq
    have hgd : (g.resortStates acts).getD (stateNum (g.resortStates acts) q) Inhabited.default = g.rstate acts.length q (acts.getD q []) := by
      rw [List.getD_eq_getElem?_getD, hget]; rfl
    by_contra hne
    have hlp : 0 < (g.row (g.resortStates acts) k (acts.getD q [])).length := List.length_pos_iff.2 hne
    have := (hpi.keys k (stateNum (g.resortStates acts) q)).2 ⟨⟨stateNum (g.resortStates acts) q, k,
        if k then ((g.resortStates acts).getD (stateNum (g.resortStates acts) q) Inhabited.default).nTkn
        else ((g.resortStates acts).getD (stateNum (g.resortStates acts) q) Inhabited.default).nNt⟩,
      mem_axSets.2 ⟨by rw [hlen]; exact stateNum_lt acts hq, rfl⟩, by
        simp only
        rw [hgd]
        cases k
        · simp only [Bool.false_eq_true, if_false]; rw [c2]; omega
        · simp only [if_true]; rw [c1]; omega, rfl, rfl⟩
    obtain ⟨ofs, ho⟩ := this
    exact hno ofs ho
  -- entries of placed rows
  have hput : ∀ k q ofs, q < acts.length → (stateNum (g.resortStates acts) q, ofs) ∈ hgen.p.ofs k →
      ∀ s, s < g.syms.length → g.InRow k (g.sym s).index → ∀ d, ownOf (acts.getD q []) s = some d →
      hgen.p.tab.vis ofs (g.sym s).index = some (codeOf acts.length g.rules.length (stateNum (g.resortStates acts)) d) := by
    intro k q ofs hq ho s hs hin d hd
    have h1 := rowGet_row (rs := g.resortStates acts) hin (hinj q hq s hs)
    rw [hd, Option.map_some, hlen] at h1
    exact vis_of_at (hpi.put k _ ofs ho _ _ (by rw [hrow k q hq]; exact h1))
  have honly : A → ∀ k q ofs, q < acts.length → (stateNum (g.resortStates acts) q, ofs) ∈ hgen.p.ofs k →
      ∀ s, s < g.syms.length → ((g.sym s).index < g.numTerminals ↔ k = true) → g.InRow k (g.sym s).index → ownOf (acts.getD q []) s = none →
      hgen.p.tab.vis ofs (g.sym s).index = none := by
    intro hA' k q ofs hq ho s hs hk hin hd
    have h1 := rowGet_row (rs := g.resortStates acts) hin (hinj q hq s hs)
    rw [hd, Option.map_none] at h1
    have hA2 := hA hA'
    unfold ownRows at hA2
    rw [List.all_eq_true] at hA2
    have h2 := hA2 k (by cases k <;> simp)
    rw [List.all_eq_true] at h2
    have h3 := h2 _ ho
    simp only at h3
    rw [List.all_eq_true] at h3
    unfold ActTab.vis
    cases hat : hgen.p.tab.at (ofs + (g.sym s).index) with
    | none => rfl
    | some a =>
      simp only
      rw [if_neg]
      intro he
      have hge : 0 ≤ ofs + (g.sym s).index ∧ hgen.p.tab[(ofs + (g.sym s).index).toNat]? = some (some a) := by
        unfold ActTab.at at hat
        split at hat
        · cases hat
        · refine ⟨by omega, ?_⟩
          rw [List.getD_eq_getElem?_getD] at hat
          cases hx : hgen.p.tab[(ofs + (g.sym s).index).toNat]? with
          | none => rw [hx] at hat; cases hat
          | some y => rw [hx] at hat; simp only [Option.getD_some] at hat; rw [hat]
      have h4 := h3 (some a, (ofs + (g.sym s).index).toNat) (by rw [List.mem_zipIdx_iff_getElem?]; exact hge.2)
      simp only at h4
      have e1 : decide ((a.la : Int) = (((ofs + (g.sym s).index).toNat : Nat) : Int) - ofs) = true := by
        rw [decide_eq_true_eq]; rw [Int.toNat_of_nonneg hge.1, he]; omega
      have e2 : (decide (a.la < g.numTerminals) == k) = true := by
        rw [beq_iff_eq, he]
        cases k
        · simpa using hk
        · simpa using hk
      rw [e1, e2, getD_resort q hq] at h4
      have h5 : a ∈ g.row (g.resortStates acts) k (acts.getD q []) := by simpa using h4
      exact (rowGet_none.1 h1) a h5 he
  -- classes
  have hclass : ∀ s, s < g.syms.length → (g.sym s).kind = .multiTerminal → ∀ ofs, hgen.p.tab.vis ofs (g.sym s).index = none := by
    intro s hs hk ofs
    unfold ActTab.vis
    cases hat : hgen.p.tab.at (ofs + (g.sym s).index) with
    | none => rfl
    | some a =>
      simp only
      rw [if_neg]
      intro he
      obtain ⟨k, pos, hm, hg⟩ := hpi.only _ _ hat
      obtain ⟨b, hb, hb2, hb3, hb4⟩ := (hpi.keys k pos).1 ⟨_, hm⟩
      have hpl : pos < acts.length := by rw [← hlen, ← hb4]; exact (mem_axSets.1 hb).1
      obtain ⟨q, hq, rfl⟩ := stateNum_surj (g := g) acts hpl
      rw [hrow k q hq] at hg
      have hmem := rowGet_some hg
      unfold Grammar.row at hmem
      obtain ⟨x, hx, hxe⟩ := List.mem_filterMap.1 hmem
      have key : a.la = (g.sym x.la).index := by
        simp only at hxe
        split at hxe
        · split at hxe
          · cases hxe
          · obtain ⟨_, _, h⟩ := Option.map_eq_some_iff.1 hxe
            exact (congrArg LaAct.la h).symm
        · split at hxe
          · cases hxe
          · split at hxe
            · cases hxe
            · obtain ⟨_, _, h⟩ := Option.map_eq_some_iff.1 hxe
              exact (congrArg LaAct.la h).symm
      have := hinj q hq s hs x hx (by rw [← key, he])
      exact hl.kind q hq x hx (by rw [this]; exact hk)
  have hown_class : ∀ q, q < acts.length → ∀ s, s < g.syms.length → (g.sym s).kind = .multiTerminal → ownOf (acts.getD q []) s = none := by
    intro q hq s hs hk
    unfold ownOf
    rw [onSym_eq_nil]
    · rfl
    · rintro a ha rfl
      exact hl.kind q hq a ha hk
  have hlook : ∀ la, la ≠ g.defaultIndex → ∀ ofs : Int, t.lookup (ofs + la) la = hgen.p.tab.vis ofs la :=
    fun la hla ofs => lookup_vis hgen.action hgen.lookahead (by rw [hsh.dflt]; exact hla) ofs
  have hndT : ∀ s, s < g.syms.length → (g.sym s).kind ≠ .nonTerminal → (g.sym s).index ≠ g.defaultIndex :=
    fun s hs hk he => hk (hi.default_name hs he)
  refine ⟨by rw [hgen.nState, hlen], by rw [hgen.nRule, hrl], by rw [hgen.noCode, hT.slen, hsh.len], fun q hq => stateNum_lt acts hq,
    fun a b ha hb h => stateNum_inj acts ha hb h, fun h => stateNum_zero acts h, fun n hn => stateNum_surj acts hn, ?_, ?_, ?_, ?_, ?_, ?_⟩
  · -- tokens
    intro q hq
    obtain ⟨o1, o2⟩ := ofstTable_get hgen.shEq (hpi.nodup true) (i := stateNum (g.resortStates acts) q) (by rw [hlen]; exact stateNum_lt acts hq)
    rw [hgen.shiftOfst, hgen.shiftUseDflt]
    by_cases hex : ∃ ofs, (stateNum (g.resortStates acts) q, ofs) ∈ hgen.p.tkn
    · obtain ⟨ofs, ho⟩ := hex
      obtain ⟨p1, p2⟩ := o1 ofs ho
      refine .inr ⟨ofs, p1, p2, ?_⟩
      intro s hs hk
      rw [hlook _ (hndT s hs hk)]
      cases hks : (g.sym s).kind with
      | nonTerminal => exact absurd hks hk
      | multiTerminal =>
        refine ⟨fun d hd => ?_, fun _ _ => hclass s hs hks ofs⟩
        rw [hown_class q hq s hs hks] at hd; cases hd
      | terminal =>
        have hlt := (hi.term s hs).1 hks
        have hin : g.InRow true (g.sym s).index := hlt
        exact ⟨fun d hd => hput true q ofs hq ho s hs hin d hd,
          fun hA' hn => honly hA' true q ofs hq ho s hs ⟨fun _ => rfl, fun _ => hlt⟩ hin hn⟩
    · refine .inl ⟨o2 (fun ofs ho => hex ⟨ofs, ho⟩), ?_⟩
      intro s hs hk
      cases hks : (g.sym s).kind with
      | nonTerminal => exact absurd hks hk
      | multiTerminal => exact hown_class q hq s hs hks
      | terminal =>
        have hlt := (hi.term s hs).1 hks
        have hin : g.InRow true (g.sym s).index := hlt
        have h1 := rowGet_row (rs := g.resortStates acts) hin (hinj q hq s hs)
        rw [hempty true q hq (fun ofs ho => hex ⟨ofs, ho⟩)] at h1
        exact Option.map_eq_none_iff.1 h1.symm
  · -- nonterminals
    intro q hq
    obtain ⟨o1, o2⟩ := ofstTable_get hgen.rdEq (hpi.nodup false) (i := stateNum (g.resortStates acts) q) (by rw [hlen]; exact stateNum_lt acts hq)
    rw [hgen.reduceOfst, hgen.reduceUseDflt]
    have hin : ∀ s, s < g.syms.length → (g.sym s).kind = .nonTerminal → s ≠ dflt → g.InRow false (g.sym s).index := by
      intro s hs hk hne
      exact ⟨((hi.nt s hs).1 hk).1, fun he => hne (hi.index_inj hs hd (by rw [he, hdi]))⟩
    by_cases hex : ∃ ofs, (stateNum (g.resortStates acts) q, ofs) ∈ hgen.p.nt
    · obtain ⟨ofs, ho⟩ := hex
      obtain ⟨p1, p2⟩ := o1 ofs ho
      refine .inr ⟨ofs, p1, p2, ?_⟩
      intro s hs hk hne
      have hi2 := hin s hs hk hne
      rw [hlook _ hi2.2]
      have hi1 : g.numTerminals ≤ (g.sym s).index := hi2.1
      exact ⟨fun d hd => hput false q ofs hq ho s hs hi2 d hd,
        fun hA' hn => honly hA' false q ofs hq ho s hs ⟨fun h => by omega, fun h => by cases h⟩ hi2 hn⟩
    · refine .inl ⟨o2 (fun ofs ho => hex ⟨ofs, ho⟩), ?_⟩
      intro s hs hk hne
      have h1 := rowGet_row (rs := g.resortStates acts) (hin s hs hk hne) (hinj q hq s hs)
      rw [hempty false q hq (fun ofs ho => hex ⟨ofs, ho⟩)] at h1
      exact Option.map_eq_none_iff.1 h1.symm
  · intro q hq
    rw [hgen.dflt, List.getElem?_map, resort_get acts hq, Option.map_some,
      rstate_dflt hi.nterm.2.1 _ _ hdi (hnc q hq) (hinj q hq dflt hd)]
  · intro s hs
    rw [hgen.fallback]
    have := fallbackTable_get hT hgen.fbEq (s := s) (by rw [hsh.len]; exact hs)
    simp only [hsh.index, hsh.fallback] at this
    exact this
  · rw [hgen.wildcard, hsh.wild]
    cases g.wildcard with
    | none => rfl
    | some w => simp only [hsh.index]; rfl
  · rw [hgen.errorSymbol]
    split
    · right; rw [hsh.index, hsh.errSym]
    · left; rfl

end

end Pomelo
