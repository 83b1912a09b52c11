import Verif.Proofs.Parse
/-! # No token makes the parser accept

Nothing is assumed here about the packing of the tables, classes or fallbacks. -/

namespace Pomelo

open Spec

variable {V X E : Type}

/-! ## Actions -/

/-- What the live actions of a state can be, with `n` states -/
structure Grammar.Tame (g : Grammar) (n : Nat) (x : Action) : Prop where
  acc : x.detail = .accept → x.la = g.start.getD 0
  red : ∀ r, x.detail = .reduce r → r < g.rules.length ∧ ((g.rule r).lhs = g.start.getD 0 → x.la = 0)
  sh : ∀ k, x.detail = .shift k → k < n

section
variable {ord : List (SymbolId × SymbolId) → List (SymbolId × SymbolId)} {ds : List Decl} {t : Tables}

theorem CSpec.tame (ho : OrdOk ord) (s : CSpec ord ds t) {q : StateId} (hq : q < s.sts.length) {x : Action} (hx : x ∈ s.acts.getD q []) :
    s.g.Tame s.sts.length x := by
  have hi := s.ginv ho
  have ha := automaton_auto ho s.decls s.auto
  obtain ⟨b⟩ := bridge ho s.decls s.auto
  have hsp := findActions_spec hi ha b.levels b.noStart s.actions
  by_cases hlv : x.detail.live = true
  · by_cases hst : q ≠ 0 ∨ x.la ≠ s.g.start.getD 0
    · have hmem : x.detail ∈ lives (onSym x.la (s.acts.getD q [])) := by
        unfold lives
        rw [List.mem_filter]
        exact ⟨List.mem_map.2 ⟨x, mem_onSym.2 ⟨hx, rfl⟩, rfl⟩, hlv⟩
      obtain ⟨sh, rd, h1, h2, hout⟩ := hsp.out q hq x.la hst
      have hred : ∀ r, r ∈ rd → r < s.g.rules.length ∧ ((s.g.rule r).lhs = s.g.start.getD 0 → x.la = 0) := by
        intro r hr
        have hc := (h2 r).1 hr
        exact ⟨(canReduce_rule hi ha hc).1, fun e => canReduce_start hi ha b.noStart hc e⟩
      have hsh : ∀ k, k ∈ sh → k < s.sts.length := by
        intro k hk
        obtain ⟨X, hX, hT⟩ := (h1 k).1 hk
        exact hX.dst
      generalize hd : x.detail = d at *
      generalize lives (onSym x.la (s.acts.getD q [])) = l at hmem hout
      constructor
      · intro e
        rw [hd] at e
        subst e
        cases hout <;> simp at hmem
      · intro r e
        rw [hd] at e
        subst e
        cases hout with
        | nothing => simp at hmem
        | shift _ _ => simp at hmem
        | reduce h _ _ _ => simp only [List.mem_singleton, Detail.reduce.injEq] at hmem; subst hmem; exact hred _ h
        | error _ h _ _ _ _ =>
          simp only [List.mem_cons, List.not_mem_nil, or_false, Detail.reduce.injEq, reduceCtorEq, false_or] at hmem
          subst hmem; exact hred _ h
      · intro k e
        rw [hd] at e
        subst e
        cases hout with
        | nothing => simp at hmem
        | shift h _ => simp only [List.mem_singleton, Detail.shift.injEq] at hmem; subst hmem; exact hsh _ (by rw [h]; simp)
        | reduce _ _ _ _ => simp at hmem
        | error _ _ _ _ _ _ => simp at hmem
    · have h1 : q = 0 := by by_contra h; exact hst (.inl h)
      have h2 : x.la = s.g.start.getD 0 := by by_contra h; exact hst (.inr h)
      subst h1
      have : x ∈ onSym (s.g.start.getD 0) (s.acts.getD 0 []) := mem_onSym.2 ⟨hx, h2⟩
      rw [hsp.acc, List.mem_singleton] at this
      subst this
      exact ⟨fun _ => rfl, fun r h => (by cases h), fun k h => (by cases h)⟩
  · exact ⟨fun h => absurd (by rw [h]; rfl) hlv, fun r h => absurd (by rw [h]; rfl) hlv, fun k h => absurd (by rw [h]; rfl) hlv⟩

theorem makeDefault_mem {ig : List SymbolId} {dflt : SymbolId} {r : RuleId} : ∀ {l : List Action} {y : Action}, y ∈ makeDefault ig dflt r l →
    y.detail.live = true → (y.la = dflt ∧ y.detail = .reduce r) ∨ y ∈ l := by
  intro l
  induction l with
  | nil => intro y h; cases h
  | cons a l ih =>
    intro y h hv
    unfold makeDefault at h
    split at h
    · rename_i hc
      rcases List.mem_cons.1 h with rfl | h
      · exact .inl ⟨rfl, (isBest_iff.1 hc).2⟩
      · obtain ⟨x, hx, rfl⟩ := List.mem_map.1 h
        refine .inr ?_
        split at hv
        · cases hv
        · rename_i hn; rw [if_neg hn]; simp [hx]
    · rcases List.mem_cons.1 h with rfl | h
      · exact .inr (by simp)
      · rcases ih h hv with h | h
        · exact .inl h
        · exact .inr (by simp [h])

theorem CSpec.tame' (ho : OrdOk ord) (s : CSpec ord ds t) {q : StateId} (hq : q < s.sts.length) {x : Action} (hx : x ∈ s.acts'.getD q []) :
    s.g.Tame s.sts.length x := by
  have hi := s.ginv ho
  have ha := automaton_auto ho s.decls s.auto
  obtain ⟨b⟩ := bridge ho s.decls s.auto
  have hsp := findActions_spec hi ha b.levels b.noStart s.actions
  obtain ⟨dflt, d1, d2, d3, d4, d5⟩ := compressTables_spec hi s.compress
  by_cases hlv : x.detail.live = true
  · obtain ⟨d, ig, hc⟩ := d5 q (hsp.len ▸ hq)
    cases d with
    | none =>
      obtain ⟨e, _⟩ := hc.dNone rfl
      rw [e] at hx
      exact s.tame ho hq hx
    | some r =>
      obtain ⟨e, _⟩ := hc.dSome r rfl
      rw [e] at hx
      rcases makeDefault_mem (mem_sortBy.1 hx) hlv with ⟨h1, h2⟩ | h
      · obtain ⟨h3, a, h4, h5, h6⟩ := hc.dOk r rfl
        have hr := ((s.tame ho hq h4).red r h6).1
        refine ⟨fun h => (by rw [h2] at h; cases h), fun r' h => ?_, fun k h => (by rw [h2] at h; cases h)⟩
        rw [h2] at h
        cases h
        refine ⟨hr, fun hl => ?_⟩
        have := lhsStart_of ho s.decls s.auto hr hl
        rw [h3] at this; cases this
      · exact s.tame ho hq h
  · exact ⟨fun h => absurd (by rw [h]; rfl) hlv, fun r h => absurd (by rw [h]; rfl) hlv, fun k h => absurd (by rw [h]; rfl) hlv⟩

/-! ## Codes -/

/-- A code that is a shift, an error or the reduction of a rule of another symbol than the start -/
def CSpec.Harmless (s : CSpec ord ds t) (c : Nat) : Prop :=
  c < t.nState ∨ c = t.nState + t.nRule ∨ ∃ r, c = t.nState + r ∧ r < t.nRule ∧ (s.g.rule r).lhs ≠ s.g.start.getD 0

/-- Symbol numbers that are not those of the end of input, nonterminals or the default -/
def Grammar.Tokenish (g : Grammar) (la : Nat) : Prop := la ≠ 0 ∧ (la < g.numTerminals ∨ g.defaultIndex < la)

theorem CSpec.len' (ho : OrdOk ord) (s : CSpec ord ds t) : s.acts'.length = s.sts.length ∧ s.acts.length = s.sts.length := by
  have hi := s.ginv ho
  have ha := automaton_auto ho s.decls s.auto
  obtain ⟨b⟩ := bridge ho s.decls s.auto
  have hsp := findActions_spec hi ha b.levels b.noStart s.actions
  obtain ⟨dflt, d1, d2, d3, d4, d5⟩ := compressTables_spec hi s.compress
  exact ⟨by rw [d4, hsp.len], hsp.len⟩

theorem CSpec.nStates (ho : OrdOk ord) (s : CSpec ord ds t) : t.nState = s.sts.length ∧ t.nRule = s.g.rules.length := by
  refine ⟨?_, ?_⟩
  · rw [s.gen.nState, resort_len, (s.len' ho).1]
  · rw [s.gen.nRule]; exact s.gen.shape.rlen

/-- Every entry of the tables is an action of some state. -/
theorem CSpec.entry (ho : OrdOk ord) (s : CSpec ord ds t) {ofs : Int} {la c : Nat} (hla : la ≠ s.g.defaultIndex)
    (h : t.lookup (ofs + la) la = some c) : ∃ q x, q < s.sts.length ∧ x ∈ s.acts'.getD q [] ∧ (s.g.sym x.la).index = la ∧
      computeAction s.sts.length s.g.rules.length (stateNum (s.g.resortStates s.acts')) x.detail = some c := by
  have hi := s.ginv ho
  have ha := automaton_auto ho s.decls s.auto
  obtain ⟨b⟩ := bridge ho s.decls s.auto
  have hsp := findActions_spec hi ha b.levels b.noStart s.actions
  obtain ⟨dflt, d1, d2, d3, d4, d5⟩ := compressTables_spec hi s.compress
  have hlen := resort_len (g := s.g) s.acts'
  have hsl := (s.len' ho).1
  have hpos : ∀ pos, SortedActs s.g ((s.g.resortStates s.acts').getD pos default).actions := by
    intro pos
    by_cases hp : pos < s.acts'.length
    · obtain ⟨q, hq, rfl⟩ := stateNum_surj (g := s.g) s.acts' hp
      rw [getD_resort q hq]
      obtain ⟨d, ig, hc⟩ := d5 q (d4 ▸ hq)
      exact hc.sorted (hsp.sorted q (hsl ▸ hq)).le
    · rw [List.getD_eq_getElem?_getD, List.getElem?_eq_none (by omega)]
      exact List.Pairwise.nil
  have hpk : s.g.pack (s.g.resortStates s.acts') = some s.gen.p := by rw [← s.gen.shape.pack]; exact s.gen.pack
  have hpi := pack_inv hpos hpk
  have hla' : la ≠ s.gen.gT.defaultIndex := by rw [s.gen.shape.dflt]; exact hla
  rw [lookup_vis s.gen.action s.gen.lookahead hla'] at h
  unfold ActTab.vis at h
  split at h
  · rename_i a hat
    split at h
    · rename_i he
      cases h
      obtain ⟨k, pos, h1, h2⟩ := hpi.only _ _ hat
      obtain ⟨ax, ha1, _, _, ha4⟩ := (hpi.keys k pos).1 ⟨_, h1⟩
      have hp : pos < s.acts'.length := by rw [← ha4, ← hlen]; exact (mem_axSets.1 ha1).1
      obtain ⟨q, hq, rfl⟩ := stateNum_surj (g := s.g) s.acts' hp
      unfold Grammar.rowOf at h2
      rw [getD_resort q hq] at h2
      have hm := rowGet_some h2
      unfold Grammar.row at hm
      obtain ⟨x, hx, hf⟩ := List.mem_filterMap.1 hm
      refine ⟨q, x, hsl ▸ hq, hx, ?_⟩
      have key : (computeAction (s.g.resortStates s.acts').length s.g.rules.length (stateNum (s.g.resortStates s.acts')) x.detail).map
          (LaAct.mk (s.g.sym x.la).index ·) = some (LaAct.mk a.la a.act) := by
        simp only at hf
        split at hf
        · split at hf
          · cases hf
          · exact hf
        · split at hf
          · cases hf
          · split at hf
            · cases hf
            · exact hf
      obtain ⟨c, hc1, hc2⟩ := Option.map_eq_some_iff.1 key
      simp only [LaAct.mk.injEq] at hc2
      rw [hlen, hsl] at hc1
      exact ⟨by rw [hc2.1, he], by rw [hc1, hc2.2]⟩
    · cases h
  · cases h

/-- Codes of actions on symbols that are neither `$` nor the start symbol -/
theorem CSpec.harmless (ho : OrdOk ord) (s : CSpec ord ds t) {q : StateId} (hq : q < s.sts.length) {x : Action} (hx : x ∈ s.acts'.getD q [])
    (h0 : x.la ≠ 0) (hst : x.la ≠ s.g.start.getD 0) {f : StateId → Nat} (hf : ∀ k, k < s.sts.length → f k < s.sts.length) {c : Nat}
    (hc : computeAction s.sts.length s.g.rules.length f x.detail = some c) : s.Harmless c := by
  obtain ⟨n1, n2⟩ := s.nStates ho
  have ht := s.tame' ho hq hx
  unfold CSpec.Harmless
  rw [n1, n2]
  cases hd : x.detail with
  | shift k => rw [hd] at hc; cases hc; exact .inl (hf k (ht.sh k hd))
  | reduce r =>
    rw [hd] at hc; cases hc
    obtain ⟨h1, h2⟩ := ht.red r hd
    exact .inr (.inr ⟨r, Nat.add_comm _ _, h1, fun e => h0 (h2 e)⟩)
  | error => rw [hd] at hc; cases hc; exact .inr (.inl rfl)
  | accept => exact absurd (ht.acc hd) hst
  | _ => rw [hd] at hc; cases hc

theorem CSpec.num_lt (ho : OrdOk ord) (s : CSpec ord ds t) (k : StateId) (hk : k < s.sts.length) :
    stateNum (s.g.resortStates s.acts') k < s.sts.length := by
  rw [← (s.len' ho).1] at hk ⊢
  exact stateNum_lt s.acts' hk

theorem CSpec.lookup_token (ho : OrdOk ord) (s : CSpec ord ds t) {ofs : Int} {la c : Nat} (hla : s.g.Tokenish la)
    (h : t.lookup (ofs + la) la = some c) : s.Harmless c := by
  have hi := s.ginv ho
  obtain ⟨h0, hl⟩ := hla
  have hnt := hi.nterm.2.1
  obtain ⟨q, x, hq, hx, he, hc⟩ := s.entry ho (by omega) h
  refine s.harmless ho hq hx ?_ ?_ (s.num_lt ho) hc
  · intro e; rw [e, hi.dollar.2.2] at he; omega
  · intro e
    have hk := hi.start_kind
    have := (hi.nt _ hk.2.1).1 hk.1
    rw [e] at he; omega

theorem rstate_dflt_from {g : Grammar} (n : Nat) (id : StateId) (l : List Action) :
    (g.rstate n id l).dflt = n + g.rules.length ∨
    ∃ x ∈ l, g.numTerminals ≤ (g.sym x.la).index ∧ g.defaultIndex ≤ (g.sym x.la).index ∧
      computeAction n g.rules.length (fun s => s) x.detail = some (g.rstate n id l).dflt := by
  have key : ∀ (l : List Action) (st : RState), (l.foldl (g.rstep n) st).dflt = st.dflt ∨
      ∃ x ∈ l, g.numTerminals ≤ (g.sym x.la).index ∧ g.defaultIndex ≤ (g.sym x.la).index ∧
      computeAction n g.rules.length (fun s => s) x.detail = some (l.foldl (g.rstep n) st).dflt := by
    intro l
    induction l with
    | nil => intro st; exact .inl rfl
    | cons a l ih =>
      intro st
      rw [List.foldl_cons]
      rcases ih (g.rstep n st a) with h | ⟨x, hx, h1, h2, h3⟩
      · rw [h]
        unfold Grammar.rstep
        cases hc : computeAction n g.rules.length (fun s => s) a.detail with
        | none => exact .inl rfl
        | some c =>
          simp only
          split
          · exact .inl rfl
          · split
            · exact .inl rfl
            · exact .inr ⟨a, by simp, by omega, by omega, by rw [hc]⟩
      · exact .inr ⟨x, by simp [hx], h1, h2, h3⟩
  rw [rstate_eq]
  exact key l _

theorem CSpec.dflt_harmless (ho : OrdOk ord) (s : CSpec ord ds t) {st c : Nat} (h : t.dfltAct st = .ok c) : s.Harmless c := by
  have hi := s.ginv ho
  obtain ⟨n1, n2⟩ := s.nStates ho
  have hsl := (s.len' ho).1
  unfold Tables.dfltAct at h
  rw [s.gen.dflt, List.getElem?_map] at h
  cases hg : (s.g.resortStates s.acts')[st]? with
  | none => rw [hg] at h; cases h
  | some rs =>
    rw [hg] at h
    cases h
    obtain ⟨hl, _⟩ := List.getElem?_eq_some_iff.1 hg
    rw [resort_len] at hl
    obtain ⟨q, hq, rfl⟩ := stateNum_surj (g := s.g) s.acts' hl
    rw [resort_get s.acts' hq] at hg
    cases hg
    rw [hsl] at hq
    show s.Harmless (s.g.rstate s.acts'.length q (s.acts'.getD q [])).dflt
    rcases rstate_dflt_from (g := s.g) s.acts'.length q (s.acts'.getD q []) with h | ⟨x, hx, h1, h2, h3⟩
    · rw [h, hsl]; exact .inr (.inl (by rw [n1, n2]))
    · refine s.harmless ho hq hx ?_ ?_ (f := fun s => s) (fun k hk => hk) (by rw [hsl] at h3; rw [hsl]; exact h3)
      · intro e
        rw [e, hi.dollar.2.2] at h1
        have := hi.nterm.1; omega
      · intro e
        have hk := hi.start_kind
        obtain ⟨d, hd1, hd2, hd3⟩ := hi.dflt
        have h4 := ((hi.nt _ hk.2.1).1 hk.1).2
        rw [e] at h2
        have : s.g.start.getD 0 = d := hi.index_inj hk.2.1 hd1 (by rw [hd3]; exact Nat.le_antisymm h4 h2)
        have hn := hk.2.2
        rw [this, hd2] at hn; cases hn

theorem isTok_kind {g : Grammar} (hi : GInv g) {x : SymbolId} (hx : x < g.syms.length) (hn : (g.sym x).name.isTok = true) :
    g.Tokenish (g.sym x).index := by
  have h1 := hi.kinds x hx
  have hk : (g.sym x).kind ≠ .nonTerminal := by
    intro e
    rw [e] at h1
    cases hnm : (g.sym x).name with
    | ident i => rw [hnm] at hn h1; cases i <;> simp_all [SymName.isTok, kindOk]
    | _ => rw [hnm] at hn; simp_all [SymName.isTok, kindOk]
  refine ⟨?_, ?_⟩
  · intro e
    have : x = 0 := hi.index_inj hx (Nat.lt_of_lt_of_le (by decide) hi.two) (by rw [e, hi.dollar.2.2])
    rw [this, hi.dollar.1] at hn; cases hn
  · by_contra hc
    rw [not_or] at hc
    exact hk ((hi.nt x hx).2 ⟨Nat.le_of_not_lt hc.1, Nat.le_of_not_lt hc.2⟩)

theorem CSpec.fb_token (ho : OrdOk ord) (s : CSpec ord ds t) {la : Nat} (h : t.fallback.getD la 0 ≠ 0) : s.g.Tokenish (t.fallback.getD la 0) := by
  have hi := s.ginv ho
  have hT := s.ginvT ho
  by_cases hl : la < s.g.syms.length
  · obtain ⟨h1, h2⟩ := hi.index la hl
    have hT1 : s.g.symbols.getD la 0 < s.gen.gT.syms.length := by rw [s.gen.shape.len]; exact h1
    have hget := fallbackTable_get hT s.gen.fbEq hT1
    rw [s.gen.shape.index, h2, s.gen.shape.fallback, ← s.gen.fallback] at hget
    rw [hget] at h ⊢
    cases hf : (s.g.sym (s.g.symbols.getD la 0)).fallback with
    | none => rw [hf] at h; simp at h
    | some f =>
      obtain ⟨f1, f2, _⟩ := hi.fb _ h1 f hf
      simp only [Option.map_some, Option.getD_some]
      rw [s.gen.shape.index]
      exact isTok_kind hi f1 f2
  · exfalso
    apply h
    rw [List.getD_eq_getElem?_getD, List.getElem?_eq_none]
    · rfl
    · rw [s.gen.fallback]
      have := s.gen.fbEq
      unfold Grammar.fallbackTable at this
      have := (mapM_except_forall₂ this).length_eq
      rw [List.length_take, s.gen.shape.symbols, hi.slen] at this
      omega

theorem CSpec.wild_token (ho : OrdOk ord) (s : CSpec ord ds t) (h : t.wildcard > 0) : s.g.Tokenish t.wildcard := by
  have hi := s.ginv ho
  rw [s.gen.wildcard, s.gen.shape.wild] at h ⊢
  cases hw : s.g.wildcard with
  | none => rw [hw] at h; simp at h
  | some w =>
    simp only
    obtain ⟨h1, h2⟩ := hi.wild w hw
    rw [s.gen.shape.index]
    exact isTok_kind hi h1 h2

/-- What the search for a token finds -/
theorem CSpec.findShift_harmless (ho : OrdOk ord) (s : CSpec ord ds t) {st : Nat} : ∀ {fuel la c : Nat}, s.g.Tokenish la →
    t.findShiftFuel st fuel la = .ok c → s.Harmless c := by
  intro fuel
  induction fuel with
  | zero => intro la c _ h; cases h
  | succ fuel ih =>
    intro la c hla h
    unfold Tables.findShiftFuel at h
    split at h
    · exact s.dflt_harmless ho h
    · split at h
      · exact s.dflt_harmless ho h
      · split at h
        · cases h
        · split at h
          · rename_i hlk; cases h; exact s.lookup_token ho hla hlk
          · split at h
            · exact s.dflt_harmless ho h
            · split at h
              · rename_i hfb
                exact ih (s.fb_token ho hfb) h
              · split at h
                · rename_i hw
                  split at h
                  · rename_i hlk; cases h; exact s.lookup_token ho (s.wild_token ho hw) hlk
                  · exact s.dflt_harmless ho h
                · exact s.dflt_harmless ho h

/-- What the search after a reduction finds -/
theorem CSpec.findReduce_harmless (ho : OrdOk ord) (s : CSpec ord ds t) {st r c lhs : Nat} (hr : r < t.nRule)
    (hl : (s.g.rule r).lhs ≠ s.g.start.getD 0) (hlhs : t.ruleInfo[r]? = some lhs) (h : t.findReduce st lhs = .ok c) : s.Harmless c := by
  have hi := s.ginv ho
  obtain ⟨n1, n2⟩ := s.nStates ho
  rw [n2] at hr
  have hx := hi.lhs r hr
  have hlhs' : lhs = (s.g.sym (s.g.rule r).lhs).index := by
    rw [s.gen.ruleInfo, List.getElem?_map, List.getElem?_eq_getElem (by rw [s.gen.shape.rlen]; exact hr)] at hlhs
    simp only [Option.map_some, Option.some.injEq] at hlhs
    rw [← hlhs, s.gen.shape.index, ← s.gen.shape.lhs]
    congr 3
    unfold Grammar.rule
    rw [getD_of_lt (by rw [s.gen.shape.rlen]; exact hr)]
  have hnd : lhs ≠ s.g.defaultIndex := by
    rw [hlhs']
    intro e
    obtain ⟨d, hd1, hd2, hd3⟩ := hi.dflt
    have := hi.index_inj hx.1 hd1 (by rw [e, hd3])
    exact hx.2.2 (by rw [this]; exact hd2)
  unfold Tables.findReduce at h
  split at h
  · split at h
    · exact s.dflt_harmless ho h
    · cases h
  · split at h
    · cases h
    · split at h
      · cases h
      · split at h
        · rename_i hlk
          cases h
          obtain ⟨q, x, hq, hxx, he, hc⟩ := s.entry ho hnd hlk
          refine s.harmless ho hq hxx ?_ ?_ (s.num_lt ho) hc
          · intro e
            rw [e, hi.dollar.2.2] at he
            have h1 := hi.nt_le hx.1 hx.2.1
            have h2 := hi.nterm.1
            rw [← hlhs', ← he] at h1
            omega
          · intro e
            rw [e] at he
            exact hl (hi.index_inj hx.1 hi.start_kind.2.1 (by rw [← hlhs', he]))
        · split at h
          · exact s.dflt_harmless ho h
          · cases h

/-! ## Runs -/

theorem CSpec.reduce_status (ho : OrdOk ord) (s : CSpec ord ds t) (sem : Sem V X E) {p p' : Parser V X} {r : Nat} (hr : r < t.nRule)
    (hl : (s.g.rule r).lhs ≠ s.g.start.getD 0) (h : reduce t sem p r = .ok p' ()) : p'.status = p.status := by
  rcases reduce_cases t sem p r with ⟨w, h1⟩ | ⟨rc, vs, _, _, _, ⟨e, x, _, h1⟩ | ⟨v, x, lhs, top, rest, act, _, h2, _, h3, ⟨h4, h1⟩ | ⟨h4, h5, h1⟩⟩⟩
  · rw [h1] at h; cases h
  · rw [h1] at h; cases h
  · rw [h1] at h
    rcases shift_cases t sem { p with stack := p.stack.drop rc.pats.length, extra := x, trace := .reduce r vs :: p.trace } act lhs ⟨rc.lhsDt, v⟩ with
      ⟨_, _, h6⟩ | ⟨_, h6⟩
    · rw [h6] at h; cases h
    · rw [h6] at h; cases h; rfl
  · exfalso
    rcases s.findReduce_harmless ho hr hl h2 h3 with h | h | ⟨r', h, h', _⟩ <;> omega

theorem recover_status (t : Tables) (sem : Sem V X E) {major : Nat} {m : Minor V} {ex : List Nat} {stk : List (Entry V)} {p p' : Parser V X}
    (h : recover t sem major m ex stk p = .ok p' ()) : p'.status = p.status := by
  rcases recover_cases t sem major m ex stk p with ⟨w, h1⟩ | ⟨pop, rest, _, _, ⟨_, h1⟩ | ⟨top, rest', _, ⟨_, h1⟩ | ⟨_, act, _, _, ⟨p1, e, _, h1⟩ | ⟨p1, e, h2, h1⟩⟩⟩⟩
  · rw [h1] at h; cases h
  · rw [h1] at h; cases h; rfl
  · rw [h1] at h; cases h; rfl
  · rw [h1] at h; cases h
  · rw [h1] at h
    have hs : p1.status = p.status := by
      rcases syntaxError_cases t sem { p with stack := rest } major m ex with ⟨e', x, _, h3⟩ | ⟨v, x, _, h3⟩
      · rw [h3] at h2; cases h2
      · rw [h3] at h2; cases h2; rfl
    rcases shift_cases t sem p1 act t.errorSymbol e with ⟨_, _, h6⟩ | ⟨_, h6⟩
    · rw [h6] at h; cases h
    · rw [h6] at h; cases h; exact hs

theorem onError_status (t : Tables) (sem : Sem V X E) {p p' : Parser V X} {top : Entry V} {major : Nat} {m : Minor V}
    (h : onError t sem p top major m = .ok p' ()) : p'.status = p.status := by
  rcases onError_cases t sem p top major m with ⟨w, h1, _⟩ | ⟨_, h1⟩ | ⟨ex, _, _, ⟨_, ⟨p1, e, _, h1⟩ | ⟨p1, _, _, h1⟩ | ⟨p1, h2, _, h1⟩⟩ |
    ⟨_, _, ⟨p1, e, _, h1⟩ | ⟨p1, v, h2, h1⟩⟩ | ⟨_, _, h1⟩⟩
  · rw [h1] at h; cases h
  · rw [h1] at h; cases h
  · rw [h1] at h; cases h
  · rw [h1] at h; cases h
  · rw [h1] at h; cases h
    have := recover_status t sem h2
    exact this
  · rw [h1] at h; cases h
  · rw [h1] at h; cases h
    rcases syntaxError_cases t sem p major m ex with ⟨e', x, _, h3⟩ | ⟨v, x, _, h3⟩
    · rw [h3] at h2; cases h2
    · rw [h3] at h2; cases h2; rfl
  · rw [h1] at h; cases h; rfl

/-- The parser stays in its normal state while a token is dealt with. -/
theorem CSpec.loop_status (ho : OrdOk ord) (s : CSpec ord ds t) (sem : Sem V X E) {major : Nat} {m : Minor V} (hm : s.g.Tokenish major) :
    ∀ {fuel : Nat} {p p' : Parser V X}, p.status = .normal → loop t sem major m fuel p = some (.ok p' ()) → p'.status = .normal := by
  intro fuel
  induction fuel with
  | zero => intro p p' _ h; cases h
  | succ fuel ih =>
    intro p p' hp h
    unfold loop at h
    rw [hp] at h
    simp only at h
    split at h
    · rename_i r hst
      cases h
      unfold step at hst
      split at hst
      · cases hst
      · split at hst
        · cases hst
        · rename_i act hf
          have hh := s.findShift_harmless ho hm hf
          split at hst
          · split at hst
            · cases hst
            · split at hst
              · cases hst
              · cases hst
              · rename_i p1 hsh
                cases hst
                simp only
                rcases shift_cases t sem p act major m with ⟨_, _, h6⟩ | ⟨_, h6⟩
                · rw [h6] at hsh; cases hsh
                · rw [h6] at hsh; cases hsh; exact hp
          · split at hst
            · split at hst
              · cases hst
              · cases hst
              · cases hst
            · split at hst
              · simp only [Step.done.injEq] at hst
                rw [onError_status t sem hst]; exact hp
              · cases hst
    · rename_i p1 hst
      refine ih ?_ h
      unfold step at hst
      split at hst
      · cases hst
      · split at hst
        · cases hst
        · rename_i act hf
          have hh := s.findShift_harmless ho hm hf
          split at hst
          · split at hst
            · cases hst
            · split at hst <;> cases hst
          · rename_i h1
            split at hst
            · rename_i h2
              split at hst
              · cases hst
              · cases hst
              · rename_i p2 hrd
                cases hst
                rcases hh with h | h | ⟨r, h, h', h''⟩
                · exact absurd h h1
                · omega
                · subst h
                  rw [Nat.add_sub_cancel_left] at hrd
                  rw [s.reduce_status ho sem h' h'' hrd]; exact hp
            · split at hst <;> cases hst

theorem CSpec.token_index (s : CSpec ord ds t) {k : Nat} (h0 : 0 < k) (hk : k < t.numTerminals) : s.g.Tokenish k :=
  ⟨by omega, .inl (by rw [s.gen.numTerminals, s.gen.shape.nterm] at hk; exact hk)⟩

/-- Calls of `parse` leave the parser in its normal state or failed. -/
theorem CSpec.reach_status (ho : OrdOk ord) (s : CSpec ord ds t) (sem : Sem V X E) {p : Parser V X} (h : Reach t sem p) :
    p.status = .normal ∨ p.status = .failed := by
  induction h with
  | new x => exact .inl rfl
  | extra x _ ih => exact ih
  | @parse p p' tok fuel r _ hv hp hr ih =>
    unfold parse Tables.tokenValue parseToken at hp
    simp only at hp
    rcases ih with ih | ih
    · rw [ih] at hp
      simp only at hp
      obtain ⟨r0, h1, h2⟩ := Option.map_eq_some_iff.1 hp
      cases r0 with
      | ok p0 a =>
        simp only at h2; subst h2; cases hr
        exact .inl (s.loop_status ho sem (s.token_index hv.pos hv.lt) ih h1)
      | err p0 e => simp only at h2; subst h2; cases hr; exact .inr rfl
      | panic w => simp only at h2; subst h2; cases hr
    · rw [ih] at hp
      simp only [Option.some.injEq] at hp
      subst hp; cases hr

end

end Pomelo
