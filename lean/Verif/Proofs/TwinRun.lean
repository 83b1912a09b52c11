import Verif.Proofs.TwinGen
import Verif.Proofs.Sim
import Verif.Proofs.Safe
/-! # The runs of the parsers made with two orders of the optional symbols -/

namespace Pomelo

open Spec

variable {ord ord' : List (SymbolId × SymbolId) → List (SymbolId × SymbolId)} {ds : List Decl} {t t' : Tables}

/-! ## The action for a nonterminal -/

theorem Made.goto_all {s : CSpec ord ds t} {dflt : SymbolId} (m : Made s dflt) (hA : apart ord ds = true) {q : StateId} (hq : q < s.sts.length)
    {a : SymbolId} (ha : a < s.g.syms.length) (hk : (s.g.sym a).kind = .nonTerminal) (hne : a ≠ dflt) :
    t.findReduce (s.num q) (s.g.sym a).index = match ownOf (s.acts'.getD q []) a with
      | some d => .ok (s.code d)
      | none => if t.errorSymbol ≠ 0 then .ok (s.code ((ownOf (s.acts'.getD q []) dflt).getD .error)) else .error .badGoto := by
  have hq' : q < s.acts'.length := by rw [m.len]; exact hq
  cases ho : ownOf (s.acts'.getD q []) a with
  | some d => exact m.goto hq ho ha hk hne
  | none =>
    simp only
    have hnc : ¬ (s.g.sym a).index = t.noCode := by rw [m.tab.noCode]; exact Nat.ne_of_lt (m.inv.perm _ ha).1
    rw [← m.dflt_code hq]
    unfold Tables.findReduce
    rcases m.tab.nt q hq' with ⟨h1, _⟩ | ⟨ofs, h1, h2, h3⟩
    · rcases h1 with h1 | h1
      · rw [h1]
      · exact absurd h1 (m.reduce_row hq)
    · rw [h1]
      simp only
      rw [if_neg h2, if_neg hnc, (h3 a ha hk hne).2 hA ho]

/-! ## The two runs of the macro -/

/-- Two successful runs of the macro, with another order of the optional symbols -/
structure Mates (s : CSpec ord ds t) (s' : CSpec ord' ds t') where
  T : Twin s.g s'.g s.sts s'.sts
  fit : T.Fit
  same : ∀ r, r < (rulesOf ds).length → T.R.σ r = r
  acts : ∀ q, q < s.sts.length → s'.acts'.getD (T.ρ q) [] = (s.acts'.getD q []).map T.ren
  tame : ∀ q, q < s.sts.length → T.Tame (s.acts.getD q [])
  frame : s'.gen.gT.frame = s.gen.gT.frame
  types : s'.gen.types = s.gen.types

theorem mates (ho : OrdOk ord) (ho' : OrdOk ord') (s : CSpec ord ds t) (s' : CSpec ord' ds t') : Nonempty (Mates s s') := by
  have e : s'.g0 = s.g0 := Except.ok.inj (s'.decls.symm.trans s.decls)
  have h' : s.g0.automaton ord' = .ok (s'.g, s'.sts) := by rw [← e]; exact s'.auto
  obtain ⟨T, F, hs⟩ := fit_exists ho ho' s.decls s.auto h' s.actions
  obtain ⟨acts2, ha, he⟩ := T.findActions F s.actions
  have e1 : acts2 = s'.acts := by
    have := Except.ok.inj (ha.symm.trans s'.actions)
    exact congrArg Prod.fst this
  subst e1
  obtain ⟨acts2', hc2, he2⟩ := T.compressTables F s.actions s.compress ha he
  have e2 : acts2' = s'.acts' := Except.ok.inj (hc2.symm.trans s'.compress)
  subst e2
  obtain ⟨gT', h1, h2⟩ := assign_frame F.frame s.gen.assign
  have h3 := s'.gen.assign
  rw [T.symbols F, h1] at h3
  have h3 := Except.ok.inj h3
  obtain ⟨_, a2, _, _⟩ := findActions_get s.actions
  refine ⟨⟨T, F, hs, he2, fun q hq => ?_, ?_, ?_⟩⟩
  · rw [a2 q hq]; exact T.tame_acts F hq
  · have e3 : gT' = s'.gen.gT := congrArg Prod.fst h3
    rw [← e3]; exact h2
  · exact (congrArg Prod.snd h3).symm

/-! ## Own actions -/

namespace Mates

variable {s : CSpec ord ds t} {s' : CSpec ord' ds t'} (M : Mates s s') {dflt : SymbolId}

include M

/-- The numbers in an action are those of a rule or a state. -/
def DOk (s : CSpec ord ds t) (d : Detail) : Prop := d.live = true ∧ (∀ r, d = .reduce r → r < s.g.rules.length) ∧ ∀ k, d = .shift k → k < s.sts.length

theorem detail_live (d : Detail) : (M.T.detail d).live = d.live := by cases d <;> rfl

theorem ownOf (l : List Action) (x : SymbolId) : ownOf (l.map M.T.ren) x = (ownOf l x).map M.T.detail := by
  have : lives (onSym x (l.map M.T.ren)) = (lives (onSym x l)).map M.T.detail := by
    induction l with
    | nil => rfl
    | cons a l ih =>
      have e : (M.T.ren a).detail = M.T.detail a.detail := rfl
      have e' : (M.T.ren a).la = a.la := rfl
      unfold lives onSym at ih ⊢
      rw [List.map_cons, List.filter_cons, List.filter_cons, e']
      by_cases h : a.la = x
      · simp only [h, decide_true, if_true, List.map_cons, List.filter_cons, e, M.detail_live, ih]
        cases a.detail.live <;> rfl
      · simp only [h, decide_false, Bool.false_eq_true, if_false, ih]
  unfold Pomelo.ownOf
  rw [this, List.getLast?_map]

theorem own_ok (m : Made s dflt) {q : StateId} (hq : q < s.sts.length) {x : SymbolId} {d : Detail} (h : Pomelo.ownOf (s.acts'.getD q []) x = some d) : DOk s d := by
  have h1 := List.mem_of_getLast? h
  unfold lives at h1
  obtain ⟨h1, h2⟩ := List.mem_filter.1 h1
  obtain ⟨a, ha, rfl⟩ := List.mem_map.1 h1
  have ha := (mem_onSym.1 ha).1
  refine ⟨h2, ?_⟩
  obtain ⟨dd, ig, hc, _⟩ := m.own hq
  cases dd with
  | none =>
    rw [(hc.dNone rfl).1] at ha
    exact (M.tame q hq).ok a ha
  | some r =>
    rw [(hc.dSome r rfl).1, mem_sortBy] at ha
    rcases Twin.mem_makeDefault ha with ⟨b, hb, rfl | ⟨_, hk⟩⟩ | ⟨_, hd⟩
    · exact (M.tame q hq).ok _ hb
    · exact ⟨fun r e => absurd e (hk.2 r), fun k e => absurd e (hk.1 k)⟩
    · obtain ⟨_, a', ha', _, hd'⟩ := hc.dOk r rfl
      rw [hd]
      refine ⟨fun r' e => ?_, fun k e => by cases e⟩
      cases e
      exact ((M.tame q hq).ok a' ha').1 r hd'

theorem dflt_ok (m : Made s dflt) {q : StateId} (hq : q < s.sts.length) : DOk s ((Pomelo.ownOf (s.acts'.getD q []) dflt).getD .error) := by
  cases h : Pomelo.ownOf (s.acts'.getD q []) dflt with
  | none =>
    refine ⟨rfl, ?_, ?_⟩ <;> intro _ e <;> cases e
  | some d => exact M.own_ok m hq h

theorem pick_ok (m : Made s dflt) {q : StateId} (hq : q < s.sts.length) {x : SymbolId} {d : Detail} (h : s.g.Pick (s.acts'.getD q []) dflt x d) : DOk s d := by
  induction h with
  | own h => exact M.own_ok m hq h
  | fb _ _ _ _ ih => exact ih
  | wild _ _ _ _ h => exact M.own_ok m hq h
  | dflt => exact M.dflt_ok m hq

theorem pick {q : StateId} (hq : q < s.sts.length) {x : SymbolId} {d : Detail} (h : s.g.Pick (s.acts'.getD q []) dflt x d) :
    s'.g.Pick (s'.acts'.getD (M.T.ρ q) []) dflt x (M.T.detail d) := by
  have none : ∀ {x}, Pomelo.ownOf (s.acts'.getD q []) x = none → Pomelo.ownOf (s'.acts'.getD (M.T.ρ q) []) x = none := by
    intro x h; rw [M.acts q hq, M.ownOf, h]; rfl
  have some : ∀ {x d}, Pomelo.ownOf (s.acts'.getD q []) x = some d → Pomelo.ownOf (s'.acts'.getD (M.T.ρ q) []) x = some (M.T.detail d) := by
    intro x d h; rw [M.acts q hq, M.ownOf, h]; rfl
  induction h with
  | own h => exact .own (some h)
  | fb h1 h2 h3 _ ih => exact .fb (none h1) h2 (by rw [M.T.fallback M.fit]; exact h3) ih
  | wild h1 h2 h3 h4 h5 => exact .wild (none h1) h2 (by rw [M.T.fallback M.fit]; exact h3) (by rw [M.T.wildcard M.fit]; exact h4) (some h5)
  | @dflt x h1 h2 =>
    have e : M.T.detail ((Pomelo.ownOf (s.acts'.getD q []) dflt).getD .error) = (Pomelo.ownOf (s'.acts'.getD (M.T.ρ q) []) dflt).getD .error := by
      rw [M.acts q hq, M.ownOf]
      cases Pomelo.ownOf (s.acts'.getD q []) dflt <;> rfl
    rw [e]
    refine .dflt (none h1) ?_
    rw [M.T.fallback M.fit, M.T.wildcard M.fit]
    rcases h2 with h2 | ⟨h2, h3⟩
    · exact .inl h2
    · exact .inr ⟨h2, fun w hw => none (h3 w hw)⟩

/-- The symbol of the default actions is the same. -/
theorem dflt_eq {dflt' : SymbolId} (m : Made s dflt) (m' : Made s' dflt') : dflt' = dflt := by
  have hl : dflt' < s.g.syms.length := by rw [← M.T.R.len]; exact m'.dlt
  apply m.inv.index_inj hl m.dlt
  rw [m.didx, ← M.T.defaultIndex M.fit, ← m'.didx, M.T.index M.fit]

/-! ## The tables -/

/-- Numbers of states that belong together -/
def Q (n n' : Nat) : Prop := ∃ q, q < s.sts.length ∧ n = s.num q ∧ n' = s'.num (M.T.ρ q)

theorem act {dflt' : SymbolId} (m : Made s dflt) (m' : Made s' dflt') {d : Detail} (h : DOk s d) :
    ActR M.Q M.T.R.σ t.nState t.nRule (.ok (s.code d)) (.ok (s'.code (M.T.detail d))) := by
  have hn : t'.nState = t.nState := by rw [m.nState, m'.nState, M.T.length]
  have hr : t'.nRule = t.nRule := by rw [m.tab.nRule, m'.tab.nRule, M.T.numRules]
  obtain ⟨h1, h2, h3⟩ := h
  cases d with
  | shift k =>
    have hk := h3 k rfl
    refine .shift ⟨k, hk, rfl, rfl⟩ (m.num_lt hk) ?_
    rw [← hn]
    exact m'.num_lt (M.T.lt hk)
  | reduce r =>
    have hk := h2 r rfl
    have e : M.T.detail (.reduce r) = .reduce (M.T.R.σ r) := rfl
    rw [m.code_reduce, e, m'.code_reduce, hn]
    refine .reduce (by rw [m.tab.nRule]; exact hk) ?_
    rw [← hr, m'.tab.nRule]
    exact (M.T.R.rule r hk).1
  | accept =>
    have e : M.T.detail .accept = .accept := rfl
    rw [m.code_accept, e, m'.code_accept, hn, hr]
    exact .other (Nat.le_succ _)
  | error =>
    have e : M.T.detail .error = .error := rfl
    rw [m.code_error, e, m'.code_error, hn, hr]
    exact .other (Nat.le_refl _)
  | _ => cases h1

theorem gT_sym (x : SymbolId) : (s'.gen.gT.sym x).frame = (s.gen.gT.sym x).frame := (frame_iff.1 M.frame).2.2 x

theorem dtNum (x : SymbolId) : (s'.gen.gT.sym x).dtNum = (s.gen.gT.sym x).dtNum := by have := congrArg Symbol.dtNum (M.gT_sym x); exact this
theorem dataType (x : SymbolId) : (s'.gen.gT.sym x).dataType = (s.gen.gT.sym x).dataType := by have := congrArg Symbol.dataType (M.gT_sym x); exact this

theorem errorSymbol : t'.errorSymbol = t.errorSymbol := by
  rw [s.gen.errorSymbol, s'.gen.errorSymbol]
  have e : s'.gen.gT.errorSymbol = s.gen.gT.errorSymbol := by have := congrArg Grammar.errorSymbol M.frame; exact this
  have e1 : (s'.gen.gT.sym s.gen.gT.errorSymbol).useCnt = (s.gen.gT.sym s.gen.gT.errorSymbol).useCnt := by
    have := congrArg Symbol.useCnt (M.gT_sym s.gen.gT.errorSymbol); exact this
  have e2 : (s'.gen.gT.sym s.gen.gT.errorSymbol).index = (s.gen.gT.sym s.gen.gT.errorSymbol).index := by
    have := congrArg Symbol.index (M.gT_sym s.gen.gT.errorSymbol); exact this
  rw [e, e1, e2]

theorem ruleCode {r : Nat} (hr : r < s.g.rules.length) : t'.ruleCode[M.T.R.σ r]? = t.ruleCode[r]? := by
  obtain ⟨h1, h2, _⟩ := M.T.R.rule r hr
  obtain ⟨a, ha, ha'⟩ := s.ruleCode_get hr
  obtain ⟨b, hb, hb'⟩ := s'.ruleCode_get h1
  rw [← frame_translateCode, M.frame, frame_translateCode, translateCode_bare h2, ha'] at hb'
  rw [ha, hb, Except.ok.inj hb']

theorem ruleInfo {r : Nat} (hr : r < s.g.rules.length) : t'.ruleInfo[M.T.R.σ r]? = t.ruleInfo[r]? := by
  obtain ⟨h1, h2, _⟩ := M.T.R.rule r hr
  rw [s.ruleInfo_get, s'.ruleInfo_get, if_pos hr, if_pos h1, M.T.index M.fit]
  have := congrArg Rule.lhs h2
  have e : (s'.g.rule (M.T.R.σ r)).lhs = (s.g.rule r).lhs := this
  rw [e]

/-- The tables differ in the numbers of the rules and states only. -/
def sim {dflt' : SymbolId} (m : Made s dflt) (m' : Made s' dflt') (hA : apart ord ds = true) (hA' : apart ord' ds = true) (hfb : s.g.FbEnds) : Sim t t' where
  Q := M.Q
  σ := M.T.R.σ
  zero := ⟨0, m.auto.pos, (m.tab.num_zero (by rw [m.len]; exact m.auto.pos)).symm, by
    rw [M.T.zero]; exact (m'.tab.num_zero (by rw [m'.len]; exact m'.auto.pos)).symm⟩
  nState := by rw [m.nState, m'.nState, M.T.length]
  nRule := by rw [m.tab.nRule, m'.tab.nRule, M.T.numRules]
  errorSymbol := M.errorSymbol
  stackLimit := by
    rw [s.gen.stackLimit, s'.gen.stackLimit]
    have := congrArg Grammar.stackLimit M.frame; exact this
  numTerminals := by rw [s.numTerminals, s'.numTerminals, M.T.numTerminals M.fit]
  tokenDt := by
    have e1 : s'.gen.gT.symbols = s.gen.gT.symbols := by have := congrArg Grammar.symbols M.frame; exact this
    have e2 : s'.gen.gT.numTerminals = s.gen.gT.numTerminals := by have := congrArg Grammar.numTerminals M.frame; exact this
    rw [s.gen.tokenDt, s'.gen.tokenDt, e1, e2]
    exact List.map_congr_left (fun x _ => M.dtNum x)
  errorDt := by
    have e : s'.gen.gT.errorSymbol = s.gen.gT.errorSymbol := by have := congrArg Grammar.errorSymbol M.frame; exact this
    rw [s.gen.errorDt, s'.gen.errorDt, e, M.dtNum]
  rootDt := by
    have e : s'.gen.gT.start = s.gen.gT.start := by have := congrArg Grammar.start M.frame; exact this
    rw [s.gen.rootDt, s'.gen.rootDt, e, M.dataType, M.types]
  ruleCode := fun r hr => M.ruleCode (by rw [← m.tab.nRule]; exact hr)
  ruleInfo := fun r hr => M.ruleInfo (by rw [← m.tab.nRule]; exact hr)
  find := by
    rintro n n' a ⟨q, hq, rfl, rfl⟩ ha
    obtain ⟨x, hx, hk, hi⟩ : ∃ x, x < s.g.syms.length ∧ (s.g.sym x).kind = .terminal ∧ (s.g.sym x).index = a := by
      rcases Nat.eq_zero_or_pos a with rfl | h0
      · exact ⟨0, Nat.lt_of_lt_of_le Nat.zero_lt_two m.inv.two, m.inv.dollar.2.1, m.inv.dollar.2.2⟩
      · obtain ⟨x, h1, h2, h3, _⟩ := m.token h0 ha
        exact ⟨x, h1, h2, h3⟩
    obtain ⟨d, hd⟩ := pick_exists (l := s.acts'.getD q []) (dflt := dflt) (hfb x hx)
    have h1 := m.tok_lookup hA hq hd hx (by rw [hk]; simp)
    have hd' := M.pick hq hd
    rw [← M.dflt_eq m m'] at hd'
    have h2 := m'.tok_lookup hA' (M.T.lt hq) hd' (by rw [M.T.R.len]; exact hx) (by rw [M.T.fkind M.fit, hk]; simp)
    rw [M.T.index M.fit, hi] at h2
    rw [hi] at h1
    rw [h1, h2]
    exact M.act m m' (M.pick_ok m hq hd)
  goto := by
    rintro n n' a ⟨q, hq, rfl, rfl⟩ ha
    obtain ⟨x, hx, hk, hne, hi⟩ : ∃ x, x < s.g.syms.length ∧ (s.g.sym x).kind = .nonTerminal ∧ x ≠ dflt ∧ (s.g.sym x).index = a := by
      rcases ha with ha | ⟨rfl, h0⟩
      · obtain ⟨r, hr⟩ := List.getElem?_of_mem ha
        rw [s.ruleInfo_get] at hr
        split at hr
        · rename_i hl
          obtain ⟨h1, h2, h3⟩ := m.inv.lhs r hl
          refine ⟨_, h1, h2, ?_, Option.some.inj hr⟩
          intro e
          rw [e] at h3
          exact h3 m.dname
        · cases hr
      · obtain ⟨e1, e2, e3, e4, _⟩ := m.err_facts h0
        exact ⟨1, e2, e3, e4, e1.symm⟩
    have h1 := m.goto_all hA hq hx hk hne
    have h2 := m'.goto_all hA' (M.T.lt hq) (by rw [M.T.R.len]; exact hx) (by rw [M.T.fkind M.fit]; exact hk) (by rw [M.dflt_eq m m']; exact hne)
    rw [M.T.index M.fit, hi, M.errorSymbol, M.acts q hq, M.ownOf, M.ownOf, M.dflt_eq m m'] at h2
    rw [hi] at h1
    rw [h1, h2]
    cases ho : Pomelo.ownOf (s.acts'.getD q []) x with
    | some d => exact M.act m m' (M.own_ok m hq ho)
    | none =>
      simp only [Option.map_none]
      split
      · have := M.act m m' (M.dflt_ok m hq)
        cases hd : Pomelo.ownOf (s.acts'.getD q []) dflt with
        | none => rw [hd] at this; exact this
        | some d => rw [hd] at this; exact this
      · exact .error _

end Mates

end Pomelo
