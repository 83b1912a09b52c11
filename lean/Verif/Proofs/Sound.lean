import Verif.Proofs.Find
/-! # The actions found at run time are moves of the automaton -/

namespace Pomelo

open Spec

section
variable {g : Grammar} {sts : List LState}

theorem markStart_true {sp : SymbolId} (hk : (g.sym sp).kind = .nonTerminal) {r : RuleId} (hr : r ∈ (g.sym sp).rules) (hl : r < g.rules.length) :
    ((g.markStart sp).rule r).lhsStart = true := by
  unfold Grammar.markStart
  rw [hk]
  simp only [Grammar.rule]
  have key : ∀ (R : List RuleId) (rs : List Rule), r < rs.length → (r ∈ R ∨ (rs.getD r default).lhsStart = true) →
      ((R.foldl (fun rs rp => rs.modify rp (fun r => { r with lhsStart := true })) rs).getD r default).lhsStart = true := by
    intro R
    induction R with
    | nil => intro rs _ h; rcases h with h | h; cases h; exact h
    | cons a R ih =>
      intro rs hl h
      rw [List.foldl_cons]
      apply ih
      · rw [List.length_modify]; exact hl
      · by_cases hR : r ∈ R
        · exact .inl hR
        · right
          rw [List.getD_eq_getElem?_getD, List.getElem?_modify, List.getElem?_eq_getElem hl]
          by_cases har : a = r
          · simp [har]
          · simp only [har, if_false, Option.map_some, Option.getD_some, Option.map_eq_map]
            rcases h with h | h
            · rcases List.mem_cons.1 h with h | h
              · exact absurd h.symm har
              · exact absurd h hR
            · rw [List.getD_eq_getElem?_getD, List.getElem?_eq_getElem hl] at h; exact h
  exact key _ _ hl (.inl hr)

theorem lhsStart_of {ord : List (SymbolId × SymbolId) → List (SymbolId × SymbolId)} {ds : List Decl} (ho : OrdOk ord)
    {g0 g : Grammar} {sts : List LState} (h0 : newFromDecls ds = .ok g0) (h : g0.automaton ord = .ok (g, sts)) {r : RuleId}
    (hr : r < g.rules.length) (hs : (g.rule r).lhs = g.start.getD 0) : (g.rule r).lhsStart = true := by
  have hi := GInv.automaton h0 ho h
  obtain ⟨s⟩ := automaton_spec h
  have hmk := s.marked
  have hsh : Shape s.gF g := Eq.mpr (congrArg (Shape s.gF) hmk) (markStart_shape _ _)
  have hst : s.gF.start.getD 0 = g.start.getD 0 := by rw [hsh.start]
  have h1 : (s.gF.sym (g.start.getD 0)).rules = (g.sym (g.start.getD 0)).rules := (hsh.rules _).symm
  have h2 : (s.gF.sym (g.start.getD 0)).kind = .nonTerminal := by rw [← hsh.kind]; exact hi.start_kind.1
  have := markStart_true (g := s.gF) (sp := s.gF.start.getD 0) (by rw [hst]; exact h2) (r := r)
    (by rw [hst, h1]; exact (hi.mem_rules hi.start_kind.2.1).2 ⟨hr, hs⟩) (by rw [← hsh.rlen]; exact hr)
  rw [← hmk] at this
  exact this

theorem shiftActions_reads {q k : StateId} {a : SymbolId} (h : g.CanShift sts q a k)
    (hk : (g.sym a).kind = .terminal) : ∃ X, g.Trans sts q X k ∧ Reads g X a := by
  obtain ⟨X, hX, hm⟩ := h
  refine ⟨X, hX, ?_⟩
  rcases (mem_shiftActions.1 hm).2 with ⟨h1, h2⟩ | ⟨h1, h2⟩
  · unfold Reads; rw [h1]; exact h2
  · simp only at h2
    subst h2
    unfold Reads; rw [hk]

theorem shiftActions_nt (hi : GInv g) (ha : Auto g sts) {q k : StateId} {A : SymbolId} (hk : (g.sym A).kind = .nonTerminal) :
    g.CanShift sts q A k ↔ g.Trans sts q A k := by
  constructor
  · rintro ⟨X, hX, hm⟩
    rcases (mem_shiftActions.1 hm).2 with ⟨h1, h2⟩ | ⟨h1, h2⟩
    · simp only at h2
      obtain ⟨r, hr, hx⟩ := hX.rhs hi ha
      obtain ⟨h3, h4⟩ := hi.subs X (hi.rhs r hr X hx).1 _ h2
      rcases hi.isTok_kind h3 h4 with h' | h' <;> rw [hk] at h' <;> cases h'
    · simp only at h2
      subst h2; exact hX
  · intro h
    exact ⟨A, h, mem_shiftActions.2 ⟨rfl, .inr ⟨by rw [hk]; simp, rfl⟩⟩⟩

/-- A start rule is complete only before the end of input. -/
theorem canReduce_start (hi : GInv g) (ha : Auto g sts) (hn : g.NoStart) {q : StateId} {a : SymbolId} {r : RuleId}
    (h : g.CanReduce sts q a r) (hs : (g.rule r).lhs = g.start.getD 0) : a = 0 := by
  obtain ⟨h1, h2, h3⟩ := h
  obtain ⟨γ, hp, hA⟩ := (la_iff hi ha).1 h3
  have key : ∀ {γ c n}, Ahead g γ c n → (g.rule c.rule).lhs = g.start.getD 0 → n = 0 := by
    intro γ c n h
    induction h with
    | start _ => intro _; rfl
    | @first γ c A r n hv hd hr _ =>
      intro hl
      exfalso
      simp only at hl
      obtain ⟨s, hs1, _⟩ := hi.start
      apply hn c.rule hv.rule A (List.mem_of_getElem? hd)
      rw [← hr.2, hl, hs1]; rfl
    | @pass γ c A r n hv hd hr _ _ =>
      intro hl
      exfalso
      simp only at hl
      obtain ⟨s, hs1, _⟩ := hi.start
      apply hn c.rule hv.viable.rule A (List.mem_of_getElem? hd)
      rw [← hr.2, hl, hs1]; rfl
    | shift _ _ ih => exact ih
  have := key hA hs
  exact hi.index_inj h1 (Nat.lt_of_lt_of_le Nat.zero_lt_two hi.two) (by rw [this, hi.dollar.2.2])

theorem canReduce_rule (hi : GInv g) (ha : Auto g sts) {q : StateId} {a : SymbolId} {r : RuleId}
    (h : g.CanReduce sts q a r) : r < g.rules.length ∧ q < sts.length ∧ (⟨r, (g.rhsSyms r).length⟩ : Item) ∈ items (cfgs sts q) := by
  obtain ⟨h1, h2⟩ := LA_item hi ha h.2.2
  exact ⟨ha.item_rule hi h1 h2, h1, h2⟩

/-- What an action of state `q` for the token `a` may be -/
inductive Grammar.Move (g : Grammar) (sts : List LState) (q : StateId) (a : SymbolId) : Detail → Prop
  | shift {X b k} : Stands g a b → Reads g X b → g.Trans sts q X k → g.Move sts q a (.shift k)
  | reduce {r b} : g.CanReduce sts q b r → ((g.rule r).lhs = g.start.getD 0 → a = 0) → g.Move sts q a (.reduce r)
  | error : g.Move sts q a .error

end

section
variable {ord : List (SymbolId × SymbolId) → List (SymbolId × SymbolId)} {ds : List Decl} {t : Tables} {s : CSpec ord ds t} {dflt : SymbolId}

/-- Own actions of a token -/
theorem Made.own_tok (m : Made s dflt) {q : StateId} (hq : q < s.sts.length) {a : SymbolId} (hk : (s.g.sym a).kind = .terminal) {d : Detail}
    (h : ownOf (s.acts'.getD q []) a = some d) :
    (∃ k, d = .shift k ∧ s.g.CanShift s.sts q a k) ∨ (∃ r, d = .reduce r ∧ s.g.CanReduce s.sts q a r) ∨ d = .error := by
  obtain ⟨dd, ig, hc, ho⟩ := m.own hq
  have hne : a ≠ dflt := by
    rintro rfl
    rw [m.inv.default_name m.dlt m.didx] at hk; cases hk
  have hst : a ≠ s.g.start.getD 0 := by
    rintro rfl
    rw [m.inv.start_kind.1] at hk; cases hk
  obtain ⟨sh, rd, h1, h2, hout⟩ := m.aspec.out q hq a (.inr hst)
  generalize hl : lives (onSym a (s.acts.getD q [])) = L at hout
  cases hout with
  | nothing e1 e2 => rw [ho.nothing a hne hl] at h; cases h
  | @shift k e1 e2 =>
    rw [ho.shift a hne k hl] at h
    cases h
    exact .inl ⟨k, rfl, (h1 k).1 (by rw [e1]; exact List.mem_singleton.2 rfl)⟩
  | @reduce r e1 _ _ _ =>
    rcases ho.reduce a hne r hl with ⟨h', _⟩ | ⟨h', _⟩
    · rw [h'] at h; cases h
      exact .inr (.inl ⟨r, rfl, (h2 r).1 e1⟩)
    · rw [h'] at h; cases h
  | @error k r c e1 e2 e3 e4 e5 e6 =>
    rcases ho.error a hne r hl with ⟨h', _⟩ | ⟨h', _⟩
    · rw [h'] at h; cases h; exact .inr (.inr rfl)
    · rw [h'] at h; cases h
      exact .inr (.inl ⟨r, rfl, (h2 r).1 e2⟩)

theorem Made.own_dflt (m : Made s dflt) {q : StateId} (hq : q < s.sts.length) :
    (∃ r b, ownOf (s.acts'.getD q []) dflt = some (.reduce r) ∧ (s.g.rule r).lhsStart = false ∧ s.g.CanReduce s.sts q b r) ∨
      ownOf (s.acts'.getD q []) dflt = none := by
  obtain ⟨dd, ig, hc, ho⟩ := m.own hq
  rw [ho.dfl]
  cases hd : dd with
  | none => right; rfl
  | some r =>
    left
    obtain ⟨h1, a, ha, _, h2⟩ := hc.dOk r hd
    refine ⟨r, a.la, rfl, h1, ?_⟩
    have hmem : Detail.reduce r ∈ lives (onSym a.la (s.acts.getD q [])) := by
      unfold lives
      rw [List.mem_filter, List.mem_map]
      exact ⟨⟨a, mem_onSym.2 ⟨ha, rfl⟩, h2⟩, rfl⟩
    by_cases hst : q ≠ 0 ∨ a.la ≠ s.g.start.getD 0
    · obtain ⟨sh, rd, h3, h4, hout⟩ := m.aspec.out q hq a.la hst
      generalize hl : lives (onSym a.la (s.acts.getD q [])) = L at hout hmem
      cases hout with
      | nothing => cases hmem
      | shift => simp at hmem
      | reduce e1 => simp only [List.mem_singleton, Detail.reduce.injEq] at hmem; subst hmem; exact (h4 _).1 e1
      | error _ e1 => simp only [List.mem_cons, Detail.reduce.injEq, List.not_mem_nil, or_false, reduceCtorEq, false_or] at hmem; subst hmem; exact (h4 _).1 e1
    · exfalso
      have hst : q = 0 ∧ a.la = s.g.start.getD 0 := by
        by_contra hcon
        apply hst
        by_cases h0 : q = 0
        · right; intro e; exact hcon ⟨h0, e⟩
        · left; exact h0
      rw [hst.1, hst.2, m.aspec.acc] at hmem
      simp [lives] at hmem

theorem Made.move_own (m : Made s dflt) {q : StateId} (hq : q < s.sts.length) {a b : SymbolId} (hk : (s.g.sym b).kind = .terminal) {d : Detail}
    (hab : Stands s.g a b) (h0 : b = 0 → a = 0) (h : ownOf (s.acts'.getD q []) b = some d) : s.g.Move s.sts q a d := by
  rcases m.own_tok hq hk h with ⟨k, rfl, hs⟩ | ⟨r, rfl, hr⟩ | rfl
  · obtain ⟨X, h1, h2⟩ := shiftActions_reads hs hk
    exact .shift hab h2 h1
  · exact .reduce hr (fun e => h0 (canReduce_start m.inv m.auto m.noStart hr e))
  · exact .error

theorem Made.move_dflt (m : Made s dflt) (ho : OrdOk ord) {q : StateId} (hq : q < s.sts.length) (a : SymbolId) :
    s.g.Move s.sts q a ((ownOf (s.acts'.getD q []) dflt).getD .error) := by
  rcases m.own_dflt hq with ⟨r, b, h1, h2, h3⟩ | h
  · rw [h1]
    refine .reduce h3 (fun e => ?_)
    have := lhsStart_of ho s.decls s.auto (canReduce_rule m.inv m.auto h3).1 e
    rw [h2] at this; cases this
  · rw [h]; exact .error

/-- `s.code` of every action found is that of a move. -/
theorem Made.find_sound (m : Made s dflt) (ho : OrdOk ord) (hA : apart ord ds = true) {q : StateId} (hq : q < s.sts.length) {a : SymbolId}
    (ha : a < s.g.syms.length) (hk : (s.g.sym a).kind = .terminal) {c : Nat}
    (h : t.findShift (s.num q) (s.g.sym a).index = .ok c) : ∃ d, c = s.code d ∧ s.g.Move s.sts q a d := by
  have hq' : q < s.acts'.length := by rw [m.len]; exact hq
  have hz : (0 : SymbolId) < s.g.syms.length := Nat.lt_of_lt_of_le Nat.zero_lt_two m.inv.two
  have hcode : ∀ d, codeOf s.acts'.length s.g.rules.length s.num d = s.code d := by intro d; unfold CSpec.code; rw [m.len]
  have hdf : ∀ {c}, t.dfltAct (s.num q) = .ok c → ∃ d, c = s.code d ∧ s.g.Move s.sts q a d := by
    intro c hc
    rw [m.dflt_code hq] at hc
    exact ⟨_, (Except.ok.inj hc).symm, m.move_dflt ho hq a⟩
  have hne0 : ∀ x, x < s.g.syms.length → (s.g.sym x).name.isTok = true → x ≠ 0 := by
    rintro x hx hn rfl
    rw [m.inv.dollar.1] at hn; cases hn
  unfold Tables.findShift at h
  generalize t.fallback.length + 1 = fuel at h
  suffices ∀ b, b < s.g.syms.length → (∀ c, Stands s.g b c → Stands s.g a c) → (b = 0 → a = 0) → (b = a ∨ (s.g.sym b).name.isTok = true) → t.findShiftFuel (s.num q) fuel (s.g.sym b).index = .ok c →
      ∃ d, c = s.code d ∧ s.g.Move s.sts q a d from this a ha (fun _ h => h) id (.inl rfl) h
  clear h
  induction fuel with
  | zero => intro b _ _ _ _ h; cases h
  | succ fuel ih =>
    intro b hb hab hb0 hbt h
    rw [Tables.findShiftFuel] at h
    rcases m.tab.tok q hq' with ⟨h1, h2⟩ | ⟨ofs, h1, h2, h3⟩
    · rcases h1 with h1 | h1 <;> simp only [h1, if_true] at h <;> exact hdf h
    · have hbk : (s.g.sym b).kind ≠ .nonTerminal := by
        rcases hbt with rfl | hbt
        · rw [hk]; simp
        · intro he; rcases m.inv.isTok_kind hb hbt with h' | h' <;> rw [he] at h' <;> cases h'
      have own : ∀ b d, b < s.g.syms.length → (s.g.sym b).kind ≠ .nonTerminal → Stands s.g a b → (b = 0 → a = 0) → ownOf (s.acts'.getD q []) b = some d → s.g.Move s.sts q a d := by
        intro b d hb hbk hab hb0 hd
        refine m.move_own hq ?_ hab hb0 hd
        -- an own action is not on a class
        unfold ownOf at hd
        cases hon : onSym b (s.acts'.getD q []) with
        | nil => rw [hon] at hd; cases hd
        | cons x l =>
          have hx : x ∈ onSym b (s.acts'.getD q []) := by rw [hon]; simp
          obtain ⟨hx1, hx2⟩ := mem_onSym.1 hx
          have := m.las'.kind q hq' x hx1
          rw [hx2] at this
          revert this hbk
          cases (s.g.sym b).kind <;> simp
      simp only [h1, if_neg h2] at h
      rw [if_neg (by rw [m.tab.noCode]; exact Nat.ne_of_lt (m.inv.perm _ hb).1)] at h
      cases ho' : ownOf (s.acts'.getD q []) b with
      | some d =>
        rw [(h3 b hb hbk).1 d ho'] at h
        exact ⟨d, by rw [← Except.ok.inj h, hcode], own b d hb hbk (hab b .self) hb0 ho'⟩
      | none =>
        rw [(h3 b hb hbk).2 hA ho'] at h
        simp only at h
        split at h
        · exact hdf h
        · rename_i hb1
          have hfbt := m.tab.fb b hb
          have hb2 : b ≠ 0 := by rintro rfl; exact hb1 m.inv.dollar.2.2
          have ha2 : a ≠ 0 := by
            rintro rfl
            have hstand : ∀ {x y}, Stands s.g x y → x = 0 → y = 0 := by
              intro x y hxy
              induction hxy with
              | self => exact id
              | fallback hf _ ih =>
                intro e; subst e
                have := (m.inv.fb 0 hz _ hf).2.2
                rw [m.inv.dollar.1] at this; cases this
              | wildcard _ hne => intro e; exact absurd e hne
            exact hb2 (hstand (hab b .self) rfl)
          cases hf : (s.g.sym b).fallback with
          | some f =>
            rw [hf] at hfbt
            simp only [Option.map_some, Option.getD_some] at hfbt
            obtain ⟨hfl, hfn, _⟩ := m.inv.fb _ hb _ hf
            have hfi : (s.g.sym f).index ≠ 0 := fun e => hne0 f hfl hfn (m.inv.index_inj hfl hz (by rw [e, m.inv.dollar.2.2]))
            rw [hfbt, if_pos hfi] at h
            exact ih f hfl (fun c hc => hab c (.fallback hf hc)) (fun e => absurd e (hne0 f hfl hfn)) (.inr hfn) h
          | none =>
            rw [hf] at hfbt
            simp only [Option.map_none, Option.getD_none] at hfbt
            rw [hfbt] at h
            simp only [ne_eq, not_true_eq_false, if_false] at h
            split at h
            · rename_i hwp
              have hwt := m.tab.wild
              cases hwc : s.g.wildcard with
              | none => rw [hwc] at hwt; simp only [Option.map_none, Option.getD_none] at hwt; omega
              | some w =>
                rw [hwc] at hwt
                simp only [Option.map_some, Option.getD_some] at hwt
                obtain ⟨hwl, hwn⟩ := m.inv.wild w hwc
                have hwk : (s.g.sym w).kind ≠ .nonTerminal := by
                  intro he; rcases m.inv.isTok_kind hwl hwn with h' | h' <;> rw [he] at h' <;> cases h'
                cases hwo : ownOf (s.acts'.getD q []) w with
                | none => rw [hwt, (h3 w hwl hwk).2 hA hwo] at h; exact hdf h
                | some d =>
                  rw [hwt, (h3 w hwl hwk).1 d hwo] at h
                  exact ⟨d, by rw [← Except.ok.inj h, hcode], own w d hwl hwk (.wildcard hwc ha2) (fun e => absurd e (hne0 w hwl hwn)) hwo⟩
            · exact hdf h

end

end Pomelo
