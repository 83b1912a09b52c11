import Verif.Proofs.Build
/-! # The generated tables: types, names, rule table -/

namespace Pomelo

theorem assignTypes_shape : ∀ {ss : List SymbolId} {g g' : Grammar} {ts ts' : List Ty},
    g.assignTypes ts ss = .ok (g', ts') → Shape g g' ∧ g'.rules = g.rules ∧
      g'.defaultType = g.defaultType ∧ g'.stackLimit = g.stackLimit ∧
      (∀ s, (g'.sym s).useCnt = (g.sym s).useCnt) := by
  intro ss
  induction ss with
  | nil => intro g g' ts ts' h; cases h; exact ⟨Shape.refl _, rfl, rfl, rfl, fun _ => rfl⟩
  | cons s ss ih =>
    intro g g' ts ts' h
    unfold Grammar.assignTypes at h
    split at h
    · exact ih h
    · split at h
      · cases h
      · obtain ⟨h1, h2, h3, h4, h5⟩ := ih h
        refine ⟨(Shape.modify (by intro b; rfl)).trans h1, h2, h3, h4, ?_⟩
        intro x
        rw [h5]
        refine proj_modifySym (g := g) (s := s) (f := fun b => { b with dataType := none, dtNum := 0 }) Symbol.useCnt ?_ x
        intro b; rfl
      · rename_i t _
        simp only at h
        obtain ⟨h1, h2, h3, h4, h5⟩ := ih h
        refine ⟨(Shape.modify (by intro b; rfl)).trans h1, h2, h3, h4, ?_⟩
        intro x
        rw [h5]
        exact proj_modifySym (g := g) (s := s) (f := fun b => { b with dataType := some t, dtNum := _ }) Symbol.useCnt (by intro b; rfl) x

/-- The pieces the tables are made of -/
structure GenSpec (g : Grammar) (sts : List RState) (t : Tables) where
  gT : Grammar
  types : List Ty
  p : Packed
  sh : List Int
  rd : List Int
  fb : List Nat
  rc : List RuleCode
  wildT : ∀ w, g.wildcard = some w → (g.sym w).dataType = none
  assign : g.assignTypes [] g.symbols = .ok (gT, types)
  items : gT.checkItems = .ok ()
  pack : gT.pack sts = some p
  shEq : ofstTable sts.length p.tkn = some sh
  rdEq : ofstTable sts.length p.nt = some rd
  fbEq : gT.fallbackTable = .ok fb
  rcEq : gT.rules.mapM gT.translateCode = .ok rc
  nState : t.nState = sts.length
  nRule : t.nRule = gT.rules.length
  errorSymbol : t.errorSymbol = if (gT.sym gT.errorSymbol).useCnt > 1 then (gT.sym gT.errorSymbol).index else 0
  wildcard : t.wildcard = match gT.wildcard with | some w => (gT.sym w).index | none => 0
  noCode : t.noCode = gT.symbols.length
  stackLimit : t.stackLimit = gT.stackLimit
  action : t.action = p.tab.map (fun c => match c with
    | none => sts.length + gT.rules.length + 2
    | some a => a.act)
  lookahead : t.lookahead = p.tab.map (fun c => match c with
    | none => gT.defaultIndex
    | some a => a.la)
  shiftUseDflt : t.shiftUseDflt = minOfst p.tkn - 1
  shiftOfst : t.shiftOfst = sh
  reduceUseDflt : t.reduceUseDflt = minOfst p.nt - 1
  reduceOfst : t.reduceOfst = rd
  dflt : t.dflt = sts.map (·.dflt)
  fallback : t.fallback = fb
  ruleInfo : t.ruleInfo = gT.rules.map (fun r => (gT.sym r.lhs).index)
  numTerminals : t.numTerminals = gT.numTerminals
  tokenNames : t.tokenNames = (gT.symbols.take gT.numTerminals).map (fun s => (gT.sym s).name)
  tokenDt : t.tokenDt = (gT.symbols.take gT.numTerminals).map (fun s => (gT.sym s).dtNum)
  errorDt : t.errorDt = (gT.sym gT.errorSymbol).dtNum
  rootDt : t.rootDt = if types.contains (((gT.sym (gT.start.getD 0)).dataType).getD .unit)
    then some (types.idxOf (((gT.sym (gT.start.getD 0)).dataType).getD .unit) + 1) else none
  ruleCode : t.ruleCode = rc

theorem generate_spec {g : Grammar} {sts : List RState} {t : Tables} (h : g.generate sts = .ok t) :
    Nonempty (GenSpec g sts t) := by
  unfold Grammar.generate at h
  rw [ite_eq_iff] at h
  rcases h with ⟨_, h⟩ | ⟨hw, h⟩
  · cases h
  · split at h
    · cases h
    · rename_i gT types hT
      split at h
      · cases h
      rename_i hit
      split at h
      · cases h
      · rename_i p hp
        split at h
        · rename_i sh rd hsh hrd
          split at h
          · cases h
          · rename_i fb hfb
            split at h
            · cases h
            · rename_i rc hrc
              cases h
              refine ⟨⟨gT, types, p, sh, rd, fb, rc, ?_, hT, hit, hp, hsh, hrd, hfb, hrc, rfl, rfl, rfl, rfl, rfl, rfl, rfl, rfl,
                rfl, rfl, rfl, rfl, rfl, rfl, rfl, rfl, rfl, rfl, rfl, rfl, rfl⟩⟩
              intro w hw2
              rw [hw2] at hw
              simpa using hw
        · cases h

theorem GenSpec.shape {g : Grammar} {sts : List RState} {t : Tables} (s : GenSpec g sts t) : Shape g s.gT :=
  (assignTypes_shape s.assign).1

/-- Everything known about a successful run of the macro -/
structure CSpec (ord : List (SymbolId × SymbolId) → List (SymbolId × SymbolId)) (ds : List Decl) (t : Tables) where
  g0 : Grammar
  g : Grammar
  sts : List LState
  acts : List (List Action)
  acts' : List (List Action)
  decls : newFromDecls ds = .ok g0
  auto : g0.automaton ord = .ok (g, sts)
  actions : g.findActions sts = .ok (acts, 0)
  compress : g.compressTables acts = .ok acts'
  gen : GenSpec g (g.resortStates acts') t

theorem compile_cspec {ord} {ds : List Decl} {t : Tables} (h : compile ord ds = .ok t) : Nonempty (CSpec ord ds t) := by
  obtain ⟨g0, g, sts, acts, acts', h1, h2, h3, h4, h5⟩ := compile_spec h
  obtain ⟨s⟩ := generate_spec h5
  exact ⟨⟨g0, g, sts, acts, acts', h1, h2, h3, h4, s⟩⟩

theorem CSpec.ginv {ord} {ds : List Decl} {t : Tables} (s : CSpec ord ds t) (ho : OrdOk ord) : GInv s.g :=
  GInv.automaton s.decls ho s.auto

theorem CSpec.ginvT {ord} {ds : List Decl} {t : Tables} (s : CSpec ord ds t) (ho : OrdOk ord) : GInv s.gen.gT :=
  (s.ginv ho).shape s.gen.shape

theorem GInv.nt_le {g : Grammar} (h : GInv g) {s : SymbolId} (hs : s < g.syms.length) (hk : (g.sym s).kind = .nonTerminal) :
    g.numTerminals ≤ (g.sym s).index := ((h.nt s hs).1 hk).1

/-- Rule results and the error symbol are never mistaken for tokens. -/
theorem CSpec.ruleInfo_get {ord} {ds : List Decl} {t : Tables} (s : CSpec ord ds t) (r : Nat) :
    t.ruleInfo[r]? = if r < s.g.rules.length then some (s.g.sym (s.g.rule r).lhs).index else none := by
  have hr : s.gen.gT.rules = s.g.rules := (assignTypes_shape s.gen.assign).2.1
  rw [s.gen.ruleInfo, List.getElem?_map, hr]
  by_cases h : r < s.g.rules.length
  · rw [if_pos h]
    have : s.g.rules[r]? = some (s.g.rule r) := by simp [Grammar.rule, List.getElem?_eq_getElem h]
    rw [this, Option.map_some, s.gen.shape.index]
  · rw [if_neg h, List.getElem?_eq_none (by omega)]
    rfl

theorem assignTypes_append : ∀ {a b : List SymbolId} {g g' : Grammar} {ts ts' : List Ty},
    g.assignTypes ts (a ++ b) = .ok (g', ts') →
    ∃ g1 ts1, g.assignTypes ts a = .ok (g1, ts1) ∧ g1.assignTypes ts1 b = .ok (g', ts') := by
  intro a
  induction a with
  | nil => intro b g g' ts ts' h; exact ⟨g, ts, rfl, h⟩
  | cons s a ih =>
    intro b g g' ts ts' h
    rw [List.cons_append, Grammar.assignTypes] at h
    rw [Grammar.assignTypes]
    split at h
    · rename_i hw
      rw [if_pos hw]; exact ih h
    · rename_i hw
      rw [if_neg hw]
      split at h
      · cases h
      · exact ih h
      · exact ih h

/-- The tag of a type -/
def tagOf (types : List Ty) : Option Ty → Nat
  | none => 0
  | some t => types.idxOf t + 1

theorem tagOf_prefix {a b : List Ty} (h : a <+: b) {t : Option Ty} (ht : ∀ x, t = some x → x ∈ a) : tagOf b t = tagOf a t := by
  cases t with
  | none => rfl
  | some x =>
    obtain ⟨c, rfl⟩ := h
    simp only [tagOf]
    rw [List.idxOf_append, if_pos (ht x rfl)]

theorem tagOf_inj {types : List Ty} {t u : Option Ty} (ht : ∀ x, t = some x → x ∈ types) :
    tagOf types t = tagOf types u ↔ t = u := by
  constructor
  · intro h
    cases t with
    | none => cases u with
      | none => rfl
      | some y => simp [tagOf] at h
    | some x => cases u with
      | none => simp [tagOf] at h
      | some y =>
        simp only [tagOf, Nat.add_right_cancel_iff] at h
        rw [(List.idxOf_inj (ht x rfl)).1 h]
  · rintro rfl; rfl

/-- Effect of `assignTypes` on each symbol -/
theorem assignTypes_spec : ∀ {ss : List SymbolId} {g g' : Grammar} {ts ts' : List Ty},
    g.assignTypes ts ss = .ok (g', ts') → ts.Nodup → ss.Nodup →
    ts <+: ts' ∧ ts'.Nodup ∧ (∀ s, s ∉ ss → g'.sym s = g.sym s) ∧ (∀ s, g.wildcard = some s → g'.sym s = g.sym s) ∧
    (∀ s ∈ ss, s < g.syms.length → g.wildcard ≠ some s →
      (g'.sym s).dtNum = tagOf ts' (g'.sym s).dataType ∧ (∀ t, (g'.sym s).dataType = some t → t ∈ ts') ∧
      ∃ g1 : Grammar, g1.finalType s = .ok (g'.sym s).dataType ∧ (∀ x, x ∉ ss → g1.sym x = g.sym x) ∧
        (∀ x, g.wildcard = some x → g1.sym x = g.sym x) ∧
        g1.sym s = g.sym s ∧ g1.defaultType = g.defaultType) := by
  intro ss
  induction ss with
  | nil =>
    intro g g' ts ts' h hn _
    cases h
    exact ⟨List.prefix_refl _, hn, fun _ _ => rfl, fun _ _ => rfl, by simp⟩
  | cons a ss ih =>
    intro g g' ts ts' h hn hss
    obtain ⟨ha, hss⟩ := List.nodup_cons.1 hss
    unfold Grammar.assignTypes at h
    split at h
    · rename_i hw
      obtain ⟨h1, h2, h3, h4, h5⟩ := ih h hn hss
      refine ⟨h1, h2, fun s hs => h3 s (fun hh => hs (List.mem_cons_of_mem _ hh)), h4, ?_⟩
      intro s hs hl hne
      rcases List.mem_cons.1 hs with rfl | hs2
      · exact absurd hw hne
      · obtain ⟨b1, b2, g1, b3, b4, b5⟩ := h5 s hs2 hl hne
        exact ⟨b1, b2, g1, b3, fun x hx => b4 x (fun hh => hx (List.mem_cons_of_mem _ hh)), b5⟩
    · rename_i hw
      -- the common part of the two remaining cases
      have common : ∀ (dt : Option Ty) (ts2 : List Ty) (n : Nat), g.finalType a = .ok dt →
          (g.modifySym a (fun b => { b with dataType := dt, dtNum := n })).assignTypes ts2 ss = .ok (g', ts') →
          ts <+: ts2 → ts2.Nodup → n = tagOf ts2 dt → (∀ t, dt = some t → t ∈ ts2) →
          ts <+: ts' ∧ ts'.Nodup ∧ (∀ s, s ∉ a :: ss → g'.sym s = g.sym s) ∧ (∀ s, g.wildcard = some s → g'.sym s = g.sym s) ∧
          (∀ s ∈ a :: ss, s < g.syms.length → g.wildcard ≠ some s →
            (g'.sym s).dtNum = tagOf ts' (g'.sym s).dataType ∧ (∀ t, (g'.sym s).dataType = some t → t ∈ ts') ∧
            ∃ g1 : Grammar, g1.finalType s = .ok (g'.sym s).dataType ∧ (∀ x, x ∉ a :: ss → g1.sym x = g.sym x) ∧
              (∀ x, g.wildcard = some x → g1.sym x = g.sym x) ∧
              g1.sym s = g.sym s ∧ g1.defaultType = g.defaultType) := by
        intro dt ts2 n hf hrec hp hn2 hnum hin
        obtain ⟨h1, h2, h3, h4, h5⟩ := ih hrec hn2 hss
        refine ⟨hp.trans h1, h2, ?_, ?_, ?_⟩
        · intro s hs
          rw [h3 s (fun hh => hs (List.mem_cons_of_mem _ hh))]
          exact sym_modifySym_ne (by rintro rfl; exact hs List.mem_cons_self)
        · intro s hs
          rw [h4 s hs]
          exact sym_modifySym_ne (by rintro rfl; exact hw hs)
        · intro s hs hl hne
          rcases List.mem_cons.1 hs with rfl | hs2
          · rw [h3 s ha, sym_modifySym_same hl]
            refine ⟨?_, fun t ht => h1.subset (hin t ht), g, hf, fun _ _ => rfl, fun _ _ => rfl, rfl, rfl⟩
            simp only
            rw [hnum, tagOf_prefix h1 hin]
          · have hsa : s ≠ a := by rintro rfl; exact ha hs2
            obtain ⟨b1, b2, g1, b3, b4, b5, b6, b7⟩ := h5 s hs2 (by rw [length_modifySym]; exact hl) hne
            refine ⟨b1, b2, g1, b3, ?_, ?_, ?_, b7⟩
            · intro x hx
              rw [b4 x (fun hh => hx (List.mem_cons_of_mem _ hh))]
              exact sym_modifySym_ne (by rintro rfl; exact hx List.mem_cons_self)
            · intro x hx
              rw [b5 x hx]
              exact sym_modifySym_ne (by rintro rfl; exact hw hx)
            · rw [b6]; exact sym_modifySym_ne hsa
      split at h
      · cases h
      · rename_i hf
        exact common none ts 0 hf h (List.prefix_refl _) hn rfl (by simp)
      · rename_i t hf
        simp only at h
        by_cases hc : t ∈ ts
        · have hc2 : ts.contains t = true := by simpa using hc
          rw [if_pos hc2] at h
          exact common (some t) ts _ hf h (List.prefix_refl _) hn rfl (by simpa using hc)
        · have hc2 : ¬ ts.contains t = true := by simpa using hc
          rw [if_neg hc2] at h
          refine common (some t) (ts ++ [t]) _ hf h (List.prefix_append _ _) ?_ rfl (by simp)
          rw [List.nodup_append]
          refine ⟨hn, by simp, ?_⟩
          intro x hx y hy
          simp only [List.mem_singleton] at hy
          subst hy
          rintro rfl
          exact hc hx

end Pomelo
