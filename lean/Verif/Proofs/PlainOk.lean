import Verif.Proofs.Skel
import Verif.Proofs.EmbedGen
import Verif.Proofs.Early
import Verif.Props.Causes
/-!
# Without types and blocks the declarations are still accepted
-/

namespace Pomelo

open Spec

variable {ord : List (SymbolId × SymbolId) → List (SymbolId × SymbolId)} {ds : List Decl}

section
variable (ds : List Decl) (i : Ident)

theorem findSome?_plain {β : Type} (f : Decl → Option β) (ds : List Decl) : (plain ds).findSome? f = ds.findSome? fun d => d.plain.bind f := by
  induction ds with
  | nil => rfl
  | cons d ds ih =>
    simp only [plain, List.filterMap_cons, List.findSome?_cons] at ih ⊢
    cases d.plain with
    | none => simpa using ih
    | some d' =>
      simp only [List.findSome?_cons, Option.bind_some]
      rw [ih]

theorem plain_none {β : Type} {f : Decl → Option β} (h : ∀ d : Decl, d.plain.bind f = none) (ds : List Decl) : (plain ds).findSome? f = none := by
  rw [findSome?_plain, List.findSome?_eq_none_iff]
  exact fun d _ => h d

theorem plain_typeOf : typeOf (plain ds) i = none := plain_none (fun d => by cases d <;> rfl) ds
theorem plain_defaultType : defaultTypeOf (plain ds) = none := plain_none (fun d => by cases d <;> rfl) ds
theorem plain_extraToken : extraTokenOf (plain ds) = none := plain_none (fun d => by cases d <;> rfl) ds
theorem plain_tokenItem : tokenItemOf (plain ds) = none := plain_none (fun d => by cases d <;> rfl) ds
theorem plain_parserItem : parserItemOf (plain ds) = none := plain_none (fun d => by cases d <;> rfl) ds

theorem plain_wildcard : wildcardOf (plain ds) = wildcardOf ds := by
  unfold wildcardOf
  rw [findSome?_plain]
  congr 1
  funext d
  cases d <;> rfl

theorem plain_startDirective : startDirective (plain ds) = startDirective ds := by
  unfold startDirective
  rw [findSome?_plain]
  congr 1
  funext d
  cases d <;> rfl

theorem plain_isClass : isClass (plain ds) i = isClass ds i := by
  unfold isClass plain
  rw [List.any_filterMap]
  congr 1
  funext d
  cases d <;> rfl

theorem plain_rules : rulesOf (plain ds) = (rulesOf ds).map fun u => ⟨u.lhs, u.rhs.map RhsElem.plain, none, u.prec⟩ := by
  unfold rulesOf plain
  rw [List.filterMap_filterMap, List.map_filterMap]
  congr 1
  funext d
  cases d <;> rfl

theorem plain_startOf : startOf (plain ds) = startOf ds := by
  unfold startOf
  rw [plain_startDirective, plain_rules]
  congr 1
  cases rulesOf ds <;> rfl

theorem plain_typed : typedSym (plain ds) i = false := by
  unfold typedSym
  rw [plain_typeOf, plain_extraToken]
  simp

theorem plain_ownType : ownType (plain ds) i = none := by
  unfold ownType
  rw [plain_typeOf, plain_extraToken]
  split <;> rfl

theorem plain_plainType : plainType (plain ds) i = none := by
  unfold plainType
  rw [plain_ownType, plain_defaultType]
  split <;> rfl

theorem plain_firstType (is : List Ident) : firstType (plain ds) is = none := by
  unfold firstType
  rw [plain_defaultType]
  cases is.head? with
  | none => rfl
  | some j => simp [plain_plainType]

theorem plain_tokenType : tokenType (plain ds) i = none := by
  unfold tokenType
  rw [plain_firstType, plain_plainType]
  split
  · rfl
  · split <;> rfl

theorem plain_valueType (e : RhsElem) : valueType (plain ds) e = none := by
  unfold valueType
  split
  · exact plain_tokenType ds _
  · exact plain_firstType ds _
end

theorem mem_plain_rules {u : URule} (h : u ∈ rulesOf (plain ds)) : u.code = none ∧ ∃ v ∈ rulesOf ds, v.lhs = u.lhs ∧ u.rhs = v.rhs.map RhsElem.plain := by
  rw [plain_rules] at h
  obtain ⟨v, hv, rfl⟩ := List.mem_map.1 h
  exact ⟨rfl, v, hv, rfl, rfl⟩

theorem plain_uncoded : ¬ Uncoded (plain ds) := by
  rintro ⟨u, _, _, h, _⟩
  rw [plain_typed] at h
  cases h

theorem plain_startUsed (h : StartUsed (plain ds)) : StartUsed ds := by
  obtain ⟨s, h1, u, hu, e, he, h2⟩ := h
  obtain ⟨_, v, hv, _, h3⟩ := mem_plain_rules hu
  rw [h3] at he
  obtain ⟨e', he', rfl⟩ := List.mem_map.1 he
  exact ⟨s, by rw [← plain_startOf]; exact h1, v, hv, e', he', h2⟩

theorem plain_reached {i : Ident} (h : Reached (plain ds) i) : Reached ds i := by
  induction h with
  | start h => exact .start (by rw [← plain_startOf]; exact h)
  | elem hu _ he h ih =>
    obtain ⟨_, v, hv, h2, h3⟩ := mem_plain_rules hu
    rw [h3] at he
    obtain ⟨e', he', rfl⟩ := List.mem_map.1 he
    exact .elem hv (by rw [h2]; exact ih) he' h

theorem plain_missing (h : Missing (plain ds)) : Missing ds := by
  obtain ⟨u, hu, hr, e, he, i, h1, h2, h3, h4⟩ := h
  obtain ⟨_, v, hv, h5, h6⟩ := mem_plain_rules hu
  rw [h6] at he
  obtain ⟨e', he', rfl⟩ := List.mem_map.1 he
  refine ⟨v, hv, by rw [h5]; exact plain_reached hr, e', he', i, h1, h2, h3, fun w hw => ?_⟩
  refine h4 ⟨w.lhs, w.rhs.map RhsElem.plain, none, w.prec⟩ ?_
  rw [plain_rules]
  exact List.mem_map.2 ⟨w, hw, rfl⟩

theorem plain_wildUsed (h : WildUsed (plain ds)) : WildUsed ds := by
  obtain ⟨u, hu, e, he, hb, w, h1, h2⟩ := h
  obtain ⟨_, v, hv, h5, h6⟩ := mem_plain_rules hu
  rw [h6] at he
  obtain ⟨e', he', rfl⟩ := List.mem_map.1 he
  refine ⟨v, hv, e', he', ?_, w, by rw [← plain_wildcard]; exact h1, h2⟩
  unfold bound at hb ⊢
  rw [plain_typed] at hb
  simp only [RhsElem.plain, Bool.false_or, Bool.and_false, Bool.false_and, Bool.or_false] at hb
  rw [hb]
  simp

/-! ## No tags -/

/-- No token has a type. -/
structure Untyped (g : Grammar) : Prop where
  dflt : g.defaultType = none
  types : ∀ s, s < g.syms.length → (g.sym s).kind ≠ .nonTerminal → (g.sym s).dataType = none ∧ (g.sym s).dtNum = 0
  subs : ∀ s, s < g.syms.length → ∀ m ∈ (g.sym s).subs, m < g.syms.length ∧ (g.sym m).kind ≠ .nonTerminal

theorem Untyped.modify {g : Grammar} (u : Untyped g) {s : SymbolId} {f : Symbol → Symbol} (hk : ∀ b, (f b).kind = b.kind) (hs : ∀ b, (f b).subs = b.subs)
    (h : (g.sym s).kind ≠ .nonTerminal → (f (g.sym s)).dataType = none ∧ (f (g.sym s)).dtNum = 0) : Untyped (g.modifySym s f) := by
  have key : ∀ x, ((g.modifySym s f).sym x).kind = (g.sym x).kind ∧ ((g.modifySym s f).sym x).subs = (g.sym x).subs := by
    intro x
    rw [sym_modifySym]
    split
    · exact ⟨hk _, hs _⟩
    · exact ⟨rfl, rfl⟩
  refine ⟨u.dflt, fun x hx hxk => ?_, fun x hx m hm => ?_⟩
  · rw [length_modifySym] at hx
    rw [(key x).1] at hxk
    by_cases hxs : x = s
    · subst hxs
      rw [sym_modifySym_same hx]
      exact h hxk
    · rw [sym_modifySym_ne hxs]
      exact u.types x hx hxk
  · rw [length_modifySym] at hx ⊢
    rw [(key x).2] at hm
    rw [(key m).1]
    exact u.subs x hx m hm

theorem Untyped.final {g : Grammar} (u : Untyped g) {s : SymbolId} (hs : s < g.syms.length) (hk : (g.sym s).kind ≠ .nonTerminal) {t : Option Ty}
    (h : g.finalType s = .ok t) : t = none := by
  unfold Grammar.finalType at h
  simp only [u.dflt] at h
  cases hkk : (g.sym s).kind with
  | nonTerminal => exact absurd hkk hk
  | terminal =>
    rw [hkk] at h
    simp only [(u.types s hs hk).1] at h
    cases h; rfl
  | multiTerminal =>
    rw [hkk] at h
    cases hss : (g.sym s).subs with
    | nil => rw [hss] at h; cases h
    | cons f l =>
      rw [hss] at h
      simp only at h
      obtain ⟨h1, h2⟩ := u.subs s hs f (by rw [hss]; exact .head _)
      split at h
      · cases h
      · rw [(u.types f h1 h2).1] at h
        cases h; rfl

theorem Untyped.assign : ∀ {ss : List SymbolId} {g : Grammar} {types : List Ty} {x : Grammar × List Ty}, Untyped g → (∀ s ∈ ss, s < g.syms.length) →
    g.assignTypes types ss = .ok x → Untyped x.1
  | [], g, types, x, u, _, h => by cases h; exact u
  | s :: ss, g, types, x, u, hl, h => by
    unfold Grammar.assignTypes at h
    have hl' : ∀ y ∈ ss, y < g.syms.length := fun y hy => hl y (.tail _ hy)
    split at h
    · exact Untyped.assign u hl' h
    · split at h
      · cases h
      · refine Untyped.assign (u.modify (s := s) (f := fun b => { b with dataType := none, dtNum := 0 }) ?_ ?_ ?_) (by rw [length_modifySym]; exact hl') h
        · exact fun _ => rfl
        · exact fun _ => rfl
        · exact fun _ => ⟨rfl, rfl⟩
      · rename_i t ht
        refine Untyped.assign (u.modify ?_ ?_ ?_) (by rw [length_modifySym]; exact hl') h
        · exact fun _ => rfl
        · exact fun _ => rfl
        · intro hk
          cases u.final (hl s (.head _)) hk ht

theorem kind_of_tok {n : SymName} {k : SymKind} (h : kindOk n k = true) (hn : n.isTok = true) : k ≠ .nonTerminal := by
  rintro rfl
  cases n with
  | ident i => cases i <;> first | (cases hn; done) | (cases h; done)
  | _ => cases hn

theorem plain_untyped (ho : OrdOk ord) {g g' : Grammar} (b : Bridge0 ord ds g) (b' : Bridge0 ord (plain ds) g') (hi : GInv g') : Untyped g' := by
  have hD : b'.gD = b.gD.skel := by
    have h1 := parseDecls_skel b.parsed
    have h2 : Grammar.initial.skel = Grammar.initial := rfl
    rw [h2, b'.parsed] at h1
    exact Except.ok.inj h1
  refine ⟨?_, fun x hx hk => ?_, fun x hx m hm => ?_⟩
  · rw [b'.defaultType, hD]; rfl
  · have hxD : x < b'.gD.syms.length := b'.dropped hi hx (fun h => by
      have := hi.kinds x hx
      rw [h] at this
      cases hkk : (g'.sym x).kind <;> rw [hkk] at this hk <;> first | (exact hk rfl) | (cases this; done))
    have hn : ∀ o ∈ b'.gD.optionals, x ≠ o.2 := by
      rintro o h6 rfl
      obtain ⟨_, _, _, k, _, h7⟩ := b'.opt_name h6
      have := hi.kinds _ hx
      rw [b'.name hxD, h7] at this
      cases hkk : (g'.sym o.2).kind <;> rw [hkk] at this hk <;> first | (exact hk rfl) | (cases this; done)
    constructor
    · rw [b'.types, (b'.dataTypeP ho).2 x hxD hn, plain_extraToken]
      rw [hD, gsk_sym]
      split <;> rfl
    · have : (g'.sym x).dtNum = (b'.gD.sym x).dtNum := congrArg (·.2.2.2.2.2.2.1) (b'.keep x hxD)
      rw [this, hD, gsk_sym]
      rfl
  · obtain ⟨h1, h2⟩ := hi.subs x hx m hm
    exact ⟨h1, kind_of_tok (hi.kinds m h1) h2⟩

/-- Tags are no reason to refuse the grammar. -/
theorem Untyped.tags {g : Grammar} (u : Untyped g) (hi : GInv g) (hr : ∀ r ∈ g.rules, ∀ x ∈ r.rhs, x.sym < g.syms.length) {gT : Grammar} {types : List Ty}
    (h : g.assignTypes [] g.symbols = .ok (gT, types)) :
    (∃ l, gT.fallbackTable = .ok l) ∧ ∀ e, gT.rules.mapM gT.translateCode = .error e → e = .wildcardAlias := by
  have hlt : ∀ s ∈ g.symbols, s < g.syms.length := by
    intro s hs
    obtain ⟨k, hk, rfl⟩ := List.getElem_of_mem hs
    have := (hi.index k (by rw [← hi.slen]; exact hk)).1
    rwa [getD_of_lt hk] at this
  have uT := u.assign hlt h
  simp only at uT
  have hsh := (assignTypes_shape h).1
  have hiT := hi.shape hsh
  have hrules : gT.rules = g.rules := (assignTypes_shape h).2.1
  constructor
  · cases hfb : gT.fallbackTable with
    | ok l => exact ⟨l, rfl⟩
    | error e =>
      exfalso
      obtain ⟨_, p, hp, f, hf, q1, _⟩ := fallbackTable_err' hfb
      rw [hsh.symbols] at hp
      obtain ⟨h1, h2, _⟩ := hiT.fb p (by rw [hsh.len]; exact hlt p hp) f hf
      exact q1 (uT.types f h1 (kind_of_tok (hiT.kinds f h1) h2)).2
  · intro e he
    obtain ⟨r, hrm, hre⟩ := mapM_except_err he
    rcases translateCode_err' hre with ⟨rfl, x, hx, ha, hk, o, ho, hne⟩ | ⟨rfl, _⟩
    · exfalso
      have hx' : x.sym < gT.syms.length := by
        rw [hsh.len]
        exact hr r (by rw [← hrules]; exact hrm) x hx
      obtain ⟨h1, h2⟩ := uT.subs x.sym hx' o (List.mem_of_mem_drop ho)
      exact hne ((uT.types o h1 h2).2.trans (uT.types x.sym hx' (by rw [hk]; simp)).2.symm)
    · rfl

theorem Symbol.skel_skel (b : Symbol) : b.skel.skel = b.skel := rfl
theorem Rule.skel_skel (r : Rule) : r.skel.skel = r.skel := by
  unfold Rule.skel
  simp [Function.comp_def, RhsSym.skel]
theorem Grammar.skel_skel (g : Grammar) : g.skel.skel = g.skel := by
  have h1 : (g.syms.map Symbol.skel).map Symbol.skel = g.syms.map Symbol.skel := by simp [Function.comp_def, Symbol.skel_skel]
  have h2 : (g.rules.map Rule.skel).map Rule.skel = g.rules.map Rule.skel := by simp [Function.comp_def, Rule.skel_skel]
  unfold Grammar.skel
  simp only [h1, h2]

theorem plain_compile (ho : OrdOk ord) {t : Tables} (h : compile ord ds = .ok t) : ∃ t', compile ord (plain ds) = .ok t' := by
  obtain ⟨s⟩ := compile_cspec h
  obtain ⟨_, _, n2, n3, _, k1, ⟨k2, k3, k4⟩, k5, k6⟩ := C47_sure ho h
  have h0 := newFromDecls_skel s.decls
  obtain ⟨g', sts', h'⟩ : ∃ g' sts', s.g0.skel.automaton ord = .ok (g', sts') := by
    cases stage h0 ho with
    | uncoded k _ => exact absurd k plain_uncoded
    | startUsed _ k _ => exact absurd (plain_startUsed k) n2
    | missing _ _ k _ => exact absurd (plain_missing k) n3
    | ok _ _ _ h => exact ⟨_, _, h⟩
  have hsk := automaton_skel h'
  rw [Grammar.skel_skel, automaton_skel s.auto] at hsk
  obtain ⟨e1, rfl⟩ := Prod.mk.inj (Except.ok.inj hsk)
  have h2 : g'.findActions s.sts = .ok (s.acts, 0) := by
    rw [← findActions_skel, ← e1, findActions_skel]
    exact s.actions
  have h3 : g'.compressTables s.acts = .ok s.acts' := by
    rw [← compressTables_skel, ← e1, compressTables_skel]
    exact s.compress
  obtain ⟨dflt, u⟩ := upto ho h0 h' h2 h3
  obtain ⟨t', ht⟩ : ∃ t', g'.generate (g'.resortStates s.acts') = .ok t' := by
    cases ht : g'.generate (g'.resortStates s.acts') with
    | ok t' => exact ⟨t', rfl⟩
    | error e =>
      exfalso
      obtain ⟨b'⟩ := bridge ho h0 h'
      have hi' := GInv.automaton h0 ho h'
      obtain ⟨b⟩ := bridge ho s.decls s.auto
      have hT := fun {gT types} => (plain_untyped ho b.toBridge0 b'.toBridge0 hi').tags hi' (gT := gT) (types := types) (fun r hr x hx => by
        obtain ⟨k, hk, rfl⟩ := mem_rules hr
        exact (hi'.rhs k hk x.sym (List.mem_map.2 ⟨x, hx, rfl⟩)).1)
      have hno : e ≠ .fallbackType ∧ e ≠ .compoundType := by
        unfold Grammar.generate at ht
        by_cases hw : (match g'.wildcard with | some w => (g'.sym w).dataType.isSome | none => false) = true
        · have h5 := (if_pos hw).symm.trans ht
          cases h5; exact ⟨by simp, by simp⟩
        · replace ht := (if_neg hw).symm.trans ht
          split at ht
          · rename_i e' he
            cases ht
            rw [(assignTypes_err he).1]; exact ⟨by simp, by simp⟩
          · rename_i gT types hass
            obtain ⟨⟨fb, hfb⟩, hrc⟩ := hT hass
            have hci := checkItems_causes ((given h0 h').same (given_assignTypes hass))
            split at ht
            · rename_i e' he
              cases ht
              rw [he] at hci
              rcases hci with ⟨rfl, _⟩ | ⟨rfl, _⟩ | ⟨rfl, _⟩ <;> exact ⟨by simp, by simp⟩
            · split at ht
              · cases ht; exact ⟨by simp, by simp⟩
              · split at ht
                · rw [hfb] at ht
                  simp only at ht
                  split at ht
                  · rename_i e' he
                    cases ht
                    rw [hrc _ he]; exact ⟨by simp, by simp⟩
                  · cases ht
                · cases ht; exact ⟨by simp, by simp⟩
      rcases (generate_causes ho b'.toBridge0 (given h0 h') hi' _).err ht with
        ⟨_, h4⟩ | rfl | ⟨_, (⟨_, h4⟩ | ⟨_, _, h4⟩ | ⟨_, _, _, h4⟩) | h5 | h5 | ⟨_, h4⟩⟩
      · obtain ⟨w, _, h5⟩ := h4
        rw [plain_ownType] at h5; cases h5
      · obtain ⟨e, he⟩ := u.panic ht
        obtain ⟨y, hy, y1, y2, y3⟩ := assignTypes_err2 he
        have es : g'.symbols = s.g.symbols := (congrArg Grammar.symbols e1).symm
        have ew : g'.wildcard = s.g.wildcard := (congrArg Grammar.wildcard e1).symm
        have ey : (g'.sym y).skel = (s.g.sym y).skel := by rw [← gsk_sym, ← gsk_sym, e1]
        have ek : (g'.sym y).kind = (s.g.sym y).kind := by have := congrArg Symbol.kind ey; exact this
        have eu : (g'.sym y).subs = (s.g.sym y).subs := by have := congrArg Symbol.subs ey; exact this
        rw [es] at hy
        rw [ew] at y1
        rw [ek] at y2
        rw [eu] at y3
        have := assignTypes_ok s.gen.assign y hy y1 y2
        rcases y3 with h | h
        · exact this.1 h
        · exact this.2 h
      · obtain ⟨_, h5, _⟩ := h4
        rw [plain_tokenItem] at h5; cases h5
      · obtain ⟨_, h5, _⟩ := h4
        rw [plain_parserItem] at h5; cases h5
      · obtain ⟨_, h5, _⟩ := h4
        rw [plain_tokenItem] at h5; cases h5
      · exact hno.1 h5.1
      · exact hno.2 h5.1
      · exact k5 (plain_wildUsed h4)
  refine ⟨t', ?_⟩
  unfold compile
  simp only [h0, bind, Except.bind]
  unfold Grammar.build
  simp only [h', h2, h3, bind, Except.bind, Nat.lt_irrefl, gt_iff_lt, if_false]
  exact ht

end Pomelo
