import Verif.Proofs.Early
import Verif.Proofs.Given
import Verif.Proofs.Unnum
import Verif.Proofs.Variant
/-! # The errors of `generate`, in terms of the declarations -/

namespace Pomelo

open Spec

/-- The symbol `X` is recorded for the element `e`, or for `e` without its `?`. -/
def Direct (g : Grammar) (e : RhsElem) (X : SymbolId) : Prop :=
  (∃ tok, e.toks = [tok] ∧ (g.sym X).name = .ident tok) ∨
  ((∀ tok, e.toks ≠ [tok]) ∧ (g.sym X).name = .anon ∧
    List.Forall₂ (fun s id => s < g.syms.length ∧ (g.sym s).name = .ident id) (g.sym X).subs e.toks)

theorem forall₂_names {g : Grammar} {ss : List SymbolId} {ids : List Ident}
    (h : List.Forall₂ (fun s id => s < g.syms.length ∧ (g.sym s).name = .ident id) ss ids) :
    ss.map (fun m => (g.sym m).name) = ids.map SymName.ident := by
  induction h with
  | nil => rfl
  | cons h _ ih => simp only [List.map_cons, h.2, ih]

theorem forall₂_drop1 {α β : Type} {R : α → β → Prop} {l : List α} {l' : List β} (h : List.Forall₂ R l l') :
    List.Forall₂ R (l.drop 1) (l'.drop 1) := by
  cases h with
  | nil => exact .nil
  | cons _ h => simpa using h

namespace Bridge0
variable {ord : List (SymbolId × SymbolId) → List (SymbolId × SymbolId)} {ds : List Decl} {g : Grammar}

/-- The places of the final rules whose value is used -/
theorem bound_of_alias (ho : OrdOk ord) (b : Bridge0 ord ds g) {r : RuleId} (hr : r < g.rules.length) {x : RhsSym} (hx : x ∈ (g.rule r).rhs)
    (ha : x.alias = true) : x.sym < b.gD.syms.length ∧
    ((∃ o ∈ b.gD.optionals, x.sym = o.2) ∨ ∃ u ∈ rulesOf ds, ∃ e ∈ u.rhs, bound ds u e = true ∧ Direct b.gD e x.sym) := by
  by_cases hlt : r < (rulesOf ds).length
  · obtain ⟨u, hu⟩ : ∃ u, (rulesOf ds)[r]? = some u := ⟨_, List.getElem?_eq_getElem hlt⟩
    obtain ⟨w1, w2, w3, w4, w5, w6⟩ := b.written ho hu
    obtain ⟨j, hj⟩ := List.mem_iff_getElem?.1 hx
    have hxs : (g.rhsSyms r)[j]? = some x.sym := by unfold Grammar.rhsSyms; rw [List.getElem?_map, hj]; rfl
    have hxa : ((g.rule r).rhs.map (·.alias))[j]? = some true := by rw [List.getElem?_map, hj, ← ha]; rfl
    obtain ⟨e, he, hes⟩ : ∃ e, u.rhs[j]? = some e ∧ ElemSym b.gD e x.sym := by
      rcases forall₂_getElem? w4 j with ⟨_, h6⟩ | ⟨e', y, h6, h7, h8⟩
      · rw [hxs] at h6; cases h6
      · rw [hxs] at h7; cases h7; exact ⟨e', h6, h8⟩
    refine ⟨w5 _ (List.mem_of_getElem? hxs), ?_⟩
    have hb : bound ds u e = true := by
      unfold bound
      rcases w6 with ⟨n, _, _, h3⟩ | ⟨_, _, _, h3⟩ | ⟨h1, h2, _, h3, _⟩
      · rw [h3, List.getElem?_map, he] at hxa
        simp only [Option.map_some, Option.some.injEq] at hxa
        simp [hxa]
      · rw [h3, List.getElem?_map, he] at hxa
        simp only [Option.map_some, Option.some.injEq] at hxa
        simp [hxa]
      · rw [h3, List.getElem?_map, he] at hxa
        simp only [Option.map_some, Option.some.injEq] at hxa
        simp [hxa, h1, h2]
    rcases hes with ⟨tok, t1, _, t3⟩ | ⟨tok, symR, _, _, _, t4, _⟩ | h
    · exact .inr ⟨u, List.mem_of_getElem? hu, e, List.mem_of_getElem? he, hb, .inl ⟨tok, t1, t3⟩⟩
    · exact .inl ⟨_, t4, rfl⟩
    · exact .inr ⟨u, List.mem_of_getElem? hu, e, List.mem_of_getElem? he, hb, .inr h⟩
  · obtain ⟨o, o1, _, o3⟩ := b.unwritten ho hr (Nat.le_of_not_lt hlt)
    rcases o3 with ⟨o3, _⟩ | ⟨o3, _⟩
    · rw [o3] at hx; cases hx
    · rw [o3, List.mem_singleton] at hx
      subst hx
      obtain ⟨u, hu, e, he, e1, tok, e2, e3⟩ := b.opt_ident o1
      refine ⟨(b.opt_name o1).1, .inr ⟨u, hu, e, he, ?_, .inl ⟨tok, e2, e3⟩⟩⟩
      unfold bound
      simp [e1, e2]

theorem alias_of_bound (ho : OrdOk ord) (b : Bridge0 ord ds g) {u : URule} (hu : u ∈ rulesOf ds) {e : RhsElem} (he : e ∈ u.rhs)
    (hb : bound ds u e = true) :
    ∃ r, r < g.rules.length ∧ ∃ x ∈ (g.rule r).rhs, x.alias = true ∧ x.sym < b.gD.syms.length ∧ Direct b.gD e x.sym := by
  obtain ⟨r, hr⟩ := List.mem_iff_getElem?.1 hu
  obtain ⟨j, hj⟩ := List.mem_iff_getElem?.1 he
  obtain ⟨w1, w2, w3, w4, w5, w6⟩ := b.written ho hr
  obtain ⟨X, hX, hes⟩ : ∃ X, (g.rhsSyms r)[j]? = some X ∧ ElemSym b.gD e X := by
    rcases forall₂_getElem? w4 j with ⟨h6, _⟩ | ⟨e', y, h6, h7, h8⟩
    · rw [hj] at h6; cases h6
    · rw [hj] at h6; cases h6; exact ⟨y, h7, h8⟩
  obtain ⟨x, hx, hxX⟩ : ∃ x, (g.rule r).rhs[j]? = some x ∧ x.sym = X := by
    unfold Grammar.rhsSyms at hX
    rw [List.getElem?_map] at hX
    exact Option.map_eq_some_iff.1 hX
  have plain : ¬ (e.optional = true ∧ e.toks.length = 1) → x.alias = true := by
    intro hno
    have hal : ∀ {f : RhsElem → Bool}, (g.rule r).rhs.map (·.alias) = u.rhs.map f → x.alias = f e := by
      intro f hf
      have h1 : ((g.rule r).rhs.map (·.alias))[j]? = some x.alias := by rw [List.getElem?_map, hx]; rfl
      rw [hf, List.getElem?_map, hj] at h1
      simpa using h1.symm
    unfold bound at hb
    rw [Bool.or_eq_true, Bool.or_eq_true, Bool.and_eq_true, Bool.and_eq_true, Bool.and_eq_true, beq_iff_eq] at hb
    rcases w6 with ⟨n, h1, _, h3⟩ | ⟨h1, h2, _, h3⟩ | ⟨h1, h2, _, h3, _, h5⟩
    · rw [hal h3]
      rcases hb with (hb | hb) | hb
      · exact hb
      · exact absurd hb hno
      · rw [h1] at hb; cases hb.1.1
    · rw [hal h3]
      rcases hb with (hb | hb) | hb
      · exact hb
      · exact absurd hb hno
      · rw [h2] at hb; cases hb.1.2
    · rw [hal h3]
      rcases hb with (hb | hb) | hb
      · rw [h5 e he] at hb; cases hb
      · exact absurd hb hno
      · exact hb.2
  have hXD := w5 X (List.mem_of_getElem? hX)
  rcases hes with ⟨tok, t1, t2, t3⟩ | ⟨tok, symR, t1, t2, t3, t4, t5⟩ | h
  · exact ⟨r, w1, x, List.mem_of_getElem? hx, plain (by rw [t2]; simp), by rw [hxX]; exact hXD, .inl ⟨tok, t1, by rw [hxX]; exact t3⟩⟩
  · obtain ⟨r2, q1, _, _, q4, _⟩ := (b.opt_rules ho t4).2
    exact ⟨r2, q1, ⟨symR, true⟩, by rw [q4]; simp, rfl, t3, .inl ⟨tok, t1, t5⟩⟩
  · refine ⟨r, w1, x, List.mem_of_getElem? hx, plain ?_, by rw [hxX]; exact hXD, .inr (by rw [hxX]; exact h)⟩
    rintro ⟨_, hl⟩
    obtain ⟨i, hi⟩ := List.length_eq_one_iff.1 hl
    exact h.1 i hi

/-- Whether the wildcard has a type -/
theorem wildTyped_iff (ho : OrdOk ord) (b : Bridge0 ord ds g) (hi : GInv g) :
    (∃ w, g.wildcard = some w ∧ (g.sym w).dataType.isSome = true) ↔ WildTyped ds := by
  have named : ∀ {w : SymbolId}, g.wildcard = some w → ∃ i, w < b.gD.syms.length ∧ (b.gD.sym w).name = .ident i ∧ wildcardOf ds = some i := by
    intro w hw
    obtain ⟨h1, h2⟩ := hi.wild w hw
    have hD : w < b.gD.syms.length := b.dropped hi h1 (by intro h; rw [h] at h2; cases h2)
    rw [b.name hD] at h2
    obtain ⟨i, hn⟩ : ∃ i, (b.gD.sym w).name = .ident i := by
      cases hn : (b.gD.sym w).name with
      | ident i => exact ⟨i, rfl⟩
      | _ => rw [hn] at h2; cases h2
    exact ⟨i, hD, hn, (b.wild_name hD hn).1 hw⟩
  constructor
  · rintro ⟨w, hw, ht⟩
    obtain ⟨i, h1, h2, h3⟩ := named hw
    exact ⟨i, h3, by rw [← b.ownType ho h1 h2]; exact ht⟩
  · rintro ⟨i, hi2, ht⟩
    have h1 := b.decl.wildcard
    rw [hi2, ← b.wildcard] at h1
    cases hw : g.wildcard with
    | none => rw [hw] at h1; cases h1
    | some w =>
      obtain ⟨j, h2, h3, h4⟩ := named hw
      rw [hi2] at h4
      cases h4
      exact ⟨w, rfl, by rw [b.ownType ho h2 h3]; exact ht⟩

section
variable {gT : Grammar} {types : List Ty}

theorem wildTag (b : Bridge0 ord ds g) (hi : GInv g) (hass : g.assignTypes [] g.symbols = .ok (gT, types)) {x : SymbolId} (hx : x < b.gD.syms.length)
    (hw : g.wildcard = some x) : (gT.sym x).dtNum = 0 ∧ (gT.sym x).dataType = (g.sym x).dataType := by
  obtain ⟨_, _, _, h4, _⟩ := assignTypes_spec hass List.nodup_nil hi.symbols_nodup
  rw [h4 x hw]
  have : (g.sym x).dtNum = (b.gD.sym x).dtNum := congrArg (·.2.2.2.2.2.2.1) (b.keep x hx)
  rw [this]
  exact ⟨(unnum_parsed b.parsed).sym x, rfl⟩

theorem plainTag' (ho : OrdOk ord) (b : Bridge0 ord ds g) (hi : GInv g) (hass : g.assignTypes [] g.symbols = .ok (gT, types)) {x : SymbolId} {i : Ident}
    (hx : x < b.gD.syms.length) (hn : (b.gD.sym x).name = .ident i) (hc : isClass ds i = false) (hw : wildcardOf ds ≠ some i) :
    (gT.sym x).dataType = plainType ds i ∧ (gT.sym x).dtNum = tagOf types (plainType ds i) ∧ ∀ T, plainType ds i = some T → T ∈ types := by
  have hk : (g.sym x).kind ≠ .multiTerminal := by
    rw [b.kind hx]
    intro h
    have := (b.decl.sym b.dinv hx hn).2.1.1 h
    rw [hc] at this; cases this
  obtain ⟨h1, h2, h3⟩ := assigned_plain hass hi (b.lt_of_gD hx) hk (fun h => hw ((b.wild_name hx hn).1 h))
  have hp : (gT.sym x).dataType = plainType ds i := by
    rw [h1, b.ownType ho hx hn, b.defaultType, b.decl.defaultType]
    unfold plainType
    rw [if_neg hw]
  rw [hp] at h2 h3
  exact ⟨hp, h2, h3⟩

theorem classTag' (ho : OrdOk ord) (b : Bridge0 ord ds g) (hi : GInv g) (hass : g.assignTypes [] g.symbols = .ok (gT, types))
    (hnt : ¬ WildTyped ds) {Y : SymbolId} {ids : List Ident} (hY : Y < b.gD.syms.length)
    (hk : (b.gD.sym Y).kind = .multiTerminal) (hw : g.wildcard ≠ some Y)
    (hs : (b.gD.sym Y).subs.map (fun m => (b.gD.sym m).name) = ids.map SymName.ident) (hfl : ∀ i ∈ ids, isClass ds i = false) :
    (gT.sym Y).dtNum = tagOf types (firstType ds ids) ∧ ∀ T, firstType ds ids = some T → T ∈ types := by
  have hYl := b.lt_of_gD hY
  have hk' : (g.sym Y).kind = .multiTerminal := by rw [b.kind hY, hk]
  have hne : (g.sym Y).subs ≠ [] := by
    obtain ⟨_, _, _, _, h5⟩ := assignTypes_spec hass List.nodup_nil hi.symbols_nodup
    obtain ⟨h1, h2, g1, h3, _, _, h6, h7⟩ := h5 Y (hi.mem_symbols hYl) hYl hw
    intro he
    unfold Grammar.finalType at h3
    rw [h6] at h3
    simp only [hk', he] at h3
    cases h3
  rw [b.subs hY] at hne
  cases hsub : (b.gD.sym Y).subs with
  | nil => exact absurd hsub hne
  | cons f l =>
    have hfm : f ∈ (b.gD.sym Y).subs := by rw [hsub]; exact List.mem_cons_self
    have hf := (b.dinv.subs Y hY f hfm).1
    rw [hsub] at hs
    cases ids with
    | nil => cases hs
    | cons i ids =>
      simp only [List.map_cons, List.cons.injEq] at hs
      obtain ⟨hn, _⟩ := hs
      have hcl := hfl i List.mem_cons_self
      have hsub' : (g.sym Y).subs.head? = some f := by rw [b.subs hY, hsub]; rfl
      have hft : (g.sym f).kind = .terminal := by
        have h1 := (hi.subs Y hYl f (by rw [b.subs hY]; exact hfm)).2
        have h2 := hi.kinds f (b.lt_of_gD hf)
        have h3 : (g.sym f).kind ≠ .multiTerminal := by
          rw [b.kind hf]
          intro h
          have := (b.decl.sym b.dinv hf hn).2.1.1 h
          rw [hcl] at this; cases this
        rw [b.name hf, hn] at h1 h2
        revert h1 h2 h3
        cases i <;> cases (g.sym f).kind <;> simp [SymName.isTok, kindOk]
      obtain ⟨h1, h2, h3⟩ := assigned_class hass hi hYl hk' hw hsub' hft
      have hty : (gT.sym Y).dataType = firstType ds (i :: ids) := by
        rw [h1, b.defaultType, b.decl.defaultType]
        unfold firstType
        simp only [List.head?_cons, Option.bind_some]
        by_cases hwi : wildcardOf ds = some i
        · have hwf := (b.wild_name hf hn).2 hwi
          have h4 := (b.wildTag hi hass hf hwf).2
          have h5 : (g.sym f).dataType = none := by
            cases h6 : (g.sym f).dataType with
            | none => rfl
            | some T => exact absurd ((b.wildTyped_iff ho hi).1 ⟨f, hwf, by rw [h6]; rfl⟩) hnt
          rw [h4, h5]
          unfold plainType
          rw [if_pos hwi]
        · rw [(b.plainTag' ho hi hass hf hn hcl hwi).1]
      rw [hty] at h2 h3
      exact ⟨h2, h3⟩

/-- The tag of a named symbol -/
theorem namedTag (ho : OrdOk ord) (b : Bridge0 ord ds g) (hi : GInv g) (hass : g.assignTypes [] g.symbols = .ok (gT, types))
    (hnt : ¬ WildTyped ds) (hfl : Spec.flat ds = true) {x : SymbolId} {i : Ident} (hx : x < b.gD.syms.length) (hn : (b.gD.sym x).name = .ident i) :
    (gT.sym x).dtNum = tagOf types (tokenType ds i) ∧ ∀ T, tokenType ds i = some T → T ∈ types := by
  unfold tokenType
  by_cases hw : wildcardOf ds = some i
  · rw [if_pos hw]
    exact ⟨(b.wildTag hi hass hx ((b.wild_name hx hn).2 hw)).1, by intro T h; cases h⟩
  · rw [if_neg hw]
    cases hc : isClass ds i with
    | true =>
      simp only [if_true]
      obtain ⟨_, hm, hs, _, _⟩ := b.decl.sym b.dinv hx hn
      exact b.classTag' ho hi hass hnt hx (hm.2 hc) (fun h => hw ((b.wild_name hx hn).1 h)) hs (fun j hj => flat_class hfl hj)
    | false =>
      simp only [Bool.false_eq_true, if_false]
      exact (b.plainTag' ho hi hass hx hn hc hw).2

theorem directTag (ho : OrdOk ord) (b : Bridge0 ord ds g) (hi : GInv g) (hass : g.assignTypes [] g.symbols = .ok (gT, types))
    (hnt : ¬ WildTyped ds) (hfl : Spec.flat ds = true) {u : URule} (hu : u ∈ rulesOf ds) {e : RhsElem} (he : e ∈ u.rhs)
    {X : SymbolId} (hX : X < b.gD.syms.length) (hd : Direct b.gD e X) :
    ((gT.sym X).dtNum = tagOf types (valueType ds e) ∧ ∀ T, valueType ds e = some T → T ∈ types) ∧
    ((g.sym X).kind = .multiTerminal → List.Forall₂ (fun s id => s < b.gD.syms.length ∧ (b.gD.sym s).name = .ident id) (g.sym X).subs (elemTokens ds e)) ∧
    ((elemTokens ds e).drop 1 ≠ [] → (g.sym X).kind = .multiTerminal) := by
  rcases hd with ⟨tok, h1, h2⟩ | ⟨h1, h2, h3⟩
  · have hv : valueType ds e = tokenType ds tok := by unfold valueType; rw [h1]
    rw [hv]
    refine ⟨b.namedTag ho hi hass hnt hfl hX h2, ?_⟩
    obtain ⟨_, hm, hs, _, _⟩ := b.decl.sym b.dinv hX h2
    unfold elemTokens
    rw [h1]
    simp only
    rw [b.kind hX, b.subs hX]
    cases hc : isClass ds tok with
    | true =>
      simp only [if_true]
      refine ⟨fun _ => ?_, fun _ => hm.2 hc⟩
      have hl := b.dinv.subs X hX
      revert hs hl
      generalize (b.gD.sym X).subs = ss
      generalize classMembers ds tok = ids
      induction ss generalizing ids with
      | nil => intro hs _; cases ids with
        | nil => exact .nil
        | cons _ _ => cases hs
      | cons s ss ih =>
        intro hs hl
        cases ids with
        | nil => cases hs
        | cons i ids =>
          simp only [List.map_cons, List.cons.injEq] at hs
          exact .cons ⟨(hl s List.mem_cons_self).1, hs.1⟩ (ih ids hs.2 (fun m hm => hl m (List.mem_cons_of_mem _ hm)))
    | false =>
      simp only [Bool.false_eq_true, if_false]
      refine ⟨fun h => ?_, fun h => ?_⟩
      · have := hm.1 h; rw [hc] at this; cases this
      · split at h <;> simp at h
  · have hk : (b.gD.sym X).kind = .multiTerminal := by
      have := b.dinv.kinds _ hX
      rw [h2] at this
      cases hk : (b.gD.sym X).kind <;> rw [hk] at this <;> simp [kindOk] at this ⊢
    have hv : valueType ds e = firstType ds e.toks := by
      unfold valueType
      split
      · rename_i i hi'; exact absurd hi' (h1 i)
      · rfl
    have ht : elemTokens ds e = e.toks := by
      unfold elemTokens
      split
      · rename_i i hi'; exact absurd hi' (h1 i)
      · rfl
    rw [hv, ht]
    have hwild : g.wildcard ≠ some X := by
      intro h
      have := (hi.wild X h).2
      rw [b.name hX, h2] at this; cases this
    refine ⟨b.classTag' ho hi hass hnt hX hk hwild (forall₂_names h3) ?_, ?_, ?_⟩
    · intro i hi'
      unfold Spec.flat at hfl
      rw [Bool.and_eq_true] at hfl
      have h4 := List.all_eq_true.1 (List.all_eq_true.1 hfl.2 u hu) e he
      split at h4
      · rename_i i' h; exact absurd h (h1 i')
      · simpa using List.all_eq_true.1 h4 i hi'
    · intro _; rw [b.subs hX]; exact h3
    · intro _; rw [b.kind hX, hk]

/-- The fallbacks, by names -/
theorem fallback_named (b : Bridge0 ord ds g) (hi : GInv g) {p f : SymbolId} (hp : p < g.syms.length) (hf : (g.sym p).fallback = some f) :
    ∃ i j, p < b.gD.syms.length ∧ f < b.gD.syms.length ∧ (b.gD.sym p).name = .ident i ∧ (b.gD.sym f).name = .ident j ∧ fallbackOf ds i = some j := by
  obtain ⟨h1, h2, h3⟩ := hi.fb p hp f hf
  have hpD : p < b.gD.syms.length := b.dropped hi hp (by intro h; rw [h] at h3; cases h3)
  have hfD : f < b.gD.syms.length := b.dropped hi h1 (by intro h; rw [h] at h2; cases h2)
  rw [b.name hpD] at h3
  rw [b.name hfD] at h2
  obtain ⟨i, hni⟩ : ∃ i, (b.gD.sym p).name = .ident i := by
    cases hn : (b.gD.sym p).name with
    | ident i => exact ⟨i, rfl⟩
    | _ => rw [hn] at h3; cases h3
  obtain ⟨j, hnj⟩ : ∃ i, (b.gD.sym f).name = .ident i := by
    cases hn : (b.gD.sym f).name with
    | ident i => exact ⟨i, rfl⟩
    | _ => rw [hn] at h2; cases h2
  refine ⟨i, j, hpD, hfD, hni, hnj, ?_⟩
  have h4 := (b.decl.sym b.dinv hpD hni).2.2.2.1
  rw [← b.fallback hpD, hf] at h4
  simp only [Option.map_some, hnj] at h4
  cases hfo : fallbackOf ds i with
  | none => rw [hfo] at h4; cases h4
  | some j' => rw [hfo] at h4; simp at h4; rw [h4]

end

end Bridge0

theorem fallbackTable_err' {g : Grammar} {e : GErr} (h : g.fallbackTable = .error e) :
    e = .fallbackType ∧ ∃ p ∈ g.symbols, ∃ f, (g.sym p).fallback = some f ∧ (g.sym f).dtNum ≠ 0 ∧ (g.sym f).dtNum ≠ (g.sym p).dtNum := by
  refine ⟨fallbackTable_err h, ?_⟩
  unfold Grammar.fallbackTable at h
  obtain ⟨p, hp, hp2⟩ := mapM_except_err h
  split at hp2
  · cases hp2
  · rename_i f hf
    split at hp2
    · cases hp2
    · rename_i hn
      rw [not_or] at hn
      exact ⟨p, List.mem_of_mem_take hp, f, hf, hn.1, hn.2⟩

theorem translateCode_err' {g : Grammar} {r : Rule} {e : GErr} (h : g.translateCode r = .error e) :
    (e = .compoundType ∧ ∃ x ∈ r.rhs, x.alias = true ∧ (g.sym x.sym).kind = .multiTerminal ∧ ∃ o ∈ (g.sym x.sym).subs.drop 1,
      (g.sym o).dtNum ≠ (g.sym x.sym).dtNum) ∨ (e = .wildcardAlias ∧ ∃ x ∈ r.rhs, x.alias = true ∧ g.wildcard = some x.sym) := by
  unfold Grammar.translateCode at h
  split at h
  · rename_i hc
    cases h
    rw [List.any_eq_true] at hc
    obtain ⟨x, hx, hc⟩ := hc
    rw [Bool.and_eq_true, Bool.and_eq_true, List.any_eq_true] at hc
    obtain ⟨⟨h1, h2⟩, o, ho, h3⟩ := hc
    exact .inl ⟨rfl, x, hx, h1, by simpa using h2, o, ho, by simpa using h3⟩
  · split at h
    · rename_i hc
      cases h
      rw [List.any_eq_true] at hc
      obtain ⟨x, hx, hc⟩ := hc
      rw [Bool.and_eq_true] at hc
      exact .inr ⟨rfl, x, hx, hc.1, by simpa using hc.2⟩
    · cases h

theorem checkItems_of {ds : List Decl} {g : Grammar} (ht : g.tokenEnum = tokenItemOf ds) (hp : g.parserStruct = parserItemOf ds) :
    match g.checkItems with
    | .ok () => ¬ TokenFull ds ∧ ¬ ParserFull ds ∧ ¬ ParamMissing ds
    | .error e => (e = .tokenNotEmpty ∧ TokenFull ds) ∨ (e = .parserNotEmpty ∧ ¬ TokenFull ds ∧ ParserFull ds) ∨
        (e = .paramMissing ∧ ¬ TokenFull ds ∧ ¬ ParserFull ds ∧ ParamMissing ds) := by
  unfold Grammar.checkItems TokenFull ParserFull ParamMissing
  rw [ht, hp]
  cases h1 : tokenItemOf ds with
  | none =>
    cases h2 : parserItemOf ds with
    | none => simp [Skeleton.defaultParser]
    | some par =>
      simp only [Option.getD_none, Option.getD_some]
      by_cases h3 : par.fields = 0 <;> simp [h3]
  | some tok =>
    by_cases h0 : tok.fields = 0
    swap
    · simp [h0]
    cases h2 : parserItemOf ds with
    | none =>
      have key : (tok.params.any fun p => !(tok.params.map fun p => ({ p with dflt := none } : Param)).contains p) = true ↔ ∃ p ∈ tok.params, p.dflt ≠ none := by
        rw [List.any_eq_true]
        constructor
        · rintro ⟨p, hp, h⟩
          refine ⟨p, hp, fun hd => ?_⟩
          rw [Bool.not_eq_true', ← Bool.not_eq_true, List.contains_iff_mem] at h
          exact h (List.mem_map.2 ⟨p, hp, by rw [← hd]⟩)
        · rintro ⟨p, hp, h⟩
          refine ⟨p, hp, ?_⟩
          rw [Bool.not_eq_true', ← Bool.not_eq_true, List.contains_iff_mem]
          intro hm
          obtain ⟨q, _, rfl⟩ := List.mem_map.1 hm
          exact h rfl
      simp only [Option.getD_some, Option.getD_none, Skeleton.defaultParser, h0]
      by_cases h4 : (tok.params.any fun p => !(tok.params.map fun p => ({ p with dflt := none } : Param)).contains p) = true
      · have := key.1 h4
        simp only [h4]
        simpa [h0] using this
      · have := fun h => h4 (key.2 h)
        simp only [h4]
        simpa [h0] using this
    | some par =>
      simp only [Option.getD_some, h0]
      by_cases h3 : par.fields = 0
      swap
      · simp [h0, h3]
      by_cases h4 : (tok.params.any fun p => !par.params.contains p) = true
      · simp only [h3, h4]
        simpa [h0, h3] using h4
      · simp only [h3, h4]
        simpa [h0, h3] using h4

theorem checkItems_causes {ds : List Decl} {g : Grammar} (hg : Given g ds) :
    match g.checkItems with
    | .ok () => ¬ TokenFull ds ∧ ¬ ParserFull ds ∧ ¬ ParamMissing ds
    | .error e => (e = .tokenNotEmpty ∧ TokenFull ds) ∨ (e = .parserNotEmpty ∧ ¬ TokenFull ds ∧ ParserFull ds) ∨
        (e = .paramMissing ∧ ¬ TokenFull ds ∧ ¬ ParserFull ds ∧ ParamMissing ds) := checkItems_of hg.tokenEnum hg.parserStruct

/-- What `generate` finds wrong with the types -/
structure GenCauses (ds : List Decl) (res : Except GErr Tables) : Prop where
  typed : WildTyped ds → res = .error .wildcardTyped
  err : ∀ {e}, res = .error e → (e = .wildcardTyped ∧ WildTyped ds) ∨ e = .panic ∨ (¬ WildTyped ds ∧
    (((e = .tokenNotEmpty ∧ TokenFull ds) ∨ (e = .parserNotEmpty ∧ ¬ TokenFull ds ∧ ParserFull ds) ∨
        (e = .paramMissing ∧ ¬ TokenFull ds ∧ ¬ ParserFull ds ∧ ParamMissing ds)) ∨
     (e = .fallbackType ∧ (flat ds = true → FallbackTyped ds)) ∨ (e = .compoundType ∧ (flat ds = true → Mixed ds)) ∨
     (e = .wildcardAlias ∧ WildUsed ds)))
  ok : ∀ {t}, res = .ok t → ¬ WildTyped ds ∧ (¬ TokenFull ds ∧ ¬ ParserFull ds ∧ ¬ ParamMissing ds) ∧ ¬ WildUsed ds ∧ (flat ds = true → ¬ FallbackTyped ds ∧ ¬ Mixed ds)

theorem generate_causes {ord} (ho : OrdOk ord) {ds : List Decl} {g : Grammar} (b : Bridge0 ord ds g) (hg : Given g ds) (hi : GInv g) (sts : List RState) :
    GenCauses ds (g.generate sts) := by
  have hwt := b.wildTyped_iff ho hi
  by_cases hW : WildTyped ds
  · have : g.generate sts = .error .wildcardTyped := by
      obtain ⟨w, h1, h2⟩ := hwt.2 hW
      unfold Grammar.generate
      rw [if_pos (by rw [h1]; exact h2)]
    rw [this]
    exact ⟨fun _ => rfl, fun h => by cases h; exact .inl ⟨rfl, hW⟩, fun h => by cases h⟩
  · have hgen : g.generate sts = .error .panic ∨ ∃ gT types, g.assignTypes [] g.symbols = .ok (gT, types) ∧
        ((∃ e, gT.checkItems = .error e ∧ g.generate sts = .error e) ∨ gT.checkItems = .ok () ∧
         ((∃ e, gT.fallbackTable = .error e ∧ g.generate sts = .error e) ∨
         (∃ fb, gT.fallbackTable = .ok fb ∧ ((∃ e, gT.rules.mapM gT.translateCode = .error e ∧ g.generate sts = .error e) ∨
            (∃ rc, gT.rules.mapM gT.translateCode = .ok rc ∧ ∃ t, g.generate sts = .ok t))))) := by
      unfold Grammar.generate
      rw [if_neg (by
        intro h
        apply hW
        apply hwt.1
        cases hw : g.wildcard with
        | none => rw [hw] at h; cases h
        | some w => rw [hw] at h; exact ⟨w, rfl, h⟩)]
      cases hass : g.assignTypes [] g.symbols with
      | error e => rw [(assignTypes_err hass).1]; exact .inl rfl
      | ok p =>
        obtain ⟨gT, types⟩ := p
        simp only
        cases hit : gT.checkItems with
        | error e => exact .inr ⟨gT, types, rfl, .inl ⟨e, hit, rfl⟩⟩
        | ok v =>
        simp only
        cases hp : gT.pack sts with
        | none => exact .inl rfl
        | some p =>
          simp only
          split
          · right
            refine ⟨gT, types, rfl, .inr ⟨hit, ?_⟩⟩
            cases hfb : gT.fallbackTable with
            | error e => exact .inl ⟨e, rfl, rfl⟩
            | ok fb =>
              refine .inr ⟨fb, rfl, ?_⟩
              cases hrc : gT.rules.mapM gT.translateCode with
              | error e => exact .inl ⟨e, rfl, rfl⟩
              | ok rc => exact .inr ⟨rc, rfl, _, rfl⟩
          · exact .inl rfl
    rcases hgen with hgen | ⟨gT, types, hass, hgen⟩
    · rw [hgen]
      exact ⟨fun h => absurd h hW, fun h => by cases h; exact .inr (.inl rfl), fun h => by cases h⟩
    · have hci := checkItems_causes (hg.same (given_assignTypes hass))
      rcases hgen with ⟨e, h1, h2⟩ | ⟨h1, hgen⟩
      · rw [h1] at hci
        rw [h2]
        exact ⟨fun h => absurd h hW, fun h => by cases h; exact .inr (.inr ⟨hW, .inl hci⟩), fun h => by cases h⟩
      rw [h1] at hci
      have hsh := (assignTypes_shape hass).1
      have hrules : gT.rules = g.rules := (assignTypes_shape hass).2.1
      have hcore : ∀ x, (gT.sym x).kind = (g.sym x).kind ∧ (gT.sym x).subs = (g.sym x).subs ∧ (gT.sym x).fallback = (g.sym x).fallback := by
        intro x
        have := hsh.core x
        simp only [Symbol.core, Prod.mk.injEq] at this
        exact ⟨this.2.2.1, this.2.2.2.2.1, this.2.2.2.2.2⟩
      have hmem : ∀ r, r < g.rules.length → g.rule r ∈ gT.rules := by
        intro r hr
        rw [hrules]
        unfold Grammar.rule
        rw [getD_of_lt hr]
        exact List.getElem_mem hr
      -- fallbacks
      have fbIff : flat ds = true → ((∃ p f, p < g.syms.length ∧ (g.sym p).fallback = some f ∧ (gT.sym f).dtNum ≠ 0 ∧
          (gT.sym f).dtNum ≠ (gT.sym p).dtNum) ↔ FallbackTyped ds) := by
        intro hfl
        constructor
        · rintro ⟨p, f, hp, hf, h1, h2⟩
          obtain ⟨i, j, a1, a2, a3, a4, a5⟩ := b.fallback_named hi hp hf
          have t1 := b.namedTag ho hi hass hW hfl a1 a3
          have t2 := b.namedTag ho hi hass hW hfl a2 a4
          cases hT : tokenType ds j with
          | none => rw [hT] at t2; exact absurd t2.1 h1
          | some T =>
            refine ⟨i, j, T, a5, hT, ?_⟩
            intro h
            apply h2
            rw [t1.1, t2.1, hT, h]
        · rintro ⟨i, j, T, h1, h2, h3⟩
          obtain ⟨p, hp, hpn⟩ : ∃ p, p < b.gD.syms.length ∧ (b.gD.sym p).name = .ident i := by
            by_contra hno
            have h4 := b.decl.fallback i
            rw [obs_blank b.dinv (fun s hs hn => hno ⟨s, hs, hn⟩), h1] at h4
            cases h4
          have h4 := (b.decl.sym b.dinv hp hpn).2.2.2.1
          rw [h1] at h4
          obtain ⟨f, hf, hfn⟩ := Option.map_eq_some_iff.1 h4
          have hfD := (b.dinv.fb p hp f hf).1
          have t1 := b.namedTag ho hi hass hW hfl hp hpn
          have t2 := b.namedTag ho hi hass hW hfl hfD hfn
          refine ⟨p, f, b.lt_of_gD hp, by rw [b.fallback hp]; exact hf, ?_, ?_⟩
          · rw [t2.1, h2]; simp [tagOf]
          · rw [t1.1, t2.1]
            intro h
            rw [tagOf_inj t2.2, h2] at h
            exact h3 h.symm
      -- the wildcard
      have wIff : (∃ r, r < g.rules.length ∧ ∃ x ∈ (g.rule r).rhs, x.alias = true ∧ g.wildcard = some x.sym) ↔ WildUsed ds := by
        constructor
        · rintro ⟨r, hr, x, hx, ha, hw⟩
          obtain ⟨hxD, h⟩ := b.bound_of_alias ho hr hx ha
          have hwt := (hi.wild _ hw).2
          rw [b.name hxD] at hwt
          rcases h with ⟨o, o1, o2⟩ | ⟨u, hu, e, he, hb, hd⟩
          · obtain ⟨_, _, _, k, _, o3⟩ := b.opt_name o1
            rw [o2, o3] at hwt; cases hwt
          · rcases hd with ⟨tok, d1, d2⟩ | ⟨_, d2, _⟩
            · exact ⟨u, hu, e, he, hb, tok, (b.wild_name hxD d2).1 hw, d1⟩
            · rw [d2] at hwt; cases hwt
        · rintro ⟨u, hu, e, he, hb, w, hw, hew⟩
          obtain ⟨r, hr, x, hx, ha, hxD, hd⟩ := b.alias_of_bound ho hu he hb
          rcases hd with ⟨tok, d1, d2⟩ | ⟨d1, _⟩
          · rw [hew] at d1
            cases d1
            exact ⟨r, hr, x, hx, ha, (b.wild_name hxD d2).2 hw⟩
          · exact absurd hew (d1 w)
      -- classes
      have mIff : flat ds = true → ((∃ r, r < g.rules.length ∧ ∃ x ∈ (g.rule r).rhs, x.alias = true ∧ (g.sym x.sym).kind = .multiTerminal ∧
          ∃ o ∈ (g.sym x.sym).subs.drop 1, (gT.sym o).dtNum ≠ (gT.sym x.sym).dtNum) ↔ Mixed ds) := by
        intro hfl
        constructor
        · rintro ⟨r, hr, x, hx, ha, hk, o, hom, hot⟩
          obtain ⟨hxD, h⟩ := b.bound_of_alias ho hr hx ha
          rcases h with ⟨o', o1, o2⟩ | ⟨u, hu, e, he, hb, hd⟩
          · exfalso
            obtain ⟨_, _, _, k, _, o3⟩ := b.opt_name o1
            have := b.dinv.kinds _ hxD
            rw [b.kind hxD] at hk
            rw [hk, o2, o3] at this
            cases this
          · obtain ⟨d1, d2, _⟩ := b.directTag ho hi hass hW hfl hu he hxD hd
            obtain ⟨m, hm, hom1, hom2⟩ := forall₂_mem_left (forall₂_drop1 (d2 hk)) hom
            refine ⟨u, hu, e, he, hb, m, hm, ?_⟩
            have t1 := b.namedTag ho hi hass hW hfl hom1 hom2
            intro h
            apply hot
            rw [t1.1, d1.1, h]
        · rintro ⟨u, hu, e, he, hb, m, hm, hmt⟩
          obtain ⟨r, hr, x, hx, ha, hxD, hd⟩ := b.alias_of_bound ho hu he hb
          obtain ⟨d1, d2, d3⟩ := b.directTag ho hi hass hW hfl hu he hxD hd
          have hk := d3 (List.ne_nil_of_mem hm)
          obtain ⟨o, ho2, ho3, ho4⟩ := forall₂_mem_right (forall₂_drop1 (d2 hk)) hm
          have t1 := b.namedTag ho hi hass hW hfl ho3 ho4
          refine ⟨r, hr, x, hx, ha, hk, o, ho2, ?_⟩
          rw [t1.1, d1.1]
          intro h
          exact hmt ((tagOf_inj t1.2).1 h)
      refine ⟨fun h => absurd h hW, ?_, ?_⟩
      · intro e he
        refine .inr ?_
        rcases hgen with ⟨e', h1, h2⟩ | ⟨fb, h1, ⟨e', h2, h3⟩ | ⟨rc, h2, t', h3⟩⟩
        · rw [h2] at he
          cases he
          obtain ⟨rfl, p, hp, f, hf, q1, q2⟩ := fallbackTable_err' h1
          refine .inr ⟨hW, .inr (.inl ⟨rfl, fun hfl => (fbIff hfl).1 ⟨p, f, ?_, by rw [← (hcore p).2.2]; exact hf, q1, q2⟩⟩)⟩
          rw [hsh.symbols] at hp
          obtain ⟨k, hk, rfl⟩ := List.getElem_of_mem hp
          have := (hi.index k (by rw [← hi.slen]; exact hk)).1
          rwa [getD_of_lt hk] at this
        · rw [h3] at he
          cases he
          obtain ⟨r, hr, hre⟩ := mapM_except_err h2
          rw [hrules] at hr
          obtain ⟨k, hk, rfl⟩ := mem_rules hr
          rcases translateCode_err' hre with ⟨rfl, x, hx, ha, hkk, o, ho2, ho3⟩ | ⟨rfl, x, hx, ha, hw⟩
          · refine .inr ⟨hW, .inr (.inr (.inl ⟨rfl, fun hfl => (mIff hfl).1 ⟨k, hk, x, hx, ha, by rw [← (hcore _).1]; exact hkk, o, ?_, ho3⟩⟩))⟩
            rw [← (hcore _).2.1]; exact ho2
          · exact .inr ⟨hW, .inr (.inr (.inr ⟨rfl, wIff.1 ⟨k, hk, x, hx, ha, by rw [← hsh.wild]; exact hw⟩⟩))⟩
        · rw [h3] at he; cases he
      · intro t ht
        rcases hgen with ⟨e', h1, h2⟩ | ⟨fb, h1, ⟨e', h2, h3⟩ | ⟨rc, h2, t', h3⟩⟩
        · rw [h2] at ht; cases ht
        · rw [h3] at ht; cases ht
        · have htc : ∀ r, r < g.rules.length → ∃ c, gT.translateCode (g.rule r) = .ok c := by
            intro r hr
            exact forall₂_mem_left (mapM_except_forall₂ h2) (hmem r hr) |>.imp fun _ h => h.2
          refine ⟨hW, hci, ?_, fun hfl => ⟨?_, ?_⟩⟩
          · rw [← wIff]
            rintro ⟨r, hr, x, hx, ha, hw⟩
            obtain ⟨c, hc⟩ := htc r hr
            exact translateCode_wild hc hx ha (by rw [hsh.wild]; exact hw)
          · rw [← fbIff hfl]
            rintro ⟨p, f, hp, hf, q1, q2⟩
            rcases fallback_tags (hi.shape hsh) h1 (a := p) (f := f) (by rw [hsh.len]; exact hp) (by rw [(hcore p).2.2]; exact hf) with h | h
            · exact q1 h
            · exact q2 h
          · rw [← mIff hfl]
            rintro ⟨r, hr, x, hx, ha, hk, o, ho2, ho3⟩
            obtain ⟨c, hc⟩ := htc r hr
            exact ho3 (translateCode_class hc hx ha (by rw [(hcore _).1]; exact hk) (by rw [(hcore _).2.1]; exact ho2))

end Pomelo
