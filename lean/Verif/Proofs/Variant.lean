import Verif.Proofs.Tags
import Verif.Proofs.Unnum
/-! # Variants of the stack enum -/

namespace Pomelo

open Spec

variable {ord : List (SymbolId × SymbolId) → List (SymbolId × SymbolId)} {ds : List Decl} {t : Tables} {s : CSpec ord ds t}

/-- The tag `d` stands for the type `T`. -/
def CSpec.TagIs (s : CSpec ord ds t) (T : Option Ty) (d : Nat) : Prop := d = tagOf s.gen.types T ∧ ∀ x, T = some x → x ∈ s.gen.types

theorem CSpec.plainTag (ho : OrdOk ord) (b : Bridge ord ds s.g) {x : SymbolId} {i : Ident} (hx : x < b.gD.syms.length)
    (hn : (b.gD.sym x).name = .ident i) (hc : isClass ds i = false) (hw : wildcardOf ds ≠ some i) :
    (s.gen.gT.sym x).dataType = plainType ds i ∧ s.TagIs (plainType ds i) (s.tag x) := by
  have hi := s.ginv ho
  have hxl : x < s.g.syms.length := by rw [b.len]; exact Nat.lt_succ_of_lt hx
  have hk : (s.g.sym x).kind ≠ .multiTerminal := by
    rw [b.kind hx]
    intro h
    have := (b.decl.sym b.dinv hx hn).2.1.1 h
    rw [hc] at this; cases this
  obtain ⟨h1, h2, h3⟩ := s.gen.symType hi hxl hk (fun h => hw ((b.wild_name hx hn).1 h))
  have hp : (s.gen.gT.sym x).dataType = plainType ds i := by
    rw [h1, b.ownType ho hx hn, b.defaultType, b.decl.defaultType]
    unfold plainType
    rw [if_neg hw]
  rw [hp] at h2 h3
  exact ⟨hp, h2, h3⟩

theorem GenSpec.noEmpty {g : Grammar} {sts : List RState} {t : Tables} (s : GenSpec g sts t) (hi : GInv g) {x : SymbolId} (hx : x < g.syms.length)
    (hk : (g.sym x).kind = .multiTerminal) (hw : g.wildcard ≠ some x) : (g.sym x).subs ≠ [] := by
  obtain ⟨_, _, _, _, h5⟩ := assignTypes_spec s.assign List.nodup_nil hi.symbols_nodup
  obtain ⟨h1, h2, g1, h3, _, _, h6, h7⟩ := h5 x (hi.mem_symbols hx) hx hw
  intro he
  unfold Grammar.finalType at h3
  rw [h6] at h3
  simp only [hk, he] at h3
  cases h3

/-- The type of a class, by names -/
theorem CSpec.classTag (ho : OrdOk ord) (b : Bridge ord ds s.g) {Y : SymbolId} {ids : List Ident} (hY : Y < b.gD.syms.length)
    (hk : (b.gD.sym Y).kind = .multiTerminal) (hw : s.g.wildcard ≠ some Y)
    (hs : (b.gD.sym Y).subs.map (fun m => (b.gD.sym m).name) = ids.map SymName.ident) (hlt : ∀ m ∈ (b.gD.sym Y).subs, m < b.gD.syms.length)
    (hfl : ∀ i ∈ ids, isClass ds i = false) : s.TagIs (firstType ds ids) (s.tag Y) := by
  have hi := s.ginv ho
  have hYl : Y < s.g.syms.length := by rw [b.len]; exact Nat.lt_succ_of_lt hY
  have hk' : (s.g.sym Y).kind = .multiTerminal := by rw [b.kind hY, hk]
  have hne := s.gen.noEmpty hi hYl hk' hw
  rw [b.subs hY] at hne
  cases hsub : (b.gD.sym Y).subs with
  | nil => exact absurd hsub hne
  | cons f l =>
    have hfm : f ∈ (b.gD.sym Y).subs := by rw [hsub]; exact List.mem_cons_self
    have hf := hlt f hfm
    rw [hsub] at hs
    cases ids with
    | nil => cases hs
    | cons i ids =>
      simp only [List.map_cons, List.cons.injEq] at hs
      obtain ⟨hn, _⟩ := hs
      have hcl := hfl i List.mem_cons_self
      have hsub' : (s.g.sym Y).subs.head? = some f := by rw [b.subs hY, hsub]; rfl
      have hft : (s.g.sym f).kind = .terminal := by
        have h1 := (hi.subs Y hYl f (by rw [b.subs hY]; exact hfm)).2
        have h2 := hi.kinds f (by rw [b.len]; exact Nat.lt_succ_of_lt hf)
        have h3 : (s.g.sym f).kind ≠ .multiTerminal := by
          rw [b.kind hf]
          intro h
          have := (b.decl.sym b.dinv hf hn).2.1.1 h
          rw [hcl] at this; cases this
        rw [b.name hf, hn] at h1 h2
        revert h1 h2 h3
        cases i <;> cases (s.g.sym f).kind <;> simp [SymName.isTok, kindOk]
      obtain ⟨h1, h2, h3⟩ := s.gen.classType hi hYl hk' hw hsub' hft
      have hty : (s.gen.gT.sym Y).dataType = firstType ds (i :: ids) := by
        rw [h1, b.defaultType, b.decl.defaultType]
        unfold firstType
        simp only [List.head?_cons, Option.bind_some]
        by_cases hwi : wildcardOf ds = some i
        · have hwf := (b.wild_name hf hn).2 hwi
          obtain ⟨_, _, _, h4, _⟩ := assignTypes_spec s.gen.assign List.nodup_nil hi.symbols_nodup
          rw [h4 f hwf, s.gen.wildT f hwf]
          unfold plainType
          rw [if_pos hwi]
        · rw [(CSpec.plainTag ho b hf hn hcl hwi).1]
      rw [hty] at h2 h3
      exact ⟨h2, h3⟩

theorem translateCode_pat {g : Grammar} {r : Rule} {rc : RuleCode} (h : g.translateCode r = .ok rc) :
    rc.pats = r.rhs.map (fun s => if s.alias then some (g.sym s.sym).dtNum else none) ∧ rc.lhsDt = (g.sym r.lhs).dtNum := by
  unfold Grammar.translateCode at h
  split at h
  · cases h
  · split at h
    · cases h
    · cases h; exact ⟨rfl, rfl⟩

theorem HasType.eq {i : Ident} {T : Option Ty} (h : HasType ds i T) (hc : isClass ds i = false) : T = plainType ds i := by
  cases h with
  | plain _ => rfl
  | first h _ _ => rw [hc] at h; cases h

/-- In flat declarations the members of an element are no classes. -/
theorem flat_tokens (hf : Spec.flat ds = true) {u : URule} {e : RhsElem} (hu : u ∈ rulesOf ds) (he : e ∈ u.rhs) :
    ∀ i ∈ elemTokens ds e, isClass ds i = false := by
  unfold Spec.flat at hf
  rw [Bool.and_eq_true, List.all_eq_true, List.all_eq_true] at hf
  have h2 := hf.2 u hu
  rw [List.all_eq_true] at h2
  have h3 := h2 e he
  intro i hi
  unfold elemTokens at hi
  split at hi
  · rename_i k hk
    split at hi
    · unfold classMembers at hi
      rw [List.mem_flatMap] at hi
      obtain ⟨d, hd, hi⟩ := hi
      have h4 := hf.1 d hd
      split at hi
      · rename_i c ids
        split at hi
        · simp only [List.all_eq_true] at h4
          have := h4 i hi
          simpa using this
        · cases hi
      · cases hi
    · rename_i hc
      split at hi
      · rw [List.mem_singleton] at hi
        subst hi
        simpa using hc
      · cases hi
  · rename_i hk
    split at h3
    · rename_i k hk'
      exact absurd hk' (hk k)
    · rw [List.all_eq_true] at h3
      have := h3 i hi
      simpa using this

theorem ElemHas.eq {e : RhsElem} {T : Option Ty} (h : ElemHas ds e T) (hfl : ∀ i ∈ elemTokens ds e, isClass ds i = false) : T = elemType ds e := by
  cases h with
  | @one i T al h =>
    unfold elemType elemTokens at *
    simp only [Bool.false_eq_true, if_false] at hfl ⊢
    cases h with
    | plain h => rw [h]; rfl
    | @first i j T h1 h2 h3 =>
      rw [h1] at hfl ⊢
      simp only [if_true] at hfl ⊢
      have hj : isClass ds j = false := hfl j (List.mem_of_mem_head? h2)
      unfold firstType
      rw [h2, HasType.eq h3 hj]; rfl
  | optional => rfl
  | @any i j is T o al h =>
    have hj : isClass ds i = false := hfl i (by simp [elemTokens])
    unfold elemType firstType
    simp only [List.head?_cons, Option.bind_some]
    rw [HasType.eq h hj]

/-- The tag expected for an element of a written rule -/
theorem CSpec.elemTag (ho : OrdOk ord) (s : CSpec ord ds t) (hflat : Spec.flat ds = true) {n j d : Nat} {u : URule} {e : RhsElem}
    (hu : (rulesOf ds)[n]? = some u) (hj : u.rhs[j]? = some e) (hp : (t.ruleCode.getD n default).pats[j]? = some (some d)) :
    s.TagIs (elemType ds e) d := by
  have hi := s.ginv ho
  obtain ⟨b⟩ := bridge ho s.decls s.auto
  have hfl := flat_tokens hflat (List.mem_of_getElem? hu) (List.mem_of_getElem? hj)
  obtain ⟨h1, h2, h3, h4, h5, _⟩ := b.written ho hu
  obtain ⟨rc, hrc, htc⟩ := s.ruleCode_get h1
  rw [List.getD_eq_getElem?_getD, hrc, Option.getD_some, (translateCode_pat htc).1, List.getElem?_map] at hp
  obtain ⟨x, hx, hxd⟩ := Option.map_eq_some_iff.1 hp
  have hal : x.alias = true := by
    cases ha : x.alias with
    | true => rfl
    | false => rw [ha] at hxd; cases hxd
  rw [hal] at hxd
  simp only [if_true, Option.some.injEq] at hxd
  have hxm := List.mem_of_getElem? hx
  have hxs : (s.g.rhsSyms n)[j]? = some x.sym := by unfold Grammar.rhsSyms; rw [List.getElem?_map, hx]; rfl
  have hes : ElemSym b.gD e x.sym := by
    rcases forall₂_getElem? h4 j with ⟨h6, _⟩ | ⟨e', y, h6, h7, h8⟩
    · rw [hj] at h6; cases h6
    · rw [hj] at h6; rw [hxs] at h7
      cases h6; cases h7; exact h8
  have hxD := h5 _ (List.mem_of_getElem? hxs)
  have hxl : x.sym < s.g.syms.length := by rw [b.len]; exact Nat.lt_succ_of_lt hxD
  have hwild : s.g.wildcard ≠ some x.sym := by rw [← s.gen.shape.wild]; exact translateCode_wild htc hxm hal
  have hdt : d = s.tag x.sym := hxd.symm
  rw [hdt]
  rcases hes with ⟨tok, e1, e2, e3⟩ | ⟨tok, symR, e1, e2, e3, e4, e5⟩ | ⟨e1, e2, e3⟩
  · have hel : elemType ds e = if isClass ds tok then firstType ds (classMembers ds tok) else plainType ds tok := by
      unfold elemType; rw [e1, e2]; simp
    rw [hel]
    cases hcl : isClass ds tok with
    | true =>
      simp only [if_true]
      obtain ⟨_, hm, hs, _, _⟩ := b.decl.sym b.dinv hxD e3
      refine CSpec.classTag ho b hxD (hm.2 hcl) hwild hs ?_ ?_
      · intro m hm'
        exact (b.dinv.subs _ hxD m hm').1
      · intro i hi'
        apply hfl i
        unfold elemTokens
        rw [e1]; simp only [hcl, if_true]; exact hi'
    | false =>
      simp only [Bool.false_eq_true, if_false]
      exact (CSpec.plainTag ho b hxD e3 hcl (fun h => hwild ((b.wild_name hxD e3).2 h))).2
  · have hel : elemType ds e = some (.option ((Spec.ownType ds tok).getD .unit)) := by
      unfold elemType; rw [e1, e2]; simp
    rw [hel]
    obtain ⟨o1, o2, _, k, _, o4⟩ := b.opt_name e4
    have hk : (s.g.sym x.sym).kind ≠ .multiTerminal := by
      have := hi.kinds _ hxl
      rw [b.name hxD, o4] at this
      intro h; rw [h] at this; simp [kindOk] at this
    obtain ⟨t1, t2, t3⟩ := s.gen.symType hi hxl hk hwild
    have hty : (s.gen.gT.sym x.sym).dataType = some (.option ((Spec.ownType ds tok).getD .unit)) := by
      have h6 := (b.dataTypeP ho).1 _ e4
      simp only at h6
      have h7 := b.ownType ho e3 e5
      rw [b.types] at h7
      rw [t1, b.types, h6, h7]
      rfl
    rw [hty] at t2 t3
    exact ⟨t2, t3⟩
  · have hel : elemType ds e = firstType ds e.toks := by
      unfold elemType
      split
      · rename_i i hi'; exact absurd hi' (e1 i)
      · rfl
    rw [hel]
    have hk : (b.gD.sym x.sym).kind = .multiTerminal := by
      have := b.dinv.kinds _ hxD
      rw [e2] at this
      cases hk : (b.gD.sym x.sym).kind <;> rw [hk] at this <;> simp [kindOk] at this ⊢
    refine CSpec.classTag ho b hxD hk hwild ?_ ?_ ?_
    · clear hel hfl e1
      generalize (b.gD.sym x.sym).subs = ss at e3
      generalize e.toks = ids at e3
      induction e3 with
      | nil => rfl
      | cons h _ ih => simp only [List.map_cons, h.2, ih]
    · intro m hm; exact (b.dinv.subs _ hxD m hm).1
    · intro i hi'
      apply hfl i
      unfold elemTokens
      split
      · rename_i i' h; exact absurd h (e1 i')
      · exact hi'

theorem CSpec.variant (ho : OrdOk ord) (s : CSpec ord ds t) (hflat : Spec.flat ds = true) {T : Option Ty} {d : Nat} (h : Variant ds t T d) : s.TagIs T d := by
  have hi := s.ginv ho
  obtain ⟨b⟩ := bridge ho s.decls s.auto
  cases h with
  | @token k i hk =>
    rw [s.gen.tokenNames, List.getElem?_map, s.gen.shape.nterm, s.gen.shape.symbols] at hk
    obtain ⟨x, hx, he⟩ := Option.map_eq_some_iff.1 hk
    rw [s.gen.shape.name] at he
    rw [List.getElem?_take] at hx
    split at hx
    · rename_i hkt
      have hkl := (List.getElem?_eq_some_iff.1 hx).1
      rw [hi.slen] at hkl
      have hxe : s.g.symbols.getD k 0 = x := by rw [List.getD_eq_getElem?_getD, hx]; rfl
      obtain ⟨h1, h2⟩ := hi.index k hkl
      rw [hxe] at h1 h2
      have hxD : x < b.gD.syms.length := b.dropped hi h1 (by rw [he]; simp)
      have hkind := (hi.term x h1).2 (by rw [h2]; exact hkt)
      have hn : (b.gD.sym x).name = .ident i := by rw [← b.name hxD]; exact he
      have hcl : isClass ds i = false := by
        cases hcl : isClass ds i with
        | false => rfl
        | true =>
          have := (b.decl.sym b.dinv hxD hn).2.1.2 hcl
          rw [b.kind hxD, this] at hkind; cases hkind
      have hd : t.tokenDt.getD k 0 = s.tag x := by
        rw [s.gen.tokenDt, List.getD_eq_getElem?_getD, List.getElem?_map, s.gen.shape.nterm, s.gen.shape.symbols, List.getElem?_take, if_pos hkt, hx]
        rfl
      rw [hd]
      by_cases hw : wildcardOf ds = some i
      · have hwx := (b.wild_name hxD hn).2 hw
        have hp : plainType ds i = none := by unfold plainType; rw [if_pos hw]
        rw [hp]
        refine ⟨?_, by simp⟩
        obtain ⟨_, _, _, h4, _⟩ := assignTypes_spec s.gen.assign List.nodup_nil hi.symbols_nodup
        show (s.gen.gT.sym x).dtNum = _
        have h5 : (s.g.sym x).dtNum = (b.gD.sym x).dtNum := congrArg (·.2.2.2.2.2.2.1) (b.keep x hxD)
        rw [h4 x hwx, h5]
        exact (unnum_parsed b.parsed).sym x
      · exact (CSpec.plainTag ho b hxD hn hcl hw).2
    · cases hx
  | @rule n u hu =>
    obtain ⟨h1, h2, h3, _⟩ := b.written ho hu
    obtain ⟨rc, hrc, htc⟩ := s.ruleCode_get h1
    have hd : (t.ruleCode.getD n default).lhsDt = s.tag (s.g.rule n).lhs := by
      rw [List.getD_eq_getElem?_getD, hrc, Option.getD_some, (translateCode_pat htc).2]
      rfl
    rw [hd]
    obtain ⟨l1, l2, _⟩ := hi.lhs n h1
    refine (CSpec.plainTag ho b h2 h3 ?_ ?_).2
    · cases hcl : isClass ds u.lhs with
      | false => rfl
      | true =>
        have := (b.decl.sym b.dinv h2 h3).2.1.2 hcl
        rw [b.kind h2, this] at l2; cases l2
    · intro hw
      have hwx := (b.wild_name h2 h3).2 hw
      have h4 := (hi.wild _ hwx).2
      have h5 := hi.kinds _ l1
      rw [l2, b.name h2, h3] at h5
      rw [b.name h2, h3] at h4
      cases hlu : u.lhs <;> rw [hlu] at h4 h5 <;> simp [SymName.isTok, kindOk] at h4 h5
  | @elem n j d u e T hu hj hp hT =>
    rw [ElemHas.eq hT (flat_tokens hflat (List.mem_of_getElem? hu) (List.mem_of_getElem? hj))]
    exact s.elemTag ho hflat hu hj hp
  | error =>
    have h1D : 1 < b.gD.syms.length := by
      refine b.dropped hi (Nat.lt_of_lt_of_le (by decide) hi.two) ?_
      rw [hi.err.1]; simp
    have hn : (b.gD.sym 1).name = .ident .error := by rw [← b.name h1D]; exact hi.err.1
    have hd : t.errorDt = s.tag 1 := by
      rw [s.gen.errorDt, s.gen.shape.errSym, hi.errSym]; rfl
    rw [hd]
    refine (CSpec.plainTag ho b h1D hn ?_ ?_).2
    · cases hcl : isClass ds .error with
      | false => rfl
      | true =>
        have := (b.decl.sym b.dinv h1D hn).2.1.2 hcl
        rw [← b.kind h1D, hi.err.2] at this; cases this
    · intro hw
      have hwx := (b.wild_name h1D hn).2 hw
      have h4 := (hi.wild _ hwx).2
      rw [hi.err.1] at h4; cases h4

end Pomelo
