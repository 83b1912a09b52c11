import Verif.Spec.Blocks
import Verif.Proofs.Variant
import Verif.Proofs.GenCauses
import Verif.Proofs.OptSrc
/-! # Types in the text of the rules -/

namespace Pomelo

open Spec

variable {ord : List (SymbolId × SymbolId) → List (SymbolId × SymbolId)} {ds : List Decl} {t : Tables}

theorem payload_tag {types : List Ty} {T : Option Ty} (h : ∀ x, T = some x → x ∈ types) : payload types (tagOf types T) = T.getD .unit := by
  cases T with
  | none => rfl
  | some x =>
    have hx := h x rfl
    show types.getD (types.idxOf x) .unit = x
    rw [List.getD_eq_getElem?_getD, List.getElem?_idxOf hx]
    rfl

theorem translateCode_code {g : Grammar} {r : Rule} {rc : RuleCode} (h : g.translateCode r = .ok rc) : rc.code = r.code := by
  unfold Grammar.translateCode at h
  split at h
  · cases h
  · split at h
    · cases h
    · cases h; rfl

namespace CSpec

theorem textOf (s : CSpec ord ds t) : Pomelo.textOf ord ds = .ok (List.zipWith (s.gen.gT.ruleText s.gen.types) s.gen.gT.rules s.gen.rc) := by
  unfold Pomelo.textOf
  simp only [bind, Except.bind, pure, Except.pure]
  rw [s.decls]
  simp only [s.auto, s.gen.assign, s.gen.rcEq]

theorem text_get (s : CSpec ord ds t) {txt : List RuleText} (h : Pomelo.textOf ord ds = .ok txt) {n : Nat} (hn : n < s.g.rules.length) :
    ∃ rc, t.ruleCode[n]? = some rc ∧ s.gen.gT.translateCode (s.g.rule n) = .ok rc ∧
      txt[n]? = some (s.gen.gT.ruleText s.gen.types (s.g.rule n) rc) := by
  obtain ⟨rc, h1, h2⟩ := s.ruleCode_get hn
  refine ⟨rc, h1, h2, ?_⟩
  rw [s.textOf] at h
  cases h
  have hrs : s.gen.gT.rules = s.g.rules := (assignTypes_shape s.gen.assign).2.1
  rw [List.getElem?_zipWith, hrs, ← s.gen.ruleCode, h1]
  have : s.g.rules[n]? = some (s.g.rule n) := by
    unfold Grammar.rule
    rw [List.getD_eq_getElem?_getD, List.getElem?_eq_getElem hn]; rfl
  rw [this]

theorem text_length (s : CSpec ord ds t) {txt : List RuleText} (h : Pomelo.textOf ord ds = .ok txt) : txt.length = s.g.rules.length := by
  rw [s.textOf] at h
  cases h
  have hrs : s.gen.gT.rules = s.g.rules := (assignTypes_shape s.gen.assign).2.1
  rw [List.length_zipWith, hrs, ← (mapM_except_forall₂ s.gen.rcEq).length_eq, hrs, Nat.min_self]

theorem lhsPlain (ho : OrdOk ord) (s : CSpec ord ds t) (b : Bridge ord ds s.g) {n : Nat} {u : URule} (hu : (rulesOf ds)[n]? = some u) :
    (s.gen.gT.sym (s.g.rule n).lhs).dataType = plainType ds u.lhs := by
  have hi := s.ginv ho
  obtain ⟨h1, h2, h3, _⟩ := b.written ho hu
  obtain ⟨l1, l2, _⟩ := hi.lhs n h1
  refine (CSpec.plainTag ho b h2 h3 ?_ ?_).1
  · cases hcl : isClass ds u.lhs with
    | false => rfl
    | true =>
      have := (b.decl.sym b.dinv h2 h3).2.1.2 hcl
      rw [b.kind h2, this] at l2; cases l2
  · intro hw
    have hwx := (b.wild_name h2 h3).2 hw
    have h4 := (hi.wild _ hwx).2
    have h5 := hi.kinds _ l1
    rw [l2, b.name h2, h3] at h5
    rw [b.name h2, h3] at h4
    cases hlu : u.lhs <;> rw [hlu] at h4 h5 <;> simp [SymName.isTok, kindOk] at h4 h5

theorem written_text (ho : OrdOk ord) (s : CSpec ord ds t) (hf : flat ds = true) {txt : List RuleText} (h : Pomelo.textOf ord ds = .ok txt) {n : Nat} {u : URule}
    (hu : (rulesOf ds)[n]? = some u) : txt[n]? = some (writtenText ds u) := by
  obtain ⟨b⟩ := bridge ho s.decls s.auto
  obtain ⟨h1, h2, h3, h4, h5, h6⟩ := b.written ho hu
  obtain ⟨rc, hrc, htc, hx⟩ := s.text_get h h1
  rw [hx]
  have hrd : t.ruleCode.getD n default = rc := by rw [List.getD_eq_getElem?_getD, hrc]; rfl
  have hres := s.lhsPlain ho b hu
  have hwr : payload s.gen.types rc.lhsDt = (plainType ds u.lhs).getD .unit := by
    have := s.variant ho hf (.rule hu)
    rw [hrd] at this
    rw [this.1]
    exact payload_tag this.2
  have hcode : rc.code = (s.g.rule n).code := translateCode_code htc
  have hal : (s.g.rule n).rhs.map (·.alias) = u.rhs.map (hasVar ds u) ∧ rc.code = (writtenText ds u).code := by
    rw [hcode]
    unfold writtenText hasVar
    rcases h6 with ⟨m, c1, c2, c3⟩ | ⟨c1, c2, c3, c4⟩ | ⟨c1, c2, c3, c4, _, c5⟩
    · rw [c1, c2, c3]; simp
    · rw [c1, c3, c4, c2]; simp
    · rw [c1, c3, c4, c2]
      refine ⟨List.map_congr_left (fun e he => ?_), by simp⟩
      rw [c5 e he]; simp
  have hvars : rc.pats.map (·.map (payload s.gen.types)) = (writtenText ds u).vars := by
    apply List.ext_getElem?
    intro j
    have hlen : u.rhs.length = (s.g.rule n).rhs.length := by
      have := h4.length_eq
      unfold Grammar.rhsSyms at this
      rw [List.length_map] at this
      exact this
    have hpl : rc.pats.length = (s.g.rule n).rhs.length := by rw [(translateCode_pat htc).1, List.length_map]
    unfold writtenText
    simp only [List.getElem?_map]
    cases hj : u.rhs[j]? with
    | none =>
      have : rc.pats[j]? = none := by
        rw [List.getElem?_eq_none_iff] at hj ⊢
        omega
      rw [this]; rfl
    | some e =>
      have hjl := (List.getElem?_eq_some_iff.1 hj).1
      obtain ⟨x, hxj⟩ : ∃ x, (s.g.rule n).rhs[j]? = some x := ⟨_, List.getElem?_eq_getElem (by omega)⟩
      have hxa : x.alias = hasVar ds u e := by
        have := congrArg (·[j]?) hal.1
        simp only [List.getElem?_map, hxj, hj, Option.map_some, Option.some.injEq] at this
        exact this
      have hp : rc.pats[j]? = some (if hasVar ds u e then some (s.gen.gT.sym x.sym).dtNum else none) := by
        rw [(translateCode_pat htc).1, List.getElem?_map, hxj, ← hxa]; rfl
      rw [hp]
      cases hv : hasVar ds u e with
      | false => simp [hv]
      | true =>
        simp only [hv, if_true, Option.map_some, Option.some.injEq]
        rw [hv] at hp
        have he : s.TagIs (elemType ds e) (s.gen.gT.sym x.sym).dtNum := s.elemTag ho hf hu hj (by rw [hrd]; exact hp)
        rw [he.1]
        exact payload_tag he.2
  unfold Grammar.ruleText
  rw [hvars, hal.2, hres, hwr]
  rfl

/-- The text of a rule made for an optional symbol -/
theorem opt_text (ho : OrdOk ord) (s : CSpec ord ds t) (b : Bridge ord ds s.g) (hf : flat ds = true) {o : SymbolId × SymbolId} (h : o ∈ b.gD.optionals)
    {i : Ident} (hi : (b.gD.sym o.1).name = .ident i) {n : Nat} (hl : (s.g.rule n).lhs = o.2) {rc : RuleCode}
    (htc : s.gen.gT.translateCode (s.g.rule n) = .ok rc)
    (hr : ((s.g.rule n).rhs = [] ∧ (s.g.rule n).code = some .optNone) ∨ ((s.g.rule n).rhs = [⟨o.1, true⟩] ∧ (s.g.rule n).code = some .optSome)) :
    s.gen.gT.ruleText s.gen.types (s.g.rule n) rc =
      if (s.g.rule n).rhs = [] then ⟨[], some .optNone, .option ((ownType ds i).getD .unit), .option ((ownType ds i).getD .unit)⟩
      else ⟨[some ((tokenType ds i).getD .unit)], some .optSome, .option ((ownType ds i).getD .unit), .option ((ownType ds i).getD .unit)⟩ := by
  have hg := s.ginv ho
  obtain ⟨o1, o2, _, k, _, o4⟩ := b.opt_name h
  have hxl : o.2 < s.g.syms.length := by rw [b.len]; exact Nat.lt_succ_of_lt o2
  have hk : (s.g.sym o.2).kind ≠ .multiTerminal := by
    have := hg.kinds _ hxl
    rw [b.name o2, o4] at this
    intro h; rw [h] at this; simp [kindOk] at this
  have hw : s.g.wildcard ≠ some o.2 := by
    intro hw
    have := (hg.wild _ hw).2
    rw [b.name o2, o4] at this; cases this
  obtain ⟨t1, t2, t3⟩ := s.gen.symType hg hxl hk hw
  have hty : (s.gen.gT.sym o.2).dataType = some (.option ((Spec.ownType ds i).getD .unit)) := by
    have h6 := (b.dataTypeP ho).1 _ h
    have h7 := b.ownType ho o1 hi
    rw [b.types] at h7
    rw [t1, b.types, h6, h7]
    rfl
  have hnt : ¬ WildTyped ds := by
    intro hwt
    obtain ⟨w, w1, w2⟩ := (b.toBridge0.wildTyped_iff ho hg).2 hwt
    rw [s.gen.wildT w w1] at w2; cases w2
  obtain ⟨n1, n2⟩ := b.toBridge0.namedTag ho hg s.gen.assign hnt hf o1 hi
  obtain ⟨p1, p2⟩ := translateCode_pat htc
  have hcode := translateCode_code htc
  rw [hty] at t2 t3
  unfold Grammar.ruleText
  rw [p1, p2, hcode, hl, hty, t2, payload_tag t3]
  rcases hr with ⟨r1, r2⟩ | ⟨r1, r2⟩
  · rw [r1, r2]; rfl
  · rw [r1, r2]
    simp only [List.map_cons, List.map_nil, if_true, Option.map_some, n1, payload_tag n2, reduceCtorEq, if_false, Option.getD_some]

theorem optional_texts (ho : OrdOk ord) (s : CSpec ord ds t) (hf : flat ds = true) {txt : List RuleText} (h : Pomelo.textOf ord ds = .ok txt) :
    (∀ n x, (rulesOf ds).length ≤ n → txt[n]? = some x →
      ∃ u ∈ rulesOf ds, ∃ e ∈ u.rhs, ∃ i, e.toks = [i] ∧ e.optional = true ∧ x ∈ optionalTexts ds i) ∧
    (∀ u ∈ rulesOf ds, ∀ e ∈ u.rhs, ∀ i, e.toks = [i] → e.optional = true → ∀ x ∈ optionalTexts ds i, x ∈ txt.drop (rulesOf ds).length) := by
  obtain ⟨b⟩ := bridge ho s.decls s.auto
  constructor
  · intro n x hn hx
    have hnl : n < s.g.rules.length := by rw [← s.text_length h]; exact (List.getElem?_eq_some_iff.1 hx).1
    obtain ⟨rc, _, htc, hx'⟩ := s.text_get h hnl
    rw [hx] at hx'
    cases hx'
    obtain ⟨o, o1, o2, o3⟩ := b.unwritten ho hnl hn
    obtain ⟨u, hu, e, he, hopt, i, hi1, hi2⟩ := b.toBridge0.opt_ident o1
    refine ⟨u, hu, e, he, i, hi1, hopt, ?_⟩
    rw [s.opt_text ho b hf o1 hi2 o2 htc o3]
    unfold optionalTexts
    split <;> simp
  · intro u hu e he i hi1 hopt x hx
    obtain ⟨m, hm⟩ := List.mem_iff_getElem?.1 hu
    obtain ⟨_, _, _, w4, _, _⟩ := b.written ho hm
    obtain ⟨X, hX, hes⟩ := forall₂_mem_left w4 he
    rcases hes with ⟨tok, _, e2, _⟩ | ⟨tok, symR, e1, _, e3, e4, e5⟩ | ⟨e1, _⟩
    · rw [hopt] at e2; cases e2
    · rw [hi1] at e1
      cases e1
      obtain ⟨⟨r1, a1, a2, a3, a4, a5⟩, ⟨r2, c1, c2, c3, c4, c5⟩⟩ := b.opt_rules ho e4
      unfold optionalTexts at hx
      simp only [List.mem_cons, List.not_mem_nil, or_false] at hx
      rcases hx with rfl | rfl
      · obtain ⟨rc, _, htc, hx'⟩ := s.text_get h a1
        rw [s.opt_text ho b hf e4 e5 a3 htc (.inl ⟨a4, a5⟩), if_pos a4] at hx'
        refine List.mem_of_getElem? (i := r1 - (rulesOf ds).length) ?_
        rw [List.getElem?_drop, Nat.add_sub_cancel' a2]; exact hx'
      · obtain ⟨rc, _, htc, hx'⟩ := s.text_get h c1
        rw [s.opt_text ho b hf e4 e5 c3 htc (.inr ⟨c4, c5⟩), if_neg (by rw [c4]; simp)] at hx'
        refine List.mem_of_getElem? (i := r2 - (rulesOf ds).length) ?_
        rw [List.getElem?_drop, Nat.add_sub_cancel' c2]; exact hx'
    · exact absurd hi1 (e1 i)

end CSpec

theorem typed_written {u : URule} (h1 : u.code = none → typedSym ds u.lhs = true → (u.rhs.filter (typedElem ds)).length = 1 ∧ ∀ e ∈ u.rhs, e.alias = false) :
    typed (writtenText ds u) = true ↔ (u.code.isSome = true ∨
      (if typedSym ds u.lhs then (u.rhs.filter (typedElem ds)).all fun e => decide ((elemType ds e).getD .unit = (plainType ds u.lhs).getD .unit)
      else decide ((plainType ds u.lhs).getD .unit = .unit)) = true) := by
  unfold typed writtenText
  simp only [decide_true, Bool.true_and]
  cases hc : u.code with
  | some n => simp
  | none =>
    simp only [Option.isSome_none, Bool.false_eq_true, false_or]
    cases ht : typedSym ds u.lhs with
    | false => simp
    | true =>
      obtain ⟨h2, h3⟩ := h1 hc ht
      simp only [if_true, decide_eq_true_eq]
      have key : List.filterMap id (u.rhs.map fun e => if hasVar ds u e then some ((elemType ds e).getD .unit) else none) =
          (u.rhs.filter (typedElem ds)).map fun e => (elemType ds e).getD .unit := by
        rw [List.filterMap_map]
        have : ∀ l : List RhsElem, (∀ e ∈ l, e.alias = false) →
            List.filterMap (id ∘ fun e => if hasVar ds u e then some ((elemType ds e).getD .unit) else none) l =
              (l.filter (typedElem ds)).map fun e => (elemType ds e).getD .unit := by
          intro l
          induction l with
          | nil => intro _; rfl
          | cons e l ih =>
            intro hl
            have ih := ih (fun a ha => hl a (List.mem_cons_of_mem _ ha))
            have he : hasVar ds u e = typedElem ds e := by
              unfold hasVar
              rw [hl e List.mem_cons_self, hc, ht]; rfl
            cases hte : typedElem ds e with
            | false => rw [List.filterMap_cons, List.filter_cons]; simpa [he, hte] using ih
            | true => rw [List.filterMap_cons, List.filter_cons]; simpa [he, hte] using ih
        exact this u.rhs h3
      rw [key]
      obtain ⟨e, he⟩ := List.length_eq_one_iff.1 h2
      rw [he]
      simp

theorem typed_optional (i : Ident) : (∀ x ∈ optionalTexts ds i, typed x = true) ↔ (tokenType ds i).getD .unit = (ownType ds i).getD .unit := by
  unfold optionalTexts typed
  simp
  exact eq_comm

theorem CSpec.all_typed (ho : OrdOk ord) (s : CSpec ord ds t) (hf : flat ds = true) {txt : List RuleText} (h : Pomelo.textOf ord ds = .ok txt) :
    (∀ x ∈ txt, typed x = true) ↔ blocksFit ds = true := by
  obtain ⟨b⟩ := bridge ho s.decls s.auto
  have hw : ∀ u ∈ rulesOf ds, typed (writtenText ds u) = true ↔ (u.code.isSome = true ∨
      (if typedSym ds u.lhs then (u.rhs.filter (typedElem ds)).all fun e => decide ((elemType ds e).getD .unit = (plainType ds u.lhs).getD .unit)
      else decide ((plainType ds u.lhs).getD .unit = .unit)) = true) := by
    intro u hu
    obtain ⟨m, hm⟩ := List.mem_iff_getElem?.1 hu
    obtain ⟨_, _, _, _, _, w6⟩ := b.written ho hm
    apply typed_written
    intro c1 c2
    rcases w6 with ⟨m, d1, _⟩ | ⟨_, d2, _⟩ | ⟨_, _, _, _, d5, d6⟩
    · rw [c1] at d1; cases d1
    · rw [c2] at d2; cases d2
    · exact ⟨d5, d6⟩
  obtain ⟨q1, q2⟩ := s.optional_texts ho hf h
  unfold blocksFit
  rw [List.all_eq_true]
  simp only [Bool.and_eq_true, Bool.or_eq_true]
  constructor
  · intro hall u hu
    constructor
    · obtain ⟨m, hm⟩ := List.mem_iff_getElem?.1 hu
      exact (hw u hu).1 (hall _ (List.mem_of_getElem? (s.written_text ho hf h hm)))
    · rw [List.all_eq_true]
      intro e he
      split
      · rename_i i _
        rw [decide_eq_true_eq, ← typed_optional]
        intro x hx
        exact hall x (List.mem_of_mem_drop (q2 u hu _ he i rfl rfl x hx))
      · rfl
  · intro hall x hx
    obtain ⟨n, hn⟩ := List.mem_iff_getElem?.1 hx
    by_cases hlt : n < (rulesOf ds).length
    · have hu := List.getElem?_eq_getElem hlt
      have := s.written_text ho hf h hu
      rw [hn] at this
      cases this
      exact (hw _ (List.getElem_mem hlt)).2 (hall _ (List.getElem_mem hlt)).1
    · obtain ⟨u, hu, e, he, i, hi1, hi2, hx'⟩ := q1 n x (by omega) hn
      have := (hall u hu).2
      rw [List.all_eq_true] at this
      have := this e he
      obtain ⟨toks, opt, al⟩ := e
      simp only at hi1 hi2
      subst hi1 hi2
      simp only [decide_eq_true_eq] at this
      exact (typed_optional i).2 this x hx'

end Pomelo
