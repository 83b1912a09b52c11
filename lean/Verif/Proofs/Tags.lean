import Verif.Proofs.Safe
import Verif.Proofs.Root
import Verif.Spec.Typing
/-! # Conditions on the declarations under which all values have the expected type -/

namespace Pomelo

open Spec

variable {V X E : Type}

/-- The type of a class is that of its first member. -/
theorem assigned_class {g gT : Grammar} {types : List Ty} (hass : g.assignTypes [] g.symbols = .ok (gT, types)) (hi : GInv g) {Y f : SymbolId}
    (hY : Y < g.syms.length) (hk : (g.sym Y).kind = .multiTerminal) (hw : g.wildcard ≠ some Y) (hf : (g.sym Y).subs.head? = some f)
    (hft : (g.sym f).kind = .terminal) :
    (gT.sym Y).dataType = ((gT.sym f).dataType).or g.defaultType ∧ (gT.sym Y).dtNum = tagOf types (gT.sym Y).dataType ∧
    ∀ T, (gT.sym Y).dataType = some T → T ∈ types := by
  have hnd := hi.symbols_nodup
  obtain ⟨p1, p2⟩ := hi.perm Y hY
  have hlt : (g.sym Y).index < g.symbols.length := by rw [hi.slen]; exact p1
  have hfm : f ∈ (g.sym Y).subs := by
    cases hs : (g.sym Y).subs with
    | nil => rw [hs] at hf; cases hf
    | cons a l => rw [hs] at hf; simp at hf; simp [hf]
  have hfl := (hi.subs Y hY f hfm).1
  obtain ⟨q1, q2⟩ := hi.perm f hfl
  have hfi := (hi.term f hfl).1 hft
  have hYi : g.numTerminals ≤ (g.sym Y).index := by
    rcases Nat.lt_or_ge (g.sym Y).index g.numTerminals with h | h
    · have := (hi.term Y hY).2 h
      rw [hk] at this; cases this
    · exact h
  have hYget : g.symbols[(g.sym Y).index] = Y := by rw [getD_of_lt hlt] at p2; exact p2
  have hsplit : g.symbols = g.symbols.take (g.sym Y).index ++ (Y :: g.symbols.drop ((g.sym Y).index + 1)) := by
    have h1 : g.symbols.drop (g.sym Y).index = Y :: g.symbols.drop ((g.sym Y).index + 1) := by
      rw [List.drop_eq_getElem_cons hlt, hYget]
    rw [← h1, List.take_append_drop]
  have hfA : f ∈ g.symbols.take (g.sym Y).index := by
    have hfl' : (g.sym f).index < g.symbols.length := by rw [hi.slen]; exact q1
    rw [getD_of_lt hfl'] at q2
    rw [List.mem_take_iff_getElem]
    exact ⟨(g.sym f).index, by omega, q2⟩
  rw [hsplit] at hass hnd
  generalize g.symbols.take (g.sym Y).index = A at *
  generalize g.symbols.drop ((g.sym Y).index + 1) = B at *
  obtain ⟨g1, ts1, h1, h2⟩ := assignTypes_append hass
  obtain ⟨n1, n2, n3⟩ := List.nodup_append.1 hnd
  obtain ⟨_, a2, a3, _, _⟩ := assignTypes_spec h1 List.nodup_nil n1
  have hsh := (assignTypes_shape h1).1
  obtain ⟨_, _, b3, _, b5⟩ := assignTypes_spec h2 a2 n2
  have hYA : Y ∉ A := fun h => n3 Y h Y List.mem_cons_self rfl
  have hfB : f ∉ Y :: B := fun h => n3 f hfA f h rfl
  obtain ⟨c1, c2, g2, c3, c4, _, c6, c7⟩ := b5 Y List.mem_cons_self (by rw [hsh.len]; exact hY) (by rw [hsh.wild]; exact hw)
  refine ⟨?_, c1, c2⟩
  have e1 : g2.sym Y = g.sym Y := by rw [c6, a3 Y hYA]
  have e2 : g2.sym f = gT.sym f := by rw [c4 f hfB, b3 f hfB]
  have e3 : g2.defaultType = g.defaultType := by rw [c7, (assignTypes_shape h1).2.2.1]
  unfold Grammar.finalType at c3
  simp only [e1, hk] at c3
  cases hs : (g.sym Y).subs with
  | nil => rw [hs] at hf; cases hf
  | cons a l =>
    rw [hs] at hf c3
    simp only [List.head?_cons, Option.some.injEq] at hf
    subst hf
    have hne : ¬ a = Y := by rintro rfl; rw [hk] at hft; cases hft
    simp only [hne, if_false, Except.map, Except.ok.injEq] at c3
    rw [← c3, e2, e3]

theorem GenSpec.classType {g : Grammar} {sts : List RState} {t : Tables} (s : GenSpec g sts t) (hi : GInv g) {Y f : SymbolId} (hY : Y < g.syms.length)
    (hk : (g.sym Y).kind = .multiTerminal) (hw : g.wildcard ≠ some Y) (hf : (g.sym Y).subs.head? = some f) (hft : (g.sym f).kind = .terminal) :
    (s.gT.sym Y).dataType = ((s.gT.sym f).dataType).or g.defaultType ∧ (s.gT.sym Y).dtNum = tagOf s.types (s.gT.sym Y).dataType ∧
    ∀ T, (s.gT.sym Y).dataType = some T → T ∈ s.types :=
  assigned_class s.assign hi hY hk hw hf hft

theorem fallback_tags {g : Grammar} (hi : GInv g) {fb : List Nat} (h : g.fallbackTable = .ok fb) {a f : SymbolId} (ha : a < g.syms.length)
    (hf : (g.sym a).fallback = some f) : (g.sym f).dtNum = 0 ∨ (g.sym f).dtNum = (g.sym a).dtNum := by
  unfold Grammar.fallbackTable at h
  simp only at h
  have hf2 := mapM_except_forall₂ h
  obtain ⟨hix, hsy⟩ := hi.perm a ha
  have hlt : (g.sym a).index < g.symbols.length := by rw [hi.slen]; exact hix
  have hsy2 : g.symbols[(g.sym a).index]? = some a := by
    rw [List.getElem?_eq_getElem hlt]
    rw [getD_of_lt hlt] at hsy
    rw [hsy]
  cases hfind : (List.range g.symbols.length).reverse.find? (fun i => ((g.sym (g.symbols.getD i 0)).fallback).isSome) with
  | none =>
    rw [List.find?_eq_none] at hfind
    have := hfind (g.sym a).index (by simp [hlt])
    rw [hsy, hf] at this
    simp at this
  | some x =>
    rw [hfind] at hf2
    simp only at hf2
    rw [List.find?_eq_some_iff_append] at hfind
    obtain ⟨_, as, bs, h1, h2⟩ := hfind
    have hle : (g.sym a).index ≤ x := by
      have hmem : (g.sym a).index ∈ (List.range g.symbols.length).reverse := by simp [hlt]
      rw [h1] at hmem
      rcases List.mem_append.1 hmem with h3 | h3
      · have := h2 _ h3
        rw [hsy, hf] at this
        simp at this
      · have hp : ((List.range g.symbols.length).reverse).Pairwise (fun a b => b < a) := by
          rw [List.pairwise_reverse]; exact List.pairwise_lt_range
        rw [h1] at hp
        have hp2 := (List.pairwise_append.1 hp).2.1
        rcases List.mem_cons.1 h3 with h3 | h3
        · omega
        · exact Nat.le_of_lt ((List.pairwise_cons.1 hp2).1 _ h3)
    rcases forall₂_getElem? hf2 (g.sym a).index with ⟨h3, _⟩ | ⟨y, z, h3, _, h5⟩
    · rw [List.getElem?_take, if_pos (by omega), hsy2] at h3; cases h3
    · rw [List.getElem?_take, if_pos (by omega), hsy2] at h3
      cases h3
      rw [hf] at h5
      simp only at h5
      split at h5
      · assumption
      · cases h5

theorem translateCode_class {g : Grammar} {r : Rule} {rc : RuleCode} (h : g.translateCode r = .ok rc) {x : RhsSym} (hx : x ∈ r.rhs) (ha : x.alias = true)
    (hk : (g.sym x.sym).kind = .multiTerminal) {o : SymbolId} (ho : o ∈ (g.sym x.sym).subs.drop 1) : (g.sym o).dtNum = (g.sym x.sym).dtNum := by
  unfold Grammar.translateCode at h
  split at h
  · cases h
  · rename_i hn
    by_contra hne
    apply hn
    rw [List.any_eq_true]
    refine ⟨x, hx, ?_⟩
    rw [ha, hk]
    simp only [Bool.true_and, decide_true, List.any_eq_true]
    exact ⟨o, ho, by simpa using hne⟩

theorem translateCode_wild {g : Grammar} {r : Rule} {rc : RuleCode} (h : g.translateCode r = .ok rc) {x : RhsSym} (hx : x ∈ r.rhs) (ha : x.alias = true) :
    g.wildcard ≠ some x.sym := by
  unfold Grammar.translateCode at h
  split at h
  · cases h
  · split at h
    · cases h
    · rename_i hn
      intro hw
      apply hn
      rw [List.any_eq_true]
      exact ⟨x, hx, by rw [ha, hw]; simp⟩

theorem Grammar.next_stands {g : Grammar} {a b : SymbolId} (h : Stands g a b) (hb : g.wildcard ≠ some b) :
    a = b ∨ ∃ c, (g.sym c).fallback = some b := by
  induction h with
  | self => exact .inl rfl
  | @fallback a f b hf _ ih =>
    rcases ih hb with rfl | h
    · exact .inr ⟨a, hf⟩
    · exact .inr h
  | wildcard hw => exact absurd hw hb

section
variable {ord : List (SymbolId × SymbolId) → List (SymbolId × SymbolId)} {ds : List Decl} {t : Tables} {s : CSpec ord ds t} {dflt : SymbolId}

theorem tokType_withExtra (a b : Option Ty) : tokType a b = withExtra a b := by cases a <;> cases b <;> rfl

/-- Types of named symbols before `%default_type` -/
theorem Bridge0.ownType {g : Grammar} (ho : OrdOk ord) (b : Bridge0 ord ds g) {x : SymbolId} {i : Ident} (hx : x < b.gD.syms.length)
    (hn : (b.gD.sym x).name = .ident i) : (g.sym x).dataType = Spec.ownType ds i := by
  have hx0 : x ≠ 0 := by
    rintro rfl
    rw [b.dinv.dollar] at hn; cases hn
  obtain ⟨_, hm, _, _, ht⟩ := b.decl.sym b.dinv hx hn
  have hk := b.dinv.kinds x hx
  rw [b.types, (b.dataTypeP ho).2 x hx (by
    rintro o h6 rfl
    obtain ⟨_, _, _, k, _, h7⟩ := b.opt_name h6
    rw [h7] at hn; cases hn), ht]
  unfold Spec.ownType
  have hkind : (b.gD.sym x).kind = .terminal ↔ (i.isTerminal && !isClass ds i) = true := by
    rw [hn] at hk
    cases hc : isClass ds i with
    | true =>
      rw [hc] at hm
      rw [hm.2 rfl]; simp
    | false =>
      have : (b.gD.sym x).kind ≠ .multiTerminal := fun e => by rw [hc] at hm; exact absurd (hm.1 e) (by simp)
      revert hk this
      cases i <;> cases (b.gD.sym x).kind <;> simp [kindOk, Ident.isTerminal]
  by_cases h : (i.isTerminal && !isClass ds i) = true
  · rw [if_pos ⟨hkind.2 h, hx0⟩, if_pos h, tokType_withExtra]
  · rw [if_neg (fun h' => h (hkind.1 h'.1)), if_neg h]

theorem Bridge0.wild_name {g : Grammar} (b : Bridge0 ord ds g) {x : SymbolId} {i : Ident} (hx : x < b.gD.syms.length)
    (hn : (b.gD.sym x).name = .ident i) : g.wildcard = some x ↔ wildcardOf ds = some i := by
  have h1 := b.decl.wildcard
  rw [b.wildcard]
  constructor
  · intro h
    rw [h] at h1
    simp only [Option.map_some, hn] at h1
    cases hw : wildcardOf ds with
    | none => rw [hw] at h1; cases h1
    | some j => rw [hw] at h1; simp at h1; rw [h1]
  · intro h
    rw [h] at h1
    cases hw : b.gD.wildcard with
    | none => rw [hw] at h1; cases h1
    | some y =>
      rw [hw] at h1
      simp only [Option.map_some, Option.some.injEq] at h1
      rw [b.dinv.names y x (b.dinv.wild y hw).1 hx (by rw [h1, hn]) (by rw [h1]; simp)]

/-- Final type and tag of a named symbol that is neither a class nor the wildcard -/
theorem Made.plain (m : Made s dflt) (ho : OrdOk ord) (b : Bridge ord ds s.g) {x : SymbolId} {i : Ident} (hx : x < b.gD.syms.length)
    (hn : (b.gD.sym x).name = .ident i) (hc : isClass ds i = false) (hw : wildcardOf ds ≠ some i) :
    (s.gen.gT.sym x).dataType = plainType ds i ∧ s.tag x = tagOf s.gen.types (plainType ds i) ∧ ∀ T, plainType ds i = some T → T ∈ s.gen.types := by
  have hxl : x < s.g.syms.length := by rw [b.len]; exact Nat.lt_succ_of_lt hx
  have hk : (s.g.sym x).kind ≠ .multiTerminal := by
    rw [b.kind hx]
    intro h
    have := (b.decl.sym b.dinv hx hn).2.1.1 h
    rw [hc] at this; cases this
  obtain ⟨h1, h2, h3⟩ := s.gen.symType m.inv hxl hk (fun h => hw ((b.wild_name hx hn).1 h))
  have hp : (s.gen.gT.sym x).dataType = plainType ds i := by
    rw [h1, b.ownType ho hx hn, b.defaultType, b.decl.defaultType]
    unfold plainType
    rw [if_neg hw]
  rw [hp] at h2 h3
  exact ⟨hp, h2, h3⟩

/-- The tag of a token that may be taken for an exact token -/
theorem Made.exact_tag (m : Made s dflt) (ho : OrdOk ord) (b : Bridge ord ds s.g) {a c : SymbolId} {j : Ident} (hst : Stands s.g a c)
    (ha : a < s.g.syms.length) (hc : c < b.gD.syms.length) (hn : (b.gD.sym c).name = .ident j) (hcl : isClass ds j = false)
    (he : exactToken ds j = true) : s.tag a = s.tag c := by
  unfold exactToken at he
  rw [Bool.and_eq_true, decide_eq_true_eq, Bool.or_eq_true] at he
  obtain ⟨hw, he⟩ := he
  have hw' : s.g.wildcard ≠ some c := fun h => hw ((b.wild_name hc hn).1 h)
  rcases he with he | he
  · have hne : s.tag c ≠ 0 := by
      rw [(m.plain ho b hc hn hcl hw).2.1]
      cases hp : plainType ds j with
      | none => rw [hp] at he; cases he
      | some T => simp [tagOf]
    clear he
    induction hst with
    | self => rfl
    | @fallback a f c hf _ ih =>
      have hfl := (m.inv.fb a ha f hf).1
      have h1 := ih hfl hc hn hw' hne
      have hsh := s.gen.shape
      have h2 := fallback_tags (s.ginvT ho) s.gen.fbEq (a := a) (f := f) (by rw [hsh.len]; exact ha) (by
        have := hsh.core a
        simp only [Symbol.core, Prod.mk.injEq] at this
        rw [this.2.2.2.2.2]; exact hf)
      rcases h2 with h2 | h2
      · exfalso
        apply hne
        rw [← h1]; exact h2
      · rw [← h1]; exact h2.symm
    | wildcard hww => exact absurd hww hw'
  · rcases Grammar.next_stands hst hw' with rfl | ⟨d, hd⟩
    · rfl
    · exfalso
      have hdl : d < b.gD.syms.length := by
        by_contra hge
        have : (s.g.sym d).fallback = none := by
          by_cases hds : d < s.g.syms.length
          · have hdt : (s.g.sym d).name = .dflt := by
              by_contra hne
              exact hge (b.dropped m.inv hds hne)
            by_contra hf
            obtain ⟨f, hf⟩ := Option.ne_none_iff_exists'.1 hf
            have := (m.inv.fb d hds f hf).2.2
            rw [hdt] at this; cases this
          · unfold Grammar.sym
            rw [List.getD_eq_getElem?_getD, List.getElem?_eq_none (Nat.le_of_not_lt hds)]; rfl
        rw [this] at hd; cases hd
      rw [b.fallback hdl] at hd
      obtain ⟨_, _, hdtok⟩ := b.dinv.fb d hdl c hd
      have hdn : ∃ i, (b.gD.sym d).name = .ident i := by
        cases hnn : (b.gD.sym d).name with
        | ident i => exact ⟨i, rfl⟩
        | _ => rw [hnn] at hdtok; cases hdtok
      obtain ⟨i, hi⟩ := hdn
      have h4 := (b.decl.sym b.dinv hdl hi).2.2.2.1
      rw [hd] at h4
      simp only [Option.map_some, hn] at h4
      cases hfo : fallbackOf ds i with
      | none => rw [hfo] at h4; cases h4
      | some j' =>
        rw [hfo] at h4
        simp only [Option.map_some, Option.some.injEq, SymName.ident.injEq] at h4
        subst h4
        unfold fallbackOf at hfo
        obtain ⟨d, hdm, hde⟩ := List.exists_of_findSome?_eq_some hfo
        have : fallbackTarget ds j = true := by
          unfold fallbackTarget
          rw [List.any_eq_true]
          refine ⟨d, hdm, ?_⟩
          split at hde
          · split at hde
            · cases hde; simp
            · cases hde
          · cases hde
        rw [this] at he; cases he

/-- The tag of an aliased class is that of each member that is not the wildcard. -/
theorem Made.class_tag (m : Made s dflt) (hfl : s.g.Flat) {r : RuleId} (hr : r < s.g.rules.length) {x : RhsSym} (hx : x ∈ (s.g.rule r).rhs)
    (ha : x.alias = true) (hk : (s.g.sym x.sym).kind = .multiTerminal) {c : SymbolId} (hc : c ∈ (s.g.sym x.sym).subs) (hw : s.g.wildcard ≠ some c) :
    s.tag c = s.tag x.sym := by
  obtain ⟨rc, _, htc⟩ := s.ruleCode_get hr
  have hsh := s.gen.shape
  have hcore := hsh.core x.sym
  simp only [Symbol.core, Prod.mk.injEq] at hcore
  have hxr : x.sym ∈ s.g.rhsSyms r := List.mem_map.2 ⟨x, hx, rfl⟩
  have hxl := (m.inv.rhs r hr _ hxr).1
  have hw2 : s.g.wildcard ≠ some x.sym := by rw [← hsh.wild]; exact translateCode_wild htc hx ha
  cases hs : (s.g.sym x.sym).subs with
  | nil => rw [hs] at hc; cases hc
  | cons f l =>
    have hf : f ∈ (s.g.sym x.sym).subs := by rw [hs]; exact List.mem_cons_self
    have hft := hfl r hr _ hxr f hf
    by_cases hcl : c ∈ l
    · exact translateCode_class htc hx ha (by rw [hcore.2.2.1]; exact hk) (by rw [hcore.2.2.2.2.1, hs]; exact hcl)
    · have hcf : c = f := by
        rw [hs] at hc
        rcases List.mem_cons.1 hc with h | h
        · exact h
        · exact absurd h hcl
      subst hcf
      obtain ⟨h1, h2, _⟩ := s.gen.classType m.inv hxl hk hw2 (by rw [hs]; rfl) hft
      obtain ⟨h3, h4, _⟩ := s.gen.symType m.inv (m.inv.subs _ hxl c hf).1 (by rw [hft]; simp) hw
      have : (s.gen.gT.sym x.sym).dataType = (s.gen.gT.sym c).dataType := by
        rw [h1, h3]
        cases (s.g.sym c).dataType <;> cases s.g.defaultType <;> rfl
      unfold CSpec.tag
      rw [h2, h4, this]

theorem Bridge0.elem_tokens {g : Grammar} (b : Bridge0 ord ds g) {e : RhsElem} {Y c : SymbolId} (hY : Y < b.gD.syms.length) (he : ElemSym b.gD e Y)
    {j : Ident} (hc : c < b.gD.syms.length) (hn : (b.gD.sym c).name = .ident j) (ht : (b.gD.sym c).name.isTok = true) (hr : Reads g Y c) :
    j ∈ elemTokens ds e := by
  have h := (b.reads_matches hY he hc hn ht).1 hr
  have hj : j.isTerminal = true := by rw [hn] at ht; cases j <;> simp [SymName.isTok] at ht ⊢; rfl
  unfold Matches at h
  unfold elemTokens
  split at h
  · rename_i i hi
    rw [hi]
    simp only
    obtain ⟨_, h⟩ := h
    split at h
    · rename_i hcl; rw [if_pos hcl]; exact h
    · rename_i hcl; subst h; rw [if_neg hcl, if_pos hj]; simp
  · rename_i hne
    split
    · rename_i i hi; exact (hne i hi).elim
    · exact h

/-- What holds of all tokens that may stand at a place whose value is used -/
theorem Made.alias_all (m : Made s dflt) (ho : OrdOk ord) (hf : flat ds = true) (b : Bridge ord ds s.g) {P : Ident → Bool}
    (hal : ((rulesOf ds).all fun u => u.rhs.all fun e => !bound ds u e || (elemTokens ds e).all P) = true) {r : RuleId} (hr : r < s.g.rules.length)
    (hused : (s.g.rule r).lhs = s.g.start.getD 0 ∨ ∃ r', r' < s.g.rules.length ∧ (s.g.rule r).lhs ∈ s.g.rhsSyms r') {x : RhsSym} (hx : x ∈ (s.g.rule r).rhs)
    (hxa : x.alias = true) {c : SymbolId} (hrd : Reads s.g x.sym c) :
    (s.g.sym c).kind = .terminal ∧ c < b.gD.syms.length ∧ ∀ j, (b.gD.sym c).name = .ident j → P j = true := by
  have hfl : s.g.Flat := b.flat ho hf
  have hxr : x.sym ∈ s.g.rhsSyms r := List.mem_map.2 ⟨x, hx, rfl⟩
  obtain ⟨hxl, hx1, hx2⟩ := m.inv.rhs r hr _ hxr
  have hkc : (s.g.sym c).kind = .terminal ∧ c < s.g.syms.length ∧ (s.g.sym c).name.isTok = true := by
    have hrd2 := hrd
    unfold Reads at hrd2
    split at hrd2
    · rename_i hk
      subst hrd2
      refine ⟨hk, hxl, ?_⟩
      have hkk := m.inv.kinds x.sym hxl
      rw [hk] at hkk
      revert hkk hx1
      cases (s.g.sym x.sym).name with
      | ident i => cases i <;> simp [kindOk, SymName.isTok]
      | _ => simp [kindOk]
    · exact ⟨hfl r hr _ hxr c hrd2, (m.inv.subs _ hxl c hrd2).1, (m.inv.subs _ hxl c hrd2).2⟩
    · exact hrd2.elim
  obtain ⟨hkt, hcl, hct⟩ := hkc
  have hcD : c < b.gD.syms.length := b.dropped m.inv hcl (by intro h; rw [h] at hct; cases hct)
  have hctD : (b.gD.sym c).name.isTok = true := by rw [← b.name hcD]; exact hct
  refine ⟨hkt, hcD, ?_⟩
  intro j hn
  rw [List.all_eq_true] at hal
  by_cases hrn : r < (rulesOf ds).length
  · obtain ⟨u, hu⟩ : ∃ u, (rulesOf ds)[r]? = some u := ⟨_, List.getElem?_eq_getElem hrn⟩
    obtain ⟨_, _, _, w3, w4, w5⟩ := b.written ho hu
    obtain ⟨k, hk⟩ := List.getElem?_of_mem hx
    have hsk : (s.g.rhsSyms r)[k]? = some x.sym := by unfold Grammar.rhsSyms; rw [List.getElem?_map, hk]; rfl
    rcases forall₂_getElem? w3 k with ⟨_, h2⟩ | ⟨e, y, h1, h2, h3⟩
    · rw [hsk] at h2; cases h2
    rw [hsk] at h2
    cases h2
    have hbound : bound ds u e = true := by
      unfold bound
      rcases w5 with ⟨n, _, _, c3⟩ | ⟨_, _, _, c3⟩ | ⟨c1, c2, _, c3, _⟩
      all_goals
        have := congrArg (fun l => l[k]?) c3
        simp only [List.getElem?_map, hk, h1, Option.map_some, Option.some.injEq, hxa] at this
      · simp [← this]
      · simp [← this]
      · simp [c1, c2, ← this]
    have h4 := hal u (List.mem_of_getElem? hu)
    rw [List.all_eq_true] at h4
    have h5 := h4 e (List.mem_of_getElem? h1)
    rw [hbound, Bool.not_true, Bool.false_or, List.all_eq_true] at h5
    exact h5 j (b.elem_tokens (w4 _ hxr) h3 hcD hn hctD hrd)
  · obtain ⟨o, hoo, hl, h2⟩ := b.unwritten ho hr (Nat.le_of_not_lt hrn)
    rcases h2 with ⟨h2, _⟩ | ⟨h2, _⟩
    · rw [h2] at hx; cases hx
    rw [h2] at hx
    simp only [List.mem_singleton] at hx
    subst hx
    obtain ⟨o1, o2, o3, k, o4, o5⟩ := b.opt_name hoo
    -- the optional symbol is used in a written rule
    rcases hused with hst0 | ⟨r', hr', hin⟩
    · exfalso
      obtain ⟨y, i, y1, y2, y3, _⟩ := b.start_name m.inv
      rw [y1, Option.getD_some] at hst0
      rw [← hst0, hl, o5] at y3; cases y3
    · rw [hl] at hin
      have hrn' : r' < (rulesOf ds).length := by
        by_contra hge
        obtain ⟨o', hoo', _, h3⟩ := b.unwritten ho hr' (Nat.le_of_not_lt hge)
        unfold Grammar.rhsSyms at hin
        rcases h3 with ⟨h3, _⟩ | ⟨h3, _⟩
        · rw [h3] at hin; cases hin
        · rw [h3] at hin
          simp only [List.map_cons, List.map_nil, List.mem_singleton] at hin
          obtain ⟨_, _, p3, _⟩ := b.opt_name hoo'
          rw [← hin, o5] at p3
          simp [SymName.isTok, SymName.isNt] at p3
      obtain ⟨u, hu⟩ : ∃ u, (rulesOf ds)[r']? = some u := ⟨_, List.getElem?_eq_getElem hrn'⟩
      obtain ⟨_, _, _, w3, w4, _⟩ := b.written ho hu
      obtain ⟨k', hk'⟩ := List.getElem?_of_mem hin
      rcases forall₂_getElem? w3 k' with ⟨_, h2⟩ | ⟨e, y, h1, h2, h3⟩
      · rw [hk'] at h2; cases h2
      rw [hk'] at h2
      cases h2
      have key : ∃ i, e.toks = [i] ∧ e.optional = true ∧ (b.gD.sym o.1).name = .ident i := by
        rcases h3 with ⟨i, _, _, h4⟩ | ⟨i, symR, h4, h5, _, h6, h7⟩ | ⟨_, h4, _⟩
        · rw [o5] at h4; cases h4
        · have := b.opt_inj hoo h6 rfl
          exact ⟨i, h4, h5, by rw [this]; exact h7⟩
        · rw [o5] at h4; cases h4
      obtain ⟨i, e1, e2, e3⟩ := key
      have hbound : bound ds u e = true := by unfold bound; simp [e1, e2]
      have h4 := hal u (List.mem_of_getElem? hu)
      rw [List.all_eq_true] at h4
      have h5 := h4 e (List.mem_of_getElem? h1)
      rw [hbound, Bool.not_true, Bool.false_or, List.all_eq_true] at h5
      have h6 := b.elem_tokens (e := ⟨[i], false, false⟩) o1 (.inl ⟨i, rfl, rfl, e3⟩) hcD hn hctD hrd
      refine h5 j ?_
      unfold elemTokens at h6 ⊢
      rw [e1]; exact h6

theorem Made.aliasTyped (m : Made s dflt) (ho : OrdOk ord) (hf : flat ds = true) (b : Bridge ord ds s.g) (hal : aliasOk ds = true) : s.AliasTyped := by
  have hfl : s.g.Flat := b.flat ho hf
  -- the common end
  have fin : ∀ {r : RuleId} {x : RhsSym} {a c : SymbolId}, r < s.g.rules.length → x ∈ (s.g.rule r).rhs → x.alias = true → a < s.g.syms.length →
      Stands s.g a c → Reads s.g x.sym c → c < b.gD.syms.length → (∀ j, (b.gD.sym c).name = .ident j → exactToken ds j = true) →
      (s.g.sym c).kind = .terminal → s.tag a = s.tag x.sym := by
    intro r x a c hr hx hxa ha hst hrd hc hex hk
    have hcn : ∃ j, (b.gD.sym c).name = .ident j := by
      have hc0 : c ≠ 0 := by
        rintro rfl
        have hxr : x.sym ∈ s.g.rhsSyms r := List.mem_map.2 ⟨x, hx, rfl⟩
        obtain ⟨h1, h2, _⟩ := m.inv.rhs r hr _ hxr
        unfold Reads at hrd
        split at hrd
        · rw [← hrd] at h2; exact h2 m.inv.dollar.1
        · have := (m.inv.subs _ h1 0 hrd).2
          rw [m.inv.dollar.1] at this; cases this
        · exact hrd
      have hkk := b.dinv.kinds c hc
      rw [b.kind hc] at hk
      rw [hk] at hkk
      cases hn : (b.gD.sym c).name with
      | ident j => exact ⟨j, rfl⟩
      | dollar => exact absurd (b.dinv.names c 0 hc (Nat.lt_of_le_of_lt (Nat.zero_le _) hc) (by rw [hn, b.dinv.dollar]) (by rw [hn]; simp)) hc0
      | dflt => rw [hn] at hkk; simp [kindOk] at hkk
      | opt n => rw [hn] at hkk; simp [kindOk] at hkk
      | anon => rw [hn] at hkk; simp [kindOk] at hkk
    obtain ⟨j, hn⟩ := hcn
    have hcl : isClass ds j = false := by
      cases hcl : isClass ds j with
      | false => rfl
      | true =>
        have := (b.decl.sym b.dinv hc hn).2.1.2 hcl
        rw [b.kind hc, this] at hk; cases hk
    have hex := hex j hn
    rw [m.exact_tag ho b hst ha hc hn hcl hex]
    have hw : s.g.wildcard ≠ some c := by
      intro h
      unfold exactToken at hex
      rw [Bool.and_eq_true, decide_eq_true_eq] at hex
      exact hex.1 ((b.wild_name hc hn).1 h)
    have hrd2 := hrd
    unfold Reads at hrd2
    split at hrd2
    · rw [hrd2]
    · rename_i hkm
      exact m.class_tag hfl hr hx hxa hkm hrd2 hw
    · exact hrd2.elim
  intro r hr hused x hx hxa a c ha hka ha0 hst hrd
  obtain ⟨hkt, hcD, hP⟩ := m.alias_all ho hf b hal hr hused hx hxa hrd
  exact fin hr hx hxa ha hst hrd hcD hP hkt

/-! ## The type of the result -/

/-- No symbol has the type `()`. -/
def NoUnit (g : Grammar) : Prop := ∀ x, (g.sym x).dataType ≠ some .unit

theorem NoUnit.modify {g : Grammar} (h : NoUnit g) {y : SymbolId} {f : Symbol → Symbol} (hf : ∀ b : Symbol, b.dataType ≠ some .unit → (f b).dataType ≠ some .unit) :
    NoUnit (g.modifySym y f) := by
  intro x
  rw [sym_modifySym]
  split
  · exact hf _ (h x)
  · exact h x

theorem assignTypes_noUnit : ∀ {ss : List SymbolId} {g g' : Grammar} {ts ts' : List Ty}, g.assignTypes ts ss = .ok (g', ts') →
    NoUnit g → g.defaultType ≠ some .unit → Ty.unit ∉ ts → Ty.unit ∉ ts' := by
  intro ss
  induction ss with
  | nil => intro g g' ts ts' h _ _ hn; cases h; exact hn
  | cons a ss ih =>
    intro g g' ts ts' h hg hd hn
    have hfin : g.finalType a ≠ .ok (some .unit) := by
      intro h
      unfold Grammar.finalType at h
      have key : ∀ o : Option Ty, o ≠ some .unit → o.or g.defaultType ≠ some .unit := by
        intro o ho
        cases o with
        | none => exact hd
        | some T => exact ho
      simp only at h
      split at h
      · split at h
        · cases h
        · split at h
          · cases h
          · simp only [Except.map, Except.ok.injEq] at h
            exact key _ (hg _) h
      · simp only [Except.map, Except.ok.injEq] at h
        exact key _ (hg _) h
    unfold Grammar.assignTypes at h
    split at h
    · exact ih h hg hd hn
    · split at h
      · cases h
      · exact ih h (hg.modify (fun _ _ => by simp)) hd hn
      · rename_i T hT
        have hTu : T ≠ .unit := by rintro rfl; exact hfin hT
        simp only at h
        refine ih h (hg.modify (fun _ _ => by simpa using hTu)) hd ?_
        split
        · exact hn
        · simp only [List.mem_append, List.mem_singleton]
          rintro (h | h)
          · exact hn h
          · exact hTu h.symm

theorem Bridge0.noUnit {g : Grammar} (b : Bridge0 ord ds g) (h : Ty.unit ∉ writtenTypes ds) : NoUnit g := by
  have hwt : ∀ {T : Ty}, T ∈ writtenTypes ds → T ≠ .unit := by rintro T hT rfl; exact h hT
  have hty : ∀ i, typeOf ds i ≠ some .unit := by
    intro i hi
    unfold typeOf at hi
    obtain ⟨d, hd, he⟩ := List.exists_of_findSome?_eq_some hi
    refine hwt ?_ rfl
    unfold writtenTypes
    rw [List.mem_flatMap]
    refine ⟨d, hd, ?_⟩
    split at he
    · split at he
      · cases he; simp
      · cases he
    · cases he
  have het : extraTokenOf ds ≠ some .unit := by
    intro hi
    unfold extraTokenOf at hi
    obtain ⟨d, hd, he⟩ := List.exists_of_findSome?_eq_some hi
    refine hwt ?_ rfl
    unfold writtenTypes
    rw [List.mem_flatMap]
    refine ⟨d, hd, ?_⟩
    split at he
    · cases he; simp
    · cases he
  have hD : NoUnit b.gD := by
    intro x
    by_cases hx : x < b.gD.syms.length
    · cases hn : (b.gD.sym x).name with
      | ident i => rw [(b.decl.sym b.dinv hx hn).2.2.2.2]; exact hty i
      | _ => rw [(b.plainAnon x hx (by rw [hn]; rfl)).2.1]; simp
    · unfold Grammar.sym
      rw [List.getD_eq_getElem?_getD, List.getElem?_eq_none (Nat.le_of_not_lt hx)]
      show (none : Option Ty) ≠ _
      simp
  have hP1 : NoUnit (b.gD.pushSym { name := .dflt, kind := .nonTerminal }) := by
    intro x
    rcases Nat.lt_trichotomy x b.gD.syms.length with hx | hx | hx
    · rw [sym_pushSym_lt hx]; exact hD x
    · subst hx; rw [sym_pushSym_last]; simp
    · unfold Grammar.sym
      rw [List.getD_eq_getElem?_getD, List.getElem?_eq_none (by rw [length_pushSym]; exact hx)]
      show (none : Option Ty) ≠ _
      simp
  have hP2 : NoUnit (b.gD.pushSym { name := .dflt, kind := .nonTerminal }).indexed := by
    intro x
    rw [proj_indexed Symbol.dataType (fun _ _ => rfl)]; exact hP1 x
  have hext : ((b.gD.pushSym { name := .dflt, kind := .nonTerminal }).indexed).extraToken ≠ some .unit := by
    rw [indexed_extraToken]
    show b.gD.extraToken ≠ _
    rw [b.decl.extraToken]; exact het
  have hfold : ∀ {f : Symbol → Symbol}, (∀ b : Symbol, b.dataType ≠ some .unit → (f b).dataType ≠ some .unit) → ∀ (l : List SymbolId) (g : Grammar),
      NoUnit g → NoUnit (l.foldl (fun g s => g.modifySym s f) g) := by
    intro f hf l
    induction l with
    | nil => intro g h; exact h
    | cons a l ih => intro g h; exact ih _ (h.modify hf)
  have hP3 : NoUnit ((b.gD.pushSym { name := .dflt, kind := .nonTerminal }).indexed).addExtraToken := by
    revert hP2 hext
    generalize (b.gD.pushSym { name := .dflt, kind := .nonTerminal }).indexed = gI
    intro hP2 hext
    unfold Grammar.addExtraToken
    cases he : gI.extraToken with
    | none => exact hP2
    | some et =>
      simp only
      refine hfold ?_ _ _ hP2
      intro c hc
      have : et ≠ .unit := by rintro rfl; exact hext he
      cases c.dataType <;> simp [this]
  have hopt : ∀ (l : List (SymbolId × SymbolId)) (g : Grammar), NoUnit g → NoUnit (l.foldl Grammar.addOptional g) := by
    intro l
    induction l with
    | nil => intro g h; exact h
    | cons a l ih =>
      intro g h
      refine ih _ ?_
      intro x
      unfold Grammar.addOptional
      simp only
      rw [proj_createRule Symbol.dataType (fun _ _ => rfl), proj_createRule Symbol.dataType (fun _ _ => rfl)]
      exact (h.modify (fun _ _ => by simp)) x
  intro x
  rw [b.types, b.gP_eq, prepare_eq]
  unfold Grammar.addOptionals
  exact hopt _ _ hP3 x

theorem Made.rootTyped (m : Made s dflt) (ho : OrdOk ord) (b : Bridge ord ds s.g) (h : rootOk ds = true) : s.RootTyped := by
  obtain ⟨x, i, h1, h2, h3, h4, h5⟩ := b.start_name m.inv
  have hcls : isClass ds i = false := by
    cases hcl : isClass ds i with
    | false => rfl
    | true =>
      exfalso
      have hk := (b.decl.sym b.dinv h2 h3).2.1.2 hcl
      have := b.dinv.kinds x h2
      rw [h3, hk] at this
      cases i <;> first | (cases h5; done) | cases this
  have hw : wildcardOf ds ≠ some i := by
    intro hw
    have := (m.inv.wild x ((b.wild_name h2 h3).2 hw)).2
    rw [b.name h2, h3] at this
    cases i <;> first | (cases h5; done) | cases this
  obtain ⟨p1, p2, p3⟩ := m.plain ho b h2 h3 hcls hw
  have hst : s.gen.gT.start = some x := by rw [s.gen.shape.start, h1]
  have hroot := s.gen.rootDt
  rw [hst, Option.getD_some, p1] at hroot
  intro n hn
  rw [h1, Option.getD_some, p2]
  rw [hn] at hroot
  unfold rootOk at h
  rw [h4, Option.bind_some] at h
  cases hp : plainType ds i with
  | some T =>
    rw [hp, Option.getD_some, if_pos (by simpa using p3 T hp)] at hroot
    simp only [Option.some.injEq] at hroot
    rw [hroot]; rfl
  | none =>
    exfalso
    rw [hp] at h hroot
    simp only [Option.isSome_none, Bool.false_or, Bool.not_eq_true', List.contains_eq_mem, decide_eq_false_iff_not] at h
    have hdt : s.g.defaultType ≠ some .unit := by
      rw [b.defaultType, b.decl.defaultType]
      intro hi
      unfold defaultTypeOf at hi
      obtain ⟨d, hd, he⟩ := List.exists_of_findSome?_eq_some hi
      apply h
      unfold writtenTypes
      rw [List.mem_flatMap]
      refine ⟨d, hd, ?_⟩
      split at he
      · cases he; simp
      · cases he
    have := assignTypes_noUnit s.gen.assign (b.noUnit h) hdt (by simp)
    rw [if_neg (by simpa using this)] at hroot
    cases hroot

end

end Pomelo
