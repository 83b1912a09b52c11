import Verif.Spec.Reading
import Verif.Proofs.Errors
/-! # Reading declarations: what is refused -/

namespace Pomelo

open Spec

theorem declTokens_fails {e : GErr} : ∀ {ids : List Ident} {g : Grammar} {e' : GErr}, g.declTokens e ids = .error e' →
    e' = e ∧ ∃ i ∈ ids, i.isTerminal = false := by
  intro ids
  induction ids with
  | nil => intro g e' h; cases h
  | cons id ids ih =>
    intro g e' h
    unfold Grammar.declTokens at h
    split at h
    · rename_i h1
      cases h
      exact ⟨rfl, id, by simp, by simpa using h1⟩
    · simp only at h
      split at h
      · cases h
      · rename_i e1 h1
        cases h
        obtain ⟨h2, i, h3, h4⟩ := ih h1
        exact ⟨h2, i, List.mem_cons_of_mem _ h3, h4⟩

theorem declTokens_names {e : GErr} : ∀ {ids : List Ident} {g g' : Grammar} {ss : List SymbolId}, g.declTokens e ids = .ok (g', ss) →
    ∀ i ∈ ids, i.isTerminal = true := by
  intro ids
  induction ids with
  | nil => intro g g' ss h i hi; cases hi
  | cons id ids ih =>
    intro g g' ss h
    unfold Grammar.declTokens at h
    split at h
    · cases h
    · rename_i h1
      simp only at h
      split at h
      · rename_i h2
        cases h
        intro i hi
        rcases List.mem_cons.1 hi with rfl | hi
        · simpa using h1
        · exact ih h2 i hi
      · cases h

theorem declClass_fails {tk : SymbolId} : ∀ {ids : List Ident} {g : Grammar} {e' : GErr}, g.declClass tk ids = .error e' →
    e' = .classNotToken ∧ ∃ i ∈ ids, i.isTerminal = false := by
  intro ids
  induction ids with
  | nil => intro g e' h; cases h
  | cons id ids ih =>
    intro g e' h
    unfold Grammar.declClass at h
    split at h
    · rename_i h1
      cases h
      exact ⟨rfl, id, by simp, by simpa using h1⟩
    · obtain ⟨h2, i, h3, h4⟩ := ih h
      exact ⟨h2, i, List.mem_cons_of_mem _ h3, h4⟩

theorem declClass_names {tk : SymbolId} : ∀ {ids : List Ident} {g g' : Grammar}, g.declClass tk ids = .ok g' → ∀ i ∈ ids, i.isTerminal = true := by
  intro ids
  induction ids with
  | nil => intro g g' h i hi; cases hi
  | cons id ids ih =>
    intro g g' h
    unfold Grammar.declClass at h
    split at h
    · cases h
    · rename_i h1
      intro i hi
      rcases List.mem_cons.1 hi with rfl | hi
      · simpa using h1
      · exact ih h i hi

/-- The errors of a precedence directive are those of `assocFault`. -/
theorem declAssoc_fault {p : Precedence} {ds : List Decl} : ∀ {ids seen : List Ident} {g : Grammar}, DInv g →
    (∀ i, (g.obs i).precedence.isSome = true ↔ (i ∈ seen ∨ (precOf ds i).isSome = true)) →
    match g.declAssoc p ids with
    | .ok _ => assocFault ds seen ids = none
    | .error e => assocFault ds seen ids = some e := by
  intro ids
  induction ids with
  | nil => intro seen g hd h; rfl
  | cons id ids ih =>
    intro seen g hd h
    unfold Grammar.declAssoc assocFault
    by_cases h1 : (!id.isTerminal) = true
    · rw [if_pos h1, if_pos (by simpa using h1)]
    · rw [if_neg h1, if_neg (by simpa using h1)]
      obtain ⟨j1, j2, j3, j4, _⟩ := hd.symbolNew (askOk_upper h1)
      have ho := obs_symbolNew' hd (askOk_upper h1) (by simp)
      rcases hs : g.symbolNew (.ident id) .terminal with ⟨g1, s⟩
      rw [hs] at j1 j2 j3 j4 ho
      simp only at j1 j2 j3 j4 ho ⊢
      have hob : (g.obs id).precedence = (g1.sym s).precedence := by
        rw [← ho id, obs_of_name j1 j3 j4]; rfl
      have hid := h id
      rw [hob] at hid
      cases hq : (g1.sym s).precedence with
      | some q =>
        simp only
        rw [if_pos (hid.1 (by rw [hq]; rfl))]
      | none =>
        simp only
        rw [if_neg (fun hh => by have := hid.2 hh; rw [hq] at this; cases this)]
        have hd2 : DInv (g1.modifySym s (fun b => { b with precedence := some p })) :=
          j1.modify (fun _ => rfl) (fun _ => rfl) (fun _ => rfl) (fun _ => rfl) (j1.kinds s) (j1.subs s) (j1.subsKind s) (j1.fb s)
        have hom : ∀ i, ((g1.modifySym s (fun b => { b with precedence := some p })).obs i).precedence =
            if i = id then some p else (g.obs i).precedence := by
          intro i
          rw [obs_modify (f := fun b => { b with precedence := some p }) j1 j3 (fun _ => rfl), j4]
          by_cases hi : i = id
          · subst hi; simp [Symbol.attrs]
          · rw [if_neg (by intro hh; injection hh with hh; exact hi hh.symm), if_neg hi, ho]
        refine ih hd2 (fun i => ?_)
        rw [hom]
        by_cases hi : i = id
        · simp [hi]
        · rw [if_neg hi, h i, List.mem_cons]
          simp [hi]

theorem declElem_fails {g : Grammar} {x : RhsElem} {e' : GErr} (h : g.declElem x = .error e') : elemFault x = some e' := by
  unfold Grammar.declElem at h
  unfold elemFault
  split at h
  · rename_i tok htok
    rw [htok]
    simp only at h ⊢
    cases h1 : tok.isTerminal
    · cases h2 : tok.isNonTerminal
      · rw [h1, h2] at h
        cases h; rfl
      · rw [h1, h2] at h
        simp only at h
        repeat' split at h
        all_goals first | cases h | skip
        all_goals simp_all
    · rw [h1] at h
      simp only at h
      repeat' split at h
      all_goals first | cases h | skip
      all_goals simp_all
  · rename_i hne
    simp only at h
    split at h
    · rename_i e1 h1
      cases h
      obtain ⟨h2, i, h3, h4⟩ := declTokens_fails h1
      split
      · rename_i tok htok; exact absurd htok (hne tok)
      · rw [if_neg, h2]
        rw [List.all_eq_true]
        intro hall
        rw [hall i h3] at h4
        cases h4
    · cases h

theorem declElem_clean {g g' : Grammar} {x : RhsElem} {y : RhsSym} (h : g.declElem x = .ok (g', y)) : elemFault x = none := by
  unfold Grammar.declElem at h
  unfold elemFault
  split at h
  · rename_i tok htok
    rw [htok]
    simp only at h ⊢
    cases h1 : tok.isTerminal
    · cases h2 : tok.isNonTerminal
      · rw [h1, h2] at h
        cases h
      · rfl
    · rfl
  · rename_i hne
    simp only at h
    split at h
    · cases h
    · rename_i g2 ss h1
      split
      · rename_i tok htok; exact absurd htok (hne tok)
      · rw [if_pos]
        rw [List.all_eq_true]
        exact declTokens_names h1

theorem declRhs_fault : ∀ {es : List RhsElem} {g : Grammar},
    match g.declRhs es with
    | .ok _ => es.findSome? elemFault = none
    | .error e => es.findSome? elemFault = some e := by
  intro es
  induction es with
  | nil => intro g; rfl
  | cons x es ih =>
    intro g
    unfold Grammar.declRhs
    rw [List.findSome?_cons]
    cases h1 : g.declElem x with
    | error e => simp only [declElem_fails h1]
    | ok y =>
      obtain ⟨g1, y⟩ := y
      simp only [declElem_clean h1]
      have := ih (g := g1)
      cases h2 : g1.declRhs es with
      | error e => rw [h2] at this; exact this
      | ok z => rw [h2] at this; exact this

/-! ## Fallbacks -/

section walk
variable {g : Grammar} {ds : List Decl} {ids : List Ident} {ss : List SymbolId}

/-- A step of the walk that does not come to one of the targets -/
def Grammar.walkStep (g : Grammar) (ss : List SymbolId) (s : SymbolId) : Option SymbolId :=
  match (g.sym s).fallback with
  | none => none
  | some nx => if ss.contains nx then none else some nx

theorem walk_hang {s k : Nat} (h : EndsIn (g.walkStep ss) s k) : ∀ {fuel : Nat}, k < fuel → g.fallbackWalk ss fuel s ≠ .error .hang := by
  induction h with
  | @stop s h =>
    intro fuel hf
    obtain ⟨fuel, rfl⟩ := Nat.exists_eq_succ_of_ne_zero (Nat.ne_of_gt (Nat.lt_of_le_of_lt (Nat.zero_le _) hf))
    unfold Grammar.fallbackWalk
    unfold Grammar.walkStep at h
    split
    · simp
    · rename_i nx hn
      rw [hn] at h
      simp only at h
      split at h
      · rename_i hc; rw [if_pos hc]; simp
      · cases h
  | @next s b k h _ ih =>
    intro fuel hf
    obtain ⟨fuel, rfl⟩ := Nat.exists_eq_succ_of_ne_zero (Nat.ne_of_gt (Nat.lt_of_le_of_lt (Nat.zero_le _) hf))
    unfold Grammar.fallbackWalk
    unfold Grammar.walkStep at h
    split
    · simp
    · rename_i nx hn
      rw [hn] at h
      simp only at h
      split at h
      · cases h
      · rename_i hc
        cases h
        rw [if_neg hc]
        exact ih (Nat.lt_of_succ_lt_succ hf)

variable (hd : DInv g) (hF : ∀ i, (g.obs i).fallback = (fallbackOf ds i).map SymName.ident)
  (hss : List.Forall₂ (fun s id => s < g.syms.length ∧ (g.sym s).name = .ident id ∧ (g.sym s).name.isTok = true) ss ids)
include hd hF

theorem sym_fallback {s : SymbolId} (hs : s < g.syms.length) {i : Ident} (hn : (g.sym s).name = .ident i) :
    ((g.sym s).fallback = none ↔ fallbackOf ds i = none) ∧
    (∀ f, (g.sym s).fallback = some f → ∃ j, fallbackOf ds i = some j ∧ f < g.syms.length ∧ (g.sym f).name = .ident j) := by
  have hob : (g.obs i).fallback = (g.sym s).fallback.map (fun m => (g.sym m).name) := by
    rw [obs_of_name hd hs hn]; rfl
  rw [hF i] at hob
  constructor
  · rw [← Option.map_eq_none_iff (f := fun m => (g.sym m).name), ← hob, Option.map_eq_none_iff]
  · intro f hf
    rw [hf] at hob
    obtain ⟨j, h1, h2⟩ := Option.map_eq_some_iff.1 hob
    exact ⟨j, h1, (hd.fb s hs f hf).1, h2.symm⟩

include hss

theorem target_iff {s : SymbolId} (hs : s < g.syms.length) {i : Ident} (hn : (g.sym s).name = .ident i) : ss.contains s = true ↔ i ∈ ids := by
  rw [List.contains_iff_mem]
  constructor
  · intro hm
    obtain ⟨n, hn1, hn2⟩ := List.getElem_of_mem hm
    have hl := hss.length_eq
    have := List.forall₂_iff_get.1 hss |>.2 n hn1 (by omega)
    simp only [List.get_eq_getElem, hn2] at this
    rw [hn] at this
    obtain ⟨_, h2, _⟩ := this
    injection h2 with h2
    rw [h2]
    exact List.getElem_mem _
  · intro hm
    obtain ⟨n, hn1, hn2⟩ := List.getElem_of_mem hm
    have hl := hss.length_eq
    have := List.forall₂_iff_get.1 hss |>.2 n (by omega) hn1
    simp only [List.get_eq_getElem, hn2] at this
    have he := hd.names s _ hs this.1 (by rw [hn, this.2.1]) (by rw [hn]; simp)
    rw [he]
    exact List.getElem_mem _

theorem walk_ok : ∀ {fuel : Nat} {s : SymbolId} {i : Ident}, s < g.syms.length → (g.sym s).name = .ident i →
    g.fallbackWalk ss fuel s = .ok () → Ends (fallbackOf ds) i ∧ ¬ Meets ds ids i := by
  intro fuel
  induction fuel with
  | zero => intro s i _ _ h; cases h
  | succ fuel ih =>
    intro s i hs hn h
    unfold Grammar.fallbackWalk at h
    obtain ⟨h1, h2⟩ := sym_fallback hd hF hs hn
    split at h
    · rename_i hf
      have h3 := h1.1 hf
      refine ⟨.stop h3, ?_⟩
      rintro (⟨h4, _⟩ | ⟨h4, _⟩) <;> rw [h3] at h4 <;> cases h4
    · rename_i nx hf
      obtain ⟨j, h3, h4, h5⟩ := h2 nx hf
      split at h
      · cases h
      · rename_i hc
        obtain ⟨h6, h7⟩ := ih h4 h5 h
        refine ⟨.next h3 h6, ?_⟩
        rintro (⟨h8, h9⟩ | ⟨h8, h9⟩) <;> rw [h3] at h8 <;> cases h8
        · exact hc ((target_iff hd hF hss h4 h5).2 h9)
        · exact h7 h9

theorem walk_loop : ∀ {fuel : Nat} {s : SymbolId} {i : Ident}, s < g.syms.length → (g.sym s).name = .ident i →
    ∀ {e}, g.fallbackWalk ss fuel s = .error e → (e = .fallbackLoop ∧ Meets ds ids i) ∨ (e = .hang) := by
  intro fuel
  induction fuel with
  | zero => intro s i _ _ e h; cases h; exact .inr rfl
  | succ fuel ih =>
    intro s i hs hn e h
    unfold Grammar.fallbackWalk at h
    obtain ⟨h1, h2⟩ := sym_fallback hd hF hs hn
    split at h
    · cases h
    · rename_i nx hf
      obtain ⟨j, h3, h4, h5⟩ := h2 nx hf
      split at h
      · rename_i hc
        cases h
        exact .inl ⟨rfl, .here h3 ((target_iff hd hF hss h4 h5).1 hc)⟩
      · rcases ih h4 h5 h with ⟨h6, h7⟩ | h6
        · exact .inl ⟨h6, .later h3 h7⟩
        · exact .inr h6

theorem walk_forever {s : SymbolId} {i : Ident} (hs : s < g.syms.length) (hn : (g.sym s).name = .ident i)
    (h : g.fallbackWalk ss (g.syms.length + 1) s = .error .hang) : ¬ Meets ds ids i ∧ ¬ Ends (fallbackOf ds) i := by
  have hlt : ∀ a b, g.walkStep ss a = some b → b < g.syms.length := by
    intro a b hab
    unfold Grammar.walkStep at hab
    split at hab
    · cases hab
    · rename_i nx hf
      split at hab
      · cases hab
      · cases hab
        exact sym_fallback_lt (fun s hs f hf => (hd.fb s hs f hf).1) a _ hf
  have hne : ¬ Ends (g.walkStep ss) s := by
    intro he
    obtain ⟨k, hk⟩ := endsIn_of_ends he
    exact walk_hang hk (Nat.lt_succ_of_lt (hk.lt hlt hs)) h
  constructor
  · intro hm
    apply hne
    clear h hne
    induction hm generalizing s with
    | @here i j h1 h2 =>
      obtain ⟨h3, h4⟩ := sym_fallback hd hF hs hn
      cases hf : (g.sym s).fallback with
      | none => rw [h3.1 hf] at h1; cases h1
      | some nx =>
        obtain ⟨j', h5, h6, h7⟩ := h4 nx hf
        rw [h1] at h5; cases h5
        refine .stop ?_
        unfold Grammar.walkStep
        rw [hf]
        simp only
        rw [if_pos ((target_iff hd hF hss h6 h7).2 h2)]
    | @later i j h1 h2 ih =>
      obtain ⟨h3, h4⟩ := sym_fallback hd hF hs hn
      cases hf : (g.sym s).fallback with
      | none => rw [h3.1 hf] at h1; cases h1
      | some nx =>
        obtain ⟨j', h5, h6, h7⟩ := h4 nx hf
        rw [h1] at h5; cases h5
        by_cases hc : ss.contains nx = true
        · refine .stop ?_
          unfold Grammar.walkStep
          rw [hf]
          simp only
          rw [if_pos hc]
        · refine .next (b := nx) ?_ (ih h6 h7)
          unfold Grammar.walkStep
          rw [hf]
          simp only
          rw [if_neg hc]
  · intro he
    apply hne
    clear h hne
    induction he generalizing s with
    | @stop i h1 =>
      obtain ⟨h3, _⟩ := sym_fallback hd hF hs hn
      refine .stop ?_
      unfold Grammar.walkStep
      rw [h3.2 h1]
    | @next i j h1 _ ih =>
      obtain ⟨h3, h4⟩ := sym_fallback hd hF hs hn
      cases hf : (g.sym s).fallback with
      | none => rw [h3.1 hf] at h1; cases h1
      | some nx =>
        obtain ⟨j', h5, h6, h7⟩ := h4 nx hf
        rw [h1] at h5; cases h5
        by_cases hc : ss.contains nx = true
        · refine .stop ?_
          unfold Grammar.walkStep
          rw [hf]
          simp only
          rw [if_pos hc]
        · refine .next (b := nx) ?_ (ih h6 h7)
          unfold Grammar.walkStep
          rw [hf]
          simp only
          rw [if_neg hc]

end walk

theorem setFallbacks_fails {f : SymbolId} : ∀ {ids : List Ident} {ss : List SymbolId} {g : Grammar} {e : GErr}, DInv g →
    f < g.syms.length → (g.sym f).name.isTok = true →
    List.Forall₂ (fun s id => s < g.syms.length ∧ (g.sym s).name = .ident id ∧ (g.sym s).name.isTok = true) ss ids →
    g.setFallbacks f ss = .error e → e = .fallbackTwice ∧ (¬ ids.Nodup ∨ ∃ i ∈ ids, (g.obs i).fallback.isSome = true) := by
  intro ids
  induction ids with
  | nil => intro ss g e _ _ _ hss h; cases hss; cases h
  | cons i ids ih =>
    intro ss g e hd hf hft hss h
    cases hss with
    | @cons s _ ss _ h1 hss =>
      obtain ⟨h1, h2, h3⟩ := h1
      unfold Grammar.setFallbacks at h
      have hob : (g.obs i).fallback = (g.sym s).fallback.map (fun m => (g.sym m).name) := by
        rw [obs_of_name hd h1 h2]; rfl
      split at h
      · rename_i x hx
        cases h
        exact ⟨rfl, .inr ⟨i, by simp, by rw [hob, hx]; rfl⟩⟩
      · rename_i hx
        have hd2 : DInv (g.modifySym s (fun b => { b with fallback := some f })) := by
          refine hd.modify (fun _ => rfl) (fun _ => rfl) (fun _ => rfl) (fun _ => rfl) (hd.kinds s) (hd.subs s) (hd.subsKind s) ?_
          intro _ x hx
          simp only [Option.some.injEq] at hx
          subst hx
          exact ⟨hf, hft, h3⟩
        have hn : ∀ x, ((g.modifySym s (fun b => { b with fallback := some f })).sym x).name = (g.sym x).name := proj_modifySym Symbol.name (fun _ => rfl)
        have hd3 : DInv { g.modifySym s (fun b => { b with fallback := some f }) with hasFallback := true } := hd2.congr rfl rfl rfl rfl rfl rfl rfl
        obtain ⟨e1, e2⟩ := ih hd3 (by simpa [Grammar.modifySym] using hf) (by show ((g.modifySym s _).sym f).name.isTok = true; rw [hn]; exact hft)
          (List.Forall₂.imp (fun a b hab => by
            refine ⟨by simpa [Grammar.modifySym] using hab.1, ?_⟩
            show ((g.modifySym s _).sym a).name = _ ∧ ((g.modifySym s _).sym a).name.isTok = true
            rw [hn]; exact hab.2) hss) h
        refine ⟨e1, ?_⟩
        rcases e2 with e2 | ⟨j, hj, e2⟩
        · exact .inl (fun hh => e2 (List.nodup_cons.1 hh).2)
        · rw [obs_congr (g' := { g.modifySym s (fun b => { b with fallback := some f }) with hasFallback := true })
            (g := g.modifySym s (fun b => { b with fallback := some f })) rfl rfl, obs_modify (f := fun b => { b with fallback := some f }) hd h1 (fun _ => rfl), h2] at e2
          split at e2
          · rename_i hh
            injection hh with hh
            subst hh
            exact .inl (fun hh => (List.nodup_cons.1 hh).1 hj)
          · exact .inr ⟨j, List.mem_cons_of_mem _ hj, e2⟩

/-! ## Directives that may be used once -/

theorem flag_foldl (π : Glob → Bool) (Q : Decl → Bool) (h : ∀ a d, π (a.step d) = (π a || Q d)) :
    ∀ (ds : List Decl) (a : Glob), π (ds.foldl Glob.step a) = (π a || ds.any Q) := by
  intro ds
  induction ds with
  | nil => intro a; simp
  | cons d ds ih => intro a; rw [List.foldl_cons, ih, h, List.any_cons, Bool.or_assoc]

/-- `%stack_size` with a type -/
def typedStack : Decl → Bool
  | .stackSize _ (some _) => true
  | _ => false

theorem stackType_foldl : ∀ (ds : List Decl) (a : Glob) (o : Ident → Attrs), preAll a o ds →
    (ds.foldl Glob.step a).stackType.isSome = (a.stackType.isSome || ds.any typedStack) := by
  intro ds
  induction ds with
  | nil => intro a o _; simp
  | cons d ds ih =>
    intro a o h
    obtain ⟨h1, _, h3⟩ := h
    rw [List.foldl_cons, ih _ _ h3, List.any_cons, ← Bool.or_assoc]
    congr 1
    cases d with
    | stackSize l ty =>
      have : a.stackType = none := h1
      cases ty <;> simp [Glob.step, typedStack, this]
    | _ => simp [Glob.step, typedStack]

theorem any_iff {ds : List Decl} {Q : Decl → Bool} {d' : Decl} (h : ∀ d, Q d = true ↔ Twice d d') :
    ds.any Q = false ↔ ∀ d ∈ ds, ¬ Twice d d' := by
  rw [List.any_eq_false]
  simp only [h]

theorem pre_iff {ds : List Decl} {g : Grammar} (hg : Grammar.initial.parseDecls ds = .ok g) (d' : Decl) :
    g.glob.pre d' ↔ ∀ d ∈ ds, ¬ Twice d d' := by
  obtain ⟨h1, h2, _⟩ := preAll_parseDecls DInv.initial hg
  have flag : ∀ (π : Glob → Bool) (Q : Decl → Bool), (∀ a d, π (a.step d) = (π a || Q d)) → π Grammar.initial.glob = false →
      (∀ d, Q d = true ↔ Twice d d') → (π g.glob = false ↔ ∀ d ∈ ds, ¬ Twice d d') := by
    intro π Q hπ h0 hQ
    rw [h2, flag_foldl π Q hπ, h0, Bool.false_or, any_iff hQ]
  have none_iff : ∀ {α : Type} (o : Option α), o = none ↔ o.isSome = false := by
    intro α o; cases o <;> simp
  cases d'
  case syntaxError => exact flag (·.syntaxError) (fun | .syntaxError => true | _ => false) (fun a d => by cases d <;> simp [Glob.step]) rfl (fun d => by cases d <;> simp [Twice])
  case parseFail => exact flag (·.parseFail) (fun | .parseFail => true | _ => false) (fun a d => by cases d <;> simp [Glob.step]) rfl (fun d => by cases d <;> simp [Twice])
  case stackOverflow => exact flag (·.stackOverflow) (fun | .stackOverflow => true | _ => false) (fun a d => by cases d <;> simp [Glob.step]) rfl (fun d => by cases d <;> simp [Twice])
  case token it =>
    exact (none_iff _).trans (flag (·.tokenEnum.isSome) (fun | .token _ => true | _ => false) (fun a d => by cases d <;> simp [Glob.step]) rfl (fun d => by cases d <;> simp [Twice]))
  case parser it =>
    exact (none_iff _).trans (flag (·.parserStruct.isSome) (fun | .parser _ => true | _ => false) (fun a d => by cases d <;> simp [Glob.step]) rfl (fun d => by cases d <;> simp [Twice]))
  case defaultType t =>
    exact (none_iff _).trans (flag (·.defaultType.isSome) (fun | .defaultType _ => true | _ => false) (fun a d => by cases d <;> simp [Glob.step]) rfl (fun d => by cases d <;> simp [Twice]))
  case extraArgument t =>
    exact (none_iff _).trans (flag (·.arg.isSome) (fun | .extraArgument _ => true | _ => false) (fun a d => by cases d <;> simp [Glob.step]) rfl (fun d => by cases d <;> simp [Twice]))
  case error t =>
    exact (none_iff _).trans (flag (·.errType.isSome) (fun | .error _ => true | _ => false) (fun a d => by cases d <;> simp [Glob.step]) rfl (fun d => by cases d <;> simp [Twice]))
  case startSymbol t =>
    exact (none_iff _).trans (flag (·.start.isSome) (fun | .startSymbol _ => true | _ => false) (fun a d => by cases d <;> simp [Glob.step]) rfl (fun d => by cases d <;> simp [Twice]))
  case wildcard t =>
    exact (none_iff _).trans (flag (·.wildcard.isSome) (fun | .wildcard _ => true | _ => false) (fun a d => by cases d <;> simp [Glob.step]) rfl (fun d => by cases d <;> simp [Twice]))
  case extraToken t =>
    exact (none_iff _).trans (flag (·.extraToken.isSome) (fun | .extraToken _ => true | _ => false) (fun a d => by cases d <;> simp [Glob.step]) rfl (fun d => by cases d <;> simp [Twice]))
  case stackSize l ty =>
    show g.glob.stackType = none ↔ _
    rw [none_iff, h2, stackType_foldl _ _ _ h1]
    have : Grammar.initial.glob.stackType.isSome = false := rfl
    rw [this, Bool.false_or]
    refine any_iff (fun d => ?_)
    cases d with
    | stackSize l' ty' => cases ty' <;> simp [Twice, typedStack]
    | _ => simp [Twice, typedStack]
  all_goals
    refine ⟨fun _ d _ hh => ?_, fun _ => trivial⟩
    cases d <;> simp [Twice] at hh

/-! ## One declaration -/

theorem startDirective_none {ds : List Decl} : startDirective ds = none ↔ ∀ d ∈ ds, ∀ i, d ≠ .startSymbol i := by
  unfold startDirective
  rw [List.findSome?_eq_none_iff]
  refine forall₂_congr (fun d _ => ?_)
  cases d <;> simp

theorem wildcardOf_none {ds : List Decl} : wildcardOf ds = none ↔ ∀ d ∈ ds, ∀ i, d ≠ .wildcard i := by
  unfold wildcardOf
  rw [List.findSome?_eq_none_iff]
  refine forall₂_congr (fun d _ => ?_)
  cases d <;> simp

/-- A declaration is refused for one reason. -/
theorem Spec.Refuses.unique {ds : List Decl} {d : Decl} {e e' : GErr} (h : Refuses ds d e) (h' : Refuses ds d e') : e = e' := by
  have hn : ∀ {i : Ident}, i.isTerminal = true → i.isNonTerminal = true → False := by
    intro i; cases i <;> simp [Ident.isTerminal, Ident.isNonTerminal]
  have hno : ∀ {ids : List Ident}, (∃ i ∈ ids, i.isTerminal = false) → (∀ i ∈ ids, i.isTerminal = true) → False := by
    rintro ids ⟨i, h1, h2⟩ h3
    rw [h3 i h1] at h2; cases h2
  cases h with
  | @twice c _ h1 h2 =>
    cases h' with
    | twice h3 h4 => rfl
    | startName h3 h4 => cases c <;> simp [Twice] at h2; exact absurd rfl (startDirective_none.1 h3 _ h1 _)
    | wildcardName h3 h4 => cases c <;> simp [Twice] at h2; exact absurd rfl (wildcardOf_none.1 h3 _ h1 _)
    | _ => cases c <;> simp [Twice] at h2
  | startName h1 h2 =>
    cases h' with
    | @twice c _ h3 h4 => cases c <;> simp [Twice] at h4; exact absurd rfl (startDirective_none.1 h1 _ h3 _)
    | startName => rfl
  | wildcardName h1 h2 =>
    cases h' with
    | @twice c _ h3 h4 => cases c <;> simp [Twice] at h4; exact absurd rfl (wildcardOf_none.1 h1 _ h3 _)
    | wildcardName => rfl
  | assoc h1 =>
    cases h' with
    | @twice c _ h3 h4 => cases c <;> simp [Twice] at h4
    | assoc h3 => rw [h1] at h3; cases h3; rfl
  | _ =>
    cases h' with
    | @twice c _ h3 h4 => cases c <;> simp [Twice] at h4
    | _ => first
      | rfl
      | (exfalso; simp_all; done)
      | (simp_all; done)
      | (exfalso; exact hno (by assumption) (by assumption))
      | (exfalso; simp only [or_false, and_false, Bool.false_eq_true, Bool.true_eq_false] at *; first | exact hn (by assumption) (by assumption) | skip)

/-- The outcome of reading a declaration -/
theorem parseOneDecl_refuses {ds : List Decl} {g : Grammar} (hg : Grammar.initial.parseDecls ds = .ok g) (d : Decl) :
    match g.parseOneDecl d with
    | .ok _ => ∀ e, ¬ Refuses ds d e
    | .error e => Refuses ds d e := by
  have hd := (DInv.initial.parseDecls hg).1
  have hD := declared hg
  have single : ∀ (d : Decl) (x : Bool) (g' : Grammar), (x = false ↔ g.glob.pre d) → (∀ e, Refuses ds d e → ∃ c ∈ ds, Twice c d) →
      match (if x = true then .error .alreadyDefined else .ok g' : Except GErr Grammar) with
      | .ok _ => ∀ e, ¬ Refuses ds d e
      | .error e => Refuses ds d e := by
    intro d x g' hx hr
    cases x with
    | false =>
      intro e he
      obtain ⟨c, h1, h2⟩ := hr e he
      exact (pre_iff hg d).1 (hx.1 rfl) c h1 h2
    | true =>
      have : ¬ g.glob.pre d := fun hh => by have := hx.2 hh; cases this
      rw [pre_iff hg d] at this
      simp only [not_forall, not_not] at this
      obtain ⟨c, h1, h2⟩ := this
      exact .twice h1 h2
  have none_iff : ∀ {α : Type} (o : Option α), o.isSome = false ↔ o = none := by
    intro α o; cases o <;> simp
  cases d with
  | «module» => rintro e (⟨h1, h2⟩); rename_i c; cases c <;> simp [Twice] at h2
  | «include» => rintro e (⟨h1, h2⟩); rename_i c; cases c <;> simp [Twice] at h2
  | verbose => rintro e (⟨h1, h2⟩); rename_i c; cases c <;> simp [Twice] at h2
  | syntaxError => exact single _ g.syntaxError _ Iff.rfl (fun e he => by cases he with | twice h1 h2 => exact ⟨_, h1, h2⟩)
  | parseFail => exact single _ g.parseFail _ Iff.rfl (fun e he => by cases he with | twice h1 h2 => exact ⟨_, h1, h2⟩)
  | stackOverflow => exact single _ g.stackOverflow _ Iff.rfl (fun e he => by cases he with | twice h1 h2 => exact ⟨_, h1, h2⟩)
  | token it => exact single _ g.tokenEnum.isSome _ (none_iff _) (fun e he => by cases he with | twice h1 h2 => exact ⟨_, h1, h2⟩)
  | parser it => exact single _ g.parserStruct.isSome _ (none_iff _) (fun e he => by cases he with | twice h1 h2 => exact ⟨_, h1, h2⟩)
  | defaultType t => exact single _ g.defaultType.isSome _ (none_iff _) (fun e he => by cases he with | twice h1 h2 => exact ⟨_, h1, h2⟩)
  | extraArgument t => exact single _ g.arg.isSome _ (none_iff _) (fun e he => by cases he with | twice h1 h2 => exact ⟨_, h1, h2⟩)
  | error t => exact single _ g.errType.isSome _ (none_iff _) (fun e he => by cases he with | twice h1 h2 => exact ⟨_, h1, h2⟩)
  | extraToken t => exact single _ g.extraToken.isSome _ (none_iff _) (fun e he => by cases he with | twice h1 h2 => exact ⟨_, h1, h2⟩)
  | stackSize l t => exact single _ g.stackType.isSome _ (none_iff _) (fun e he => by cases he with | twice h1 h2 => exact ⟨_, h1, h2⟩)
  | startSymbol i =>
    have hp := pre_iff hg (.startSymbol i)
    have hs : g.glob.pre (.startSymbol i) ↔ g.start = none := by
      show g.start.map _ = none ↔ _
      rw [Option.map_eq_none_iff]
    have hsd : g.start = none ↔ startDirective ds = none := by
      have := hD.start
      rw [← Option.map_eq_none_iff (f := fun s => (g.sym s).name), this, Option.map_eq_none_iff]
    unfold Grammar.parseOneDecl
    simp only
    cases h1 : g.start with
    | some s =>
      have : ¬ g.glob.pre (.startSymbol i) := by rw [hs, h1]; simp
      rw [hp] at this
      simp only [not_forall, not_not] at this
      obtain ⟨c, h2, h3⟩ := this
      exact .twice h2 h3
    | none =>
      cases h2 : i.isNonTerminal with
      | false => exact .startName (hsd.1 h1) h2
      | true =>
        intro e he
        cases he with
        | twice h3 h4 => exact hp.1 (hs.2 h1) _ h3 h4
        | startName h3 h4 => rw [h2] at h4; cases h4
  | wildcard i =>
    have hp := pre_iff hg (.wildcard i)
    have hs : g.glob.pre (.wildcard i) ↔ g.wildcard = none := by
      show g.wildcard.map _ = none ↔ _
      rw [Option.map_eq_none_iff]
    have hsd : g.wildcard = none ↔ wildcardOf ds = none := by
      have := hD.wildcard
      rw [← Option.map_eq_none_iff (f := fun s => (g.sym s).name), this, Option.map_eq_none_iff]
    unfold Grammar.parseOneDecl
    simp only
    cases h1 : g.wildcard with
    | some s =>
      have : ¬ g.glob.pre (.wildcard i) := by rw [hs, h1]; simp
      rw [hp] at this
      simp only [not_forall, not_not] at this
      obtain ⟨c, h2, h3⟩ := this
      exact .twice h2 h3
    | none =>
      cases h2 : i.isTerminal with
      | false => exact .wildcardName (hsd.1 h1) h2
      | true =>
        intro e he
        cases he with
        | twice h3 h4 => exact hp.1 (hs.2 h1) _ h3 h4
        | wildcardName h3 h4 => rw [h2] at h4; cases h4
  | type a i ty =>
    have step : ∀ k, askOk (.ident i) k = true → k ≠ .multiTerminal → (i.isTerminal = true ∨ i.isNonTerminal = true ∧ a = false) →
        match (if (((g.symbolNew (.ident i) k).1.sym (g.symbolNew (.ident i) k).2).dataType.isSome = true) then .error .alreadyDefined
          else .ok ((g.symbolNew (.ident i) k).1.modifySym (g.symbolNew (.ident i) k).2 (fun b => { b with dataType := ty, attributes := a })) : Except GErr Grammar) with
        | .ok _ => ∀ e, ¬ Refuses ds (.type a i ty) e
        | .error e => Refuses ds (.type a i ty) e := by
      intro k hk hm hi
      obtain ⟨j1, j2, j3, j4, _⟩ := hd.symbolNew hk
      have ho := obs_symbolNew' hd hk hm i
      rw [obs_of_name j1 j3 j4] at ho
      have hT : ((g.symbolNew (.ident i) k).1.sym (g.symbolNew (.ident i) k).2).dataType = typeOf ds i := by
        rw [← hD.type i, ← ho]; rfl
      rw [hT]
      cases h1 : (typeOf ds i).isSome with
      | true => exact .typeTwice hi h1
      | false =>
        intro e he
        cases he with
        | @twice c _ h3 h4 => cases c <;> simp [Twice] at h4
        | typeAttrs h3 =>
          rcases hi with hi | hi
          · cases i <;> simp [Ident.isTerminal, Ident.isNonTerminal] at hi h3
          · cases hi.2
        | typeName h3 h4 =>
          rcases hi with hi | hi
          · rw [h3] at hi; cases hi
          · rw [h4] at hi; cases hi.1
        | typeTwice h3 h4 => rw [h1] at h4; cases h4
    unfold Grammar.parseOneDecl
    simp only
    cases h1 : i.isTerminal with
    | true => exact step .terminal (askOk_upper (by simp [h1])) (by simp) (.inl h1)
    | false =>
      cases h2 : i.isNonTerminal with
      | false => exact .typeName h1 h2
      | true =>
        cases a with
        | true => exact .typeAttrs h2
        | false => exact step .nonTerminal (askOk_lower (by simp [h2])) (by simp) (.inr ⟨h2, rfl⟩)
  | assoc a ids =>
    have := declAssoc_fault (p := ⟨g.prec + 1, a⟩) (ds := ds) (ids := ids) (seen := []) (g := { g with prec := g.prec + 1 })
      (hd.congr rfl rfl rfl rfl rfl rfl rfl) (fun i => by
        rw [obs_congr (g' := { g with prec := g.prec + 1 }) (g := g) rfl rfl, hD.prec i]
        simp)
    unfold Grammar.parseOneDecl
    simp only
    cases h1 : Grammar.declAssoc { g with prec := g.prec + 1 } ⟨g.prec + 1, a⟩ ids with
    | error e => rw [h1] at this; exact .assoc this
    | ok g' =>
      rw [h1] at this
      intro e he
      cases he with
      | @twice c _ h3 h4 => cases c <;> simp [Twice] at h4
      | assoc h3 => rw [this] at h3; cases h3
  | tokenClass t ids =>
    unfold Grammar.parseOneDecl
    simp only
    cases h1 : t.isTerminal with
    | false => exact .className ⟨t, by simp, h1⟩
    | true =>
      simp only [Bool.not_true, Bool.false_eq_true, if_false]
      cases h2 : Grammar.declClass (g.symbolNew (.ident t) .multiTerminal).1 (g.symbolNew (.ident t) .multiTerminal).2 ids with
      | error e =>
        obtain ⟨rfl, i, h3, h4⟩ := declClass_fails h2
        exact .className ⟨i, List.mem_cons_of_mem _ h3, h4⟩
      | ok g' =>
        intro e he
        cases he with
        | @twice c _ h3 h4 => cases c <;> simp [Twice] at h4
        | className h3 =>
          obtain ⟨i, h3, h4⟩ := h3
          rcases List.mem_cons.1 h3 with rfl | h3
          · rw [h1] at h4; cases h4
          · rw [declClass_names h2 i h3] at h4; cases h4
  | fallback f ids =>
    unfold Grammar.parseOneDecl
    simp only
    cases h1 : g.declTokens .fallbackNotToken ids with
    | error e =>
      obtain ⟨rfl, i, h3, h4⟩ := declTokens_fails h1
      exact .fallbackName ⟨i, List.mem_cons_of_mem _ h3, h4⟩
    | ok r =>
      obtain ⟨g1, ss⟩ := r
      simp only
      have hids := declTokens_names h1
      cases h2 : f.isTerminal with
      | false => exact .fallbackName ⟨f, by simp, h2⟩
      | true =>
        have hall : ∀ i ∈ f :: ids, i.isTerminal = true := by
          intro i hi
          rcases List.mem_cons.1 hi with rfl | hi
          · exact h2
          · exact hids i hi
        have hid : (!f.isTerminal) ≠ true := by simp [h2]
        obtain ⟨i1, i2, i3, i4⟩ := hd.declTokens h1
        obtain ⟨j1, j2, j3, j4, _⟩ := i1.symbolNew (askOk_upper hid)
        have hobs : ∀ i, ((g1.symbolNew (.ident f) .terminal).1.obs i).fallback = (fallbackOf ds i).map SymName.ident := by
          intro i
          rw [obs_symbolNew' i1 (askOk_upper hid) (by simp), obs_declTokens hd h1, hD.fallback i]
        simp only [Bool.not_true, Bool.false_eq_true, if_false]
        have hss : List.Forall₂ (fun s id => s < (g1.symbolNew (.ident f) .terminal).1.syms.length ∧
            ((g1.symbolNew (.ident f) .terminal).1.sym s).name = .ident id ∧ ((g1.symbolNew (.ident f) .terminal).1.sym s).name.isTok = true) ss ids := by
          refine List.Forall₂.imp (fun a b hab => ?_) i4
          refine ⟨Nat.lt_of_lt_of_le hab.1 j2.len, ?_⟩
          rw [j2.name a hab.1]; exact hab.2
        rcases hs : g1.symbolNew (.ident f) .terminal with ⟨g2, s⟩
        rw [hs] at j1 j2 j3 j4 hobs hss
        simp only at j1 j2 j3 j4 hobs hss ⊢
        cases h3 : g2.fallbackWalk ss (g2.syms.length + 1) s with
        | error e =>
          simp only
          rcases walk_loop j1 hobs hss j3 j4 h3 with ⟨rfl, h4⟩ | rfl
          · exact .fallbackLoop hall h4
          · obtain ⟨h4, h5⟩ := walk_forever j1 hobs hss j3 j4 h3
            exact .fallbackForever hall h4 h5
        | ok u =>
          simp only
          obtain ⟨h4, h5⟩ := walk_ok j1 hobs hss j3 j4 h3
          cases h6 : g2.setFallbacks s ss with
          | error e =>
            simp only
            obtain ⟨rfl, h7⟩ := setFallbacks_fails j1 j3 (by rw [j4]; exact isTok_upper hid) hss h6
            refine .fallbackTwice hall h5 h4 (h7.imp_right ?_)
            rintro ⟨i, h8, h9⟩
            refine ⟨i, h8, ?_⟩
            rw [hobs i] at h9
            simpa using h9
          | ok g' =>
            obtain ⟨h7, h8, _⟩ := obs_setFallbacks j1 j3 j4 h2 hss h6
            intro e he
            cases he with
            | @twice c _ h3 h4 => cases c <;> simp [Twice] at h4
            | fallbackName h9 =>
              obtain ⟨i, h9, h10⟩ := h9
              rw [hall i h9] at h10; cases h10
            | fallbackLoop _ h9 => exact h5 h9
            | fallbackForever _ _ h9 => exact h9 h4
            | fallbackTwice _ _ _ h9 =>
              rcases h9 with h9 | ⟨i, h9, h10⟩
              · exact h9 h7
              · have := h8 i h9
                rw [hobs i, Option.map_eq_none_iff] at this
                rw [this] at h10; cases h10
  | rule l rhs c p =>
    unfold Grammar.parseOneDecl
    simp only
    cases h1 : l.isNonTerminal with
    | false => exact .ruleLhs h1
    | true =>
      simp only [Bool.not_true, Bool.false_eq_true, if_false]
      have h2 := declRhs_fault (es := rhs) (g := (g.symbolNew (.ident l) .nonTerminal).1)
      cases h3 : Grammar.declRhs (g.symbolNew (.ident l) .nonTerminal).1 rhs with
      | error e => rw [h3] at h2; exact .ruleElem h1 h2
      | ok r =>
        rw [h3] at h2
        simp only at h2
        obtain ⟨g2, rs⟩ := r
        have key : (∀ i, p = some i → i.isTerminal = true) → ∀ e, ¬ Refuses ds (.rule l rhs c p) e := by
          intro hp e he
          cases he with
          | @twice c _ h3 h4 => cases c <;> simp [Twice] at h4
          | ruleLhs h4 => rw [h1] at h4; cases h4
          | ruleElem _ h4 => rw [h2] at h4; cases h4
          | rulePrec _ _ h4 => rw [hp _ rfl] at h4; cases h4
        cases p with
        | none => exact key (by simp)
        | some i =>
          simp only
          cases h4 : i.isTerminal with
          | false => exact .rulePrec h1 h2 h4
          | true =>
            exact key (by simpa using h4)

/-! ## All declarations -/

theorem parseDecls_after {l : List Decl} {g g' : Grammar} {r : List Decl} (h : g.parseDecls l = .ok g') : g.parseDecls (l ++ r) = g'.parseDecls r := by
  induction l generalizing g with
  | nil => cases h; rfl
  | cons d l ih =>
    rw [List.cons_append, Grammar.parseDecls]
    rw [Grammar.parseDecls] at h
    cases h1 : g.parseOneDecl d with
    | error e => rw [h1] at h; cases h
    | ok g1 => rw [h1] at h; exact ih h

theorem admitted_parse : ∀ {ds : List Decl}, Admitted ds ↔ ∃ g, Grammar.initial.parseDecls ds = .ok g := by
  intro ds
  induction ds using List.reverseRecOn with
  | nil =>
    refine ⟨fun _ => ⟨_, rfl⟩, fun _ l d r h => ?_⟩
    simp at h
  | append_singleton ds d ih =>
    constructor
    · intro h
      have h1 : Admitted ds := fun l c r hl e => h l c (r ++ [d]) (by rw [hl]; simp) e
      obtain ⟨g, hg⟩ := ih.1 h1
      rw [parseDecls_after hg]
      have h2 := parseOneDecl_refuses hg d
      rw [Grammar.parseDecls]
      cases h3 : g.parseOneDecl d with
      | error e => rw [h3] at h2; exact absurd h2 (h ds d [] rfl e)
      | ok g' => exact ⟨g', rfl⟩
    · rintro ⟨g', hg'⟩
      have h1 : ∃ g, Grammar.initial.parseDecls ds = .ok g := by
        cases h : Grammar.initial.parseDecls ds with
        | ok g => exact ⟨g, rfl⟩
        | error e =>
          exfalso
          have : ∀ (ds : List Decl) (g : Grammar), g.parseDecls ds = .error e → g.parseDecls (ds ++ [d]) = .error e := by
            intro ds
            induction ds with
            | nil => intro g hh; cases hh
            | cons c ds ih2 =>
              intro g hh
              rw [List.cons_append, Grammar.parseDecls]
              rw [Grammar.parseDecls] at hh
              cases h1 : g.parseOneDecl c with
              | error e => rw [h1] at hh; cases hh; rfl
              | ok g1 => rw [h1] at hh; exact ih2 _ hh
          rw [this _ _ h] at hg'
          cases hg'
      obtain ⟨g, hg⟩ := h1
      intro l c r hl e
      rcases List.eq_nil_or_concat r with rfl | ⟨r', x, rfl⟩
      · have hl2 : ds = l ∧ d = c := by simpa using List.append_inj' hl rfl
        obtain ⟨rfl, rfl⟩ := hl2
        rw [parseDecls_after hg, Grammar.parseDecls] at hg'
        have h2 := parseOneDecl_refuses hg d
        cases h3 : g.parseOneDecl d with
        | error e => rw [h3] at hg'; cases hg'
        | ok g2 => rw [h3] at h2; exact h2 e
      · have hl2 : ds = l ++ c :: r' ∧ d = x := by
          rw [List.concat_eq_append, ← List.cons_append, ← List.append_assoc] at hl
          simpa using List.append_inj' hl rfl
        exact ih.2 ⟨g, hg⟩ l c r' hl2.1 e

theorem parseDecls_error {ds : List Decl} {e : GErr} : Grammar.initial.parseDecls ds = .error e ↔
    ∃ l d r, ds = l ++ d :: r ∧ Admitted l ∧ Refuses l d e := by
  constructor
  · intro h
    have key : ∀ (r l : List Decl) (g : Grammar), Grammar.initial.parseDecls l = .ok g → g.parseDecls r = .error e →
        ∃ l' d r', l ++ r = l' ++ d :: r' ∧ Admitted l' ∧ Refuses l' d e := by
      intro r
      induction r with
      | nil => intro l g _ hh; cases hh
      | cons d r ih =>
        intro l g hl hh
        rw [Grammar.parseDecls] at hh
        have h2 := parseOneDecl_refuses hl d
        cases h3 : g.parseOneDecl d with
        | error e' =>
          rw [h3] at hh h2
          cases hh
          exact ⟨l, d, r, rfl, admitted_parse.2 ⟨g, hl⟩, h2⟩
        | ok g1 =>
          rw [h3] at hh
          have := ih (l ++ [d]) g1 (by rw [parseDecls_after hl, Grammar.parseDecls, h3]; rfl) hh
          simpa using this
    exact key ds [] _ rfl h
  · rintro ⟨l, d, r, rfl, h1, h2⟩
    obtain ⟨g, hg⟩ := admitted_parse.1 h1
    rw [parseDecls_after hg, Grammar.parseDecls]
    have h3 := parseOneDecl_refuses hg d
    cases h4 : g.parseOneDecl d with
    | error e' => rw [h4] at h3; rw [h3.unique h2]
    | ok g1 => rw [h4] at h3; exact absurd h2 (h3 e)

end Pomelo
