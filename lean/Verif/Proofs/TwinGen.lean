import Verif.Proofs.TwinComp
import Verif.Proofs.Early
/-! # The tables of the other automaton -/

namespace Pomelo

open Spec

variable {g g' : Grammar} {sts sts' : List LState}

/-! ## Functions of the frame -/

theorem frame_finalType (g : Grammar) (s : SymbolId) : g.frame.finalType s = g.finalType s := by
  unfold Grammar.finalType
  simp only [frame_sym]
  rfl

theorem frame_modify (g : Grammar) (s : SymbolId) {f : Symbol → Symbol} (hf : ∀ b, (f b).frame = f b.frame) : (g.modifySym s f).frame = g.frame.modifySym s f := by
  unfold Grammar.modifySym Grammar.frame
  congr 1
  simp only
  apply List.ext_getElem?
  intro i
  simp only [List.getElem?_map, List.getElem?_modify]
  by_cases h : s = i
  · subst h
    simp only [if_true]
    cases g.syms[s]? with
    | none => rfl
    | some b => simp [hf]
  · simp only [if_neg h]
    cases g.syms[i]? <;> rfl

theorem frame_assignTypes : ∀ (ss : List SymbolId) (g : Grammar) (ts : List Ty), g.frame.assignTypes ts ss = (g.assignTypes ts ss).map (fun p => (p.1.frame, p.2)) := by
  intro ss
  induction ss with
  | nil => intro g ts; rfl
  | cons s ss ih =>
    intro g ts
    unfold Grammar.assignTypes
    rw [frame_finalType]
    by_cases hw : g.wildcard = some s
    · rw [if_pos hw, if_pos (show g.frame.wildcard = some s from hw)]
      exact ih g ts
    · rw [if_neg hw, if_neg (show ¬ g.frame.wildcard = some s from hw)]
      cases g.finalType s with
      | error e => rfl
      | ok o =>
        cases o with
        | none =>
          simp only
          rw [← ih]
          congr 1
          exact (frame_modify g s (by intro b; rfl)).symm
        | some ty =>
          simp only
          rw [← ih]
          congr 1
          exact (frame_modify g s (by intro b; rfl)).symm

theorem frame_fallbackTable (g : Grammar) : g.frame.fallbackTable = g.fallbackTable := by
  unfold Grammar.fallbackTable
  simp only [frame_sym]
  rfl

theorem frame_translateCode (g : Grammar) (r : Rule) : g.frame.translateCode r = g.translateCode r := by
  unfold Grammar.translateCode
  simp only [frame_sym]
  rfl

theorem translateCode_bare {r r' : Rule} (h : r'.bare = r.bare) : g.translateCode r' = g.translateCode r := by
  have e : ∀ r : Rule, g.translateCode r.bare = g.translateCode r := fun _ => rfl
  rw [← e r', ← e r, h]

/-- The code of a rule -/
theorem GenSpec.rc_get {rs : List RState} {t : Tables} (s : GenSpec g rs t) {r : RuleId} (hr : r < g.rules.length) :
    ∃ b, t.ruleCode[r]? = some b ∧ s.gT.translateCode (g.rule r) = .ok b := by
  have e : s.gT.rules = g.rules := (assignTypes_shape s.assign).2.1
  rcases forall₂_getElem? (mapM_except_forall₂ s.rcEq) r with ⟨h, _⟩ | ⟨a, b, h1, h2, h3⟩
  · rw [e, List.getElem?_eq_getElem hr] at h; cases h
  · rw [e, List.getElem?_eq_getElem hr, Option.some.injEq] at h1
    refine ⟨b, by rw [s.ruleCode]; exact h2, ?_⟩
    unfold Grammar.rule
    rw [getD_of_lt hr, h1]
    exact h3

/-- Types of the symbols of two grammars with one frame -/
theorem assign_frame {ss : List SymbolId} {ts ts' : List Ty} {gT : Grammar} (hf : g'.frame = g.frame) (h : g.assignTypes ts ss = .ok (gT, ts')) :
    ∃ gT', g'.assignTypes ts ss = .ok (gT', ts') ∧ gT'.frame = gT.frame := by
  have h1 := frame_assignTypes ss g ts
  have h2 := frame_assignTypes ss g' ts
  rw [hf, h1, h] at h2
  cases h3 : g'.assignTypes ts ss with
  | error e => rw [h3] at h2; cases h2
  | ok p =>
    rw [h3] at h2
    obtain ⟨gT', ts2⟩ := p
    simp only [Except.map, Except.ok.injEq, Prod.mk.injEq] at h2
    exact ⟨gT', by rw [h2.2], h2.1.symm⟩

namespace Twin

variable (T : Twin g g' sts sts')
include T

theorem numRules : g'.rules.length = g.rules.length := by
  have key : ∀ {g g' : Grammar} {sts sts' : List LState} (T : Twin g g' sts sts'), g.rules.length ≤ g'.rules.length := by
    intro g g' sts sts' T
    have hnd : ((List.range g.rules.length).map T.R.σ).Nodup := by
      apply List.Nodup.map_on
      · intro a ha b hb h
        rw [← (T.R.rule a (List.mem_range.1 ha)).2.2, ← (T.R.rule b (List.mem_range.1 hb)).2.2, h]
      · exact List.nodup_range
    have hsub : (List.range g.rules.length).map T.R.σ ⊆ List.range g'.rules.length := by
      intro x hx
      obtain ⟨a, ha, rfl⟩ := List.mem_map.1 hx
      exact List.mem_range.2 (T.R.rule a (List.mem_range.1 ha)).1
    have := (hnd.subperm hsub).length_le
    simpa using this
  exact Nat.le_antisymm (key T.symm) (key T)

/-- The tables can be written for the other automaton. -/
theorem generate (hf : g'.frame = g.frame) {ord : List (SymbolId × SymbolId) → List (SymbolId × SymbolId)} {ds : List Decl} {acts' acts2 acts2' : List (List Action)}
    {dflt : SymbolId} {t : Tables} (s : GenSpec g (g.resortStates acts') t) (u : Upto ord ds g' sts' acts2 acts2' dflt) :
    ∃ t', g'.generate (g'.resortStates acts2') = .ok t' := by
  obtain ⟨p, hp, h1, h2⟩ := u.packs
  have hsy : g'.symbols = g.symbols := by
    have := congrArg Grammar.symbols hf
    exact this
  obtain ⟨gT', ha, hfT⟩ := assign_frame hf s.assign
  have hsh := assignTypes_shape ha
  have hshg := assignTypes_shape s.assign
  have hit : gT'.checkItems = .ok () := by
    have e : ∀ k : Grammar, k.frame.checkItems = k.checkItems := fun _ => rfl
    rw [← e, hfT, e]; exact s.items
  have hfb : gT'.fallbackTable = .ok s.fb := by
    rw [← frame_fallbackTable, hfT, frame_fallbackTable]; exact s.fbEq
  obtain ⟨rc, hrc⟩ : ∃ rc, gT'.rules.mapM gT'.translateCode = .ok rc := by
    apply mapM_total
    intro r' hr'
    rw [hsh.2.1] at hr'
    obtain ⟨i, hi, rfl⟩ := List.getElem_of_mem hr'
    obtain ⟨h3, h4, _⟩ := T.R.rule' i hi
    have e1 : g'.rule i = g'.rules[i] := by simp [Grammar.rule, List.getElem?_eq_getElem hi]
    obtain ⟨b, _, hb⟩ := s.rc_get h3
    rw [← frame_translateCode, hfT, frame_translateCode, ← e1, ← translateCode_bare h4]
    exact ⟨b, hb⟩
  obtain ⟨sh, hsh'⟩ := Option.ne_none_iff_exists'.1 h1
  obtain ⟨rd, hrd⟩ := Option.ne_none_iff_exists'.1 h2
  unfold Grammar.generate
  rw [if_neg ?_]
  · rw [hsy, ha]
    simp only
    rw [hit]
    simp only
    rw [hsh.1.pack, hp]
    simp only
    rw [hsh', hrd]
    simp only
    rw [hfb]
    simp only
    rw [hrc]
    exact ⟨_, rfl⟩
  · have hw : g'.wildcard = g.wildcard := by
      have := congrArg Grammar.wildcard hf
      exact this
    rw [hw]
    cases hc : g.wildcard with
    | none => simp
    | some w =>
      have hd : (g'.sym w).dataType = (g.sym w).dataType := by
        have := congrArg Symbol.dataType ((frame_iff.1 hf).2.2 w)
        exact this
      simp only
      rw [hd, s.wildT w hc]
      simp

end Twin

/-- What the macro does for another order of the optional symbols -/
theorem other_order {ord ord' : List (SymbolId × SymbolId) → List (SymbolId × SymbolId)} (ho : OrdOk ord) (ho' : OrdOk ord') {ds : List Decl} {t : Tables}
    (hc : compile ord ds = .ok t) : ∃ t', compile ord' ds = .ok t' := by
  obtain ⟨s⟩ := compile_cspec hc
  have hst := stage s.decls ho
  obtain ⟨g', sts', h'⟩ : ∃ g' sts', s.g0.automaton ord' = .ok (g', sts') := by
    cases hst with
    | uncoded _ h => rw [s.auto] at h; cases h
    | startUsed _ _ h => rw [s.auto] at h; cases h
    | missing _ _ _ h => rw [s.auto] at h; cases h
    | ok n1 n2 n3 _ =>
      cases stage s.decls ho' with
      | uncoded k _ => exact absurd k n1
      | startUsed _ k _ => exact absurd k n2
      | missing _ _ k _ => exact absurd k n3
      | ok _ _ _ h => exact ⟨_, _, h⟩
  obtain ⟨T, F, _⟩ := fit_exists ho ho' s.decls s.auto h' s.actions
  obtain ⟨acts2, ha, he⟩ := T.findActions F s.actions
  obtain ⟨acts2', hc2, he2⟩ := T.compressTables F s.actions s.compress ha he
  obtain ⟨dflt, u⟩ := upto ho' s.decls h' ha hc2
  obtain ⟨t', ht⟩ := T.generate F.frame s.gen u
  refine ⟨t', ?_⟩
  unfold compile
  simp only [s.decls, bind, Except.bind]
  unfold Grammar.build
  simp only [h', ha, hc2, bind, Except.bind, Nat.lt_irrefl, gt_iff_lt, if_false]
  exact ht

end Pomelo
