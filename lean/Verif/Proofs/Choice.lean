import Verif.Proofs.Yields
import Verif.Props.Prec
import Verif.Proofs.Wins
import Verif.Spec.Choice
/-!
# What conflict resolution leaves of any number of candidates

The reduction that is left is the one that gives way to nothing.
-/

namespace Pomelo
open Spec
variable {g : Grammar} {sts : List LState}

/-- Both rules have precedences, and `r` gives way to `r'`. -/
def Grammar.GivesWay (g : Grammar) (r r' : Nat) : Prop :=
  ∃ p p', (g.rule r).precedence = some p ∧ (g.rule r').precedence = some p' ∧
    (p.level < p'.level ∨ (p.level = p'.level ∧ ((r' < r ∧ p'.assoc ≠ .left) ∨ (r < r' ∧ p.assoc = .left))))

theorem givesWay_total (hl : g.Levels) {r r' : Nat} {p p' : Precedence} (hp : (g.rule r).precedence = some p) (hp' : (g.rule r').precedence = some p')
    (hne : r ≠ r') (h : ¬ g.GivesWay r r') : g.GivesWay r' r := by
  refine ⟨p', p, hp', hp, ?_⟩
  have h : ¬ (p.level < p'.level ∨ (p.level = p'.level ∧ ((r' < r ∧ p'.assoc ≠ .left) ∨ (r < r' ∧ p.assoc = .left)))) := fun hc => h ⟨p, p', hp, hp', hc⟩
  by_cases e : p.level = p'.level
  · have ha := hl p p' ⟨r, hp⟩ ⟨r', hp'⟩ e
    rw [← ha] at h ⊢
    refine .inr ⟨e.symm, ?_⟩
    by_cases hL : p.assoc = .left
    · simp only [hL, ne_eq, not_true_eq_false, and_false, and_true, false_or] at h ⊢
      omega
    · simp only [hL, ne_eq, not_false_eq_true, and_false, and_true, or_false] at h ⊢
      omega
  · left; omega

theorem givesWay_asymm (hl : g.Levels) {r r' : Nat} (h : g.GivesWay r r') : ¬ g.GivesWay r' r := by
  obtain ⟨p, p', h1, h2, h3⟩ := h
  rintro ⟨q', q, h4, h5, h6⟩
  rw [h2] at h4; rw [h1] at h5; cases h4; cases h5
  by_cases e : p.level = p'.level
  · have ha := hl p p' ⟨r, h1⟩ ⟨r', h2⟩ e
    rw [← ha] at h3 h6
    by_cases hL : p.assoc = .left <;> simp [hL] at h3 h6 <;> omega
  · omega

theorem givesWay_trans (hl : g.Levels) {r r' r'' : Nat} (h : g.GivesWay r r') (h' : g.GivesWay r' r'') : g.GivesWay r r'' := by
  obtain ⟨p, p', h1, h2, h3⟩ := h
  obtain ⟨q', q, h4, h5, h6⟩ := h'
  rw [h2] at h4; cases h4
  refine ⟨p, q, h1, h5, ?_⟩
  by_cases e : p.level = p'.level
  · have ha := hl p p' ⟨r, h1⟩ ⟨r', h2⟩ e
    by_cases e' : p'.level = q.level
    · have ha' := hl p' q ⟨r', h2⟩ ⟨r'', h5⟩ e'
      rw [← ha', ← ha] at h6
      rw [← ha] at h3
      rw [← ha', ← ha]
      by_cases hL : p.assoc = .left <;> simp [hL] at h3 h6 ⊢ <;> omega
    · left; omega
  · left; omega

/-- Among rules with precedences there is one that gives way to no other. -/
theorem exists_best (hl : g.Levels) : ∀ {rd : List RuleId}, rd ≠ [] → (∀ r ∈ rd, ∃ p, (g.rule r).precedence = some p) →
    ∃ m ∈ rd, ∀ b ∈ rd, ¬ g.GivesWay m b := by
  intro rd
  induction rd with
  | nil => intro h; exact absurd rfl h
  | cons x rd ih =>
    intro _ hp
    have irr : ∀ r, ¬ g.GivesWay r r := fun r h => givesWay_asymm hl h h
    by_cases hrd : rd = []
    · subst hrd
      exact ⟨x, by simp, fun b hb => by rw [List.mem_singleton.1 hb]; exact irr x⟩
    · obtain ⟨m, hm, hb⟩ := ih hrd (fun r hr => hp r (List.mem_cons_of_mem _ hr))
      by_cases hx : g.GivesWay m x
      · refine ⟨x, by simp, fun b hmem => ?_⟩
        rcases List.mem_cons.1 hmem with rfl | hmem
        · exact irr _
        · intro hxb
          exact hb b hmem (givesWay_trans hl hx hxb)
      · refine ⟨m, List.mem_cons_of_mem _ hm, fun b hmem => ?_⟩
        rcases List.mem_cons.1 hmem with rfl | hmem
        · exact hx
        · exact hb b hmem

variable {ord : List (SymbolId × SymbolId) → List (SymbolId × SymbolId)} {ds : List Decl}

theorem mem_lives {l : List Action} {s : SymbolId} {d : Detail} : d ∈ actionsFor l s ↔ (⟨s, d⟩ : Action) ∈ l ∧ d.live = true := by
  rw [actionsFor_eq]
  unfold lives
  rw [List.mem_filter, List.mem_map]
  constructor
  · rintro ⟨⟨a, h1, rfl⟩, h2⟩
    obtain ⟨h3, rfl⟩ := mem_onSym.1 h1
    exact ⟨h3, h2⟩
  · rintro ⟨h1, h2⟩
    exact ⟨⟨_, mem_onSym.2 ⟨h1, rfl⟩, rfl⟩, h2⟩

/-- Two rules that compete have precedences. -/
theorem Grammar.Outcome.precs {s : SymbolId} {sh : List StateId} {rd : List RuleId} {l : List Detail} (hout : g.Outcome s sh rd l) {r r' : RuleId}
    (m1 : r ∈ rd) (m2 : r' ∈ rd) (hne : r ≠ r') : ∃ p, (g.rule r).precedence = some p := by
  by_cases hs : sh = []
  · subst hs
    cases hout with
    | nothing _ h => rw [h] at m1; cases m1
    | shift h => cases h
    | reduce _ _ _ h =>
      rcases h r m1 with h1 | ⟨p1, p2, e1, e2, _⟩ | ⟨h1, _⟩
      · rcases h r' m2 with h2 | ⟨p1, p2, e1, e2, _⟩ | ⟨h2, _⟩
        · exact absurd (h1.trans h2.symm) hne
        · exact ⟨p1, h1 ▸ e1⟩
        · exact absurd rfl h2
      · exact ⟨p2, e2⟩
      · exact absurd rfl h1
    | error h => cases h
  · obtain ⟨_, p, _, h1⟩ := hout.both hs m1
    exact ⟨p, h1⟩

/-- The rule whose reduction is left is not weaker than the token. -/
theorem Grammar.Outcome.notTighter {s : SymbolId} {sh : List StateId} {rd : List RuleId} {l : List Detail} (hout : g.Outcome s sh rd l) (hs : sh ≠ []) {r : RuleId}
    (hr : .reduce r ∈ l) : ∃ p p', (g.sym s).precedence = some p ∧ (g.rule r).precedence = some p' ∧
      (p.level < p'.level ∨ (p.level = p'.level ∧ p.assoc ≠ .right)) := by
  cases hout with
  | nothing h => exact absurd h hs
  | shift => simp at hr
  | reduce _ _ h _ =>
    simp only [List.mem_singleton, Detail.reduce.injEq] at hr
    subst hr
    obtain ⟨p, p', h1, h2, h3⟩ := h hs
    rw [precedenceCmp_lt] at h3
    refine ⟨p, p', h1, h2, ?_⟩
    rcases h3 with h3 | ⟨h3, h4⟩
    · exact .inl h3
    · exact .inr ⟨h3, by rw [h4]; simp⟩
  | error _ _ _ h h' _ =>
    simp only [List.mem_cons, reduceCtorEq, Detail.reduce.injEq, List.not_mem_nil, or_false, false_or] at hr
    subst hr
    obtain ⟨p, p', h1, h2, h3⟩ := h
    rw [precedenceCmp_eq_iff] at h3
    rcases h' with rfl | ⟨q, q', e1, e2, h4⟩
    · exact ⟨p, p', h1, h2, .inr ⟨h3.1, by rw [h3.2]; simp⟩⟩
    · rw [h2] at e2; cases e2
      refine ⟨p, q, h1, e1, ?_⟩
      have := h3.1
      by_cases e : p.level = q.level
      · exact .inr ⟨e, by rw [h3.2]; simp⟩
      · left; rcases h4 with h4 | h4 <;> omega

theorem Grammar.Outcome.unique {s : SymbolId} {sh : List StateId} {rd : List RuleId} {l : List Detail} (hout : g.Outcome s sh rd l) {r r' : RuleId}
    (h : .reduce r ∈ l) (h' : .reduce r' ∈ l) : r = r' := by
  cases hout <;> simp_all

/-- In a run without conflicts the reduction by `r` is left among the actions of a state for a token iff it gives way to nothing. -/
theorem Spec.Run.left_iff (ho : OrdOk ord) (R : Run ord ds) {γ : List SymbolId} {q : StateId} (hq : R.StateOf γ q) {a : SymbolId} {r : RuleId}
    (hr : ReducesOn R.g γ a r) : .reduce r ∈ actionsFor (R.actionsOf q) a ↔ ¬ Yields R.g γ a r := by
  obtain ⟨hi, ha, _⟩ := R.aspec ho
  obtain ⟨b⟩ := bridge ho R.decls R.auto
  have hl := b.levels
  obtain ⟨_, _, γ', hs', hv⟩ := id hr
  have hp := (R.stateOf_path ho ((hs' _).2 hv.viable)).1 hq
  obtain ⟨sh, rd, h1, h2, hout⟩ := R.outcome ho hq.1 ⟨hr.1, hr.2.1⟩
  have hrd : ∀ x, x ∈ rd ↔ ReducesOn R.g γ a x := fun x => by rw [h2, reducesOn_iff hi ha hp]
  have hsh : ∀ {X}, ShiftsOn R.g γ a X → sh ≠ [] := by
    intro X hX e
    obtain ⟨⟨k, hk⟩, hk2⟩ := (shiftsOn_iff hi ha hp).1 hX
    have : k ∈ sh := (h1 k).2 ⟨X, hk, (reads_iff (Reads.kind hk2)).2 hk2⟩
    rw [e] at this; cases this
  have stay : ∀ {x}, ReducesOn R.g γ a x → ¬ Yields R.g γ a x → .reduce x ∈ actionsFor (R.actionsOf q) a := by
    intro x hx hy
    rw [mem_lives]
    refine ⟨?_, rfl⟩
    by_contra hc
    apply hy
    refine lost_yields hi ha hp hx ?_
    rw [← (findActions_get R.actions).2.1 q hq.1]
    exact hc
  refine ⟨?_, stay hr⟩
  intro hm hy
  -- the token is not stronger than a rule that is at least as strong as `r`
  have noShift : ∀ {X x}, ShiftsOn R.g γ a X → x ∈ rd → ¬ R.g.GivesWay x r →
      ¬ ((R.g.sym a).precedence = none ∨ (R.g.rule x).precedence = none ∨
        ∃ p p', (R.g.sym a).precedence = some p ∧ (R.g.rule x).precedence = some p' ∧ Tighter p p') := by
    intro X x hX hx hg hc
    obtain ⟨p, p', e1, e2, e3⟩ := hout.notTighter (hsh hX) hm
    obtain ⟨_, px, _, e4⟩ := hout.both (hsh hX) hx
    have hle : p'.level ≤ px.level := by
      by_contra hlt
      exact hg ⟨px, p', e4, e2, .inl (by omega)⟩
    rcases hc with hc | hc | ⟨p1, p2, f1, f2, f3⟩
    · rw [e1] at hc; cases hc
    · rw [e4] at hc; cases hc
    · rw [e1] at f1; rw [e4] at f2; cases f1; cases f2
      rcases f3 with f3 | ⟨f3, f4⟩
      · omega
      · rcases e3 with e3 | ⟨_, e3⟩
        · omega
        · exact e3 f4
  cases hy with
  | shift hX hc => exact noShift hX ((hrd r).2 hr) (fun h => givesWay_asymm hl h h) hc
  | @rule r' hr' hne hc =>
    have precs : ∀ x ∈ rd, ∃ p, (R.g.rule x).precedence = some p := by
      intro x hx
      by_cases hxr : x = r
      · exact hout.precs hx ((hrd r').2 hr') (by rw [hxr]; exact hne.symm)
      · exact hout.precs hx ((hrd r).2 hr) hxr
    obtain ⟨pr, hpr⟩ := precs r ((hrd r).2 hr)
    obtain ⟨pr', hpr'⟩ := precs r' ((hrd r').2 hr')
    have hgw : R.g.GivesWay r r' := by
      rcases hc with ⟨_, hc | hc⟩ | hc
      · rw [hpr'] at hc; cases hc
      · rw [hpr] at hc; cases hc
      · exact hc
    obtain ⟨m, hmm, hb⟩ := exists_best hl (List.ne_nil_of_mem ((hrd r).2 hr)) precs
    have hmy : ¬ Yields R.g γ a m := by
      intro hy
      cases hy with
      | shift hX hc => exact noShift hX hmm (hb r ((hrd r).2 hr)) hc
      | @rule x hx _ hc =>
        obtain ⟨px, hpx⟩ := precs x ((hrd x).2 hx)
        obtain ⟨pm, hpm⟩ := precs m hmm
        rcases hc with ⟨_, hc | hc⟩ | hc
        · rw [hpx] at hc; cases hc
        · rw [hpm] at hc; cases hc
        · exact hb x ((hrd x).2 hx) hc
    have := hout.unique (stay ((hrd m).1 hmm) hmy) hm
    subst this
    exact hb r' ((hrd r').2 hr') hgw

/-- When the shift becomes an error -/
theorem resolveFrom_barred {s : SymbolId} {k : StateId} : ∀ {ys : List Action} {x : Action}, x.la = s → x.detail = .shift k → RedOnly s ys →
    (g.resolveFrom x ys).2.2 = 0 → ((g.resolveFrom x ys).1.detail = .error ↔
      ∃ pre c post, reds ys = pre ++ c :: post ∧ (∀ b ∈ pre, g.TokVs s b .gt) ∧ g.TokVs s c .eq) := by
  intro ys
  induction ys with
  | nil =>
    intro x _ hd _ _
    constructor
    · intro h
      have : (g.resolveFrom x []).1 = x := rfl
      rw [this, hd] at h; cases h
    · rintro ⟨pre, c, post, h, _⟩
      simp [reds] at h
  | cons y ys ih =>
    intro x hx hd hr h0
    have hy := hr y (by simp)
    have hys : RedOnly s ys := fun z hz => hr z (by simp [hz])
    have hsame : x.la = y.la := by rw [hx, hy.1]
    unfold Grammar.resolveFrom at h0 ⊢
    simp only [if_pos hsame] at h0 ⊢
    obtain ⟨b, hb | hb⟩ := hy.2
    · have hcf : (g.resolveConflict x y).2.2 = false := by
        cases hc : (g.resolveConflict x y).2.2 with
        | false => rfl
        | true => rw [hc] at h0; simp at h0
      have hdec : g.resolveConflict x y = ((g.resolveConflict x y).1, (g.resolveConflict x y).2.1, false) := by
        rw [← hcf]
      have hyb : reds (y :: ys) = b :: reds ys := by rw [reds_cons, hb]; rfl
      rw [hyb]
      rcases resolveConflict_shift hd hb hdec with ⟨h1, h2, h3⟩ | ⟨h1, h2, h3⟩ | ⟨h1, h2, h3⟩
      · rw [h1]
        have hdead : g.resolveFrom { x with detail := .shResolved k } ys = ({ x with detail := .shResolved k }, ys, 0) :=
          resolveFrom_dead (by simp) (by simp) ys
        rw [hdead]
        rw [hx] at h3
        constructor
        · intro h; cases h
        · rintro ⟨pre, c, post, h4, h5, h6⟩
          exfalso
          cases pre with
          | nil =>
            cases h4
            obtain ⟨p, q, e1, e2, e3⟩ := h3
            obtain ⟨p', q', f1, f2, f3⟩ := h6
            rw [e1] at f1; rw [e2] at f2; cases f1; cases f2
            rw [e3] at f3; cases f3
          | cons z pre =>
            obtain ⟨rfl, _⟩ := List.cons.inj h4
            obtain ⟨p, q, e1, e2, e3⟩ := h3
            obtain ⟨p', q', f1, f2, f3⟩ := h5 b (by simp)
            rw [e1] at f1; rw [e2] at f2; cases f1; cases f2
            rw [e3] at f3; cases f3
      · rw [h1]
        have hdead : g.resolveFrom { x with detail := .error } ys = ({ x with detail := .error }, ys, 0) :=
          resolveFrom_dead (by simp) (by simp) ys
        rw [hdead]
        rw [hx] at h3
        exact ⟨fun _ => ⟨[], b, _, rfl, by simp, h3⟩, fun _ => rfl⟩
      · rw [hx] at h3
        rw [h1] at h0 ⊢
        rw [ih hx hd hys (Nat.eq_zero_of_add_eq_zero_right h0)]
        constructor
        · rintro ⟨pre, c, post, h4, h5, h6⟩
          refine ⟨b :: pre, c, post, by rw [h4]; rfl, ?_, h6⟩
          intro z hz
          rcases List.mem_cons.1 hz with rfl | hz
          · exact h3
          · exact h5 z hz
        · rintro ⟨pre, c, post, h4, h5, h6⟩
          cases pre with
          | nil =>
            cases h4
            obtain ⟨p, q, e1, e2, e3⟩ := h3
            obtain ⟨p', q', f1, f2, f3⟩ := h6
            rw [e1] at f1; rw [e2] at f2; cases f1; cases f2
            rw [e3] at f3; cases f3
          | cons z pre =>
            obtain ⟨rfl, h7⟩ := List.cons.inj h4
            exact ⟨pre, c, post, h7, fun z hz => h5 z (by simp [hz]), h6⟩
    · rw [resolveConflict_dead2 (by rw [hb]; simp) (by rw [hb]; simp)] at h0 ⊢
      have hre : reds (y :: ys) = reds ys := by rw [reds_cons, hb]; rfl
      rw [hre]
      exact ih hx hd hys (by simpa using h0)

theorem tokVs_gt {a : SymbolId} {r : RuleId} : g.TokVs a r .gt ↔ Prevails g a r := by
  unfold Grammar.TokVs Prevails
  simp only [precedenceCmp_gt]

/-- The candidates of a state for a token, in their order, and what is left of them -/
theorem Spec.Run.group (ho : OrdOk ord) (R : Run ord ds) {q : StateId} (hq : q < R.sts.length) {a : SymbolId} (ht : IsToken R.g a) :
    ∃ (sh : List StateId) (rd : List RuleId), (∀ k, k ∈ sh ↔ R.g.CanShift R.sts q a k) ∧ (∀ r, r ∈ rd ↔ R.g.CanReduce R.sts q a r) ∧ rd.Pairwise (· < ·) ∧
      (R.g.resolveL (sh.map (fun k => (⟨a, .shift k⟩ : Action)) ++ rd.map (fun r => ⟨a, .reduce r⟩))).2 = 0 ∧
      actionsFor (R.actionsOf q) a = lives (R.g.resolveL (sh.map (fun k => (⟨a, .shift k⟩ : Action)) ++ rd.map (fun r => ⟨a, .reduce r⟩))).1 := by
  obtain ⟨hi, ha, hs⟩ := R.aspec ho
  have hst : a ≠ R.g.start.getD 0 := by
    rintro rfl
    have := ht.2
    rw [hi.start_kind.1] at this; cases this
  obtain ⟨h1, h2, h3, h4⟩ := findActions_get R.actions
  have h3 := h3.1 rfl
  have hL : ∀ q, R.g.resolveState (R.g.rawActions q (R.sts.getD q default)) = R.g.resolveL (sortBy R.g.actionLt (R.g.rawActions q (R.sts.getD q default))) :=
    fun q => rfl
  obtain ⟨a1, a2⟩ := resolveL_onSym (g := R.g) _ (Nat.le_refl _) (sorted_raw hi ha hq)
  have h5 := a2.1 (h3 q hq) a
  obtain ⟨sh, rd, e1, e2, e3⟩ := group_shape (g := R.g) (raw := R.g.rawActions q (R.sts.getD q default)) (s := a) (by
    intro x hm he
    rw [mem_rawActions hi ha hq] at hm
    rcases hm with ⟨k, _, h⟩ | ⟨r, _, h⟩ | ⟨h0, h⟩
    · exact .inl ⟨k, h⟩
    · exact .inr ⟨r, h⟩
    · rw [h] at he; exact absurd he.symm hst)
  rw [e1] at h5
  refine ⟨sh, rd, ?_, ?_, ?_, h5, ?_⟩
  · intro k
    rw [e2, mem_rawActions hi ha hq]
    constructor
    · rintro (⟨k', h, e⟩ | ⟨r, h, e⟩ | ⟨_, e⟩)
      · cases e; exact h
      · cases e
      · cases e
    · intro h; exact .inl ⟨k, h, rfl⟩
  · intro k
    rw [e3, mem_rawActions hi ha hq]
    constructor
    · rintro (⟨k', h, e⟩ | ⟨r, h, e⟩ | ⟨_, e⟩)
      · cases e
      · cases e; exact h
      · cases e
    · intro h; exact .inr (.inl ⟨k, h, rfl⟩)
  · rw [List.pairwise_iff_forall_sublist]
    intro x y hxy
    have hsub : [(⟨a, .reduce x⟩ : Action), ⟨a, .reduce y⟩].Sublist (sortBy R.g.actionLt (R.g.rawActions q (R.sts.getD q default))) := by
      refine List.Sublist.trans ?_ (List.filter_sublist (p := fun z => z.la = a))
      show List.Sublist _ (onSym a _)
      rw [e1]
      exact (hxy.map (fun r => (⟨a, .reduce r⟩ : Action))).trans (List.sublist_append_right _ _)
    exact reduce_order hi ha hq (y := ⟨a, .reduce x⟩) (z := ⟨a, .reduce y⟩) rfl rfl rfl hsub
  · rw [actionsFor_eq]
    unfold Run.actionsOf
    rw [h2 q hq, hL, a1, e1]

/-- The shift became an error iff the token is barred. -/
theorem Spec.Run.error_iff (ho : OrdOk ord) (R : Run ord ds) {γ : List SymbolId} {q : StateId} (hq : R.StateOf γ q) {a : SymbolId} (ht : IsToken R.g a)
    {it : Item} (hv : Viable R.g γ it) : R.Own q a .error ↔ Barred R.g γ a := by
  obtain ⟨hi, ha, _⟩ := R.aspec ho
  obtain ⟨b⟩ := bridge ho R.decls R.auto
  have hp := (R.stateOf_path ho hv).1 hq
  obtain ⟨sh, rd, h1, h2, h3, h4, h5⟩ := R.group ho hq.1 ht
  have hrd : ∀ x, x ∈ rd ↔ ReducesOn R.g γ a x := fun x => by rw [h2, reducesOn_iff hi ha hp]
  have hsh : ∀ {X}, ShiftsOn R.g γ a X → sh ≠ [] := by
    intro X hX e
    obtain ⟨⟨k, hk⟩, hk2⟩ := (shiftsOn_iff hi ha hp).1 hX
    have : k ∈ sh := (h1 k).2 ⟨X, hk, (reads_iff (Reads.kind hk2)).2 hk2⟩
    rw [e] at this; cases this
  have hshift : sh ≠ [] → ∃ X, ShiftsOn R.g γ a X := by
    intro hne
    obtain ⟨k, hk⟩ := List.exists_mem_of_ne_nil _ hne
    exact canShift_shiftsOn hi ha hp ht.2 ((h1 k).1 hk)
  have hout := resolve_group b.levels h4
  unfold Run.Own
  rw [h5]
  cases sh with
  | nil =>
    constructor
    · intro h
      generalize lives _ = l at hout h
      cases hout with
      | nothing => cases h
      | shift => cases h
      | reduce => cases h
      | error e => exact absurd e (by simp)
    · rintro ⟨X, _, _, _, hX, _⟩
      exact absurd rfl (hsh hX)
  | cons k sh' =>
    have hs1 := hout.short
    have : sh' = [] := by
      cases sh' with
      | nil => rfl
      | cons => simp at hs1
    subst this
    obtain ⟨X, hX⟩ := hshift (by simp)
    rw [List.map_cons, List.map_nil, List.singleton_append, resolveL_cons] at h4 ⊢
    have hb := resolveFrom_barred (g := R.g) (x := ⟨a, .shift k⟩) rfl rfl (redOnly_map a rd) (by omega)
    rw [reds_map] at hb
    have key : (lives ((R.g.resolveFrom ⟨a, .shift k⟩ (rd.map (fun r => (⟨a, .reduce r⟩ : Action)))).1 ::
        (R.g.resolveL (R.g.resolveFrom ⟨a, .shift k⟩ (rd.map (fun r => (⟨a, .reduce r⟩ : Action)))).2.1).1)).head? = some .error ↔
        (R.g.resolveFrom ⟨a, .shift k⟩ (rd.map (fun r => (⟨a, .reduce r⟩ : Action)))).1.detail = .error := by
      rw [lives_cons]
      constructor
      · intro h
        obtain ⟨i1, i2, i3⟩ := resolveFrom_shift (g := R.g) (x := ⟨a, .shift k⟩) rfl rfl (redOnly_map a rd) (by omega)
        rcases i3 with ⟨j1, _⟩ | ⟨j1, _⟩ | ⟨j1, _⟩
        · rw [j1] at h
          simp [Detail.live] at h
        · exfalso
          rw [j1] at h
          obtain ⟨k1, _⟩ := resolveL_red b.levels _ rfl i1 (by omega)
          rw [lives_redOnly k1] at h
          simp only [Detail.live, Bool.false_eq_true, if_false, List.nil_append] at h
          cases hh : reds (R.g.resolveL (R.g.resolveFrom ⟨a, .shift k⟩ (rd.map (fun r => (⟨a, .reduce r⟩ : Action)))).2.1).1 with
          | nil => rw [hh] at h; cases h
          | cons => rw [hh] at h; cases h
        · rw [j1]
      · intro h
        rw [h]
        rfl
    rw [key, hb]
    constructor
    · rintro ⟨pre, c, post, e1, e2, p, p', e3, e4, e5⟩
      have hc : c ∈ rd := by rw [e1]; simp
      refine ⟨X, c, p, p', hX, (hrd c).1 hc, e3, e4, precedenceCmp_eq_iff.1 e5, ?_⟩
      intro y hy hlt
      have hy' := (hrd y).2 hy
      rw [e1] at hy' h3
      rw [List.pairwise_append] at h3
      rcases List.mem_append.1 hy' with hy' | hy'
      · exact tokVs_gt.1 (e2 y hy')
      · exfalso
        rcases List.mem_cons.1 hy' with rfl | hy'
        · exact Nat.lt_irrefl _ hlt
        · exact Nat.lt_asymm hlt ((List.pairwise_cons.1 h3.2.1).1 y hy')
    · rintro ⟨_, c, p, p', _, e1, e2, e3, e4, e5⟩
      obtain ⟨pre, post, e6⟩ := List.append_of_mem ((hrd c).2 e1)
      refine ⟨pre, c, post, e6, ?_, p, p', e2, e3, precedenceCmp_eq_iff.2 e4⟩
      intro y hy
      rw [e6, List.pairwise_append] at h3
      exact tokVs_gt.2 (e5 y ((hrd y).1 (by rw [e6]; simp [hy])) (h3.2.2 y hy c (by simp)))

end Pomelo
