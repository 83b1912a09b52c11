import Verif.Proofs.Stages
/-! # Nonterminals without rules -/

namespace Pomelo

open Spec

/-- Rules that can be reached from the start symbol -/
inductive Grammar.Used (g : Grammar) : RuleId → Prop
  | start {r} : r ∈ (g.sym (g.start.getD 0)).rules → g.Used r
  | step {r x r'} : g.Used r → x ∈ g.rhsSyms r → (g.sym x).kind = .nonTerminal → r' ∈ (g.sym x).rules → g.Used r'

/-- A rule that can be reached mentions a nonterminal without rules. -/
def Grammar.Lacks (g : Grammar) : Prop :=
  ∃ r x, g.Used r ∧ x ∈ g.rhsSyms r ∧ (g.sym x).kind = .nonTerminal ∧ (g.sym x).rules = [] ∧ x ≠ g.errorSymbol

def Grammar.UsedAll (g : Grammar) (cur : List Cfg) : Prop := ∀ c ∈ cur, g.Used c.item.rule

theorem Grammar.UsedAll.modify {g : Grammar} {cur : List Cfg} {i : Item} {f : Cfg → Cfg} (hf : ∀ c, (f c).item = c.item)
    (h : g.UsedAll cur) : g.UsedAll (modifyCfg cur i f) := by
  intro c hc
  obtain ⟨d, hd, rfl⟩ := mem_modifyCfg.1 hc
  split
  · rw [hf]; exact h d hd
  · exact h d hd

theorem Grammar.UsedAll.closeRule {g : Grammar} {sid : StateId} {c : Item} {fo : List Nat × Bool} {cur : List Cfg} {r : RuleId}
    (h : g.UsedAll cur) (hr : g.Used r) : g.UsedAll (closeRule sid c fo cur r) := by
  have h1 : g.UsedAll (addConfig cur ⟨r, 0⟩) := by
    intro k hk
    rcases mem_addConfig hk with hk | rfl
    · exact h k hk
    · exact hr
  unfold Pomelo.closeRule
  simp only
  have h2 := Grammar.UsedAll.modify (i := ⟨r, 0⟩) (f := fun k => { k with fws := setUnion k.fws fo.1 }) (fun _ => rfl) h1
  split
  · exact h2
  · exact Grammar.UsedAll.modify (fun _ => rfl) h2

theorem Grammar.UsedAll.foldl {g : Grammar} {sid : StateId} {c : Item} {fo : List Nat × Bool} : ∀ {rs : List RuleId} {cur : List Cfg},
    g.UsedAll cur → (∀ r ∈ rs, g.Used r) → g.UsedAll (rs.foldl (Pomelo.closeRule sid c fo) cur) := by
  intro rs
  induction rs with
  | nil => intro cur h _; exact h
  | cons r rs ih =>
    intro cur h hr
    exact ih (h.closeRule (hr r List.mem_cons_self)) (fun x hx => hr x (List.mem_cons_of_mem _ hx))

theorem Grammar.UsedAll.closeItem {g : Grammar} {sid : StateId} {cur : List Cfg} {c : Item} (h : g.UsedAll cur) (hc : g.Used c.rule) :
    (∀ res, g.closeItem sid cur c = .ok res → g.UsedAll res) ∧ (g.closeItem sid cur c = .error .noRulesFor → g.Lacks) := by
  unfold Grammar.closeItem
  split
  · exact ⟨fun res hr => (by cases hr; exact h), fun hr => (by cases hr)⟩
  · rename_i sp hsp
    have hmem : sp ∈ g.rhsSyms c.rule := List.mem_of_getElem? hsp
    split
    · rename_i hk
      split
      · rename_i hcond
        refine ⟨fun res hr => (by cases hr), fun _ => ?_⟩
        simp only [Bool.and_eq_true, List.isEmpty_iff, decide_eq_true_eq] at hcond
        exact ⟨_, sp, hc, hmem, hk, hcond.1, hcond.2⟩
      · refine ⟨fun res hr => ?_, fun hr => (by cases hr)⟩
        cases hr
        exact h.foldl (fun r hr => .step hc hmem hk hr)
    · exact ⟨fun res hr => (by cases hr; exact h), fun hr => (by cases hr)⟩

theorem Grammar.UsedAll.closureLoop {g : Grammar} {sid : StateId} : ∀ {fuel i : Nat} {cur : List Cfg}, g.UsedAll cur →
    (∀ res, g.closureLoop sid fuel i cur = .ok res → g.UsedAll res) ∧ (g.closureLoop sid fuel i cur = .error .noRulesFor → g.Lacks) := by
  intro fuel
  induction fuel with
  | zero => intro i cur _; exact ⟨fun res h => (by cases h), fun h => (by cases h)⟩
  | succ n ih =>
    intro i cur h
    unfold Grammar.closureLoop
    split
    · exact ⟨fun res hr => (by cases hr; exact h), fun hr => (by cases hr)⟩
    · rename_i c hc
      have := h.closeItem (sid := sid) (h c (List.mem_of_getElem? hc))
      split
      · rename_i e he
        refine ⟨fun res hr => (by cases hr), fun hr => ?_⟩
        cases hr
        exact this.2 he
      · rename_i cur' he
        exact ih (this.1 cur' he)

theorem Grammar.UsedAll.shiftBasis {g : Grammar} {sid : StateId} {sp : SymbolId} {p : List Cfg} (h : g.UsedAll p) : g.UsedAll (g.shiftBasis sid sp p) := by
  intro c hc
  unfold Grammar.shiftBasis at hc
  obtain ⟨d, hd, rfl⟩ := List.mem_map.1 hc
  exact h d (List.mem_filter.1 hd).1

theorem shiftsLoop_lacks {g : Grammar} {get} (hg : ∀ sts cur, g.UsedAll cur → get sts cur = .error .noRulesFor → g.Lacks) {sid : StateId} :
    ∀ {fuel : Nat} {sts : List LState} {p : List Cfg} {aps : List Action}, g.UsedAll p →
    g.shiftsLoop get sid fuel sts p aps = .error .noRulesFor → g.Lacks := by
  intro fuel
  induction fuel with
  | zero => intro sts p aps _ h; cases h
  | succ n ih =>
    intro sts p aps hp h
    unfold Grammar.shiftsLoop at h
    split at h
    · cases h
    · rename_i c rest
      have hrest : g.UsedAll rest := fun x hx => hp x (List.mem_cons_of_mem _ hx)
      split at h
      · exact ih hrest h
      · split at h
        · rename_i e he
          cases h
          exact hg _ _ hp.shiftBasis he
        · exact ih (fun x hx => hrest x (List.mem_filter.1 hx).1) h

theorem getState_lacks {g : Grammar} : ∀ {fuel : Nat} {sts : List LState} {cur : List Cfg}, g.UsedAll cur →
    g.getState fuel sts cur = .error .noRulesFor → g.Lacks := by
  intro fuel
  induction fuel with
  | zero => intro sts cur _ h; cases h
  | succ n ih =>
    intro sts cur hc h
    unfold Grammar.getState at h
    simp only at h
    split at h
    · cases h
    · have hcl := hc.closureLoop (g := g) (sid := sts.length) (fuel := cur.length + g.rules.length + 1) (i := 0)
      split at h
      · rename_i he
        cases h
        exact hcl.2 he
      · rename_i configs he
        split at h
        · rename_i he2
          cases h
          refine shiftsLoop_lacks (fun sts cur hu hh => ih hu hh) ?_ he2
          intro c hcc
          exact hcl.1 _ he c (mem_sortCfgs.1 hcc)
        · cases h

/-- All rules that can be reached occur in the states, so none mentions a nonterminal without rules. -/
theorem Auto.used {g : Grammar} {sts : List LState} (h : Auto g sts) {r : RuleId} (hr : g.Used r) :
    ∃ q, q < sts.length ∧ (⟨r, 0⟩ : Item) ∈ items (cfgs sts q) := by
  have walk : ∀ (r : RuleId) (j : Nat) (q : StateId), q < sts.length → (⟨r, 0⟩ : Item) ∈ items (cfgs sts q) → j ≤ (g.rhsSyms r).length →
      ∃ q', q' < sts.length ∧ (⟨r, j⟩ : Item) ∈ items (cfgs sts q') := by
    intro r j
    induction j with
    | zero => intro q hq hm _; exact ⟨q, hq, hm⟩
    | succ j ih =>
      intro q hq hm hj
      obtain ⟨q', hq', hm'⟩ := ih q hq hm (by omega)
      have hn : g.next ⟨r, j⟩ = some ((g.rhsSyms r)[j]'(by omega)) := List.getElem?_eq_getElem _
      obtain ⟨k, hk⟩ := h.move hq' hm' hn
      exact ⟨k, hk.dst, h.sub k hk.dst _ ((hk.basis _).2 ⟨_, hm', hn, rfl⟩)⟩
  induction hr with
  | @start r hr => exact ⟨0, h.pos, h.sub 0 h.pos _ ((h.start _).2 ⟨r, hr, rfl⟩)⟩
  | @step r x r' _ hx hk hr' ih =>
    obtain ⟨q, hq, hm⟩ := ih
    obtain ⟨j, hj, rfl⟩ := List.getElem_of_mem hx
    obtain ⟨q', hq', hm'⟩ := walk r j q hq hm (Nat.le_of_lt hj)
    exact ⟨q', hq', h.closed q' hq' _ hm' r' ⟨_, List.getElem?_eq_getElem hj, hk, hr'⟩⟩

theorem Auto.items_used {g : Grammar} {sts : List LState} (h : Auto g sts) {r : RuleId} (hr : g.Used r) {j : Nat} (hj : j ≤ (g.rhsSyms r).length) :
    ∃ q, q < sts.length ∧ (⟨r, j⟩ : Item) ∈ items (cfgs sts q) := by
  induction j with
  | zero => exact h.used hr
  | succ j ih =>
    obtain ⟨q', hq', hm'⟩ := ih (by omega)
    have hn : g.next ⟨r, j⟩ = some ((g.rhsSyms r)[j]'(by omega)) := List.getElem?_eq_getElem _
    obtain ⟨k, hk⟩ := h.move hq' hm' hn
    exact ⟨k, hk.dst, h.sub k hk.dst _ ((hk.basis _).2 ⟨_, hm', hn, rfl⟩)⟩

theorem Auto.not_lacks {g : Grammar} {sts : List LState} (h : Auto g sts) : ¬ g.Lacks := by
  rintro ⟨r, x, hr, hx, hk, hrules, hne⟩
  obtain ⟨j, hj, rfl⟩ := List.getElem_of_mem hx
  obtain ⟨q, hq, hm⟩ := h.items_used hr (Nat.le_of_lt hj)
  exact hne (h.ok q hq _ hm _ (List.getElem?_eq_getElem hj) hk hrules)

end Pomelo
