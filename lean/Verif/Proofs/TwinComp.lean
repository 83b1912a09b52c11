import Verif.Proofs.TwinActs
/-! # The actions of the other automaton: compression -/

namespace Pomelo

open Spec

/-! ## Lists -/

theorem filterAuxM_map {ε α β : Type} {f : α → β} {p : α → Except ε Bool} {p' : β → Except ε Bool} : ∀ {l acc : List α}, (∀ a ∈ l, p' (f a) = p a) →
    List.filterAuxM p' (l.map f) (acc.map f) = (List.filterAuxM p l acc).map (·.map f) := by
  intro l
  induction l with
  | nil => intro acc _; rfl
  | cons a l ih =>
    intro acc h
    rw [List.map_cons]
    unfold List.filterAuxM
    rw [h a List.mem_cons_self]
    cases p a with
    | error e => rfl
    | ok b =>
      have := ih (acc := cond b (a :: acc) acc) (fun x hx => h x (List.mem_cons_of_mem _ hx))
      cases b <;> exact this

theorem filterM_map {ε α β : Type} {f : α → β} {p : α → Except ε Bool} {p' : β → Except ε Bool} {l : List α} (h : ∀ a ∈ l, p' (f a) = p a) :
    (l.map f).filterM p' = (l.filterM p).map (·.map f) := by
  unfold List.filterM
  have := filterAuxM_map (acc := []) h
  rw [List.map_nil] at this
  rw [this]
  cases List.filterAuxM p l [] with
  | error e => rfl
  | ok b =>
    exact congrArg Except.ok (List.map_reverse (f := f) (l := b)).symm

theorem mapM_total {ε α β : Type} {f : α → Except ε β} : ∀ {l : List α}, (∀ a ∈ l, ∃ b, f a = .ok b) → ∃ l', l.mapM f = .ok l' := by
  intro l
  induction l with
  | nil => intro _; exact ⟨[], rfl⟩
  | cons a l ih =>
    intro h
    obtain ⟨b, hb⟩ := h a List.mem_cons_self
    obtain ⟨l', hl⟩ := ih (fun x hx => h x (List.mem_cons_of_mem _ hx))
    exact ⟨b :: l', by rw [List.mapM_cons, hb, hl]; rfl⟩

variable {g g' : Grammar} {sts sts' : List LState}

namespace Twin
variable (T : Twin g g' sts sts') (F : T.Fit)

theorem sigma_inj {r r' : RuleId} (hr : r < g.rules.length) (hr' : r' < g.rules.length) : T.R.σ r = T.R.σ r' ↔ r = r' := by
  constructor
  · intro h
    rw [← (T.R.rule r hr).2.2, h, (T.R.rule r' hr').2.2]
  · intro h; rw [h]

theorem cmpEq {a b : Action} (ha : T.Ok a) (hb : T.Ok b) : (T.detail a.detail).cmpEq (T.detail b.detail) = a.detail.cmpEq b.detail := by
  cases a with
  | mk la d =>
    cases b with
    | mk lb e =>
      cases d <;> cases e <;> try rfl
      · rename_i k k'
        simp only [detail, Detail.cmpEq]
        rw [Bool.eq_iff_iff, beq_iff_eq, beq_iff_eq]
        exact ⟨T.inj (ha.2 k rfl) (hb.2 k' rfl), fun h => by rw [h]⟩
      · rename_i k k'
        simp only [detail, Detail.cmpEq]
        rw [Bool.eq_iff_iff, beq_iff_eq, beq_iff_eq]
        exact T.sigma_inj (ha.1 k rfl) (hb.1 k' rfl)

section
include F

theorem fallbackDiffers {l : List Action} (h : ∀ a ∈ l, T.Ok a) {a : Action} (ha : T.Ok a) : ∀ {fuel : Nat} {s : SymbolId},
    g'.fallbackDiffers (l.map T.ren) (T.detail a.detail) fuel s = g.fallbackDiffers l a.detail fuel s := by
  intro fuel
  induction fuel with
  | zero => intro s; rfl
  | succ fuel ih =>
    intro s
    unfold Grammar.fallbackDiffers
    rw [T.fallback F]
    cases (g.sym s).fallback with
    | none => rfl
    | some fb =>
      simp only
      rw [List.find?_map]
      have e : ((fun a : Action => decide (a.la = fb)) ∘ T.ren) = fun a => decide (a.la = fb) := rfl
      rw [e]
      cases hf : l.find? (fun a => decide (a.la = fb)) with
      | none => exact ih
      | some b =>
        simp only [Option.map_some]
        have hb := h b (List.mem_of_find?_eq_some hf)
        rw [show (T.ren b).detail = T.detail b.detail from rfl, T.cmpEq ha hb]
        split
        · exact ih
        · rfl

theorem ignoredActions {l : List Action} (h : ∀ a ∈ l, T.Ok a) : g'.ignoredActions (l.map T.ren) = g.ignoredActions l := by
  unfold Grammar.ignoredActions
  rw [T.hasFallback F]
  split
  · have hlen : g'.syms.length = g.syms.length := T.R.len
    rw [filterM_map (p := fun a => g.fallbackDiffers l a.detail (g.syms.length + 1) a.la) (by
      intro a ha
      rw [hlen]
      exact T.fallbackDiffers F h (h a ha))]
    cases l.filterM (fun a => g.fallbackDiffers l a.detail (g.syms.length + 1) a.la) with
    | error e => rfl
    | ok b =>
      exact congrArg Except.ok (List.map_map (l := b) (f := T.ren) (g := fun x : Action => x.la))
  · rfl

omit F in
theorem reduceIff {r : RuleId} (hr : r < g.rules.length) {a : Action} (ha : T.Ok a) : (T.ren a).detail = .reduce (T.R.σ r) ↔ a.detail = .reduce r := by
  cases a with
  | mk la d =>
    cases d <;> simp [ren, detail]
    exact T.sigma_inj (ha.1 _ rfl) hr

omit F in
theorem countReduces (ig : List SymbolId) {r : RuleId} (hr : r < g.rules.length) {l : List Action} (h : ∀ a ∈ l, T.Ok a) :
    countReduces ig (T.R.σ r) (l.map T.ren) = countReduces ig r l := by
  unfold Pomelo.countReduces
  rw [List.filter_map, List.length_map]
  congr 1
  apply List.filter_congr
  intro a ha
  simp only [Function.comp]
  rw [Bool.eq_iff_iff, Bool.and_eq_true, Bool.and_eq_true, decide_eq_true_eq, decide_eq_true_eq, T.reduceIff hr (h a ha)]
  rfl

/-- The best default of the other state -/
def best (b : Best) : Best := { b with rbest := b.rbest.map T.R.σ }

theorem findBest (ig : List SymbolId) : ∀ {l : List Action} {b : Best}, (∀ a ∈ l, T.Ok a) → (∀ r, b.rbest = some r → r < g.rules.length) →
    g'.findBest ig (T.best b) (l.map T.ren) = T.best (g.findBest ig b l) ∧ ∀ r, (g.findBest ig b l).rbest = some r → r < g.rules.length := by
  intro l
  induction l with
  | nil => intro b _ hb; exact ⟨rfl, hb⟩
  | cons a l ih =>
    intro b h hb
    have hl := fun x hx => h x (List.mem_cons_of_mem _ hx)
    rw [List.map_cons]
    unfold Grammar.findBest
    rw [show (T.ren a).la = a.la from rfl]
    by_cases hc : ig.contains a.la = true
    · rw [if_pos hc, if_pos hc]
      exact ih hl hb
    · rw [if_neg hc, if_neg hc]
      cases hd : a.detail with
      | shift k =>
        have hd' : (T.ren a).detail = .shift (T.ρ k) := by unfold ren; rw [hd]; rfl
        simp only [hd']
        rw [T.wildcard F]
        have := ih (b := if g.wildcard = some a.la then { b with usesWildcard := true } else b) hl (by
          intro r hr
          apply hb r
          split at hr <;> exact hr)
        refine ⟨?_, this.2⟩
        rw [← this.1]
        congr 1
        split <;> rfl
      | reduce r =>
        have hd' : (T.ren a).detail = .reduce (T.R.σ r) := by unfold ren; rw [hd]; rfl
        have hr : r < g.rules.length := (h a List.mem_cons_self).1 r hd
        simp only [hd']
        rw [F.flag r hr]
        by_cases h1 : (g.rule r).lhsStart = true
        · rw [if_pos h1, if_pos h1]
          exact ih hl hb
        · rw [if_neg h1, if_neg h1]
          have e : (T.best b).rbest = some (T.R.σ r) ↔ b.rbest = some r := by
            unfold best
            simp only [Option.map_eq_some_iff]
            constructor
            · rintro ⟨r', h2, h3⟩
              rw [h2, (T.sigma_inj (hb r' h2) hr).1 h3]
            · intro h2; exact ⟨r, h2, rfl⟩
          by_cases h2 : b.rbest = some r
          · rw [if_pos h2, if_pos (e.2 h2)]
            exact ih hl hb
          · rw [if_neg h2, if_neg (fun h => h2 (e.1 h)), T.countReduces ig hr hl]
            have := ih (b := if b.nbest < 1 + Pomelo.countReduces ig r l then { b with nbest := 1 + Pomelo.countReduces ig r l, rbest := some r } else b) hl (by
              intro r' hr'
              split at hr'
              · cases hr'; exact hr
              · exact hb r' hr')
            refine ⟨?_, this.2⟩
            rw [← this.1]
            congr 1
            show (if b.nbest < _ then _ else _) = _
            split <;> rfl
      | accept =>
        have hd' : (T.ren a).detail = .accept := by unfold ren; rw [hd]; rfl
        simp only [hd']
        exact ih hl hb
      | error =>
        have hd' : (T.ren a).detail = .error := by unfold ren; rw [hd]; rfl
        simp only [hd']
        exact ih hl hb
      | notUsed =>
        have hd' : (T.ren a).detail = .notUsed := by unfold ren; rw [hd]; rfl
        simp only [hd']
        exact ih hl hb
      | ssConflict k =>
        have hd' : (T.ren a).detail = .ssConflict (T.ρ k) := by unfold ren; rw [hd]; rfl
        simp only [hd']
        exact ih hl hb
      | srConflict k =>
        have hd' : (T.ren a).detail = .srConflict (T.R.σ k) := by unfold ren; rw [hd]; rfl
        simp only [hd']
        exact ih hl hb
      | rrConflict k =>
        have hd' : (T.ren a).detail = .rrConflict (T.R.σ k) := by unfold ren; rw [hd]; rfl
        simp only [hd']
        exact ih hl hb
      | shResolved k =>
        have hd' : (T.ren a).detail = .shResolved (T.ρ k) := by unfold ren; rw [hd]; rfl
        simp only [hd']
        exact ih hl hb
      | rdResolved k =>
        have hd' : (T.ren a).detail = .rdResolved (T.R.σ k) := by unfold ren; rw [hd]; rfl
        simp only [hd']
        exact ih hl hb

omit F in
theorem isBest (ig : List SymbolId) {r : RuleId} (hr : r < g.rules.length) {a : Action} (ha : T.Ok a) : isBest ig (T.R.σ r) (T.ren a) = isBest ig r a := by
  unfold Pomelo.isBest
  rw [Bool.eq_iff_iff, Bool.and_eq_true, Bool.and_eq_true, decide_eq_true_eq, decide_eq_true_eq, T.reduceIff hr ha]
  rfl

omit F in
theorem makeDefault (ig : List SymbolId) (dflt : SymbolId) {r : RuleId} (hr : r < g.rules.length) : ∀ {l : List Action}, (∀ a ∈ l, T.Ok a) →
    makeDefault ig dflt (T.R.σ r) (l.map T.ren) = (makeDefault ig dflt r l).map T.ren := by
  intro l
  induction l with
  | nil => intro _; rfl
  | cons a l ih =>
    intro h
    have hl := fun x hx => h x (List.mem_cons_of_mem _ hx)
    rw [List.map_cons]
    unfold Pomelo.makeDefault
    rw [T.isBest ig hr (h a List.mem_cons_self)]
    split
    · rw [List.map_cons, List.map_map, List.map_map]
      congr 1
      apply List.map_congr_left
      intro b hb
      simp only [Function.comp]
      rw [T.isBest ig hr (hl b hb)]
      split <;> rfl
    · rw [List.map_cons, ih hl]

omit F in
theorem mem_makeDefault {ig : List SymbolId} {dflt : SymbolId} {r : RuleId} : ∀ {l : List Action} {a : Action}, a ∈ Pomelo.makeDefault ig dflt r l →
    (∃ b ∈ l, Kept b a) ∨ (a.la = dflt ∧ a.detail = .reduce r) := by
  intro l
  induction l with
  | nil => intro a h; cases h
  | cons x l ih =>
    intro a h
    unfold Pomelo.makeDefault at h
    split at h
    · rename_i hb
      rcases List.mem_cons.1 h with rfl | h
      · unfold Pomelo.isBest at hb
        rw [Bool.and_eq_true, decide_eq_true_eq] at hb
        exact .inr ⟨rfl, hb.2⟩
      · obtain ⟨y, hy, e⟩ := List.mem_map.1 h
        refine .inl ⟨y, List.mem_cons_of_mem _ hy, ?_⟩
        split at e
        · subst e
          exact .inr ⟨rfl, fun _ h => (by cases h), fun _ h => (by cases h)⟩
        · exact .inl e.symm
    · rcases List.mem_cons.1 h with rfl | h
      · exact .inl ⟨_, List.mem_cons_self, .inl rfl⟩
      · rcases ih h with ⟨b, hb, hk⟩ | h
        · exact .inl ⟨b, List.mem_cons_of_mem _ hb, hk⟩
        · exact .inr h

omit F in
theorem tame_makeDefault {ig : List SymbolId} {dflt : SymbolId} {r : RuleId} (hr : r < g.rules.length) {l : List Action} (h : T.Tame l)
    (hd : ∀ a ∈ l, (g.sym a.la).index ≠ (g.sym dflt).index) : T.Tame (Pomelo.makeDefault ig dflt r l) := by
  have key : ∀ a ∈ Pomelo.makeDefault ig dflt r l, (a ∈ l ∨ a.detail.dead) ∨ (a.la = dflt ∧ a.detail = .reduce r) := by
    intro a ha
    rcases mem_makeDefault ha with ⟨b, hb, rfl | ⟨_, hk⟩⟩ | h
    · exact .inl (.inl hb)
    · exact .inl (.inr hk)
    · exact .inr h
  refine ⟨fun a ha => ?_, fun a ha b hb he k k' e1 e2 => ?_, fun a ha b hb he k k' e1 e2 => ?_⟩
  · rcases key a ha with (h1 | h1) | ⟨_, h1⟩
    · exact h.ok a h1
    · exact ⟨fun r e => absurd e (h1.2 r), fun k e => absurd e (h1.1 k)⟩
    · exact ⟨fun r' e => by rw [h1] at e; cases e; exact hr, fun k e => by rw [h1] at e; cases e⟩
  · rcases key a ha with (h1 | h1) | ⟨_, h1⟩
    · rcases key b hb with (h2 | h2) | ⟨_, h2⟩
      · exact h.shift a h1 b h2 he k k' e1 e2
      · exact absurd e2 (h2.1 _)
      · rw [h2] at e2; cases e2
    · exact absurd e1 (h1.1 _)
    · rw [h1] at e1; cases e1
  · rcases key a ha with (h1 | h1) | ⟨l1, h1⟩
    · rcases key b hb with (h2 | h2) | ⟨l2, h2⟩
      · exact h.reduce a h1 b h2 he k k' e1 e2
      · exact absurd e2 (h2.2 _)
      · rw [l2] at he; exact absurd he (hd a h1)
    · exact absurd e1 (h1.2 _)
    · rcases key b hb with (h2 | h2) | ⟨l2, h2⟩
      · rw [l1] at he; exact absurd he.symm (hd b h2)
      · exact absurd e2 (h2.2 _)
      · rw [h1] at e1; rw [h2] at e2
        cases e1; cases e2
        simp

theorem compressState {dflt : SymbolId} {l : List Action} (h : T.Tame l) (hd : ∀ a ∈ l, (g.sym a.la).index ≠ (g.sym dflt).index) :
    g'.compressState dflt (l.map T.ren) = (g.compressState dflt l).map (·.map T.ren) := by
  unfold Grammar.compressState
  rw [T.ignoredActions F h.ok]
  cases g.ignoredActions l with
  | error e => rfl
  | ok ig =>
    simp only
    obtain ⟨h1, h2⟩ := T.findBest F ig (b := {}) h.ok (by intro r hr; cases hr)
    rw [show T.best ({} : Best) = {} from rfl] at h1
    rw [h1]
    cases hb : (g.findBest ig {} l).rbest with
    | none =>
      have : (T.best (g.findBest ig {} l)).rbest = none := by unfold best; rw [hb]; rfl
      rw [this]
      rfl
    | some r =>
      have : (T.best (g.findBest ig {} l)).rbest = some (T.R.σ r) := by unfold best; rw [hb]; rfl
      rw [this]
      simp only
      rw [show (T.best (g.findBest ig {} l)).usesWildcard = (g.findBest ig {} l).usesWildcard from rfl]
      split
      · rfl
      · rw [T.makeDefault ig dflt (h2 r hb) h.ok, T.sort F (T.tame_makeDefault (h2 r hb) h hd)]
        rfl

/-- The compressed actions of the other automaton -/
theorem compressTables {acts acts' acts2 : List (List Action)} (h : g.findActions sts = .ok (acts, 0)) (hc : g.compressTables acts = .ok acts')
    (h' : g'.findActions sts' = .ok (acts2, 0)) (he : ∀ q, q < sts.length → acts2.getD (T.ρ q) [] = (acts.getD q []).map T.ren) :
    ∃ acts2', g'.compressTables acts2 = .ok acts2' ∧ ∀ q, q < sts.length → acts2'.getD (T.ρ q) [] = (acts'.getD q []).map T.ren := by
  obtain ⟨a1, a2, _, _⟩ := findActions_get h
  obtain ⟨b1, b2, _, _⟩ := findActions_get h'
  obtain ⟨d0, hd1, hd2, _⟩ := T.inv.dflt
  unfold Grammar.compressTables at hc ⊢
  have hsf : g'.symbolFind .dflt = g.symbolFind .dflt := by
    unfold Grammar.symbolFind
    rw [T.symbols F]
    congr 1
    funext s
    rw [T.fname F]
  rw [hsf]
  cases hs : g.symbolFind .dflt with
  | none => rw [hs] at hc; cases hc
  | some dflt =>
    rw [hs] at hc
    simp only at hc ⊢
    have hdn : (g.sym dflt).name = .dflt := by
      unfold Grammar.symbolFind at hs
      simpa using List.find?_some hs
    have hdl : dflt < g.syms.length := by
      by_contra hl
      have : g.sym dflt = default := by
        unfold Grammar.sym
        rw [List.getD_eq_getElem?_getD, List.getElem?_eq_none (Nat.le_of_not_lt hl)]; rfl
      rw [this] at hdn
      cases hdn
    have hne : ∀ q, q < sts.length → ∀ a ∈ acts.getD q [], (g.sym a.la).index ≠ (g.sym dflt).index := by
      intro q hq a ha e
      rw [a2 q hq] at ha
      obtain ⟨b, hb, hk⟩ := mem_resolveL_la ha
      rw [mem_sortBy] at hb
      have hbl := (raw_la T.inv T.auto hq b hb).1
      rw [← hk] at e
      have hbd := T.inv.index_inj hbl hdl e
      rw [mem_rawActions T.inv T.auto hq] at hb
      rcases hb with ⟨k, ⟨X, hX, hm⟩, _⟩ | ⟨r, hr, _⟩ | ⟨_, hst⟩
      · obtain ⟨r, hr, hx⟩ := hX.rhs T.inv T.auto
        obtain ⟨hXl, _, hXn⟩ := T.inv.rhs r hr X hx
        rcases (mem_shiftActions.1 hm).2 with ⟨_, h1⟩ | ⟨_, h1⟩
        · have := (T.inv.subs X hXl _ h1).2
          have h2 : (g.sym b.la).name.isTok = true := this
          rw [hbd, hdn] at h2; cases h2
        · have h1 : b.la = X := h1
          rw [← h1, hbd, hdn] at hXn; exact hXn rfl
      · have := hr.2.1
        have hk := T.inv.kinds dflt hdl
        rw [← hbd, this, hbd, hdn] at hk
        cases hk
      · obtain ⟨s0, e1, e2, e3⟩ := T.inv.start
        rw [hst] at hbd
        simp only [e1, Option.getD_some] at hbd
        rw [hbd, hdn] at e3; cases e3
    have htame : ∀ q, q < sts.length → T.Tame (acts.getD q []) := by
      intro q hq
      rw [a2 q hq]
      exact T.tame_acts F hq
    have hm := mapM_except_forall₂ hc
    have hone : ∀ q, q < sts.length → g'.compressState dflt (acts2.getD (T.ρ q) []) = .ok ((acts'.getD q []).map T.ren) := by
      intro q hq
      rw [he q hq, T.compressState F (htame q hq) (hne q hq)]
      rcases forall₂_getElem? hm q with ⟨h1, _⟩ | ⟨a, b, h1, h2, h3⟩
      · rw [List.getElem?_eq_none_iff, a1] at h1
        exact absurd hq (Nat.not_lt.2 h1)
      · rw [List.getD_eq_getElem?_getD, List.getD_eq_getElem?_getD, h1, h2]
        simp only [Option.getD_some]
        rw [h3]
        rfl
    obtain ⟨acts2', hk⟩ := mapM_total (f := g'.compressState dflt) (l := acts2) (by
      intro a ha
      obtain ⟨i, hi1, rfl⟩ := List.mem_iff_getElem.1 ha
      rw [b1] at hi1
      have := hone _ (T.symm.lt hi1)
      rw [show T.ρ (T.symm.ρ i) = i from T.symm.back hi1, getD_of_lt (by rw [b1]; exact hi1)] at this
      exact ⟨_, this⟩)
    refine ⟨acts2', hk, fun q hq => ?_⟩
    have hm2 := mapM_except_forall₂ hk
    rcases forall₂_getElem? hm2 (T.ρ q) with ⟨h1, _⟩ | ⟨a, b, h1, h2, h3⟩
    · rw [List.getElem?_eq_none_iff, b1] at h1
      exact absurd (T.lt hq) (Nat.not_lt.2 h1)
    · have := hone q hq
      rw [List.getD_eq_getElem?_getD, h1] at this
      simp only [Option.getD_some] at this
      rw [h3] at this
      rw [List.getD_eq_getElem?_getD, h2]
      exact Except.ok.inj this

end

end Twin

end Pomelo
