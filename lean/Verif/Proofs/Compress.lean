import Verif.Proofs.StateActs
/-! # Default actions -/

namespace Pomelo

open Spec

variable {g : Grammar}

/-- The entry of a list of actions for a symbol: the last live one -/
def ownOf (l : List Action) (s : SymbolId) : Option Detail := (lives (onSym s l)).getLast?

/-! ## The best default -/

theorem findBest_spec {ig : List SymbolId} : ∀ {l : List Action} {b : Best},
    (∀ r, (g.findBest ig b l).rbest = some r → b.rbest = some r ∨ ((g.rule r).lhsStart = false ∧ ∃ a ∈ l, a.la ∉ ig ∧ a.detail = .reduce r)) ∧
    ((g.findBest ig b l).usesWildcard = true ↔ b.usesWildcard = true ∨ ∃ a ∈ l, a.la ∉ ig ∧ g.wildcard = some a.la ∧ ∃ k, a.detail = .shift k) ∧
    ((b.rbest.isSome = true → 0 < b.nbest) → (b.rbest = none → b.nbest = 0) → ((g.findBest ig b l).rbest = none ↔
      b.rbest = none ∧ ∀ a ∈ l, a.la ∉ ig → ∀ r, a.detail = .reduce r → (g.rule r).lhsStart = true)) := by
  intro l
  induction l with
  | nil =>
    intro b
    refine ⟨fun r h => .inl h, by simp [Grammar.findBest], fun _ _ => by simp [Grammar.findBest]⟩
  | cons a l ih =>
    intro b
    unfold Grammar.findBest
    by_cases hig : ig.contains a.la = true
    · have hig' : a.la ∈ ig := List.contains_iff_mem.1 hig
      simp only [hig, if_true]
      obtain ⟨h1, h2, h3⟩ := ih (b := b)
      refine ⟨?_, ?_, ?_⟩
      · intro r h
        rcases h1 r h with h | ⟨h, x, hx, h4⟩
        · exact .inl h
        · exact .inr ⟨h, x, by simp [hx], h4⟩
      · rw [h2]; simp [hig']
      · intro i1 i2; rw [h3 i1 i2]; simp [hig']
    · have hig' : a.la ∉ ig := fun h => hig (List.contains_iff_mem.2 h)
      simp only [hig, Bool.false_eq_true, if_false]
      have skip : ∀ (b' : Best), b' = b → ((∀ k, a.detail ≠ .shift k) ∨ g.wildcard ≠ some a.la) → (∀ r, a.detail = .reduce r → (g.rule r).lhsStart = true ∨ b.rbest = some r) →
          (∀ r, (g.findBest ig b' l).rbest = some r → b.rbest = some r ∨ ((g.rule r).lhsStart = false ∧ ∃ x ∈ a :: l, x.la ∉ ig ∧ x.detail = .reduce r)) ∧
          ((g.findBest ig b' l).usesWildcard = true ↔ b.usesWildcard = true ∨ ∃ x ∈ a :: l, x.la ∉ ig ∧ g.wildcard = some x.la ∧ ∃ k, x.detail = .shift k) ∧
          ((b.rbest.isSome = true → 0 < b.nbest) → (b.rbest = none → b.nbest = 0) → ((g.findBest ig b' l).rbest = none ↔
            b.rbest = none ∧ ∀ x ∈ a :: l, x.la ∉ ig → ∀ r, x.detail = .reduce r → (g.rule r).lhsStart = true)) := by
        rintro b' rfl hsh hrd
        obtain ⟨h1, h2, h3⟩ := ih (b := b')
        refine ⟨?_, ?_, ?_⟩
        · intro r h
          rcases h1 r h with h | ⟨h, x, hx, h4⟩
          · exact .inl h
          · exact .inr ⟨h, x, by simp [hx], h4⟩
        · rw [h2]
          constructor
          · rintro (h | ⟨x, hx, h⟩)
            · exact .inl h
            · exact .inr ⟨x, by simp [hx], h⟩
          · rintro (h | ⟨x, hx, h⟩)
            · exact .inl h
            · rcases List.mem_cons.1 hx with rfl | hx
              · obtain ⟨_, h4, k, h5⟩ := h
                rcases hsh with hsh | hsh
                · exact absurd h5 (hsh k)
                · exact absurd h4 hsh
              · exact .inr ⟨x, hx, h⟩
        · intro i1 i2
          rw [h3 i1 i2]
          constructor
          · rintro ⟨h4, h5⟩
            refine ⟨h4, ?_⟩
            intro x hx hg r hr
            rcases List.mem_cons.1 hx with rfl | hx
            · rcases hrd r hr with h | h
              · exact h
              · rw [h4] at h; cases h
            · exact h5 x hx hg r hr
          · rintro ⟨h4, h5⟩
            exact ⟨h4, fun x hx => h5 x (by simp [hx])⟩
      cases hd : a.detail with
      | shift k =>
        simp only
        split
        · rename_i hw
          obtain ⟨h1, h2, h3⟩ := ih (b := { b with usesWildcard := true })
          refine ⟨?_, ?_, ?_⟩
          · intro r h
            rcases h1 r h with h | ⟨h, x, hx, h4⟩
            · exact .inl h
            · exact .inr ⟨h, x, by simp [hx], h4⟩
          · rw [h2]
            simp only [true_or, true_iff]
            exact .inr ⟨a, by simp, hig', hw, k, hd⟩
          · intro i1 i2
            rw [h3 i1 i2]
            simp only
            constructor
            · rintro ⟨h4, h5⟩
              refine ⟨h4, ?_⟩
              intro x hx hg r hr
              rcases List.mem_cons.1 hx with rfl | hx
              · rw [hd] at hr; cases hr
              · exact h5 x hx hg r hr
            · rintro ⟨h4, h5⟩
              exact ⟨h4, fun x hx => h5 x (by simp [hx])⟩
        · rename_i hw
          exact skip _ rfl (.inr hw) (fun r h => by rw [hd] at h; cases h)
      | reduce rp =>
        simp only
        split
        · rename_i hst
          exact skip _ rfl (.inl (fun k h => by rw [hd] at h; cases h)) (fun r h => by rw [hd] at h; cases h; exact .inl hst)
        · rename_i hst
          split
          · rename_i hrb
            exact skip _ rfl (.inl (fun k h => by rw [hd] at h; cases h)) (fun r h => by rw [hd] at h; cases h; exact .inr hrb)
          · split
            · rename_i hlt
              obtain ⟨h1, h2, h3⟩ := ih (b := { b with nbest := 1 + countReduces ig rp l, rbest := some rp })
              refine ⟨?_, ?_, ?_⟩
              · intro r h
                rcases h1 r h with h | ⟨h, x, hx, h4⟩
                · simp only [Option.some.injEq] at h
                  subst h
                  exact .inr ⟨by simpa using hst, a, by simp, hig', hd⟩
                · exact .inr ⟨h, x, by simp [hx], h4⟩
              · rw [h2]
                simp only
                constructor
                · rintro (h | ⟨x, hx, h⟩)
                  · exact .inl h
                  · exact .inr ⟨x, by simp [hx], h⟩
                · rintro (h | ⟨x, hx, h⟩)
                  · exact .inl h
                  · rcases List.mem_cons.1 hx with rfl | hx
                    · obtain ⟨_, _, k, h5⟩ := h
                      rw [hd] at h5; cases h5
                    · exact .inr ⟨x, hx, h⟩
              · intro i1 i2
                rw [h3 (fun _ => by show 0 < 1 + countReduces ig rp l; omega) (fun h => by cases h)]
                constructor
                · rintro ⟨h4, _⟩; cases h4
                · rintro ⟨_, h5⟩
                  have := h5 a (by simp) hig' rp hd
                  exact absurd this hst
            · rename_i hlt
              obtain ⟨h1, h2, h3⟩ := ih (b := b)
              refine ⟨?_, ?_, ?_⟩
              · intro r h
                rcases h1 r h with h | ⟨h, x, hx, h4⟩
                · exact .inl h
                · exact .inr ⟨h, x, by simp [hx], h4⟩
              · rw [h2]
                constructor
                · rintro (h | ⟨x, hx, h⟩)
                  · exact .inl h
                  · exact .inr ⟨x, by simp [hx], h⟩
                · rintro (h | ⟨x, hx, h⟩)
                  · exact .inl h
                  · rcases List.mem_cons.1 hx with rfl | hx
                    · obtain ⟨_, _, k, h5⟩ := h
                      rw [hd] at h5; cases h5
                    · exact .inr ⟨x, hx, h⟩
              · intro i1 i2
                rw [h3 i1 i2]
                have hb : b.rbest ≠ none := by
                  intro h
                  have := i2 h
                  omega
                constructor
                · rintro ⟨h4, _⟩; exact absurd h4 hb
                · rintro ⟨h4, _⟩; exact absurd h4 hb
      | _ =>
        exact skip _ rfl (.inl (fun k h => by rw [hd] at h; cases h)) (fun r h => by rw [hd] at h; cases h)

/-! ## The compressed list -/

/-- Result of the compression of one state; `d` is the default. -/
structure CompSpec (g : Grammar) (dflt : SymbolId) (acts acts' : List Action) (d : Option RuleId) (ig : List SymbolId) : Prop where
  ign : g.ignoredActions acts = .ok ig
  dOk : ∀ r, d = some r → (g.rule r).lhsStart = false ∧ ∃ a ∈ acts, a.la ∉ ig ∧ a.detail = .reduce r
  dNone : d = none → acts' = acts ∧ ((∃ a ∈ acts, a.la ∉ ig ∧ g.wildcard = some a.la ∧ ∃ k, a.detail = .shift k) ∨
    ∀ a ∈ acts, a.la ∉ ig → ∀ r, a.detail = .reduce r → (g.rule r).lhsStart = true)
  dSome : ∀ r, d = some r → acts' = sortBy g.actionLt (makeDefault ig dflt r acts) ∧
    ∀ a ∈ acts, a.la ∉ ig → g.wildcard = some a.la → ∀ k, a.detail ≠ .shift k

theorem compressState_spec {dflt : SymbolId} {acts acts' : List Action} (h : g.compressState dflt acts = .ok acts') :
    ∃ d ig, CompSpec g dflt acts acts' d ig := by
  unfold Grammar.compressState at h
  split at h
  · cases h
  · rename_i ig hig
    obtain ⟨h1, h2, h3⟩ := findBest_spec (g := g) (ig := ig) (l := acts) (b := {})
    have h3 := h3 (by simp) (by simp)
    simp only at h
    split at h
    · rename_i r hr
      split at h
      · rename_i hw
        cases h
        refine ⟨none, ig, hig, by simp, fun _ => ⟨rfl, .inl ?_⟩, by simp⟩
        have := h2.1 hw
        simpa using this
      · rename_i hw
        cases h
        refine ⟨some r, ig, hig, ?_, by simp, ?_⟩
        · intro r' e; cases e
          rcases h1 r hr with h | h
          · cases h
          · exact h
        · intro r' e; cases e
          refine ⟨rfl, ?_⟩
          intro a ha hg hwc k hk
          exact hw (h2.2 (.inr ⟨a, ha, hg, hwc, k, hk⟩))
    · rename_i hr
      cases h
      exact ⟨none, ig, hig, by simp, fun _ => ⟨rfl, .inr (h3.1 hr).2⟩, by simp⟩

theorem compressTables_spec (hi : GInv g) {acts acts' : List (List Action)} (h : g.compressTables acts = .ok acts') :
    ∃ dflt, dflt < g.syms.length ∧ (g.sym dflt).index = g.defaultIndex ∧ (g.sym dflt).name = .dflt ∧ acts'.length = acts.length ∧
      ∀ q, q < acts.length → ∃ d ig, CompSpec g dflt (acts.getD q []) (acts'.getD q []) d ig := by
  unfold Grammar.compressTables at h
  split at h
  · cases h
  · rename_i dflt hd
    obtain ⟨d0, hd1, hd2, hd3⟩ := hi.dflt
    have hdd : dflt < g.syms.length ∧ (g.sym dflt).name = .dflt := by
      unfold Grammar.symbolFind at hd
      have h1 := List.find?_some hd
      have h2 := List.mem_of_find?_eq_some hd
      obtain ⟨i, hi1, hi2⟩ := List.mem_iff_getElem.1 h2
      have h3 := (hi.index i (by rw [← hi.slen]; exact hi1)).1
      rw [getD_of_lt hi1, hi2] at h3
      exact ⟨h3, by simpa using h1⟩
    have hde : dflt = d0 := hi.names dflt d0 hdd.1 hd1 (by rw [hdd.2, hd2]) (by rw [hdd.2]; simp)
    have hm := mapM_except_forall₂ h
    refine ⟨dflt, hdd.1, by rw [hde]; exact hd3, hdd.2, hm.length_eq.symm, ?_⟩
    intro q hq
    rcases forall₂_getElem? hm q with ⟨h1, _⟩ | ⟨a, b, h1, h2, h3⟩
    · rw [List.getElem?_eq_none_iff] at h1; omega
    · rw [List.getD_eq_getElem?_getD, List.getD_eq_getElem?_getD, h1, h2]
      exact compressState_spec h3

/-! ## Entries of the compressed list -/

theorem isBest_iff {ig : List SymbolId} {r : RuleId} {a : Action} : isBest ig r a = true ↔ a.la ∉ ig ∧ a.detail = .reduce r := by
  unfold isBest
  simp

theorem lives_makeDefault {ig : List SymbolId} {dflt : SymbolId} {r : RuleId} {s : SymbolId} (hs : s ≠ dflt) :
    ∀ (l : List Action), lives (onSym s (makeDefault ig dflt r l)) =
      (lives (onSym s l)).filter (fun d => !(decide (s ∉ ig) && decide (d = .reduce r))) := by
  have hmap : ∀ l : List Action, lives (onSym s (l.map (fun a => if isBest ig r a then { a with detail := .notUsed } else a))) =
      (lives (onSym s l)).filter (fun d => !(decide (s ∉ ig) && decide (d = .reduce r))) := by
    intro l
    induction l with
    | nil => rfl
    | cons a l ih =>
      rw [List.map_cons]
      have h1 : ∀ (x : Action) (xs : List Action), onSym s (x :: xs) = if x.la = s then x :: onSym s xs else onSym s xs := by
        intro x xs; unfold onSym; rw [List.filter_cons]; simp
      rw [h1, h1 a]
      have hla : (if isBest ig r a then { a with detail := .notUsed } else a : Action).la = a.la := by split <;> rfl
      rw [hla]
      by_cases h : a.la = s
      · rw [if_pos h, if_pos h, lives_cons, lives_cons, ih, List.filter_append]
        congr 1
        by_cases hb : isBest ig r a = true
        · rw [if_pos hb]
          obtain ⟨h2, h3⟩ := isBest_iff.1 hb
          rw [h] at h2
          simp [Detail.live, h3, h2]
        · rw [if_neg hb]
          have h2 : s ∈ ig ∨ a.detail ≠ .reduce r := by
            rw [← h]
            exact or_iff_not_imp_left.2 (fun h3 h4 => hb (isBest_iff.2 ⟨h3, h4⟩))
          split
          · rw [List.filter_cons_of_pos]
            · rfl
            · simpa using h2
          · rfl
      · rw [if_neg h, if_neg h, ih]
  intro l
  induction l with
  | nil => rfl
  | cons a l ih =>
    have h1 : ∀ (x : Action) (xs : List Action), onSym s (x :: xs) = if x.la = s then x :: onSym s xs else onSym s xs := by
      intro x xs; unfold onSym; rw [List.filter_cons]; simp
    unfold makeDefault
    split
    · rename_i hb
      rw [h1, if_neg (by simpa using fun h => hs h.symm), hmap, h1]
      obtain ⟨h2, h3⟩ := isBest_iff.1 hb
      split
      · rename_i h
        rw [h] at h2
        rw [lives_cons, List.filter_append]
        simp [Detail.live, h3, h2]
      · rfl
    · rename_i hb
      rw [h1, h1 a]
      split
      · rename_i h
        rw [lives_cons, lives_cons, ih, List.filter_append]
        congr 1
        have h2 : s ∈ ig ∨ a.detail ≠ .reduce r := by
          rw [← h]
          exact or_iff_not_imp_left.2 (fun h3 h4 => hb (isBest_iff.2 ⟨h3, h4⟩))
        split
        · rw [List.filter_cons_of_pos]
          · rfl
          · simpa using h2
        · rfl
      · exact ih

theorem lives_makeDefault_dflt {ig : List SymbolId} {dflt : SymbolId} {r : RuleId} : ∀ {l : List Action}, (∀ a ∈ l, a.la ≠ dflt) →
    (∃ a ∈ l, a.la ∉ ig ∧ a.detail = .reduce r) → lives (onSym dflt (makeDefault ig dflt r l)) = [.reduce r] := by
  intro l
  induction l with
  | nil => rintro _ ⟨a, h, _⟩; cases h
  | cons a l ih =>
    intro hn hex
    have h1 : ∀ (x : Action) (xs : List Action), onSym dflt (x :: xs) = if x.la = dflt then x :: onSym dflt xs else onSym dflt xs := by
      intro x xs; unfold onSym; rw [List.filter_cons]; simp
    unfold makeDefault
    split
    · rename_i hb
      obtain ⟨h2, h3⟩ := isBest_iff.1 hb
      rw [h1, if_pos rfl, lives_cons]
      have : onSym dflt (l.map (fun a => if isBest ig r a then { a with detail := .notUsed } else a)) = [] := by
        apply onSym_eq_nil
        intro y hy
        obtain ⟨x, hx, rfl⟩ := List.mem_map.1 hy
        have := hn x (by simp [hx])
        split <;> exact this
      rw [this]
      simp only [h3, Detail.live, if_true]
      rfl
    · rename_i hb
      rw [h1, if_neg (hn a (by simp))]
      apply ih (fun x hx => hn x (by simp [hx]))
      obtain ⟨x, hx, h⟩ := hex
      rcases List.mem_cons.1 hx with rfl | hx
      · exact absurd (isBest_iff.2 h) hb
      · exact ⟨x, hx, h⟩

theorem lives_perm {l l' : List Action} (h : l.Perm l') : (lives l).Perm (lives l') := (h.map _).filter _

theorem onSym_perm {l l' : List Action} {s : SymbolId} (h : l.Perm l') : (onSym s l).Perm (onSym s l') := h.filter _

/-- Two live entries left of a sorted list: the error is the last one. -/
theorem lives_sorted_two {l : List Action} {s : SymbolId} {x : RuleId} (h : (lives (onSym s (sortBy g.actionLt l))).Perm [.error, .reduce x]) :
    lives (onSym s (sortBy g.actionLt l)) = [.reduce x, .error] := by
  have hp : (onSym s (sortBy g.actionLt l)).Pairwise (fun a b => a.detail.rank ≤ b.detail.rank) := by
    have h1 : (onSym s (sortBy g.actionLt l)).Pairwise g.Before := (sorted_actions l).sublist List.filter_sublist
    refine h1.imp_of_mem ?_
    intro a b ha hb h2
    have e1 := (mem_onSym.1 ha).2
    have e2 := (mem_onSym.1 hb).2
    rcases h2 with h2 | ⟨_, h2⟩
    · rw [e1, e2] at h2; exact absurd h2 (Nat.lt_irrefl _)
    · exact h2
  have hr : (lives (onSym s (sortBy g.actionLt l))).Pairwise (fun a b => a.rank ≤ b.rank) := by
    unfold lives
    exact (List.pairwise_map (f := fun a : Action => a.detail) (R := fun a b : Detail => a.rank ≤ b.rank) |>.2 hp).sublist List.filter_sublist
  generalize lives (onSym s (sortBy g.actionLt l)) = m at h hr
  have hlen := h.length_eq
  match m, hlen with
  | [a, b], _ =>
    have ha : a ∈ [Detail.error, .reduce x] := h.mem_iff.1 (by simp)
    have hb : b ∈ [Detail.error, .reduce x] := h.mem_iff.1 (by simp)
    have he : Detail.error ∈ [a, b] := h.mem_iff.2 (by simp)
    have hx : Detail.reduce x ∈ [a, b] := h.mem_iff.2 (by simp)
    simp only [List.mem_cons, List.not_mem_nil, or_false] at ha hb he hx
    rw [List.pairwise_pair] at hr
    rcases ha with rfl | rfl <;> rcases hb with rfl | rfl
    · simp at hx
    · simp [Detail.rank] at hr
    · rfl
    · simp at he

/-- The entries of a state after the compression -/
structure OwnSpec (g : Grammar) (dflt : SymbolId) (acts acts' : List Action) (d : Option RuleId) (ig : List SymbolId) : Prop where
  dfl : ownOf acts' dflt = d.map .reduce
  nothing : ∀ s, s ≠ dflt → lives (onSym s acts) = [] → ownOf acts' s = none
  shift : ∀ s, s ≠ dflt → ∀ k, lives (onSym s acts) = [.shift k] → ownOf acts' s = some (.shift k)
  accept : ∀ s, s ≠ dflt → lives (onSym s acts) = [.accept] → ownOf acts' s = some .accept
  reduce : ∀ s, s ≠ dflt → ∀ x, lives (onSym s acts) = [.reduce x] →
    (ownOf acts' s = some (.reduce x) ∧ (d = some x → s ∈ ig)) ∨ (ownOf acts' s = none ∧ d = some x ∧ s ∉ ig)
  error : ∀ s, s ≠ dflt → ∀ x, lives (onSym s acts) = [.error, .reduce x] →
    (ownOf acts' s = some .error ∧ d ≠ none) ∨ (ownOf acts' s = some (.reduce x) ∧ d = none)

theorem CompSpec.own {dflt : SymbolId} {acts acts' : List Action} {d : Option RuleId} {ig : List SymbolId}
    (h : CompSpec g dflt acts acts' d ig) (hn : ∀ a ∈ acts, a.la ≠ dflt) : OwnSpec g dflt acts acts' d ig := by
  cases d with
  | none =>
    obtain ⟨rfl, _⟩ := h.dNone rfl
    refine ⟨?_, ?_, ?_, ?_, ?_, ?_⟩
    · unfold ownOf; rw [onSym_eq_nil hn]; rfl
    · intro s _ hl; unfold ownOf; rw [hl]; rfl
    · intro s _ k hl; unfold ownOf; rw [hl]; rfl
    · intro s _ hl; unfold ownOf; rw [hl]; rfl
    · intro s _ x hl; left; unfold ownOf; rw [hl]; exact ⟨rfl, by simp⟩
    · intro s _ x hl; right; unfold ownOf; rw [hl]; exact ⟨rfl, rfl⟩
  | some r =>
    obtain ⟨rfl, _⟩ := h.dSome r rfl
    obtain ⟨_, hex⟩ := h.dOk r rfl
    have hp : ∀ s, s ≠ dflt → (lives (onSym s (sortBy g.actionLt (makeDefault ig dflt r acts)))).Perm
        ((lives (onSym s acts)).filter (fun d => !(decide (s ∉ ig) && decide (d = .reduce r)))) := by
      intro s hs
      rw [← lives_makeDefault hs]
      exact lives_perm (onSym_perm (perm_sortBy _ _))
    refine ⟨?_, ?_, ?_, ?_, ?_, ?_⟩
    · have h1 : (lives (onSym dflt (sortBy g.actionLt (makeDefault ig dflt r acts)))).Perm [.reduce r] := by
        rw [← lives_makeDefault_dflt hn hex]
        exact lives_perm (onSym_perm (perm_sortBy _ _))
      unfold ownOf
      rw [List.perm_singleton.1 h1]; rfl
    · intro s hs hl
      have := hp s hs
      rw [hl] at this
      unfold ownOf
      rw [List.perm_nil.1 this]; rfl
    · intro s hs k hl
      have := hp s hs
      rw [hl, List.filter_cons_of_pos (by simp), List.filter_nil] at this
      unfold ownOf
      rw [List.perm_singleton.1 this]; rfl
    · intro s hs hl
      have := hp s hs
      rw [hl, List.filter_cons_of_pos (by simp), List.filter_nil] at this
      unfold ownOf
      rw [List.perm_singleton.1 this]; rfl
    · intro s hs x hl
      have h1 := hp s hs
      rw [hl] at h1
      by_cases hc : s ∉ ig ∧ x = r
      · right
        obtain ⟨hc1, rfl⟩ := hc
        refine ⟨?_, rfl, hc1⟩
        rw [List.filter_cons_of_neg (by simp [hc1]), List.filter_nil] at h1
        unfold ownOf
        rw [List.perm_nil.1 h1]; rfl
      · left
        rw [List.filter_cons_of_pos (by simpa using or_iff_not_imp_left.2 (fun h e => hc ⟨h, e⟩))] at h1
        refine ⟨?_, ?_⟩
        · unfold ownOf
          rw [List.perm_singleton.1 h1]; rfl
        · intro e; cases e
          apply Decidable.byContradiction
          exact fun h => hc ⟨h, rfl⟩
    · intro s hs x hl
      have h1 := hp s hs
      rw [hl] at h1
      left
      refine ⟨?_, by simp⟩
      by_cases hc : s ∉ ig ∧ x = r
      · obtain ⟨hc1, rfl⟩ := hc
        rw [List.filter_cons_of_pos (by simp), List.filter_cons_of_neg (by simp [hc1]), List.filter_nil] at h1
        unfold ownOf
        rw [List.perm_singleton.1 h1]; rfl
      · rw [List.filter_cons_of_pos (by simp), List.filter_cons_of_pos (by simpa using or_iff_not_imp_left.2 (fun h e => hc ⟨h, e⟩))] at h1
        unfold ownOf
        rw [lives_sorted_two h1]; rfl

theorem CompSpec.sorted {dflt : SymbolId} {acts acts' : List Action} {d : Option RuleId} {ig : List SymbolId}
    (h : CompSpec g dflt acts acts' d ig) (hs : acts.Pairwise (fun a b => (g.sym a.la).index ≤ (g.sym b.la).index)) :
    acts'.Pairwise (fun a b => (g.sym a.la).index ≤ (g.sym b.la).index) := by
  cases d with
  | none =>
    obtain ⟨rfl, _⟩ := h.dNone rfl
    exact hs
  | some r =>
    obtain ⟨rfl, _⟩ := h.dSome r rfl
    refine (sorted_actions _).imp ?_
    rintro a b (h | ⟨h, _⟩)
    · exact Nat.le_of_lt h
    · exact Nat.le_of_eq h

theorem makeDefault_las {ig : List SymbolId} {dflt : SymbolId} {r : RuleId} : ∀ {l : List Action} {y : Action}, y ∈ makeDefault ig dflt r l →
    y.la = dflt ∨ ∃ a ∈ l, a.la = y.la := by
  intro l
  induction l with
  | nil => intro y h; cases h
  | cons a l ih =>
    intro y h
    unfold makeDefault at h
    split at h
    · rcases List.mem_cons.1 h with rfl | h
      · exact .inl rfl
      · obtain ⟨x, hx, rfl⟩ := List.mem_map.1 h
        refine .inr ⟨x, by simp [hx], ?_⟩
        split <;> rfl
    · rcases List.mem_cons.1 h with rfl | h
      · exact .inr ⟨y, by simp, rfl⟩
      · rcases ih h with h | ⟨x, hx, h⟩
        · exact .inl h
        · exact .inr ⟨x, by simp [hx], h⟩

theorem CompSpec.las {dflt : SymbolId} {acts acts' : List Action} {d : Option RuleId} {ig : List SymbolId}
    (h : CompSpec g dflt acts acts' d ig) {y : Action} (hy : y ∈ acts') : y.la = dflt ∨ ∃ a ∈ acts, a.la = y.la := by
  cases d with
  | none =>
    obtain ⟨rfl, _⟩ := h.dNone rfl
    exact .inr ⟨y, hy, rfl⟩
  | some r =>
    obtain ⟨rfl, _⟩ := h.dSome r rfl
    exact makeDefault_las (mem_sortBy.1 hy)

end Pomelo
