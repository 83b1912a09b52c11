import Verif.Proofs.Parse
/-! # Looking up nonterminals in states that have none -/

namespace Pomelo

open Spec

variable {V X E : Type}

theorem resort_sorted {g : Grammar} (acts : List (List Action)) {i j : Nat} {a b : RState} (hi : 0 < i) (hij : i ≤ j)
    (ha : (g.resortStates acts)[i]? = some a) (hb : (g.resortStates acts)[j]? = some b) : b.nNt ≤ a.nNt := by
  have hr : g.resortStates acts = match g.rstates acts with
    | [] => []
    | s0 :: rest => s0 :: sortBy resortLt rest := rfl
  rw [hr] at ha hb
  cases hs : g.rstates acts with
  | nil => rw [hs] at ha; cases ha
  | cons s0 rest =>
    rw [hs] at ha hb
    simp only at ha hb
    have hp : (sortBy resortLt rest).Pairwise (fun a b => b.nNt ≤ a.nNt) := by
      apply pairwise_sortBy
      · intro a b c h1 h2; omega
      · intro a b h
        simp only [resortLt, Bool.or_eq_true, decide_eq_true_eq, Bool.and_eq_true, beq_iff_eq] at h
        omega
      · intro a b h
        by_contra hc
        have : b.nNt < a.nNt := by omega
        simp [resortLt, this] at h
    obtain ⟨i, rfl⟩ : ∃ k, i = k + 1 := ⟨i - 1, by omega⟩
    obtain ⟨j, rfl⟩ : ∃ k, j = k + 1 := ⟨j - 1, by omega⟩
    rw [List.getElem?_cons_succ] at ha hb
    rcases Nat.lt_or_eq_of_le hij with h | h
    · rw [List.pairwise_iff_getElem] at hp
      obtain ⟨h1, rfl⟩ := List.getElem?_eq_some_iff.1 ha
      obtain ⟨h2, rfl⟩ := List.getElem?_eq_some_iff.1 hb
      exact hp i j h1 h2 (by omega)
    · have : i = j := by omega
      subst this
      rw [ha] at hb; cases hb
      exact Nat.le_refl _

theorem ofstTable_last {n : Nat} {l : List (Nat × Int)} {tab : List Int} (h : ofstTable n l = some tab) {i : Nat} {x : Int} (hi : tab[i]? = some x) :
    ∃ j ofs, i ≤ j ∧ j < n ∧ (j, ofs) ∈ l := by
  unfold ofstTable at h
  split at h
  · cases h
  · rename_i m hm
    cases h
    have h1 := List.find?_some hm
    have h2 := List.mem_of_find?_eq_some hm
    obtain ⟨ofs, ho⟩ := Option.isSome_iff_exists.1 h1
    obtain ⟨hl, _⟩ := List.getElem?_eq_some_iff.1 hi
    simp only [List.length_map, List.length_range] at hl
    refine ⟨m, ofs, by omega, by simpa using h2, ?_⟩
    exact mem_of_lookup ho

section
variable {ord : List (SymbolId × SymbolId) → List (SymbolId × SymbolId)} {ds : List Decl} {t : Tables} {s : CSpec ord ds t} {dflt : SymbolId}

/-- Every state with an entry in `YY_REDUCE_OFST` has a row. -/
theorem Made.reduce_row (m : Made s dflt) {q : StateId} (hq : q < s.sts.length) : t.reduceOfst[s.num q]? ≠ some t.reduceUseDflt := by
  intro hu
  have hq' : q < s.acts'.length := by rw [m.len]; exact hq
  rcases m.tab.nt q hq' with ⟨_, h2⟩ | ⟨ofs, h1, h2, _⟩
  · have hlen := resort_len (g := s.g) s.acts'
    have hpos : ∀ pos, SortedActs s.g ((s.g.resortStates s.acts').getD pos default).actions := by
      intro pos
      by_cases hp : pos < s.acts'.length
      · obtain ⟨q, hq, rfl⟩ := stateNum_surj (g := s.g) s.acts' hp
        rw [getD_resort q hq]; exact m.las'.sorted q hq
      · rw [List.getD_eq_getElem?_getD, List.getElem?_eq_none (by omega)]
        exact List.Pairwise.nil
    have hpk : s.g.pack (s.g.resortStates s.acts') = some s.gen.p := by rw [← s.gen.shape.pack]; exact s.gen.pack
    have hpi := pack_inv hpos hpk
    -- not the first state
    have h0 : s.num q ≠ 0 := by
      intro e
      have hz : s.num 0 = 0 := m.tab.num_zero (by rw [m.len]; exact m.auto.pos)
      have hq0 : q = 0 := m.tab.num_inj q 0 hq' (by rw [m.len]; exact m.auto.pos) (by rw [e, hz])
      subst hq0
      have hk := m.inv.start_kind
      obtain ⟨dd, ig, hc, ho⟩ := m.own m.auto.pos
      have hne : s.g.start.getD 0 ≠ dflt := by
        intro e
        have := hk.2.2
        rw [e, m.dname] at this; cases this
      have := ho.accept (s.g.start.getD 0) hne (by rw [m.aspec.acc]; rfl)
      rw [h2 _ hk.2.1 hk.1 hne] at this; cases this
    rw [s.gen.reduceOfst, s.gen.reduceUseDflt] at hu
    obtain ⟨j, ofs, hj1, hj2, hj3⟩ := ofstTable_last s.gen.rdEq hu
    obtain ⟨a, ha, ha1, ha2, ha3⟩ := (hpi.keys false j).1 ⟨ofs, hj3⟩
    obtain ⟨ha4, ha5⟩ := mem_axSets.1 ha
    rw [ha2] at ha5
    simp only [Bool.false_eq_true, if_false] at ha5
    rw [ha3] at ha5 ha4
    have hnum : s.num q < (s.g.resortStates s.acts').length := by omega
    have hle := resort_sorted s.acts' (Nat.pos_of_ne_zero h0) hj1 (List.getElem?_eq_getElem hnum) (List.getElem?_eq_getElem ha4)
    obtain ⟨ofs', ho'⟩ := (hpi.keys false (s.num q)).2 ⟨⟨s.num q, false, ((s.g.resortStates s.acts').getD (s.num q) default).nNt⟩,
      mem_axSets.2 ⟨hnum, by simp⟩, by
        simp only
        rw [getD_of_lt hnum]
        rw [getD_of_lt ha4] at ha5
        omega, rfl, rfl⟩
    obtain ⟨o1, _⟩ := ofstTable_get s.gen.rdEq (hpi.nodup false) (i := s.num q) hnum
    obtain ⟨p1, p2⟩ := o1 ofs' ho'
    rw [p1] at hu
    exact p2 (Option.some.inj hu)
  · rw [h1] at hu
    exact h2 (Option.some.inj hu)

/-- Looking up a nonterminal while recovering from an error: a shift found is a transition. -/
theorem Made.goto_any (m : Made s dflt) (hA : apart ord ds = true) (he : t.errorSymbol ≠ 0) {q : StateId} (hq : q < s.sts.length)
    {a : SymbolId} (ha : a < s.g.syms.length) (hk : (s.g.sym a).kind = .nonTerminal) (hne : a ≠ dflt) :
    ∃ c, t.findReduce (s.num q) (s.g.sym a).index = .ok c ∧ (c < t.nState → ∃ k, c = s.num k ∧ s.g.Trans s.sts q a k) := by
  have hq' : q < s.acts'.length := by rw [m.len]; exact hq
  have hcode : ∀ d, codeOf s.acts'.length s.g.rules.length s.num d = s.code d := by intro d; unfold CSpec.code; rw [m.len]
  have hd : ∃ c, t.dfltAct (s.num q) = .ok c ∧ ¬ c < t.nState := by
    refine ⟨_, m.dflt_code hq, ?_⟩
    rcases m.own_dflt hq with ⟨r, b, h1, h2, h3⟩ | h
    · rw [h1, Option.getD_some, m.code_reduce]; omega
    · rw [h, Option.getD_none, m.code_error]; omega
  obtain ⟨c0, hc0, hc1⟩ := hd
  have hown : ∀ d, ownOf (s.acts'.getD q []) a = some d → s.code d < t.nState → ∃ k, s.code d = s.num k ∧ s.g.Trans s.sts q a k := by
    intro d hd hlt
    obtain ⟨dd, ig, hc, ho⟩ := m.own hq
    by_cases hst : a ≠ s.g.start.getD 0 ∨ q ≠ 0
    · obtain ⟨sh, rd, h1, h2, hout⟩ := m.aspec.out q hq a hst.symm
      have hrd : rd = [] := by
        cases rd with
        | nil => rfl
        | cons b _ => have := ((h2 b).1 (by simp)).2.1; rw [hk] at this; cases this
      generalize hL : lives (onSym a (s.acts.getD q [])) = L at hout
      cases hout with
      | nothing =>
        rw [ho.nothing a hne hL] at hd; cases hd
      | @shift k e _ =>
        rw [ho.shift a hne _ hL] at hd
        cases hd
        exact ⟨k, rfl, (shiftActions_nt m.inv m.auto hk).1 ((h1 k).1 (by rw [e]; simp))⟩
      | reduce e => rw [hrd] at e; cases e
      | error _ e => rw [hrd] at e; cases e
    · have h1 : a = s.g.start.getD 0 := by by_contra h; exact hst (.inl h)
      have h2 : q = 0 := by by_contra h; exact hst (.inr h)
      subst h1 h2
      have := ho.accept (s.g.start.getD 0) hne (by rw [m.aspec.acc]; rfl)
      rw [this] at hd; cases hd
      rw [m.code_accept] at hlt; omega
  have hnc : ¬ (s.g.sym a).index = t.noCode := by rw [m.tab.noCode]; exact Nat.ne_of_lt (m.inv.perm _ ha).1
  rcases m.tab.nt q hq' with ⟨h1, _⟩ | ⟨ofs, h1, h2, h3⟩
  · rcases h1 with h1 | h1
    · refine ⟨c0, ?_, fun h => absurd h hc1⟩
      unfold Tables.findReduce
      rw [h1]
      simp only [ne_eq, he, not_false_eq_true, if_true]
      exact hc0
    · exact absurd h1 (m.reduce_row hq)
  · cases ho : ownOf (s.acts'.getD q []) a with
    | some d =>
      refine ⟨s.code d, ?_, hown d ho⟩
      unfold Tables.findReduce
      rw [h1]
      simp only
      rw [if_neg h2, if_neg hnc, (h3 a ha hk hne).1 d ho, hcode]
    | none =>
      refine ⟨c0, ?_, fun h => absurd h hc1⟩
      unfold Tables.findReduce
      rw [h1]
      simp only
      rw [if_neg h2, if_neg hnc, (h3 a ha hk hne).2 hA ho]
      simp only [ne_eq, he, not_false_eq_true, if_true]
      exact hc0

end

end Pomelo
