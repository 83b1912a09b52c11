import Verif.Proofs.Made
import Verif.Spec.Take
import Mathlib.Data.Nat.Find
import Mathlib.Logic.Function.Iterate
/-! # The action found for a token -/

namespace Pomelo

open Spec

/-! ## The bound on the recursion -/

section
variable {t : Tables} {st : Nat}

theorem fuel_step (x : Nat) : ((∀ f, t.findShiftFuel st (f + 1) x = t.findShiftFuel st f (t.fallback.getD x 0)) ∧ t.fallback.getD x 0 ≠ 0) ∨
    (∀ f, t.findShiftFuel st (f + 1) x = t.findShiftFuel st 1 x) := by
  by_cases h : ∃ ofs, t.shiftOfst[st]? = some ofs ∧ ofs ≠ t.shiftUseDflt ∧ x ≠ t.noCode ∧ t.lookup (ofs + x) x = none ∧ x ≠ 0 ∧ t.fallback.getD x 0 ≠ 0
  · left
    obtain ⟨ofs, h1, h2, h3, h4, h5, h6⟩ := h
    refine ⟨fun f => ?_, h6⟩
    rw [Tables.findShiftFuel]
    simp only [h1, if_neg h2, if_neg h3, h4, if_neg h5, ne_eq, h6, not_false_eq_true, if_true]
  · right
    intro f
    unfold Tables.findShiftFuel
    cases h1 : t.shiftOfst[st]? with
    | none => rfl
    | some ofs =>
      simp only
      split
      · rfl
      · rename_i h2
        split
        · rfl
        · rename_i h3
          cases h4 : t.lookup (ofs + x) x with
          | some a => rfl
          | none =>
            simp only
            split
            · rfl
            · rename_i h5
              have h6 : t.fallback.getD x 0 = 0 := by
                by_contra h6
                exact h ⟨ofs, h1, h2, h3, h4, h5, h6⟩
              rw [h6]; simp

theorem fuel_le {fuel la : Nat} {a : Except Panic Nat} (hne : a ≠ .error .recursion) (h : t.findShiftFuel st fuel la = a) : ∀ f, fuel ≤ f → t.findShiftFuel st f la = a := by
  induction fuel generalizing la with
  | zero => exact absurd h.symm hne
  | succ n ih =>
    intro f hf
    obtain ⟨f, rfl⟩ : ∃ m, f = m + 1 := ⟨f - 1, by omega⟩
    rcases fuel_step (t := t) (st := st) la with ⟨h1, _⟩ | h1
    · rw [h1] at h ⊢
      exact ih h f (by omega)
    · rw [h1] at h ⊢; exact h

/-- More steps than there are fallbacks are never needed. -/
theorem findShift_of_fuel' {fuel la : Nat} {a : Except Panic Nat} (hne : a ≠ .error .recursion) (h : t.findShiftFuel st fuel la = a) : t.findShift st la = a := by
  classical
  have hex : ∃ n, t.findShiftFuel st (n + 1) la = a := by
    cases fuel with
    | zero => exact absurd h.symm hne
    | succ n => exact ⟨n, h⟩
  obtain ⟨n, hn, hmin⟩ : ∃ n, t.findShiftFuel st (n + 1) la = a ∧ ∀ m < n, t.findShiftFuel st (m + 1) la ≠ a :=
    ⟨Nat.find hex, Nat.find_spec hex, fun m hm => Nat.find_min hex hm⟩
  unfold Tables.findShift
  refine fuel_le hne hn _ ?_
  let c : Nat → Nat := fun i => (fun x => t.fallback.getD x 0)^[i] la
  have hc0 : c 0 = la := rfl
  have hcs : ∀ i, c (i + 1) = t.fallback.getD (c i) 0 := fun i => Function.iterate_succ_apply' _ _ _
  have lift : ∀ j, (∀ i < j, ∀ f, t.findShiftFuel st (f + 1) (c i) = t.findShiftFuel st f (c (i + 1))) →
      ∀ f, t.findShiftFuel st (j + f) la = t.findShiftFuel st f (c j) := by
    intro j
    induction j with
    | zero => intro _ f; rw [Nat.zero_add, hc0]
    | succ j ih =>
      intro hr f
      have := ih (fun i hi => hr i (by omega)) (f + 1)
      rw [show j + 1 + f = j + (f + 1) by omega, this]
      exact hr j (by omega) f
  have main : ∀ j, j ≤ n → ∀ i < j, (∀ f, t.findShiftFuel st (f + 1) (c i) = t.findShiftFuel st f (c (i + 1))) ∧ c (i + 1) ≠ 0 := by
    intro j
    induction j with
    | zero => intro _ i hi; omega
    | succ j ih =>
      intro hj i hi
      have ih := ih (by omega)
      rcases Nat.lt_succ_iff_lt_or_eq.1 hi with hi | rfl
      · exact ih i hi
      · rw [hcs]
        rcases fuel_step (t := t) (st := st) (c i) with h1 | h1
        · exact h1
        · exfalso
          have l1 := lift i (fun k hk => (ih k hk).1)
          apply hmin i (by omega)
          rw [l1 1, ← h1 (n - i), ← l1]
          rw [show i + (n - i + 1) = n + 1 by omega]
          exact hn
  have hr := main n (Nat.le_refl _)
  have hl := lift n (fun i hi => (hr i hi).1)
  have inj : ∀ i j, i < j → j < n → c i ≠ c j := by
    intro i j hij hj he
    have l1 := lift i (fun k hk => (hr k (by omega)).1)
    have l2 := lift j (fun k hk => (hr k (by omega)).1)
    apply hmin (n - (j - i)) (by omega)
    rw [show n - (j - i) + 1 = i + (n + 1 - j) by omega, l1, he, ← l2, show j + (n + 1 - j) = n + 1 by omega]
    exact hn
  have hnd : ((List.range n).map c).Nodup := by
    rw [List.nodup_iff_getElem?_ne_getElem?]
    intro i j hij hj
    simp only [List.length_map, List.length_range] at hj
    rw [List.getElem?_map, List.getElem?_map, List.getElem?_range (by omega), List.getElem?_range hj]
    simp only [Option.map_some, ne_eq, Option.some.injEq]
    exact inj i j hij hj
  have hsub : (List.range n).map c ⊆ List.range t.fallback.length := by
    intro x hx
    obtain ⟨i, hi, rfl⟩ := List.mem_map.1 hx
    rw [List.mem_range] at hi ⊢
    by_contra hc
    have := (hr i hi).2
    rw [hcs, List.getD_eq_getElem?_getD, List.getElem?_eq_none (by omega)] at this
    exact this rfl
  have := (hnd.subperm hsub).length_le
  simp only [List.length_map, List.length_range] at this
  omega

theorem findShift_of_fuel {fuel la a : Nat} (h : t.findShiftFuel st fuel la = .ok a) : t.findShift st la = .ok a := findShift_of_fuel' (by simp) h

/-- The search for a token that has no entry of its own goes on with the fallback. -/
theorem findShift_fallback {k l : Nat} (h : ∀ n, t.findShiftFuel st (n + 1) k = t.findShiftFuel st n l) : t.findShift st k = t.findShift st l := by
  by_cases h1 : t.findShift st k = .error .recursion
  · by_cases h2 : t.findShift st l = .error .recursion
    · rw [h1, h2]
    · have h3 := h (t.fallback.length + 1)
      exact findShift_of_fuel' h2 h3
  · have h3 := h t.fallback.length
    exact (findShift_of_fuel' h1 h3.symm).symm

end

/-! ## The search, in terms of the actions of the state -/

/-- The action taken for the token `s` in a state with actions `l` -/
inductive Grammar.Pick (g : Grammar) (l : List Action) (dflt : SymbolId) : SymbolId → Detail → Prop
  | own {s d} : ownOf l s = some d → g.Pick l dflt s d
  | fb {s f d} : ownOf l s = none → s ≠ 0 → (g.sym s).fallback = some f → g.Pick l dflt f d → g.Pick l dflt s d
  | wild {s w d} : ownOf l s = none → s ≠ 0 → (g.sym s).fallback = none → g.wildcard = some w → ownOf l w = some d → g.Pick l dflt s d
  | dflt {s} : ownOf l s = none → (s = 0 ∨ ((g.sym s).fallback = none ∧ ∀ w, g.wildcard = some w → ownOf l w = none)) →
      g.Pick l dflt s ((ownOf l dflt).getD .error)

theorem Grammar.Pick.det {g : Grammar} {l : List Action} {dflt s : SymbolId} {d d' : Detail} (h : g.Pick l dflt s d) (h' : g.Pick l dflt s d') : d = d' := by
  induction h generalizing d' with
  | own h =>
    cases h' with
    | own h' => rw [h] at h'; exact Option.some.inj h'
    | fb h' => rw [h] at h'; cases h'
    | wild h' => rw [h] at h'; cases h'
    | dflt h' => rw [h] at h'; cases h'
  | fb h h0 hf _ ih =>
    cases h' with
    | own h' => rw [h] at h'; cases h'
    | fb h' _ hf' hp => rw [hf] at hf'; cases hf'; exact ih hp
    | wild _ _ hf' => rw [hf] at hf'; cases hf'
    | dflt _ h' =>
      rcases h' with h' | h'
      · exact absurd h' h0
      · rw [hf] at h'; cases h'.1
  | wild h h0 hf hw hd =>
    cases h' with
    | own h' => rw [h] at h'; cases h'
    | fb h' _ hf' hp => rw [hf] at hf'; cases hf'
    | wild _ _ _ hw' hd' => rw [hw] at hw'; cases hw'; rw [hd] at hd'; exact Option.some.inj hd'
    | dflt _ h' =>
      rcases h' with h' | h'
      · exact absurd h' h0
      · rw [h'.2 _ hw] at hd; cases hd
  | dflt h h0 =>
    cases h' with
    | own h' => rw [h] at h'; cases h'
    | fb h' h1 hf' hp =>
      rcases h0 with h0 | h0
      · exact absurd h0 h1
      · rw [hf'] at h0; cases h0.1
    | wild _ h1 _ hw' hd' =>
      rcases h0 with h0 | h0
      · exact absurd h0 h1
      · rw [h0.2 _ hw'] at hd'; cases hd'
    | dflt => rfl

theorem pick_exists {g : Grammar} {l : List Action} {dflt s : SymbolId} (h : Ends (fun s => (g.sym s).fallback) s) : ∃ d, g.Pick l dflt s d := by
  induction h with
  | @stop s h =>
    cases ho : ownOf l s with
    | some d => exact ⟨d, .own ho⟩
    | none =>
      by_cases h0 : s = 0
      · exact ⟨_, .dflt ho (.inl h0)⟩
      · cases hw : g.wildcard with
        | none => exact ⟨_, .dflt ho (.inr ⟨h, by intro w hw'; rw [hw] at hw'; cases hw'⟩)⟩
        | some w =>
          cases hwo : ownOf l w with
          | none => exact ⟨_, .dflt ho (.inr ⟨h, by intro w' hw'; rw [hw] at hw'; cases hw'; exact hwo⟩)⟩
          | some d => exact ⟨d, .wild ho h0 h hw hwo⟩
  | @next s f h _ ih =>
    cases ho : ownOf l s with
    | some d => exact ⟨d, .own ho⟩
    | none =>
      by_cases h0 : s = 0
      · exact ⟨_, .dflt ho (.inl h0)⟩
      · obtain ⟨d, hd⟩ := ih
        exact ⟨d, .fb ho h0 h hd⟩

section
variable {ord : List (SymbolId × SymbolId) → List (SymbolId × SymbolId)} {ds : List Decl} {t : Tables} {s : CSpec ord ds t} {dflt : SymbolId}

/-- Code of an action in the tables -/
def CSpec.code (s : CSpec ord ds t) (d : Detail) : Nat := codeOf s.sts.length s.g.rules.length s.num d

theorem Made.own (m : Made s dflt) {q : StateId} (hq : q < s.sts.length) :
    ∃ d ig, CompSpec s.g dflt (s.acts.getD q []) (s.acts'.getD q []) d ig ∧ OwnSpec s.g dflt (s.acts.getD q []) (s.acts'.getD q []) d ig := by
  obtain ⟨d, ig, hc⟩ := m.comp q hq
  refine ⟨d, ig, hc, hc.own ?_⟩
  intro a ha he
  have hq' : q < s.acts.length := by rw [m.aspec.len]; exact hq
  rcases m.aspec.las q hq a ha with ⟨k, X, hX, hm⟩ | ⟨r, hr⟩ | ⟨_, h⟩
  · have hlt := m.las.lt q hq' a ha
    rcases (mem_shiftActions.1 hm).2 with ⟨h1, h2⟩ | ⟨h1, h2⟩
    · simp only at h2
      obtain ⟨r, hr, hx⟩ := hX.rhs m.inv m.auto
      have h3 := (m.inv.subs X (m.inv.rhs r hr X hx).1 _ h2).2
      rw [he, m.dname] at h3; cases h3
    · simp only at h2
      obtain ⟨r, hr, hx⟩ := hX.rhs m.inv m.auto
      have := (m.inv.rhs r hr X hx).2.2
      rw [← h2, he] at this
      exact this m.dname
  · have := hr.2.1
    rw [he, m.inv.default_name m.dlt m.didx] at this; cases this
  · have := m.inv.start_kind.2.2
    rw [← h, he, m.dname] at this; cases this

theorem Made.dflt_code (m : Made s dflt) {q : StateId} (hq : q < s.sts.length) :
    t.dfltAct (s.num q) = .ok (s.code ((ownOf (s.acts'.getD q []) dflt).getD .error)) := by
  obtain ⟨d, ig, hc, ho⟩ := m.own hq
  unfold Tables.dfltAct
  rw [m.tab.dflt q (by rw [m.len]; exact hq), ho.dfl, m.len]
  cases d <;> rfl

theorem Made.tok_lookup (m : Made s dflt) (hA : apart ord ds = true) {q : StateId} (hq : q < s.sts.length) {a : SymbolId} {d : Detail}
    (hp : s.g.Pick (s.acts'.getD q []) dflt a d) (ha : a < s.g.syms.length) (hk : (s.g.sym a).kind ≠ .nonTerminal) :
    t.findShift (s.num q) (s.g.sym a).index = .ok (s.code d) := by
  have hq' : q < s.acts'.length := by rw [m.len]; exact hq
  suffices ∃ fuel, t.findShiftFuel (s.num q) fuel (s.g.sym a).index = .ok (s.code d) by
    obtain ⟨f, hf⟩ := this; exact findShift_of_fuel hf
  have htk : ∀ x, x < s.g.syms.length → (s.g.sym x).name.isTok = true → (s.g.sym x).kind ≠ .nonTerminal := by
    intro x hx hn h
    rcases m.inv.isTok_kind hx hn with h' | h' <;> rw [h] at h' <;> cases h'
  have hwk : ∀ w, s.g.wildcard = some w → w < s.g.syms.length ∧ (s.g.sym w).kind ≠ .nonTerminal :=
    fun w hw => ⟨(m.inv.wild w hw).1, htk w (m.inv.wild w hw).1 (m.inv.wild w hw).2⟩
  have hcode : ∀ d, codeOf s.acts'.length s.g.rules.length s.num d = s.code d := by intro d; unfold CSpec.code; rw [m.len]
  rcases m.tab.tok q hq' with ⟨h1, h2⟩ | ⟨ofs, h1, h2, h3⟩
  · refine ⟨1, ?_⟩
    have hd : d = (ownOf (s.acts'.getD q []) dflt).getD .error := by
      clear h1
      induction hp with
      | own h => rw [h2 _ ha hk] at h; cases h
      | fb _ _ hf _ ih => exact ih (m.inv.fb _ ha _ hf).1 (htk _ (m.inv.fb _ ha _ hf).1 (m.inv.fb _ ha _ hf).2.1)
      | wild _ _ _ hw h => rw [h2 _ (hwk _ hw).1 (hwk _ hw).2] at h; cases h
      | dflt => rfl
    rw [hd, ← m.dflt_code hq]
    unfold Tables.findShiftFuel
    rcases h1 with h1 | h1
    · rw [h1]
    · rw [h1]; simp
  · induction hp with
    | @own a d h =>
      refine ⟨1, ?_⟩
      rw [Tables.findShiftFuel]
      simp only [h1, if_neg h2]
      rw [if_neg (by rw [m.tab.noCode]; exact Nat.ne_of_lt (m.inv.perm _ ha).1), (h3 a ha hk).1 d h, hcode]
    | @fb a f d h h0 hf _ ih =>
      obtain ⟨hfl, hfn, _⟩ := m.inv.fb _ ha _ hf
      obtain ⟨fuel, ih⟩ := ih hfl (htk _ hfl hfn)
      refine ⟨fuel + 1, ?_⟩
      rw [Tables.findShiftFuel]
      simp only [h1, if_neg h2]
      rw [if_neg (by rw [m.tab.noCode]; exact Nat.ne_of_lt (m.inv.perm _ ha).1), (h3 a ha hk).2 hA h]
      simp only
      have hi0 : (s.g.sym a).index ≠ 0 := fun e => h0 (m.inv.index_inj ha (Nat.lt_of_lt_of_le Nat.zero_lt_two m.inv.two) (by rw [e, m.inv.dollar.2.2]))
      have hfi : (s.g.sym f).index ≠ 0 := fun e => by
        have := m.inv.index_inj hfl (b := 0) (Nat.lt_of_lt_of_le Nat.zero_lt_two m.inv.two) (by rw [e, m.inv.dollar.2.2])
        rw [this, m.inv.dollar.1] at hfn; cases hfn
      have hfbt := m.tab.fb a ha
      rw [hf] at hfbt
      simp only [Option.map_some, Option.getD_some] at hfbt
      rw [if_neg hi0, hfbt, if_pos hfi]
      exact ih
    | @wild a w d h h0 hf hw hd =>
      refine ⟨1, ?_⟩
      rw [Tables.findShiftFuel]
      simp only [h1, if_neg h2]
      rw [if_neg (by rw [m.tab.noCode]; exact Nat.ne_of_lt (m.inv.perm _ ha).1), (h3 a ha hk).2 hA h]
      simp only
      have hi0 : (s.g.sym a).index ≠ 0 := fun e => h0 (m.inv.index_inj ha (Nat.lt_of_lt_of_le Nat.zero_lt_two m.inv.two) (by rw [e, m.inv.dollar.2.2]))
      obtain ⟨hwl, hwn⟩ := hwk w hw
      have hwi : (s.g.sym w).index ≠ 0 := fun e => by
        have := m.inv.index_inj hwl (b := 0) (Nat.lt_of_lt_of_le Nat.zero_lt_two m.inv.two) (by rw [e, m.inv.dollar.2.2])
        have h9 := (m.inv.wild w hw).2
        rw [this, m.inv.dollar.1] at h9; cases h9
      have hfbt := m.tab.fb a ha
      rw [hf] at hfbt
      simp only [Option.map_none, Option.getD_none] at hfbt
      have hwt := m.tab.wild
      rw [hw] at hwt
      simp only [Option.map_some, Option.getD_some] at hwt
      rw [if_neg hi0, hfbt, if_neg (by simp), hwt, if_pos (Nat.pos_of_ne_zero hwi), (h3 w hwl hwn).1 d hd, hcode]
    | @dflt a h h0 =>
      refine ⟨1, ?_⟩
      rw [Tables.findShiftFuel]
      simp only [h1, if_neg h2]
      rw [if_neg (by rw [m.tab.noCode]; exact Nat.ne_of_lt (m.inv.perm _ ha).1), (h3 a ha hk).2 hA h]
      simp only
      rw [m.dflt_code hq]
      rcases h0 with rfl | ⟨hf, hw⟩
      · rw [if_pos m.inv.dollar.2.2]
      · have hfbt := m.tab.fb a ha
        rw [hf] at hfbt
        simp only [Option.map_none, Option.getD_none] at hfbt
        rw [hfbt]
        simp only [ne_eq, not_true_eq_false, if_false]
        split
        · rfl
        · split
          · rename_i hwp
            have hwt := m.tab.wild
            cases hwc : s.g.wildcard with
            | none => rw [hwc] at hwt; simp only [Option.map_none, Option.getD_none] at hwt; omega
            | some w =>
              rw [hwc] at hwt
              simp only [Option.map_some, Option.getD_some] at hwt
              obtain ⟨hwl, hwn⟩ := hwk w hwc
              rw [hwt, (h3 w hwl hwn).2 hA (hw w hwc)]
          · rfl

theorem Made.goto (m : Made s dflt) {q : StateId} (hq : q < s.sts.length) {a : SymbolId} {d : Detail}
    (hp : ownOf (s.acts'.getD q []) a = some d) (ha : a < s.g.syms.length) (hk : (s.g.sym a).kind = .nonTerminal) (hne : a ≠ dflt) :
    t.findReduce (s.num q) (s.g.sym a).index = .ok (s.code d) := by
  have hq' : q < s.acts'.length := by rw [m.len]; exact hq
  have hcode : ∀ d, codeOf s.acts'.length s.g.rules.length s.num d = s.code d := by intro d; unfold CSpec.code; rw [m.len]
  rcases m.tab.nt q hq' with ⟨_, h2⟩ | ⟨ofs, h1, h2, h3⟩
  · rw [h2 a ha hk hne] at hp; cases hp
  · unfold Tables.findReduce
    rw [h1]
    simp only
    rw [if_neg h2, if_neg (by rw [m.tab.noCode]; exact Nat.ne_of_lt (m.inv.perm _ ha).1), (h3 a ha hk hne).1 d hp, hcode]

end

end Pomelo
