import Verif.Proofs.Exact
import Verif.Proofs.Marked
import Verif.Spec.Rows
/-! # Rows of the tables and viable prefixes -/

namespace Pomelo

open Spec

variable {ord : List (SymbolId × SymbolId) → List (SymbolId × SymbolId)} {ds : List Decl} {t : Tables}

theorem compile_gen (R : Run ord ds) (hc : compile ord ds = .ok t) : Nonempty (GenSpec R.g (R.g.resortStates R.final) t) := by
  obtain ⟨s⟩ := compile_cspec hc
  obtain ⟨g0, g, sts, acts, acts', h1, h2, h3, h4, h5⟩ := s
  obtain ⟨g0', g', sts', acts1, acts1', e1, e2, e3, e4⟩ := R
  rw [h1] at e1; cases e1
  rw [h2] at e2; cases e2
  rw [h3] at e3; cases e3
  rw [h4] at e4; cases e4
  exact ⟨h5⟩

/-- The run behind the tables -/
noncomputable def Spec.Run.cspec (R : Run ord ds) (hc : compile ord ds = .ok t) : CSpec ord ds t :=
  ⟨R.g0, R.g, R.sts, R.acts, R.final, R.decls, R.auto, R.actions, R.compress, Classical.choice (compile_gen R hc)⟩

theorem run_exists (hc : compile ord ds = .ok t) : Nonempty (Run ord ds) := by
  obtain ⟨s⟩ := compile_cspec hc
  exact ⟨⟨s.g0, s.g, s.sts, s.acts, s.acts', s.decls, s.auto, s.actions, s.compress⟩⟩

theorem counts_eq : counts = Detail.live := by
  funext d; cases d <;> rfl

theorem actionsFor_eq (l : List Action) (a : SymbolId) : actionsFor l a = lives (onSym a l) := by
  unfold actionsFor lives onSym; rw [counts_eq]

theorem actionsFor_last (l : List Action) (a : SymbolId) : (actionsFor l a).getLast? = ownOf l a := by
  rw [actionsFor_eq]; rfl

theorem CSpec.encode (R : Run ord ds) (hc : compile ord ds = .ok t) {d : Detail} (hd : counts d = true) :
    R.encode d = some ((R.cspec hc).code d) := by
  cases d with
  | reduce r =>
    simp only [Run.encode, CSpec.code, codeOf, computeAction, Option.getD_some, Option.some.injEq]
    exact Nat.add_comm _ _
  | shift | error | accept => rfl
  | _ => cases hd

theorem Spec.Run.stateOf_path (R : Run ord ds) (ho : OrdOk ord) {γ : List SymbolId} {q : StateId} {it : Item} (hv : Viable R.g γ it) :
    R.StateOf γ q ↔ R.g.Path R.sts γ q := by
  have hi := GInv.automaton R.decls ho R.auto
  have ha := automaton_auto ho R.decls R.auto
  constructor
  · rintro ⟨h1, h2⟩
    obtain ⟨q', hq'⟩ := viable_path hi ha hv
    have : q = q' := by
      apply ha.items_inj hi h1 (Path.lt ha hq')
      intro it
      rw [path_items hi ha hq']
      exact h2 it
    rw [this]; exact hq'
  · intro h
    exact ⟨Path.lt ha h, fun it => path_items hi ha h it⟩

theorem mem_filterAuxM_true {α ε : Type} {p : α → Except ε Bool} : ∀ {l acc l' : List α}, l.filterAuxM p acc = .ok l' →
    ∀ a ∈ l', a ∈ acc ∨ p a = .ok true := by
  intro l
  induction l with
  | nil =>
    intro acc l' h
    rw [List.filterAuxM] at h
    cases h
    exact fun _ h => .inl h
  | cons b l ih =>
    intro acc l' h
    rw [List.filterAuxM] at h
    cases hb : p b with
    | error e => rw [hb] at h; cases h
    | ok c =>
      rw [hb] at h
      have h1 := ih (h : l.filterAuxM p (cond c (b :: acc) acc) = .ok l')
      intro a ha
      rcases h1 a ha with h2 | h2
      · cases c with
        | true =>
          rcases List.mem_cons.1 h2 with rfl | h2
          · exact .inr hb
          · exact .inl h2
        | false => exact .inl h2
      · exact .inr h2

theorem mem_filterM_true {α ε : Type} {p : α → Except ε Bool} {l l' : List α} (h : l.filterM p = .ok l') : ∀ a ∈ l', p a = .ok true := by
  unfold List.filterM at h
  cases hr : l.filterAuxM p [] with
  | error e => rw [hr] at h; cases h
  | ok l2 =>
    rw [hr] at h
    cases h
    intro a ha
    rcases mem_filterAuxM_true hr a (List.mem_reverse.1 ha) with h | h
    · cases h
    · exact h

section
variable {s : CSpec ord ds t} {dflt : SymbolId}

theorem Made.tok_own (m : Made s dflt) {q : StateId} (hq : q < s.sts.length) {a : SymbolId} {d : Detail}
    (hp : ownOf (s.acts'.getD q []) a = some d) (ha : a < s.g.syms.length) (hk : (s.g.sym a).kind ≠ .nonTerminal) :
    t.findShift (s.num q) (s.g.sym a).index = .ok (s.code d) := by
  have hq' : q < s.acts'.length := by rw [m.len]; exact hq
  have hcode : ∀ d, codeOf s.acts'.length s.g.rules.length s.num d = s.code d := by intro d; unfold CSpec.code; rw [m.len]
  rcases m.tab.tok q hq' with ⟨h1, h2⟩ | ⟨ofs, h1, h2, h3⟩
  · rw [h2 a ha hk] at hp; cases hp
  · apply findShift_of_fuel (fuel := 1)
    rw [Tables.findShiftFuel]
    simp only [h1, if_neg h2]
    rw [if_neg (by rw [m.tab.noCode]; exact Nat.ne_of_lt (m.inv.perm _ ha).1), (h3 a ha hk).1 d hp, hcode]

/-- The wildcard does not come before the default. -/
def CSpec.Quiet (s : CSpec ord ds t) (q : StateId) : Prop := ∀ w, s.g.wildcard = some w →
  lives (onSym w (s.acts.getD q [])) = [] ∨ ((∃ k, lives (onSym w (s.acts.getD q [])) = [.shift k]) ∧ (s.g.sym w).fallback = none)

theorem mem_of_lives {l : List Action} {a : SymbolId} {d : Detail} (h : d ∈ lives (onSym a l)) : (⟨a, d⟩ : Action) ∈ l := by
  unfold lives at h
  rw [List.mem_filter, List.mem_map] at h
  obtain ⟨⟨x, hx, hxd⟩, _⟩ := h
  unfold onSym at hx
  rw [List.mem_filter] at hx
  obtain ⟨hx1, hx2⟩ := hx
  have hla : x.la = a := by simpa using hx2
  have : x = ⟨a, d⟩ := by rw [← hla, ← hxd]
  rw [← this]; exact hx1

theorem not_ignored {g : Grammar} {acts : List Action} {ig : List SymbolId} (h : g.ignoredActions acts = .ok ig) {a : SymbolId}
    (hf : (g.sym a).fallback = none) : a ∉ ig := by
  unfold Grammar.ignoredActions at h
  split at h
  · cases hr : acts.filterM (fun a => g.fallbackDiffers acts a.detail (g.syms.length + 1) a.la) with
    | error e => rw [hr] at h; cases h
    | ok l2 =>
      rw [hr] at h
      simp only [Except.map, Except.ok.injEq] at h
      subst h
      intro hm
      obtain ⟨x, hx, rfl⟩ := List.mem_map.1 hm
      have := mem_filterM_true hr x hx
      unfold Grammar.fallbackDiffers at this
      rw [hf] at this
      cases this
  · cases h; simp

theorem Made.exact_quiet (ho' : OrdOk ord) (m : Made s dflt) {q : StateId} (hq : q < s.sts.length) {a : SymbolId}
    (hk : (s.g.sym a).kind ≠ .nonTerminal) {d : Detail}
    (hd : lives (onSym a (s.acts.getD q [])) = [d]) (hw : s.Quiet q) :
    s.g.Pick (s.acts'.getD q []) dflt a d := by
  by_cases hw' : ∀ w, s.g.wildcard = some w → ownOf (s.acts'.getD q []) w = none
  · exact m.exact ho' hq hk hd (fun _ _ w h => .inl (hw' w h))
  · obtain ⟨dd, ig, hc, ho⟩ := m.own hq
    have hdk := m.inv.default_name m.dlt m.didx
    have hne : a ≠ dflt := by rintro rfl; exact hk hdk
    have hwd : ∀ w, s.g.wildcard = some w → w ≠ dflt := by
      rintro w hw rfl
      have := (m.inv.wild w hw).2
      rw [m.dname] at this; cases this
    have hdd : dd = none := by
      cases hdd : dd with
      | none => rfl
      | some r =>
        exfalso
        apply hw'
        intro w hwc
        rcases hw w hwc with h | ⟨⟨k, h⟩, hf⟩
        · exact ho.nothing w (hwd w hwc) h
        · exact absurd rfl ((hc.dSome r hdd).2 ⟨w, .shift k⟩ (mem_of_lives (by rw [h]; simp)) (not_ignored hc.ign hf) hwc k)
    obtain ⟨sh, rd, _, _, hout⟩ := m.outcome hq hk
    rw [hd] at hout
    cases hout with
    | shift => exact .own (ho.shift a hne _ hd)
    | @reduce r h1 h2 h3 h4 =>
      rcases ho.reduce a hne r hd with ⟨h5, _⟩ | ⟨_, h5, _⟩
      · exact .own h5
      · rw [hdd] at h5; cases h5

/-- A token that may not be used here at all -/
theorem Made.error_own (ho' : OrdOk ord) (m : Made s dflt) {q : StateId} (hq : q < s.sts.length) {a : SymbolId} (hk : (s.g.sym a).kind ≠ .nonTerminal) {r : RuleId}
    (hd : lives (onSym a (s.acts.getD q [])) = [.error, .reduce r]) (hf : (s.g.sym a).fallback = none)
    (hw : ∀ w, s.g.wildcard = some w → ∀ k, Detail.shift k ∉ lives (onSym w (s.acts.getD q []))) : ownOf (s.acts'.getD q []) a = some .error := by
  obtain ⟨dd, ig, hc, ho⟩ := m.own hq
  have hne : a ≠ dflt := by rintro rfl; exact hk (m.inv.default_name m.dlt m.didx)
  rcases ho.error a hne r hd with ⟨h, _⟩ | ⟨_, h⟩
  · exact h
  · exfalso
    rcases (hc.dNone h).2 with ⟨x, hx, _, hx2, k, hx3⟩ | h2
    · apply hw x.la hx2 k
      unfold lives onSym
      rw [List.mem_filter, List.mem_map]
      exact ⟨⟨x, List.mem_filter.2 ⟨hx, by simp⟩, hx3⟩, rfl⟩
    · have hm := mem_of_lives (l := s.acts.getD q []) (a := a) (d := .reduce r) (by rw [hd]; simp)
      have h3 := h2 _ hm (not_ignored hc.ign hf) r rfl
      obtain ⟨sh, rd, hsh, hrd, hout⟩ := m.outcome hq hk
      rw [hd] at hout
      cases hout with
      | @error k _ c h4 h5 =>
        have h0 := canReduce_start m.inv m.auto m.noStart ((hrd r).1 h5) (start_of_lhsStart ho' s.decls s.auto h3)
        subst h0
        obtain ⟨X, hX, hm⟩ := (hsh k).1 (by rw [h4]; simp)
        obtain ⟨r', hr', hx⟩ := hX.rhs m.inv m.auto
        obtain ⟨hX1, hX2, _⟩ := m.inv.rhs r' hr' X hx
        rcases (mem_shiftActions.1 hm).2 with ⟨_, h6⟩ | ⟨_, h6⟩
        · have := (m.inv.subs X hX1 _ h6).2
          simp only [m.inv.dollar.1] at this
          cases this
        · simp only at h6
          rw [← h6] at hX2
          exact hX2 m.inv.dollar.1
end

end Pomelo
