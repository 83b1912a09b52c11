import Verif.Proofs.Sound
import Verif.Proofs.Flag
/-! # The default action does not change what is done with a token (unless the wildcard has another one) -/

namespace Pomelo

open Spec

variable {g : Grammar}

theorem cmpEq_reduce {r : RuleId} {d : Detail} (h : (Detail.reduce r).cmpEq d = true) : d = .reduce r := by
  cases d <;> simp_all [Detail.cmpEq]

/-- A token without an action of its own and without a fallback -/
theorem pick_end {dflt : SymbolId} {acts' : List Action} {x : RuleId} (hd : (ownOf acts' dflt).getD .error = .reduce x) {s : SymbolId} (hs : ownOf acts' s = none)
    (hf : (g.sym s).fallback = none) (hw : ∀ w, g.wildcard = some w → ownOf acts' w = none ∨ ownOf acts' w = some (.reduce x)) : g.Pick acts' dflt s (.reduce x) := by
  by_cases h0 : s = 0
  · rw [← hd]; exact .dflt hs (.inl h0)
  cases hwc : g.wildcard with
  | none => rw [← hd]; exact .dflt hs (.inr ⟨hf, fun w h => by rw [hwc] at h; cases h⟩)
  | some w =>
    rcases hw w hwc with h | h
    · rw [← hd]; exact .dflt hs (.inr ⟨hf, fun w' h' => by rw [hwc] at h'; cases h'; exact h⟩)
    · exact .wild hs h0 hf hwc h

/-- The search along the fallbacks found nothing but the same reduce. -/
theorem pick_of_same {dflt : SymbolId} {acts acts' : List Action} {ig : List SymbolId} {x : RuleId} (ho : OwnSpec g dflt acts acts' (some x) ig)
    (hfb : ∀ s f, (g.sym s).fallback = some f → s ≠ 0 ∧ f ≠ dflt ∧ (g.sym f).kind ≠ .nonTerminal)
    (hone : ∀ s, (g.sym s).kind ≠ .nonTerminal → (lives (onSym s acts)).head? = some (.reduce x) → lives (onSym s acts) = [.reduce x])
    (hw : ∀ w, g.wildcard = some w → ownOf acts' w = none ∨ ownOf acts' w = some (.reduce x)) :
    ∀ {fuel : Nat} {s : SymbolId}, ownOf acts' s = none → g.fallbackDiffers acts (.reduce x) fuel s = .ok false → g.Pick acts' dflt s (.reduce x) := by
  intro fuel
  induction fuel with
  | zero => intro s _ h; cases h
  | succ fuel ih =>
    intro s hs h
    unfold Grammar.fallbackDiffers at h
    have hd : (ownOf acts' dflt).getD .error = .reduce x := by rw [ho.dfl]; rfl
    cases hf : (g.sym s).fallback with
    | none => exact pick_end hd hs hf hw
    | some f =>
      rw [hf] at h
      simp only at h
      obtain ⟨h0, hfd, hfk⟩ := hfb s f hf
      refine .fb hs h0 hf ?_
      split at h
      · rename_i a2 ha2
        split at h
        · rename_i hc
          have hdet := cmpEq_reduce hc
          have hlv : (lives (onSym f acts)).head? = some (.reduce x) := by
            have hon : (onSym f acts).head? = some a2 := by
              unfold onSym
              rw [List.head?_filter]
              rw [← ha2]
            cases ho' : onSym f acts with
            | nil => rw [ho'] at hon; cases hon
            | cons b l =>
              rw [ho'] at hon
              simp only [List.head?_cons, Option.some.injEq] at hon
              subst hon
              rw [lives_cons, hdet]; rfl
          have hl := hone f hfk hlv
          rcases ho.reduce f hfd x hl with ⟨h1, _⟩ | ⟨h1, _, _⟩
          · exact .own h1
          · exact ih h1 h
        · cases h
      · rename_i ha2
        have hno : onSym f acts = [] := by
          unfold onSym
          rw [List.filter_eq_nil_iff]
          intro a ha
          have := List.find?_eq_none.1 ha2 a ha
          simpa using this
        exact ih (ho.nothing f hfd (by rw [hno]; rfl)) h

theorem mem_filterAuxM_except {α ε : Type} {p : α → Except ε Bool} : ∀ {l acc l' : List α}, l.filterAuxM p acc = .ok l' →
    (∀ a ∈ acc, a ∈ l') ∧ ∀ a ∈ l, a ∉ l' → p a = .ok false := by
  intro l
  induction l with
  | nil =>
    intro acc l' h
    rw [List.filterAuxM] at h
    cases h
    exact ⟨fun _ h => h, fun _ h => by cases h⟩
  | cons b l ih =>
    intro acc l' h
    rw [List.filterAuxM] at h
    cases hb : p b with
    | error e => rw [hb] at h; cases h
    | ok c =>
      rw [hb] at h
      obtain ⟨h1, h2⟩ := ih (h : l.filterAuxM p (cond c (b :: acc) acc) = .ok l')
      cases c with
      | true =>
        refine ⟨fun a ha => h1 a (List.mem_cons_of_mem _ ha), fun a ha hn => ?_⟩
        rcases List.mem_cons.1 ha with rfl | ha
        · exact absurd (h1 a List.mem_cons_self) hn
        · exact h2 a ha hn
      | false =>
        refine ⟨h1, fun a ha hn => ?_⟩
        rcases List.mem_cons.1 ha with rfl | ha
        · exact hb
        · exact h2 a ha hn

theorem mem_filterM_except {α ε : Type} {p : α → Except ε Bool} {l l' : List α} (h : l.filterM p = .ok l') : ∀ a ∈ l, a ∉ l' → p a = .ok false := by
  unfold List.filterM at h
  cases hr : l.filterAuxM p [] with
  | error e => rw [hr] at h; cases h
  | ok l2 =>
    rw [hr] at h
    cases h
    intro a ha hn
    exact (mem_filterAuxM_except hr).2 a ha (fun h => hn (List.mem_reverse.2 h))

section
variable {ord : List (SymbolId × SymbolId) → List (SymbolId × SymbolId)} {ds : List Decl} {t : Tables} {s : CSpec ord ds t} {dflt : SymbolId}

theorem Made.outcome (m : Made s dflt) {q : StateId} (hq : q < s.sts.length) {a : SymbolId} (hk : (s.g.sym a).kind ≠ .nonTerminal) :
    ∃ sh rd, (∀ k, k ∈ sh ↔ s.g.CanShift s.sts q a k) ∧ (∀ r, r ∈ rd ↔ s.g.CanReduce s.sts q a r) ∧
      s.g.Outcome a sh rd (lives (onSym a (s.acts.getD q []))) := by
  refine m.aspec.out q hq a (.inr ?_)
  rintro rfl
  exact hk m.inv.start_kind.1

/-- The one action that the state has for a token is the one that is found, unless the wildcard has another one there. -/
theorem Made.exact (ho' : OrdOk ord) (m : Made s dflt) {q : StateId} (hq : q < s.sts.length) {a : SymbolId} (hk : (s.g.sym a).kind ≠ .nonTerminal) {d : Detail}
    (hd : lives (onSym a (s.acts.getD q [])) = [d])
    (hw : ∀ r, d = .reduce r → ∀ w, s.g.wildcard = some w → ownOf (s.acts'.getD q []) w = none ∨ ownOf (s.acts'.getD q []) w = some (.reduce r)) :
    s.g.Pick (s.acts'.getD q []) dflt a d := by
  obtain ⟨dd, ig, hc, ho⟩ := m.own hq
  have hdk := m.inv.default_name m.dlt m.didx
  have hne : a ≠ dflt := by rintro rfl; exact hk hdk
  obtain ⟨sh, rd, _, _, hout⟩ := m.outcome hq hk
  rw [hd] at hout
  cases hout with
  | shift => exact .own (ho.shift a hne _ hd)
  | @reduce r h1 h2 h3 h4 =>
    rcases ho.reduce a hne r hd with ⟨h5, _⟩ | ⟨h5, rfl, h6⟩
    · exact .own h5
    · have hfb : ∀ s' f, (s.g.sym s').fallback = some f → s' ≠ 0 ∧ f ≠ dflt ∧ (s.g.sym f).kind ≠ .nonTerminal := by
        intro s' f hf
        have hs' : s' < s.g.syms.length := by
          by_contra hc'
          have : s.g.sym s' = default := by
            unfold Grammar.sym
            rw [List.getD_eq_getElem?_getD, List.getElem?_eq_none (Nat.le_of_not_lt hc')]; rfl
          rw [this] at hf; cases hf
        obtain ⟨f1, f2, f3⟩ := m.inv.fb s' hs' f hf
        refine ⟨?_, ?_, ?_⟩
        · rintro rfl; rw [m.inv.dollar.1] at f3; cases f3
        · rintro rfl; rw [m.dname] at f2; cases f2
        · intro hc'
          rcases m.inv.isTok_kind f1 f2 with h' | h' <;> rw [hc'] at h' <;> cases h'
      by_cases hh : s.g.hasFallback
      · have hig := hc.ign
        unfold Grammar.ignoredActions at hig
        rw [if_pos hh] at hig
        cases hfm : (s.acts.getD q []).filterM (fun a => s.g.fallbackDiffers (s.acts.getD q []) a.detail (s.g.syms.length + 1) a.la) with
        | error e => rw [hfm] at hig; cases hig
        | ok l2 =>
          rw [hfm] at hig
          simp only [Except.map, Except.ok.injEq] at hig
          -- the action itself
          have hmem : (⟨a, .reduce r⟩ : Action) ∈ s.acts.getD q [] := by
            have h7 : Detail.reduce r ∈ lives (onSym a (s.acts.getD q [])) := by rw [hd]; exact List.mem_cons_self
            unfold lives at h7
            rw [List.mem_filter, List.mem_map] at h7
            obtain ⟨⟨x, hx, hxd⟩, _⟩ := h7
            unfold onSym at hx
            rw [List.mem_filter] at hx
            obtain ⟨hx1, hx2⟩ := hx
            have hla : x.la = a := by simpa using hx2
            have : x = ⟨a, .reduce r⟩ := by rw [← hla, ← hxd]
            rw [← this]; exact hx1
          have hnot : (⟨a, .reduce r⟩ : Action) ∉ l2 := by
            intro hin
            apply h6
            rw [← hig]
            exact List.mem_map.2 ⟨_, hin, rfl⟩
          have := mem_filterM_except hfm _ hmem hnot
          refine pick_of_same ho hfb ?_ (hw _ rfl) h5 this
          intro s' hs' hhd
          obtain ⟨sh', rd', _, _, hout'⟩ := m.outcome hq hs'
          generalize lives (onSym s' (s.acts.getD q [])) = l at hout' hhd ⊢
          cases hout' with
          | nothing => cases hhd
          | shift => simp at hhd
          | reduce => simpa using hhd
          | error => simp at hhd
      · have hn := s.flag ho' (by simpa using hh)
        have : (ownOf (s.acts'.getD q []) dflt).getD .error = .reduce r := by rw [ho.dfl]; rfl
        exact pick_end this h5 (hn a) (hw _ rfl)
end

end Pomelo
