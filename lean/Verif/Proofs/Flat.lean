import Verif.Proofs.RulePrec
import Verif.Proofs.StateActs
import Verif.Spec.Tidy
/-! # Token classes whose members are plain tokens -/

namespace Pomelo

open Spec

/-- The members of the classes in right-hand sides are tokens. -/
def Grammar.Flat (g : Grammar) : Prop :=
  ∀ r, r < g.rules.length → ∀ X ∈ g.rhsSyms r, ∀ m ∈ (g.sym X).subs, (g.sym m).kind = .terminal

theorem flat_class {ds : List Decl} (h : flat ds = true) {i m : Ident} (hm : m ∈ classMembers ds i) : isClass ds m = false := by
  unfold flat at h
  rw [Bool.and_eq_true] at h
  have h1 := List.all_eq_true.1 h.1
  unfold classMembers at hm
  obtain ⟨d, hd, hm⟩ := List.mem_flatMap.1 hm
  split at hm
  · split at hm
    · have := List.all_eq_true.1 (h1 _ hd) m hm
      simpa using this
    · cases hm
  · cases hm

theorem mem_rhsSyms_of_mem {g : Grammar} {r : RuleId} {x : RhsSym} (h : x ∈ (g.rule r).rhs) : x.sym ∈ g.rhsSyms r :=
  List.mem_map.2 ⟨x, h, rfl⟩

theorem normalizeRule_rhs {g : Grammar} {a c : Rule} (h : g.normalizeRule a = .ok c) : c.rhs.map (·.sym) = a.rhs.map (·.sym) := by
  unfold Grammar.normalizeRule at h
  split at h
  · split at h
    · cases h
      simp only [List.map_map]
      apply List.map_congr_left
      intro x _
      simp only [Function.comp]
      split <;> rfl
    · cases h
  · cases h; rfl

theorem rulePrec_rhs (g : Grammar) (a : Rule) : (g.rulePrec a).rhs = a.rhs := by
  unfold Grammar.rulePrec
  split
  · rfl
  · split <;> rfl

theorem Bridge0.flat {ord} {ds : List Decl} {g : Grammar} (ho : OrdOk ord) (b : Bridge0 ord ds g) (h : flat ds = true) : g.Flat := by
  have hd := b.dinv
  -- identifiers
  have named : ∀ x, x < b.gD.syms.length → ∀ i, (b.gD.sym x).name = .ident i → isClass ds i = false → (b.gD.sym x).name.isTok = true → (b.gD.sym x).kind = .terminal := by
    intro x hx i hn hc ht
    have h1 := (b.decl.sym hd hx hn).2.1
    have hk := hd.kinds x hx
    have h2 : (b.gD.sym x).kind ≠ .multiTerminal := fun e => by
      have := h1.1 e; rw [hc] at this; cases this
    revert hk h2 ht
    cases (b.gD.sym x).kind
    · intros; rfl
    · intro ht hk _
      revert hk ht
      cases (b.gD.sym x).name with
      | ident i => cases i <;> simp [kindOk, SymName.isTok]
      | _ => simp [SymName.isTok]
    · intro _ _ h2; exact absurd rfl h2
  -- symbols with a name
  have ident : ∀ x, x < b.gD.syms.length → ∀ i, (b.gD.sym x).name = .ident i → ∀ m ∈ (b.gD.sym x).subs, (b.gD.sym m).kind = .terminal := by
    intro x hx i hn m hm
    have h3 := (b.decl.sym hd hx hn).2.2.1
    have h4 : (b.gD.sym m).name ∈ (classMembers ds i).map SymName.ident := by
      rw [← h3]; exact List.mem_map.2 ⟨m, hm, rfl⟩
    obtain ⟨j, hj, he⟩ := List.mem_map.1 h4
    obtain ⟨h5, h6⟩ := hd.subs x hx m hm
    exact named m h5 j he.symm (flat_class h hj) h6
  have opt : ∀ x, x < b.gD.syms.length → ∀ k, (b.gD.sym x).name = .opt k → (b.gD.sym x).subs = [] := by
    intro x hx k hn
    by_contra hc
    have h1 := hd.subsKind x hx hc
    have h2 := hd.kinds x hx
    rw [hn, h1] at h2
    simp [kindOk] at h2
  have all : ∀ a ∈ b.gP.rules, ∀ x ∈ a.rhs, x.sym < b.gD.syms.length ∧ ∀ m ∈ (b.gD.sym x.sym).subs, (b.gD.sym m).kind = .terminal := by
    intro a ha x hx
    rw [b.rulesP] at ha
    rcases List.mem_append.1 ha with ha | ha
    · obtain ⟨r, hr, hae⟩ := List.mem_iff_getElem.1 ha
      have har : b.gD.rule r = a := by unfold Grammar.rule; rw [getD_of_lt hr]; exact hae
      have hxl := (hd.rhs r hr x (by rw [har]; exact hx)).1
      refine ⟨hxl, ?_⟩
      have hlen := b.recs.length_eq
      have h1 := List.Forall₂.get b.recs (hlen ▸ hr) hr
      simp only [List.get_eq_getElem] at h1
      rw [hae] at h1
      have hmem2 := List.getElem_mem (l := ds.filterMap Decl.rule?) (hlen ▸ hr)
      revert h1 hmem2
      generalize (ds.filterMap Decl.rule?)[r]'(hlen ▸ hr) = q
      intro h1 hmem2
      obtain ⟨_, hf, _⟩ := h1
      obtain ⟨j, hj, hxe⟩ := List.mem_iff_getElem.1 hx
      have hfl := hf.length_eq
      have h2 := List.Forall₂.get hf (hfl ▸ hj) hj
      simp only [List.get_eq_getElem] at h2
      rw [hxe] at h2
      have hmem := List.getElem_mem (l := q.2.1) (hfl ▸ hj)
      revert h2 hmem
      generalize q.2.1[j]'(hfl ▸ hj) = e
      intro h2 hmem
      obtain ⟨_, h2⟩ := h2
      rcases h2 with ⟨tok, h1, h2, h3⟩ | ⟨tok, symR, h1, h2, h3, h4, h5⟩ | ⟨h1, h2, h3⟩
      · exact ident _ hxl tok h3
      · obtain ⟨k, hk, he⟩ := List.getElem_of_mem h4
        have hb := (hd.opts k symR x.sym (by rw [List.getElem?_eq_getElem hk, he])).2.2.2
        rw [opt _ hxl k hb]
        intro m hm; cases hm
      · intro m hm
        have hex : ∃ i ∈ e.toks, (b.gD.sym m).name = .ident i := by
          generalize e.toks = ts at h3
          generalize (b.gD.sym x.sym).subs = ss at h3 hm
          clear * - h3 hm
          induction h3 with
          | nil => cases hm
          | @cons s i ss ts hi _ ih =>
            rcases List.mem_cons.1 hm with rfl | hm
            · exact ⟨i, by simp, hi.2⟩
            · obtain ⟨j, hj, h⟩ := ih hm; exact ⟨j, by simp [hj], h⟩
        obtain ⟨i, hi, hn⟩ := hex
        obtain ⟨h5, h6⟩ := hd.subs _ hxl m hm
        refine named m h5 i hn ?_ h6
        rw [filterMap_rule?] at hmem2
        obtain ⟨u, hu, hue⟩ := List.mem_map.1 hmem2
        unfold Spec.flat at h
        rw [Bool.and_eq_true] at h
        have h7 := List.all_eq_true.1 h.2 u hu
        have h8 := List.all_eq_true.1 h7 e (by rw [← hue] at hmem; exact hmem)
        split at h8
        · rename_i tok he; exact absurd he (h1 tok)
        · have := List.all_eq_true.1 h8 i hi
          simpa using this
    · obtain ⟨o, hoo, ha⟩ := List.mem_flatMap.1 ha
      obtain ⟨k, hk⟩ := List.mem_iff_getElem?.1 (((ho _).mem_iff).1 hoo)
      obtain ⟨o1, o2⟩ := o
      obtain ⟨h1, h2, h3, h4⟩ := hd.opts k o1 o2 hk
      simp only [optRules, List.mem_cons, List.not_mem_nil, or_false] at ha
      rcases ha with rfl | rfl
      · cases hx
      · simp only [List.mem_cons, List.not_mem_nil, or_false] at hx
        subst hx
        refine ⟨h1, ?_⟩
        have : ∃ i, (b.gD.sym o1).name = .ident i := by
          cases hn : (b.gD.sym o1).name with
          | ident i => exact ⟨i, rfl⟩
          | _ => rw [hn] at h3; simp [SymName.isTok, SymName.isNt] at h3
        obtain ⟨i, hi⟩ := this
        exact ident _ h1 i hi
  intro r hr X hX m hm
  have hlen := b.rules.length_eq
  have h2 := List.Forall₂.get b.rules (hlen ▸ hr) hr
  simp only [List.get_eq_getElem] at h2
  obtain ⟨c, hc, he⟩ := h2
  have hgr : g.rule r = g.rules[r] := by unfold Grammar.rule; rw [getD_of_lt hr]
  have hrhs : (g.rule r).rhs.map (·.sym) = ((b.gP.rules[r]'(hlen ▸ hr)).rhs).map (·.sym) := by
    rw [hgr, he]
    have := normalizeRule_rhs hc
    rw [rulePrec_rhs] at this
    exact this
  unfold Grammar.rhsSyms at hX
  rw [hrhs] at hX
  obtain ⟨x, hx, rfl⟩ := List.mem_map.1 hX
  obtain ⟨h3, h4⟩ := all _ (List.getElem_mem _) x hx
  have hk := b.keep x.sym h3
  have hs : (g.sym x.sym).subs = (b.gD.sym x.sym).subs := congrArg (·.2.2.1) hk
  rw [hs] at hm
  have hml := (hd.subs _ h3 m hm).1
  have hkm : (g.sym m).kind = (b.gD.sym m).kind := congrArg (·.2.1) (b.keep m hml)
  rw [hkm]
  exact h4 m hm

end Pomelo
