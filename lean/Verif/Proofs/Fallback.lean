import Verif.Proofs.RulePrec
import Mathlib.Data.List.Induction
/-! # Chains of fallbacks -/

namespace Pomelo

open Spec

theorem parseDecls_append : ∀ {ds es : List Decl} {g g' : Grammar}, g.parseDecls (ds ++ es) = .ok g' →
    ∃ g1, g.parseDecls ds = .ok g1 ∧ g1.parseDecls es = .ok g' := by
  intro ds
  induction ds with
  | nil => intro es g g' h; exact ⟨g, rfl, h⟩
  | cons d ds ih =>
    intro es g g' h
    rw [List.cons_append, Grammar.parseDecls] at h
    rw [Grammar.parseDecls]
    split at h
    · cases h
    · exact ih h

/-- A successful walk: the chain ends, also if the tokens of `ids` get a fallback. -/
theorem walk_ends {g : Grammar} (h : DInv g) {ids : List Ident} {ss : List SymbolId}
    (hs : ∀ i ∈ ids, ∃ s ∈ ss, s < g.syms.length ∧ (g.sym s).name = .ident i) {F : Ident → Option Ident}
    (hF : ∀ i, i ∉ ids → (g.obs i).fallback = (F i).map SymName.ident) :
    ∀ {fuel : Nat} {f : SymbolId} {i : Ident}, f < g.syms.length → (g.sym f).name = .ident i → i ∉ ids →
      g.fallbackWalk ss fuel f = .ok () → Ends F i := by
  intro fuel
  induction fuel with
  | zero => intro f i _ _ _ hw; cases hw
  | succ fuel ih =>
    intro f i hf hn hi hw
    unfold Grammar.fallbackWalk at hw
    have hob : (g.obs i).fallback = (g.sym f).fallback.map (fun m => (g.sym m).name) := by
      rw [obs_of_name h hf hn]; rfl
    rw [hF i hi] at hob
    split at hw
    · rename_i hfb
      rw [hfb] at hob
      exact .stop (Option.map_eq_none_iff.1 hob)
    · rename_i nx hfb
      rw [hfb] at hob
      simp only [Option.map_some] at hob
      obtain ⟨j, hj, he⟩ := Option.map_eq_some_iff.1 hob
      split at hw
      · cases hw
      · rename_i hc
        have hnl := (h.fb f hf nx hfb).1
        refine .next hj (ih hnl he.symm ?_ hw)
        intro hjm
        obtain ⟨s, hs1, hs2, hs3⟩ := hs j hjm
        have : s = nx := h.names s nx hs2 hnl (by rw [hs3, he]) (by rw [hs3]; simp)
        subst this
        exact hc (by simpa using hs1)

theorem fallbackOf_append (ds es : List Decl) (i : Ident) : fallbackOf (ds ++ es) i = (fallbackOf ds i).or (fallbackOf es i) := by
  unfold fallbackOf
  rw [List.findSome?_append]

theorem fallbacks_end : ∀ {ds : List Decl} {g : Grammar}, Grammar.initial.parseDecls ds = .ok g → noSelfFallback ds = true →
    ∀ i, Ends (fallbackOf ds) i := by
  intro ds
  induction ds using List.reverseRecOn with
  | nil => intro g _ _ i; exact .stop rfl
  | append_singleton ds d ih =>
    intro g' hp hns i
    obtain ⟨g, hg, hd⟩ := parseDecls_append hp
    unfold noSelfFallback at hns
    rw [List.all_append, Bool.and_eq_true] at hns
    have ih := ih hg hns.1
    have hinv := (DInv.initial.parseDecls hg).1
    have hdecl := declared hg
    have hdecl' := declared hp
    by_cases hcase : ∃ fb ids, d = .fallback fb ids
    · obtain ⟨fb, ids, rfl⟩ := hcase
      rw [Grammar.parseDecls] at hd
      split at hd
      · cases hd
      · rename_i g2 he
        cases hd
        have hns2 : fb ∉ ids := by simpa using hns.2
        unfold Grammar.parseOneDecl at he
        simp only at he
        split at he
        · cases he
        · rename_i g1 ss hdt
          obtain ⟨i1, i2, i3, i4⟩ := hinv.declTokens hdt
          have hobs1 := obs_declTokens hinv hdt
          split at he
          · cases he
          · rename_i hid
            obtain ⟨h1, h2, h3, h4, h5⟩ := i1.symbolNew (askOk_upper hid)
            have hobs2 := obs_symbolNew' i1 (askOk_upper hid) (by simp)
            split at he
            · cases he
            · rename_i hw
              have hss : List.Forall₂ (fun s id => s < (g1.symbolNew (.ident fb) .terminal).1.syms.length ∧
                  ((g1.symbolNew (.ident fb) .terminal).1.sym s).name = .ident id ∧
                  ((g1.symbolNew (.ident fb) .terminal).1.sym s).name.isTok = true) ss ids := by
                refine i4.imp ?_
                intro s id hh
                exact ⟨Nat.lt_of_lt_of_le hh.1 h2.len, by rw [h2.name _ hh.1]; exact hh.2.1, by rw [h2.name _ hh.1]; exact hh.2.2⟩
              have hfbt : fb.isTerminal = true := by simpa using hid
              obtain ⟨j1, j2, j3⟩ := obs_setFallbacks h1 h3 h4 hfbt hss he
              -- the new chain function
              have hF : ∀ i, fallbackOf (ds ++ [.fallback fb ids]) i = if i ∈ ids then some fb else fallbackOf ds i := by
                intro i
                have := hdecl'.fallback i
                rw [j3 i] at this
                split at this
                · rename_i hi
                  rw [if_pos hi]
                  simp only at this
                  cases hh : fallbackOf (ds ++ [.fallback fb ids]) i with
                  | none => rw [hh] at this; cases this
                  | some x => rw [hh] at this; simp only [Option.map_some, Option.some.injEq, SymName.ident.injEq] at this; rw [this]
                · rename_i hi
                  rw [if_neg hi]
                  rw [hobs2, hobs1, hdecl.fallback i] at this
                  cases hh : fallbackOf (ds ++ [.fallback fb ids]) i with
                  | none =>
                    rw [hh] at this
                    simp only [Option.map_none, Option.map_eq_none_iff] at this
                    exact this.symm
                  | some x =>
                    rw [hh] at this
                    simp only [Option.map_some] at this
                    obtain ⟨y, hy, hy2⟩ := Option.map_eq_some_iff.1 this
                    rw [hy]; simp only [SymName.ident.injEq] at hy2; rw [hy2]
              have hold : ∀ i ∈ ids, fallbackOf ds i = none := by
                intro i hi
                have := j2 i hi
                rw [hobs2, hobs1, hdecl.fallback i] at this
                exact Option.map_eq_none_iff.1 this
              have hfb : Ends (fallbackOf (ds ++ [.fallback fb ids])) fb := by
                refine walk_ends h1 (ids := ids) (ss := ss) ?_ ?_ h3 h4 hns2 (by rw [hw])
                · intro i hi
                  obtain ⟨k, hk, hki⟩ := List.mem_iff_getElem.1 hi
                  have hlen := hss.length_eq
                  have := List.Forall₂.get hss (hlen ▸ hk) hk
                  simp only [List.get_eq_getElem] at this
                  rw [hki] at this
                  exact ⟨_, List.getElem_mem _, this.1, this.2.1⟩
                · intro i hi
                  rw [hobs2, hobs1, hdecl.fallback i, hF i, if_neg hi]
              have := ih i
              induction this with
              | @stop a ha =>
                by_cases hi : a ∈ ids
                · exact .next (by rw [hF, if_pos hi]) hfb
                · exact .stop (by rw [hF, if_neg hi]; exact ha)
              | @next a b ha _ ih =>
                refine .next ?_ ih
                rw [hF, if_neg]
                · exact ha
                · intro hi
                  rw [hold a hi] at ha; cases ha
    · have : ∀ i, fallbackOf (ds ++ [d]) i = fallbackOf ds i := by
        intro i
        rw [fallbackOf_append]
        have : fallbackOf [d] i = none := by
          unfold fallbackOf
          cases d with
          | fallback fb ids => exact absurd ⟨fb, ids, rfl⟩ hcase
          | _ => rfl
        rw [this, Option.or_none]
      rw [funext this]
      exact ih i

/-- Every chain of fallbacks ends. -/
def Grammar.FbEnds (g : Grammar) : Prop := ∀ s, s < g.syms.length → Ends (fun s => (g.sym s).fallback) s

theorem Bridge.fbEnds {ord} {ds : List Decl} {g : Grammar} (b : Bridge ord ds g) (hi : GInv g) (h : noSelfFallback ds = true) : g.FbEnds := by
  have hd := b.dinv
  have he := fallbacks_end b.parsed h
  have key : ∀ i, Ends (fallbackOf ds) i → ∀ s, s < b.gD.syms.length → (b.gD.sym s).name = .ident i → Ends (fun s => (g.sym s).fallback) s := by
    intro i hi
    induction hi with
    | @stop i hi =>
      intro s hs hn
      have h1 := (b.decl.sym hd hs hn).2.2.2.1
      rw [hi] at h1
      refine .stop ?_
      have h2 : (g.sym s).fallback = (b.gD.sym s).fallback := congrArg (·.2.2.2.1) (b.keep s hs)
      rw [h2]
      exact Option.map_eq_none_iff.1 h1
    | @next i j hi _ ih =>
      intro s hs hn
      have h1 := (b.decl.sym hd hs hn).2.2.2.1
      rw [hi] at h1
      simp only [Option.map_some] at h1
      obtain ⟨f, hf, hf2⟩ := Option.map_eq_some_iff.1 h1
      have h2 : (g.sym s).fallback = (b.gD.sym s).fallback := congrArg (·.2.2.2.1) (b.keep s hs)
      exact .next (by rw [h2]; exact hf) (ih f (hd.fb s hs f hf).1 hf2)
  intro s hs
  rw [b.len] at hs
  rcases Nat.lt_succ_iff_lt_or_eq.1 hs with hs | rfl
  · cases hn : (b.gD.sym s).name with
    | ident i => exact key i (he i) s hs hn
    | _ =>
      refine .stop ?_
      have h2 : (g.sym s).fallback = (b.gD.sym s).fallback := congrArg (·.2.2.2.1) (b.keep s hs)
      show (g.sym s).fallback = none
      rw [h2]
      exact (b.plainAnon s hs (by rw [hn]; rfl)).2.2
  · refine .stop ?_
    show (g.sym b.gD.syms.length).fallback = none
    obtain ⟨d, d1, d2, _⟩ := hi.dflt
    have hdl : d = b.gD.syms.length := by
      rw [b.len] at d1
      rcases Nat.lt_succ_iff_lt_or_eq.1 d1 with d1 | d1
      · have h2 : (g.sym d).name = (b.gD.sym d).name := congrArg (·.1) (b.keep d d1)
        exact absurd (h2.symm.trans d2) (hd.noDflt d d1)
      · exact d1
    subst hdl
    cases hf : (g.sym b.gD.syms.length).fallback with
    | none => rfl
    | some f =>
      have := (hi.fb _ (by rw [b.len]; omega) f hf).2.2
      rw [d2] at this
      cases this

end Pomelo
