import Verif.Proofs.DeclAnon
/-! # The symbol of a compound occurs once -/

namespace Pomelo

/-- The symbols of right-hand sides in order -/
def Grammar.occ (g : Grammar) : List SymbolId := g.rules.flatMap fun r => r.rhs.map (·.sym)

/-- A symbol that stands for a compound occurs at one place only. -/
def AnonOnce (g : Grammar) : Prop := g.occ.Pairwise fun x y => (g.sym x).name = .anon → x ≠ y

theorem DInv.occ_lt {g : Grammar} (hd : DInv g) {x : SymbolId} (h : x ∈ g.occ) : x < g.syms.length := by
  obtain ⟨r, hr, h⟩ := List.mem_flatMap.1 h
  obtain ⟨y, hy, rfl⟩ := List.mem_map.1 h
  obtain ⟨i, hi, rfl⟩ := List.getElem_of_mem hr
  have : g.rules[i] = g.rule i := by simp [Grammar.rule, List.getElem?_eq_getElem hi]
  rw [this] at hy
  exact (hd.rhs i hi y hy).1

theorem declElem_anon {e : RhsElem} {g g' : Grammar} {x : RhsSym} (hd : DInv g) (he : g.declElem e = .ok (g', x))
    (hn : (g'.sym x.sym).name = .anon) : g.syms.length ≤ x.sym := by
  obtain ⟨a1, _, _, _, _, _, a6⟩ := hd.declElem he
  rcases a6 with ⟨tok, _, _, h⟩ | ⟨tok, symR, _, _, _, h, _⟩ | ⟨h1, _, _⟩
  · rw [h] at hn; cases hn
  · obtain ⟨k, hk⟩ := List.mem_iff_getElem?.1 h
    rw [(a1.opts k _ _ hk).2.2.2] at hn; cases hn
  · unfold Grammar.declElem at he
    split at he
    · rename_i tok ht
      exact absurd ht (h1 tok)
    · have hsn : g.symbolNew .anon .multiTerminal = (g.pushSym { name := .anon, kind := .multiTerminal }, g.syms.length) := by
        rcases symbolNew_cases hd.symbols .anon .multiTerminal with ⟨s, _, _, h1, _⟩ | ⟨_, he⟩
        · exact absurd rfl h1
        · exact he
      rw [hsn] at he
      simp only at he
      split at he
      · cases he
      · cases he; exact Nat.le_refl _

theorem declRhs_anon : ∀ {es : List RhsElem} {g g' : Grammar} {xs : List RhsSym}, DInv g → g.declRhs es = .ok (g', xs) →
    (∀ x ∈ xs, (g'.sym x.sym).name = .anon → g.syms.length ≤ x.sym) ∧
    (xs.map (·.sym)).Pairwise fun x y => (g'.sym x).name = .anon → x ≠ y := by
  intro es
  induction es with
  | nil =>
    intro g g' xs _ he
    simp only [Grammar.declRhs, Except.ok.injEq, Prod.mk.injEq] at he
    obtain ⟨rfl, rfl⟩ := he
    exact ⟨by simp, .nil⟩
  | cons e es ih =>
    intro g g' xs h he
    unfold Grammar.declRhs at he
    split at he
    · cases he
    · rename_i g1 x h1
      split at he
      · cases he
      · rename_i g2 xs' h2
        simp only [Except.ok.injEq, Prod.mk.injEq] at he
        obtain ⟨rfl, rfl⟩ := he
        obtain ⟨a1, a2, _, a4, _⟩ := h.declElem h1
        obtain ⟨_, b2, _⟩ := a1.declRhs h2
        obtain ⟨c1, c2⟩ := ih a1 h2
        refine ⟨?_, ?_⟩
        · intro y hy hn
          rcases List.mem_cons.1 hy with rfl | hy
          · rw [b2.name _ a4] at hn
            exact declElem_anon h h1 hn
          · exact Nat.le_trans a2.len (c1 y hy hn)
        · rw [List.map_cons, List.pairwise_cons]
          refine ⟨?_, c2⟩
          intro y hy hn he
          obtain ⟨z, hz, rfl⟩ := List.mem_map.1 hy
          have := c1 z hz (by rw [← he]; exact hn)
          rw [← he] at this
          exact absurd a4 (Nat.not_lt.2 this)

theorem AnonOnce.le {g g' : Grammar} (hd : DInv g) (hle : DLe g g') (hr : g'.rules = g.rules) (h : AnonOnce g) : AnonOnce g' := by
  unfold AnonOnce at *
  have e : g'.occ = g.occ := by unfold Grammar.occ; rw [hr]
  rw [e]
  refine h.imp_of_mem ?_
  intro x y hx _ h1 h2
  rw [hle.name x (hd.occ_lt hx)] at h2
  exact h1 h2

theorem AnonOnce.parseOneDecl {g g' : Grammar} {d : Decl} (hd : DInv g) (h : AnonOnce g) (he : g.parseOneDecl d = .ok g') : AnonOnce g' := by
  obtain ⟨a1, a2, a3⟩ := hd.parseOneDecl he
  cases d with
  | rule lhs rhs action prec =>
    unfold Grammar.parseOneDecl at he
    simp only at he
    split at he
    · cases he
    · rename_i hid
      have a := hd.symbolNew (askOk_lower hid)
      rcases hs : g.symbolNew (.ident lhs) .nonTerminal with ⟨g1, l⟩
      rw [hs] at he a
      simp only at he a
      split at he
      · cases he
      · rename_i g2 rs h2
        obtain ⟨b1, b2, b3, b4, _⟩ := a.1.declRhs h2
        obtain ⟨c1, c2⟩ := declRhs_anon a.1 h2
        have key : ∀ (g3 : Grammar) c p, DLe g2 g3 → g3.rules = g2.rules → AnonOnce (g3.createRule l rs c p) := by
          intro g3 c p hle hr
          have ho : (g3.createRule l rs c p).occ = g.occ ++ rs.map (·.sym) := by
            unfold Grammar.occ
            rw [rules_createRule, List.flatMap_append, hr, b3, a.2.2.2.2.rules]
            simp
          have hn : ∀ x, ((g3.createRule l rs c p).sym x).name = (g3.sym x).name := fun x => proj_createRule Symbol.name (fun _ _ => rfl) x
          unfold AnonOnce
          rw [ho, List.pairwise_append]
          refine ⟨?_, ?_, ?_⟩
          · refine h.imp_of_mem ?_
            intro x y hx _ h1 h2
            have hx := hd.occ_lt hx
            rw [hn, hle.name x (Nat.lt_of_lt_of_le hx (a.2.1.trans b2).len), (a.2.1.trans b2).name x hx] at h2
            exact h1 h2
          · refine c2.imp_of_mem ?_
            intro x y hx _ h1 h2
            obtain ⟨z, hz, rfl⟩ := List.mem_map.1 hx
            rw [hn, hle.name _ (b4 z hz).1] at h2
            exact h1 h2
          · intro x hx y hy h1 h2
            obtain ⟨z, hz, rfl⟩ := List.mem_map.1 hy
            have hx := hd.occ_lt hx
            rw [h2, hn, hle.name _ (b4 z hz).1] at h1
            have := c1 z hz h1
            rw [h2] at hx
            exact absurd (Nat.lt_of_lt_of_le hx a.2.1.len) (Nat.not_lt.2 this)
        split at he
        · cases he; exact key _ _ _ (DLe.refl _) rfl
        · rename_i pid
          split at he
          · cases he
          · rename_i hid2
            have q := b1.symbolNew (askOk_upper hid2)
            rcases hps : g2.symbolNew (.ident pid) .terminal with ⟨g3, ps⟩
            rw [hps] at he q
            simp only at he q
            cases he
            exact key _ _ _ q.2.1 q.2.2.2.2.rules
  | _ => exact h.le hd a2 a3

theorem AnonOnce.parseDecls : ∀ {ds : List Decl} {g g' : Grammar}, DInv g → AnonOnce g → g.parseDecls ds = .ok g' → AnonOnce g' := by
  intro ds
  induction ds with
  | nil =>
    intro g g' _ h he
    simp only [Grammar.parseDecls, Except.ok.injEq] at he
    exact he ▸ h
  | cons d ds ih =>
    intro g g' hd h he
    unfold Grammar.parseDecls at he
    split at he
    · cases he
    · rename_i g1 h1
      exact ih (hd.parseOneDecl h1).1 (h.parseOneDecl hd h1) he

theorem AnonOnce.initial : AnonOnce Grammar.initial := by
  have : Grammar.initial.occ = [] := by decide
  unfold AnonOnce
  rw [this]; exact .nil

/-- Two places of one such symbol are one. -/
theorem AnonOnce.once {g : Grammar} (h : AnonOnce g) {r r' i j : Nat} (hr : r < g.rules.length) (hr' : r' < g.rules.length) {x y : RhsSym}
    (hx : (g.rule r).rhs[i]? = some x) (hy : (g.rule r').rhs[j]? = some y) (he : x.sym = y.sym) (hn : (g.sym x.sym).name = .anon) : r = r' ∧ i = j := by
  unfold AnonOnce Grammar.occ at h
  rw [List.pairwise_flatMap] at h
  obtain ⟨h1, h2⟩ := h
  have e : ∀ {r}, (h : r < g.rules.length) → g.rules[r] = g.rule r := fun h => by simp [Grammar.rule, List.getElem?_eq_getElem h]
  have hm : ∀ {r i : Nat} {x : RhsSym}, (g.rule r).rhs[i]? = some x → x.sym ∈ (g.rule r).rhs.map (·.sym) :=
    fun h => List.mem_map.2 ⟨_, List.mem_of_getElem? h, rfl⟩
  rw [List.pairwise_iff_getElem] at h2
  have hrr : r = r' := by
    rcases Nat.lt_trichotomy r r' with hlt | heq | hlt
    · exact absurd he (h2 r r' hr hr' hlt _ (by rw [e hr]; exact hm hx) _ (by rw [e hr']; exact hm hy) hn)
    · exact heq
    · exact absurd he.symm (h2 r' r hr' hr hlt _ (by rw [e hr']; exact hm hy) _ (by rw [e hr]; exact hm hx) (by rw [← he]; exact hn))
  subst hrr
  refine ⟨rfl, ?_⟩
  have h3 := h1 _ (List.getElem_mem hr)
  rw [e hr, List.pairwise_map, List.pairwise_iff_getElem] at h3
  obtain ⟨hi, rfl⟩ := List.getElem?_eq_some_iff.1 hx
  obtain ⟨hj, rfl⟩ := List.getElem?_eq_some_iff.1 hy
  rcases Nat.lt_trichotomy i j with hlt | heq | hlt
  · exact absurd he (h3 i j hi hj hlt hn)
  · exact heq
  · exact absurd he.symm (h3 j i hj hi hlt (by rw [← he]; exact hn))

end Pomelo
