import Verif.Proofs.OptSrc
/-! # Types have no numbers before `assignTypes` -/

namespace Pomelo

def Grammar.Unnum (g : Grammar) : Prop := ∀ b ∈ g.syms, b.dtNum = 0

theorem Grammar.Unnum.sym {g : Grammar} (h : g.Unnum) (x : SymbolId) : (g.sym x).dtNum = 0 := by
  unfold Grammar.sym
  rw [List.getD_eq_getElem?_getD]
  cases hx : g.syms[x]? with
  | none => rfl
  | some b => exact h b (List.mem_of_getElem? hx)

theorem Grammar.Unnum.modify {g : Grammar} (h : g.Unnum) {s : SymbolId} {f : Symbol → Symbol} (hf : ∀ b, (f b).dtNum = b.dtNum) :
    (g.modifySym s f).Unnum := by
  intro b hb
  obtain ⟨n, hn⟩ := List.mem_iff_getElem?.1 hb
  simp only [Grammar.modifySym, List.getElem?_modify] at hn
  obtain ⟨a, ha, hab⟩ := Option.map_eq_some_iff.1 hn
  have := h a (List.mem_of_getElem? ha)
  split at hab <;> subst hab
  · simp only [hf, this]
  · exact this

theorem Grammar.Unnum.symbolNew {g : Grammar} (h : g.Unnum) {n : SymName} {k : SymKind} : (g.symbolNew n k).1.Unnum := by
  unfold Grammar.symbolNew
  simp only
  split
  · exact h.modify (fun _ => rfl)
  · intro b hb
    rcases List.mem_append.1 hb with hb | hb
    · exact h b hb
    · rw [List.mem_singleton] at hb; subst hb; rfl

theorem Grammar.Unnum.createRule {g : Grammar} (h : g.Unnum) {l rs c p} : (g.createRule l rs c p).Unnum := by
  unfold Grammar.createRule
  exact Grammar.Unnum.modify (g := { g with rules := _ }) h (fun _ => rfl)

theorem Grammar.Unnum.declTokens {e : GErr} : ∀ {ids : List Ident} {g g' : Grammar} {ss : List SymbolId}, g.Unnum →
    g.declTokens e ids = .ok (g', ss) → g'.Unnum := by
  intro ids
  induction ids with
  | nil => intro g g' ss hu h; cases h; exact hu
  | cons i ids ih =>
    intro g g' ss hu h
    unfold Grammar.declTokens at h
    split at h
    · cases h
    · simp only at h
      split at h
      · rename_i h1
        cases h
        exact ih hu.symbolNew h1
      · cases h

theorem Grammar.Unnum.declAssoc {p : Precedence} : ∀ {ids : List Ident} {g g' : Grammar}, g.Unnum → g.declAssoc p ids = .ok g' → g'.Unnum := by
  intro ids
  induction ids with
  | nil => intro g g' hu h; cases h; exact hu
  | cons i ids ih =>
    intro g g' hu h
    unfold Grammar.declAssoc at h
    split at h
    · cases h
    · simp only at h
      split at h
      · cases h
      · refine ih ?_ h
        apply hu.symbolNew.modify; intro _; rfl

theorem Grammar.Unnum.setFallbacks {f : SymbolId} : ∀ {ss : List SymbolId} {g g' : Grammar}, g.Unnum → g.setFallbacks f ss = .ok g' → g'.Unnum := by
  intro ss
  induction ss with
  | nil => intro g g' hu h; cases h; exact hu
  | cons s ss ih =>
    intro g g' hu h
    unfold Grammar.setFallbacks at h
    split at h
    · cases h
    · refine ih ?_ h
      exact hu.modify (s := s) (f := fun b => { b with fallback := some f }) (fun _ => rfl)

theorem Grammar.Unnum.declClass {t : SymbolId} : ∀ {ids : List Ident} {g g' : Grammar}, g.Unnum → g.declClass t ids = .ok g' → g'.Unnum := by
  intro ids
  induction ids with
  | nil => intro g g' hu h; cases h; exact hu
  | cons i ids ih =>
    intro g g' hu h
    unfold Grammar.declClass at h
    split at h
    · cases h
    · refine ih ?_ h
      apply hu.symbolNew.modify; intro _; rfl

theorem Grammar.Unnum.declElem {e : RhsElem} {g g' : Grammar} {x : RhsSym} (hu : g.Unnum) (h : g.declElem e = .ok (g', x)) : g'.Unnum := by
  unfold Grammar.declElem at h
  split at h
  · simp only at h
    split at h
    · cases h
    · split at h
      · split at h
        · cases h; exact hu.symbolNew
        · cases h; exact hu.symbolNew.symbolNew
      · cases h; exact hu.symbolNew
  · simp only at h
    split at h
    · cases h
    · rename_i h2
      cases h
      exact (hu.symbolNew.declTokens h2).modify (fun _ => rfl)

theorem Grammar.Unnum.declRhs : ∀ {es : List RhsElem} {g g' : Grammar} {xs : List RhsSym}, g.Unnum → g.declRhs es = .ok (g', xs) → g'.Unnum := by
  intro es
  induction es with
  | nil => intro g g' xs hu h; cases h; exact hu
  | cons e es ih =>
    intro g g' xs hu h
    unfold Grammar.declRhs at h
    split at h
    · cases h
    · rename_i h1
      split at h
      · cases h
      · rename_i h2
        cases h
        exact ih (hu.declElem h1) h2

theorem Grammar.Unnum.parseOneDecl {d : Decl} {g g' : Grammar} (hu : g.Unnum) (h : g.parseOneDecl d = .ok g') : g'.Unnum := by
  cases d with
  | rule l rhs c p =>
    simp only [Grammar.parseOneDecl] at h
    split at h
    · cases h
    · split at h
      · cases h
      · rename_i h2
        have h3 := hu.symbolNew.declRhs h2
        split at h
        · cases h; exact h3.createRule
        · split at h
          · cases h
          · cases h; exact h3.symbolNew.createRule
  | type a i ty =>
    simp only [Grammar.parseOneDecl] at h
    split at h
    · cases h
    · split at h
      · cases h
      · cases h; exact hu.symbolNew.modify (fun _ => rfl)
  | assoc a ids => exact Grammar.Unnum.declAssoc (g := { g with prec := g.prec + 1 }) hu h
  | startSymbol i =>
    simp only [Grammar.parseOneDecl] at h
    split at h
    · cases h
    · split at h
      · cases h
      · cases h; exact hu.symbolNew (n := .ident i) (k := .nonTerminal)
  | wildcard i =>
    simp only [Grammar.parseOneDecl] at h
    split at h
    · cases h
    · split at h
      · cases h
      · cases h; exact hu.symbolNew (n := .ident i) (k := .terminal)
  | fallback f ids =>
    simp only [Grammar.parseOneDecl] at h
    split at h
    · cases h
    · rename_i h1
      split at h
      · cases h
      · split at h
        · cases h
        · exact (hu.declTokens h1).symbolNew.setFallbacks h
  | tokenClass t ids =>
    simp only [Grammar.parseOneDecl] at h
    split at h
    · cases h
    · exact hu.symbolNew.declClass h
  | «module» => cases h; exact hu
  | «include» => cases h; exact hu
  | verbose => cases h; exact hu
  | syntaxError => simp only [Grammar.parseOneDecl] at h; split at h <;> cases h; exact hu
  | parseFail => simp only [Grammar.parseOneDecl] at h; split at h <;> cases h; exact hu
  | stackOverflow => simp only [Grammar.parseOneDecl] at h; split at h <;> cases h; exact hu
  | defaultType ty => simp only [Grammar.parseOneDecl] at h; split at h <;> cases h; exact hu
  | extraArgument ty => simp only [Grammar.parseOneDecl] at h; split at h <;> cases h; exact hu
  | error ty => simp only [Grammar.parseOneDecl] at h; split at h <;> cases h; exact hu
  | token it => simp only [Grammar.parseOneDecl] at h; split at h <;> cases h; exact hu
  | parser it => simp only [Grammar.parseOneDecl] at h; split at h <;> cases h; exact hu
  | extraToken ty => simp only [Grammar.parseOneDecl] at h; split at h <;> cases h; exact hu
  | stackSize n ty => simp only [Grammar.parseOneDecl] at h; split at h <;> cases h; exact hu

theorem Grammar.Unnum.parseDecls : ∀ {ds : List Decl} {g g' : Grammar}, g.Unnum → g.parseDecls ds = .ok g' → g'.Unnum := by
  intro ds
  induction ds with
  | nil => intro g g' hu h; cases h; exact hu
  | cons d ds ih =>
    intro g g' hu h
    unfold Grammar.parseDecls at h
    split at h
    · cases h
    · rename_i h1
      exact ih (hu.parseOneDecl h1) h

theorem unnum_parsed {ds : List Decl} {g : Grammar} (h : Grammar.initial.parseDecls ds = .ok g) : g.Unnum :=
  Grammar.Unnum.parseDecls (g := Grammar.initial) (by unfold Grammar.Unnum; decide) h

end Pomelo
