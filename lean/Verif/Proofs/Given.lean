import Verif.Proofs.Bridge
import Verif.Proofs.Generate
/-!
# What the directives set once is what the later steps find
-/

namespace Pomelo
open Spec

/-- What is set by directives and not changed later -/
def Grammar.given (g : Grammar) : Option Ty × Option Ty × Option Ty × Option Ty × Option Skeleton × Option Skeleton × Option Ty × Nat :=
  (g.defaultType, g.extraToken, g.arg, g.errType, g.tokenEnum, g.parserStruct, g.stackType, g.stackLimit)

theorem given_modifySym (g : Grammar) (s : SymbolId) (f : Symbol → Symbol) : (g.modifySym s f).given = g.given := rfl

theorem given_assignIndices : ∀ (l : List SymbolId) (g : Grammar) (i : Nat), (g.assignIndices i l).given = g.given := by
  intro l
  induction l with
  | nil => intro g i; rfl
  | cons s l ih =>
    intro g i
    unfold Grammar.assignIndices
    simp only
    split <;> rw [ih] <;> rfl

theorem given_foldl {α : Type} (f : Grammar → α → Grammar) (hf : ∀ g a, (f g a).given = g.given) : ∀ (l : List α) (g : Grammar), (l.foldl f g).given = g.given := by
  intro l
  induction l with
  | nil => intro g; rfl
  | cons s l ih => intro g; rw [List.foldl_cons, ih, hf]

theorem given_prepare (g : Grammar) (ord) : (g.prepare ord).given = g.given := by
  rw [prepare_eq]
  unfold Grammar.addOptionals
  show (List.foldl Grammar.addOptional _ _).given = _
  rw [given_foldl Grammar.addOptional (fun g a => rfl)]
  have h1 : ∀ g : Grammar, g.addExtraToken.given = g.given := by
    intro g
    unfold Grammar.addExtraToken
    split
    · rfl
    · exact given_foldl _ (by intro g a; rfl) _ _
  rw [h1]
  unfold Grammar.indexed
  exact given_assignIndices _ _ _

theorem given_automaton {ord} {g0 g : Grammar} {sts : List LState} (h : g0.automaton ord = .ok (g, sts)) : g.given = g0.given := by
  obtain ⟨s⟩ := automaton_spec h
  have h1 : s.gN.given = g0.given := by
    obtain ⟨_, h2, _⟩ := normalizeRules_spec s.norm
    rw [h2]
    exact given_prepare g0 ord
  have h2 : s.gF.given = s.gN.given := by
    rw [(findFirstSets_only s.first).1]; rfl
  rw [s.marked, ← h1, ← h2]
  unfold Grammar.markStart
  split <;> rfl

theorem given_assignTypes : ∀ {ss : List SymbolId} {g g' : Grammar} {ts ts' : List Ty}, g.assignTypes ts ss = .ok (g', ts') → g'.given = g.given := by
  intro ss
  induction ss with
  | nil => intro g g' ts ts' h; cases h; rfl
  | cons s ss ih =>
    intro g g' ts ts' h
    unfold Grammar.assignTypes at h
    split at h
    · exact ih h
    · split at h
      · cases h
      · rw [ih h]; rfl
      · rw [ih h]; rfl

theorem glob_given : ∀ (ds : List Decl) (a : Glob) (o : Ident → Attrs), preAll a o ds →
    (ds.foldl Glob.step a).tokenEnum = a.tokenEnum.or (tokenItemOf ds) ∧
    (ds.foldl Glob.step a).parserStruct = a.parserStruct.or (parserItemOf ds) ∧
    (ds.foldl Glob.step a).arg = a.arg.or (argOf ds) ∧
    (ds.foldl Glob.step a).errType = a.errType.or (errTypeOf ds) := by
  intro ds
  induction ds with
  | nil => intro a o _; simp [tokenItemOf, parserItemOf, argOf, errTypeOf]
  | cons d ds ih =>
    intro a o h
    obtain ⟨h1, h2, h3⟩ := h
    have := ih _ _ h3
    rw [List.foldl_cons, this.1, this.2.1, this.2.2.1, this.2.2.2]
    unfold tokenItemOf parserItemOf argOf errTypeOf
    simp only [List.findSome?_cons]
    cases d
    case token i =>
      have : a.tokenEnum = none := h1
      simp [Glob.step, this]
    case parser i =>
      have : a.parserStruct = none := h1
      simp [Glob.step, this]
    case extraArgument i =>
      have : a.arg = none := h1
      simp [Glob.step, this]
    case error i =>
      have : a.errType = none := h1
      simp [Glob.step, this]
    all_goals exact ⟨rfl, rfl, rfl, rfl⟩

/-- The directives that are used once, as the automaton's grammar has them -/
structure Given (g : Grammar) (ds : List Decl) : Prop where
  defaultType : g.defaultType = defaultTypeOf ds
  extraToken : g.extraToken = extraTokenOf ds
  tokenEnum : g.tokenEnum = tokenItemOf ds
  parserStruct : g.parserStruct = parserItemOf ds
  arg : g.arg = argOf ds
  errType : g.errType = errTypeOf ds

theorem given_decls {ds : List Decl} {g0 : Grammar} (h0 : newFromDecls ds = .ok g0) : Given g0 ds := by
  obtain ⟨gD, hp, hd, hrec, hne, rfl⟩ := newFromDecls_spec h0
  have hdecl := declared hp
  obtain ⟨h1, h2, _⟩ := preAll_parseDecls DInv.initial hp
  have h4 := glob_given ds _ _ h1
  rw [← h2] at h4
  exact ⟨hdecl.defaultType, hdecl.extraToken, h4.1, h4.2.1, h4.2.2.1, h4.2.2.2⟩

theorem Given.same {g g' : Grammar} {ds : List Decl} (h : Given g ds) (e : g'.given = g.given) : Given g' ds := by
  simp only [Grammar.given, Prod.mk.injEq] at e
  obtain ⟨e1, e2, e3, e4, e5, e6, _, _⟩ := e
  exact ⟨e1.trans h.defaultType, e2.trans h.extraToken, e5.trans h.tokenEnum, e6.trans h.parserStruct, e3.trans h.arg, e4.trans h.errType⟩

theorem given {ord} {ds : List Decl} {g0 g : Grammar} {sts : List LState} (h0 : newFromDecls ds = .ok g0) (h : g0.automaton ord = .ok (g, sts)) : Given g ds :=
  (given_decls h0).same (given_automaton h)

theorem CSpec.given {ord} {ds : List Decl} {t : Tables} (s : CSpec ord ds t) : Given s.g ds := Pomelo.given s.decls s.auto
theorem CSpec.givenT {ord} {ds : List Decl} {t : Tables} (s : CSpec ord ds t) : Given s.gen.gT ds := s.given.same (given_assignTypes s.gen.assign)

end Pomelo
