import Verif.Proofs.Blocks
import Verif.Props.Safe
/-!
# The types of the blocks
-/

namespace Pomelo

open Spec

variable {ord : List (SymbolId × SymbolId) → List (SymbolId × SymbolId)} {ds : List Decl} {t : Tables}

/-! ## C56: the types at which a block is used -/

/-- C56 in full: text is emitted for every rule; its result has the type of the left side, and so has the variant around it; an element with
a variable has there the type it has by the declarations, and no other element has a variable. -/
def C56_statement : Prop :=
  ∀ (ord : List (SymbolId × SymbolId) → List (SymbolId × SymbolId)), OrdOk ord → ∀ (ds : List Decl) (t : Tables), compile ord ds = .ok t →
    ∃ txt, textOf ord ds = .ok txt ∧ ∀ (n : Nat) (u : URule), (rulesOf ds)[n]? = some u → ∃ x, txt[n]? = some x ∧
      x.result = (plainType ds u.lhs).getD .unit ∧ x.wrapped = x.result ∧ x.vars.length = u.rhs.length ∧
      ∀ (j : Nat) (e : RhsElem) (T : Option Ty), u.rhs[j]? = some e → ElemHas ds e T → x.vars[j]? = some (if hasVar ds u e then some (T.getD .unit) else none)

/-- The whole text of the rules: first the written ones, then two for each optional symbol. -/
theorem C56_text (ho : OrdOk ord) (hc : compile ord ds = .ok t) (hf : flat ds = true) :
    ∃ txt, textOf ord ds = .ok txt ∧ txt.take (rulesOf ds).length = (rulesOf ds).map (writtenText ds) ∧
      ∀ x, x ∈ txt.drop (rulesOf ds).length ↔ ∃ u ∈ rulesOf ds, ∃ e ∈ u.rhs, ∃ i, e.toks = [i] ∧ e.optional = true ∧ x ∈ optionalTexts ds i := by
  obtain ⟨s⟩ := compile_cspec hc
  refine ⟨_, s.textOf, ?_, fun x => ⟨fun h => ?_, ?_⟩⟩
  · apply List.ext_getElem?
    intro n
    rw [List.getElem?_take, List.getElem?_map]
    split
    · rename_i hn
      rw [List.getElem?_eq_getElem hn]
      exact s.written_text ho hf s.textOf (List.getElem?_eq_getElem hn)
    · rename_i hn
      rw [List.getElem?_eq_none (Nat.le_of_not_lt hn)]
      rfl
  · obtain ⟨k, hk⟩ := List.mem_iff_getElem?.1 h
    rw [List.getElem?_drop] at hk
    exact (s.optional_texts ho hf s.textOf).1 _ x (Nat.le_add_right _ _) hk
  · rintro ⟨u, hu, e, he, i, h1, h2, h3⟩
    exact (s.optional_texts ho hf s.textOf).2 u hu e he i h1 h2 x h3

/-- C56: a block is used at the declared types.
Missing: classes of classes (`flat`); there it is false, see `C56_false`. -/
theorem C56_partial (ho : OrdOk ord) (hc : compile ord ds = .ok t) (hf : flat ds = true) :
    ∃ txt, textOf ord ds = .ok txt ∧ ∀ (n : Nat) (u : URule), (rulesOf ds)[n]? = some u → ∃ x, txt[n]? = some x ∧
      x.result = (plainType ds u.lhs).getD .unit ∧ x.wrapped = x.result ∧ x.vars.length = u.rhs.length ∧
      ∀ (j : Nat) (e : RhsElem) (T : Option Ty), u.rhs[j]? = some e → ElemHas ds e T → x.vars[j]? = some (if hasVar ds u e then some (T.getD .unit) else none) := by
  obtain ⟨s⟩ := compile_cspec hc
  refine ⟨_, s.textOf, fun n u hu => ⟨_, s.written_text ho hf s.textOf hu, rfl, rfl, List.length_map .., fun j e T hj hT => ?_⟩⟩
  rw [ElemHas.eq hT (flat_tokens hf (List.mem_of_getElem? hu) (List.mem_of_getElem? hj))]
  show (u.rhs.map _)[j]? = _
  rw [List.getElem?_map, hj]
  rfl

/-- `%token_class A B; %token_class B C;` with a `C` of type `Int`: the variable of `A` has type `()`. -/
theorem C56_false : ¬ C56_statement := by
  intro h
  obtain ⟨txt, h1, h2⟩ := h id OrdOk.id nested _ (Examples.compiles_iff (by decide +kernel))
  obtain ⟨x, h3, _, _, _, h4⟩ := h2 0 ⟨Tests.L 0, [Tests.s (Tests.U 1) true], some 0, none⟩ (by decide)
  have g1 : HasType nested (Tests.U 3) (some (.named 0)) := .plain (by decide)
  have g2 : HasType nested (Tests.U 2) (some (.named 0)) := .first (j := Tests.U 3) (by decide) (by decide) g1
  have g3 : HasType nested (Tests.U 1) (some (.named 0)) := .first (j := Tests.U 2) (by decide) (by decide) g2
  have h5 := h4 0 (Tests.s (Tests.U 1) true) _ rfl (.one g3)
  have h6 : textOf id nested = .ok [⟨[some .unit], some (.user 0), .unit, .unit⟩] := by decide +kernel
  rw [h6] at h1
  cases h1
  cases h3
  revert h5
  decide

/-! ## C57: the blocks that the macro writes -/

/-- C57 in full: the text of no rule has a type error, unless in a block of the author. -/
def C57_statement : Prop :=
  ∀ (ord : List (SymbolId × SymbolId) → List (SymbolId × SymbolId)), OrdOk ord → ∀ (ds : List Decl) (t : Tables), compile ord ds = .ok t →
    ∃ txt, textOf ord ds = .ok txt ∧ ∀ x ∈ txt, typed x = true

/-- The blocks of the macro have the types of their rules exactly if the declarations suit them. -/
theorem C57_exact (ho : OrdOk ord) (hc : compile ord ds = .ok t) (hf : flat ds = true) :
    ∃ txt, textOf ord ds = .ok txt ∧ ((∀ x ∈ txt, typed x = true) ↔ blocksFit ds = true) := by
  obtain ⟨s⟩ := compile_cspec hc
  exact ⟨_, s.textOf, s.all_typed ho hf s.textOf⟩

/-- C57: there is no `%default_type`, no token class has a `?`, and the value that a rule without block passes on has the type
of the left side.  Missing: these three (each is necessary in some way, see `C57_false`; `C57_exact` says which declarations
are suitable), and classes of classes. -/
theorem C57_partial (ho : OrdOk ord) (hc : compile ord ds = .ok t) (hf : flat ds = true) (hd : defaultTypeOf ds = none)
    (hq : ∀ u ∈ rulesOf ds, ∀ e ∈ u.rhs, e.optional = true → e.toks.length = 1 → ∀ i ∈ e.toks, isClass ds i = false)
    (hw : ∀ u ∈ rulesOf ds, u.code = none → typedSym ds u.lhs = true → ∀ e ∈ u.rhs, typedElem ds e = true → elemType ds e = plainType ds u.lhs) :
    ∃ txt, textOf ord ds = .ok txt ∧ ∀ x ∈ txt, typed x = true := by
  obtain ⟨s⟩ := compile_cspec hc
  refine ⟨_, s.textOf, (s.all_typed ho hf s.textOf).2 ?_⟩
  obtain ⟨b⟩ := bridge ho s.decls s.auto
  have hnt : ¬ WildTyped ds := by
    intro hwt
    obtain ⟨w, w1, w2⟩ := (b.toBridge0.wildTyped_iff ho (s.ginv ho)).2 hwt
    rw [s.gen.wildT w w1] at w2; cases w2
  have hp : ∀ i, plainType ds i = ownType ds i := by
    intro i
    unfold plainType
    split
    · rename_i hwi
      cases ho : ownType ds i with
      | none => rfl
      | some T => exact absurd ⟨i, hwi, by rw [ho]; rfl⟩ hnt
    · rw [hd, Option.or_none]
  unfold blocksFit
  rw [List.all_eq_true]
  intro u hu
  rw [Bool.and_eq_true, Bool.or_eq_true]
  constructor
  · cases hcode : u.code with
    | some n => exact .inl rfl
    | none =>
      refine .inr ?_
      cases ht : typedSym ds u.lhs with
      | true =>
        simp only [if_true, List.all_eq_true, List.mem_filter, decide_eq_true_eq, and_imp]
        intro e he hte
        rw [hw u hu hcode ht e he hte]
      | false =>
        simp only [Bool.false_eq_true, if_false, decide_eq_true_eq]
        have : ownType ds u.lhs = none := by
          unfold typedSym at ht
          rw [Bool.or_eq_false_iff] at ht
          have h1 : typeOf ds u.lhs = none := by simpa using ht.1
          unfold ownType
          rw [h1]
          split
          · rename_i h2
            rw [h2, Bool.true_and] at ht
            cases hx : extraTokenOf ds with
            | none => rfl
            | some T => rw [hx] at ht; cases ht.2
          · rfl
        rw [hp, this]; rfl
  · rw [List.all_eq_true]
    intro e he
    split
    · rename_i i al
      rw [decide_eq_true_eq]
      unfold tokenType
      split
      · rename_i hwi
        rw [← hp]
        unfold plainType
        rw [if_pos hwi]
      · rw [hq u hu _ he rfl rfl i (by simp)]
        simp only [Bool.false_eq_true, if_false]
        rw [hp]
    · rfl

namespace Blockex
open Tests (U L s r)
open Examples

/-- A forwarding rule, an optional token and an optional nonterminal, a class with an alias, a rule without block and type -/
def good : List Decl :=
  [ .type false (U 0) (some (.named 0)), .type false (L 0) (some (.named 0)), .type false (U 2) (some (.named 1)), .type false (U 3) (some (.named 1))
  , .tokenClass (U 1) [U 2, U 3]
  , r (L 0) [s (U 0), s (U 4)]
  , r (L 0) [⟨[U 0], true, true⟩, s (U 5), s (U 1) true, ⟨[L 1], true, false⟩] (some 7)
  , r (L 1) [s (U 6)] ]

example : ∃ txt, textOf id good = .ok txt ∧ txt =
    [ ⟨[some (.named 0), none], some .forward, .named 0, .named 0⟩
    , ⟨[some (.option (.named 0)), none, some (.named 1), none], some (.user 7), .named 0, .named 0⟩
    , ⟨[none], none, .unit, .unit⟩
    , ⟨[], some .optNone, .option (.named 0), .option (.named 0)⟩, ⟨[some (.named 0)], some .optSome, .option (.named 0), .option (.named 0)⟩
    , ⟨[], some .optNone, .option .unit, .option .unit⟩, ⟨[some .unit], some .optSome, .option .unit, .option .unit⟩ ] := ⟨_, rfl, by decide +kernel⟩

example : ∃ t txt, compile id good = .ok t ∧ flat good = true ∧ textOf id good = .ok txt ∧ txt.length = 7 ∧ (∀ x ∈ txt, typed x = true) ∧ blocksFit good = true :=
  have hc := compiles_iff (ds := good) (by decide +kernel)
  have ⟨txt, h1, h2⟩ := C57_partial OrdOk.id hc (by decide) (by decide) (by decide) (by decide)
  ⟨_, txt, hc, by decide, h1, by
    have h3 : (match textOf id good with | .ok l => l.length | _ => 0) = 7 := by decide +kernel
    rw [h1] at h3; exact h3, h2, by decide⟩

/-- `%default_type T0; s ::= A;`: `s` has the type `T0`, and no block. -/
def dflt : List Decl := [.defaultType (.named 0), r (L 0) [s (U 0)]]

/-- `%default_type T0; s ::= A?(x) { .. };`: `A?` has the type `Option<()>`, and `Some(_A)` the type `Option<T0>`. -/
def dfltOpt : List Decl := [.defaultType (.named 0), r (L 0) [⟨[U 0], true, true⟩] (some 0)]

/-- `%type A T0; %token_class C A; s ::= C?(x) { .. };`: likewise -/
def classOpt : List Decl := [.type false (U 0) (some (.named 0)), .tokenClass (U 1) [U 0], r (L 0) [⟨[U 1], true, true⟩] (some 0)]

/-- `%type A T0; %type s T1; s ::= A;`: the types of `s` and `A` should be compared (comment at mod.rs:725-730). -/
def mixed : List Decl := [.type false (U 0) (some (.named 0)), .type false (L 0) (some (.named 1)), r (L 0) [s (U 0)]]

/-- Text is emitted, without conflict, and a block of the macro has the wrong type. -/
def illTyped (ds : List Decl) : Bool :=
  compiles ds && match textOf id ds with
    | .ok txt => txt.any fun x => !typed x
    | .error _ => false

theorem illTyped_iff {ds : List Decl} (h : illTyped ds = true) : ∃ t txt, compile id ds = .ok t ∧ textOf id ds = .ok txt ∧ ∃ x ∈ txt, typed x = false := by
  unfold illTyped at h
  rw [Bool.and_eq_true] at h
  have hc := compiles_iff h.1
  cases ht : textOf id ds with
  | error e => rw [ht] at h; cases h.2
  | ok txt =>
    rw [ht] at h
    simp only [List.any_eq_true] at h
    obtain ⟨_, x, hx, hy⟩ := h
    exact ⟨_, txt, hc, rfl, x, hx, by simpa using hy⟩

/-- Each of the conditions of `C57_partial` alone can make the text ill-typed. -/
theorem bad : illTyped dflt = true ∧ illTyped dfltOpt = true ∧ illTyped classOpt = true ∧ illTyped mixed = true := by decide +kernel

example : defaultTypeOf classOpt = none ∧ defaultTypeOf mixed = none ∧ flat classOpt = true ∧ flat dfltOpt = true := by decide

end Blockex

/-- `%default_type` is applied after the blocks have been written (mod.rs:2159), and the type of `i?` is made before the types of the
classes are known (mod.rs:657-663); the types are not compared when a value is forwarded (mod.rs:731-756). -/
theorem C57_false : ¬ C57_statement ∧
    ∀ ds ∈ [Blockex.dflt, Blockex.dfltOpt, Blockex.classOpt, Blockex.mixed], ∃ t txt, compile id ds = .ok t ∧ textOf id ds = .ok txt ∧ ∃ x ∈ txt, typed x = false := by
  have hall : ∀ ds ∈ [Blockex.dflt, Blockex.dfltOpt, Blockex.classOpt, Blockex.mixed], ∃ t txt, compile id ds = .ok t ∧ textOf id ds = .ok txt ∧ ∃ x ∈ txt, typed x = false := by
    obtain ⟨h1, h2, h3, h4⟩ := Blockex.bad
    intro ds hds
    simp only [List.mem_cons, List.not_mem_nil, or_false] at hds
    rcases hds with rfl | rfl | rfl | rfl
    · exact Blockex.illTyped_iff h1
    · exact Blockex.illTyped_iff h2
    · exact Blockex.illTyped_iff h3
    · exact Blockex.illTyped_iff h4
  refine ⟨fun h => ?_, hall⟩
  obtain ⟨t, txt, hc, ht, x, hx, hy⟩ := hall Blockex.dflt (by simp)
  obtain ⟨txt', ht', h'⟩ := h id OrdOk.id _ _ hc
  rw [ht] at ht'
  cases ht'
  rw [h' x hx] at hy
  cases hy

end Pomelo
