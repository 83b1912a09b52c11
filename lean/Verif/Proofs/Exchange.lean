import Verif.Spec.Exchange
import Verif.Proofs.Reading
import Verif.Proofs.Fallback
/-! # Declarations in another order -/

namespace Pomelo

open Spec

/-- After `ds`, `d` is not refused. -/
def Admits (ds : List Decl) (d : Decl) : Prop := ∀ e, ¬ Refuses ds d e

theorem admitted_append {ds : List Decl} {d : Decl} : Admitted (ds ++ [d]) ↔ Admitted ds ∧ Admits ds d := by
  constructor
  · intro h
    exact ⟨fun l c r hl e => h l c (r ++ [d]) (by rw [hl]; simp) e, fun e => h ds d [] rfl e⟩
  · rintro ⟨h1, h2⟩ l c r hl e
    rcases List.eq_nil_or_concat r with rfl | ⟨r', x, rfl⟩
    · have hl2 : ds = l ∧ d = c := by simpa using List.append_inj' hl rfl
      obtain ⟨rfl, rfl⟩ := hl2
      exact h2 e
    · have hl2 : ds = l ++ c :: r' ∧ d = x := by
        rw [List.concat_eq_append, ← List.cons_append, ← List.append_assoc] at hl
        simpa using List.append_inj' hl rfl
      exact h1 l c r' hl2.1 e

theorem assocFault_none {ds : List Decl} : ∀ {ids seen : List Ident}, assocFault ds seen ids = none ↔
    ids.Nodup ∧ ∀ i ∈ ids, i.isTerminal = true ∧ i ∉ seen ∧ precOf ds i = none := by
  intro ids
  induction ids with
  | nil => intro seen; simp [assocFault]
  | cons i ids ih =>
    intro seen
    unfold assocFault
    split
    · rename_i h1
      simp [h1]
    · rename_i h1
      split
      · rename_i h2
        simp only [reduceCtorEq, false_iff]
        rintro ⟨_, h3⟩
        have h3 := h3 i (by simp)
        rcases h2 with h2 | h2
        · exact h3.2.1 h2
        · rw [h3.2.2] at h2; cases h2
      · rename_i h2
        rw [not_or] at h2
        have h4 : precOf ds i = none := by simpa using h2.2
        have h5 : i.isTerminal = true := by simpa using h1
        rw [ih, List.nodup_cons]
        constructor
        · rintro ⟨h6, h7⟩
          refine ⟨⟨fun hm => (h7 i hm).2.1 (by simp), h6⟩, ?_⟩
          intro j hj
          rcases List.mem_cons.1 hj with rfl | hj
          · exact ⟨h5, h2.1, h4⟩
          · have := h7 j hj
            exact ⟨this.1, fun hh => this.2.1 (List.mem_cons_of_mem _ hh), this.2.2⟩
        · rintro ⟨⟨h6, h7⟩, h8⟩
          refine ⟨h7, fun j hj => ?_⟩
          have := h8 j (List.mem_cons_of_mem _ hj)
          refine ⟨this.1, fun hh => ?_, this.2.2⟩
          rcases List.mem_cons.1 hh with rfl | hh
          · exact h6 hj
          · exact this.2.1 hh

theorem typeOf_unset {ds : List Decl} {i : Ident} : typeOf ds i = none ↔ ∀ d ∈ ds, ∀ a t, d ≠ .type a i (some t) := by
  unfold typeOf
  rw [List.findSome?_eq_none_iff]
  refine forall₂_congr (fun d _ => ?_)
  cases d with
  | type a j t =>
    cases t with
    | none => simp
    | some t => simp
  | _ => simp

theorem precFrom_unset {i : Ident} : ∀ {ds : List Decl} {n : Nat}, precFrom i n ds = none ↔ ∀ d ∈ ds, ∀ a ids, d = .assoc a ids → i ∉ ids := by
  intro ds
  induction ds with
  | nil => intro n; simp [precFrom]
  | cons d ds ih =>
    intro n
    cases d with
    | assoc a ids =>
      unfold precFrom
      split
      · rename_i h
        simp only [reduceCtorEq, false_iff]
        intro hh
        exact hh _ (by simp) a ids rfl h
      · rename_i h
        rw [ih]
        simp only [List.mem_cons, forall_eq_or_imp, Decl.assoc.injEq, and_imp]
        constructor
        · intro h1
          refine ⟨?_, h1⟩
          rintro _ _ rfl rfl; exact h
        · exact fun h1 => h1.2
    | _ => simp [precFrom, ih]

theorem precOf_unset {ds : List Decl} {i : Ident} : precOf ds i = none ↔ ∀ d ∈ ds, ∀ a ids, d = .assoc a ids → i ∉ ids := precFrom_unset

theorem fallbackOf_unset {ds : List Decl} {i : Ident} : fallbackOf ds i = none ↔ ∀ d ∈ ds, ∀ f ids, d = .fallback f ids → i ∉ ids := by
  unfold fallbackOf
  rw [List.findSome?_eq_none_iff]
  refine forall₂_congr (fun d _ => ?_)
  cases d <;> simp

theorem forbids_twice {c d : Decl} (h1 : ∀ a i t, d ≠ .type a i t) (h2 : ∀ a ids, d ≠ .assoc a ids) (h3 : ∀ f ids, d ≠ .fallback f ids) :
    Forbids c d ↔ Twice c d := by
  unfold Forbids
  split
  · exact absurd rfl (h1 _ _ _)
  · exact absurd rfl (h2 _ _)
  · exact absurd rfl (h3 _ _)
  · rfl

theorem admits_type {ds : List Decl} {a : Bool} {i : Ident} {ty : Option Ty} : Admits ds (Decl.type a i ty) ↔ Wellformed (Decl.type a i ty) ∧ (∀ c ∈ ds, ¬ Forbids c (Decl.type a i ty)) ∧
    ∀ f' ids', Decl.type a i ty = .fallback f' ids' → ¬ Meets ds ids' f' ∧ Ends (fallbackOf ds) f' := by
  constructor
  · intro h
    refine ⟨?_, ?_, by simp⟩
    · show i.isTerminal = true ∨ i.isNonTerminal = true ∧ a = false
      cases h1 : i.isTerminal with
      | true => exact .inl rfl
      | false =>
        cases h2 : i.isNonTerminal with
        | false => exact absurd (.typeName h1 h2) (h _)
        | true =>
          cases a with
          | true => exact absurd (.typeAttrs h2) (h _)
          | false => exact .inr ⟨rfl, rfl⟩
    · intro c hc hf
      have hn : i.isTerminal = true ∨ i.isNonTerminal = true ∧ a = false := by
        cases h1 : i.isTerminal with
        | true => exact .inl rfl
        | false =>
          cases h2 : i.isNonTerminal with
          | false => exact absurd (.typeName h1 h2) (h _)
          | true =>
            cases a with
            | true => exact absurd (.typeAttrs h2) (h _)
            | false => exact .inr ⟨rfl, rfl⟩
      have : typeOf ds i = none := by
        cases h3 : typeOf ds i with
        | none => rfl
        | some t => exact absurd (.typeTwice hn (by rw [h3]; rfl)) (h _)
      rw [typeOf_unset] at this
      cases c with
      | type b j t =>
        cases t with
        | none => simp [Forbids, Twice] at hf
        | some t => simp only [Forbids] at hf; subst hf; exact this _ hc b t rfl
      | _ => simp [Forbids, Twice] at hf
  · rintro ⟨h1, h2, _⟩ e he
    cases he with
    | @twice c _ h3 h4 => cases c <;> simp [Twice] at h4
    | typeAttrs h3 =>
      rcases h1 with h1 | h1
      · cases i <;> simp [Ident.isTerminal, Ident.isNonTerminal] at h1 h3
      · cases h1.2
    | typeName h3 h4 =>
      rcases h1 with h1 | h1
      · rw [h3] at h1; cases h1
      · rw [h4] at h1; cases h1.1
    | typeTwice h3 h4 =>
      have : typeOf ds i = none := by
        rw [typeOf_unset]
        rintro c hc b t rfl
        exact h2 _ hc rfl
      rw [this] at h4; cases h4

theorem admits_assoc {ds : List Decl} {a : Assoc} {ids : List Ident} : Admits ds (Decl.assoc a ids) ↔ Wellformed (Decl.assoc a ids) ∧ (∀ c ∈ ds, ¬ Forbids c (Decl.assoc a ids)) ∧
    ∀ f' ids', Decl.assoc a ids = .fallback f' ids' → ¬ Meets ds ids' f' ∧ Ends (fallbackOf ds) f' := by
  have : Admits ds (.assoc a ids) ↔ assocFault ds [] ids = none := by
    constructor
    · intro h
      cases h1 : assocFault ds [] ids with
      | none => rfl
      | some e => exact absurd (.assoc h1) (h e)
    · intro h e he
      cases he with
      | @twice c _ h3 h4 => cases c <;> simp [Twice] at h4
      | assoc h3 => rw [h] at h3; cases h3
  rw [this, assocFault_none]
  constructor
  · rintro ⟨h1, h2⟩
    refine ⟨⟨h1, fun i hi => (h2 i hi).1⟩, ?_, by simp⟩
    intro c hc hf
    cases c with
    | assoc b js =>
      obtain ⟨i, h3, h4⟩ := hf
      exact precOf_unset.1 (h2 i h4).2.2 _ hc b js rfl h3
    | _ => simp [Forbids, Twice] at hf
  · rintro ⟨⟨h1, h2⟩, h3, _⟩
    refine ⟨h1, fun i hi => ⟨h2 i hi, by simp, precOf_unset.2 ?_⟩⟩
    rintro c hc b js rfl hj
    exact h3 _ hc ⟨i, hj, hi⟩

theorem admits_startSymbol {ds : List Decl} {i : Ident} : Admits ds (Decl.startSymbol i) ↔ Wellformed (Decl.startSymbol i) ∧ (∀ c ∈ ds, ¬ Forbids c (Decl.startSymbol i)) ∧
    ∀ f' ids', Decl.startSymbol i = .fallback f' ids' → ¬ Meets ds ids' f' ∧ Ends (fallbackOf ds) f' := by
  constructor
  · intro h
    have h0 : startDirective ds = none := startDirective_none.2 (fun c hc j hj => by subst hj; exact h _ (.twice hc trivial))
    refine ⟨?_, ?_, by simp⟩
    · show i.isNonTerminal = true
      cases h1 : i.isNonTerminal with
      | true => rfl
      | false => exact absurd (.startName h0 h1) (h _)
    · intro c hc hf
      exact h _ (.twice hc ((forbids_twice (by simp) (by simp) (by simp)).1 hf))
  · rintro ⟨h1, h2, _⟩ e he
    cases he with
    | @twice c _ h3 h4 => exact h2 c h3 ((forbids_twice (by simp) (by simp) (by simp)).2 h4)
    | startName h3 h4 => rw [show i.isNonTerminal = true from h1] at h4; cases h4

theorem admits_wildcard {ds : List Decl} {i : Ident} : Admits ds (Decl.wildcard i) ↔ Wellformed (Decl.wildcard i) ∧ (∀ c ∈ ds, ¬ Forbids c (Decl.wildcard i)) ∧
    ∀ f' ids', Decl.wildcard i = .fallback f' ids' → ¬ Meets ds ids' f' ∧ Ends (fallbackOf ds) f' := by
  constructor
  · intro h
    have h0 : wildcardOf ds = none := wildcardOf_none.2 (fun c hc j hj => by subst hj; exact h _ (.twice hc trivial))
    refine ⟨?_, ?_, by simp⟩
    · show i.isTerminal = true
      cases h1 : i.isTerminal with
      | true => rfl
      | false => exact absurd (.wildcardName h0 h1) (h _)
    · intro c hc hf
      exact h _ (.twice hc ((forbids_twice (by simp) (by simp) (by simp)).1 hf))
  · rintro ⟨h1, h2, _⟩ e he
    cases he with
    | @twice c _ h3 h4 => exact h2 c h3 ((forbids_twice (by simp) (by simp) (by simp)).2 h4)
    | wildcardName h3 h4 => rw [show i.isTerminal = true from h1] at h4; cases h4

theorem admits_fallback {ds : List Decl} {f : Ident} {ids : List Ident} : Admits ds (Decl.fallback f ids) ↔ Wellformed (Decl.fallback f ids) ∧ (∀ c ∈ ds, ¬ Forbids c (Decl.fallback f ids)) ∧
    ∀ f' ids', Decl.fallback f ids = .fallback f' ids' → ¬ Meets ds ids' f' ∧ Ends (fallbackOf ds) f' := by
  constructor
  · intro h
    have h1 : ∀ i ∈ f :: ids, i.isTerminal = true := by
      intro i hi
      cases h2 : i.isTerminal with
      | true => rfl
      | false => exact absurd (.fallbackName ⟨i, hi, h2⟩) (h _)
    have h2 : ¬ Meets ds ids f := fun hm => h _ (.fallbackLoop h1 hm)
    have h3 : Ends (fallbackOf ds) f := by
      by_contra hne
      exact h _ (.fallbackForever h1 h2 hne)
    have h4 : ids.Nodup ∧ ∀ i ∈ ids, fallbackOf ds i = none := by
      constructor
      · by_contra hne
        exact h _ (.fallbackTwice h1 h2 h3 (.inl hne))
      · intro i hi
        cases h5 : fallbackOf ds i with
        | none => rfl
        | some x => exact absurd (.fallbackTwice h1 h2 h3 (.inr ⟨i, hi, by rw [h5]; rfl⟩)) (h _)
    refine ⟨⟨h4.1, h1⟩, ?_, ?_⟩
    · intro c hc hf
      cases c with
      | fallback f' js =>
        obtain ⟨i, h5, h6⟩ := hf
        exact fallbackOf_unset.1 (h4.2 i h6) _ hc f' js rfl h5
      | _ => simp [Forbids, Twice] at hf
    · rintro f' ids' heq
      cases heq
      exact ⟨h2, h3⟩
  · rintro ⟨⟨h1, h2⟩, h3, h4⟩ e he
    obtain ⟨h4, h5⟩ := h4 f ids rfl
    cases he with
    | @twice c _ h3 h4 => cases c <;> simp [Twice] at h4
    | fallbackName h6 =>
      obtain ⟨i, h6, h7⟩ := h6
      rw [h2 i h6] at h7; cases h7
    | fallbackLoop _ h6 => exact h4 h6
    | fallbackForever _ _ h6 => exact h6 h5
    | fallbackTwice _ _ _ h6 =>
      rcases h6 with h6 | ⟨i, h6, h7⟩
      · exact h6 h1
      · have : fallbackOf ds i = none := fallbackOf_unset.2 (by
          rintro c hc f' js rfl hj
          exact h3 _ hc ⟨i, hj, h6⟩)
        rw [this] at h7; cases h7

theorem admits_tokenClass {ds : List Decl} {t : Ident} {ids : List Ident} : Admits ds (Decl.tokenClass t ids) ↔ Wellformed (Decl.tokenClass t ids) ∧ (∀ c ∈ ds, ¬ Forbids c (Decl.tokenClass t ids)) ∧
    ∀ f' ids', Decl.tokenClass t ids = .fallback f' ids' → ¬ Meets ds ids' f' ∧ Ends (fallbackOf ds) f' := by
  constructor
  · intro h
    refine ⟨?_, ?_, by simp⟩
    · intro i hi
      cases h2 : i.isTerminal with
      | true => rfl
      | false => exact absurd (.className ⟨i, hi, h2⟩) (h _)
    · intro c hc hf
      cases c <;> simp [Forbids, Twice] at hf
  · rintro ⟨h1, _, _⟩ e he
    cases he with
    | @twice c _ h3 h4 => cases c <;> simp [Twice] at h4
    | className h6 =>
      obtain ⟨i, h6, h7⟩ := h6
      rw [h1 i h6] at h7; cases h7

theorem admits_rule {ds : List Decl} {l : Ident} {rhs : List RhsElem} {cd : Option Nat} {p : Option Ident} : Admits ds (Decl.rule l rhs cd p) ↔ Wellformed (Decl.rule l rhs cd p) ∧ (∀ c ∈ ds, ¬ Forbids c (Decl.rule l rhs cd p)) ∧
    ∀ f' ids', Decl.rule l rhs cd p = .fallback f' ids' → ¬ Meets ds ids' f' ∧ Ends (fallbackOf ds) f' := by
  constructor
  · intro h
    have h1 : l.isNonTerminal = true := by
      cases h1 : l.isNonTerminal with
      | true => rfl
      | false => exact absurd (.ruleLhs h1) (h _)
    have h2 : rhs.findSome? elemFault = none := by
      cases h2 : rhs.findSome? elemFault with
      | none => rfl
      | some e => exact absurd (.ruleElem h1 h2) (h _)
    refine ⟨⟨h1, h2, ?_⟩, ?_, by simp⟩
    · rintro i rfl
      cases h3 : i.isTerminal with
      | true => rfl
      | false => exact absurd (.rulePrec h1 h2 h3) (h _)
    · intro c hc hf
      cases c <;> simp [Forbids, Twice] at hf
  · rintro ⟨⟨h1, h2, h3⟩, _, _⟩ e he
    cases he with
    | @twice c _ h3 h4 => cases c <;> simp [Twice] at h4
    | ruleLhs h4 => rw [h1] at h4; cases h4
    | ruleElem _ h4 => rw [h2] at h4; cases h4
    | rulePrec _ _ h4 => rw [h3 _ rfl] at h4; cases h4

/-- What is admitted after `ds` -/
theorem admits_iff {ds : List Decl} {d : Decl} : Admits ds d ↔ Wellformed d ∧ (∀ c ∈ ds, ¬ Forbids c d) ∧
    ∀ f ids, d = .fallback f ids → ¬ Meets ds ids f ∧ Ends (fallbackOf ds) f := by
  have single : ∀ d, (∀ e, Refuses ds d e → ∃ c ∈ ds, Twice c d) → Wellformed d → (∀ c, Forbids c d ↔ Twice c d) → (∀ f ids, d ≠ .fallback f ids) →
      (Admits ds d ↔ Wellformed d ∧ (∀ c ∈ ds, ¬ Forbids c d) ∧ ∀ f ids, d = .fallback f ids → ¬ Meets ds ids f ∧ Ends (fallbackOf ds) f) := by
    intro d h1 h2 h3 h4
    constructor
    · intro h
      refine ⟨h2, fun c hc hf => h _ (.twice hc ((h3 c).1 hf)), fun f ids hd => absurd hd (h4 f ids)⟩
    · rintro ⟨_, h, _⟩ e he
      obtain ⟨c, hc, hf⟩ := h1 e he
      exact h c hc ((h3 c).2 hf)
  cases d with
  | type => exact admits_type
  | assoc => exact admits_assoc
  | startSymbol => exact admits_startSymbol
  | wildcard => exact admits_wildcard
  | fallback => exact admits_fallback
  | tokenClass => exact admits_tokenClass
  | rule => exact admits_rule
  | _ =>
    refine single _ (fun e he => ?_) trivial (fun c => ?_) (by simp)
    · cases he with
      | twice h3 h4 => exact ⟨_, h3, h4⟩
    · exact forbids_twice (by simp) (by simp) (by simp)

theorem fallbackOf_old {ds : List Decl} {d : Decl} {i j : Ident} (h : fallbackOf ds i = some j) : fallbackOf (ds ++ [d]) i = some j := by
  unfold fallbackOf at h ⊢
  rw [List.findSome?_append, h]; rfl

/-- Without a token that is its own fallback, the order does not matter. -/
theorem admitted_orderly {ds : List Decl} (hn : noSelfFallback ds = true) : Admitted ds ↔ Orderly ds := by
  induction ds using List.reverseRecOn with
  | nil =>
    refine ⟨fun _ => ⟨by simp, by simp, fun i => .stop rfl⟩, fun _ l d r h => ?_⟩
    simp at h
  | append_singleton ds d ih =>
    have hn1 : noSelfFallback ds = true ∧ noSelfFallback [d] = true := by
      unfold noSelfFallback at hn ⊢
      rwa [List.all_append, Bool.and_eq_true] at hn
    rw [admitted_append, ih hn1.1, admits_iff]
    constructor
    · rintro ⟨h1, h2, h3, h4⟩
      refine ⟨?_, ?_, ?_⟩
      · intro c hc
        rcases List.mem_append.1 hc with hc | hc
        · exact h1.sound c hc
        · rw [List.mem_singleton.1 hc]; exact h2
      · rw [List.pairwise_append]
        refine ⟨h1.pairs, by simp, ?_⟩
        intro c hc c' hc'
        rw [List.mem_singleton.1 hc']
        exact h3 c hc
      · obtain ⟨g, hg⟩ := admitted_parse.1 (admitted_append.2 ⟨(ih hn1.1).2 h1, admits_iff.2 ⟨h2, h3, h4⟩⟩)
        exact fallbacks_end hg hn
    · intro h
      have hp := h.pairs
      rw [List.pairwise_append] at hp
      refine ⟨⟨fun c hc => h.sound c (List.mem_append_left _ hc), hp.1, ?_⟩, h.sound d (by simp), fun c hc => hp.2.2 c hc d (by simp), ?_⟩
      · intro i
        have := h.ends i
        induction this with
        | @stop a ha =>
          refine .stop ?_
          cases hx : fallbackOf ds a with
          | none => rfl
          | some b => rw [fallbackOf_old hx] at ha; cases ha
        | @next a b ha _ ih =>
          cases hx : fallbackOf ds a with
          | none => exact .stop hx
          | some c =>
            rw [fallbackOf_old hx] at ha; cases ha
            exact .next hx ih
      · rintro f ids rfl
        have ends : ∀ i, Ends (fallbackOf (ds ++ [.fallback f ids])) i → Ends (fallbackOf ds) i := by
          intro i hi
          induction hi with
          | @stop a ha =>
            refine .stop ?_
            cases hx : fallbackOf ds a with
            | none => rfl
            | some b => rw [fallbackOf_old hx] at ha; cases ha
          | @next a b ha _ ih =>
            cases hx : fallbackOf ds a with
            | none => exact .stop hx
            | some c =>
              rw [fallbackOf_old hx] at ha; cases ha
              exact .next hx ih
        refine ⟨?_, ends f (h.ends f)⟩
        intro hm
        -- a cycle through `f`
        have step : ∀ {i}, i ∈ ids → fallbackOf (ds ++ [.fallback f ids]) i = some f := by
          intro i hi
          have : fallbackOf ds i = none := fallbackOf_unset.2 (by
            rintro c hc f' js rfl hj
            exact hp.2.2 _ hc (.fallback f ids) (by simp) ⟨i, hj, hi⟩)
          unfold fallbackOf at this ⊢
          rw [List.findSome?_append, this]
          simp [hi]
        have path : ∀ {i}, Meets ds ids i → Relation.TransGen (fun a b => fallbackOf (ds ++ [.fallback f ids]) a = some b) i f := by
          intro i hi
          induction hi with
          | here h1 h2 => exact .tail (.single (fallbackOf_old h1)) (step h2)
          | later h1 _ ih => exact .head (fallbackOf_old h1) ih
        have hcyc := path hm
        have key : ∀ i, Ends (fallbackOf (ds ++ [.fallback f ids])) i → ¬ Relation.TransGen (fun a b => fallbackOf (ds ++ [.fallback f ids]) a = some b) i i := by
          intro i hi
          induction hi with
          | @stop a ha =>
            intro ht
            obtain ⟨c, h1, _⟩ := Relation.TransGen.head'_iff.1 ht
            rw [ha] at h1; cases h1
          | @next a b ha _ ih =>
            intro ht
            apply ih
            obtain ⟨c, h1, h2⟩ := Relation.TransGen.head'_iff.1 ht
            rw [ha] at h1; cases h1
            exact Relation.TransGen.tail' h2 ha
        exact key f (h.ends f) hcyc

end Pomelo
