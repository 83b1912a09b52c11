import Verif.Spec.Expand
import Verif.Spec.Exchange
import Verif.Spec.Sentence
/-! # Trees of the declarations with compounds and classes written out -/

namespace Pomelo

open Spec

variable {ds : List Decl}

/-! ## What stays -/

theorem findSome_expand {β : Type} (f : Decl → Option β) (hf : ∀ l rhs c p, f (.rule l rhs c p) = none) (xs : List Decl) :
    (xs.flatMap (expandDecl ds)).findSome? f = xs.findSome? f := by
  induction xs with
  | nil => rfl
  | cons d xs ih =>
    rw [List.flatMap_cons, List.findSome?_append, ih, List.findSome?_cons]
    cases d with
    | rule l rhs c p =>
      have : (expandDecl ds (.rule l rhs c p)).findSome? f = none := by
        rw [List.findSome?_eq_none_iff]
        intro x hx
        obtain ⟨r', _, rfl⟩ := List.mem_map.1 hx
        exact hf _ _ _ _
      rw [this, hf]
      rfl
    | _ => simp only [expandDecl, List.findSome?_cons, List.findSome?_nil]; split <;> simp_all

theorem fallbackOf_expand (i : Ident) : fallbackOf (expand ds) i = fallbackOf ds i := findSome_expand _ (fun _ _ _ _ => rfl) ds
theorem wildcardOf_expand : wildcardOf (expand ds) = wildcardOf ds := findSome_expand _ (fun _ _ _ _ => rfl) ds
theorem typeOf_expand (i : Ident) : typeOf (expand ds) i = typeOf ds i := findSome_expand _ (fun _ _ _ _ => rfl) ds
theorem extraTokenOf_expand : extraTokenOf (expand ds) = extraTokenOf ds := findSome_expand _ (fun _ _ _ _ => rfl) ds
theorem defaultTypeOf_expand : defaultTypeOf (expand ds) = defaultTypeOf ds := findSome_expand _ (fun _ _ _ _ => rfl) ds
theorem startDirective_expand : startDirective (expand ds) = startDirective ds := findSome_expand _ (fun _ _ _ _ => rfl) ds

theorem isClass_expand (i : Ident) : isClass (expand ds) i = isClass ds i := by
  rw [Bool.eq_iff_iff]
  unfold isClass expand
  rw [List.any_eq_true, List.any_eq_true]
  constructor
  · rintro ⟨x, hx, h⟩
    obtain ⟨d, hd, hx⟩ := List.mem_flatMap.1 hx
    cases d with
    | rule l rhs c p =>
      obtain ⟨r', _, rfl⟩ := List.mem_map.1 hx
      cases h
    | _ => rw [List.mem_singleton.1 hx] at h; exact ⟨_, hd, h⟩
  · rintro ⟨d, hd, h⟩
    refine ⟨d, List.mem_flatMap.2 ⟨d, hd, ?_⟩, h⟩
    cases d with
    | rule l rhs c p => cases h
    | _ => exact List.mem_singleton.2 rfl

theorem classMembers_expand (i : Ident) : classMembers (expand ds) i = classMembers ds i := by
  unfold classMembers expand
  rw [List.flatMap_assoc]
  congr 1
  funext d
  cases d with
  | rule l rhs c p =>
    simp only [expandDecl, List.flatMap_map]
    simp
  | _ => simp [expandDecl]

theorem rulesOf_expand : rulesOf (expand ds) = (rulesOf ds).flatMap (fun u => (rhsAlts ds u.rhs).map (fun r' => { u with rhs := r' })) := by
  suffices ∀ xs : List Decl, rulesOf (xs.flatMap (expandDecl ds)) = (rulesOf xs).flatMap (fun u => (rhsAlts ds u.rhs).map (fun r' => { u with rhs := r' })) from this ds
  intro xs
  unfold rulesOf
  induction xs with
  | nil => rfl
  | cons d xs ih =>
    rw [List.flatMap_cons, List.filterMap_append, ih]
    cases d with
    | rule l rhs c p =>
      simp only [expandDecl, List.filterMap_cons, List.flatMap_cons]
      congr 1
      rw [List.filterMap_map]
      induction rhsAlts ds rhs with
      | nil => rfl
      | cons a as ih2 => rw [List.filterMap_cons, List.map_cons, ← ih2]; rfl
    | _ => simp [expandDecl]

theorem mem_rulesOf_expand {u' : URule} : u' ∈ rulesOf (expand ds) ↔ ∃ u ∈ rulesOf ds, ∃ r' ∈ rhsAlts ds u.rhs, u' = { u with rhs := r' } := by
  rw [rulesOf_expand]
  simp only [List.mem_flatMap, List.mem_map, eq_comm]

theorem rhsAlts_ne {es : List RhsElem} (h : es.all (fun e => !(elemAlts ds e).isEmpty) = true) : rhsAlts ds es ≠ [] := by
  induction es with
  | nil => simp [rhsAlts]
  | cons e es ih =>
    rw [List.all_cons, Bool.and_eq_true] at h
    have h1 := ih h.2
    obtain ⟨a, ha⟩ := List.exists_mem_of_ne_nil (elemAlts ds e) (by simpa using h.1)
    obtain ⟨b, hb⟩ := List.exists_mem_of_ne_nil _ h1
    exact List.ne_nil_of_mem (List.mem_flatMap.2 ⟨a, ha, List.mem_map.2 ⟨b, hb, rfl⟩⟩)

theorem startOf_expand (h : occupied ds = true) : startOf (expand ds) = startOf ds := by
  unfold startOf
  rw [startDirective_expand, rulesOf_expand]
  congr 1
  unfold occupied at h
  cases hr : rulesOf ds with
  | nil => rfl
  | cons u us =>
    rw [hr, List.all_cons, Bool.and_eq_true] at h
    have := rhsAlts_ne h.1
    rw [List.flatMap_cons]
    cases ha : rhsAlts ds u.rhs with
    | nil => exact absurd ha this
    | cons a as => rfl

theorem takenFor_expand {i j : Ident} : TakenFor (expand ds) i j ↔ TakenFor ds i j := by
  constructor
  · intro h
    induction h with
    | self => exact .self
    | fallback h1 _ ih => rw [fallbackOf_expand] at h1; exact .fallback h1 ih
    | wildcard h1 => rw [wildcardOf_expand] at h1; exact .wildcard h1
  · intro h
    induction h with
    | self => exact .self
    | fallback h1 _ ih => rw [← fallbackOf_expand (ds := ds)] at h1; exact .fallback h1 ih
    | wildcard h1 => rw [← wildcardOf_expand] at h1; exact .wildcard h1

theorem matches_expand {e : RhsElem} {j : Ident} : Matches (expand ds) e j ↔ Matches ds e j := by
  unfold Matches
  split
  · rw [isClass_expand, classMembers_expand]
  · exact Iff.rfl

/-! ## Names as they should be -/

/-- The declarations name tokens and nonterminals where they should, and classes have plain tokens as members. -/
structure TidyNames (ds : List Decl) : Prop where
  lhs : ∀ u ∈ rulesOf ds, u.lhs.isTerminal = false
  class_ : ∀ i, isClass ds i = true → i.isTerminal = true
  members : ∀ i, ∀ m ∈ classMembers ds i, m.isTerminal = true ∧ isClass ds m = false
  compound : ∀ u ∈ rulesOf ds, ∀ e ∈ u.rhs, (∀ i, e.toks ≠ [i]) → ∀ m ∈ e.toks, m.isTerminal = true ∧ isClass ds m = false
  directive : ∀ i, startDirective ds = some i → i.isTerminal = false

theorem TidyNames.start {ds : List Decl} (hc : TidyNames ds) {i : Ident} (h : startOf ds = some i) : i.isTerminal = false := by
  unfold startOf at h
  rcases Option.or_eq_some_iff.1 h with h | ⟨_, h⟩
  · exact hc.directive i h
  · obtain ⟨u, hu, rfl⟩ := Option.map_eq_some_iff.1 h
    exact hc.lhs u (List.mem_of_head? hu)

theorem TidyNames.of {ds : List Decl} (hw : ∀ d ∈ ds, Wellformed d) (hf : flat ds = true) : TidyNames ds := by
  unfold flat at hf
  rw [Bool.and_eq_true, List.all_eq_true, List.all_eq_true] at hf
  have hrule : ∀ u ∈ rulesOf ds, Wellformed (.rule u.lhs u.rhs u.code u.prec) := by
    intro u hu
    obtain ⟨d, hd, he⟩ := List.mem_filterMap.1 hu
    cases d with
    | rule l rhs c p => cases he; exact hw _ hd
    | _ => cases he
  refine ⟨?_, ?_, ?_, ?_, ?_⟩
  · intro u hu
    have := (hrule u hu).1
    cases hl : u.lhs <;> rw [hl] at this <;> simp_all [Ident.isTerminal, Ident.isNonTerminal]
  · intro i hi
    obtain ⟨d, hd, he⟩ := List.any_eq_true.1 hi
    cases d with
    | tokenClass t ids =>
      have : t = i := by simpa using he
      subst this
      exact hw _ hd t (by simp)
    | _ => cases he
  · intro i m hm
    obtain ⟨d, hd, he⟩ := List.mem_flatMap.1 hm
    cases d with
    | tokenClass t ids =>
      simp only at he
      split at he
      · have h1 := hf.1 _ hd
        simp only [List.all_eq_true, Bool.not_eq_true'] at h1
        exact ⟨hw _ hd m (List.mem_cons_of_mem _ he), h1 m he⟩
      · cases he
    | _ => cases he
  · intro u hu e he hn m hm
    have h1 := (hrule u hu).2.1
    rw [List.findSome?_eq_none_iff] at h1
    have h1 := h1 e he
    have h2 := List.all_eq_true.1 (hf.2 u hu) e he
    unfold elemFault at h1
    split at h1
    · rename_i i hi; exact absurd hi (hn i)
    · split at h2
      · rename_i i hi; exact absurd hi (hn i)
      · split at h1
        · rename_i h3
          rw [List.all_eq_true] at h3 h2
          exact ⟨h3 m hm, by simpa using h2 m hm⟩
        · cases h1
  · intro i hi
    obtain ⟨d, hd, he⟩ := List.exists_of_findSome?_eq_some hi
    cases d with
    | startSymbol j =>
      cases he
      have := hw _ hd
      unfold Wellformed at this
      cases i <;> simp_all [Ident.isTerminal, Ident.isNonTerminal]
    | _ => cases he

/-- The elements of a list are as they should be. -/
def CleanElems (ds : List Decl) (es : List RhsElem) : Prop :=
  ∀ e ∈ es, (∀ i, e.toks ≠ [i]) → ∀ m ∈ e.toks, m.isTerminal = true ∧ isClass ds m = false

theorem CleanElems.single {ds : List Decl} {i : Ident} {o a : Bool} : CleanElems ds [⟨[i], o, a⟩] := by
  intro e he hn
  rw [List.mem_singleton.1 he] at hn
  exact absurd rfl (hn i)

/-! ## Alternatives of one element -/

theorem elemAlts_single {e : RhsElem} {i : Ident} (h : e.toks = [i]) (hc : isClass ds i = false) : elemAlts ds e = [[e]] := by
  unfold elemAlts
  rw [h]
  simp [hc]

theorem mem_rhsAlts_cons {e : RhsElem} {es es' : List RhsElem} : es' ∈ rhsAlts ds (e :: es) ↔ ∃ a ∈ elemAlts ds e, ∃ b ∈ rhsAlts ds es, es' = a ++ b := by
  simp only [rhsAlts, List.mem_flatMap, List.mem_map, eq_comm]

/-- A token in place of a compound or a class -/
theorem elemAlts_match {e : RhsElem} {j : Ident} (hc : TidyNames ds) (he : CleanElems ds [e]) (h : Matches ds e j) :
    ∃ x, [x] ∈ elemAlts ds e ∧ Matches ds x j ∧ x.alias = e.alias := by
  unfold Matches at h
  split at h
  · rename_i i hi
    obtain ⟨h1, h2⟩ := h
    split at h2
    · rename_i hcl
      refine ⟨⟨[j], false, e.alias⟩, ?_, ?_, rfl⟩
      · unfold elemAlts
        rw [hi]
        simp only [hcl, if_true]
        exact List.mem_append_right _ (List.mem_map.2 ⟨j, h2, rfl⟩)
      · refine ⟨rfl, ?_⟩
        rw [(hc.members i j h2).2]
        simp
    · rename_i hcl
      refine ⟨e, ?_, ?_, rfl⟩
      · rw [elemAlts_single hi (by simpa using hcl)]; simp
      · unfold Matches
        rw [hi]
        exact ⟨h1, by rw [if_neg hcl]; exact h2⟩
  · rename_i hi
    have hi' : ∀ i, e.toks ≠ [i] := fun i h => hi i h
    refine ⟨⟨[j], false, e.alias⟩, ?_, ?_, rfl⟩
    · unfold elemAlts
      split
      · rename_i i h; exact absurd h (hi' i)
      · exact List.mem_map.2 ⟨j, h, rfl⟩
    · refine ⟨rfl, ?_⟩
      rw [(he e (by simp) hi' j h).2]
      simp

/-- Where an alternative comes from -/
theorem elemAlts_cases {e : RhsElem} {a : List RhsElem} (hc : TidyNames ds) (he : CleanElems ds [e]) (h : a ∈ elemAlts ds e) :
    (a = [e] ∧ ∃ i, e.toks = [i] ∧ isClass ds i = false) ∨
    (a = [] ∧ ∃ i, e.toks = [i] ∧ e.optional = true) ∨
    (∃ m, a = [⟨[m], false, e.alias⟩] ∧ m.isTerminal = true ∧ isClass ds m = false ∧
      ((∃ i, e.toks = [i] ∧ isClass ds i = true ∧ m ∈ classMembers ds i) ∨ ((∀ i, e.toks ≠ [i]) ∧ m ∈ e.toks))) := by
  unfold elemAlts at h
  split at h
  · rename_i i hi
    split at h
    · rename_i hcl
      rcases List.mem_append.1 h with h | h
      · split at h
        · rename_i ho
          exact .inr (.inl ⟨List.mem_singleton.1 h, i, hi, ho⟩)
        · cases h
      · obtain ⟨m, hm, rfl⟩ := List.mem_map.1 h
        exact .inr (.inr ⟨m, rfl, (hc.members i m hm).1, (hc.members i m hm).2, .inl ⟨i, hi, hcl, hm⟩⟩)
    · rename_i hcl
      exact .inl ⟨List.mem_singleton.1 h, i, hi, by simpa using hcl⟩
  · rename_i hi
    have hi' : ∀ i, e.toks ≠ [i] := fun i h => hi i h
    obtain ⟨m, hm, rfl⟩ := List.mem_map.1 h
    have := he e (by simp) hi' m hm
    exact .inr (.inr ⟨m, rfl, this.1, this.2, .inr ⟨hi', hm⟩⟩)

/-! ## Trees -/

section
variable {V : Type} {names : List SymName}

/-- Not a class with `?` -/
def Keep (ds : List Decl) (e : RhsElem) : Prop := single ds e = true ∨ ¬ (e.optional = true ∧ ∃ i, e.toks = [i])

theorem keep_of {u : URule} (hb : blocksKept ds = true) (hu : u ∈ rulesOf ds) : ∀ e ∈ u.rhs, Keep ds e := by
  intro e he
  have := List.all_eq_true.1 (List.all_eq_true.1 hb u hu) e he
  rw [Bool.or_eq_true] at this
  refine this.imp id ?_
  rintro h ⟨h1, i, h2⟩
  simp [h1, h2] at h

theorem alts_alias {es : List RhsElem} (hc : TidyNames ds) : ∀ {es' : List RhsElem}, es' ∈ rhsAlts ds es → CleanElems ds es → (∀ e ∈ es, Keep ds e) →
    es'.map (·.alias) = es.map (·.alias) := by
  induction es with
  | nil => intro es' h _ _; rw [List.mem_singleton.1 h]
  | cons e es ih =>
    intro es' h hes hk
    obtain ⟨a, ha, b, hb, rfl⟩ := mem_rhsAlts_cons.1 h
    rw [List.map_append, ih hb (fun x hx => hes x (List.mem_cons_of_mem _ hx)) (fun x hx => hk x (List.mem_cons_of_mem _ hx)), List.map_cons]
    rcases elemAlts_cases hc (fun x hx => hes x (by rw [List.mem_singleton.1 hx]; simp)) ha with ⟨rfl, _⟩ | ⟨rfl, i, h1, h2⟩ | ⟨m, rfl, _⟩
    · rfl
    · rcases hk e (by simp) with h3 | h3
      · exfalso
        unfold single at h3
        rw [h1] at h3
        have : isClass ds i = false := by simpa using h3
        rw [elemAlts_single h1 this] at ha
        simp at ha
      · exact absurd ⟨h2, i, h1⟩ h3
    · rfl

theorem alts_single {es : List RhsElem} : ∀ {es' : List RhsElem}, es' ∈ rhsAlts ds es → (∀ e ∈ es, single ds e = true) → es' = es := by
  induction es with
  | nil => intro es' h _; rw [List.mem_singleton.1 h]
  | cons e es ih =>
    intro es' h hk
    obtain ⟨a, ha, b, hb, rfl⟩ := mem_rhsAlts_cons.1 h
    rw [ih hb (fun x hx => hk x (List.mem_cons_of_mem _ hx))]
    have := hk e (by simp)
    unfold single at this
    split at this
    · rename_i i hi
      rw [elemAlts_single hi (by simpa using this)] at ha
      rw [List.mem_singleton.1 ha]; rfl
    · cases this

theorem typedSym_expand (i : Ident) : typedSym (expand ds) i = typedSym ds i := by
  unfold typedSym
  rw [typeOf_expand, isClass_expand, extraTokenOf_expand]

theorem typedElem_expand (e : RhsElem) : typedElem (expand ds) e = typedElem ds e := by
  unfold typedElem
  split
  · rw [typedSym_expand]
  · rfl

theorem ruleValue_expand {X E : Type} {u : URule} {r' : List RhsElem} (hc : TidyNames ds) (hb : blocksKept ds = true) (hu : u ∈ rulesOf ds)
    (hr : r' ∈ rhsAlts ds u.rhs) (sem : Sem V X E) (vs : List V) (x : X) :
    ruleValue (expand ds) sem { u with rhs := r' } vs x = ruleValue ds sem u vs x := by
  unfold ruleValue
  simp only
  cases hcode : u.code with
  | some n => simp only; rw [alts_alias hc hr (hc.compound u hu) (keep_of hb hu)]
  | none =>
    have : r' = u.rhs := by
      apply alts_single hr
      intro e he
      have := List.all_eq_true.1 (List.all_eq_true.1 hb u hu) e he
      rw [hcode] at this
      simpa using this
    rw [this, typedSym_expand]
    simp only [typedElem_expand]
    rw [show (typedElem (expand ds)) = typedElem ds from funext typedElem_expand]

/-- The two lists of trees have the same tokens, and if rules keep their blocks the same values. -/
def Alike (ds : List Decl) (es : List RhsElem) (ts ts' : List (Tree V)) : Prop :=
  Tree.yields ts' = Tree.yields ts ∧ (blocksKept ds = true → (∀ e ∈ es, Keep ds e) → ∀ (X E : Type) (sem : Sem V X E) (x : X),
    Tree.values (expand ds) sem ts' x = Tree.values ds sem ts x)

theorem fits_alias {D : List Decl} {t : Tree V} {i : Ident} {a b : Bool} (h : Fits D names [t] [⟨[i], false, a⟩]) : Fits D names [t] [⟨[i], false, b⟩] := by
  cases h with
  | tok h1 h2 h3 h4 => exact .tok h1 h2 h3 h4
  | rule h1 h2 h3 => exact .rule h1 h2 h3

theorem fits_one {D : List Decl} {ts : List (Tree V)} {e : RhsElem} (h : Fits D names ts [e]) : ∃ t, ts = [t] := by
  cases h with
  | tok _ _ _ h => cases h; exact ⟨_, rfl⟩
  | absent h => cases h; exact ⟨_, rfl⟩
  | present _ h => cases h; exact ⟨_, rfl⟩
  | rule _ _ h => cases h; exact ⟨_, rfl⟩

theorem alike_cons {e : RhsElem} {es : List RhsElem} {t t' : Tree V} {ts ts' : List (Tree V)} (h1 : t'.yield = t.yield)
    (h2 : blocksKept ds = true → Keep ds e → ∀ (X E : Type) (sem : Sem V X E) (x : X), t'.value (expand ds) sem x = t.value ds sem x)
    (h : Alike ds es ts ts') : Alike ds (e :: es) (t :: ts) (t' :: ts') := by
  refine ⟨by rw [Tree.yields, Tree.yields, h1, h.1], ?_⟩
  intro hb hk X E sem x
  rw [Tree.values, Tree.values, h2 hb (hk e (by simp))]
  have h3 := h.2 hb (fun e he => hk e (List.mem_cons_of_mem _ he)) X E sem
  cases t.value ds sem x with
  | mk r x =>
    cases r with
    | error e => rfl
    | ok v => simp only; rw [h3]

theorem alike_one {e : RhsElem} {t t' : Tree V} (h : Alike ds [e] [t] [t']) : t'.yield = t.yield ∧
    (blocksKept ds = true → Keep ds e → ∀ (X E : Type) (sem : Sem V X E) (x : X), t'.value (expand ds) sem x = t.value ds sem x) := by
  constructor
  · have := h.1
    simpa [Tree.yields] using this
  · intro hb hk X E sem x
    have := h.2 hb (by intro e he; rw [List.mem_singleton.1 he]; exact hk) X E sem x
    rw [Tree.values, Tree.values] at this
    revert this
    rcases t'.value (expand ds) sem x with ⟨r', x'⟩
    rcases t.value ds sem x with ⟨r, x''⟩
    cases r <;> cases r' <;> simp [Tree.values]

theorem keep_single {e : RhsElem} {i : Ident} (h : e.toks = [i]) (hc : isClass ds i = false) : Keep ds e := by
  left
  unfold single
  rw [h]; simpa using hc

theorem value_present {X E : Type} {D D' : List Decl} {sem : Sem V X E} {x : X} {t t' : Tree V} (h : t'.value D' sem x = t.value D sem x) :
    (Tree.present t').value D' sem x = (Tree.present t).value D sem x := by
  rw [Tree.value, Tree.value, h]

theorem value_rule {X E : Type} {sem : Sem V X E} {x : X} {n n' : Nat} {u : URule} {r' : List RhsElem} {ts ts' : List (Tree V)} (hc : TidyNames ds)
    (hb : blocksKept ds = true) (hn : (rulesOf ds)[n]? = some u) (hr : r' ∈ rhsAlts ds u.rhs) (hn' : (rulesOf (expand ds))[n']? = some { u with rhs := r' })
    (h : Alike ds u.rhs ts ts') : (Tree.rule n' ts').value (expand ds) sem x = (Tree.rule n ts).value ds sem x := by
  have hu := List.mem_of_getElem? hn
  rw [Tree.value, Tree.value, h.2 hb (keep_of hb hu) X E sem x]
  cases Tree.values ds sem ts x with
  | mk r x =>
    cases r with
    | error e => rfl
    | ok vs =>
      simp only
      rw [hn, hn']
      exact ruleValue_expand hc hb hu hr sem vs x

theorem fits_expand (hc : TidyNames ds) {ts : List (Tree V)} {es : List RhsElem} (h : Fits ds names ts es) (hes : CleanElems ds es) :
    ∃ es' ∈ rhsAlts ds es, ∃ ts', Fits (expand ds) names ts' es' ∧ Alike ds es ts ts' := by
  induction h with
  | nil => exact ⟨[], by simp [rhsAlts], [], .nil, rfl, fun _ _ _ _ _ _ => rfl⟩
  | @tok k i j e ts es h1 h2 h3 _ ih =>
    obtain ⟨es', a1, ts', a2, a3⟩ := ih (fun x hx => hes x (List.mem_cons_of_mem _ hx))
    obtain ⟨x, b1, b2, b3⟩ := elemAlts_match hc (fun x hx => hes x (by rw [List.mem_singleton.1 hx]; simp)) h3
    exact ⟨x :: es', mem_rhsAlts_cons.2 ⟨[x], b1, es', a1, rfl⟩, .tok k :: ts', .tok h1 (takenFor_expand.2 h2) (matches_expand.2 b2) a2,
      alike_cons rfl (fun _ _ _ _ _ _ => rfl) a3⟩
  | @absent i al ts es _ ih =>
    obtain ⟨es', a1, ts', a2, a3⟩ := ih (fun x hx => hes x (List.mem_cons_of_mem _ hx))
    cases hcl : isClass ds i with
    | true =>
      refine ⟨es', mem_rhsAlts_cons.2 ⟨[], ?_, es', a1, rfl⟩, ts', a2, ?_⟩
      · simp [elemAlts, hcl]
      · refine ⟨by rw [a3.1]; rfl, fun hb hk => ?_⟩
        rcases hk _ List.mem_cons_self with h | h
        · simp [single, hcl] at h
        · exact absurd ⟨rfl, i, rfl⟩ h
    | false =>
      exact ⟨⟨[i], true, al⟩ :: es', mem_rhsAlts_cons.2 ⟨[_], by rw [elemAlts_single rfl hcl]; simp, es', a1, rfl⟩, .absent :: ts', .absent a2,
        alike_cons rfl (fun _ _ _ _ _ _ => rfl) a3⟩
  | @present t i al ts es _ _ ih1 ih2 =>
    obtain ⟨es', a1, ts', a2, a3⟩ := ih2 (fun x hx => hes x (List.mem_cons_of_mem _ hx))
    obtain ⟨fs', b1, us', b2, b3⟩ := ih1 .single
    obtain ⟨c, c1, d, d1, rfl⟩ := mem_rhsAlts_cons.1 b1
    rw [List.mem_singleton.1 d1, List.append_nil] at b2
    cases hcl : isClass ds i with
    | true =>
      have : ∃ m ∈ classMembers ds i, c = [⟨[m], false, false⟩] := by
        simp [elemAlts, hcl] at c1
        obtain ⟨m, hm, rfl⟩ := c1
        exact ⟨m, hm, rfl⟩
      obtain ⟨m, hm, rfl⟩ := this
      obtain ⟨t', rfl⟩ := fits_one b2
      have b2 := fits_alias (b := al) b2
      refine ⟨⟨[m], false, al⟩ :: es', mem_rhsAlts_cons.2 ⟨[_], ?_, es', a1, rfl⟩, t' :: ts', ?_, ?_⟩
      · simp [elemAlts, hcl, hm]
      · cases b2 with
        | tok h1 h2 h3 h4 => exact .tok h1 h2 h3 a2
        | rule h1 h2 h3 => exact .rule h1 h2 a2
      · have := (alike_one b3).1
        refine ⟨by rw [Tree.yields, Tree.yields, this, a3.1]; rfl, fun hb hk => ?_⟩
        rcases hk _ List.mem_cons_self with h | h
        · simp [single, hcl] at h
        · exact absurd ⟨rfl, i, rfl⟩ h
    | false =>
      rw [elemAlts_single rfl hcl] at c1
      rw [List.mem_singleton.1 c1] at b2
      obtain ⟨t', rfl⟩ := fits_one b2
      obtain ⟨e1, e2⟩ := alike_one b3
      exact ⟨⟨[i], true, al⟩ :: es', mem_rhsAlts_cons.2 ⟨[_], by rw [elemAlts_single rfl hcl]; simp, es', a1, rfl⟩, .present t' :: ts', .present b2 a2,
        alike_cons e1 (fun hb _ X E sem x => value_present (e2 hb (keep_single rfl hcl) X E sem x)) a3⟩
  | @rule n u kids al ts es h1 _ _ ih1 ih2 =>
    have hu := List.mem_of_getElem? h1
    obtain ⟨es', a1, ts', a2, a3⟩ := ih2 (fun x hx => hes x (List.mem_cons_of_mem _ hx))
    obtain ⟨r', b1, kids', b2, b3⟩ := ih1 (hc.compound u hu)
    have hcl : isClass ds u.lhs = false := by
      cases hh : isClass ds u.lhs with
      | false => rfl
      | true => have := hc.class_ _ hh; rw [hc.lhs u hu] at this; cases this
    obtain ⟨n', hn'⟩ := List.mem_iff_getElem?.1 (mem_rulesOf_expand.2 ⟨u, hu, r', b1, rfl⟩)
    refine ⟨⟨[u.lhs], false, al⟩ :: es', mem_rhsAlts_cons.2 ⟨[_], by rw [elemAlts_single rfl hcl]; simp, es', a1, rfl⟩, .rule n' kids' :: ts',
      .rule (u := { u with rhs := r' }) hn' b2 a2, alike_cons ?_ ?_ a3⟩
    · rw [Tree.yield, Tree.yield, b3.1]
    · exact fun hb _ X E sem x => value_rule hc hb h1 b1 hn' b3

/-- Elements in place of others, by the first element -/
theorem alts_ind (hc : TidyNames ds) {es' : List RhsElem} {Q : List RhsElem → Prop} (h0 : es' = [] → Q [])
    (habs : ∀ i al es, isClass ds i = true → Q es → Q (⟨[i], true, al⟩ :: es))
    (hcons : ∀ e es x rest, es' = x :: rest → [x] ∈ elemAlts ds e → rest ∈ rhsAlts ds es → CleanElems ds (e :: es) → Q (e :: es)) :
    ∀ es, es' ∈ rhsAlts ds es → CleanElems ds es → Q es := by
  intro es
  induction es with
  | nil => intro h _; exact h0 (List.mem_singleton.1 h)
  | cons e es ih =>
    intro h hes
    obtain ⟨a, ha, b, hb, rfl⟩ := mem_rhsAlts_cons.1 h
    rcases elemAlts_cases hc (fun x hx => hes x (by rw [List.mem_singleton.1 hx]; simp)) ha with ⟨rfl, _⟩ | ⟨rfl, i, h1, h2⟩ | ⟨m, rfl, _⟩
    · exact hcons e es _ _ rfl ha hb hes
    · have hcl : isClass ds i = true := by
        cases hh : isClass ds i with
        | true => rfl
        | false => rw [elemAlts_single h1 hh] at ha; simp at ha
      have := habs i e.alias es hcl (ih hb (fun x hx => hes x (List.mem_cons_of_mem _ hx)))
      obtain ⟨tk, o, al⟩ := e
      simp only at h1 h2
      subst h1 h2
      exact this
    · exact hcons e es _ _ rfl ha hb hes

theorem fits_unexpand (hc : TidyNames ds) {ts' : List (Tree V)} {es' : List RhsElem} (h : Fits (expand ds) names ts' es') :
    ∀ es, es' ∈ rhsAlts ds es → CleanElems ds es → ∃ ts, Fits ds names ts es ∧ Alike ds es ts ts' := by
  have habs : ∀ (ts' : List (Tree V)) (i : Ident) (al : Bool) (es : List RhsElem), isClass ds i = true → (∃ ts, Fits ds names ts es ∧ Alike ds es ts ts') →
      ∃ ts, Fits ds names ts (⟨[i], true, al⟩ :: es) ∧ Alike ds (⟨[i], true, al⟩ :: es) ts ts' := by
    rintro ts' i al es hcl ⟨ts, h1, h2⟩
    refine ⟨.absent :: ts, .absent h1, by rw [h2.1]; rfl, fun hb hk => ?_⟩
    rcases hk _ List.mem_cons_self with h | h
    · simp [single, hcl] at h
    · exact absurd ⟨rfl, i, rfl⟩ h
  induction h with
  | nil =>
    exact alts_ind hc (fun _ => ⟨[], .nil, rfl, fun _ _ _ _ _ _ => rfl⟩) (habs _) (fun e es x rest hh => by cases hh)
  | @tok k i j e' ts' es0 h1 h2 h3 _ ih =>
    refine alts_ind hc (fun hh => by cases hh) (habs _) ?_
    rintro e es x rest hh hx hr hes
    cases hh
    obtain ⟨ts, a1, a2⟩ := ih es hr (fun x hx => hes x (List.mem_cons_of_mem _ hx))
    rw [takenFor_expand] at h2
    rw [matches_expand] at h3
    rcases elemAlts_cases hc (fun x hx => hes x (by rw [List.mem_singleton.1 hx]; simp)) hx with ⟨he, _⟩ | ⟨he, _⟩ | ⟨m, he, b1, b2, b3⟩
    · cases he
      exact ⟨.tok k :: ts, .tok h1 h2 h3 a1, alike_cons rfl (fun _ _ _ _ _ _ => rfl) a2⟩
    · cases he
    · cases he
      have hj : j = m := by
        have := h3.2
        rw [b2] at this
        simpa using this
      subst hj
      rcases b3 with ⟨c, c1, c2, c3⟩ | ⟨c1, c2⟩
      · cases ho : e.optional with
        | false =>
          refine ⟨.tok k :: ts, .tok h1 h2 ?_ a1, alike_cons rfl (fun _ _ _ _ _ _ => rfl) a2⟩
          unfold Matches
          rw [c1]
          exact ⟨ho, by rw [if_pos c2]; exact c3⟩
        | true =>
          obtain ⟨tk, o, al⟩ := e
          simp only at c1 ho
          subst c1 ho
          refine ⟨.present (.tok k) :: ts, .present (.tok h1 h2 ⟨rfl, by rw [if_pos c2]; exact c3⟩ .nil) a1, ?_⟩
          refine ⟨by rw [Tree.yields, Tree.yields, a2.1]; rfl, fun hb hk => ?_⟩
          rcases hk _ List.mem_cons_self with h | h
          · simp [single, c2] at h
          · exact absurd ⟨rfl, c, rfl⟩ h
      · refine ⟨.tok k :: ts, .tok h1 h2 ?_ a1, alike_cons rfl (fun _ _ _ _ _ _ => rfl) a2⟩
        unfold Matches
        split
        · rename_i i hi; exact absurd hi (c1 i)
        · exact c2
  | @absent i al ts' es0 _ ih =>
    refine alts_ind hc (fun hh => by cases hh) (habs _) ?_
    rintro e es x rest hh hx hr hes
    cases hh
    obtain ⟨ts, a1, a2⟩ := ih es hr (fun x hx => hes x (List.mem_cons_of_mem _ hx))
    rcases elemAlts_cases hc (fun x hx => hes x (by rw [List.mem_singleton.1 hx]; simp)) hx with ⟨he, _⟩ | ⟨he, _⟩ | ⟨m, he, _⟩
    · cases he
      exact ⟨.absent :: ts, .absent a1, alike_cons rfl (fun _ _ _ _ _ _ => rfl) a2⟩
    · cases he
    · cases he
  | @present t' i al ts' es0 _ _ ih1 ih2 =>
    refine alts_ind hc (fun hh => by cases hh) (habs _) ?_
    rintro e es x rest hh hx hr hes
    cases hh
    obtain ⟨ts, a1, a2⟩ := ih2 es hr (fun x hx => hes x (List.mem_cons_of_mem _ hx))
    rcases elemAlts_cases hc (fun x hx => hes x (by rw [List.mem_singleton.1 hx]; simp)) hx with ⟨he, c, c1, c2⟩ | ⟨he, _⟩ | ⟨m, he, _⟩
    · cases he
      cases c1
      obtain ⟨us, b1, b2⟩ := ih1 [⟨[i], false, false⟩] (mem_rhsAlts_cons.2 ⟨[_], by rw [elemAlts_single rfl c2]; simp, [], by simp [rhsAlts], rfl⟩) .single
      obtain ⟨t, rfl⟩ := fits_one b1
      obtain ⟨e1, e2⟩ := alike_one b2
      exact ⟨.present t :: ts, .present b1 a1, alike_cons e1 (fun hb _ X E sem x => value_present (e2 hb (keep_single rfl c2) X E sem x)) a2⟩
    · cases he
    · cases he
  | @rule n' u' kids' al ts' es0 h1 _ _ ih1 ih2 =>
    refine alts_ind hc (fun hh => by cases hh) (habs _) ?_
    rintro e es x rest hh hx hr hes
    cases hh
    obtain ⟨ts, a1, a2⟩ := ih2 es hr (fun x hx => hes x (List.mem_cons_of_mem _ hx))
    obtain ⟨u, hu, r', b1, rfl⟩ := mem_rulesOf_expand.1 (List.mem_of_getElem? h1)
    obtain ⟨kids, b2, b3⟩ := ih1 u.rhs b1 (hc.compound u hu)
    obtain ⟨n, hn⟩ := List.mem_iff_getElem?.1 hu
    rcases elemAlts_cases hc (fun x hx => hes x (by rw [List.mem_singleton.1 hx]; simp)) hx with ⟨he, _⟩ | ⟨he, _⟩ | ⟨m, he, c1, _⟩
    · cases he
      refine ⟨.rule n kids :: ts, Fits.rule (u := u) hn b2 a1, alike_cons ?_ ?_ a2⟩
      · rw [Tree.yield, Tree.yield, b3.1]
      · exact fun hb _ X E sem x => value_rule hc hb hn b1 h1 b3
    · cases he
    · have : m = u.lhs := by
        simp only [List.cons.injEq, RhsElem.mk.injEq, and_true] at he
        exact he.1.symm
      rw [this, hc.lhs u hu] at c1
      cases c1

/-- A tree of a well-formed grammar, written out -/
theorem isTree_expand (hc : TidyNames ds) (ho : occupied ds = true) {T : Tree V} (h : IsTree ds names T) :
    ∃ T', IsTree (expand ds) names T' ∧ T'.yield = T.yield ∧
      (blocksKept ds = true → ∀ (X E : Type) (sem : Sem V X E) (x : X), T'.value (expand ds) sem x = T.value ds sem x) := by
  obtain ⟨st, h1, h2⟩ := h
  obtain ⟨es', a1, ts', a2, a3⟩ := fits_expand hc h2 .single
  have hcl : isClass ds st = false := by
    cases hh : isClass ds st with
    | false => rfl
    | true =>
      have hT := hc.class_ _ hh
      have := hc.start h1
      rw [hT] at this; cases this
  obtain ⟨c, c1, d, d1, rfl⟩ := mem_rhsAlts_cons.1 a1
  rw [elemAlts_single rfl hcl] at c1
  rw [List.mem_singleton.1 c1, List.mem_singleton.1 d1] at a2
  obtain ⟨T', rfl⟩ := fits_one a2
  obtain ⟨e1, e2⟩ := alike_one a3
  exact ⟨T', ⟨st, by rw [startOf_expand ho]; exact h1, a2⟩, e1, fun hb => e2 hb (keep_single rfl hcl)⟩

/-- A tree of the grammar written out, in the original -/
theorem isTree_unexpand (hc : TidyNames ds) (ho : occupied ds = true) {T' : Tree V} (h : IsTree (expand ds) names T') :
    ∃ T, IsTree ds names T ∧ T'.yield = T.yield ∧
      (blocksKept ds = true → ∀ (X E : Type) (sem : Sem V X E) (x : X), T'.value (expand ds) sem x = T.value ds sem x) := by
  obtain ⟨st, h1, h2⟩ := h
  rw [startOf_expand ho] at h1
  have hcl : isClass ds st = false := by
    cases hh : isClass ds st with
    | false => rfl
    | true =>
      have hT := hc.class_ _ hh
      have := hc.start h1
      rw [hT] at this; cases this
  obtain ⟨ts, a1, a2⟩ := fits_unexpand hc h2 [⟨[st], false, false⟩]
    (mem_rhsAlts_cons.2 ⟨[_], by rw [elemAlts_single rfl hcl]; simp, [], by simp [rhsAlts], rfl⟩) .single
  obtain ⟨T, rfl⟩ := fits_one a1
  obtain ⟨e1, e2⟩ := alike_one a2
  exact ⟨T, ⟨st, h1, a1⟩, e1, fun hb => e2 hb (keep_single rfl hcl)⟩

end

end Pomelo
