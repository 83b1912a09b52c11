import Verif.Props.Accept
import Verif.Props.Padded
/-!
# C66: tokens that nobody uses, declared in front

With C64: every grammar that the macro accepts becomes one whose parser is right if enough unused tokens are declared before it, and
declaring them never makes the macro refuse the grammar.
-/

namespace Pomelo

open Spec

variable {ord ord' : List (SymbolId × SymbolId) → List (SymbolId × SymbolId)} {ds : List Decl} {t t' : Tables} {V X E : Type} {ids : List Ident}

/-! ## What the declarations say is the same -/

theorem front_cons (i : Ident) (ids : List Ident) (ds : List Decl) : front (i :: ids) ++ ds = .type false i none :: (front ids ++ ds) := rfl

theorem front_same {α : Type} {f : List Decl → α} (h : ∀ i ds, f (.type false i none :: ds) = f ds) : f (front ids ++ ds) = f ds := by
  induction ids with
  | nil => rfl
  | cons i ids ih => rw [front_cons, h, ih]

theorem front_like : LikeDecls ds (front ids ++ ds) where
  type i := (front_same (f := fun ds => typeOf ds i) fun _ _ => rfl).symm
  prec i := (front_same (f := fun ds => precOf ds i) fun _ _ => rfl).symm
  fallback i := (front_same (f := fun ds => fallbackOf ds i) fun _ _ => rfl).symm
  multi i := (front_same (f := fun ds => isClass ds i) fun _ _ => rfl).symm
  subs i := (front_same (f := fun ds => classMembers ds i) fun _ _ => rfl).symm
  rules := (front_same (f := fun ds => ds.filterMap Decl.rule?) fun _ _ => rfl).symm
  glob := (front_same (f := fun ds => ds.foldl Glob.step Grammar.initial.glob) fun _ _ => rfl).symm

theorem front_noSelf : noSelfFallback (front ids ++ ds) = noSelfFallback ds := front_same fun _ _ => rfl
theorem front_flat : flat (front ids ++ ds) = flat ds := by
  have h2 : rulesOf (front ids ++ ds) = rulesOf ds := front_same fun _ _ => rfl
  have h3 : isClass (front ids ++ ds) = isClass ds := front_same fun _ _ => rfl
  unfold flat
  rw [h2, h3]
  congr 1
  exact front_same (f := fun l => l.all fun | .tokenClass _ ids => ids.all (fun i => !isClass ds i) | _ => true) fun _ _ => rfl
theorem front_written : written (front ids ++ ds) = written ds := front_same fun _ _ => rfl
theorem front_rules : rulesOf (front ids ++ ds) = rulesOf ds := front_same fun _ _ => rfl
theorem front_count : ruleCount (front ids ++ ds) = ruleCount ds := front_same fun _ _ => rfl
theorem front_aliasOk : aliasOk (front ids ++ ds) = aliasOk ds := front_same fun _ _ => rfl
theorem front_rootOk : rootOk (front ids ++ ds) = rootOk ds := front_same fun _ _ => rfl
theorem front_noAssoc : noAssoc (front ids ++ ds) = noAssoc ds := front_same fun _ _ => rfl
theorem front_wildcard : wildcardOf (front ids ++ ds) = wildcardOf ds := front_same fun _ _ => rfl
theorem front_class : isClass (front ids ++ ds) = isClass ds := front_same fun _ _ => rfl
theorem front_elemTokens (e : RhsElem) : elemTokens (front ids ++ ds) e = elemTokens ds e := front_same (f := fun ds => elemTokens ds e) fun _ _ => rfl

theorem front_orderly (h : ∀ i ∈ ids, i.isTerminal = true) : Orderly (front ids ++ ds) ↔ Orderly ds := by
  induction ids with
  | nil => rfl
  | cons i ids ih =>
    rw [front_cons, ← ih fun j hj => h j (List.mem_cons_of_mem _ hj)]
    constructor
    · rintro ⟨h1, h2, h3⟩
      exact ⟨fun d hd => h1 d (List.mem_cons_of_mem _ hd), (List.pairwise_cons.1 h2).2, h3⟩
    · rintro ⟨h1, h2, h3⟩
      refine ⟨?_, List.pairwise_cons.2 ⟨?_, h2⟩, h3⟩
      · intro d hd
        rcases List.mem_cons.1 hd with rfl | hd
        · exact .inl (h i List.mem_cons_self)
        · exact h1 d hd
      · intro d _ hb
        cases d <;> exact hb

theorem front_reads (h : ∀ i ∈ ids, i.isTerminal = true) (hs : noSelfFallback ds = true) :
    (∃ g, newFromDecls (front ids ++ ds) = .ok g) ↔ ∃ g, newFromDecls ds = .ok g := by
  rw [C46_read, C46_read, admitted_orderly hs, admitted_orderly (front_noSelf.trans hs), front_rules, front_orderly h]

/-- C66, but for classes that are members of classes and tokens that are their own fallback: the macro accepts the declarations if and only
if it accepts them with any tokens named before. -/
theorem C66_partial (ho : OrdOk ord) (ho' : OrdOk ord') (h : ∀ i ∈ ids, i.isTerminal = true) (hs : noSelfFallback ds = true)
    (hf : flat ds = true) (hw : written ds = true) : (∃ t, compile ord ds = .ok t) ↔ ∃ t', compile ord' (front ids ++ ds) = .ok t' := by
  constructor
  · rintro ⟨t, hc⟩
    obtain ⟨g', h0'⟩ := (front_reads h hs).2 (compile_reads hc)
    exact like_compile ho ho' front_like hf hw (front_noSelf.trans hs) h0' hc
  · rintro ⟨t, hc⟩
    obtain ⟨g, h0⟩ := (front_reads h hs).1 (compile_reads hc)
    exact like_compile ho' ho front_like.symm (front_flat.trans hf) (front_written.trans hw) hs h0 hc

/-! ## The rows are apart -/

theorem eraseDups_front {ids l : List Ident} (h : ids.Nodup) (hd : ∀ i ∈ ids, i ∉ l) : (ids ++ l).eraseDups = ids ++ l.eraseDups := by
  induction ids with
  | nil => rfl
  | cons i ids ih =>
    rw [List.nodup_cons] at h
    rw [List.cons_append, List.eraseDups_cons, List.cons_append, ← ih h.2 fun j hj => hd j (List.mem_cons_of_mem _ hj)]
    congr 2
    rw [List.filter_eq_self]
    intro x hx
    rcases List.mem_append.1 hx with hx | hx
    · simp only [Bool.not_eq_true', beq_eq_false_iff_ne]; rintro rfl; exact h.1 hx
    · simp only [Bool.not_eq_true', beq_eq_false_iff_ne]; rintro rfl; exact hd _ List.mem_cons_self hx

theorem front_mentions : (front ids).flatMap Spec.mentions = ids := by
  induction ids with
  | nil => rfl
  | cons i ids ih => exact congrArg (i :: ·) ih

theorem Spec.Pads.notClass (h : Pads ds ids) {i : Ident} (hi : i ∈ ids) : isClass ds i = false := by
  rw [Bool.eq_false_iff]
  intro hc
  unfold isClass at hc
  rw [List.any_eq_true] at hc
  obtain ⟨d, hd, hc⟩ := hc
  refine h.fresh i hi d hd ?_
  cases d <;> try cases hc
  simp only [decide_eq_true_eq] at hc
  subst hc
  exact List.mem_cons_self

theorem Spec.Pads.tokens (h : Pads ds ids) : tokensOf (front ids ++ ds) = ids ++ tokensOf ds := by
  unfold tokensOf
  rw [List.flatMap_append, front_mentions, eraseDups_front h.distinct, List.filter_append, front_class]
  · congr 1
    rw [List.filter_eq_self]
    intro i hi
    rw [h.token i hi, h.notClass hi]; rfl
  · intro i hi hm
    obtain ⟨d, hd, hm⟩ := List.mem_flatMap.1 hm
    exact h.fresh i hi d hd hm

theorem mem_rule_mentions {u : URule} (hu : u ∈ rulesOf ds) {e : RhsElem} (he : e ∈ u.rhs) {i : Ident} (hi : i ∈ e.toks) : ∃ d ∈ ds, i ∈ Spec.mentions d := by
  unfold rulesOf at hu
  rw [List.mem_filterMap] at hu
  obtain ⟨d, hd, hu⟩ := hu
  refine ⟨d, hd, ?_⟩
  cases d <;> try cases hu
  exact List.mem_append_left _ (List.mem_cons_of_mem _ (List.mem_flatMap.2 ⟨e, he, hi⟩))

theorem mem_class_mentions {i j : Ident} (h : i ∈ classMembers ds j) : ∃ d ∈ ds, i ∈ Spec.mentions d := by
  unfold classMembers at h
  rw [List.mem_flatMap] at h
  obtain ⟨d, hd, h⟩ := h
  refine ⟨d, hd, ?_⟩
  cases d <;> try cases h
  simp only at h
  split at h
  · exact List.mem_cons_of_mem _ h
  · cases h

theorem mem_elemTokens_mentions {u : URule} (hu : u ∈ rulesOf ds) {e : RhsElem} (he : e ∈ u.rhs) {i : Ident} (hi : i ∈ elemTokens ds e) :
    ∃ d ∈ ds, i ∈ Spec.mentions d := by
  unfold elemTokens at hi
  split at hi
  · rename_i j hj
    split at hi
    · exact mem_class_mentions hi
    · split at hi
      · rw [List.mem_singleton] at hi
        subst hi
        exact mem_rule_mentions hu he (by rw [hj]; exact List.mem_singleton_self _)
      · cases hi
  · exact mem_rule_mentions hu he hi

theorem Spec.Pads.unread (h : Pads ds ids) {i : Ident} (hi : i ∈ ids) : unread (front ids ++ ds) i = true := by
  unfold Spec.unread
  rw [front_rules, List.all_eq_true]
  intro u hu
  rw [List.all_eq_true]
  intro e he
  rw [front_elemTokens, Bool.not_eq_true', Bool.eq_false_iff]
  intro hc
  rw [List.contains_iff_mem] at hc
  obtain ⟨d, hd, hm⟩ := mem_elemTokens_mentions hu he hc
  exact h.fresh i hi d hd hm

theorem Spec.Pads.padded (h : Pads ds ids) : padded (front ids ++ ds) = true := by
  unfold Spec.padded
  rw [Bool.and_eq_true, decide_eq_true_eq, List.all_eq_true, h.tokens, front_count]
  refine ⟨by rw [List.length_append]; exact h.enough.trans (Nat.le_add_right _ _), fun i hi => ?_⟩
  rw [List.take_append_of_le_length h.enough] at hi
  exact h.unread (List.mem_of_mem_take hi)

/-- There are such tokens. -/
theorem exists_pads (ds : List Decl) : ∃ ids, Pads ds ids := by
  obtain ⟨m, hm⟩ : ∃ m, ∀ n, ∀ d ∈ ds, Ident.upper n ∈ Spec.mentions d → n < m := by
    have : ∀ l : List Ident, ∃ m, ∀ n, Ident.upper n ∈ l → n < m := by
      intro l
      induction l with
      | nil => exact ⟨0, fun n h => by cases h⟩
      | cons i l ih =>
        obtain ⟨m, hm⟩ := ih
        cases i with
        | upper k =>
          refine ⟨max m (k + 1), fun n h => ?_⟩
          rcases List.mem_cons.1 h with h | h
          · cases h; omega
          · have := hm n h; omega
        | _ =>
          refine ⟨m, fun n h => ?_⟩
          rcases List.mem_cons.1 h with h | h
          · cases h
          · exact hm n h
    obtain ⟨m, hm⟩ := this (ds.flatMap Spec.mentions)
    exact ⟨m, fun n d hd h => hm n (List.mem_flatMap.2 ⟨d, hd, h⟩)⟩
  refine ⟨(List.range (ruleCount ds)).map fun k => .upper (m + k), ?_, ?_, ?_, ?_⟩
  · refine List.nodup_range.map fun a b h => ?_
    have := Ident.upper.inj h
    omega
  · intro i hi
    obtain ⟨k, _, rfl⟩ := List.mem_map.1 hi
    rfl
  · intro i hi d hd h
    obtain ⟨k, _, rfl⟩ := List.mem_map.1 hi
    have := hm _ d hd h
    omega
  · simp

/-- C66, the cure: if the macro accepts the declarations, then it also accepts them with enough new tokens in front, and then the rows of the
packed table are apart. -/
theorem C66_cure_partial (ho : OrdOk ord) (ho' : OrdOk ord') (hc : compile ord ds = .ok t) (hs : noSelfFallback ds = true) (hf : flat ds = true)
    (hw : written ds = true) (hp : Pads ds ids) :
    ∃ t', compile ord' (front ids ++ ds) = .ok t' ∧ apart ord' (front ids ++ ds) = true := by
  obtain ⟨t', ht'⟩ := (C66_partial ho ho' hp.token hs hf hw).1 ⟨t, hc⟩
  exact ⟨t', ht', C64_rows ho' ht' hp.padded⟩

/-! ## The parser with new tokens is the parser of the grammar -/

theorem front_taken {i j : Ident} : TakenFor (front ids ++ ds) i j ↔ TakenFor ds i j := by
  have h1 : ∀ i, fallbackOf (front ids ++ ds) i = fallbackOf ds i := fun i => front_same (f := fun ds => fallbackOf ds i) fun _ _ => rfl
  constructor
  · intro h
    induction h with
    | self => exact .self
    | fallback h _ ih => exact .fallback ((h1 _).symm.trans h) ih
    | wildcard h => exact .wildcard (front_wildcard.symm.trans h)
  · intro h
    induction h with
    | self => exact .self
    | fallback h _ ih => exact .fallback ((h1 _).trans h) ih
    | wildcard h => exact .wildcard (front_wildcard.trans h)

theorem front_matches (e : RhsElem) (j : Ident) : Matches (front ids ++ ds) e j ↔ Matches ds e j := by
  rw [show Matches (front ids ++ ds) e j = Matches ds e j from front_same (f := fun ds => Matches ds e j) fun _ _ => rfl]

theorem front_fits {names : List SymName} {ts : List (Tree V)} {es : List RhsElem} :
    Spec.Fits (front ids ++ ds) names ts es ↔ Spec.Fits ds names ts es := by
  constructor
  · intro h
    induction h with
    | nil => exact .nil
    | tok h1 h2 h3 _ ih => exact .tok h1 (front_taken.1 h2) ((front_matches _ _).1 h3) ih
    | absent _ ih => exact .absent ih
    | present _ _ ih ih' => exact .present ih ih'
    | rule h _ _ ih ih' => exact .rule (by rw [← front_rules (ids := ids)]; exact h) ih ih'
  · intro h
    induction h with
    | nil => exact .nil
    | tok h1 h2 h3 _ ih => exact .tok h1 (front_taken.2 h2) ((front_matches _ _).2 h3) ih
    | absent _ ih => exact .absent ih
    | present _ _ ih ih' => exact .present ih ih'
    | rule h _ _ ih ih' => exact .rule (by rw [front_rules (ids := ids)]; exact h) ih ih'

theorem front_tree {names : List SymName} {T : Tree V} : IsTree (front ids ++ ds) names T ↔ IsTree ds names T := by
  unfold IsTree
  rw [show startOf (front ids ++ ds) = startOf ds from front_same fun _ _ => rfl]
  simp only [front_fits]

theorem front_own : ownTokens (front ids ++ ds) = front ids ++ ownTokens ds := by
  induction ids with
  | nil => rfl
  | cons i ids ih => exact congrArg (_ :: ·) ih

/-- What the parser with new tokens accepts are sentences of the grammar (C01). -/
theorem C66_sound_partial (ho' : OrdOk ord') (hf : flat ds = true) (hp : Pads ds ids) (hc : compile ord' (front ids ++ ds) = .ok t') (sem : Sem V X E)
    {x : X} {toks : List (Tok V)} {p : Parser V X} {v : V} (h : AcceptedRun t' sem x toks p v) :
    ∃ T, IsTree ds t'.tokenNames T ∧ T.yield = toks := by
  obtain ⟨T, h1, h2⟩ := C64_sound ho' hc (front_flat.trans hf) hp.padded sem h
  exact ⟨T, front_tree.1 h1, h2⟩

/-- It accepts every sentence of the grammar (C03), or a block fails, or the stack overflows. -/
theorem C66_complete_partial (ho' : OrdOk ord') (hf : flat ds = true) (hp : Pads ds ids) (hc : compile ord' (front ids ++ ds) = .ok t')
    (hr : rootOk ds = true) (hw : wildcardOf ds = none) (hn : noAssoc ds = true) (sem : Sem V X E) (x : X) {T : Tree V}
    (h : IsOwnTree ds t'.tokenNames T) (hv : ∀ tok ∈ T.yield, tok.Valid t' sem) :
    AcceptsTree (front ids ++ ds) t' sem x T ∨ FailsTree (front ids ++ ds) t' sem x T ∨ OverflowsTree t' sem x T := by
  refine C64_complete ho' hc (front_flat.trans hf) hp.padded (front_rootOk.trans hr) (front_wildcard.trans hw) (front_noAssoc.trans hn) sem x ?_ hv
  unfold IsOwnTree at h ⊢
  rw [front_own]
  exact front_tree.2 h

/-- It does not panic (C07). -/
theorem C66_safe_partial (ho' : OrdOk ord') (hf : flat ds = true) (hp : Pads ds ids) (hc : compile ord' (front ids ++ ds) = .ok t')
    (hs : noSelfFallback ds = true) (ha : aliasOk ds = true) (hr : rootOk ds = true) {sem : Sem V X E} {p : Parser V X} (h : OkReach t' sem p) :
    NoPanic t' sem p (fun _ => True) :=
  C64_safe ho' hc (front_flat.trans hf) hp.padded (front_noSelf.trans hs) (front_aliasOk.trans ha) (front_rootOk.trans hr) h

/-! ## Examples -/

namespace C66ex
open Tests (U L s r)
open Examples (compiles compiles_iff tablesOf)

/-- Two new tokens for `s ::= a; a ::= A;` -/
theorem pads : Pads C12ex.tiny [U 11, U 12] := ⟨by decide, by decide, by decide, by decide⟩

-- The rows of the parser of this grammar overlap; with the new tokens they do not.
example : compiles C12ex.tiny = true ∧ apart id C12ex.tiny = false := by decide +kernel
example : ∃ t', compile id (front [U 11, U 12] ++ C12ex.tiny) = .ok t' ∧ apart id (front [U 11, U 12] ++ C12ex.tiny) = true :=
  C66_cure_partial OrdOk.id OrdOk.id (compiles_iff (by decide +kernel)) (by decide) (by decide) (by decide) pads

/-- A grammar with a fallback, a class, an optional symbol and a token that is named first: `%fallback A B; %token_class K C D; s ::= K x?; x ::= D A;` -/
def g : List Decl :=
  [.fallback (U 0) [U 1], .tokenClass (U 4) [U 2, U 3], r (L 0) [s (U 4), s (L 1) (opt := true)], r (L 1) [s (U 3), s (U 0)]]

example : Pads g [U 11, U 12, U 13, U 14] ∧ ruleCount g = 4 := ⟨⟨by decide, by decide, by decide, by decide⟩, by decide⟩
example : compiles g = true ∧ flat g = true ∧ written g = true ∧ noSelfFallback g = true ∧ aliasOk g = true ∧ rootOk g = true ∧
    wildcardOf g = none ∧ noAssoc g = true := by decide +kernel

/-- Tokens of the grammar itself may be named in front: they get other numbers, and the macro still accepts. -/
example : (∃ t, compile id g = .ok t) ↔ ∃ t', compile id (front [U 3, U 1, U 4, U 3] ++ g) = .ok t' :=
  C66_partial OrdOk.id OrdOk.id (by decide) (by decide) (by decide) (by decide)

/-- Nor does it help: `s ::= A; s ::= x; x ::= A;` is refused with any tokens in front. -/
example (ids : List Ident) (h : ∀ i ∈ ids, i.isTerminal = true) :
    ¬ ∃ t', compile id (front ids ++ [r (L 0) [s (U 0)], r (L 0) [s (L 1)], r (L 1) [s (U 0)]]) = .ok t' := by
  rw [← C66_partial (ord := id) OrdOk.id OrdOk.id h (by decide) (by decide) (by decide)]
  rintro ⟨t, ht⟩
  have : compiles [r (L 0) [s (U 0)], r (L 0) [s (L 1)], r (L 1) [s (U 0)]] = false := by decide +kernel
  unfold compiles at this
  rw [ht] at this
  cases this
end C66ex

end Pomelo
