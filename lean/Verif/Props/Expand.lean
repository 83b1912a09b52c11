import Verif.Proofs.Expand
import Verif.Proofs.Exchange
import Verif.Props.Reading
import Verif.Props.Complete
/-!
# C25: compound tokens and token classes

`Verif/Spec/Expand.lean` writes compounds and classes out.
-/

namespace Pomelo

open Spec

variable {ord ord' : List (SymbolId × SymbolId) → List (SymbolId × SymbolId)} {ds : List Decl} {t t' : Tables} {V X E : Type}

/-! ## What carries over -/

theorem admitted_wellformed {ds : List Decl} (h : Admitted ds) : ∀ d ∈ ds, Wellformed d := by
  induction ds using List.reverseRecOn with
  | nil => intro d hd; cases hd
  | append_singleton ds c ih =>
    obtain ⟨h1, h2⟩ := admitted_append.1 h
    intro d hd
    rcases List.mem_append.1 hd with hd | hd
    · exact ih h1 d hd
    · rw [List.mem_singleton.1 hd]; exact (admits_iff.1 h2).1

theorem clean_of_compile (hc : compile ord ds = .ok t) (hf : flat ds = true) : TidyNames ds := by
  obtain ⟨s⟩ := compile_cspec hc
  exact .of (admitted_wellformed ((C46_read ds).1 ⟨_, s.decls⟩).1) hf

theorem all_expand {f : Decl → Bool} (h : ds.all f = true) (hf : ∀ l rhs rhs' c p, f (.rule l rhs c p) = f (.rule l rhs' c p)) : (expand ds).all f = true := by
  rw [List.all_eq_true] at h ⊢
  intro d hd
  obtain ⟨d0, h0, h1⟩ := List.mem_flatMap.1 hd
  cases d0 with
  | rule l rhs c p =>
    obtain ⟨rhs', _, rfl⟩ := List.mem_map.1 h1
    rw [hf l rhs' rhs]; exact h _ h0
  | _ => rw [List.mem_singleton.1 h1]; exact h _ h0

theorem elemAlts_toks {e : RhsElem} {a : List RhsElem} (h : a ∈ elemAlts ds e) : ∀ x ∈ a, ∃ i, x.toks = [i] := by
  intro x hx
  unfold elemAlts at h
  split at h
  · rename_i i hi
    split at h
    · rcases List.mem_append.1 h with h | h
      · split at h
        · rw [List.mem_singleton.1 h] at hx; cases hx
        · cases h
      · obtain ⟨m, _, rfl⟩ := List.mem_map.1 h
        rw [List.mem_singleton.1 hx]; exact ⟨m, rfl⟩
    · rw [List.mem_singleton.1 h] at hx
      rw [List.mem_singleton.1 hx]; exact ⟨i, hi⟩
  · obtain ⟨m, _, rfl⟩ := List.mem_map.1 h
    rw [List.mem_singleton.1 hx]; exact ⟨m, rfl⟩

theorem rhsAlts_toks {es es' : List RhsElem} (h : es' ∈ rhsAlts ds es) : ∀ x ∈ es', ∃ i, x.toks = [i] := by
  induction es generalizing es' with
  | nil => rw [List.mem_singleton.1 h]; intro x hx; cases hx
  | cons e es ih =>
    obtain ⟨a, ha, b, hb, rfl⟩ := mem_rhsAlts_cons.1 h
    intro x hx
    rcases List.mem_append.1 hx with hx | hx
    · exact elemAlts_toks ha x hx
    · exact ih hb x hx

theorem flat_expand (hf : flat ds = true) : flat (expand ds) = true := by
  unfold flat at hf ⊢
  rw [Bool.and_eq_true] at hf ⊢
  constructor
  · rw [show (isClass (expand ds)) = isClass ds from funext isClass_expand]
    exact all_expand hf.1 (fun _ _ _ _ _ => rfl)
  · rw [List.all_eq_true]
    intro u' hu'
    obtain ⟨u, _, r', hr, rfl⟩ := mem_rulesOf_expand.1 hu'
    rw [List.all_eq_true]
    intro e he
    obtain ⟨i, hi⟩ := rhsAlts_toks hr e he
    rw [hi]

theorem writtenTypes_expand : writtenTypes (expand ds) = writtenTypes ds := by
  suffices ∀ xs : List Decl, writtenTypes (xs.flatMap (expandDecl ds)) = writtenTypes xs from this ds
  intro xs
  unfold writtenTypes
  induction xs with
  | nil => rfl
  | cons d xs ih =>
    rw [List.flatMap_cons, List.flatMap_append, List.flatMap_cons, ih]
    congr 1
    cases d with
    | rule l rhs c p =>
      simp only [expandDecl, List.flatMap_map]
      exact List.flatMap_eq_nil_iff.2 (fun _ _ => rfl)
    | _ => simp [expandDecl]

theorem plainType_expand (i : Ident) : plainType (expand ds) i = plainType ds i := by
  unfold plainType ownType
  rw [wildcardOf_expand, isClass_expand, extraTokenOf_expand, typeOf_expand, defaultTypeOf_expand]

theorem rootOk_expand (ho : occupied ds = true) : rootOk (expand ds) = rootOk ds := by
  unfold rootOk
  rw [startOf_expand ho, writtenTypes_expand, show plainType (expand ds) = plainType ds from funext plainType_expand]

theorem rootValue_expand (ho : occupied ds = true) (sem : Sem V X E) (v : V) : rootValue (expand ds) sem v = rootValue ds sem v := by
  unfold rootValue
  rw [startOf_expand ho, defaultTypeOf_expand, show typeOf (expand ds) = typeOf ds from funext typeOf_expand]

theorem noAssoc_expand (h : noAssoc ds = true) : noAssoc (expand ds) = true := all_expand h (fun _ _ _ _ _ => rfl)
theorem keeps_expand (h : ds.all keepsTokens = true) : (expand ds).all keepsTokens = true := all_expand h (fun _ _ _ _ _ => rfl)

/-! ## Tokens with other numbers -/

/-- The same token in two generated parsers: the names are the same, and the values. -/
def SameTok (t t' : Tables) (k k' : Tok V) : Prop :=
  t.tokenNames[k.major]? = t'.tokenNames[k'.major]? ∧ k.val = k'.val

theorem sameTok_split {α β : Type} {R : α → β → Prop} : ∀ {l r : List α} {ks : List β}, List.Forall₂ R (l ++ r) ks →
    ∃ ls rs, ks = ls ++ rs ∧ List.Forall₂ R l ls ∧ List.Forall₂ R r rs
  | [], r, ks, h => ⟨[], ks, rfl, .nil, h⟩
  | a :: l, r, _, .cons (b := k) h1 h2 => by
    obtain ⟨ls, rs, rfl, h3, h4⟩ := sameTok_split h2
    exact ⟨k :: ls, rs, rfl, .cons h1 h3, h4⟩

/-- Trees with the tokens of another parser -/
theorem fits_sameTok {D : List Decl} {ts : List (Tree V)} {es : List RhsElem} (h : Spec.Fits D t.tokenNames ts es) :
    ∀ {ks}, List.Forall₂ (SameTok t t') (Tree.yields ts) ks → ∃ ts', Spec.Fits D t'.tokenNames ts' es ∧ Tree.yields ts' = ks ∧
      ∀ (X E : Type) (sem : Sem V X E) (x : X), Tree.values D sem ts' x = Tree.values D sem ts x := by
  have cons : ∀ {T T' : Tree V} {ts ts' : List (Tree V)}, (∀ (X E : Type) (sem : Sem V X E) (x : X), T'.value D sem x = T.value D sem x) →
      (∀ (X E : Type) (sem : Sem V X E) (x : X), Tree.values D sem ts' x = Tree.values D sem ts x) →
      ∀ (X E : Type) (sem : Sem V X E) (x : X), Tree.values D sem (T' :: ts') x = Tree.values D sem (T :: ts) x := by
    intro T T' ts ts' h1 h2 X E sem x
    rw [Tree.values, Tree.values, h1]
    cases T.value D sem x with
    | mk r x =>
      cases r with
      | error e => rfl
      | ok v => simp only; rw [h2]
  induction h with
  | nil => intro ks h; cases h; exact ⟨[], .nil, rfl, fun _ _ _ _ => rfl⟩
  | @tok k i j e ts es h1 h2 h3 _ ih =>
    intro ks h
    cases h with
    | @cons _ k' _ ks hk h =>
      obtain ⟨ts', a1, rfl, a3⟩ := ih h
      refine ⟨.tok k' :: ts', .tok (by rw [← hk.1]; exact h1) h2 h3 a1, rfl, cons ?_ a3⟩
      intro X E sem x
      rw [Tree.value, Tree.value, hk.2]
  | absent _ ih =>
    intro ks h
    obtain ⟨ts', a1, a2, a3⟩ := ih h
    exact ⟨.absent :: ts', .absent a1, by rw [← a2]; rfl, cons (fun _ _ _ _ => rfl) a3⟩
  | @present T i al ts es _ _ ih1 ih2 =>
    intro ks h
    obtain ⟨ls, rs, rfl, h1, h2⟩ := sameTok_split h
    obtain ⟨us, b1, b2, b3⟩ := ih1 (ks := ls) (by simpa [Tree.yields, Tree.yield] using h1)
    obtain ⟨ts', a1, a2, a3⟩ := ih2 h2
    obtain ⟨T', rfl⟩ := fits_one b1
    refine ⟨.present T' :: ts', .present b1 a1, ?_, cons ?_ a3⟩
    · rw [← b2, ← a2]; simp [Tree.yields, Tree.yield]
    · intro X E sem x
      apply value_present
      have := b3 X E sem x
      rw [Tree.values, Tree.values] at this
      revert this
      rcases T'.value D sem x with ⟨r', x'⟩
      rcases T.value D sem x with ⟨r, x''⟩
      cases r <;> cases r' <;> simp [Tree.values]
  | @rule n u kids al ts es h1 _ _ ih1 ih2 =>
    intro ks h
    obtain ⟨ls, rs, rfl, h2, h3⟩ := sameTok_split h
    obtain ⟨us, b1, b2, b3⟩ := ih1 (ks := ls) h2
    obtain ⟨ts', a1, a2, a3⟩ := ih2 h3
    refine ⟨.rule n us :: ts', .rule h1 b1 a1, ?_, cons ?_ a3⟩
    · rw [← b2, ← a2]; rfl
    · intro X E sem x
      rw [Tree.value, Tree.value, b3]

theorem isTree_sameTok {D : List Decl} {T : Tree V} {ks : List (Tok V)} (h : IsTree D t.tokenNames T) (hk : List.Forall₂ (SameTok t t') T.yield ks) :
    ∃ T', IsTree D t'.tokenNames T' ∧ T'.yield = ks ∧ ∀ (X E : Type) (sem : Sem V X E) (x : X), T'.value D sem x = T.value D sem x := by
  obtain ⟨st, h1, h2⟩ := h
  obtain ⟨ts', a1, a2, a3⟩ := fits_sameTok h2 (t' := t') (ks := ks) (by simpa [Tree.yields] using hk)
  obtain ⟨T', rfl⟩ := fits_one a1
  refine ⟨T', ⟨st, h1, a1⟩, by simpa [Tree.yields] using a2, ?_⟩
  intro X E sem x
  have := a3 X E sem x
  rw [Tree.values, Tree.values] at this
  revert this
  rcases T'.value D sem x with ⟨r', x'⟩
  rcases T.value D sem x with ⟨r, x''⟩
  cases r <;> cases r' <;> simp [Tree.values]

/-! ## C25 -/

/-- Blocks do not return `Err`. -/
def NoErr (sem : Sem V X E) : Prop := ∀ n vs x, ∃ v x', sem.user n vs x = (.ok v, x')

/-- Accepted without a syntax error -/
def AcceptsClean (t : Tables) (sem : Sem V X E) (x : X) (toks : List (Tok V)) : Prop :=
  ∃ fuel p v, runAll t sem fuel x toks = some (.ok p v) ∧ ∀ tok ex, Event.syntaxError tok ex ∉ p.trace

/-- The stack was full. -/
def Overflowed (t : Tables) (sem : Sem V X E) (x : X) (toks : List (Tok V)) : Prop :=
  t.stackLimit ≠ 0 ∧ ∃ e p fuel tok log, runAll t sem fuel x toks = some (.err p e) ∧ p.trace = .stackOverflow tok :: log

/-- C25 in full: where both the declarations and their expansion are accepted by the macro, the two parsers accept the same inputs,
unless the stack of one is full. -/
def C25_statement : Prop :=
  ∀ (ord ord' : List (SymbolId × SymbolId) → List (SymbolId × SymbolId)), OrdOk ord → OrdOk ord' → ∀ (ds : List Decl) (t t' : Tables),
    flat ds = true → compile ord ds = .ok t → compile ord' (expand ds) = .ok t' → ∀ (sem : Sem Int (List Nat) Unit), NoErr sem →
      ∀ (x : List Nat) (toks toks' : List (Tok Int)), (∀ tok ∈ toks, tok.Valid t sem) → (∀ tok ∈ toks', tok.Valid t' sem) →
        List.Forall₂ (SameTok t t') toks toks' →
          (AcceptsClean t sem x toks → AcceptsClean t' sem x toks' ∨ Overflowed t' sem x toks') ∧
          (AcceptsClean t' sem x toks' → AcceptsClean t sem x toks ∨ Overflowed t sem x toks)

/-- C25 for the written grammar: the inputs derived by the start symbol are those derived in the expansion, and have the same values if every rule with
a compound or a class has a block and no class is used with `?`. -/
theorem C25_trees (hc : compile ord ds = .ok t) (hf : flat ds = true) (ho : occupied ds = true) (names : List SymName) :
    (∀ T : Tree V, IsTree ds names T → ∃ T', IsTree (expand ds) names T' ∧ T'.yield = T.yield ∧
      (blocksKept ds = true → ∀ (X E : Type) (sem : Sem V X E) (x : X), T'.value (expand ds) sem x = T.value ds sem x)) ∧
    (∀ T' : Tree V, IsTree (expand ds) names T' → ∃ T, IsTree ds names T ∧ T'.yield = T.yield ∧
      (blocksKept ds = true → ∀ (X E : Type) (sem : Sem V X E) (x : X), T'.value (expand ds) sem x = T.value ds sem x)) :=
  ⟨fun _ h => isTree_expand (clean_of_compile hc hf) ho h, fun _ h => isTree_unexpand (clean_of_compile hc hf) ho h⟩

mutual
theorem NoErr.value {sem : Sem V X E} (h : NoErr sem) (D : List Decl) : ∀ (T : Tree V) (x : X), ∃ v x', T.value D sem x = (.ok v, x')
  | .tok k, x => ⟨_, _, rfl⟩
  | .absent, x => ⟨_, _, rfl⟩
  | .present T, x => by
    obtain ⟨v, x', h1⟩ := h.value D T x
    exact ⟨sem.some v, x', by rw [Tree.value, h1]⟩
  | .rule n kids, x => by
    obtain ⟨vs, x', h1⟩ := h.values D kids x
    rw [Tree.value, h1]
    simp only
    cases (rulesOf D)[n]? with
    | none => exact ⟨_, _, rfl⟩
    | some u =>
      simp only [ruleValue]
      cases u.code with
      | none => exact ⟨_, _, rfl⟩
      | some m => exact h m _ x'
theorem NoErr.values {sem : Sem V X E} (h : NoErr sem) (D : List Decl) : ∀ (ts : List (Tree V)) (x : X), ∃ vs x', Tree.values D sem ts x = (.ok vs, x')
  | [], x => ⟨_, _, rfl⟩
  | T :: ts, x => by
    obtain ⟨v, x1, h1⟩ := h.value D T x
    obtain ⟨vs, x2, h2⟩ := h.values D ts x1
    exact ⟨v :: vs, x2, by rw [Tree.values, h1]; simp only; rw [h2]⟩
end

/-- The tokens of a tree with a value are accepted where C03 is known. -/
theorem accepted_of_tree (ho : OrdOk ord) (hc : compile ord ds = .ok t) (hf : flat ds = true) (hA : apart ord ds = true) (hr : rootOk ds = true)
    (hk : ds.all keepsTokens = true) (R : Run ord ds) (hn : NoClash R.g) {sem : Sem V X E} {x x' : X} {v : V} {T : Tree V}
    (h : IsTree ds t.tokenNames T) (hv : ∀ tok ∈ T.yield, tok.Valid t sem) (hT : T.value ds sem x = (.ok v, x')) :
    (∃ p, AcceptedRun t sem x T.yield p (rootValue ds sem v) ∧ p.extra = x') ∨ Overflowed t sem x T.yield := by
  have hown : ownTokens ds = ds := List.filter_eq_self.2 (List.all_eq_true.1 hk)
  have hw : wildcardOf ds = none := by rw [← hown]; exact own_wildcard
  have h3 : IsOwnTree ds t.tokenNames T := by
    unfold IsOwnTree
    rw [hown]; exact h
  rcases C03_partial ho hc hf hA hr hw R hn sem x h3 hv with ⟨v', p', fuel, a1, a2, a3⟩ | ⟨e, p', fuel, a1, _⟩ | ⟨a1, e, p', fuel, tok, log, a2, a3, _⟩
  · rw [hT] at a1
    simp only [Prod.mk.injEq, Except.ok.injEq] at a1
    obtain ⟨rfl, a1⟩ := a1
    refine .inl ⟨p', ⟨hv, ⟨fuel, a2⟩, ?_⟩, a1.symm⟩
    intro n hm
    have := List.all_eq_true.1 a3 _ hm
    cases this
  · rw [hT] at a1
    simp at a1
  · exact .inr ⟨a1, e, p', fuel, tok, log, a2, a3⟩

theorem sameTok_symm {toks toks' : List (Tok V)} (h : List.Forall₂ (SameTok t t') toks toks') : List.Forall₂ (SameTok t' t) toks' toks :=
  h.flip.imp (fun _ _ h => ⟨h.1.symm, h.2.symm⟩)

/-- What both theorems below ask of the two parsers: C01 and C03 are known for them. -/
structure BothKnown (ord ord' : List (SymbolId × SymbolId) → List (SymbolId × SymbolId)) (ds : List Decl) (t t' : Tables) : Prop where
  order : OrdOk ord
  order' : OrdOk ord'
  compiles : compile ord ds = .ok t
  compiles' : compile ord' (expand ds) = .ok t'
  flats : flat ds = true
  filled : occupied ds = true
  rows : apart ord ds = true
  rows' : apart ord' (expand ds) = true
  root : rootOk ds = true
  keeps : ds.all keepsTokens = true
  noClash : ∃ R : Run ord ds, NoClash R.g
  noClash' : ∃ R : Run ord' (expand ds), NoClash R.g

/-- C25 for the generated parsers, with the values: the parser accepts what the parser for the expansion accepts, with the same value and effects.
Missing: precedences between members, where this is false (`C25_false`), colliding rows, fallbacks and `%wildcard`. -/
theorem C25_values_partial (hb : BothKnown ord ord' ds t t') (hk : blocksKept ds = true) {sem : Sem V X E} {x x' : X} {v : V} {toks toks' : List (Tok V)}
    (hv : ∀ tok ∈ toks, tok.Valid t sem) (hv' : ∀ tok ∈ toks', tok.Valid t' sem) (hs : List.Forall₂ (SameTok t t') toks toks') :
    ((∃ p, AcceptedRun t sem x toks p v ∧ p.extra = x') → (∃ p, AcceptedRun t' sem x toks' p v ∧ p.extra = x') ∨ Overflowed t' sem x toks') ∧
    ((∃ p, AcceptedRun t' sem x toks' p v ∧ p.extra = x') → (∃ p, AcceptedRun t sem x toks p v ∧ p.extra = x') ∨ Overflowed t sem x toks) := by
  have hcl := clean_of_compile hb.compiles hb.flats
  obtain ⟨R, hn⟩ := hb.noClash
  obtain ⟨R', hn'⟩ := hb.noClash'
  constructor
  · rintro ⟨p, h, rfl⟩
    obtain ⟨T, w, h1, rfl, h3, h4, _⟩ := accepted_tree hb.order hb.compiles hb.flats hb.rows sem h
    obtain ⟨T1, a1, a2, a3⟩ := isTree_expand hcl hb.filled h1
    obtain ⟨T2, b1, rfl, b3⟩ := isTree_sameTok a1 (by rw [a2]; exact hs)
    have := accepted_of_tree hb.order' hb.compiles' (flat_expand hb.flats) hb.rows' (by rw [rootOk_expand hb.filled]; exact hb.root) (keeps_expand hb.keeps)
      R' hn' b1 hv' (v := w) (x := x) (x' := p.extra) (by rw [b3, a3 hk, h3])
    rw [rootValue_expand hb.filled, ← h4] at this
    exact this
  · rintro ⟨p, h, rfl⟩
    obtain ⟨T, w, h1, rfl, h3, h4, _⟩ := accepted_tree hb.order' hb.compiles' (flat_expand hb.flats) hb.rows' sem h
    obtain ⟨T1, a1, a2, a3⟩ := isTree_unexpand hcl hb.filled h1
    obtain ⟨T2, b1, rfl, b3⟩ := isTree_sameTok a1 (by rw [← a2]; exact sameTok_symm hs)
    have := accepted_of_tree hb.order hb.compiles hb.flats hb.rows hb.root hb.keeps R hn b1 hv (v := w) (x := x) (x' := p.extra) (by rw [b3, ← a3 hk, h3])
    rw [← rootValue_expand hb.filled, ← h4] at this
    exact this

/-- C25 for the generated parsers: the parser accepts what the parser for the expansion accepts.
Missing: as for `C25_values_partial`; blocks that return `Err`, which may have other arguments in the expansion. -/
theorem C25_partial (hb : BothKnown ord ord' ds t t') {sem : Sem V X E} (he : NoErr sem) {x : X} {toks toks' : List (Tok V)}
    (hv : ∀ tok ∈ toks, tok.Valid t sem) (hv' : ∀ tok ∈ toks', tok.Valid t' sem) (hs : List.Forall₂ (SameTok t t') toks toks') :
    ((∃ p v, AcceptedRun t sem x toks p v) → (∃ p v, AcceptedRun t' sem x toks' p v) ∨ Overflowed t' sem x toks') ∧
    ((∃ p v, AcceptedRun t' sem x toks' p v) → (∃ p v, AcceptedRun t sem x toks p v) ∨ Overflowed t sem x toks) := by
  have hcl := clean_of_compile hb.compiles hb.flats
  obtain ⟨R, hn⟩ := hb.noClash
  obtain ⟨R', hn'⟩ := hb.noClash'
  constructor
  · rintro ⟨p, v, h⟩
    obtain ⟨T, w, h1, rfl, _⟩ := accepted_tree hb.order hb.compiles hb.flats hb.rows sem h
    obtain ⟨T1, a1, a2, _⟩ := isTree_expand hcl hb.filled h1
    obtain ⟨T2, b1, rfl, _⟩ := isTree_sameTok a1 (by rw [a2]; exact hs)
    obtain ⟨w, x', hw⟩ := he.value (expand ds) T2 x
    refine Or.imp_left (fun ⟨p', h', _⟩ => ⟨p', _, h'⟩) <| accepted_of_tree hb.order' hb.compiles' (flat_expand hb.flats) hb.rows' (by rw [rootOk_expand hb.filled]; exact hb.root) (keeps_expand hb.keeps)
      R' hn' b1 hv' hw
  · rintro ⟨p, v, h⟩
    obtain ⟨T, w, h1, rfl, _⟩ := accepted_tree hb.order' hb.compiles' (flat_expand hb.flats) hb.rows' sem h
    obtain ⟨T1, a1, a2, _⟩ := isTree_unexpand hcl hb.filled h1
    obtain ⟨T2, b1, rfl, _⟩ := isTree_sameTok a1 (by rw [← a2]; exact sameTok_symm hs)
    obtain ⟨w, x', hw⟩ := he.value ds T2 x
    refine Or.imp_left (fun ⟨p', h', _⟩ => ⟨p', _, h'⟩) <| accepted_of_tree hb.order hb.compiles hb.flats hb.rows hb.root hb.keeps R hn b1 hv hw

/-! ## A grammar, and one where the members of a compound have different precedences -/

namespace Expandex
open Tests (U L s r logSem strictSem)
open Examples

/-- `%token_class Op Plus Minus; s ::= e; e ::= e(A) Op t(B) { 0 }; e ::= t; t ::= Num|Id(A) { 1 }; t ::= LP Op? e RP;`
numbers: Plus 1, Minus 2, Num 3, Id 4, LP 5, RP 6 -/
def arith : List Decl :=
  [ .tokenClass (U 10) [U 1, U 2], r (L 0) [s (L 1)], r (L 1) [s (L 1) true, s (U 10), s (L 2) true] (some 0), r (L 1) [s (L 2)]
  , r (L 2) [⟨[U 3, U 4], false, true⟩] (some 1), r (L 2) [s (U 5), s (U 10) (opt := true), s (L 1), s (U 6)] ]

-- nine rules
example : rulesOf (expand arith) =
    [ ⟨L 0, [s (L 1)], none, none⟩
    , ⟨L 1, [s (L 1) true, s (U 1), s (L 2) true], some 0, none⟩, ⟨L 1, [s (L 1) true, s (U 2), s (L 2) true], some 0, none⟩
    , ⟨L 1, [s (L 2)], none, none⟩, ⟨L 2, [s (U 3) true], some 1, none⟩, ⟨L 2, [s (U 4) true], some 1, none⟩
    , ⟨L 2, [s (U 5), s (L 1), s (U 6)], none, none⟩, ⟨L 2, [s (U 5), s (U 1), s (L 1), s (U 6)], none, none⟩
    , ⟨L 2, [s (U 5), s (U 2), s (L 1), s (U 6)], none, none⟩ ] := by decide

theorem bothKnown {ds : List Decl} (h1 : compiles ds = true) (h2 : compiles (expand ds) = true) (h3 : flat ds = true) (h4 : occupied ds = true)
    (h5 : apart id ds = true) (h6 : apart id (expand ds) = true) (h7 : rootOk ds = true) (h8 : ds.all keepsTokens = true) (h9 : noAssoc ds = true) :
    BothKnown id id ds (tablesOf ds) (tablesOf (expand ds)) := by
  obtain ⟨R⟩ := run_exists (compiles_iff h1)
  obtain ⟨R'⟩ := run_exists (compiles_iff h2)
  exact ⟨OrdOk.id, OrdOk.id, compiles_iff h1, compiles_iff h2, h3, h4, h5, h6, h7, h8, ⟨R, noClash_of_noAssoc OrdOk.id R h9⟩,
    ⟨R', noClash_of_noAssoc OrdOk.id R' (noAssoc_expand h9)⟩⟩

theorem arith_known : BothKnown id id arith (tablesOf arith) (tablesOf (expand arith)) :=
  bothKnown (by decide +kernel) (by decide +kernel) (by decide) (by decide) (by decide +kernel) (by decide +kernel) (by decide) (by decide) (by decide)

theorem noErr : NoErr logSem := fun _ _ x => ⟨0, x ++ [_], rfl⟩

theorem valid_of {t : Tables} {toks : List (Tok Int)} (h : toks.all (validB t logSem) = true) : ∀ tok ∈ toks, tok.Valid t logSem :=
  fun tok ht => validB_iff (List.all_eq_true.1 h tok ht)

theorem same_of {t t' : Tables} (h : t.tokenNames = t'.tokenNames) : ∀ toks : List (Tok Int), List.Forall₂ (SameTok t t') toks toks
  | [] => .nil
  | _ :: _ => .cons ⟨by rw [h], rfl⟩ (same_of h _)

theorem arith_names : (tablesOf arith).tokenNames = (tablesOf (expand arith)).tokenNames := by decide +kernel

/-- `Num Plus LP Minus Id RP` -/
def input : List (Tok Int) := tk [3, 1, 5, 2, 4, 6]

theorem arith_accepted : ∃ p, AcceptedRun (tablesOf arith) logSem [] input p 0 ∧ p.extra = [1, 1, 0] := by
  obtain ⟨p, h1, h2, _⟩ := C01ex.acceptedB_iff (t := tablesOf arith) (m := logSem) (toks := input) (v := 0) (x := [1, 1, 0]) (by decide +kernel)
  exact ⟨p, h1, h2⟩

-- the theorem applies in both directions
example : (∃ p v, AcceptedRun (tablesOf (expand arith)) logSem [] input p v) ∨ Overflowed (tablesOf (expand arith)) logSem [] input := by
  obtain ⟨p, h1, _⟩ := arith_accepted
  exact (C25_partial arith_known noErr h1.valid (valid_of (by decide +kernel)) (same_of arith_names input)).1 ⟨p, 0, h1⟩

/-- The same without the rule with `Op?` -/
def arith2 : List Decl := arith.take 5

theorem arith2_known : BothKnown id id arith2 (tablesOf arith2) (tablesOf (expand arith2)) :=
  bothKnown (by decide +kernel) (by decide +kernel) (by decide) (by decide) (by decide +kernel) (by decide +kernel) (by decide) (by decide) (by decide)

theorem arith2_names : (tablesOf arith2).tokenNames = (tablesOf (expand arith2)).tokenNames := by decide +kernel

-- with the values and effects
example : (∃ p, AcceptedRun (tablesOf (expand arith2)) logSem [] (tk [3, 1, 4, 2, 3]) p 0 ∧ p.extra = [1, 1, 0, 1, 0]) ∨
    Overflowed (tablesOf (expand arith2)) logSem [] (tk [3, 1, 4, 2, 3]) := by
  obtain ⟨p, h1, h2, _⟩ := C01ex.acceptedB_iff (t := tablesOf arith2) (m := logSem) (toks := tk [3, 1, 4, 2, 3]) (v := 0) (x := [1, 1, 0, 1, 0]) (by decide +kernel)
  exact (C25_values_partial arith2_known (by decide) h1.valid (valid_of (by decide +kernel)) (same_of arith2_names _)).1 ⟨p, h1, h2⟩

-- the trees of `C25_trees`
example : ∃ T', IsTree (expand arith) (tablesOf arith).tokenNames T' ∧ T'.yield = input := by
  obtain ⟨p, h1, _⟩ := arith_accepted
  obtain ⟨T, h2, h3⟩ := C01_partial OrdOk.id arith_known.compiles arith_known.flats arith_known.rows logSem h1
  obtain ⟨T', h4, h5, _⟩ := (C25_trees arith_known.compiles arith_known.flats arith_known.filled _).1 T h2
  exact ⟨T', h4, h5.trans h3⟩

/-- `%nonassoc Eq; %left Plus; s ::= e; e ::= e Eq|Plus e; e ::= Num;` numbers: Eq 1, Plus 2, Num 3 -/
def mixed : List Decl :=
  [ .assoc .none [U 1], .assoc .left [U 2], r (L 0) [s (L 1)], r (L 1) [s (L 1), ⟨[U 1, U 2], false, false⟩, s (L 1)], r (L 1) [s (U 3)] ]

/-- The run ends with `Err`, and not because the stack is full. -/
def refusedB (t : Tables) (toks : List (Tok Int)) : Bool :=
  match runAll t strictSem 1000 [] toks with
  | some (.err p _) => match p.trace with
    | .stackOverflow _ :: _ => false
    | _ => true
  | _ => false

theorem refusedB_iff {t : Tables} {toks : List (Tok Int)} (h : refusedB t toks = true) : ¬ (AcceptsClean t strictSem [] toks ∨ Overflowed t strictSem [] toks) := by
  unfold refusedB at h
  split at h
  · rename_i p e hw
    rintro (⟨f, p', v, h2, _⟩ | ⟨_, e', p', f, tok, log, h2, h4⟩)
    all_goals
      have h3 := runAll_mono h2 (Nat.le_max_left f 1000)
      rw [runAll_mono hw (Nat.le_max_right f 1000)] at h3
      cases h3
    rw [h4] at h
    cases h
  · cases h

theorem mixed_accepted : AcceptsClean (tablesOf (expand mixed)) strictSem [] (tk [3, 2, 3, 1, 3]) := by
  obtain ⟨p, _, _, h1, h2⟩ := C01ex.acceptedB_iff (t := tablesOf (expand mixed)) (m := strictSem) (toks := tk [3, 2, 3, 1, 3]) (v := 0) (x := []) (by decide +kernel)
  exact ⟨1000, p, 0, h2, h1⟩

end Expandex

open Expandex in
/-- C25 fails: with `%nonassoc Eq; %left Plus;` the rule `e ::= e Eq|Plus e` has the precedence of `Eq`, for `Plus` too. The parser refuses
`Num Plus Num Eq Num`, which the parser for the two rules `e ::= e Eq e; e ::= e Plus e;` accepts. -/
theorem C25_false : ¬ C25_statement := by
  intro h
  have := h id id OrdOk.id OrdOk.id mixed _ _ (by decide) (Examples.compiles_iff (by decide +kernel)) (Examples.compiles_iff (by decide +kernel)) Tests.strictSem
    (fun _ _ x => ⟨0, x ++ [_], rfl⟩) [] (Examples.tk [3, 2, 3, 1, 3]) (Examples.tk [3, 2, 3, 1, 3])
    (fun tok ht => Examples.validB_iff (List.all_eq_true.1 (by decide +kernel : (Examples.tk [3, 2, 3, 1, 3]).all (Examples.validB _ _) = true) tok ht))
    (fun tok ht => Examples.validB_iff (List.all_eq_true.1 (by decide +kernel : (Examples.tk [3, 2, 3, 1, 3]).all (Examples.validB _ _) = true) tok ht))
    (same_of (by decide +kernel) _)
  exact refusedB_iff (by decide +kernel) (this.2 mixed_accepted)
-- no row of the tables of `mixed` collides
example : apart id Expandex.mixed = true ∧ apart id (expand Expandex.mixed) = true := by decide +kernel

end Pomelo
