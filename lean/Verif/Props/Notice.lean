import Verif.Props.Expected
import Verif.Props.Expand
import Verif.Props.SameInputs
/-!
# C68: errors are noticed at the first token that cannot be there

A token is taken without an error exactly as long as what has been read begins a sentence.  Which reductions are made before the error is
noticed is another matter, see C50.
-/

namespace Pomelo

open Spec

variable {ord ord' : List (SymbolId × SymbolId) → List (SymbolId × SymbolId)} {ds ds' : List Decl} {t t' : Tables} {V X E : Type}

/-- C68 in full, for grammars without fallbacks, wildcard and settled conflicts, in which every element derives something, and blocks that do not
fail: if the stack is not full, an error is noticed while `toks` are fed if and only if they do not begin a sentence. -/
def C68_statement : Prop :=
  ∀ (ord : List (SymbolId × SymbolId) → List (SymbolId × SymbolId)), OrdOk ord → ∀ (ds : List Decl) (t : Tables), compile ord ds = .ok t →
    ds.all keepsTokens = true → noAssoc ds = true → Productive Int ds t.tokenNames →
    ∀ (sem : Sem Int (List Nat) Unit), NoErr sem → ∀ (x : List Nat) (toks : List (Tok Int)), (∀ tok ∈ toks, tok.Valid t sem) →
      ∀ fuel r p, feed t sem fuel (Parser.new sem x) toks = some r → r.parser? = some p → (∀ tok, Event.stackOverflow tok ∉ p.trace) →
        (noSyntaxError p.trace = true ↔ BeginsSentence ds t.tokenNames toks)

/-! ## Why a call fails -/

theorem noSyntax_append {l m : List (Event V)} : noSyntaxError (l ++ m) = true ↔ noSyntaxError l = true ∧ noSyntaxError m = true := by
  unfold noSyntaxError
  rw [List.all_append, Bool.and_eq_true]

theorem noSyntax_suffix {l m : List (Event V)} (h : l <:+ m) (hm : noSyntaxError m = true) : noSyntaxError l = true := by
  obtain ⟨a, rfl⟩ := h
  exact (noSyntax_append.1 hm).2

theorem shift_err {sem : Sem V X E} {p p1 : Parser V X} {s major : Nat} {m : Minor V} {e : E} (h : shift t sem p s major m = .err p1 e) :
    ∃ tok, Event.stackOverflow tok ∈ p1.trace := by
  rcases shift_cases t sem p s major m with ⟨_, _, h3⟩ | ⟨_, h3⟩
  · rw [h3] at h; cases h; exact ⟨_, List.mem_cons_self⟩
  · rw [h3] at h; cases h

theorem reduce_err {sem : Sem V X E} (hn : NoErr sem) {p p1 : Parser V X} {r : Nat} {e : E} (h : reduce t sem p r = .err p1 e) :
    ∃ tok, Event.stackOverflow tok ∈ p1.trace := by
  rcases reduce_cases t sem p r with ⟨w, e1⟩ | ⟨rc, vs, _, _, _, ⟨e', x', h1, _⟩ | ⟨v, x', lhs, top, rest, act, _, _, _, _, ⟨_, e1⟩ | ⟨_, _, e1⟩⟩⟩
  · rw [e1] at h; cases h
  · exfalso
    unfold runCode at h1
    split at h1
    · cases h1
    · rename_i n _
      obtain ⟨v, x2, h2⟩ := hn n vs p.extra
      rw [h2] at h1; cases h1
    all_goals cases h1
  · rw [e1] at h; exact shift_err h
  · rw [e1] at h
    unfold accept at h
    repeat' split at h
    all_goals cases h

/-- Blocks that do not fail, and no full stack: then only a syntax error makes a call fail. -/
theorem loop_err {sem : Sem V X E} (hn : NoErr sem) {major : Nat} {m : Minor V} {p1 : Parser V X} {e : E} : ∀ {fuel : Nat} {p : Parser V X},
    loop t sem major m fuel p = some (.err p1 e) → (∃ tok, Event.stackOverflow tok ∈ p1.trace) ∨ ∃ ev ∈ p1.trace, ev.isSyntax = true := by
  intro fuel
  induction fuel with
  | zero => intro p h; cases h
  | succ fuel ih =>
    intro p h
    unfold loop at h
    split at h
    · rcases step_cases t sem p major m with ⟨w, e1⟩ | ⟨top, rest, act, _, _, e3⟩
      · rw [e1] at h; cases h
      rcases e3 with ⟨_, _, ⟨q, e', h1, h2⟩ | ⟨q, h1, h2⟩⟩ | ⟨_, _, ⟨q, e', h1, h2⟩ | ⟨q, h1, h2⟩⟩ | ⟨_, h2⟩
      · rw [h2] at h; cases h; exact .inl (shift_err h1)
      · rw [h2] at h; cases h
      · rw [h2] at h; cases h; exact .inl (reduce_err hn h1)
      · rw [h2] at h; exact ih h
      · rw [h2] at h
        simp only [Option.some.injEq] at h
        obtain ⟨l, h3, ⟨ev, h4, h5⟩, _⟩ := onError_reacts (t := t) (sem := sem) (p := p) (p' := p1) (top := top) (major := major) (m := m) (by rw [h]; rfl)
        exact .inr ⟨ev, by rw [h3]; exact List.mem_append_left _ h4, h5⟩
    · cases h

theorem parse_err {sem : Sem V X E} (hn : NoErr sem) {fuel : Nat} {p p1 : Parser V X} {k : Tok V} {e : E} (h : parse t sem fuel p k = some (.err p1 e)) :
    (∃ tok, Event.stackOverflow tok ∈ p1.trace) ∨ ∃ ev ∈ p1.trace, ev.isSyntax = true := by
  rcases parseToken_inv h with ⟨h1, _⟩ | ⟨_, r', hl, hr⟩
  · cases h1
  rcases hr with ⟨p2, e2, rfl, h2⟩ | ⟨h1, rfl⟩
  · cases h2; exact loop_err (p1 := p2) hn hl
  · exact absurd rfl (h1 _ _)

theorem feed_err {sem : Sem V X E} (hn : NoErr sem) {fuel : Nat} {p1 : Parser V X} {e : E} : ∀ {toks : List (Tok V)} {p : Parser V X},
    feed t sem fuel p toks = some (.err p1 e) → (∃ tok, Event.stackOverflow tok ∈ p1.trace) ∨ ∃ ev ∈ p1.trace, ev.isSyntax = true := by
  intro toks
  induction toks with
  | nil => intro p h; cases h
  | cons k toks ih =>
    intro p h
    rw [feed] at h
    cases hk : parse t sem fuel p k with
    | none => rw [hk] at h; cases h
    | some r =>
      rw [hk] at h
      cases r with
      | ok p2 u => exact ih h
      | err p2 e2 => cases h; exact parse_err hn hk
      | panic w => cases h

/-! ## Sentences with other values and numbers -/

/-- The declarations have the same trees. -/
structure SameTrees (D D' : List Decl) : Prop where
  rules : ∀ u, u ∈ rulesOf D ↔ u ∈ rulesOf D'
  start : startOf D = startOf D'
  multi : isClass D = isClass D'
  subs : classMembers D = classMembers D'
  fallback : fallbackOf D = fallbackOf D'
  wild : wildcardOf D = wildcardOf D'

theorem SaysSame.trees (h : SaysSame ds ds') : SameTrees ds ds' := ⟨fun _ => by rw [h.rules], h.startOf, h.multi, h.subs, h.fallback, h.wild⟩

theorem SameTrees.refl (D : List Decl) : SameTrees D D := ⟨fun _ => Iff.rfl, rfl, rfl, rfl, rfl, rfl⟩

theorem SameTrees.taken {D D' : List Decl} (h : SameTrees D D') {i j : Ident} (ht : TakenFor D i j) : TakenFor D' i j := by
  induction ht with
  | self => exact .self
  | fallback h1 _ ih => exact .fallback (by rw [← h.fallback]; exact h1) ih
  | wildcard h1 => exact .wildcard (by rw [← h.wild]; exact h1)

theorem SameTrees.matches {D D' : List Decl} (h : SameTrees D D') {e : RhsElem} {j : Ident} (hm : Matches D e j) : Matches D' e j := by
  unfold Matches at hm ⊢
  rw [← h.multi, ← h.subs]
  exact hm

theorem fits_move {D D' : List Decl} (hd : SameTrees D D') {names names' : List SymName} {ts : List (Tree V)} {es : List RhsElem} (h : Spec.Fits D names ts es) :
    ∀ {ks : List (Tok V)}, List.Forall₂ (fun (k k' : Tok V) => names[k.major]? = names'[k'.major]?) (Tree.yields ts) ks →
      ∃ ts', Spec.Fits D' names' ts' es ∧ Tree.yields ts' = ks := by
  induction h with
  | nil => intro ks h; cases h; exact ⟨[], .nil, rfl⟩
  | @tok k i j e ts es h1 h2 h3 _ ih =>
    intro ks h
    cases h with
    | @cons _ k' _ ks hk h =>
      obtain ⟨ts', a1, rfl⟩ := ih h
      exact ⟨.tok k' :: ts', .tok (by rw [← hk]; exact h1) (hd.taken h2) (hd.matches h3) a1, rfl⟩
  | absent _ ih =>
    intro ks h
    obtain ⟨ts', a1, a2⟩ := ih h
    exact ⟨.absent :: ts', .absent a1, by rw [← a2]; rfl⟩
  | @present T i al ts es _ _ ih1 ih2 =>
    intro ks h
    obtain ⟨ls, rs, rfl, h1, h2⟩ := sameTok_split h
    obtain ⟨us, b1, b2⟩ := ih1 (ks := ls) (by simpa [Tree.yields, Tree.yield] using h1)
    obtain ⟨ts', a1, a2⟩ := ih2 h2
    obtain ⟨T', rfl⟩ := fits_one b1
    exact ⟨.present T' :: ts', .present b1 a1, by rw [← b2, ← a2]; simp [Tree.yields, Tree.yield]⟩
  | @rule n u kids al ts es h1 _ _ ih1 ih2 =>
    intro ks h
    obtain ⟨ls, rs, rfl, h2, h3⟩ := sameTok_split h
    obtain ⟨us, b1, b2⟩ := ih1 (ks := ls) h2
    obtain ⟨ts', a1, a2⟩ := ih2 h3
    obtain ⟨m, hm⟩ := List.mem_iff_getElem?.1 ((hd.rules u).1 (List.mem_of_getElem? h1))
    exact ⟨.rule m us :: ts', .rule hm b1 a1, by rw [← b2, ← a2]; rfl⟩

theorem isTree_move {D D' : List Decl} (hd : SameTrees D D') {names names' : List SymName} {T : Tree V} (h : IsTree D names T) {ks : List (Tok V)}
    (hk : List.Forall₂ (fun (k k' : Tok V) => names[k.major]? = names'[k'.major]?) T.yield ks) : ∃ T', IsTree D' names' T' ∧ T'.yield = ks := by
  obtain ⟨i, h1, h2⟩ := h
  obtain ⟨ts', a1, a2⟩ := fits_move hd h2 (names' := names') (ks := ks) (by simpa [Tree.yields] using hk)
  obtain ⟨T', rfl⟩ := fits_one a1
  exact ⟨T', ⟨i, by rw [← hd.start]; exact h1, a1⟩, by simpa [Tree.yields] using a2⟩

theorem fits_names {D : List Decl} {names : List SymName} {ts : List (Tree V)} {es : List RhsElem} (h : Spec.Fits D names ts es) :
    ∀ k ∈ Tree.yields ts, ∃ i, names[k.major]? = some (.ident i) := by
  induction h with
  | nil => intro k hk; cases hk
  | tok h1 _ _ _ ih =>
    intro k hk
    rcases List.mem_cons.1 (show k ∈ _ :: _ from hk) with rfl | hk
    · exact ⟨_, h1⟩
    · exact ih k hk
  | absent _ ih => exact fun k hk => ih k hk
  | present _ _ ih1 ih2 =>
    intro k hk
    rcases List.mem_append.1 (show k ∈ _ ++ _ from hk) with hk | hk
    · exact ih1 k (by simpa [Tree.yields, Tree.yield] using hk)
    · exact ih2 k hk
  | rule _ _ _ ih1 ih2 =>
    intro k hk
    rcases List.mem_append.1 (show k ∈ _ ++ _ from hk) with hk | hk
    · exact ih1 k hk
    · exact ih2 k hk

theorem isTree_names {D : List Decl} {names : List SymName} {T : Tree V} (h : IsTree D names T) : ∀ k ∈ T.yield, ∃ i, names[k.major]? = some (.ident i) := by
  obtain ⟨_, _, h2⟩ := h
  exact fun k hk => fits_names h2 k (by simpa [Tree.yields] using hk)

theorem names_length (ho : OrdOk ord) (hc : compile ord ds = .ok t) : t.tokenNames.length = t.numTerminals := by
  obtain ⟨s⟩ := compile_cspec hc
  have hi := s.ginv ho
  rw [s.gen.numTerminals, s.gen.tokenNames, List.length_map, List.length_take, s.gen.shape.nterm, s.gen.shape.symbols, hi.slen]
  have := hi.nterm
  omega

/-- The token with a value that it may have -/
def fitting (t : Tables) (sem : Sem V X E) (k : Tok V) : Tok V := ⟨k.major, if t.tokenDt.getD k.major 0 = 0 then sem.unit else k.val⟩

theorem fitting_self {sem : Sem V X E} {k : Tok V} (h : k.Valid t sem) : fitting t sem k = k := by
  obtain ⟨a, b⟩ := k
  unfold fitting
  split
  · rename_i h0
    rw [show b = sem.unit from h.unit h0]
  · rfl

theorem fitting_valid (ho : OrdOk ord) (hc : compile ord ds = .ok t) (sem : Sem V X E) {k : Tok V} {i : Ident} (h : t.tokenNames[k.major]? = some (.ident i)) :
    (fitting t sem k).Valid t sem := by
  obtain ⟨_, _, _, hn, _⟩ := C52_partial ho hc
  refine ⟨?_, ?_, ?_⟩
  · rcases Nat.eq_zero_or_pos k.major with h0 | h0
    · rw [h0, hn] at h; cases h
    · exact h0
  · rw [← names_length ho hc]
    exact (List.getElem?_eq_some_iff.1 h).1
  · intro h0
    unfold fitting
    exact if_pos h0

theorem forall₂_map {α β : Type} {R : α → β → Prop} {f : α → β} : ∀ {l : List α}, (∀ a ∈ l, R a (f a)) → List.Forall₂ R l (l.map f)
  | [], _ => .nil
  | a :: _, h => .cons (h a List.mem_cons_self) (forall₂_map fun b hb => h b (List.mem_cons_of_mem _ hb))

theorem begins_valid (ho : OrdOk ord) (hc : compile ord ds = .ok t) (sem : Sem V X E) {toks : List (Tok V)} (hv : ∀ tok ∈ toks, tok.Valid t sem)
    (h : BeginsSentence ds t.tokenNames toks) : ∃ T : Tree V, IsTree ds t.tokenNames T ∧ toks <+: T.yield ∧ ∀ tok ∈ T.yield, tok.Valid t sem := by
  obtain ⟨T, h1, rest, h2⟩ := h
  obtain ⟨T', a1, a2⟩ := isTree_move (.refl ds) h1 (names' := t.tokenNames) (ks := T.yield.map (fitting t sem)) (forall₂_map fun _ _ => rfl)
  refine ⟨T', a1, ?_, ?_⟩
  · rw [a2, ← h2, List.map_append]
    conv => lhs; rw [← List.map_id toks]
    rw [List.map_congr_left (f := id) (g := fitting t sem) fun k hk => (fitting_self (hv k hk)).symm]
    exact List.prefix_append _ _
  · rw [a2]
    intro tok ht
    obtain ⟨k, hk, rfl⟩ := List.mem_map.1 ht
    obtain ⟨i, hi⟩ := isTree_names h1 k hk
    exact fitting_valid ho hc sem hi

theorem Spec.BeginsSentence.of_prefix {names : List SymName} {toks more : List (Tok V)} (h : BeginsSentence ds names (toks ++ more)) : BeginsSentence ds names toks := by
  obtain ⟨T, h1, h2⟩ := h
  exact ⟨T, h1, (List.prefix_append _ _).trans h2⟩

/-- The log after a part of the tokens is a part of the log of the run. -/
theorem runAll_feed {sem : Sem V X E} {fuel f1 : Nat} {x : X} {toks rest : List (Tok V)} {R : Res V X E V} {r : Res V X E Unit} {p pf : Parser V X}
    (h : runAll t sem fuel x (toks ++ rest) = some R) (hp : R.parser? = some pf) (h1 : feed t sem f1 (Parser.new sem x) toks = some r) (h2 : r.parser? = some p) :
    p.trace <:+ pf.trace := by
  unfold runAll at h
  rw [feed_append] at h
  cases hf : feed t sem fuel (Parser.new sem x) toks with
  | none => rw [hf] at h; cases h
  | some r0 =>
    have := feed_det hf h1
    subst this
    rw [hf] at h
    cases r0 with
    | panic w => cases h2
    | err p1 e => simp only [Option.some.injEq] at h; subst h; cases hp; cases h2; exact List.suffix_refl _
    | ok p1 u =>
      cases h2
      simp only at h
      cases hr : feed t sem fuel p rest with
      | none => rw [hr] at h; cases h
      | some r3 =>
        rw [hr] at h
        cases r3 with
        | panic w => simp only [Option.some.injEq] at h; subst h; cases hp
        | err p3 e => simp only [Option.some.injEq] at h; subst h; cases hp; exact feed_suffix hr rfl
        | ok p3 u =>
          simp only at h
          refine (feed_suffix hr rfl).trans ?_
          unfold endOfInput at h
          rw [Option.map_eq_some_iff] at h
          obtain ⟨r4, h4, h5⟩ := h
          cases r4 with
          | panic w => subst h5; cases hp
          | err p4 e => subst h5; cases hp; exact parseToken_suffix h4 rfl
          | ok p4 u =>
            simp only at h5
            split at h5
            · subst h5; cases hp; exact parseToken_suffix h4 rfl
            · subst h5; cases hp

/-- C68 where rows of the packed tables do not overlap, without classes that are members of classes and without an untyped start symbol where `()`
is a type.
Missing: these, where it is false, see `C68_false`; fallbacks, wildcards and settled conflicts. -/
theorem C68_partial (ho : OrdOk ord) (hc : compile ord ds = .ok t) (hf : flat ds = true) (hA : apart ord ds = true) (hr : rootOk ds = true)
    (hk : ds.all keepsTokens = true) (R : Run ord ds) (hn : NoClash R.g) (hP : Productive V ds t.tokenNames) (sem : Sem V X E) (he : NoErr sem) {x : X}
    {toks : List (Tok V)} (hv : ∀ tok ∈ toks, tok.Valid t sem) {fuel : Nat} {r : Res V X E Unit} {p : Parser V X}
    (h : feed t sem fuel (Parser.new sem x) toks = some r) (hp : r.parser? = some p) (hs : ∀ tok, Event.stackOverflow tok ∉ p.trace) :
    noSyntaxError p.trace = true ↔ BeginsSentence ds t.tokenNames toks := by
  constructor
  · intro hno
    unfold noSyntaxError at hno
    rw [List.all_eq_true] at hno
    cases r with
    | panic w => cases hp
    | err p1 e =>
      cases hp
      rcases feed_err he h with ⟨tok, h1⟩ | ⟨ev, h1, h2⟩
      · exact absurd h1 (hs tok)
      · have := hno ev h1
        rw [h2] at this; cases this
    | ok p1 u =>
      cases hp
      exact C05_sentence_partial ho hc hf hA hP sem hv h (fun n hm => by have := hno _ hm; cases this)
  · intro hb
    obtain ⟨T, h1, ⟨rest, h2⟩, h3⟩ := begins_valid ho hc sem hv hb
    have hown : ownTokens ds = ds := List.filter_eq_self.2 (List.all_eq_true.1 hk)
    have hw : wildcardOf ds = none := by rw [← hown]; exact own_wildcard
    have h4 : IsOwnTree ds t.tokenNames T := by unfold IsOwnTree; rw [hown]; exact h1
    have hrun : ∃ fuel2 R pf, runAll t sem fuel2 x T.yield = some R ∧ R.parser? = some pf ∧ noSyntaxError pf.trace = true := by
      rcases C03_partial ho hc hf hA hr hw R hn sem x h4 h3 with ⟨v, pf, f, _, g1, g2⟩ | ⟨e, pf, f, _, g1, g2⟩ | ⟨_, e, pf, f, _, _, g1, _, g2⟩
      · exact ⟨f, _, pf, g1, rfl, onlyMoves_noSyntax g2⟩
      · exact ⟨f, _, pf, g1, rfl, onlyMoves_noSyntax g2⟩
      · exact ⟨f, _, pf, g1, rfl, g2⟩
    obtain ⟨fuel2, R', pf, g1, g2, g3⟩ := hrun
    rw [← h2] at g1
    exact noSyntax_suffix (runAll_feed g1 g2 h hp) g3

/-- C68, for the next token: it is an error if and only if no sentence has it there. -/
theorem C68_next_partial (ho : OrdOk ord) (hc : compile ord ds = .ok t) (hf : flat ds = true) (hA : apart ord ds = true) (hr : rootOk ds = true)
    (hk : ds.all keepsTokens = true) (R : Run ord ds) (hn : NoClash R.g) (hP : Productive V ds t.tokenNames) (sem : Sem V X E) (he : NoErr sem) {x : X}
    {toks : List (Tok V)} (hv : ∀ tok ∈ toks, tok.Valid t sem) {k : Tok V} (hkv : k.Valid t sem) {fuel : Nat} {p p' : Parser V X} {r : Res V X E Unit}
    (h : feed t sem fuel (Parser.new sem x) toks = some (.ok p ())) (hq : parse t sem fuel p k = some r) (hp : r.parser? = some p')
    (hs : ∀ tok, Event.stackOverflow tok ∉ p'.trace) : noSyntaxError p'.trace = false ↔ ¬ BeginsSentence ds t.tokenNames (toks ++ [k]) := by
  rw [← C68_partial ho hc hf hA hr hk R hn hP sem he (x := x) (toks := toks ++ [k]) (fuel := fuel) (r := r) (p := p') ?_ ?_ hp hs, Bool.not_eq_true]
  · intro tok ht
    rcases List.mem_append.1 ht with ht | ht
    · exact hv tok ht
    · rw [List.mem_singleton.1 ht]; exact hkv
  · rw [feed_append, h]
    simp only
    rw [feed, hq]
    cases r with
    | ok p1 u => rfl
    | err => rfl
    | panic => rfl

/-! ## The order of directives -/

theorem begins_move {D D' : List Decl} (hd : SameTrees D D') {names names' : List SymName} {ρ : Nat → Nat} (hρ : SameTokens names names' ρ) {toks : List (Tok V)}
    (h : BeginsSentence D names toks) : BeginsSentence D' names' (toks.map (Tok.swap ρ)) := by
  obtain ⟨T, h1, rest, h2⟩ := h
  obtain ⟨T', a1, a2⟩ := isTree_move hd h1 (names' := names') (ks := T.yield.map (Tok.swap ρ)) (forall₂_map fun k hk => by
    obtain ⟨i, hi⟩ := isTree_names h1 k hk
    rw [hi]
    exact (hρ _ _ hi).symm)
  exact ⟨T', a1, by rw [a2, ← h2, List.map_append]; exact List.prefix_append _ _⟩

theorem productive_move {D D' : List Decl} (hd : SameTrees D D') {names names' : List SymName} {ρ : Nat → Nat} (hρ : SameTokens names names' ρ)
    (h : Productive V D names) : Productive V D' names' := by
  have key : ∀ {e : RhsElem}, (∃ T : Tree V, Spec.Fits D names [T] [e]) → ∃ T : Tree V, Spec.Fits D' names' [T] [e] := by
    rintro e ⟨T, hT⟩
    obtain ⟨ts', a1, _⟩ := fits_move hd hT (names' := names') (ks := (Tree.yields [T]).map (Tok.swap ρ)) (forall₂_map fun k hk => by
      obtain ⟨i, hi⟩ := fits_names hT k hk
      rw [hi]
      exact (hρ _ _ hi).symm)
    obtain ⟨T', rfl⟩ := fits_one a1
    exact ⟨T', a1⟩
  refine ⟨fun i hi => key (h.1 i (by rw [hd.start]; exact hi)), fun u hu e he => key (h.2 u ((hd.rules u).2 hu) e he)⟩

/-- The parser for the same declarations in another order notices an error at the same token. -/
theorem C68_order_partial (ho : OrdOk ord) (ho' : OrdOk ord') (hd : Reordered ds ds') (hc : compile ord ds = .ok t) (hc' : compile ord' ds' = .ok t')
    (hf : flat ds = true) (hA : apart ord ds = true) (hA' : apart ord' ds' = true) (hr : rootOk ds = true) (hr' : rootOk ds' = true)
    (hk : ds.all keepsTokens = true) (hn : noAssoc ds = true) (hP : Productive V ds t.tokenNames) (sem : Sem V X E) (he : NoErr sem) {x : X}
    {toks : List (Tok V)} (hv : ∀ tok ∈ toks, tok.Valid t sem) (hv' : ∀ tok ∈ toks, (tok.swap (renumber t.tokenNames t'.tokenNames)).Valid t' sem)
    {fuel fuel' : Nat} {r r' : Res V X E Unit} {p p' : Parser V X}
    (h : feed t sem fuel (Parser.new sem x) toks = some r) (hp : r.parser? = some p) (hs : ∀ tok, Event.stackOverflow tok ∉ p.trace)
    (h' : feed t' sem fuel' (Parser.new sem x) (toks.map (Tok.swap (renumber t.tokenNames t'.tokenNames))) = some r') (hp' : r'.parser? = some p')
    (hs' : ∀ tok, Event.stackOverflow tok ∉ p'.trace) : noSyntaxError p'.trace = noSyntaxError p.trace := by
  have hsf : noSelfFallback ds = true := by
    unfold noSelfFallback
    rw [List.all_eq_true] at hk ⊢
    intro d hd
    have := hk d hd
    cases d <;> first | rfl | cases this
  have hl := reordered_like hd hsf hc
  have hρ := names_reordered ho ho' hd hc hc' hsf
  have hρ' : SameTokens t'.tokenNames t.tokenNames (renumber t'.tokenNames t.tokenNames) :=
    names_same ho' ho hc' hc hl.symm fun d h _ hi => ⟨d, hd.perm.mem_iff.2 h, hi⟩
  obtain ⟨g0, h0⟩ := compile_reads hc
  obtain ⟨g0', h0'⟩ := compile_reads hc'
  have hsame := alike hl h0 h0'
  have hback := alike hl.symm h0' h0
  have hk' : ds'.all keepsTokens = true := by rw [← hd.perm.all_eq]; exact hk
  have hn' : noAssoc ds' = true := by unfold noAssoc at hn ⊢; rw [← hd.perm.all_eq]; exact hn
  obtain ⟨R⟩ := run_exists hc
  obtain ⟨R'⟩ := run_exists hc'
  obtain ⟨_, _, _, hnm, hnd⟩ := C52_partial ho hc
  have hnd : t.tokenNames.Nodup := by
    rw [hnm, List.nodup_cons]
    exact ⟨by simp, hnd.map (fun a b h => by cases h; rfl)⟩
  have h1 := C68_partial ho hc hf hA hr hk R (noClash_of_noAssoc ho R hn) hP sem he hv h hp hs
  have h2 := C68_partial ho' hc' (hsame.flat'.1 hf) hA' hr' hk' R' (noClash_of_noAssoc ho' R' hn') (productive_move hsame.trees hρ hP) sem he
    (by intro tok ht; obtain ⟨k, hk, rfl⟩ := List.mem_map.1 ht; exact hv' k hk) h' hp' hs'
  rw [Bool.eq_iff_iff, h1, h2]
  constructor
  · intro hb
    have := begins_move hback.trees hρ' hb
    rw [List.map_map] at this
    rw [List.map_congr_left (f := _ ∘ _) (g := id) fun k hk => ?_, List.map_id] at this
    · exact this
    · show ({ k with major := _ } : Tok V) = k
      rw [show renumber t'.tokenNames t.tokenNames (Tok.swap (renumber t.tokenNames t'.tokenNames) k).major = k.major from
        renumber_back hnd hρ hρ' (by rw [names_length ho hc]; exact (hv k hk).lt)]
  · exact begins_move hsame.trees hρ

/-! ## Examples -/

namespace Noticed
open Tests (U L s r logSem)
open Examples Prefixes Expect

theorem both_names : (tablesOf both).tokenNames = [.dollar, .ident (U 1), .ident (U 2)] := by decide +kernel

theorem both_productive : Productive Int both (tablesOf both).tokenNames := by
  have tok : ∀ {i : Ident} {n : Nat} {ts : List (Tree Int)} {es : List RhsElem}, (tablesOf both).tokenNames[n]? = some (.ident i) → isClass both i = false →
      Spec.Fits both (tablesOf both).tokenNames ts es → Spec.Fits (V := Int) both (tablesOf both).tokenNames (.tok ⟨n, 0⟩ :: ts) (⟨[i], false, false⟩ :: es) :=
    fun h h' h2 => .tok h .self ⟨rfl, by simp [h']⟩ h2
  refine ⟨fun i hi => ?_, fun u hu e he => ?_⟩
  · have : startOf both = some (L 0) := by decide
    rw [this] at hi; cases hi
    exact ⟨_, .rule (n := 0) (u := ⟨L 0, [s (U 1), s (U 2)], none, none⟩) (by rfl) (tok (n := 1) (by rw [both_names]; rfl) (by decide)
      (tok (n := 2) (by rw [both_names]; rfl) (by decide) .nil)) .nil⟩
  · have : ∀ u ∈ rulesOf both, ∀ e ∈ u.rhs, e = s (U 1) ∨ e = s (U 2) := by decide
    rcases this u hu e he with rfl | rfl
    · exact ⟨_, tok (n := 1) (by rw [both_names]; rfl) (by decide) .nil⟩
    · exact ⟨_, tok (n := 2) (by rw [both_names]; rfl) (by decide) .nil⟩

/-- Its trees have at most one token for each of two elements. -/
theorem both_fits {names : List SymName} {ts : List (Tree V)} {es : List RhsElem} (h : Spec.Fits both names ts es) :
    (∀ e ∈ es, e = s (U 1) ∨ e = s (U 2)) → (Tree.yields ts).length ≤ es.length := by
  induction h with
  | nil => intro _; exact Nat.le_refl _
  | tok _ _ _ _ ih => 
    intro h
    have := ih fun e he => h e (List.mem_cons_of_mem _ he)
    simp only [Tree.yields, Tree.yield, List.length_append, List.length_cons, List.length_nil]
    omega
  | absent _ _ => intro h; rcases h _ List.mem_cons_self with h | h <;> simp [s] at h
  | present _ _ _ _ => intro h; rcases h _ List.mem_cons_self with h | h <;> simp [s] at h
  | @rule n u kids al ts es h1 _ _ _ _ =>
    intro h
    have : ∀ u ∈ rulesOf both, u.lhs = L 0 := by decide
    have hu := this u (List.mem_of_getElem? h1)
    rcases h _ List.mem_cons_self with h | h <;> rw [hu] at h <;> simp [s, L, U] at h

theorem both_short {names : List SymName} {T : Tree V} (h : IsTree both names T) : T.yield.length ≤ 2 := by
  obtain ⟨i, hi, h⟩ := h
  have : startOf both = some (L 0) := by decide
  rw [this] at hi; cases hi
  generalize he : [(⟨[L 0], false, false⟩ : RhsElem)] = es at h
  generalize ht : [T] = ts at h
  cases h with
  | nil => cases he
  | tok => cases ht; show 1 ≤ 2; decide
  | absent => cases he
  | present => cases he
  | @rule n u kids al ts es h1 h2 h3 =>
    cases ht
    have : ∀ u ∈ rulesOf both, u.rhs.length ≤ 2 ∧ ∀ e ∈ u.rhs, e = s (U 1) ∨ e = s (U 2) := by decide
    obtain ⟨a1, a2⟩ := this u (List.mem_of_getElem? h1)
    have := both_fits h2 a2
    show (Tree.yields kids).length ≤ 2
    omega

/-- All that is asked about the log of a run -/
def quiet (t : Tables) (toks : List (Tok Int)) (fails : Bool) : Bool :=
  toks.all (validB t logSem) && match (feed t logSem 1000 (Parser.new logSem []) toks).bind (·.parser?) with
    | some p => (noSyntaxError p.trace == !fails) && p.trace.all fun | .stackOverflow _ => false | _ => true
    | none => false

theorem quiet_iff {t : Tables} {toks : List (Tok Int)} {fails : Bool} (h : quiet t toks fails = true) :
    (∀ tok ∈ toks, tok.Valid t logSem) ∧ ∃ r p, feed t logSem 1000 (Parser.new logSem []) toks = some r ∧ r.parser? = some p ∧ noSyntaxError p.trace = !fails ∧
      ∀ tok, Event.stackOverflow tok ∉ p.trace := by
  unfold quiet at h
  rw [Bool.and_eq_true, List.all_eq_true] at h
  obtain ⟨h1, h2⟩ := h
  refine ⟨fun tok ht => validB_iff (h1 tok ht), ?_⟩
  split at h2
  · rename_i p hp
    obtain ⟨r, hr, hp⟩ := Option.bind_eq_some_iff.1 hp
    simp only [Bool.and_eq_true, List.all_eq_true, beq_iff_eq] at h2
    exact ⟨r, p, hr, hp, h2.1, fun tok hm => by have := h2.2 _ hm; cases this⟩
  · cases h2

theorem noErr : NoErr logSem := fun _ _ x => ⟨0, x ++ [_], rfl⟩
theorem stars_ok : compile id stars = .ok (tablesOf stars) := compiles_iff (by decide +kernel)

theorem stars_iff {toks : List (Tok Int)} {fails : Bool} (h : quiet (tablesOf stars) toks fails = true) :
    fails = false ↔ BeginsSentence stars (tablesOf stars).tokenNames toks := by
  obtain ⟨h1, r, p, h2, h3, h4, h5⟩ := quiet_iff h
  obtain ⟨R⟩ := run_exists stars_ok
  rw [← C68_partial OrdOk.id stars_ok (by decide) (by decide +kernel) (by decide) (by decide) R (noClash_of_noAssoc OrdOk.id R (by decide)) stars_productive
    logSem noErr h1 h2 h3 h5, h4]
  cases fails <;> simp

-- `Num Star Num` begins a sentence, and the parser takes it; `Num Star Star` does not, and the parser reports the third token
example : BeginsSentence stars (tablesOf stars).tokenNames (tk [2, 3, 2]) := (stars_iff (fails := false) (by decide +kernel)).1 rfl
example : ¬ BeginsSentence stars (tablesOf stars).tokenNames (tk [2, 3, 3]) := fun h => by
  cases (stars_iff (fails := true) (by decide +kernel)).2 h

/-- After two tokens, and after the third -/
def third : Option (Parser Int (List Nat) × Res Int (List Nat) Unit Unit × Parser Int (List Nat)) :=
  match feed (tablesOf stars) logSem 1000 (Parser.new logSem []) (tk [2, 3]) with
  | some (.ok p _) => (parse (tablesOf stars) logSem 1000 p ⟨3, 0⟩).bind fun r => r.parser?.map fun p' => (p, r, p')
  | _ => none

-- the token that is noticed is the third one
example : ∃ p r p', feed (tablesOf stars) logSem 1000 (Parser.new logSem []) (tk [2, 3]) = some (.ok p ()) ∧ noSyntaxError p.trace = true ∧
    parse (tablesOf stars) logSem 1000 p ⟨3, 0⟩ = some r ∧ r.parser? = some p' ∧ noSyntaxError p'.trace = false ∧
    ¬ BeginsSentence stars (tablesOf stars).tokenNames (tk [2, 3] ++ [⟨3, 0⟩]) := by
  have h : third.any (fun (p, _, p') => noSyntaxError p.trace && (noSyntaxError p'.trace == false && p'.trace.all fun | .stackOverflow _ => false | _ => true)) = true := by
    decide +kernel
  obtain ⟨⟨p, r, p'⟩, h1, h2⟩ := (Option.any_eq_true _ _).1 h
  unfold third at h1
  split at h1
  · rename_i q _ hq
    obtain ⟨r', h3, h4⟩ := Option.bind_eq_some_iff.1 h1
    obtain ⟨q', h5, h6⟩ := Option.map_eq_some_iff.1 h4
    cases h6
    simp only [Bool.and_eq_true, beq_iff_eq, List.all_eq_true] at h2
    obtain ⟨R⟩ := run_exists stars_ok
    refine ⟨p, r, p', hq, h2.1, h3, h5, h2.2.1, ?_⟩
    refine (C68_next_partial OrdOk.id stars_ok (by decide) (by decide +kernel) (by decide) (by decide) R (noClash_of_noAssoc OrdOk.id R (by decide))
      stars_productive logSem noErr ?_ ?_ hq h3 h5 ?_).1 h2.2.1
    · exact fun tok ht => validB_iff (List.all_eq_true.1 (show (tk [2, 3]).all (validB (tablesOf stars) logSem) = true by decide +kernel) tok ht)
    · exact validB_iff (by decide +kernel)
    · intro tok hm; have := h2.2.2 _ hm; cases this
  · cases h1

/-- `stars` and then `%type Star T;` -/
def typed : List Decl := stars ++ [.type false (U 3) (some (.named 0))]
/-- The directive after the first rule: `Star` has number 2 now, and `Num` 3. -/
def typed' : List Decl := stars.take 1 ++ .type false (U 3) (some (.named 0)) :: stars.drop 1

theorem typed_moved : Reordered typed typed' :=
  .swap (l := stars.take 1) (r := stars.drop 2) (.swap (l := stars.take 2) (r := stars.drop 3) (.swap (l := stars.take 3) (r := []) .same rfl) rfl) rfl

theorem typed_ok : compile id typed = .ok (tablesOf typed) := compiles_iff (by decide +kernel)
theorem typed_ok' : compile id typed' = .ok (tablesOf typed') := compiles_iff (by decide +kernel)

theorem typed_productive : Productive Int typed (tablesOf typed).tokenNames :=
  productive_move (D := stars) (D' := typed) (names := (tablesOf stars).tokenNames) (names' := (tablesOf typed).tokenNames) (ρ := id) ⟨fun _ => by rw [show rulesOf stars = rulesOf typed by decide], by decide, funext fun _ => rfl, funext fun _ => rfl, funext fun _ => rfl, rfl⟩ (by
    have : (tablesOf typed).tokenNames = (tablesOf stars).tokenNames := by decide +kernel
    rw [this]
    exact fun _ _ h => h) stars_productive

-- one parser reports the third token of `Num Star Star`, so the other one does
example : ∃ r p, feed (tablesOf typed') logSem 1000 (Parser.new logSem []) (tk [3, 2, 2]) = some r ∧ r.parser? = some p ∧ noSyntaxError p.trace = false := by
  obtain ⟨h1, r, p, h2, h3, h4, h5⟩ := quiet_iff (t := tablesOf typed) (toks := tk [2, 3, 3]) (fails := true) (by decide +kernel)
  have e : (tk [2, 3, 3]).map (Tok.swap (renumber (tablesOf typed).tokenNames (tablesOf typed').tokenNames)) = tk [3, 2, 2] := by decide +kernel
  obtain ⟨r', hr', p', hp', ho'⟩ : ∃ r', feed (tablesOf typed') logSem 1000 (Parser.new logSem []) (tk [3, 2, 2]) = some r' ∧ ∃ p', r'.parser? = some p' ∧
      p'.trace.all (fun | .stackOverflow _ => false | _ => true) = true := by
    have : ((feed (tablesOf typed') logSem 1000 (Parser.new logSem []) (tk [3, 2, 2])).bind (·.parser?)).any
        (fun p => p.trace.all fun | .stackOverflow _ => false | _ => true) = true := by decide +kernel
    rw [Option.any_eq_true] at this
    obtain ⟨p', h, h'⟩ := this
    obtain ⟨r', a, b⟩ := Option.bind_eq_some_iff.1 h
    exact ⟨r', a, p', b, h'⟩
  refine ⟨r', p', hr', hp', ?_⟩
  rw [C68_order_partial OrdOk.id OrdOk.id typed_moved typed_ok typed_ok' (by decide) (by decide +kernel) (by decide +kernel) (by decide) (by decide) (by decide)
    (by decide) typed_productive logSem noErr h1 ?_ h2 h3 h5 (e ▸ hr') hp' ?_, h4]
  · rfl
  · intro tok ht
    have : (tk [2, 3, 3]).all (fun tok => validB (tablesOf typed') logSem (tok.swap (renumber (tablesOf typed).tokenNames (tablesOf typed').tokenNames))) = true := by
      decide +kernel
    exact validB_iff (List.all_eq_true.1 this tok ht)
  · intro tok hm
    have := List.all_eq_true.1 ho' _ hm
    cases this

end Noticed

open Noticed Tests Examples Prefixes in
/-- C68 fails: the parser of `s ::= A B; s ::= B A;` takes `A B A` without an error. -/
theorem C68_false : ¬ C68_statement := by
  intro h
  obtain ⟨h1, r, p, h2, h3, h4, h5⟩ := quiet_iff (t := tablesOf both) (toks := tk [1, 2, 1]) (fails := false) (by decide +kernel)
  obtain ⟨T, h6, h7⟩ := (h id OrdOk.id both _ (compiles_iff (by decide +kernel)) (by decide) (by decide) both_productive logSem noErr [] _ h1 1000 r p h2 h3 h5).1 h4
  have := both_short h6
  have := h7.length_le
  simp [tk] at this
  omega

end Pomelo
