import Verif.Spec.Added
import Verif.Props.ErrorOrder
/-!
# C72: more rules

If rules are added and the macro settles no conflict in the larger grammar, then everything that was accepted still is, with the same value.
-/

namespace Pomelo

open Spec

variable {ord ord' : List (SymbolId × SymbolId) → List (SymbolId × SymbolId)} {ds ds' : List Decl} {t t' : Tables} {V X E : Type}

/-- C72 in full: what is accepted remains so when rules are added, with the same value and the same extra argument. -/
def C72_statement : Prop :=
  ∀ (ord ord' : List (SymbolId × SymbolId) → List (SymbolId × SymbolId)), OrdOk ord → OrdOk ord' → ∀ (ds ds' : List Decl), Added ds ds' →
  startOf ds = startOf ds' → ds.all keepsTokens = true → noAssoc ds = true → ∀ t t', compile ord ds = .ok t → compile ord' ds' = .ok t' →
  ∀ ρ, SameTokens t.tokenNames t'.tokenNames ρ →
  ∀ (sem : Sem Int (List Nat) Unit) (x : List Nat) (toks : List (Tok Int)) (p : Parser Int (List Nat)) (v : Int), AcceptedRun t sem x toks p v →
    ∃ p', AcceptedRun t' sem x (toks.map (Tok.swap ρ)) p' v ∧ p'.extra = p.extra

/-! ## What the declarations say -/

theorem Spec.Added.findSome {β : Type} {f : Decl → Option β} (hf : ∀ l r c p, f (.rule l r c p) = none) (h : Added ds ds') : ds.findSome? f = ds'.findSome? f := by
  induction h with
  | same => rfl
  | rule _ ih => rw [ih, List.findSome?_append, List.findSome?_append, List.findSome?_cons, hf]

theorem Spec.Added.sublist (h : Added ds ds') : ds.Sublist ds' := by
  induction h with
  | same => exact .refl _
  | rule _ ih => exact ih.trans (List.Sublist.append_left (List.sublist_cons_self _ _) _)

theorem Spec.Added.more (h : Added ds ds') : SaysMore ds ds' where
  type := funext fun _ => h.findSome fun _ _ _ _ => rfl
  fallback := funext fun _ => h.findSome fun _ _ _ _ => rfl
  multi := by
    funext i
    unfold isClass
    induction h with
    | same => rfl
    | rule _ ih => rw [ih, List.any_append, List.any_append, List.any_cons, Bool.false_or]
  subs := by
    funext i
    unfold classMembers
    induction h with
    | same => rfl
    | rule _ ih => rw [ih, List.flatMap_append, List.flatMap_append, List.flatMap_cons, List.nil_append]
  rules := fun _ hu => (h.sublist.filterMap _).mem hu
  wild := h.findSome fun _ _ _ _ => rfl
  dflt := h.findSome fun _ _ _ _ => rfl
  extra := h.findSome fun _ _ _ _ => rfl

theorem Spec.Added.stackSize (h : Added ds ds') : stackSizeOf ds' = stackSizeOf ds := by
  unfold stackSizeOf
  congr 1
  induction h with
  | same => rfl
  | rule _ ih =>
    rw [← ih]
    simp only [List.reverse_append, List.reverse_cons, List.findSome?_append]
    simp

theorem SaysMore.flat (h : SaysMore ds ds') (hf : Spec.flat ds' = true) : Spec.flat ds = true := by
  rw [SaysSame.flat_iff] at hf ⊢
  rw [h.multi, h.subs]
  refine ⟨hf.1, ?_⟩
  have := List.all_eq_true.1 hf.2
  exact List.all_eq_true.2 fun u hu => this u (h.rules u hu)

theorem names_added (ho : OrdOk ord) (ho' : OrdOk ord') (h : Added ds ds') (hc : compile ord ds = .ok t) (hc' : compile ord' ds' = .ok t') :
    SameTokens t.tokenNames t'.tokenNames (renumber t.tokenNames t'.tokenNames) := by
  obtain ⟨_, _, _, h1, _⟩ := C52_partial ho hc
  obtain ⟨_, _, _, h2, _⟩ := C52_partial ho' hc'
  apply renumber_same
  rw [h1, h2]
  intro nm hnm
  rcases List.mem_cons.1 hnm with rfl | hnm
  · exact List.mem_cons_self
  · obtain ⟨i, hi, rfl⟩ := List.mem_map.1 hnm
    refine List.mem_cons_of_mem _ (List.mem_map.2 ⟨i, ?_, rfl⟩)
    obtain ⟨⟨d, hd, hid⟩, k1, k2⟩ := mem_tokensOf.1 hi
    exact mem_tokensOf.2 ⟨⟨d, h.sublist.mem hd, hid⟩, k1, by rw [← h.more.multi]; exact k2⟩

/-! ## The parsers -/

/-- C72: if no conflict is settled in the larger grammar, what is accepted remains so when rules are added, with the same value and the same extra argument.
(In the smaller grammar conflicts may be settled.)
Missing: conflicts settled in the larger grammar (see `C72_prec`), inputs with tokens that have fallbacks (see `C72_fallback`), wildcards; rows of the packed tables that
overlap, see `C72_false`; classes of classes, and a `()` in the types. -/
theorem C72_partial (ho : OrdOk ord) (ho' : OrdOk ord') (h : Added ds ds') (hst : startOf ds = startOf ds') (hc : compile ord ds = .ok t)
    (hc' : compile ord' ds' = .ok t') (R' : Run ord' ds') (hn : NoClash R'.g) (hf : flat ds' = true) (hA : apart ord ds = true) (hA' : apart ord' ds' = true)
    (hr : rootOk ds' = true) (hw : wildcardOf ds = none) {ρ : Nat → Nat} (hρ : SameTokens t.tokenNames t'.tokenNames ρ) (sem : Sem V X E) {x : X}
    {toks : List (Tok V)} {p : Parser V X} {v : V} (hF : ∀ tok ∈ toks, ∀ i, t.tokenNames[tok.major]? = some (.ident i) → fallbackOf ds i = none)
    (ha : AcceptedRun t sem x toks p v) : ∃ p', AcceptedRun t' sem x (toks.map (Tok.swap ρ)) p' v ∧ p'.extra = p.extra := by
  have hd := h.more
  obtain ⟨T, hT, _⟩ := C60_accepted_partial ho hc (hd.flat hf) hA sem ha
  obtain ⟨st, hs, hfit⟩ := hT.tree
  have hy : Tree.yields [T] = toks := by rw [Tree.yields, Tree.yields, List.append_nil, hT.yield]
  obtain ⟨ts', a1, a2, a3, a4, a5, _⟩ := fits_shuffle hd hρ hfit (by rw [hy]; exact hF) hw
  obtain ⟨T', rfl⟩ := fits_one a1
  have hy' : T'.yield = toks.map (Tok.swap ρ) := by
    rw [hy] at a2
    simpa [Tree.yields] using a2
  have hown : IsOwnTree ds' t'.tokenNames T' := ⟨st, by rw [own_startOf, ← hst]; exact hs, a1⟩
  have hv' : ∀ tok ∈ T'.yield, tok.Valid t' sem := by
    rw [hy']
    intro tok ht
    obtain ⟨k, hk, rfl⟩ := List.mem_map.1 ht
    obtain ⟨i, hi⟩ := isTree_names hT.tree k (by rw [hT.yield]; exact hk)
    exact hd.valid ho ho' hc hc' hρ hi (ha.valid k hk)
  obtain ⟨w, hw1, hw2⟩ := hT.value
  have hval : T'.value ds' sem x = (.ok w, p.extra) := by
    have := a5 X E sem x
    simp only [Tree.values] at this
    rw [hw1] at this
    rcases hh : T'.value ds' sem x with ⟨e | v', x1⟩ <;> rw [hh] at this <;> simp_all
  have hroom : HasRoom ds' T' := by
    have hr := hT.room
    unfold HasRoom at hr ⊢
    rw [h.stackSize]
    have : T'.height = T.height := by simpa using a4
    rw [this]; exact hr
  obtain ⟨v2, p2, fuel, q1, q2, q3⟩ := (C60_partial ho' hc' hf hA' hr (by rw [← hd.wild]; exact hw) R' hn sem x hown hv').1.2 ⟨hroom, w, p.extra, hval⟩
  rw [hval] at q1
  obtain ⟨q4, q5⟩ := Prod.mk.inj q1
  cases q4
  have hroot : rootValue ds' sem w = v := by
    rw [hw2]
    unfold rootValue
    rw [hst, hd.type, hd.dflt]
  rw [hroot, hy'] at q2
  rw [hy'] at hv'
  exact ⟨p2, ⟨hv', ⟨fuel, q2⟩, moves_kept q3⟩, q5.symm⟩

/-- C72 for errors: the parser for the larger grammar notices no error earlier.
Missing: as for `C72_partial`, but there may be no fallbacks at all; symbols that have no sentences; declared precedences in the smaller grammar. -/
theorem C72_notice_partial (ho : OrdOk ord) (ho' : OrdOk ord') (h : Added ds ds') (hst : startOf ds = startOf ds') (hc : compile ord ds = .ok t)
    (hc' : compile ord' ds' = .ok t') (hf : flat ds' = true) (hA : apart ord ds = true) (hA' : apart ord' ds' = true) (hr : rootOk ds = true) (hr' : rootOk ds' = true)
    (hk : ds'.all keepsTokens = true) (hn : noAssoc ds' = true) (hP : Productive V ds t.tokenNames) (hP' : Productive V ds' t'.tokenNames) (sem : Sem V X E)
    (he : NoErr sem) {x : X} {ρ : Nat → Nat} (hρ : SameTokens t.tokenNames t'.tokenNames ρ)
    {toks : List (Tok V)} (hv : ∀ tok ∈ toks, tok.Valid t sem) (hv' : ∀ tok ∈ toks, (tok.swap ρ).Valid t' sem)
    {fuel fuel' : Nat} {r r' : Res V X E Unit} {p p' : Parser V X}
    (h1 : feed t sem fuel (Parser.new sem x) toks = some r) (hp : r.parser? = some p) (hs : ∀ tok, Event.stackOverflow tok ∉ p.trace)
    (h1' : feed t' sem fuel' (Parser.new sem x) (toks.map (Tok.swap ρ)) = some r') (hp' : r'.parser? = some p')
    (hs' : ∀ tok, Event.stackOverflow tok ∉ p'.trace) (hno : noSyntaxError p.trace = true) : noSyntaxError p'.trace = true := by
  have hd := h.more
  have sub : ∀ {f : Decl → Bool}, ds'.all f = true → ds.all f = true := fun hf => List.all_eq_true.2 fun d hd => List.all_eq_true.1 hf d (h.sublist.mem hd)
  obtain ⟨R⟩ := run_exists hc
  obtain ⟨R'⟩ := run_exists hc'
  have hn0 : noAssoc ds = true := sub hn
  have hb := (C68_partial ho hc (hd.flat hf) hA hr (sub hk) R (noClash_of_noAssoc ho R hn0) hP sem he hv h1 hp hs).1 hno
  refine (C68_partial ho' hc' hf hA' hr' hk R' (noClash_of_noAssoc ho' R' hn) hP' sem he (by
    intro tok ht; obtain ⟨k, hk, rfl⟩ := List.mem_map.1 ht; exact hv' k hk) h1' hp' hs').2 ?_
  obtain ⟨T, ⟨st, hst1, hfit⟩, rest, hy⟩ := hb
  have hown : ownTokens ds = ds := List.filter_eq_self.2 (List.all_eq_true.1 (sub hk))
  have hown' : ownTokens ds' = ds' := List.filter_eq_self.2 (List.all_eq_true.1 hk)
  have hfb : ∀ i, fallbackOf ds i = none := fun i => by rw [← hown]; exact own_fallback i
  obtain ⟨ts', a1, a2, _, _, _, _⟩ := fits_shuffle hd hρ hfit (fun _ _ i _ => hfb i) (by rw [← hown]; exact own_wildcard)
  obtain ⟨T', rfl⟩ := fits_one a1
  have hy' : T'.yield = T.yield.map (Tok.swap ρ) := by simpa [Tree.yields] using a2
  exact ⟨T', ⟨st, by rw [← hst]; exact hst1, by rw [← hown']; exact a1⟩, by rw [hy', ← hy, List.map_append]; exact List.prefix_append _ _⟩

/-! ## Examples -/

namespace C72ex
open Examples C01ex
open Tests (U L s r logSem)

theorem refused {t : Tables} {toks : List (Tok Int)} {p : Parser Int (List Nat)} {v : Int}
    (h : ∃ r, runAll t logSem 1000 [] toks = some r ∧ (match r with | .ok _ _ => false | _ => true) = true) : ¬ AcceptedRun t logSem [] toks p v := by
  rintro ⟨_, ⟨n, hn⟩, _⟩
  obtain ⟨r, h2, h3⟩ := h
  have h1 := runAll_mono hn (Nat.le_add_right n 1000)
  rw [runAll_mono h2 (Nat.le_add_left 1000 n)] at h1
  cases h1
  cases h3

/-- `%type A; s ::= C; s ::= B A;`, with overlapping rows -/
def small : List Decl := [.type false (U 0) none, r (L 0) [s (U 2)], r (L 0) [s (U 1), s (U 0)]]
/-- The same and `s ::= B C;` -/
def large : List Decl := small ++ [r (L 0) [s (U 1), s (U 2)]]

theorem small_large : Added small large := .rule (l := small) (r := []) .same

/-- `%fallback Id Key; s ::= Id A;` -/
def word : List Decl := [.fallback (U 1) [U 2], r (L 0) [s (U 1), s (U 3)]]
/-- The same and `s ::= Key B;` -/
def words : List Decl := word ++ [r (L 0) [s (U 2), s (U 4)]]

/-- `%type P; %type Q; %type R; %nonassoc Eq; s ::= Num Eq B;` -/
def equal : List Decl :=
  [.type false (U 8) none, .type false (U 9) none, .type false (U 10) none, .assoc .none [U 1], r (L 0) [s (U 2), s (U 1), s (U 3)]]
/-- The same and `s ::= x Eq A; x ::= Num [Eq]` -/
def equals : List Decl := equal ++ [r (L 0) [s (L 1), s (U 1), s (U 4)], .rule (L 1) [s (U 2)] none (some (U 1))]

/-- `s ::= A x A; s ::= B x B; s ::= A y B; s ::= B y A; x ::= E; y ::= E;` -/
def twins : List Decl :=
  [ r (L 0) [s (U 1), s (L 1), s (U 1)], r (L 0) [s (U 2), s (L 1), s (U 2)], r (L 0) [s (U 1), s (L 2), s (U 2)], r (L 0) [s (U 2), s (L 2), s (U 1)]
  , r (L 1) [s (U 3)], r (L 2) [s (U 3)] ]
/-- The same and `s ::= A E C;` -/
def triplets : List Decl := twins ++ [r (L 0) [s (U 1), s (U 3), s (U 4)]]

end C72ex

/-- C72 fails: `%type A; s ::= C; s ::= B A;` gives a parser that accepts `B` alone (as in C01); with `s ::= B C;` added it does not. -/
theorem C72_false : ¬ C72_statement := by
  intro h
  obtain ⟨p, hp, _⟩ := C01ex.acceptedB_iff (t := Examples.tablesOf C72ex.small) (m := Tests.logSem) (toks := Examples.tk [3]) (v := 0) (x := []) (by decide +kernel)
  have hc := Examples.compiles_iff (ds := C72ex.small) (by decide +kernel)
  have hc' := Examples.compiles_iff (ds := C72ex.large) (by decide +kernel)
  obtain ⟨p', h1, _⟩ := h id id OrdOk.id OrdOk.id _ _ C72ex.small_large (by decide) (by decide) (by decide) _ _ hc hc' _
    (names_added OrdOk.id OrdOk.id C72ex.small_large hc hc') _ _ _ _ _ hp
  exact C72ex.refused (by decide +kernel) h1

/-- Fallbacks: `Key A` is accepted with `%fallback Id Key; s ::= Id A;`, but not if there is a rule `s ::= Key B;`, too. -/
theorem C72_fallback : Added C72ex.word C72ex.words ∧ apart id C72ex.word = true ∧ apart id C72ex.words = true ∧ noAssoc C72ex.words = true ∧
    (∃ p v, AcceptedRun (Examples.tablesOf C72ex.word) Tests.logSem [] (Examples.tk [1, 3]) p v) ∧
    ∀ p v, ¬ AcceptedRun (Examples.tablesOf C72ex.words) Tests.logSem [] (Examples.tk [1, 3]) p v := by
  refine ⟨.rule (l := C72ex.word) (r := []) .same, by decide +kernel, by decide +kernel, by decide, ?_, fun p v => C72ex.refused (by decide +kernel)⟩
  obtain ⟨p, hp, _⟩ := C01ex.acceptedB_iff (t := Examples.tablesOf C72ex.word) (m := Tests.logSem) (toks := Examples.tk [1, 3]) (v := 0) (x := []) (by decide +kernel)
  exact ⟨p, 0, hp⟩

/-- Precedences: `Num Eq B` is accepted with `%nonassoc Eq; s ::= Num Eq B;`, but not with the rules `s ::= x Eq A; x ::= Num [Eq]` added: then `Eq` is an error
after `Num`. -/
theorem C72_prec : Added C72ex.equal C72ex.equals ∧ apart id C72ex.equal = true ∧ apart id C72ex.equals = true ∧ C72ex.equals.all keepsTokens = true ∧
    (∃ p v, AcceptedRun (Examples.tablesOf C72ex.equal) Tests.logSem [] (Examples.tk [5, 4, 6]) p v) ∧
    ∀ p v, ¬ AcceptedRun (Examples.tablesOf C72ex.equals) Tests.logSem [] (Examples.tk [5, 4, 6]) p v := by
  refine ⟨.rule (l := C72ex.equal ++ [_]) (r := []) (.rule (l := C72ex.equal) (r := []) .same), by decide +kernel, by decide +kernel, by decide, ?_,
    fun p v => C72ex.refused (by decide +kernel)⟩
  obtain ⟨p, hp, _⟩ := C01ex.acceptedB_iff (t := Examples.tablesOf C72ex.equal) (m := Tests.logSem) (toks := Examples.tk [5, 4, 6]) (v := 0) (x := []) (by decide +kernel)
  exact ⟨p, 0, hp⟩

/-- An added rule may make the macro accept declarations that it refused before, though they mean no more than one thing: after `A E` and after `B E` the same may come, and
the two states are made one, in which both `x ::= E` and `y ::= E` could be reduced; with `s ::= A E C;` they are two states. -/
theorem C72_removed : Added C72ex.twins C72ex.triplets ∧ noAssoc C72ex.triplets = true ∧ (∃ e, compile id C72ex.twins = .error e) ∧ (∃ t, compile id C72ex.triplets = .ok t) := by
  refine ⟨.rule (l := C72ex.twins) (r := []) .same, by decide, ?_, _, Examples.compiles_iff (by decide +kernel)⟩
  cases h : compile id C72ex.twins with
  | error e => exact ⟨e, rfl⟩
  | ok t =>
    have : Examples.compiles C72ex.twins = false := by decide +kernel
    unfold Examples.compiles at this
    rw [h] at this
    cases this

namespace C72ex
open Examples C01ex
open Tests (U L s r logSem)

/-- `Complex.sums` with `e ::= e(A) Minus f(B) { 2 }` after the first rule; later tokens and rules get other numbers. -/
def more : List Decl := Complex.sums.take 6 ++ r (L 1) [s (L 1) true, s (U 7), s (L 2) true] (some 2) :: Complex.sums.drop 6

theorem sums_more : Added Complex.sums more := .rule (l := Complex.sums.take 6) (r := Complex.sums.drop 6) .same
theorem more_ok : compile id more = .ok (tablesOf more) := compiles_iff (by decide +kernel)

-- `C72_partial`: `Num(5) Plus LP Num(7) Plus Num(1) RP` is read as before, although `LP` and `RP` have other numbers
example : ∃ p, AcceptedRun (tablesOf more) sumsSem [] [⟨1, 5⟩, ⟨3, 0⟩, ⟨5, 0⟩, ⟨1, 7⟩, ⟨3, 0⟩, ⟨1, 1⟩, ⟨7, 0⟩] p 997 ∧ p.extra = [0, 1, 0] := by
  obtain ⟨p, ha, hx⟩ := acceptedB_iff (t := tablesOf Complex.sums) (m := sumsSem) (toks := C69ex.input) (v := 997) (x := [0, 1, 0]) (by decide +kernel)
  obtain ⟨R⟩ := run_exists more_ok
  obtain ⟨p', h1, h2⟩ := C72_partial OrdOk.id OrdOk.id sums_more (by decide) C69ex.sums_ok more_ok R (noClash_of_noAssoc OrdOk.id R (by decide)) (by decide)
    (C69ex.sums_apart _ OrdOk.id) (by decide +kernel) (by decide) (by decide) (names_added OrdOk.id OrdOk.id sums_more C69ex.sums_ok more_ok) sumsSem C69ex.no_fallback ha
  refine ⟨p', ?_, h2.trans hx.1⟩
  rw [show [⟨1, 5⟩, ⟨3, 0⟩, ⟨5, 0⟩, ⟨1, 7⟩, ⟨3, 0⟩, ⟨1, 1⟩, ⟨7, 0⟩] = C69ex.input.map (Tok.swap (renumber (tablesOf Complex.sums).tokenNames (tablesOf more).tokenNames)) by
    decide +kernel]
  exact h1

/-- `Expect.stars` and `t ::= Id;` -/
def stars : List Decl := Expect.stars ++ [r (L 2) [s (U 4)]]

theorem stars_added : Added Expect.stars stars := .rule (l := Expect.stars) (r := []) .same
theorem stars_ok : compile id stars = .ok (tablesOf stars) := compiles_iff (by decide +kernel)
theorem stars_names : (tablesOf stars).tokenNames = [.dollar, .ident (U 1), .ident (U 2), .ident (U 3), .ident (U 4)] := by decide +kernel

theorem stars_productive : Productive Int stars (tablesOf stars).tokenNames := by
  have tok : ∀ {i : Ident} {n : Nat} {ts : List (Tree Int)} {es : List RhsElem}, (tablesOf stars).tokenNames[n]? = some (.ident i) → isClass stars i = false →
      Spec.Fits stars (tablesOf stars).tokenNames ts es → Spec.Fits (V := Int) stars (tablesOf stars).tokenNames (.tok ⟨n, 0⟩ :: ts) (⟨[i], false, false⟩ :: es) :=
    fun h h' h2 => .tok h .self ⟨rfl, by simp [h']⟩ h2
  have t : ∀ {ts : List (Tree Int)} {es}, Spec.Fits stars (tablesOf stars).tokenNames ts es →
      Spec.Fits stars (tablesOf stars).tokenNames (.rule 4 [.tok ⟨4, 0⟩] :: ts) (⟨[L 2], false, false⟩ :: es) :=
    fun h => .rule (u := ⟨L 2, [s (U 4)], none, none⟩) (by rfl) (tok (by rw [stars_names]; rfl) (by decide) .nil) h
  have e : ∀ {ts : List (Tree Int)} {es}, Spec.Fits stars (tablesOf stars).tokenNames ts es →
      Spec.Fits stars (tablesOf stars).tokenNames (.rule 1 [.rule 4 [.tok ⟨4, 0⟩]] :: ts) (⟨[L 1], false, false⟩ :: es) :=
    fun h => .rule (u := ⟨L 1, [s (L 2)], none, none⟩) (by rfl) (t .nil) h
  refine ⟨fun i hi => ?_, fun u hu x hx => ?_⟩
  · have : startOf stars = some (L 0) := by decide
    rw [this] at hi; cases hi
    exact ⟨_, .rule (n := 0) (u := ⟨L 0, [s (L 1), s (U 1)], none, none⟩) (by rfl) (e (tok (n := 1) (by rw [stars_names]; rfl) (by decide) .nil)) .nil⟩
  · have : ∀ u ∈ rulesOf stars, ∀ e ∈ u.rhs, e = s (L 1) ∨ e = s (L 2) ∨ e = s (U 1) ∨ e = s (U 2) ∨ e = s (U 3) ∨ e = s (U 4) := by decide
    rcases this u hu x hx with rfl | rfl | rfl | rfl | rfl | rfl
    · exact ⟨_, e .nil⟩
    · exact ⟨_, t .nil⟩
    · exact ⟨_, tok (n := 1) (by rw [stars_names]; rfl) (by decide) .nil⟩
    · exact ⟨_, tok (n := 2) (by rw [stars_names]; rfl) (by decide) .nil⟩
    · exact ⟨_, tok (n := 3) (by rw [stars_names]; rfl) (by decide) .nil⟩
    · exact ⟨_, tok (n := 4) (by rw [stars_names]; rfl) (by decide) .nil⟩

-- `C72_notice_partial`: no error in `Num Star Num`, before and after
example : ∃ r p, feed (tablesOf stars) logSem 1000 (Parser.new logSem []) (tk [2, 3, 2]) = some r ∧ r.parser? = some p ∧ noSyntaxError p.trace = true := by
  obtain ⟨h1, r, p, h2, h3, h4, h5⟩ := Noticed.quiet_iff (t := tablesOf Expect.stars) (toks := tk [2, 3, 2]) (fails := false) (by decide +kernel)
  obtain ⟨h1', r', p', h2', h3', _, h5'⟩ := Noticed.quiet_iff (t := tablesOf stars) (toks := tk [2, 3, 2]) (fails := false) (by decide +kernel)
  have e : (tk [2, 3, 2]).map (Tok.swap id) = tk [2, 3, 2] := rfl
  refine ⟨r', p', h2', h3', C72_notice_partial (ρ := id) OrdOk.id OrdOk.id stars_added (by decide) Noticed.stars_ok stars_ok (by decide) (by decide +kernel)
    (by decide +kernel) (by decide) (by decide) (by decide) (by decide) Expect.stars_productive stars_productive logSem Noticed.noErr ?_ h1 ?_ h2 h3 h5
    (e ▸ h2') h3' h5' h4⟩
  · intro n nm h
    rw [Expect.stars_names] at h
    rw [stars_names]
    exact List.getElem?_append_left (l₁ := [.dollar, .ident (U 1), .ident (U 2), .ident (U 3)]) (l₂ := [.ident (U 4)]) (List.getElem?_eq_some_iff.1 h).1 ▸ h
  · exact fun tok ht => h1' tok ht
end C72ex

end Pomelo
