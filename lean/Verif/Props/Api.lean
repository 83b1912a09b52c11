import Verif.Proofs.Api
import Verif.Props.Causes
import Verif.Props.Decls
/-!
# C52: the interface of the emitted parser is the one the declarations ask for

`Token` has one variant for each token, with the right field; the functions of `%extra_token` give and change the added part
of every token; the signatures of `Parser` have the documented types.
-/

namespace Pomelo
open Spec

variable {ord : List (SymbolId × SymbolId) → List (SymbolId × SymbolId)} {ds : List Decl} {t : Tables}

theorem nodup_eraseDups {α : Type} [DecidableEq α] : ∀ (n : Nat) (l : List α), l.length ≤ n → l.eraseDups.Nodup := by
  intro n
  induction n with
  | zero => intro l h; rw [List.length_eq_zero_iff.1 (Nat.le_zero.1 h)]; simp
  | succ n ih =>
    intro l h
    cases l with
    | nil => simp
    | cons a l =>
      rw [List.eraseDups_cons, List.nodup_cons]
      refine ⟨?_, ih _ (Nat.le_trans (List.length_filter_le _ _) (Nat.le_of_succ_le_succ h))⟩
      rw [List.mem_eraseDups, List.mem_filter]
      simp

theorem tokensOf_nodup (ds : List Decl) : (tokensOf ds).Nodup := (nodup_eraseDups _ _ (Nat.le_refl _)).filter _

/-- The tokens are the names of tokens that are mentioned somewhere and are not classes. -/
theorem mem_tokensOf {i : Ident} : i ∈ tokensOf ds ↔ (∃ d ∈ ds, i ∈ mentions d) ∧ i.isTerminal = true ∧ isClass ds i = false := by
  unfold tokensOf
  rw [List.mem_filter, List.mem_eraseDups, List.mem_flatMap]
  simp

/-- C52, for the variants of `Token`: each token has one, in the order of first mention, with the type documented for it, and
the number under which `parse` passes it on is its position.  Of several `%type` of a token, the attributes of the last
count (`C52_false` is about the others). -/
theorem C52_partial (ho : OrdOk ord) (hc : compile ord ds = .ok t) :
    ∃ a, apiOf ord ds = .ok a ∧
      a.variants = (tokensOf ds).map (fun i => ⟨.ident i, (typeAttrs ds i).getLast?.getD false, plainType ds i⟩) ∧
      t.tokenNames = .dollar :: (tokensOf ds).map SymName.ident ∧ (tokensOf ds).Nodup := by
  obtain ⟨s⟩ := compile_cspec hc
  obtain ⟨b⟩ := bridge ho s.decls s.auto
  refine ⟨_, s.apiOf, ?_, ?_, tokensOf_nodup ds⟩
  · refine map_eq_of_forall₂ ?_ (s.tokenSyms ho b)
    rintro x i ⟨hx, hn, _, hc⟩
    unfold Grammar.tokVariant
    rw [s.nameT b hx, hn, s.attrsT b hx hn, s.typeT ho b hx hn hc]
  · have h1 := b.toBridgeP.terminals
    rw [s.gen.tokenNames, s.gen.shape.symbols, s.gen.shape.nterm, b.tokenSyms (s.ginv ho) s.decls s.auto, h1.1, List.map_cons]
    congr 1
    · rw [s.nameT b (x := 0) (Nat.lt_of_lt_of_le (by decide) b.dinv.two), b.dinv.dollar]
    · refine map_eq_of_forall₂ ?_ h1.2
      rintro x i ⟨hx, hn, _⟩
      rw [s.nameT b hx, hn]

/-- With `%extra_token` there is no wildcard (among the tokens) in an accepted list. -/
theorem extra_noWild (ho : OrdOk ord) (hc : compile ord ds = .ok t) {E : Ty} (he : extraTokenOf ds = some E) {i : Ident} (hi : i ∈ tokensOf ds) :
    wildcardOf ds ≠ some i := by
  intro hw
  obtain ⟨_, h2, h3⟩ := mem_tokensOf.1 hi
  apply (C47_sure ho hc).2.2.2.2.2.1
  refine ⟨i, hw, ?_⟩
  unfold ownType
  rw [h2, h3, he]
  cases typeOf ds i <;> rfl

theorem plainType_extra {E : Ty} (he : extraTokenOf ds = some E) {i : Ident} (hi : i ∈ tokensOf ds) (hw : wildcardOf ds ≠ some i) :
    plainType ds i = some (match typeOf ds i with | none => E | some T => .pair E T) := by
  obtain ⟨_, h2, h3⟩ := mem_tokensOf.1 hi
  unfold plainType ownType
  rw [if_neg hw, h2, h3, he]
  cases typeOf ds i <;> rfl

theorem pair_ne {E T : Ty} : Ty.pair E T ≠ E := by
  intro h
  have := congrArg sizeOf h
  simp at this
  omega

/-- The arms of the functions of `%extra_token` -/
theorem CSpec.arms (s : CSpec ord ds t) (ho : OrdOk ord) (hc : compile ord ds = .ok t) {E : Ty} (he : extraTokenOf ds = some E) :
    s.gen.gT.api.extra = some (E, (tokensOf ds).map fun i => ⟨.ident i, (typeOf ds i).isNone⟩) := by
  obtain ⟨b⟩ := bridge ho s.decls s.auto
  unfold Grammar.api
  simp only
  rw [s.givenT.extraToken, he, Option.map_some]
  congr 2
  rw [← List.filterMap_eq_map]
  have hf : List.Forall₂ (fun x i => (x < b.gD.syms.length ∧ (b.gD.sym x).name = .ident i ∧ i.isTerminal = true ∧ isClass ds i = false) ∧ i ∈ tokensOf ds)
      s.gen.gT.tokenSyms (tokensOf ds) := by
    have key : ∀ {l : List SymbolId} {m : List Ident}, List.Forall₂ (fun x i => x < b.gD.syms.length ∧ (b.gD.sym x).name = .ident i ∧ i.isTerminal = true ∧ isClass ds i = false) l m →
        (∀ i ∈ m, i ∈ tokensOf ds) → List.Forall₂ (fun x i => (x < b.gD.syms.length ∧ (b.gD.sym x).name = .ident i ∧ i.isTerminal = true ∧ isClass ds i = false) ∧ i ∈ tokensOf ds) l m := by
      intro l m h
      induction h with
      | nil => intro _; exact .nil
      | cons h1 _ ih => intro hm; exact .cons ⟨h1, hm _ (.head _)⟩ (ih (fun i hi => hm i (List.mem_cons_of_mem _ hi)))
    exact key (s.tokenSyms ho b) (fun _ h => h)
  refine filterMap_eq_of_forall₂ ?_ hf
  rintro x i ⟨⟨hx, hn, _, hcl⟩, hm⟩
  unfold Grammar.extraArm
  rw [s.nameT b hx, hn, s.typeT ho b hx hn hcl, plainType_extra he hm (extra_noWild ho hc he hm)]
  cases hty : typeOf ds i with
  | none => simp [hty]
  | some T =>
    have : (Ty.pair E T == E) = false := by rw [beq_eq_false_iff_ne]; exact pair_ne
    simp [hty, this]

theorem find_arm {f : Ident → Bool} {i : Ident} : ∀ {l : List Ident}, i ∈ l →
    (l.map (fun i => (⟨.ident i, f i⟩ : ExtraArm))).find? (fun x => x.name = .ident i) = some ⟨.ident i, f i⟩ := by
  intro l h
  induction l with
  | nil => cases h
  | cons a l ih =>
    rw [List.map_cons]
    by_cases ha : a = i
    · subst ha
      rw [List.find?_cons_of_pos (by simp)]
    · rw [List.find?_cons_of_neg (by simp [ha])]
      exact ih ((List.mem_cons.1 h).resolve_left (fun e => ha e.symm))

/-- C52, for `%extra_token E`: on every value of `Token`, `into_extra` and `extra` give the part that was added, a value of
type `E`; `extra_mut` changes this part and nothing else. -/
theorem C52_extra (ho : OrdOk ord) (hc : compile ord ds = .ok t) {E : Ty} (he : extraTokenOf ds = some E) :
    ∃ a, apiOf ord ds = .ok a ∧ a.extra.map (·.1) = some E ∧
      ∀ k : Spec.Token, k.Is ds →
        (∃ e, a.tokenExtra (.ident k.name) k.field = some e ∧ Extra ds k e ∧ OfType e E) ∧
        ∀ e', OfType e' E → ∃ k' : Spec.Token, a.setTokenExtra e' (.ident k.name) k.field = k'.field ∧ ExtraSet ds e' k k' ∧ k'.Is ds := by
  obtain ⟨s⟩ := compile_cspec hc
  have ha := s.arms ho hc he
  refine ⟨_, s.apiOf, by rw [ha]; rfl, ?_⟩
  rintro ⟨i, fld⟩ ⟨hm, hk⟩
  simp only at hm hk ⊢
  have hp := plainType_extra he hm (extra_noWild ho hc he hm)
  unfold Api.tokenExtra Api.setTokenExtra
  rw [ha]
  simp only [Option.bind_some, find_arm hm]
  rw [hp] at hk
  cases fld with
  | none => exact hk.elim
  | some v =>
    simp only at hk
    cases hty : typeOf ds i with
    | none =>
      rw [hty] at hk
      refine ⟨⟨v, rfl, .whole hty, hk⟩, fun e' h' => ⟨⟨i, some e'⟩, rfl, .whole hty, hm, ?_⟩⟩
      simp only [hp, hty]
      exact h'
    | some T =>
      rw [hty] at hk
      cases hk with
      | @pair _ _ a b h1 h2 =>
        refine ⟨⟨a, rfl, .first hty, h1⟩, fun e' h' => ⟨⟨i, some (.pair e' b)⟩, rfl, .first hty, hm, ?_⟩⟩
        simp only [hp, hty]
        exact .pair h' h2

/-- C52, for the signatures of `Parser`: without an extra argument (or with `()`), `new` has no parameter and `end_of_input`
gives the value of the start symbol; with one, `new` takes it, `end_of_input` gives it as the second of two values, and
there are the three functions that return it.  Errors have the type of `%error`; the block of `%syntax_error` gives a value
of the type of `error`. -/
theorem C52_signatures (ho : OrdOk ord) (hc : compile ord ds = .ok t) :
    ∃ a, apiOf ord ds = .ok a ∧
      (extraType ds = .unit → a.newArg = none ∧ a.output = rootType ds ∧ a.extraFns = none) ∧
      (extraType ds ≠ .unit → a.newArg = some (extraType ds) ∧ a.output = .pair (rootType ds) (extraType ds) ∧ a.extraFns = some (extraType ds)) ∧
      a.error = (errTypeOf ds).getD .unit ∧ a.syntaxError = (plainType ds .error).getD .unit := by
  obtain ⟨s⟩ := compile_cspec hc
  obtain ⟨b⟩ := bridge ho s.decls s.auto
  have hi := s.ginv ho
  refine ⟨_, s.apiOf, ?_⟩
  have harg : s.gen.gT.arg.getD .unit = extraType ds := by rw [s.givenT.arg]; rfl
  have hroot : (s.gen.gT.sym (s.gen.gT.start.getD 0)).dataType.getD .unit = rootType ds := by
    obtain ⟨x, i, h1, h2, h3, h4, h5⟩ := b.start_name hi
    have hcl : isClass ds i = false := by
      rw [← Bool.not_eq_true, ← (b.decl.sym b.dinv h2 h3).2.1]
      have hk := b.dinv.kinds x h2
      rw [h3] at hk
      intro h
      rw [h] at hk
      cases i <;> first | (cases h5; done) | cases hk
    rw [s.gen.shape.start, h1, Option.getD_some, s.typeT ho b h2 h3 hcl]
    unfold rootType
    rw [h4]; rfl
  have herr : (s.gen.gT.sym s.gen.gT.errorSymbol).dataType = plainType ds .error := by
    have h2 := b.dinv.two
    have hn := b.dinv.errName
    have hcl : isClass ds .error = false := by
      rw [← Bool.not_eq_true, ← (b.decl.sym b.dinv (x := 1) (Nat.lt_of_lt_of_le (by decide) h2) hn).2.1]
      have hk := b.dinv.kinds 1 (Nat.lt_of_lt_of_le (by decide) h2)
      rw [hn] at hk
      intro h
      rw [h] at hk
      cases hk
    rw [s.gen.shape.errSym, hi.errSym]
    exact s.typeT ho b (x := 1) (Nat.lt_of_lt_of_le (by decide) h2) hn hcl
  unfold Grammar.api
  simp only [harg, hroot, herr]
  refine ⟨fun h => ?_, fun h => ?_, ?_, trivial⟩
  · simp [h]
  · simp [h]
  · rw [s.givenT.errType]

/-- C52: `%extra_token` and `%wildcard` exclude each other, which is not documented: the wildcard must have no type, and
`%extra_token` gives one to every token. -/
theorem C52_wildcard (ho : OrdOk ord) {E : Ty} {w : Ident} (he : extraTokenOf ds = some E) (hw : wildcardOf ds = some w) (hcl : isClass ds w = false)
    (t : Tables) : compile ord ds ≠ .ok t := by
  intro hc
  apply (C47_sure ho hc).2.2.2.2.2.1
  refine ⟨w, hw, ?_⟩
  have hwt : w.isTerminal = true := by
    obtain ⟨s⟩ := compile_cspec hc
    obtain ⟨b⟩ := bridge ho s.decls s.auto
    have h1 := b.decl.wildcard
    rw [hw] at h1
    obtain ⟨x, hx, hn⟩ := Option.map_eq_some_iff.1 h1
    have h2 := ((s.ginv ho).wild x (by rw [b.wildcard]; exact hx))
    have h3 : x < b.gD.syms.length := b.dropped (s.ginv ho) h2.1 (by intro h; rw [h] at h2; cases h2.2)
    have h4 := h2.2
    rw [b.name h3, hn] at h4
    cases w <;> first | rfl | cases h4
  unfold ownType
  rw [hwt, hcl, he]
  cases typeOf ds w <;> rfl

namespace Apix
open Tests (U L s r)

/-- `%type #[x] D T; %fallback C A; %token_class K B E; %type q T; s ::= q; q ::= K(X) { … }; q ::= D(X) A C { … };`: the tokens
are `D`, `A`, `C`, `B`, `E` in this order; `K` is none. -/
def plain : List Decl := [.type true (U 3) (some (.named 0)), .fallback (U 2) [U 0], .tokenClass (U 9) [U 1, U 4], .type false (U 9) (some (.named 0)),
  .type false (U 1) (some (.named 0)), .type false (U 4) (some (.named 0)), .type false (L 0) (some (.named 0)), .type false (L 1) (some (.named 0)), .startSymbol (L 0),
  r (L 0) [s (L 1) true] (some 0), r (L 1) [s (U 9) true] (some 1), r (L 1) [s (U 3) true, s (U 0), s (U 2)] (some 2)]

theorem plain_ok : ∃ t, compile id plain = .ok t := ⟨_, Examples.compiles_iff (by decide +kernel)⟩
theorem plain_tokens : tokensOf plain = [U 3, U 0, U 2, U 1, U 4] := by decide
/-- So the variants are `#[x] D(T)`, `A`, `C`, `B(T)`, `E(T)`. -/
example : ∃ a, apiOf id plain = .ok a ∧ a.variants = [⟨.ident (U 3), true, some (.named 0)⟩, ⟨.ident (U 0), false, none⟩, ⟨.ident (U 2), false, none⟩,
    ⟨.ident (U 1), false, some (.named 0)⟩, ⟨.ident (U 4), false, some (.named 0)⟩] := by
  obtain ⟨t, ht⟩ := plain_ok
  obtain ⟨a, h1, h2, _⟩ := C52_partial OrdOk.id ht
  refine ⟨a, h1, h2.trans ?_⟩
  rw [plain_tokens]
  decide

/-- `%extra_token L; %extra_argument X; %error E; %type A T; %type s R; s ::= A(X) B { … };` -/
def extra : List Decl := [.extraToken (.named 7), .extraArgument (.named 8), .error (.named 9), .type false (U 0) (some (.named 0)),
  .type false (L 0) (some (.named 1)), r (L 0) [s (U 0) true, s (U 1)] (some 0)]

theorem extra_ok : ∃ t, compile id extra = .ok t := ⟨_, Examples.compiles_iff (by decide +kernel)⟩
/-- `Token::A((l, t))` and `Token::B(l)`: both give `l`, and both let it be replaced. -/
example : ∃ a, apiOf id extra = .ok a ∧
    (a.tokenExtra (.ident (U 0)) (some (.pair (.atom 7 1) (.atom 0 5))) = some (.atom 7 1) ∧ a.tokenExtra (.ident (U 1)) (some (.atom 7 2)) = some (.atom 7 2)) ∧
    a.setTokenExtra (.atom 7 3) (.ident (U 0)) (some (.pair (.atom 7 1) (.atom 0 5))) = some (.pair (.atom 7 3) (.atom 0 5)) := by
  obtain ⟨t, ht⟩ := extra_ok
  obtain ⟨a, h1, _, h2⟩ := C52_extra OrdOk.id ht (E := .named 7) (by decide)
  obtain ⟨⟨e, h3, h4, _⟩, h5⟩ := h2 ⟨U 0, some (.pair (.atom 7 1) (.atom 0 5))⟩ ⟨by decide, .pair .atom .atom⟩
  obtain ⟨⟨e', h6, h7, _⟩, _⟩ := h2 ⟨U 1, some (.atom 7 2)⟩ ⟨by decide, .atom⟩
  obtain ⟨k, h8, h9, _⟩ := h5 (.atom 7 3) .atom
  refine ⟨a, h1, ⟨h3.trans ?_, h6.trans ?_⟩, h8.trans ?_⟩
  · cases h4 with
    | whole h => exact absurd h (by decide)
    | first => rfl
  · cases h7 with
    | whole => rfl
  · cases h9 with
    | whole h => exact absurd h (by decide)
    | first => rfl
/-- `Parser::new(extra: X)`, and `end_of_input` gives `Result<(R, X), E>`. -/
example : ∃ a, apiOf id extra = .ok a ∧ a.newArg = some (.named 8) ∧ a.output = .pair (.named 1) (.named 8) ∧ a.error = .named 9 := by
  obtain ⟨t, ht⟩ := extra_ok
  obtain ⟨a, h1, _, h2, h3, _⟩ := C52_signatures OrdOk.id ht
  have h4 := h2 (by decide)
  exact ⟨a, h1, h4.1, h4.2.1, h3⟩
/-- … and for the list without an extra argument, `Parser::new()` and `Result<T, ()>`. -/
example : ∃ a, apiOf id plain = .ok a ∧ a.newArg = none ∧ a.output = .named 0 ∧ a.error = .unit := by
  obtain ⟨t, ht⟩ := plain_ok
  obtain ⟨a, h1, h2, _, h3, _⟩ := C52_signatures OrdOk.id ht
  have h4 := h2 (by decide)
  exact ⟨a, h1, h4.1, h4.2.1, h3⟩

/-- `%extra_token L; %wildcard W; s ::= A W;` -/
example (t : Tables) : compile id [.extraToken (.named 7), .wildcard (U 1), r (L 0) [s (U 0), s (U 1)]] ≠ .ok t :=
  C52_wildcard OrdOk.id (E := .named 7) (w := U 1) rfl rfl rfl t

/-- `%type #[x] A; %type A T; s ::= A;`: no type is defined twice, and the attributes of the first are lost. -/
def lost : List Decl := [.type true (U 0) none, .type false (U 0) (some (.named 0)), r (L 0) [s (U 0)]]

/-- `%extra_argument (); s ::= A;` -/
def unitArg : List Decl := [.extraArgument .unit, r (L 0) [s (U 0)]]

end Apix

/-- C52 fails for attributes given apart from the type: every `%type` of a symbol replaces its attributes (mod.rs:1804), also
one that has none. -/
theorem C52_false : ∃ ds : List Decl, (∃ t, compile id ds = .ok t) ∧ true ∈ typeAttrs ds (.upper 0) ∧
    ∃ a, apiOf id ds = .ok a ∧ a.variants = [⟨.ident (.upper 0), false, some (.named 0)⟩] := by
  have hok : ∃ t, compile id Apix.lost = .ok t := ⟨_, Examples.compiles_iff (by decide +kernel)⟩
  refine ⟨Apix.lost, hok, by decide, ?_⟩
  obtain ⟨t, ht⟩ := hok
  obtain ⟨a, h1, h2, _⟩ := C52_partial OrdOk.id ht
  exact ⟨a, h1, h2.trans (by decide)⟩

/-- Two sentences of the documentation are not met: `end_of_input` gives the value of the start symbol first, not the extra
argument; and with `%extra_argument ();` there are neither the three functions nor a parameter of `new` nor a pair. -/
theorem C52_documented :
    (∃ ds : List Decl, (∃ t, compile id ds = .ok t) ∧ extraType ds ≠ rootType ds ∧ ∃ a, apiOf id ds = .ok a ∧
      a.output ≠ .pair (extraType ds) (rootType ds)) ∧
    (∃ ds : List Decl, (∃ t, compile id ds = .ok t) ∧ argOf ds = some .unit ∧ ∃ a, apiOf id ds = .ok a ∧
      a.extraFns = none ∧ a.newArg = none ∧ a.output = rootType ds) := by
  refine ⟨⟨Apix.extra, Apix.extra_ok, by decide, ?_⟩, ⟨Apix.unitArg, ⟨_, Examples.compiles_iff (by decide +kernel)⟩, rfl, ?_⟩⟩
  · obtain ⟨t, ht⟩ := Apix.extra_ok
    obtain ⟨a, h1, _, h2, _⟩ := C52_signatures OrdOk.id ht
    exact ⟨a, h1, by rw [(h2 (by decide)).2.1]; decide⟩
  · have hok : ∃ t, compile id Apix.unitArg = .ok t := ⟨_, Examples.compiles_iff (by decide +kernel)⟩
    obtain ⟨t, ht⟩ := hok
    obtain ⟨a, h1, h2, _⟩ := C52_signatures OrdOk.id ht
    have h3 := h2 rfl
    exact ⟨a, h1, h3.2.2, h3.1, h3.2.1⟩

end Pomelo
