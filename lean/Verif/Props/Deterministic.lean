import Verif.Proofs.TwinRun
import Verif.Props.Order
/-!
# C59: the macro is deterministic

The generator walks a `HashMap` (mod.rs:259, 547, 655), whose order changes from one build to the next.  `ord` and `ord'` are two such orders.
-/

namespace Pomelo

open Spec

variable {ord ord' : List (SymbolId × SymbolId) → List (SymbolId × SymbolId)} {ds : List Decl} {t t' : Tables}

/-- Parsers that do the same: they have the same tokens and, under a renumbering of the rules that leaves the rules of the user alone, every history of
calls with the one is a history with the other, the next call does the same, and so does a run over a whole input. -/
def Spec.SameRuns (ds : List Decl) (t t' : Tables) : Prop :=
  t'.nRule = t.nRule ∧ t'.nState = t.nState ∧ t'.tokenNames = t.tokenNames ∧
  (∀ (V X E : Type) (sem : Sem V X E) (tok : Tok V), tok.Valid t sem ↔ tok.Valid t' sem) ∧
  ∃ σ : Nat → Nat, (∀ r, r < (rulesOf ds).length → σ r = r) ∧
    (∀ r, r < t.nRule → σ r < t.nRule ∧ ∀ r', r' < t.nRule → σ r = σ r' → r = r') ∧
    ∀ (V X E : Type) (sem : Sem V X E),
      (∀ p, Reach t sem p → ∃ p', Reach t' sem p' ∧ Alike σ p p' ∧
        ∀ fuel, (∀ tok, tok.Valid t sem → AlikeRes σ (parse t sem fuel p tok) (parse t' sem fuel p' tok)) ∧
          AlikeRes σ (endOfInput t sem fuel p) (endOfInput t' sem fuel p')) ∧
      ∀ (fuel : Nat) (x : X) (toks : List (Tok V)), (∀ tok ∈ toks, tok.Valid t sem) → AlikeRes σ (runAll t sem fuel x toks) (runAll t' sem fuel x toks)

theorem Sim.valid (S : Sim t t') {V X E : Type} (sem : Sem V X E) (tok : Tok V) : tok.Valid t sem ↔ tok.Valid t' sem := by
  constructor
  · intro h; exact ⟨h.pos, by rw [S.numTerminals]; exact h.lt, by rw [S.tokenDt]; exact h.unit⟩
  · intro h; exact ⟨h.pos, by rw [← S.numTerminals]; exact h.lt, by rw [← S.tokenDt]; exact h.unit⟩

theorem Sim.reach (S : Sim t t') {V X E : Type} {sem : Sem V X E} {p : Parser V X} (h : Reach t sem p) : ∃ p', Reach t' sem p' ∧ S.Pa p p' := by
  induction h with
  | new x => exact ⟨_, .new x, S.new sem x⟩
  | extra x _ ih =>
    obtain ⟨p', h1, h2⟩ := ih
    exact ⟨_, .extra x h1, ⟨h2.cnt, rfl, h2.status, h2.log, h2.stack⟩⟩
  | @parse p q tok fuel r _ hv hr hq ih =>
    obtain ⟨p', h1, h2⟩ := ih
    have := S.parse sem hv.lt fuel h2
    rw [hr] at this
    generalize hr' : Pomelo.parse t' sem fuel p' tok = r' at this
    cases this with
    | done this =>
      cases this with
      | ok v h3 => cases hq; exact ⟨_, .parse h1 ((S.valid sem tok).1 hv) hr' rfl, h3⟩
      | err e h3 => cases hq; exact ⟨_, .parse h1 ((S.valid sem tok).1 hv) hr' rfl, h3⟩
      | panic w => cases hq

/-- C59 as stated: the outcome of the macro is the same with every order, and the parsers do the same. -/
def C59_statement : Prop :=
  ∀ (ord ord' : List (SymbolId × SymbolId) → List (SymbolId × SymbolId)), OrdOk ord → OrdOk ord' → ∀ ds : List Decl,
    (∀ e, compile ord ds = .error e → compile ord' ds = .error e) ∧
    ∀ t t', compile ord ds = .ok t → compile ord' ds = .ok t' → SameRuns ds t t'

/-- The order does not decide whether the grammar is accepted. -/
theorem C59_success (ho : OrdOk ord) (ho' : OrdOk ord') : (∃ t, compile ord ds = .ok t) ↔ ∃ t', compile ord' ds = .ok t' :=
  ⟨fun ⟨_, h⟩ => other_order ho ho' h, fun ⟨_, h⟩ => other_order ho' ho h⟩

/-- C59 for the parsers: they do the same, step by step.
Missing: colliding rows (which rows collide depends on the numbers of the states); fallbacks to the same token; classes of classes. -/
theorem C59_partial (ho : OrdOk ord) (ho' : OrdOk ord') (hc : compile ord ds = .ok t) (hc' : compile ord' ds = .ok t') (hf : flat ds = true)
    (hA : apart ord ds = true) (hA' : apart ord' ds = true) (hs : noSelfFallback ds = true) : SameRuns ds t t' := by
  obtain ⟨s⟩ := compile_cspec hc
  obtain ⟨s'⟩ := compile_cspec hc'
  obtain ⟨dflt, m⟩ := s.made ho hf
  obtain ⟨dflt', m'⟩ := s'.made ho' hf
  obtain ⟨M⟩ := mates ho ho' s s'
  obtain ⟨b⟩ := bridge ho s.decls s.auto
  have key : ∃ S : Sim t t', S.σ = M.T.R.σ := ⟨M.sim m m' hA hA' (b.fbEnds m.inv hs), rfl⟩
  obtain ⟨S, hσ⟩ := key
  refine ⟨S.nRule, S.nState, C39_names ho ho' hc hc', fun V X E sem tok => S.valid sem tok, M.T.R.σ, M.same, fun r hr => ?_, fun V X E sem => ?_⟩
  · rw [m.tab.nRule] at hr ⊢
    obtain ⟨h1, _, h2⟩ := M.T.R.rule r hr
    refine ⟨by rw [← M.T.numRules]; exact h1, fun r' hr' he => ?_⟩
    obtain ⟨_, _, h3⟩ := M.T.R.rule r' hr'
    rw [← h2, ← h3, he]
  · have h0 : 0 < t.numTerminals := by rw [s.numTerminals]; exact m.inv.nterm.1
    rw [← hσ]
    refine ⟨fun p hp => ?_, fun fuel x toks hv => (S.runAll sem h0 fuel x (fun tok h => (hv tok h).lt)).alike⟩
    obtain ⟨p', h1, h2⟩ := S.reach hp
    exact ⟨p', h1, h2.alike, fun fuel => ⟨fun tok hv => (S.parse sem hv.lt fuel h2).alike, (S.endOfInput sem h0 fuel h2).alike⟩⟩

/-- So the same inputs are accepted, with the same values and the same extra argument: `C39_accepts_partial` without its conditions on precedences,
fallbacks, the wildcard and the root. -/
theorem C59_accepts_partial (ho : OrdOk ord) (ho' : OrdOk ord') (hc : compile ord ds = .ok t) (hc' : compile ord' ds = .ok t') (hf : flat ds = true)
    (hA : apart ord ds = true) (hA' : apart ord' ds = true) (hs : noSelfFallback ds = true) {V X E : Type} (sem : Sem V X E) {x : X} {toks : List (Tok V)}
    {p : Parser V X} {v : V} (h : AcceptedRun t sem x toks p v) : ∃ p', AcceptedRun t' sem x toks p' v ∧ p'.extra = p.extra := by
  obtain ⟨_, _, _, hv', σ, _, _, h1⟩ := C59_partial ho ho' hc hc' hf hA hA' hs
  obtain ⟨hv, ⟨fuel, hr⟩, hn⟩ := h
  have h2 := (h1 V X E sem).2 fuel x toks hv
  rw [hr] at h2
  generalize hr' : runAll t' sem fuel x toks = r' at h2
  cases h2 with
  | @ok p p' _ h3 =>
    refine ⟨p', ⟨fun tok ht => (hv' V X E sem tok).1 (hv tok ht), ⟨fuel, hr'⟩, ?_⟩, h3.extra⟩
    intro n hm
    rw [h3.log] at hm
    obtain ⟨e, he, h4⟩ := List.mem_map.1 hm
    cases e with
    | discard a => exact hn _ he
    | _ => cases h4

/-! ## Examples -/

namespace Determx
open Tests (U L s r)

-- The parsers of `s ::= A? B? C; s ::= D;` do the same with both orders, although the rules have other numbers.
theorem same : ∃ t t', compile id Orderex.two = .ok t ∧ compile List.reverse Orderex.two = .ok t' ∧ t.ruleInfo ≠ t'.ruleInfo ∧ SameRuns Orderex.two t t' := by
  obtain ⟨t, t', h1, h2, h3, _⟩ := Orderex.both
  obtain ⟨k1, k2, k3, _⟩ := Orderex.two_ok
  exact ⟨t, t', h1, h2, h3, C59_partial OrdOk.id Orderex.ordRev h1 h2 k1 k2 k3 (by decide +kernel)⟩

-- So the run on `B C`, which the first parser accepts, is accepted by the second with the same value and the same extra argument.
example : ∃ t t', compile id Orderex.two = .ok t ∧ compile List.reverse Orderex.two = .ok t' ∧
    ∃ fuel p', runAll t' Tests.logSem fuel [] (Examples.tk [2, 3]) = some (.ok p' 0) ∧ p'.extra = [] := by
  obtain ⟨t, t', h1, h2, _, ⟨p, h4, h7⟩, _⟩ := Orderex.both
  obtain ⟨k1, k2, k3, _⟩ := Orderex.two_ok
  obtain ⟨p', h5, h6⟩ := C59_accepts_partial OrdOk.id Orderex.ordRev h1 h2 k1 k2 k3 (by decide +kernel) Tests.logSem h4
  obtain ⟨_, ⟨fuel, hr⟩, _⟩ := h5
  exact ⟨t, t', h1, h2, fuel, p', hr, h6.trans h7⟩

/-- `s ::= A? X; s ::= B? X; s ::= C A? Y;` -/
def broken : List Decl :=
  [ r (L 0) [s (U 0) (opt := true), s (U 1)]
  , r (L 0) [s (U 2) (opt := true), s (U 1)]
  , r (L 0) [s (U 3), s (U 0) (opt := true), s (U 4)] ]

/-- The error -/
def errOf : Except GErr Tables → Option GErr
  | .error e => some e
  | .ok _ => none

theorem broken_runs : errOf (compile id broken) = some .cannotReduce ∧ errOf (compile List.reverse broken) = some .conflicts := by
  constructor <;> decide +kernel

end Determx

/-- Which error is reported depends on the order. -/
theorem C59_false : ¬ C59_statement := by
  intro h
  obtain ⟨h1, h2⟩ := Determx.broken_runs
  cases hc : compile id Determx.broken with
  | ok t => rw [hc] at h1; cases h1
  | error e =>
    rw [hc] at h1
    have := (h id List.reverse OrdOk.id Orderex.ordRev Determx.broken).1 e hc
    rw [this] at h2
    cases h1; cases h2

end Pomelo
