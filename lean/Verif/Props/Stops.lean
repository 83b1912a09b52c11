import Verif.Proofs.Stops
import Verif.Props.Complete
import Verif.Props.Sets
/-!
# C06: calls come back

Between two tokens the parser only reduces, so a call that does not come back reduces forever.
`Verif/Spec/Cycles.lean` has the grammars in which a symbol derives itself, and those with hidden left recursion.
-/

namespace Pomelo

open Spec

variable {ord : List (SymbolId × SymbolId) → List (SymbolId × SymbolId)} {ds : List Decl} {t : Tables} {V X E : Type}

/-- Every call comes back. -/
def CallsReturn (t : Tables) (sem : Sem V X E) (p : Parser V X) : Prop :=
  (∀ tok : Tok V, tok.Valid t sem → Returns (fun fuel => parse t sem fuel p tok)) ∧ Returns (fun fuel => endOfInput t sem fuel p)

/-- C06 as stated -/
def C06_statement : Prop :=
  ∀ (ord : List (SymbolId × SymbolId) → List (SymbolId × SymbolId)), OrdOk ord → ∀ (ds : List Decl) (t : Tables), compile ord ds = .ok t →
    ∀ (sem : Sem Int (List Nat) Unit) (p : Parser Int (List Nat)), Reach t sem p → CallsReturn t sem p

theorem callsReturn_of_acc (ho : OrdOk ord) (hc : compile ord ds = .ok t) (hf : flat ds = true) (hA : apart ord ds = true) (hn : noSelfFallback ds = true)
    (R : Run ord ds) (hacc : ∀ γ, Acc (fun γ' γ => ∃ r, R.g.Red γ γ' r ∧ (t.stackLimit = 0 ∨ γ'.length < t.stackLimit)) γ)
    {sem : Sem V X E} {p : Parser V X} (h : Reach t sem p) : CallsReturn t sem p := by
  obtain ⟨dflt, m⟩ := (R.cspec hc).made ho hf
  obtain ⟨b⟩ := bridge ho (R.cspec hc).decls (R.cspec hc).auto
  have hfb := b.fbEnds m.inv hn
  have hex : ∀ w, (R.cspec hc).Excused w → w ≠ .recursion := by
    rintro w (⟨rfl, _⟩ | ⟨rfl, _⟩) <;> simp
  have tok : ∀ {a : SymbolId}, a < (R.cspec hc).g.syms.length → ((R.cspec hc).g.sym a).kind = .terminal → ∀ mn : Minor V,
      ∃ fuel r, parseToken t sem fuel p ((R.cspec hc).g.sym a).index mn = some r := by
    intro a ha hk mn
    cases hst : p.status with
    | failed => exact ⟨0, _, by simp [parseToken, hst]; rfl⟩
    | accepted v => exact ⟨0, _, by simp [parseToken, hst]; rfl⟩
    | normal =>
      rcases m.reach_sound ho hA hfb sem h with ⟨_, γ, q, hs, _⟩ | h1
      · obtain ⟨fuel, r, hl⟩ := m.loop_ends ho hA sem ha hk mn (hacc γ) hs
        exact ⟨fuel, _, by simp only [parseToken, hst, hl]; rfl⟩
      · rw [hst] at h1; cases h1
  constructor
  · intro tk hv
    obtain ⟨a, ha, hk, hi, h0⟩ := m.token hv.pos hv.lt
    obtain ⟨fuel, r, hr⟩ := tok ha hk (t.tokenValue sem tk).2
    have hr' : parse t sem fuel p tk = some r := by
      unfold parse
      rw [hi] at hr
      exact hr
    refine ⟨fuel, r, hr', ?_⟩
    rintro w rfl
    rcases m.reach_sound ho hA hfb sem h with hs | h1
    · exact hex w ((m.safe_parse ho hA hfb sem hs hv fuel).1 w hr')
    · rw [parseToken, h1] at hr; cases hr; simp
  · have h0 : (0 : SymbolId) < (R.cspec hc).g.syms.length := Nat.lt_of_lt_of_le Nat.zero_lt_two m.inv.two
    obtain ⟨fuel, r, hr⟩ := tok h0 m.inv.dollar.2.1 ⟨0, sem.unit⟩
    rw [m.inv.dollar.2.2] at hr
    have hr' : ∃ r', endOfInput t sem fuel p = some r' := by
      unfold endOfInput
      rw [hr]
      exact ⟨_, rfl⟩
    obtain ⟨r', hr'⟩ := hr'
    refine ⟨fuel, r', hr', ?_⟩
    rintro w rfl
    rcases m.reach_sound ho hA hfb sem h with hs | h1
    · exact hex w (m.safe_end ho hA hfb sem hs fuel w hr')
    · rw [parseToken, h1] at hr
      cases hr
      unfold endOfInput parseToken at hr'
      rw [h1] at hr'
      cases hr'; simp

/-- C06: if no symbol derives itself, and there is a limit on the stack (as there is by default) or no hidden left recursion,
every call comes back; conflicts may have been settled by precedences.
Missing: grammars with such symbols, where it is false (`C06_false`, `C06_false_void`); rows of the action table in collision;
classes of classes; a token that is its own fallback. -/
theorem C06_partial (ho : OrdOk ord) (hc : compile ord ds = .ok t) (hf : flat ds = true) (hA : apart ord ds = true) (hn : noSelfFallback ds = true)
    (R : Run ord ds) (hcy : NoCycle R.g) (hh : NoHidden R.g ∨ t.stackLimit ≠ 0) {sem : Sem V X E} {p : Parser V X} (h : Reach t sem p) :
    CallsReturn t sem p := by
  have hi := (R.cspec hc).ginv ho
  refine callsReturn_of_acc ho hc hf hA hn R (fun γ => ?_) h
  rcases hh with hh | hh
  · exact Subrelation.accessible (fun ⟨r, h1, _⟩ => ⟨r, h1⟩) (acc_noHidden hi hcy hh γ)
  · exact Subrelation.accessible (fun ⟨r, h1, h2⟩ => ⟨r, h1, h2.resolve_left hh⟩) (acc_limit hi hcy t.stackLimit γ)

/-- C06: without conflicts every call comes back, if every symbol can begin with a token or vanish.
Missing: symbols that derive nothing and the `error` symbol, with which it is false (`C06_false_void`); and as for `C06_partial`. -/
theorem C06_noClash_partial (ho : OrdOk ord) (hc : compile ord ds = .ok t) (hf : flat ds = true) (hA : apart ord ds = true) (hn : noSelfFallback ds = true)
    (R : Run ord ds) (hcl : NoClash R.g) (hv : NoVoid R.g) {sem : Sem V X E} {p : Parser V X} (h : Reach t sem p) :
    CallsReturn t sem p := by
  obtain ⟨b⟩ := bridge ho (R.cspec hc).decls (R.cspec hc).auto
  refine callsReturn_of_acc ho hc hf hA hn R (fun γ => ?_) h
  exact Subrelation.accessible (fun ⟨r, h1, _⟩ => ⟨r, h1⟩) (acc_red ((R.cspec hc).ginv ho) (b.flat ho hf) hcl b.noStart hv γ)

/-! ## Parsers that reduce forever -/

theorem loop_forever {sem : Sem V X E} {major : Nat} {m : Minor V} (I : Parser V X → Prop)
    (hI : ∀ p, I p → p.status = .normal ∧ ∃ p', step t sem p major m = .again p' ∧ I p') : ∀ (fuel : Nat) (p : Parser V X), I p → loop t sem major m fuel p = none := by
  intro fuel
  induction fuel with
  | zero => intro p _; rfl
  | succ fuel ih =>
    intro p hp
    obtain ⟨h1, p', h2, h3⟩ := hI p hp
    simp only [loop, h1, h2]
    exact ih p' h3

/-- A reduction by a rule without code, from facts about the tables -/
theorem step_reduce {sem : Sem V X E} {p : Parser V X} {major : Nat} {m : Minor V} {r lhs k dt n : Nat} {top top' : Entry V} {rest rest' : List (Entry V)}
    (hs : p.stack = top :: rest) (hf : t.findShift top.state major = .ok (t.nState + r)) (hr : r < t.nRule)
    (hrc : t.ruleCode[r]? = some ⟨List.replicate n none, none, dt⟩) (hn : n ≤ p.stack.length) (hd : p.stack.drop n = top' :: rest')
    (hl : t.ruleInfo[r]? = some lhs) (hg : t.findReduce top'.state lhs = .ok k) (hk : k < t.nState) (hlim : t.stackLimit = 0 ∨ (top' :: rest').length < t.stackLimit) :
    step t sem p major m = .again { p with stack := ⟨k, lhs, ⟨dt, sem.unit⟩⟩ :: top' :: rest', trace := .reduce r [] :: p.trace } := by
  have hm : ∀ (n : Nat) (es : List (Entry V)), n ≤ es.length → matchPats (List.replicate n none) es = some [] := by
    intro n
    induction n with
    | zero => intro es _; cases es <;> rfl
    | succ n ih =>
      intro es h
      cases es with
      | nil => simp at h
      | cons e es => rw [List.replicate_succ]; simpa [matchPats] using ih es (by simpa using h)
  have hred : reduce t sem p r = .ok { p with stack := ⟨k, lhs, ⟨dt, sem.unit⟩⟩ :: top' :: rest', trace := .reduce r [] :: p.trace } () := by
    unfold reduce
    simp only [hrc, List.length_replicate]
    rw [if_neg (by omega), hm n _ (by simp; exact hn)]
    simp only [runCode, hl, hd, hg, if_pos hk]
    unfold shift
    simp only
    rw [if_neg]
    rintro ⟨h1, h2⟩
    rcases hlim with h | h
    · exact h1 h
    · omega
  unfold step
  simp only [hs, hf]
  rw [if_neg (by omega), if_pos (by omega)]
  simp only [Nat.add_sub_cancel_left, hred]

namespace Stopex
open Tests (U L s r logSem)
open Examples

/-- `%left T; %left P; s ::= a T; a ::= a f; a ::= X; f ::= [P];` The empty rule is preferred to the token `T` for ever.
Numbers: T 1, P 2, X 3. -/
def spin : List Decl :=
  [ .assoc .left [U 1], .assoc .left [U 2]
  , r (L 0) [s (L 1), s (U 1)], r (L 1) [s (L 1), s (L 2)], r (L 1) [s (U 3)], r (L 2) [] none (some (U 2)) ]

/-- The entry of a state -/
def ent (q n : Nat) : Entry Int := ⟨q, n, ⟨0, 0⟩⟩

/-- What the tables say about a rule without code in a state: which rule, its length, left side, and (in the state `q0` below) the state that follows -/
def reduces (t : Tables) (q major rl n q0 lhs k : Nat) : Bool :=
  (match t.findShift q major with
   | .ok a => a == t.nState + rl
   | .error _ => false) && decide (rl < t.nRule) &&
  (match t.ruleCode[rl]? with
   | some rc => rc.pats == List.replicate n none && rc.code.isNone && rc.lhsDt == 0
   | none => false) &&
  (t.ruleInfo[rl]? == some lhs) &&
  (match t.findReduce q0 lhs with
   | .ok a => a == k
   | .error _ => false) && decide (k < t.nState)

theorem reduces_step {t : Tables} {q major rl n q0 lhs k : Nat} (h : reduces t q major rl n q0 lhs k = true) {sem : Sem Int X E} (hu : sem.unit = 0)
    {p : Parser Int X} {m : Minor Int} {top top' : Entry Int} {rest rest' : List (Entry Int)} (hs : p.stack = top :: rest) (hq : top.state = q)
    (hn : n ≤ p.stack.length) (hd : p.stack.drop n = top' :: rest') (hq' : top'.state = q0) (hlim : t.stackLimit = 0 ∨ (top' :: rest').length < t.stackLimit) :
    step t sem p major m = .again { p with stack := ent k lhs :: top' :: rest', trace := .reduce rl [] :: p.trace } := by
  unfold reduces at h
  simp only [Bool.and_eq_true, decide_eq_true_eq] at h
  obtain ⟨⟨⟨⟨⟨h1, h2⟩, h3⟩, h4⟩, h5⟩, h6⟩ := h
  have e1 : t.findShift q major = .ok (t.nState + rl) := by
    split at h1
    · rename_i a ha; rw [ha, eq_of_beq h1]
    · cases h1
  have e3 : t.ruleCode[rl]? = some ⟨List.replicate n none, none, 0⟩ := by
    split at h3
    · rename_i rc hrc
      obtain ⟨pats, code, dt⟩ := rc
      simp only [Bool.and_eq_true, beq_iff_eq, Option.isNone_iff_eq_none] at h3
      rw [hrc, h3.1.1, h3.1.2, h3.2]
    · cases h3
  have e5 : t.findReduce q0 lhs = .ok k := by
    split at h5
    · rename_i a ha; rw [ha, eq_of_beq h5]
    · cases h5
  have := step_reduce (sem := sem) (m := m) hs (by rw [hq]; exact e1) h2 e3 hn hd (eq_of_beq h4) (by rw [hq']; exact e5) h6 hlim
  rw [hu] at this
  exact this

/-- The parser has this stack. -/
def stackIs (l : List (Nat × Nat)) (p : Parser Int (List Nat)) : Bool :=
  (match p.status with
   | .normal => true
   | _ => false) && p.stack.map (fun e => (e.state, e.major, e.minor.tag, e.minor.val)) == l.map (fun x => (x.1, x.2, 0, 0))

theorem stackIs_iff {l : List (Nat × Nat)} {p : Parser Int (List Nat)} (h : stackIs l p = true) : p.status = .normal ∧ p.stack = l.map (fun x => ent x.1 x.2) := by
  unfold stackIs at h
  rw [Bool.and_eq_true] at h
  refine ⟨?_, ?_⟩
  · have := h.1
    split at this
    · assumption
    · cases this
  · have := eq_of_beq h.2
    have h2 := congrArg (List.map (fun x : Nat × Nat × Nat × Int => (⟨x.1, x.2.1, ⟨x.2.2.1, x.2.2.2⟩⟩ : Entry Int))) this
    rw [List.map_map, List.map_map] at h2
    have h3 : ((fun x : Nat × Nat × Nat × Int => (⟨x.1, x.2.1, ⟨x.2.2.1, x.2.2.2⟩⟩ : Entry Int)) ∘ fun e : Entry Int => (e.state, e.major, e.minor.tag, e.minor.val)) = id := rfl
    rw [h3, List.map_id] at h2
    exact h2

theorem spin_forever : ∃ p, Reach (tablesOf spin) logSem p ∧ ∀ fuel, parse (tablesOf spin) logSem fuel p ⟨1, 0⟩ = none := by
  obtain ⟨p, hp, h⟩ := exists_reach (t := tablesOf spin) (m := logSem) (x := []) (toks := tk [3]) (f := stackIs [(3, 3), (0, 0)]) (by decide +kernel)
  obtain ⟨h1, h2⟩ := stackIs_iff h
  refine ⟨p, hp, fun fuel => ?_⟩
  have r0 : reduces (tablesOf spin) 3 1 2 1 0 6 1 = true := by decide +kernel
  have r1 : reduces (tablesOf spin) 1 1 3 0 1 7 4 = true := by decide +kernel
  have r2 : reduces (tablesOf spin) 4 1 1 2 0 6 1 = true := by decide +kernel
  have hlim : (tablesOf spin).stackLimit = 100 := by decide +kernel
  have := loop_forever (t := tablesOf spin) (sem := logSem) (major := 1) (m := ((tablesOf spin).tokenValue logSem ⟨1, 0⟩).2)
    (fun p => p.status = .normal ∧ (p.stack = [ent 3 3, ent 0 0] ∨ p.stack = [ent 1 6, ent 0 0] ∨ p.stack = [ent 4 7, ent 1 6, ent 0 0])) (by
      rintro p ⟨hn, hs | hs | hs⟩
      · exact ⟨hn, _, reduces_step r0 rfl hs rfl (by simp [hs]) (by simp [hs]) rfl (.inr (by simp [hlim])), hn, .inr (.inl rfl)⟩
      · exact ⟨hn, _, reduces_step r1 rfl hs rfl (by simp) (by simp [hs]) rfl (.inr (by simp [hlim])), hn, .inr (.inr rfl)⟩
      · exact ⟨hn, _, reduces_step r2 rfl hs rfl (by simp [hs]) (by simp [hs]) rfl (.inr (by simp [hlim])), hn, .inr (.inl rfl)⟩) fuel p ⟨h1, .inl h2⟩
  unfold parse parseToken
  simp only [h1]
  rw [show ((tablesOf spin).tokenValue logSem ⟨1, 0⟩).1 = 1 from rfl, this]
  rfl

/-- A grammar without conflicts and without precedences in which `u` derives nothing: `%stack_size 0;`
`s ::= Y d; s ::= Y m; s ::= Z e; s ::= Z m2; s ::= Z m3; s ::= Y m4; d ::= b e; e ::= c d; d ::= l u; e ::= k u; e ::= k2 u;`
`l ::= b c; k ::= c b; k2 ::= c b f; m ::= b k N0; m2 ::= c l N1; m3 ::= c l N2; m4 ::= b k2 N3; b ::= ; c ::= ; f ::= ; u ::= u W`.
The default actions reduce `b` and `c` for ever. Numbers: Y 1, Z 2, ... -/
def gap : List Decl :=
  [ .stackSize 0 none
  , r (L 0) [s (U 1), s (L 1)], r (L 0) [s (U 1), s (L 3)], r (L 0) [s (U 2), s (L 2)], r (L 0) [s (U 2), s (L 4)]
  , r (L 0) [s (U 2), s (L 10)], r (L 0) [s (U 1), s (L 11)]
  , r (L 1) [s (L 5), s (L 2)], r (L 2) [s (L 6), s (L 1)], r (L 1) [s (L 7), s (L 9)], r (L 2) [s (L 8), s (L 9)], r (L 2) [s (L 12), s (L 9)]
  , r (L 7) [s (L 5), s (L 6)], r (L 8) [s (L 6), s (L 5)], r (L 12) [s (L 6), s (L 5), s (L 13)]
  , r (L 3) [s (L 5), s (L 8), s (U 4)], r (L 4) [s (L 6), s (L 7), s (U 5)], r (L 10) [s (L 6), s (L 7), s (U 6)], r (L 11) [s (L 5), s (L 12), s (U 7)]
  , r (L 5) [], r (L 6) [], r (L 13) [], r (L 9) [s (L 9), s (U 3)] ]

theorem gap_compiles : compiles gap = true := by decide +kernel

theorem gap_forever : ∃ p, Reach (tablesOf gap) logSem p ∧ ∀ fuel, parse (tablesOf gap) logSem fuel p ⟨1, 0⟩ = none := by
  obtain ⟨p, hp, h⟩ := exists_reach (t := tablesOf gap) (m := logSem) (x := []) (toks := tk [1]) (f := stackIs [(3, 1), (0, 0)]) (by decide +kernel)
  obtain ⟨h1, h2⟩ := stackIs_iff h
  refine ⟨p, hp, fun fuel => ?_⟩
  have hr : reduces (tablesOf gap) 3 1 18 0 3 16 4 = true ∧ reduces (tablesOf gap) 4 1 19 0 4 17 5 = true ∧ reduces (tablesOf gap) 5 1 18 0 5 16 2 = true ∧
      reduces (tablesOf gap) 2 1 19 0 2 17 5 = true ∧ (tablesOf gap).stackLimit = 0 := by decide +kernel
  obtain ⟨r0, r1, r2, r3, hlim⟩ := hr
  have := loop_forever (t := tablesOf gap) (sem := logSem) (major := 1) (m := ((tablesOf gap).tokenValue logSem ⟨1, 0⟩).2)
    (fun p => p.status = .normal ∧ ∃ e es, p.stack = e :: es ∧ (e.state = 3 ∨ e.state = 4 ∨ e.state = 5 ∨ e.state = 2)) (by
      rintro p ⟨hn, e, es, hs, he | he | he | he⟩
      · exact ⟨hn, _, reduces_step r0 rfl hs he (by simp) hs he (.inl hlim), hn, _, _, rfl, .inr (.inl rfl)⟩
      · exact ⟨hn, _, reduces_step r1 rfl hs he (by simp) hs he (.inl hlim), hn, _, _, rfl, .inr (.inr (.inl rfl))⟩
      · exact ⟨hn, _, reduces_step r2 rfl hs he (by simp) hs he (.inl hlim), hn, _, _, rfl, .inr (.inr (.inr rfl))⟩
      · exact ⟨hn, _, reduces_step r3 rfl hs he (by simp) hs he (.inl hlim), hn, _, _, rfl, .inr (.inr (.inl rfl))⟩) fuel p ⟨h1, _, _, h2, .inl rfl⟩
  unfold parse parseToken
  simp only [h1]
  rw [show ((tablesOf gap).tokenValue logSem ⟨1, 0⟩).1 = 1 from rfl, this]
  rfl

end Stopex

open Stopex Examples in
/-- C06 fails: `%left T; %left P; s ::= a T; a ::= a f; a ::= X; f ::= [P];` never returns from the token `T` after `X`, with the default limit of the stack. -/
theorem C06_false : ¬ C06_statement := by
  intro h
  obtain ⟨p, hp, hno⟩ := spin_forever
  obtain ⟨h1, _⟩ := h id (fun _ => List.Perm.refl _) spin _ (compiles_iff (by decide +kernel)) Tests.logSem p hp
  obtain ⟨fuel, r, h2, _⟩ := h1 ⟨1, 0⟩ (validB_iff (by decide +kernel))
  simp only [hno] at h2
  cases h2

open Stopex Examples in
/-- C06 fails even without conflicts: a grammar with a symbol that derives nothing, without a limit of the stack. -/
theorem C06_false_void : ∃ (ds : List Decl) (t : Tables) (R : Run id ds) (p : Parser Int (List Nat)), compile id ds = .ok t ∧ flat ds = true ∧ apart id ds = true ∧
    noSelfFallback ds = true ∧ NoClash R.g ∧ Reach t Tests.logSem p ∧ (⟨1, 0⟩ : Tok Int).Valid t Tests.logSem ∧ ∀ fuel, parse t Tests.logSem fuel p ⟨1, 0⟩ = none := by
  have hc := compiles_iff gap_compiles
  obtain ⟨R⟩ := run_exists hc
  obtain ⟨p, hp, hno⟩ := gap_forever
  exact ⟨gap, _, R, p, hc, by decide, by decide +kernel, by decide, noClash_of_noAssoc (fun _ => List.Perm.refl _) R (by decide), hp, validB_iff (by decide +kernel), hno⟩

/-! ## Grammars that meet the hypotheses -/

namespace Stopex
open Tests (U L s r logSem)
open Examples

/-- The numbers `u`, `w` of the symbols decrease as they should, judging by the flags and sets of the grammar. -/
def rankB (g : Grammar) (u w : SymbolId → Nat) : Bool :=
  (List.range g.rules.length).all fun rl => (List.range (g.rhsSyms rl).length).all fun i =>
    let A := (g.rule rl).lhs
    let Y := (g.rhsSyms rl).getD i 0
    (g.followOf ((g.rhsSyms rl).take i)).2 ||
      (decide (w Y ≤ w A) && (decide (i = 0) || decide (w Y < w A)) && ((g.followOf ((g.rhsSyms rl).drop (i + 1))).2 || decide (u Y < u A)))

theorem rankB_split {g : Grammar} {u w : SymbolId → Nat} (hf : FirstExact g) (h : rankB g u w = true) {rl : RuleId} (hr : rl < g.rules.length)
    {α β : List SymbolId} {Y : SymbolId} (he : g.rhsSyms rl = α ++ Y :: β) (hα : Derives g α []) :
    w Y ≤ w (g.rule rl).lhs ∧ (α ≠ [] → w Y < w (g.rule rl).lhs) ∧ (Derives g β [] → u Y < u (g.rule rl).lhs) := by
  unfold rankB at h
  have h1 := List.all_eq_true.1 h rl (List.mem_range.2 hr)
  have h2 := List.all_eq_true.1 h1 α.length (List.mem_range.2 (by rw [he]; simp))
  have e1 : (g.rhsSyms rl).getD α.length 0 = Y := by rw [he]; simp
  have e2 : (g.rhsSyms rl).take α.length = α := by rw [he]; simp
  have e3 : (g.rhsSyms rl).drop (α.length + 1) = β := by rw [he, ← List.drop_drop]; simp
  simp only [e1, e2, e3, hf.broken.2 hα, Bool.false_or, Bool.and_eq_true, Bool.or_eq_true, decide_eq_true_eq] at h2
  refine ⟨h2.1.1, fun hne => ?_, fun hβ => ?_⟩
  · rcases h2.1.2 with h | h
    · exact absurd (List.length_eq_zero_iff.1 h) hne
    · exact h
  · rcases h2.2 with h | h
    · rw [hf.broken.2 hβ] at h; cases h
    · exact h

theorem ranks_of {g : Grammar} {u w : SymbolId → Nat} (hf : FirstExact g) (h : rankB g u w = true) : g.Ranks u w where
  unit := by rintro A Y ⟨rl, α, β, hr, rfl, he, h1, h2⟩; exact (rankB_split hf h hr he h1).2.2 h2
  left := by rintro α A Y ⟨rl, β, hr, rfl, he, h1⟩; exact (rankB_split hf h hr he h1).1
  hidden := by rintro α A Y hα ⟨rl, β, hr, rfl, he, h1⟩; exact (rankB_split hf h hr he h1).2.1 hα

/-- The same on declarations; ranks of the symbols by number -/
def rankedB (ds : List Decl) (u w : List Nat) : Bool :=
  match autoOf ds with
  | some x => rankB x.1 (u.getD · 0) (w.getD · 0)
  | none => false

theorem Run.autoOf {ds : List Decl} (R : Run id ds) : Examples.autoOf ds = some (R.g, R.sts) := by
  unfold Examples.autoOf
  rw [R.decls]
  simp only
  rw [R.auto]

theorem ranked_of {ds : List Decl} {u w : List Nat} (h : rankedB ds u w = true) (R : Run id ds) : NoCycle R.g ∧ NoHidden R.g := by
  unfold rankedB at h
  rw [Run.autoOf R] at h
  have := ranks_of (automaton_firstExact (fun _ => List.Perm.refl _) R.decls R.auto).1 h
  exact ⟨this.noCycle, this.noHidden⟩

/-- Every symbol of a right-hand side begins with a token or vanishes, judging by the flags and sets of the grammar. -/
def noVoidB (ds : List Decl) : Bool :=
  match autoOf ds with
  | some x => (List.range x.1.rules.length).all fun rl => (x.1.rhsSyms rl).all fun Y => !(x.1.followOf [Y]).2 || !(x.1.followOf [Y]).1.isEmpty
  | none => false

theorem noVoid_of {ds : List Decl} (h : noVoidB ds = true) (R : Run id ds) : NoVoid R.g := by
  unfold noVoidB at h
  rw [Run.autoOf R] at h
  obtain ⟨hf, hk⟩ := automaton_firstExact (fun _ => List.Perm.refl _) R.decls R.auto
  intro rl hr Y hY
  have h1 := List.all_eq_true.1 (List.all_eq_true.1 h rl (List.mem_range.2 hr)) Y hY
  rw [Bool.or_eq_true] at h1
  rcases h1 with h1 | h1
  · exact .inr (hf.broken.1 (by simpa using h1))
  · left
    rcases hl : (R.g.followOf [Y]).1 with _ | ⟨n, l⟩
    · rw [hl] at h1; cases h1
    · exact ⟨n, (hf.follow hk n).1 (by rw [hl]; simp)⟩

/-- `%left Plus; s ::= l; l ::= ; l ::= l e Eol; l ::= error Eol; e ::= e Plus e; e ::= Minus? Num`: left recursion, empty rules, a conflict
settled by precedence and the `error` symbol. Numbers: Plus 1, Eol 2, Minus 3, Num 4. -/
def lines : List Decl :=
  [ .assoc .left [U 1], r (L 0) [s (L 1)], r (L 1) [], r (L 1) [s (L 1), s (L 2), s (U 2)], r (L 1) [s .error, s (U 2)]
  , r (L 2) [s (L 2), s (U 1), s (L 2)], r (L 2) [s (U 3) (opt := true), s (U 4)] ]

/-- The same without a limit of the stack -/
def lines0 : List Decl := .stackSize 0 none :: lines

-- C06_partial without a limit of the stack
example {sem : Sem Int (List Nat) Unit} {p : Parser Int (List Nat)} (h : Reach (tablesOf lines0) sem p) : CallsReturn (tablesOf lines0) sem p := by
  have hc := compiles_iff (ds := lines0) (by decide +kernel)
  obtain ⟨R⟩ := run_exists hc
  obtain ⟨h1, h2⟩ := ranked_of (u := [0, 0, 0, 1, 0, 1, 0, 0, 1, 0, 0]) (w := [0, 0, 0, 2, 2, 1, 0, 0, 0, 0, 0]) (by decide +kernel) R
  exact C06_partial (fun _ => List.Perm.refl _) hc (by decide) (by decide +kernel) (by decide) R h1 (.inl h2) h

-- C06_partial with a limit, in a state in which a call makes reductions and shifts
example : ∃ p, Reach (tablesOf lines) logSem p ∧ CallsReturn (tablesOf lines) logSem p ∧
    (match parse (tablesOf lines) logSem 100 p ⟨2, 0⟩ with
     | some (.ok p' ()) => decide (p'.trace.length = p.trace.length + 2)
     | _ => false) = true := by
  have hc := compiles_iff (ds := lines) (by decide +kernel)
  obtain ⟨R⟩ := run_exists hc
  obtain ⟨h1, _⟩ := ranked_of (u := [0, 0, 0, 1, 0, 1, 0, 0, 1, 0, 0]) (w := [0, 0, 0, 2, 2, 1, 0, 0, 0, 0, 0]) (by decide +kernel) R
  obtain ⟨p, hp, h⟩ := exists_reach (t := tablesOf lines) (m := logSem) (x := []) (toks := tk [4]) (f := fun p =>
    (match parse (tablesOf lines) logSem 100 p ⟨2, 0⟩ with
     | some (.ok p' ()) => decide (p'.trace.length = p.trace.length + 2)
     | _ => false)) (by decide +kernel)
  exact ⟨p, hp, C06_partial (fun _ => List.Perm.refl _) hc (by decide) (by decide +kernel) (by decide) R h1 (.inr (by decide +kernel)) hp, h⟩

-- C06_noClash_partial
example {sem : Sem Int (List Nat) Unit} {p : Parser Int (List Nat)} (h : Reach (tablesOf Complex.sums) sem p) : CallsReturn (tablesOf Complex.sums) sem p := by
  have hc := compiles_iff (ds := Complex.sums) (by decide +kernel)
  obtain ⟨R⟩ := run_exists hc
  exact C06_noClash_partial (fun _ => List.Perm.refl _) hc (by decide) (by decide +kernel) (by decide) R
    (noClash_of_noAssoc (fun _ => List.Perm.refl _) R (by decide)) (noVoid_of (by decide +kernel) R) h

end Stopex
end Pomelo
