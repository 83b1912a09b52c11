import Verif.Proofs.Linear
import Verif.Proofs.NoLoop
import Verif.Props.Tables
import Verif.Props.Stops
/-!
# C53: the work of a parser is linear in the number of tokens
-/

namespace Pomelo

open Spec

variable {ord : List (SymbolId × SymbolId) → List (SymbolId × SymbolId)} {ds : List Decl} {t : Tables}

theorem After.reach {V X E : Type} {sem : Sem V X E} {n : Nat} {p : Parser V X} (h : After t sem n p) : Reach t sem p := by
  induction h with
  | new x => exact .new x
  | parse _ hv hr hp ih => exact .parse ih hv hr hp
  | extra x _ ih => exact .extra x ih

theorem Reach.after {V X E : Type} {sem : Sem V X E} {p : Parser V X} (h : Reach t sem p) : ∃ n, After t sem n p := by
  induction h with
  | new x => exact ⟨0, .new x⟩
  | parse _ hv hr hp ih => obtain ⟨n, ih⟩ := ih; exact ⟨n + 1, .parse ih hv hr hp⟩
  | extra x _ ih => obtain ⟨n, ih⟩ := ih; exact ⟨n, .extra x ih⟩

/-- The bounds of C53 with the constant `C`, for all user code and all sequences of calls -/
def LinearIn (t : Tables) (C : Nat) : Prop :=
  ∀ (V X E : Type) (sem : Sem V X E) (n : Nat) (p : Parser V X), After t sem n p →
    reductions p.trace ≤ C * (n + 1) ∧ (p.status = .normal → p.stack.length ≤ C * (n + 1)) ∧
    (∀ tok : Tok V, tok.Valid t sem → ∀ fuel, C * (n + 1) ≤ fuel → (parse t sem fuel p tok).isSome = true) ∧
    ∀ fuel, C * (n + 1) ≤ fuel → ∃ r, endOfInput t sem fuel p = some r ∧ ∀ p', r.parser? = some p' → reductions p'.trace ≤ C * (n + 1)

theorem Made.linear {s : CSpec ord ds t} {dflt : SymbolId} (m : Made s dflt) (ho : OrdOk ord) (hA : apart ord ds = true) (hfb : s.g.FbEnds)
    (hcy : NoCycle s.g) (B : Nat)
    (hB : ∀ {γ : List SymbolId} {c : Item} {δ ν : List SymbolId}, Viable s.g γ c → (t.stackLimit = 0 ∨ γ.length < t.stackLimit) → γ = δ ++ ν → s.g.Null ν → ν.length ≤ B) :
    LinearIn t ((B + 3) * pot2 s.g B + 1) := by
  have hD : (B + 3) * pot2 s.g B = (B + 2) * pot2 s.g B + pot2 s.g B := by rw [← Nat.succ_mul]
  have hc0 : 0 < pot2 s.g B := Nat.mul_pos (Nat.succ_pos _) (Nat.succ_pos _)
  generalize hDe : (B + 3) * pot2 s.g B = D at *
  intro V X E sem
  -- one call
  have call : ∀ {n : Nat} {p : Parser V X} {a : SymbolId} (mn : Minor V), Sound s p → reductions p.trace + p.stack.length * pot2 s.g B ≤ D * (n + 1) →
      a < s.g.syms.length → (s.g.sym a).kind = .terminal →
      ∃ r, (∀ fuel, D * (n + 1) < fuel → loop t sem (s.g.sym a).index mn fuel p = some r) ∧
        ∀ p', r.parser? = some p' → reductions p'.trace ≤ D * (n + 1) ∧ (r = .ok p' () → p'.status = .normal → reductions p'.trace + p'.stack.length * pot2 s.g B ≤ D * (n + 2)) := by
    intro n p a mn ⟨hst, γ, q, hs, _⟩ hb ha hk
    have hl := hs.length
    have hk0 : pot s.g B γ [] ≤ p.stack.length * pot2 s.g B := by
      have := pot_lt (g := s.g) B γ []
      rw [hl, Nat.succ_mul]
      omega
    obtain ⟨r, h1, h2⟩ := m.loop_bound ho hA sem ha hk mn hcy B hB (p.stack.length * pot2 s.g B) (δ := γ) (ν := []) hk0 .nil (Nat.zero_le _) hst (by simpa using hs)
    refine ⟨r, fun fuel hf => h1 fuel (by omega), fun p' hp => ?_⟩
    obtain ⟨h3, h4⟩ := h2 p' hp
    refine ⟨by omega, fun h5 h6 => ?_⟩
    have := h4 h5 h6
    rw [show n + 2 = (n + 1) + 1 from rfl, Nat.mul_succ]
    omega
  have inv : ∀ {n : Nat} {p : Parser V X}, After t sem n p → reductions p.trace ≤ D * (n + 1) ∧ (p.status = .normal → reductions p.trace + p.stack.length * pot2 s.g B ≤ D * (n + 1)) := by
    intro n p h
    induction h with
    | new x =>
      refine ⟨Nat.zero_le _, fun _ => ?_⟩
      show 0 + 1 * pot2 s.g B ≤ D * 1
      omega
    | extra x _ ih => exact ih
    | @parse n p p' tok fuel r h hv hr hp ih =>
      rcases m.reach_sound ho hA hfb sem (After.reach h) with hs | h1
      · obtain ⟨a, ha, hk, hi, h0⟩ := m.token hv.pos hv.lt
        obtain ⟨r1, h2, h3⟩ := call (n := n) (t.tokenValue sem tok).2 hs (ih.2 hs.1) ha hk
        have hr' : parseToken t sem fuel p (s.g.sym a).index (t.tokenValue sem tok).2 = some r := by rw [hi]; exact hr
        rcases parseToken_inv hr' with ⟨_, h4⟩ | ⟨_, r', h4, h5⟩
        · exact absurd hs.1 h4
        · have h6 := loop_mono h4 (Nat.le_add_right fuel (D * (n + 1) + 1))
          rw [h2 _ (by omega)] at h6
          cases h6
          have hle : D * (n + 1) ≤ D * (n + 2) := Nat.mul_le_mul_left _ (by omega)
          rcases h5 with ⟨p2, e, rfl, rfl⟩ | ⟨h5, rfl⟩
          · cases hp
            exact ⟨((h3 p2 rfl).1).trans hle, fun h => by cases h⟩
          · obtain ⟨h7, h8⟩ := h3 p' hp
            refine ⟨h7.trans hle, fun h9 => ?_⟩
            cases r with
            | ok p2 u => cases hp; exact h8 rfl h9
            | err p2 e => exact absurd rfl (h5 p2 e)
            | panic w => cases hp
      · have hpe : parse t sem fuel p tok = some (.panic .afterFailure) := by
          show parseToken t sem fuel p _ _ = _
          unfold parseToken
          rw [h1]
        rw [hpe] at hr
        cases hr; cases hp
  intro n p h
  obtain ⟨h1, h2⟩ := inv h
  have hC : D * (n + 1) < (D + 1) * (n + 1) := by rw [Nat.succ_mul]; omega
  have tok : ∀ {a : SymbolId} (mn : Minor V), a < s.g.syms.length → (s.g.sym a).kind = .terminal → ∀ fuel, (D + 1) * (n + 1) ≤ fuel →
      ∃ r, parseToken t sem fuel p (s.g.sym a).index mn = some r ∧ ∀ p', r.parser? = some p' → reductions p'.trace ≤ D * (n + 1) := by
    intro a mn ha hk fuel hf
    rcases m.reach_sound ho hA hfb sem (After.reach h) with hs | h3
    · obtain ⟨r1, h3, h4⟩ := call (n := n) mn hs (h2 hs.1) ha hk
      simp only [parseToken, hs.1, h3 fuel (by omega), Option.map_some]
      refine ⟨_, rfl, fun p' hp => ?_⟩
      cases r1 with
      | ok p2 u => exact (h4 p' hp).1
      | err p2 e => cases hp; exact (h4 p2 rfl).1
      | panic w => cases hp
    · exact ⟨.panic .afterFailure, by simp [parseToken, h3], by intro p' hp; cases hp⟩
  refine ⟨by omega, fun hn => ?_, fun tk hv fuel hf => ?_, fun fuel hf => ?_⟩
  · have h3 := h2 hn
    have : p.stack.length ≤ p.stack.length * pot2 s.g B := Nat.le_mul_of_pos_right _ hc0
    omega
  · obtain ⟨a, ha, hk, hi, h0⟩ := m.token hv.pos hv.lt
    obtain ⟨r, hr, _⟩ := tok (t.tokenValue sem tk).2 ha hk fuel hf
    rw [hi] at hr
    have : parse t sem fuel p tk = some r := hr
    rw [this]; rfl
  · have h0 : (0 : SymbolId) < s.g.syms.length := Nat.lt_of_lt_of_le Nat.zero_lt_two m.inv.two
    obtain ⟨r, hr, hp⟩ := tok ⟨0, sem.unit⟩ h0 m.inv.dollar.2.1 fuel hf
    rw [m.inv.dollar.2.2] at hr
    unfold endOfInput
    rw [hr, Option.map_some]
    refine ⟨_, rfl, fun p' h' => ?_⟩
    cases r with
    | panic w => cases h'
    | err p2 e => cases h'; have := hp _ rfl; omega
    | ok p2 u =>
      simp only at h'
      split at h'
      · cases h'; have := hp _ rfl; omega
      · cases h'

/-- C53 as stated -/
def C53_statement : Prop :=
  ∀ (ord : List (SymbolId × SymbolId) → List (SymbolId × SymbolId)), OrdOk ord → ∀ (ds : List Decl) (t : Tables), compile ord ds = .ok t → ∃ C, LinearIn t C

/-- C53: if no symbol derives itself, and there is a limit on the stack or no hidden left recursion, the number of reductions
made in `n` calls, also of those that meet syntax errors, is at most proportional to `n`; so are the height of the stack and the number of rounds of the
loop in one call.
Missing: grammars with such symbols, where it is false (`C53_false`); rows of the action table in collision; classes of classes; a token
that is its own fallback. -/
theorem C53_partial (ho : OrdOk ord) (hc : compile ord ds = .ok t) (hf : flat ds = true) (hA : apart ord ds = true) (hn : noSelfFallback ds = true)
    (R : Run ord ds) (hcy : NoCycle R.g) (hh : NoHidden R.g ∨ t.stackLimit ≠ 0) : ∃ C, LinearIn t C := by
  obtain ⟨dflt, m⟩ := (R.cspec hc).made ho hf
  obtain ⟨b⟩ := bridge ho (R.cspec hc).decls (R.cspec hc).auto
  have hfb := b.fbEnds m.inv hn
  rcases hh with hh | hh
  · refine ⟨_, m.linear ho hA hfb hcy (maxLen R.g + maxLen R.g * R.g.syms.length + maxLen R.g) ?_⟩
    intro γ c δ ν hv _ he hn
    have h1 : ν.length ≤ c.dot + maxLen R.g * (R.g.syms.length - leftRank R.g (R.g.rule c.rule).lhs) + maxLen R.g := viable_bound m.inv hh hv he hn
    have hdot : c.dot ≤ maxLen R.g := ((viable_prefix hv).choose_spec.2.1).trans (rhs_le_maxLen hv.rule)
    have : maxLen R.g * (R.g.syms.length - leftRank R.g (R.g.rule c.rule).lhs) ≤ maxLen R.g * R.g.syms.length := Nat.mul_le_mul_left _ (by omega)
    omega
  · refine ⟨_, m.linear ho hA hfb hcy t.stackLimit ?_⟩
    intro γ c δ ν _ h e _
    rcases h with h | h
    · exact absurd h hh
    · rw [e, List.length_append] at h
      omega

/-- Without conflicts, and if every symbol can begin with a token or vanish, no symbol derives itself, and there is no hidden left recursion. -/
theorem Spec.Run.noLoop (ho : OrdOk ord) (hc : compile ord ds = .ok t) (hf : flat ds = true) (R : Run ord ds) (hcl : NoClash R.g) (hv : NoVoid R.g) :
    NoCycle R.g ∧ NoHidden R.g := by
  obtain ⟨b⟩ := bridge ho (R.cspec hc).decls (R.cspec hc).auto
  have hacc := acc_red ((R.cspec hc).ginv ho) (b.flat ho hf) hcl b.noStart hv
  have hreach : ∀ r, r < R.g.rules.length → ∃ γ, Viable R.g γ ⟨r, 0⟩ := by
    intro r hr
    obtain ⟨_, _, _, _, ⟨_, _, γ, _, ha⟩, _⟩ := C20_reduced ho R hr
    obtain ⟨γ0, _, _, h⟩ := viable_prefix ha.viable
    exact ⟨γ0, h⟩
  exact ⟨noCycle_of_acc hacc hreach, noHidden_of_acc hacc hreach⟩

/-- C53: without conflicts the work is linear, if every symbol can begin with a token or vanish.
Missing: symbols that derive nothing and the `error` symbol; and as for `C53_partial`. -/
theorem C53_noClash_partial (ho : OrdOk ord) (hc : compile ord ds = .ok t) (hf : flat ds = true) (hA : apart ord ds = true) (hn : noSelfFallback ds = true)
    (R : Run ord ds) (hcl : NoClash R.g) (hv : NoVoid R.g) : ∃ C, LinearIn t C := by
  obtain ⟨h1, h2⟩ := R.noLoop ho hc hf hcl hv
  exact C53_partial ho hc hf hA hn R h1 (.inl h2)

open Stopex Examples in
/-- C53 fails: the grammar of `C06_false` makes infinitely many reductions in one call. -/
theorem C53_false : ¬ C53_statement := by
  intro h
  obtain ⟨p, hp, hno⟩ := spin_forever
  obtain ⟨C, h1⟩ := h id (fun _ => List.Perm.refl _) spin _ (compiles_iff (by decide +kernel))
  obtain ⟨n, hp⟩ := Reach.after hp
  have h2 := (h1 _ _ _ Tests.logSem n p hp).2.2.1 ⟨1, 0⟩ (validB_iff (by decide +kernel)) _ (Nat.le_refl _)
  rw [hno] at h2
  cases h2

/-! ## Grammars that meet the hypotheses -/

namespace Linex
open Stopex Examples

-- C53_partial with the `error` symbol, a conflict settled by precedence and no limit of the stack
example : ∃ C, LinearIn (tablesOf lines0) C := by
  have hc := compiles_iff (ds := lines0) (by decide +kernel)
  obtain ⟨R⟩ := run_exists hc
  obtain ⟨h1, h2⟩ := ranked_of (u := [0, 0, 0, 1, 0, 1, 0, 0, 1, 0, 0]) (w := [0, 0, 0, 2, 2, 1, 0, 0, 0, 0, 0]) (by decide +kernel) R
  exact C53_partial (fun _ => List.Perm.refl _) hc (by decide) (by decide +kernel) (by decide) R h1 (.inl h2)

-- C53_noClash_partial
example : ∃ C, LinearIn (tablesOf Complex.sums) C := by
  have hc := compiles_iff (ds := Complex.sums) (by decide +kernel)
  obtain ⟨R⟩ := run_exists hc
  exact C53_noClash_partial (fun _ => List.Perm.refl _) hc (by decide) (by decide +kernel) (by decide) R
    (noClash_of_noAssoc (fun _ => List.Perm.refl _) R (by decide)) (noVoid_of (by decide +kernel) R)

-- a parser that has made six reductions: `Num Plus Num Eol`
example : ∃ p, Reach (tablesOf lines0) Tests.logSem p ∧ decide (reductions p.trace = 6) = true :=
  exists_reach (x := []) (toks := tk [4, 1, 4, 2]) (by decide +kernel)

end Linex
end Pomelo
