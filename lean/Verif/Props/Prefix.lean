import Verif.Proofs.Forms
import Verif.Props.Complete
/-!
# C05: what has been read is a prefix of a sentence

`Verif/Spec/Forms.lean` has the sentential forms of the written grammar.
-/

namespace Pomelo

open Spec

variable {ord : List (SymbolId × SymbolId) → List (SymbolId × SymbolId)} {ds : List Decl} {t : Tables} {V X E : Type}

/-- C05 in full -/
def C05_statement : Prop :=
  ∀ (ord : List (SymbolId × SymbolId) → List (SymbolId × SymbolId)), OrdOk ord → ∀ (ds : List Decl) (t : Tables), compile ord ds = .ok t →
    ∀ (sem : Sem Int (List Nat) Unit) (x : List Nat) (toks : List (Tok Int)), (∀ tok ∈ toks, tok.Valid t sem) →
      ∀ fuel p, feed t sem fuel (Parser.new sem x) toks = some (.ok p ()) → (∀ tok ex, Event.syntaxError tok ex ∉ p.trace) →
        ViablePrefix ds t.tokenNames toks

/-- C05: if all tokens were taken (`parse` returned `Ok` and threw none away), they are a prefix of a sentential form.
Missing: tables with overlapping rows and classes of classes; there it is false, see `C05_false`. -/
theorem C05_partial (ho : OrdOk ord) (hc : compile ord ds = .ok t) (hf : flat ds = true) (hA : apart ord ds = true) (sem : Sem V X E) {x : X}
    {toks : List (Tok V)} (hv : ∀ tok ∈ toks, tok.Valid t sem) {fuel : Nat} {p : Parser V X} (h : feed t sem fuel (Parser.new sem x) toks = some (.ok p ()))
    (hk : ∀ n, Event.discard n ∉ p.trace) : ViablePrefix ds t.tokenNames toks := by
  obtain ⟨s⟩ := compile_cspec hc
  obtain ⟨dflt, m⟩ := s.made ho hf
  obtain ⟨b⟩ := bridge ho s.decls s.auto
  rcases m.good_feed ho hA sem hv (.inl (fun n => Good.new m sem x n)) h with hg | ⟨n, hn⟩
  · obtain ⟨_, γ, q, ts, h1, h2, h3, _, _⟩ := hg 0
    have hp := m.viable ho b sem h1.path (h2.forest m.inv m.auto)
    rwa [h3, List.nil_append] at hp
  · exact absurd hn (hk n)

/-- With productive elements every sentential form has trees. -/
theorem productive_form {names : List SymName} (hp : Productive V ds names) {es : List RhsElem} (h : SentForm ds es) :
    ∀ e ∈ es, ∃ T : Tree V, Spec.Fits ds names [T] [{ e with optional := false }] := by
  obtain ⟨s, hs, h⟩ := h
  induction h with
  | refl =>
    intro e he
    simp only [List.mem_singleton] at he
    subst he
    exact hp.1 s hs
  | tail _ h ih =>
    cases h with
    | @rule a b u al hu =>
      intro e he
      rcases List.mem_append.1 he with he | he
      · rcases List.mem_append.1 he with he | he
        · exact ih e (by simp [he])
        · exact hp.2 u hu e he
      · exact ih e (by simp [he])
    | absent =>
      intro e he
      exact ih e (by rcases List.mem_append.1 he with he | he <;> simp [he])
    | @present a b i al =>
      intro e he
      rcases List.mem_append.1 he with he | he
      · exact ih e (by simp [he])
      · rcases List.mem_cons.1 he with rfl | he
        · obtain ⟨T, hT⟩ := ih ⟨[i], true, al⟩ (by simp)
          exact ⟨T, Fits.alias hT⟩
        · exact ih e (by simp [he])

theorem productive_trees {names : List SymName} : ∀ {es : List RhsElem}, (∀ e ∈ es, ∃ T : Tree V, Spec.Fits ds names [T] [{ e with optional := false }]) →
    ∃ ts : List (Tree V), Spec.Fits ds names ts es
  | [], _ => ⟨[], .nil⟩
  | ⟨toks, false, al⟩ :: es, h => by
    obtain ⟨ts, hts⟩ := productive_trees (es := es) (fun e he => h e (List.mem_cons_of_mem _ he))
    obtain ⟨T, hT⟩ := h _ List.mem_cons_self
    exact ⟨[T] ++ ts, Fits.append hT hts⟩
  | ⟨toks, true, al⟩ :: es, h => by
    obtain ⟨ts, hts⟩ := productive_trees (es := es) (fun e he => h e (List.mem_cons_of_mem _ he))
    obtain ⟨T, hT⟩ := h _ List.mem_cons_self
    by_cases h1 : ∃ i, toks = [i]
    · obtain ⟨i, rfl⟩ := h1
      exact ⟨.absent :: ts, .absent hts⟩
    · have : Spec.Fits ds names [T] [⟨toks, true, al⟩] := by
        cases hT with
        | @tok k i j _ _ _ t1 t2 t3 t4 =>
          refine .tok t1 t2 ?_ t4
          rcases toks with _ | ⟨i, _ | ⟨i', toks⟩⟩
          · exact t3
          · exact absurd ⟨i, rfl⟩ h1
          · exact t3
        | rule => exact absurd ⟨_, rfl⟩ h1
      exact ⟨[T] ++ ts, Fits.append this hts⟩

/-- Tokens read by elements are trees of them. -/
theorem reading_fits {names : List SymName} {toks : List (Tok V)} {es : List RhsElem} (h : List.Forall₂ (Reading ds names) toks es) :
    Spec.Fits ds names (toks.map .tok) es ∧ Tree.yields (toks.map .tok) = toks := by
  induction h with
  | nil => exact ⟨.nil, rfl⟩
  | cons h _ ih =>
    obtain ⟨i, j, h1, h2, h3⟩ := h
    exact ⟨.tok h1 h2 h3 ih.1, by simp [Tree.yields, Tree.yield, ih.2]⟩

/-- With productive elements a prefix of a sentential form is one of a sentence. -/
theorem Spec.ViablePrefix.sentence {names : List SymName} (hp : Productive V ds names) {toks : List (Tok V)} (h : ViablePrefix ds names toks) :
    ∃ T : Tree V, IsTree ds names T ∧ toks <+: T.yield := by
  obtain ⟨es, rest, hs, h1⟩ := h
  obtain ⟨ts, h2⟩ := productive_trees (fun e he => productive_form hp hs e (List.mem_append_right es he))
  obtain ⟨h3, h4⟩ := reading_fits h1
  obtain ⟨i, hi, hd⟩ := hs
  obtain ⟨ts', h5, h6⟩ := Fits.back hd (h3.append h2)
  obtain ⟨T, rfl⟩ : ∃ T, ts' = [T] := by
    cases h5 with
    | tok _ _ _ h => cases h; exact ⟨_, rfl⟩
    | rule _ _ h => cases h; exact ⟨_, rfl⟩
  refine ⟨T, ⟨i, hi, h5⟩, Tree.yields ts, ?_⟩
  rw [Tree.yields_append, h4] at h6
  rw [← h6]
  simp [Tree.yields]

/-- C05 with sentences: where every element derives something, what has been read is a prefix of the tokens of a tree. -/
theorem C05_sentence_partial (ho : OrdOk ord) (hc : compile ord ds = .ok t) (hf : flat ds = true) (hA : apart ord ds = true) (hp : Productive V ds t.tokenNames)
    (sem : Sem V X E) {x : X} {toks : List (Tok V)} (hv : ∀ tok ∈ toks, tok.Valid t sem) {fuel : Nat} {p : Parser V X}
    (h : feed t sem fuel (Parser.new sem x) toks = some (.ok p ())) (hk : ∀ n, Event.discard n ∉ p.trace) :
    ∃ T : Tree V, IsTree ds t.tokenNames T ∧ toks <+: T.yield :=
  (C05_partial ho hc hf hA sem hv h hk).sentence hp

/-- Nothing is thrown away before the first report. -/
theorem feed_noReport (ho : OrdOk ord) (hc : compile ord ds = .ok t) (he : ∀ u ∈ rulesOf ds, u.lhs ≠ .error) {sem : Sem V X E} {x : X}
    {toks : List (Tok V)} (hv : ∀ tok ∈ toks, tok.Valid t sem) {fuel : Nat} {p : Parser V X}
    (h : feed t sem fuel (Parser.new sem x) toks = some (.ok p ())) (hn : ∀ tok ex, Event.syntaxError tok ex ∉ p.trace) :
    ∀ n, Event.discard n ∉ p.trace := by
  obtain ⟨s⟩ := compile_cspec hc
  exact (Clean.feed (s.lhsOk ho) (s.noErrorRule ho he) (Clean.new sem x) hv h rfl hn).2.1

/-- C05 with its own hypothesis: `%syntax_error` did not run; then no rule may have `error` on its left.
Missing: as for `C05_partial`. -/
theorem C05_noReport_partial (ho : OrdOk ord) (hc : compile ord ds = .ok t) (hf : flat ds = true) (hA : apart ord ds = true)
    (he : ∀ u ∈ rulesOf ds, u.lhs ≠ .error) (sem : Sem V X E) {x : X} {toks : List (Tok V)} (hv : ∀ tok ∈ toks, tok.Valid t sem) {fuel : Nat}
    {p : Parser V X} (h : feed t sem fuel (Parser.new sem x) toks = some (.ok p ())) (hn : ∀ tok ex, Event.syntaxError tok ex ∉ p.trace) :
    ViablePrefix ds t.tokenNames toks ∧ (Productive V ds t.tokenNames → ∃ T : Tree V, IsTree ds t.tokenNames T ∧ toks <+: T.yield) :=
  ⟨C05_partial ho hc hf hA sem hv h (feed_noReport ho hc he hv h hn),
    fun hp => C05_sentence_partial ho hc hf hA hp sem hv h (feed_noReport ho hc he hv h hn)⟩

namespace Prefixes
open Tests (U L s r logSem)
open Examples

/-- All tokens are valid, are taken, and neither reported nor thrown away. -/
def takenB {X E : Type} (t : Tables) (m : Sem Int X E) (x : X) (toks : List (Tok Int)) : Bool :=
  toks.all (validB t m) && match feed t m 1000 (Parser.new m x) toks with
    | some (.ok p ()) => p.trace.all (fun e => kind e ≠ 5 && kind e ≠ 1)
    | _ => false

theorem takenB_iff {X E : Type} {t : Tables} {m : Sem Int X E} {x : X} {toks : List (Tok Int)} (h : takenB t m x toks = true) :
    (∀ tok ∈ toks, tok.Valid t m) ∧ ∃ p, feed t m 1000 (Parser.new m x) toks = some (.ok p ()) ∧ (∀ tok ex, Event.syntaxError tok ex ∉ p.trace) ∧
      ∀ n, Event.discard n ∉ p.trace := by
  unfold takenB at h
  rw [Bool.and_eq_true, List.all_eq_true] at h
  obtain ⟨h1, h2⟩ := h
  refine ⟨fun tok ht => validB_iff (h1 tok ht), ?_⟩
  split at h2
  · rename_i p hp
    simp only [Bool.and_eq_true, decide_eq_true_eq, List.all_eq_true] at h2
    refine ⟨p, hp, ?_, ?_⟩
    · intro tok ex hn; have := h2 _ hn; simp [kind] at this
    · intro n hn; have := h2 _ hn; simp [kind] at this
  · cases h2

/-- `s ::= A B; s ::= B A;` (numbers: A 1, B 2): the rows of the action table overlap. -/
def both : List Decl := [r (L 0) [s (U 1), s (U 2)], r (L 0) [s (U 2), s (U 1)]]

/-- Its sentential forms -/
theorem both_forms {es : List RhsElem} (h : SentForm both es) : es = [s (L 0)] ∨ es = [s (U 1), s (U 2)] ∨ es = [s (U 2), s (U 1)] := by
  obtain ⟨i, hi, h⟩ := h
  have hi : i = L 0 := by have : startOf both = some (L 0) := by decide
                          rw [this] at hi; cases hi; rfl
  subst hi
  induction h with
  | refl => exact .inl rfl
  | @tail b c _ h ih =>
    have key : ∀ {a b : List RhsElem} {e : RhsElem}, (a ++ e :: b = [s (L 0)] ∨ a ++ e :: b = [s (U 1), s (U 2)] ∨ a ++ e :: b = [s (U 2), s (U 1)]) →
        (e = s (L 0) ∧ a = [] ∧ b = []) ∨ e = s (U 1) ∨ e = s (U 2) := by
      intro a b e h
      rcases a with _ | ⟨x, _ | ⟨y, a⟩⟩ <;> simp at h
      · rcases h with h | h | h
        · exact .inl ⟨h.1, rfl, h.2⟩
        · exact .inr (.inl h.1)
        · exact .inr (.inr h.1)
      · rcases h with h | h
        · exact .inr (.inr h.2.1)
        · exact .inr (.inl h.2.1)
    cases h with
    | @rule a b u al hu =>
      rcases key ih with ⟨h1, rfl, rfl⟩ | h1 | h1
      · have : u = ⟨L 0, [s (U 1), s (U 2)], none, none⟩ ∨ u = ⟨L 0, [s (U 2), s (U 1)], none, none⟩ := by
          have : rulesOf both = [⟨L 0, [s (U 1), s (U 2)], none, none⟩, ⟨L 0, [s (U 2), s (U 1)], none, none⟩] := by decide
          rw [this] at hu
          simpa using hu
        rcases this with rfl | rfl
        · exact .inr (.inl rfl)
        · exact .inr (.inr rfl)
      all_goals
        have hl : u.lhs = L 0 := by
          have : ∀ u ∈ rulesOf both, u.lhs = L 0 := by decide
          exact this u hu
        rw [hl] at h1
        simp [s, L, U] at h1
    | absent => rcases key ih with ⟨h1, _⟩ | h1 | h1 <;> simp [s] at h1
    | present => rcases key ih with ⟨h1, _⟩ | h1 | h1 <;> simp [s] at h1

/-- Three tokens are no prefix of any of them. -/
theorem both_long {names : List SymName} {a b c : Tok V} : ¬ ViablePrefix both names [a, b, c] := by
  rintro ⟨es, rest, h1, h2⟩
  have hl := h2.length_eq
  have : (es ++ rest).length ≤ 2 := by
    rcases both_forms h1 with h | h | h <;> rw [h] <;> decide
  simp only [List.length_append, List.length_cons, List.length_nil] at this hl
  omega

end Prefixes

open Prefixes in
/-- C05 fails: the parser of `s ::= A B; s ::= B A;` takes `A B A` without an error. -/
theorem C05_false : ¬ C05_statement := by
  intro h
  obtain ⟨h1, p, h2, h3, _⟩ := takenB_iff (t := Examples.tablesOf both) (m := Tests.logSem) (x := []) (toks := Examples.tk [1, 2, 1]) (by decide +kernel)
  exact both_long (h id OrdOk.id both _ (Examples.compiles_iff (by decide +kernel)) Tests.logSem [] _ h1 1000 p h2 h3)

namespace Prefixes
open Tests (U L s r logSem)
open Examples

/-- `%type Num i; %type s i; %type e i; %fallback Plus Dash; s ::= e; e ::= e(A) Plus f(B) { 0 }; ..` of `Complex.sums`,
after `LP Num Dash LP Neg` (numbers: Num 1, Dash 2, Plus 3, LP 4, Neg 5, RP 6) -/
def start : List (Tok Int) := tk [4, 1, 2, 4, 5]

theorem start_taken : takenB (tablesOf Complex.sums) logSem [] start = true := by decide +kernel

-- the hypotheses of `C05_partial` are met in the middle of an input
example : ViablePrefix Complex.sums (tablesOf Complex.sums).tokenNames start := by
  obtain ⟨h1, p, h2, h3, h4⟩ := takenB_iff start_taken
  exact C05_partial OrdOk.id (compiles_iff (by decide +kernel)) (by decide +kernel) (by decide +kernel) logSem h1 h2 h4

open Complex in
theorem sums_productive : Productive Int Complex.sums (tablesOf Complex.sums).tokenNames := by
  rw [sums_names]
  have tk : ∀ {i : Ident} {n : Nat} {al : Bool}, names[n]? = some (.ident i) → isClass Complex.sums i = false →
      Spec.Fits (V := Int) Complex.sums names [.tok ⟨n, 0⟩] [⟨[i], false, al⟩] := by
    intro i n al h h'
    exact .tok h .self ⟨rfl, by simp [h']⟩ .nil
  have num : ∀ al, Spec.Fits (V := Int) Complex.sums names [.rule 3 [.tok ⟨1, 0⟩]] [⟨[L 2], false, al⟩] :=
    fun al => .rule (u := rule3) (by rfl) (tk (by rfl) (by decide)) .nil
  have e : ∀ al, Spec.Fits (V := Int) Complex.sums names [.rule 2 [.rule 3 [.tok ⟨1, 0⟩]]] [⟨[L 1], false, al⟩] :=
    fun al => .rule (u := rule2) (by rfl) (num _) .nil
  refine ⟨?_, ?_⟩
  · intro i hi
    have : startOf Complex.sums = some (L 0) := by decide
    rw [this] at hi
    cases hi
    exact ⟨_, .rule (n := 0) (u := rule0) (by rfl) (e _) .nil⟩
  · intro u hu
    have : rulesOf Complex.sums = [rule0, rule1, rule2, rule3, rule4] := by decide
    rw [this] at hu
    simp only [List.mem_cons, List.not_mem_nil, or_false] at hu
    rcases hu with rfl | rfl | rfl | rfl | rfl
    · intro x hx; simp [rule0] at hx; subst hx; exact ⟨_, e _⟩
    · intro x hx
      simp [rule1] at hx
      rcases hx with rfl | rfl | rfl
      · exact ⟨_, e _⟩
      · exact ⟨_, tk (n := 3) (by rfl) (by decide)⟩
      · exact ⟨_, num _⟩
    · intro x hx; simp [rule2] at hx; subst hx; exact ⟨_, num _⟩
    · intro x hx; simp [rule3] at hx; subst hx; exact ⟨_, tk (n := 1) (by rfl) (by decide)⟩
    · intro x hx
      simp [rule4] at hx
      rcases hx with rfl | rfl | rfl | rfl
      · exact ⟨_, tk (n := 4) (by rfl) (by decide)⟩
      · exact ⟨_, tk (n := 5) (by rfl) (by decide)⟩
      · exact ⟨_, e _⟩
      · exact ⟨_, tk (n := 6) (by rfl) (by decide)⟩

-- and so are those of `C05_noReport_partial`, also for sentences
example : ∃ T : Tree Int, IsTree Complex.sums (tablesOf Complex.sums).tokenNames T ∧ start <+: T.yield := by
  obtain ⟨h1, p, h2, h3, h4⟩ := takenB_iff start_taken
  exact (C05_noReport_partial OrdOk.id (compiles_iff (by decide +kernel)) (by decide +kernel) (by decide +kernel) (by decide) logSem h1 h2 h3).2 sums_productive

end Prefixes

end Pomelo
