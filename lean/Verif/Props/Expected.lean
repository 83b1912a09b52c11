import Verif.Proofs.Expected
import Verif.Props.Prefix
import Verif.Proofs.Variant
/-!
# C50: the tokens reported as expected

`Verif/Spec/Expected.lean` says what it means that a token may come next.
-/

namespace Pomelo

open Spec

variable {ord : List (SymbolId × SymbolId) → List (SymbolId × SymbolId)} {ds : List Decl} {t : Tables} {V X E : Type}

/-- C50 in full, without precedences: the list given to `%syntax_error` with the first report has the tokens that may come after those
already taken. -/
def C50_statement : Prop :=
  ∀ (ord : List (SymbolId × SymbolId) → List (SymbolId × SymbolId)), OrdOk ord → ∀ (ds : List Decl) (t : Tables), compile ord ds = .ok t →
    noAssoc ds = true → ds.all keepsTokens = true → Productive Int ds t.tokenNames →
    ∀ (sem : Sem Int (List Nat) Unit) (x : List Nat) (toks : List (Tok Int)), (∀ tok ∈ toks, tok.Valid t sem) →
      ∀ fuel p, feed t sem fuel (Parser.new sem x) toks = some (.ok p ()) → (∀ n, Event.discard n ∉ p.trace) →
      ∀ (k : Tok Int), k.Valid t sem → ∀ r p', parse t sem fuel p k = some r → r.parser? = some p' →
      ∀ l tok ex evs, p'.trace = l ++ .syntaxError tok ex :: (evs ++ p.trace) → ∀ j, j ∈ ex ↔ MayFollow ds t.tokenNames toks j

/-- Where the report comes from -/
theorem parse_reports {sem : Sem V X E} {fuel : Nat} {p p' : Parser V X} {k : Tok V} {r : Res V X E Unit} (h : parse t sem fuel p k = some r) (hp : r.parser? = some p')
    {l evs : List (Event V)} {tok : Option (Tok V)} {ex : List Nat} (he : p'.trace = l ++ .syntaxError tok ex :: (evs ++ p.trace)) :
    ∃ q top rest, Reduces t sem k.major (t.tokenValue sem k).2 p q ∧ q.status = .normal ∧ q.stack = top :: rest ∧ t.findShift top.state k.major = .ok (t.nState + t.nRule) ∧
      t.expected top.state = .ok ex ∧ q.trace <:+ evs ++ p.trace := by
  have he' : p'.trace = (l ++ .syntaxError tok ex :: evs) ++ p.trace := by rw [he]; simp
  rcases parse_report h hp with ⟨l0, h1, h2⟩ | ⟨q, top, rest, h1, h0, h2, h3, l1, h4, _, h5⟩
  · have : l0 = l ++ .syntaxError tok ex :: evs := List.append_cancel_right (by rw [← h1, ← he'])
    have := h2 (.syntaxError tok ex) (by rw [this]; simp)
    cases this
  · obtain ⟨evs', h6, h7⟩ := h1.events
    have h8 : l1 ++ evs' = l ++ .syntaxError tok ex :: evs := List.append_cancel_right (bs := p.trace) (by rw [← he', h4, h6]; simp)
    have h9 : ∀ ev ∈ evs', ev ≠ .syntaxError tok ex := by
      rintro ev hev rfl
      obtain ⟨_, _, e⟩ := h7 _ hev
      cases e
    have hm : .syntaxError tok ex ∈ l1 := by
      have : Event.syntaxError tok ex ∈ l1 ++ evs' := by rw [h8]; simp
      rcases List.mem_append.1 this with h | h
      · exact h
      · exact absurd rfl (h9 _ h)
    refine ⟨q, top, rest, h1, h0, h2, h3, (h5 _ _ hm).1, ?_⟩
    rw [h6]
    suffices evs' <:+ evs by
      obtain ⟨w, rfl⟩ := this
      exact ⟨w, by simp⟩
    have s1 : evs' <:+ l ++ .syntaxError tok ex :: evs := ⟨l1, h8⟩
    have s2 : evs <:+ l ++ .syntaxError tok ex :: evs := ⟨l ++ [.syntaxError tok ex], by simp⟩
    rcases List.suffix_or_suffix_of_suffix s1 s2 with h | h
    · exact h
    · obtain ⟨w, rfl⟩ := h
      rcases w.eq_nil_or_concat with rfl | ⟨w, a, rfl⟩
      · exact List.suffix_refl _
      · exfalso
        have s3 : (a :: evs) <:+ l ++ .syntaxError tok ex :: evs := by
          refine List.IsSuffix.trans ⟨l1 ++ w, ?_⟩ (List.suffix_refl _)
          rw [← h8]; simp
        have s4 : (.syntaxError tok ex :: evs) <:+ l ++ .syntaxError tok ex :: evs := ⟨l, rfl⟩
        exact h9 a (by simp) (suffix_head s3 s4)

/-- C50, that no token is in the list in vain: after the tokens taken, each token of the list gives a prefix of a sentential form, and
where every element derives something, of a sentence.
Missing: `%nonassoc` (there it is false, see `C50_false_nonassoc`), tables with overlapping rows, classes of classes, fallbacks in a circle. -/
theorem C50_sound_partial (ho : OrdOk ord) (hc : compile ord ds = .ok t) (hf : flat ds = true) (hA : apart ord ds = true) (hn : noNonassoc ds = true)
    (hs : noSelfFallback ds = true) (sem : Sem V X E) {x : X} {toks : List (Tok V)} (hv : ∀ tok ∈ toks, tok.Valid t sem) {fuel : Nat} {p : Parser V X}
    (h : feed t sem fuel (Parser.new sem x) toks = some (.ok p ())) (hd : ∀ n, Event.discard n ∉ p.trace) {k : Tok V} (hk : k.Valid t sem) {fuel' : Nat}
    {r : Res V X E Unit} {p' : Parser V X} (hr : parse t sem fuel' p k = some r) (hp : r.parser? = some p') {l evs : List (Event V)} {tok : Option (Tok V)}
    {ex : List Nat} (he : p'.trace = l ++ .syntaxError tok ex :: (evs ++ p.trace)) {j : Nat} (hj : j ∈ ex) :
    (∀ v, ViablePrefix ds t.tokenNames (toks ++ [⟨j, v⟩])) ∧ (Productive V ds t.tokenNames → MayFollow ds t.tokenNames toks j) := by
  obtain ⟨s⟩ := compile_cspec hc
  obtain ⟨dflt, m⟩ := s.made ho hf
  obtain ⟨b⟩ := bridge ho s.decls s.auto
  have key : ∀ v, ViablePrefix ds t.tokenNames (toks ++ [⟨j, v⟩]) := by
    intro v
    rcases m.good_feed ho hA sem hv (.inl (fun n => Good.new m sem x n)) h with hg | ⟨n, hn⟩
    · rw [List.nil_append] at hg
      obtain ⟨q, top, rest, h1, _, h2, h3, h4, _⟩ := parse_reports hr hp he
      obtain ⟨a, a1, a2, a3, a4⟩ := m.token hk.pos hk.lt
      rw [← a3] at h1
      have hq := m.good_reduces ho hA sem a1 a2 a4 h1 (hg _)
      rw [a3] at hq
      exact m.expected_viable ho hA b hn hs sem hk.pos hk.lt hq h2 h3 h4 hj v
    · exact absurd hn (hd n)
  refine ⟨key, fun hP => ?_⟩
  obtain ⟨T, h1, h2⟩ := (key k.val).sentence hP
  exact ⟨_, T, h1, h2⟩

/-- C50, that a token that may come next is in the list: if no conflict had to be settled, the next token of every sentence that begins
with the tokens taken is in the list, provided that its own call begins with the reductions `evs` that were made before the report.
Missing: that proviso (without it it is false, see `C50_false`), and the grammars left out in `C03_wildcard_partial`. -/
theorem C50_complete_partial (ho : OrdOk ord) (hc : compile ord ds = .ok t) (hf : flat ds = true) (hA : apart ord ds = true) (hroot : rootOk ds = true)
    (R : Run ord ds) (hn : NoClash R.g) (hw : WildAlone R.g) (hu : wildUnbound ds = true) (sem : Sem V X E) {x : X} {toks rest : List (Tok V)} {c : Tok V} {T : Tree V}
    (hT : IsOwnTree ds t.tokenNames T) (hy : T.yield = toks ++ c :: rest) (hv : ∀ tok ∈ T.yield, tok.Valid t sem) {fuel : Nat} {p : Parser V X}
    (h : feed t sem fuel (Parser.new sem x) toks = some (.ok p ())) {k : Tok V} {fuel' : Nat}
    {r : Res V X E Unit} {p' : Parser V X} (hr : parse t sem fuel' p k = some r) (hp : r.parser? = some p') {l evs : List (Event V)} {tok : Option (Tok V)}
    {ex : List Nat} (he : p'.trace = l ++ .syntaxError tok ex :: (evs ++ p.trace))
    (hsame : ∀ fuel2 r2 p2, parse t sem fuel2 p c = some r2 → r2.parser? = some p2 → evs ++ p.trace <:+ p2.trace) : c.major ∈ ex := by
  obtain ⟨q, top, rest', h1, hqs, h2, h3, h4, h5⟩ := parse_reports hr hp he
  have hrun : ∃ fuel2 R pf, runAll t sem fuel2 x T.yield = some R ∧ R.parser? = some pf ∧ noSyntaxError pf.trace = true := by
    rcases C03_wildcard_partial ho hc hf hA hroot R hn hw hu sem x hT hv with ⟨v, pf, f, _, g1, g2⟩ | ⟨e, pf, f, _, g1, g2⟩ | ⟨_, e, pf, f, _, _, g1, _, g2⟩
    · exact ⟨f, _, pf, g1, rfl, onlyMoves_noSyntax g2⟩
    · exact ⟨f, _, pf, g1, rfl, onlyMoves_noSyntax g2⟩
    · exact ⟨f, _, pf, g1, rfl, g2⟩
  obtain ⟨fuel2, R', pf, g1, g2, g3⟩ := hrun
  rw [hy] at g1
  obtain ⟨r2, p2, g4, g5, g6⟩ := runAll_parse g1 g2 h
  have hno : ∀ ev ∈ p2.trace, ev.isSyntax = false := by
    intro ev hev
    unfold noSyntaxError at g3
    rw [List.all_eq_true] at g3
    simpa using g3 ev (g6.subset hev)
  have hsuf := h5.trans (hsame _ _ _ g4 g5)
  have hcv : c.Valid t sem := hv c (by rw [hy]; simp)
  have hl : ∃ r' p'', loop t sem c.major (t.tokenValue sem c).2 fuel2 p = some r' ∧ r'.parser? = some p'' ∧ p''.trace = p2.trace := by
    rcases parseToken_inv g4 with ⟨rfl, _⟩ | ⟨_, r', hl, hr⟩
    · cases g5
    rcases hr with ⟨p1, e, rfl, rfl⟩ | ⟨_, rfl⟩
    · cases g5; exact ⟨_, p1, hl, rfl, rfl⟩
    · exact ⟨_, p2, hl, g5, rfl⟩
  obtain ⟨r', p'', l1, l2, l3⟩ := hl
  rw [← l3] at hno hsuf
  have hfol := h1.follow l1 l2 (by
    obtain ⟨w, hw⟩ := loop_suffix l1 l2
    exact ⟨w, hw.symm, fun ev hev => hno ev (by rw [← hw]; exact List.mem_append_left _ hev)⟩) hsuf
  obtain ⟨f3, l4⟩ := loop_of_reduces hfol l1
  rw [(expected_spec h4).2]
  refine ⟨hcv.pos, hcv.lt, ?_⟩
  cases f3 with
  | zero => simp [loop] at l4
  | succ f3 =>
    unfold loop at l4
    simp only [hqs] at l4
    rcases step_cases t sem q c.major (t.tokenValue sem c).2 with ⟨w, e1⟩ | ⟨top', rest'', act, e1, e2, e3⟩
    · rw [e1] at l4; cases l4; cases l2
    rw [h2] at e1
    cases e1
    refine ⟨act, e2, ?_⟩
    rcases e3 with ⟨e3, _⟩ | ⟨_, e3, _⟩ | ⟨rfl, e3⟩
    · omega
    · exact e3
    · exfalso
      rw [e3] at l4; cases l4
      obtain ⟨l', y1, ⟨ev, y2, y3⟩, _⟩ := onError_reacts l2
      rw [hno ev (by rw [y1]; exact List.mem_append_left _ y2)] at y3
      cases y3

/-- C50 where nothing was reduced before the report: then the list has every token that may come next. -/
theorem C50_complete_first_partial (ho : OrdOk ord) (hc : compile ord ds = .ok t) (hf : flat ds = true) (hA : apart ord ds = true) (hroot : rootOk ds = true)
    (R : Run ord ds) (hn : NoClash R.g) (hw : WildAlone R.g) (hu : wildUnbound ds = true) (sem : Sem V X E) {x : X} {toks rest : List (Tok V)} {c : Tok V} {T : Tree V}
    (hT : IsOwnTree ds t.tokenNames T) (hy : T.yield = toks ++ c :: rest) (hv : ∀ tok ∈ T.yield, tok.Valid t sem) {fuel : Nat} {p : Parser V X}
    (h : feed t sem fuel (Parser.new sem x) toks = some (.ok p ())) {k : Tok V} {fuel' : Nat}
    {r : Res V X E Unit} {p' : Parser V X} (hr : parse t sem fuel' p k = some r) (hp : r.parser? = some p') {l : List (Event V)} {tok : Option (Tok V)}
    {ex : List Nat} (he : p'.trace = l ++ .syntaxError tok ex :: p.trace) : c.major ∈ ex :=
  C50_complete_partial ho hc hf hA hroot R hn hw hu sem hT hy hv h hr hp (evs := []) he (fun _ _ _ h1 h2 => parseToken_suffix h1 h2)

/-- The value that comes with a token of the list (`token_build(yy_major, YY0(()))`, mod.rs:2685-2687): the token itself if it has no type,
else none. -/
theorem C50_token (ho : OrdOk ord) (hc : compile ord ds = .ok t) (hf : flat ds = true) {j : Nat} {i : Ident} (h0 : 0 < j) (hn : t.tokenNames[j]? = some (.ident i))
    (sem : Sem V X E) : t.tokenBuild sem j ⟨0, sem.unit⟩ = if plainType ds i = none then some ⟨j, sem.unit⟩ else none := by
  obtain ⟨s⟩ := compile_cspec hc
  obtain ⟨h1, h2⟩ := s.variant ho hf (.token hn)
  have hj : j < t.numTerminals := by
    have := (List.getElem?_eq_some_iff.1 hn).1
    rw [s.gen.tokenNames, List.length_map, List.length_take, s.gen.shape.nterm] at this
    rw [s.numTerminals]
    omega
  unfold Tables.tokenBuild
  rw [if_pos ⟨h0, hj⟩]
  simp only
  rw [h1]
  cases plainType ds i with
  | none => rfl
  | some T =>
    have : tagOf s.gen.types (some T) ≠ 0 := Nat.succ_ne_zero _
    rw [if_neg this, if_neg (Ne.symm this)]
    simp

/-! ## Cases -/

namespace Expect
open Tests (U L s r logSem)
open Examples

/-- The tokens are valid and taken, then `k` is reported with the list `ex` after `n` reductions. -/
def reportB {X E : Type} (t : Tables) (m : Sem Int X E) (x : X) (toks : List (Tok Int)) (k : Tok Int) (n : Nat) (ex : List Nat) : Bool :=
  toks.all (validB t m) && validB t m k && match feed t m 1000 (Parser.new m x) toks with
    | some (.ok p ()) => p.trace.all (fun e => kind e ≠ 5) && match parse t m 1000 p k with
      | some r => match r.parser? with
        | some p' => match p'.trace.drop (p'.trace.length - p.trace.length - n - 1) with
          | .syntaxError _ ex' :: rest => ex' == ex && rest.length == n + p.trace.length
          | _ => false
        | none => false
      | none => false
    | _ => false

theorem reportB_iff {X E : Type} {t : Tables} {m : Sem Int X E} {x : X} {toks : List (Tok Int)} {k : Tok Int} {n : Nat} {ex : List Nat} (h : reportB t m x toks k n ex = true) :
    (∀ tok ∈ toks, tok.Valid t m) ∧ k.Valid t m ∧ ∃ p, feed t m 1000 (Parser.new m x) toks = some (.ok p ()) ∧ (∀ n, Event.discard n ∉ p.trace) ∧
      ∃ r p', parse t m 1000 p k = some r ∧ r.parser? = some p' ∧ ∃ l tok evs, p'.trace = l ++ .syntaxError tok ex :: (evs ++ p.trace) ∧ evs.length = n := by
  unfold reportB at h
  rw [Bool.and_eq_true, Bool.and_eq_true, List.all_eq_true] at h
  obtain ⟨⟨h1, h2⟩, h3⟩ := h
  refine ⟨fun tok ht => validB_iff (h1 tok ht), validB_iff h2, ?_⟩
  split at h3
  · rename_i p hp
    rw [Bool.and_eq_true, List.all_eq_true] at h3
    obtain ⟨h3, h4⟩ := h3
    refine ⟨p, hp, ?_, ?_⟩
    · intro n hn; have := h3 _ hn; simp [kind] at this
    · split at h4
      · rename_i r hr
        split at h4
        · rename_i p' hp'
          refine ⟨r, p', hr, hp', ?_⟩
          split at h4
          · rename_i tok ex' rest hd
            rw [Bool.and_eq_true, beq_iff_eq, beq_iff_eq] at h4
            obtain ⟨rfl, h5⟩ := h4
            have s1 : p.trace <:+ p'.trace := parseToken_suffix hr hp'
            have s2 : rest <:+ p'.trace := by
              refine List.IsSuffix.trans (List.suffix_cons (.syntaxError tok ex') _) ?_
              rw [← hd]; exact List.drop_suffix _ _
            obtain ⟨evs, rfl⟩ := List.suffix_of_suffix_length_le s1 s2 (by omega)
            exact ⟨_, tok, evs, by rw [← hd, List.take_append_drop], by simpa using h5⟩
          · cases h4
        · cases h4
      · cases h4
  · cases h3

/-- The forms that one step leads to -/
def steps (ds : List Decl) (f : List RhsElem) : List (List RhsElem) :=
  (List.range f.length).flatMap fun i =>
    match f.drop i with
    | [] => []
    | e :: b => ((rulesOf ds).filter (fun u => e.toks == [u.lhs])).map (fun u => f.take i ++ u.rhs ++ b) ++
        if e.optional then [f.take i ++ b, f.take i ++ ⟨e.toks, false, false⟩ :: b] else []

theorem mem_steps {f f' : List RhsElem} (h : Expands ds f f') : f' ∈ steps ds f := by
  have key : ∀ {a b : List RhsElem} {e : RhsElem} {f'}, f' ∈ ((rulesOf ds).filter (fun u => e.toks == [u.lhs])).map (fun u => a ++ u.rhs ++ b) ++
        (if e.optional then [a ++ b, a ++ ⟨e.toks, false, false⟩ :: b] else []) →
      f' ∈ steps ds (a ++ e :: b) := by
    intro a b e f' h
    unfold steps
    rw [List.mem_flatMap]
    refine ⟨a.length, by simp, ?_⟩
    simpa using h
  cases h with
  | @rule a b u al hu =>
    refine key (List.mem_append_left _ (List.mem_map.2 ⟨u, ?_, rfl⟩))
    simp [hu]
  | absent => exact key (by simp)
  | present => exact key (by simp)

/-- A list of forms closed under the steps has all sentential forms. -/
theorem mem_forms {F : List (List RhsElem)} {i : Ident} (hi : startOf ds = some i) (h0 : [⟨[i], false, false⟩] ∈ F) (hF : F.all (fun f => (steps ds f).all (· ∈ F)) = true)
    {es : List RhsElem} (h : SentForm ds es) : es ∈ F := by
  obtain ⟨j, hj, h⟩ := h
  rw [hi] at hj
  cases hj
  induction h with
  | refl => exact h0
  | tail _ h ih =>
    rw [List.all_eq_true] at hF
    have := hF _ ih
    rw [List.all_eq_true] at this
    simpa using this _ (mem_steps h)

/-- `s ::= e Semi; e ::= t; t ::= Num; t ::= t Star Num;` (numbers: Semi 1, Num 2, Star 3) -/
def stars : List Decl := [r (L 0) [s (L 1), s (U 1)], r (L 1) [s (L 2)], r (L 2) [s (U 2)], r (L 2) [s (L 2), s (U 3), s (U 2)]]

theorem stars_names : (tablesOf stars).tokenNames = [.dollar, .ident (U 1), .ident (U 2), .ident (U 3)] := by decide +kernel

theorem stars_tok {i : Ident} {n : Nat} {ts : List (Tree Int)} {es : List RhsElem} (h : (tablesOf stars).tokenNames[n]? = some (.ident i)) (h' : isClass stars i = false)
    (h2 : Spec.Fits stars (tablesOf stars).tokenNames ts es) : Spec.Fits (V := Int) stars (tablesOf stars).tokenNames (.tok ⟨n, 0⟩ :: ts) (⟨[i], false, false⟩ :: es) :=
  .tok h .self ⟨rfl, by simp [h']⟩ h2

theorem stars_t {ts : List (Tree Int)} {es : List RhsElem} (h2 : Spec.Fits stars (tablesOf stars).tokenNames ts es) :
    Spec.Fits stars (tablesOf stars).tokenNames (.rule 2 [.tok ⟨2, 0⟩] :: ts) (⟨[L 2], false, false⟩ :: es) :=
  .rule (u := ⟨L 2, [s (U 2)], none, none⟩) (by rfl) (stars_tok (by rw [stars_names]; rfl) (by decide) .nil) h2

theorem stars_productive : Productive Int stars (tablesOf stars).tokenNames := by
  have e : ∀ {ts : List (Tree Int)} {es}, Spec.Fits stars (tablesOf stars).tokenNames ts es →
      Spec.Fits stars (tablesOf stars).tokenNames (.rule 1 [.rule 2 [.tok ⟨2, 0⟩]] :: ts) (⟨[L 1], false, false⟩ :: es) :=
    fun h => .rule (u := ⟨L 1, [s (L 2)], none, none⟩) (by rfl) (stars_t .nil) h
  refine ⟨?_, ?_⟩
  · intro i hi
    have : startOf stars = some (L 0) := by decide
    rw [this] at hi
    cases hi
    exact ⟨_, .rule (n := 0) (u := ⟨L 0, [s (L 1), s (U 1)], none, none⟩) (by rfl) (e (stars_tok (n := 1) (by rw [stars_names]; rfl) (by decide) .nil)) .nil⟩
  · have : ∀ u ∈ rulesOf stars, ∀ e ∈ u.rhs, e = s (L 1) ∨ e = s (L 2) ∨ e = s (U 1) ∨ e = s (U 2) ∨ e = s (U 3) := by decide
    intro u hu x hx
    rcases this u hu x hx with rfl | rfl | rfl | rfl | rfl
    · exact ⟨_, e .nil⟩
    · exact ⟨_, stars_t .nil⟩
    · exact ⟨_, stars_tok (n := 1) (by rw [stars_names]; rfl) (by decide) .nil⟩
    · exact ⟨_, stars_tok (n := 2) (by rw [stars_names]; rfl) (by decide) .nil⟩
    · exact ⟨_, stars_tok (n := 3) (by rw [stars_names]; rfl) (by decide) .nil⟩

/-- The tree of `Num Star Num Semi` -/
def star : Tree Int := .rule 0 [.rule 1 [.rule 3 [.rule 2 [.tok ⟨2, 0⟩], .tok ⟨3, 0⟩, .tok ⟨2, 0⟩]], .tok ⟨1, 0⟩]

theorem star_ok : IsTree stars (tablesOf stars).tokenNames star := by
  refine ⟨L 0, by decide, .rule (u := ⟨L 0, [s (L 1), s (U 1)], none, none⟩) (by rfl) ?_ .nil⟩
  refine .rule (u := ⟨L 1, [s (L 2)], none, none⟩) (by rfl) ?_ (stars_tok (by rw [stars_names]; rfl) (by decide) .nil)
  refine .rule (u := ⟨L 2, [s (L 2), s (U 3), s (U 2)], none, none⟩) (by rfl) ?_ .nil
  exact stars_t (stars_tok (by rw [stars_names]; rfl) (by decide) (stars_tok (by rw [stars_names]; rfl) (by decide) .nil))

theorem stars_report : reportB (tablesOf stars) logSem [] [⟨2, 0⟩] ⟨2, 0⟩ 2 [1] = true := by decide +kernel

end Expect

open Expect Examples Tests in
/-- C50 fails: with `s ::= e Semi; e ::= t; t ::= Num; t ::= t Star Num;` a second `Num` is refused only after the default reduction
`e ::= t`, and `Star` is not in the list, although it may follow. -/
theorem C50_false : ¬ C50_statement := by
  intro h
  obtain ⟨h1, h2, p, h3, h4, r, p', h5, h6, l, tok, evs, h7, _⟩ := reportB_iff stars_report
  have := (h id OrdOk.id stars _ (compiles_iff (by decide +kernel)) (by decide) (by decide) stars_productive logSem [] _ h1 1000 p h3 h4 _ h2 r p' h5 h6 l tok _ evs h7 3).2
    ⟨0, star, star_ok, [⟨2, 0⟩, ⟨1, 0⟩], rfl⟩
  simp at this

/-- `C50_sound_partial` for all declarations of precedence -/
def C50_sound_statement : Prop :=
  ∀ (ord : List (SymbolId × SymbolId) → List (SymbolId × SymbolId)), OrdOk ord → ∀ (ds : List Decl) (t : Tables), compile ord ds = .ok t →
    flat ds = true → apart ord ds = true → ds.all keepsTokens = true →
    ∀ (sem : Sem Int (List Nat) Unit) (x : List Nat) (toks : List (Tok Int)), (∀ tok ∈ toks, tok.Valid t sem) →
      ∀ fuel p, feed t sem fuel (Parser.new sem x) toks = some (.ok p ()) → (∀ n, Event.discard n ∉ p.trace) →
      ∀ (k : Tok Int), k.Valid t sem → ∀ r p', parse t sem fuel p k = some r → r.parser? = some p' →
      ∀ l tok ex evs, p'.trace = l ++ .syntaxError tok ex :: (evs ++ p.trace) → ∀ j ∈ ex, ∀ v, ViablePrefix ds t.tokenNames (toks ++ [⟨j, v⟩])

namespace Expect
open Tests (U L s r logSem)
open Examples

/-- `%nonassoc Eq; s ::= x Eq A; x ::= Num [Eq]; s ::= Num Eq B;` (numbers: Eq 1, A 2, Num 3, B 4) -/
def nona : List Decl := [.assoc .none [U 1], r (L 0) [s (L 1), s (U 1), s (U 2)], .rule (L 1) [s (U 3)] none (some (U 1)), r (L 0) [s (U 3), s (U 1), s (U 4)]]

theorem nona_names : (tablesOf nona).tokenNames = [.dollar, .ident (U 1), .ident (U 2), .ident (U 3), .ident (U 4)] := by decide +kernel

theorem nona_second {a : Tok Int} {v : Int} : ¬ ViablePrefix nona (tablesOf nona).tokenNames [a, ⟨2, v⟩] := by
  rintro ⟨es, rest, h1, h2⟩
  have hm := mem_forms (i := L 0) (F := [[s (L 0)], [s (L 1), s (U 1), s (U 2)], [s (U 3), s (U 1), s (U 2)], [s (U 3), s (U 1), s (U 4)]]) (by decide) (by decide) (by decide) h1
  obtain ⟨e1, e2, rfl⟩ : ∃ e1 e2, es = [e1, e2] := by
    have := h2.length_eq
    rcases es with _ | ⟨e1, _ | ⟨e2, _ | ⟨e3, es⟩⟩⟩ <;> simp at this
    exact ⟨e1, e2, rfl⟩
  have he : e2 = s (U 1) := by
    simp only [List.cons_append, List.nil_append, List.mem_cons, List.not_mem_nil, or_false, List.cons.injEq] at hm
    rcases hm with h | h | h | h
    · simp at h
    all_goals exact h.2.1
  subst he
  cases h2 with
  | cons _ h2 =>
    cases h2 with
    | cons h2 _ =>
      obtain ⟨i, j, h3, h4, h5⟩ := h2
      rw [nona_names] at h3
      have hi : i = U 2 := by simpa using h3.symm
      subst hi
      have hj : j = U 2 := by
        cases h4 with
        | self => rfl
        | fallback h => cases h
        | wildcard h => cases h
      subst hj
      have : isClass nona (U 1) = false := by decide
      simp [Matches, s, this, U] at h5

theorem nona_report : reportB (tablesOf nona) logSem [] [⟨3, 0⟩] ⟨1, 0⟩ 0 [2, 3, 4] = true := by decide +kernel

end Expect

open Expect Examples Tests in
/-- With `%nonassoc` a token may be in the list in vain: in `%nonassoc Eq; s ::= x Eq A; x ::= Num [Eq]; s ::= Num Eq B;` the token `Eq` is
refused after `Num`, and the list has all other tokens, because of the default reduction; none of them may follow. -/
theorem C50_false_nonassoc : ¬ C50_sound_statement := by
  intro h
  obtain ⟨h1, h2, p, h3, h4, r, p', h5, h6, l, tok, evs, h7, _⟩ := reportB_iff nona_report
  exact nona_second (h id OrdOk.id nona _ (compiles_iff (by decide +kernel)) (by decide) (by decide +kernel) (by decide) logSem [] _ h1 1000 p h3 h4 _ h2 r p' h5 h6 l tok _ evs h7 2
    (by decide) 0)

namespace Expect
open Tests (U L s r logSem)
open Examples

-- the hypotheses of `C50_sound_partial` are met in the middle of an input, with a fallback: after `LP Num`, `Num` is refused; listed are `Dash`, `Plus`, `RP`
example : reportB (tablesOf Complex.sums) logSem [] (tk [4, 1]) ⟨1, 0⟩ 2 [2, 3, 6] = true := by decide +kernel

example : MayFollow Complex.sums (tablesOf Complex.sums).tokenNames (tk [4, 1]) 6 := by
  obtain ⟨h1, h2, p, h3, h4, r, p', h5, h6, l, tok, evs, h7, _⟩ := reportB_iff (t := tablesOf Complex.sums) (m := logSem) (x := []) (toks := tk [4, 1]) (k := ⟨1, 0⟩) (n := 2) (ex := [2, 3, 6]) (by decide +kernel)
  exact (C50_sound_partial OrdOk.id (compiles_iff (by decide +kernel)) (by decide) (by decide +kernel) (by decide) (by decide) logSem h1 h3 h4 h2 h5 h6 h7 (by decide)).2 Prefixes.sums_productive

-- those of `C50_complete_first_partial`: after `Num Plus`, `Plus` is refused at once; listed are `Num`, `LP`
example : 4 ∈ [1, 4] := by
  obtain ⟨h1, h2, p, h3, h4, r, p', h5, h6, l, tok, evs, h7, h8⟩ := reportB_iff (t := tablesOf Complex.sums) (m := logSem) (x := []) (toks := [⟨1, 5⟩, ⟨3, 0⟩]) (k := ⟨3, 0⟩) (n := 0) (ex := [1, 4]) (by decide +kernel)
  obtain rfl := List.length_eq_zero_iff.1 h8
  have hc : compile id Complex.sums = .ok (tablesOf Complex.sums) := compiles_iff (by decide +kernel)
  obtain ⟨R⟩ := run_exists hc
  exact C50_complete_first_partial OrdOk.id hc (by decide) (by decide +kernel) (by decide +kernel) R (noClash_of_noAssoc OrdOk.id R (by decide)) (wildAlone_of_none (R.no_wild OrdOk.id (by decide))) (by decide) logSem (c := ⟨4, 0⟩)
    Complex.sumsTree_ok (rest := [⟨1, 7⟩, ⟨3, 0⟩, ⟨1, 1⟩, ⟨6, 0⟩]) rfl (Complex.sumsTree_valid logSem rfl) h3 h5 h6 h7

-- in the same grammar `Num` has a type and `LP` has none
example : (tablesOf Complex.sums).tokenBuild logSem 1 ⟨0, 0⟩ = none ∧ (tablesOf Complex.sums).tokenBuild logSem 4 ⟨0, 0⟩ = some ⟨4, 0⟩ :=
  have hc : compile id Complex.sums = .ok (tablesOf Complex.sums) := compiles_iff (by decide +kernel)
  ⟨C50_token OrdOk.id hc (by decide) (i := U 2) (by decide) (by rw [Complex.sums_names]; rfl) logSem,
    C50_token OrdOk.id hc (by decide) (i := U 4) (by decide) (by rw [Complex.sums_names]; rfl) logSem⟩

deriving instance DecidableEq for Tok
deriving instance DecidableEq for Event

/-- After the tokens, `k` is reported after `n` reductions, and the call for `c` begins with the same ones. -/
def sameB {X E : Type} (t : Tables) (m : Sem Int X E) (x : X) (toks : List (Tok Int)) (k c : Tok Int) (n : Nat) : Bool :=
  match feed t m 1000 (Parser.new m x) toks with
    | some (.ok p ()) => match parse t m 1000 p k, parse t m 1000 p c with
      | some r, some r2 => match r.parser?, r2.parser? with
        | some p', some p2 => p'.trace.drop (p'.trace.length - p.trace.length - n) == p2.trace.drop (p2.trace.length - p.trace.length - n)
        | _, _ => false
      | _, _ => false
    | _ => false

theorem sameB_iff {X E : Type} {t : Tables} {m : Sem Int X E} {x : X} {toks : List (Tok Int)} {k c : Tok Int} {n : Nat} (h : sameB t m x toks k c n = true) {p p' : Parser Int X}
    {r : Res Int X E Unit} {l evs : List (Event Int)} {ev : Event Int} (hp : feed t m 1000 (Parser.new m x) toks = some (.ok p ())) (hr : parse t m 1000 p k = some r) (hp' : r.parser? = some p')
    (he : p'.trace = l ++ ev :: (evs ++ p.trace)) (hn : evs.length = n) :
    ∀ fuel2 r2 p2, parse t m fuel2 p c = some r2 → r2.parser? = some p2 → evs ++ p.trace <:+ p2.trace := by
  intro fuel2 r2 p2 h2 hp2
  unfold sameB at h
  rw [hp] at h
  simp only [hr] at h
  split at h
  · rename_i r' r2' e1 e2
    cases e1
    have : r2' = r2 := by
      have g1 := parseToken_mono e2 (Nat.le_max_left 1000 fuel2)
      have g2 := parseToken_mono h2 (Nat.le_max_right 1000 fuel2)
      rw [g1] at g2
      exact Option.some.inj g2
    subst this
    simp only [hp', hp2, beq_iff_eq] at h
    have hl : p'.trace.drop (p'.trace.length - p.trace.length - n) = evs ++ p.trace := by
      rw [he]
      have : (l ++ ev :: (evs ++ p.trace)).length - p.trace.length - n = (l ++ [ev]).length := by simp; omega
      rw [this, show l ++ ev :: (evs ++ p.trace) = (l ++ [ev]) ++ (evs ++ p.trace) by simp, List.drop_left]
    rw [hl] at h
    rw [h]
    exact List.drop_suffix _ _
  · cases h

-- those of `C50_complete_partial`: after `Num Plus LP Num`, `Num` is refused after two reductions, with which the call for `Plus` begins too
example : 3 ∈ [2, 3, 6] := by
  obtain ⟨h1, h2, p, h3, h4, r, p', h5, h6, l, tok, evs, h7, h8⟩ := reportB_iff (t := tablesOf Complex.sums) (m := logSem) (x := []) (toks := [⟨1, 5⟩, ⟨3, 0⟩, ⟨4, 0⟩, ⟨1, 7⟩]) (k := ⟨1, 0⟩) (n := 2) (ex := [2, 3, 6]) (by decide +kernel)
  have hc : compile id Complex.sums = .ok (tablesOf Complex.sums) := compiles_iff (by decide +kernel)
  obtain ⟨R⟩ := run_exists hc
  exact C50_complete_partial OrdOk.id hc (by decide) (by decide +kernel) (by decide +kernel) R (noClash_of_noAssoc OrdOk.id R (by decide)) (wildAlone_of_none (R.no_wild OrdOk.id (by decide))) (by decide) logSem (c := ⟨3, 0⟩)
    Complex.sumsTree_ok (rest := [⟨1, 1⟩, ⟨6, 0⟩]) rfl (Complex.sumsTree_valid logSem rfl) h3 h5 h6 h7
    (sameB_iff (by decide +kernel) h3 h5 h6 h7 h8)

end Expect

end Pomelo
