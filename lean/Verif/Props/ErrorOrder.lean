import Verif.Props.Timing
/-!
# C71: what is reported at an error

The parsers for two orders of the same declarations report the first error at the same token (`C69_notice_partial`).  If neither has reduced before it
reports, the lists of expected tokens are the same, too: they have just the tokens that may come.  If one has, they may be different.
-/

namespace Pomelo

open Spec

variable {ord ord' : List (SymbolId × SymbolId) → List (SymbolId × SymbolId)} {ds ds' : List Decl} {t t' : Tables} {V X E : Type}

/-- C71 in full: at the first error both orders of the declarations give the same list of expected tokens. -/
def C71_statement : Prop :=
  ∀ (ord ord' : List (SymbolId × SymbolId) → List (SymbolId × SymbolId)), OrdOk ord → OrdOk ord' → ∀ (ds ds' : List Decl), Shuffled ds ds' →
  startOf ds = startOf ds' → ds.all keepsTokens = true → noAssoc ds = true → apartAll ds → apartAll ds' → ∀ t t', compile ord ds = .ok t → compile ord' ds' = .ok t' →
  Productive Int ds t.tokenNames → ∀ ρ, SameTokens t.tokenNames t'.tokenNames ρ →
  ∀ (sem : Sem Int (List Nat) Unit) (x : List Nat) (toks : List (Tok Int)) (k : Tok Int), (∀ tok ∈ toks, tok.Valid t sem) → k.Valid t sem →
  ∀ fuel fuel' p p', feed t sem fuel (Parser.new sem x) toks = some (.ok p ()) → feed t' sem fuel' (Parser.new sem x) (toks.map (Tok.swap ρ)) = some (.ok p' ()) →
  (∀ n, Event.discard n ∉ p.trace) → (∀ n, Event.discard n ∉ p'.trace) →
  ∀ r r' q q', parse t sem fuel p k = some r → parse t' sem fuel' p' (k.swap ρ) = some r' → r.parser? = some q → r'.parser? = some q' →
  ∀ l l' evs evs' tok tok' ex ex', q.trace = l ++ .syntaxError tok ex :: (evs ++ p.trace) → q'.trace = l' ++ .syntaxError tok' ex' :: (evs' ++ p'.trace) →
    (ex.map ρ).Perm ex'

theorem noNonassoc_of_noAssoc (h : noAssoc ds = true) : noNonassoc ds = true := by
  unfold noAssoc at h
  unfold noNonassoc
  rw [List.all_eq_true] at h ⊢
  intro d hd
  have := h d hd
  cases d <;> first | rfl | cases this

/-! ## The list of one parser -/

/-- If there is no reduction before the report, then the list has exactly the tokens that may come.
Missing: declared precedences, fallbacks and wildcards, and reports after reductions (`C50_false`); overlapping rows, classes of classes, a `()` in the types,
and symbols that have no sentences. -/
theorem C71_exact_partial (ho : OrdOk ord) (hc : compile ord ds = .ok t) (hf : flat ds = true) (hA : apart ord ds = true) (hr : rootOk ds = true)
    (hk : ds.all keepsTokens = true) (hn : noAssoc ds = true) (hP : Productive V ds t.tokenNames) (sem : Sem V X E) {x : X}
    {toks : List (Tok V)} (hv : ∀ tok ∈ toks, tok.Valid t sem) {k : Tok V} (hkv : k.Valid t sem) {fuel fuel' : Nat} {p q : Parser V X} {r : Res V X E Unit}
    (h : feed t sem fuel (Parser.new sem x) toks = some (.ok p ())) (hd : ∀ n, Event.discard n ∉ p.trace) (h' : parse t sem fuel' p k = some r)
    (hq : r.parser? = some q) {l : List (Event V)} {tok : Option (Tok V)} {ex : List Nat} (he : q.trace = l ++ .syntaxError tok ex :: p.trace) (j : Nat) :
    j ∈ ex ↔ MayFollow ds t.tokenNames toks j := by
  have hown : ownTokens ds = ds := List.filter_eq_self.2 (List.all_eq_true.1 hk)
  have hw : wildcardOf ds = none := by rw [← hown]; exact own_wildcard
  have hsf : noSelfFallback ds = true := by
    unfold noSelfFallback
    rw [List.all_eq_true] at hk ⊢
    intro d hd
    have := hk d hd
    cases d <;> first | rfl | cases this
  constructor
  · intro hj
    exact (C50_sound_partial ho hc hf hA (noNonassoc_of_noAssoc hn) hsf sem hv h hd hkv h' hq (evs := []) he hj).2 hP
  · rintro ⟨v, T, hT, rest, hy⟩
    obtain ⟨R⟩ := run_exists hc
    obtain ⟨T', a1, a2⟩ := isTree_move (.refl ds) hT (names' := t.tokenNames) (ks := T.yield.map (fitting t sem)) (forall₂_map fun _ _ => rfl)
    have a3 : T'.yield = toks ++ fitting t sem ⟨j, v⟩ :: rest.map (fitting t sem) := by
      rw [a2, ← hy, List.map_append, List.map_append, List.map_congr_left (f := fitting t sem) (g := id) fun k hk => fitting_self (hv k hk), List.map_id]
      simp
    have a4 : ∀ tok ∈ T'.yield, tok.Valid t sem := by
      rw [a2]
      intro tok ht
      obtain ⟨k, hk, rfl⟩ := List.mem_map.1 ht
      obtain ⟨i, hi⟩ := isTree_names hT k hk
      exact fitting_valid ho hc sem hi
    have a5 : IsOwnTree ds t.tokenNames T' := by unfold IsOwnTree; rw [hown]; exact a1
    exact C50_complete_first_partial ho hc hf hA hr R (noClash_of_noAssoc ho R hn) (wildAlone_of_none (R.no_wild ho hw)) (wildUnbound_of_none hw) sem a5 a3 a4 h h' hq he

/-! ## Two orders -/

theorem mayFollow_move {D D' : List Decl} (hd : SameTrees D D') {names names' : List SymName} {ρ : Nat → Nat} (hρ : SameTokens names names' ρ) {toks : List (Tok V)}
    {j : Nat} (h : MayFollow D names toks j) : MayFollow D' names' (toks.map (Tok.swap ρ)) (ρ j) := by
  obtain ⟨v, T, h1, h2⟩ := h
  obtain ⟨T', a1, a2⟩ := begins_move hd hρ ⟨T, h1, h2⟩
  rw [List.map_append] at a2
  exact ⟨v, T', a1, a2⟩

theorem mayFollow_name {names : List SymName} {toks : List (Tok V)} {j : Nat} (h : MayFollow ds names toks j) : ∃ i, names[j]? = some (.ident i) := by
  obtain ⟨v, T, h1, rest, h2⟩ := h
  exact isTree_names h1 ⟨j, v⟩ (by rw [← h2]; simp)

/-- C71: if neither parser has reduced before it reports, then both lists have the same tokens.
Missing: as for `C71_exact_partial`. -/
theorem C71_partial (ho : OrdOk ord) (ho' : OrdOk ord') (hd : Shuffled ds ds') (hst : startOf ds = startOf ds') (hc : compile ord ds = .ok t)
    (hc' : compile ord' ds' = .ok t') (hf : flat ds = true) (hA : apart ord ds = true) (hA' : apart ord' ds' = true) (hr : rootOk ds = true)
    (hk : ds.all keepsTokens = true) (hn : noAssoc ds = true) (hP : Productive V ds t.tokenNames) (sem : Sem V X E) {x : X}
    {toks : List (Tok V)} (hv : ∀ tok ∈ toks, tok.Valid t sem) {k : Tok V} (hkv : k.Valid t sem) {fuel fuel1 fuel' fuel1' : Nat} {p p' q q' : Parser V X}
    {r r' : Res V X E Unit} (h : feed t sem fuel (Parser.new sem x) toks = some (.ok p ()))
    (h' : feed t' sem fuel' (Parser.new sem x) (toks.map (Tok.swap (renumber t.tokenNames t'.tokenNames))) = some (.ok p' ()))
    (hdis : ∀ n, Event.discard n ∉ p.trace) (hdis' : ∀ n, Event.discard n ∉ p'.trace) (h1 : parse t sem fuel1 p k = some r)
    (h1' : parse t' sem fuel1' p' (k.swap (renumber t.tokenNames t'.tokenNames)) = some r') (hq : r.parser? = some q) (hq' : r'.parser? = some q')
    {l l' : List (Event V)} {tok tok' : Option (Tok V)} {ex ex' : List Nat} (he : q.trace = l ++ .syntaxError tok ex :: p.trace)
    (he' : q'.trace = l' ++ .syntaxError tok' ex' :: p'.trace) : (ex.map (renumber t.tokenNames t'.tokenNames)).Perm ex' := by
  have hsf : noSelfFallback ds = true := by
    unfold noSelfFallback
    rw [List.all_eq_true] at hk ⊢
    intro d hd
    have := hk d hd
    cases d <;> first | rfl | cases this
  have hsf' : noSelfFallback ds' = true := by rw [← noSelf_perm hd.perm]; exact hsf
  have hρ := names_shuffled ho ho' hd hsf hc hc'
  have hρ' := names_shuffled ho' ho hd.symm hsf' hc' hc
  obtain ⟨g0, h0⟩ := compile_reads hc
  obtain ⟨g0', h0'⟩ := compile_reads hc'
  have hsame := shuffled_alike (shuffled_like hd hst hsf h0) h0 h0'
  have hk' : ds'.all keepsTokens = true := by rw [← hd.perm.all_eq]; exact hk
  have nodup : ∀ {ord ds t}, OrdOk ord → compile ord ds = .ok t → t.tokenNames.Nodup := by
    intro ord ds t ho hc
    obtain ⟨_, _, _, hnm, hnd⟩ := C52_partial ho hc
    rw [hnm, List.nodup_cons]
    exact ⟨by simp, hnd.map (fun a b h => by cases h; rfl)⟩
  have back : ∀ tok : Tok V, tok.Valid t sem → Tok.swap (renumber t'.tokenNames t.tokenNames) (Tok.swap (renumber t.tokenNames t'.tokenNames) tok) = tok := by
    intro tok ht
    show ({ tok with major := _ } : Tok V) = tok
    rw [show renumber t'.tokenNames t.tokenNames (Tok.swap (renumber t.tokenNames t'.tokenNames) tok).major = tok.major from
      renumber_back (nodup ho hc) hρ hρ' (by rw [names_length ho hc]; exact ht.lt)]
  have valid : ∀ tok : Tok V, tok.Valid t sem → (tok.swap (renumber t.tokenNames t'.tokenNames)).Valid t' sem := by
    intro tok ht
    obtain ⟨i, hi⟩ : ∃ i, t.tokenNames[tok.major]? = some (.ident i) := by
      obtain ⟨_, _, _, hnm, _⟩ := C52_partial ho hc
      have hlt : tok.major < t.tokenNames.length := by rw [names_length ho hc]; exact ht.lt
      rcases hm : tok.major with _ | m
      · have := ht.pos; omega
      · rw [hm, hnm] at hlt
        rw [hnm, List.getElem?_cons_succ]
        rw [List.length_cons, List.length_map] at hlt
        rw [List.getElem?_map, List.getElem?_eq_getElem (by omega)]
        exact ⟨_, rfl⟩
    exact hsame.valid ho ho' hc hc' hρ hi ht
  have e1 := fun j => C71_exact_partial ho hc hf hA hr hk hn hP sem hv hkv h hdis h1 hq he j
  have e2 := fun j => C71_exact_partial ho' hc' (hsame.flat'.1 hf) hA' (hsame.rootOk hd.perm hr) hk' (by rw [← noAssoc_perm hd.perm]; exact hn)
    (productive_move hsame.trees hρ hP) sem (by intro tok ht; obtain ⟨k, hk, rfl⟩ := List.mem_map.1 ht; exact valid k (hv k hk)) (valid k hkv) h' hdis' h1' hq' he' j
  have n1 : ex.Nodup := by
    obtain ⟨_, _, _, _, _, _, _, g, _⟩ := parse_reports h1 hq (evs := []) he
    exact (expected_spec g).1.imp fun h => Nat.ne_of_lt h
  have n2 : ex'.Nodup := by
    obtain ⟨_, _, _, _, _, _, _, g, _⟩ := parse_reports h1' hq' (evs := []) he'
    exact (expected_spec g).1.imp fun h => Nat.ne_of_lt h
  have lt1 : ∀ j ∈ ex, j < t.tokenNames.length := fun j hj => by
    obtain ⟨i, hi⟩ := mayFollow_name ((e1 j).1 hj)
    exact (List.getElem?_eq_some_iff.1 hi).1
  refine (List.perm_ext_iff_of_nodup ?_ n2).2 fun j => ?_
  · refine List.Nodup.map_on ?_ n1
    intro a ha b hb hab
    have := renumber_back (nodup ho hc) hρ hρ' (lt1 a ha)
    rw [hab, renumber_back (nodup ho hc) hρ hρ' (lt1 b hb)] at this
    exact this.symm
  · constructor
    · intro hj
      obtain ⟨a, ha, rfl⟩ := List.mem_map.1 hj
      exact (e2 _).2 (mayFollow_move hsame.trees hρ ((e1 a).1 ha))
    · intro hj
      have h2 := (e2 j).1 hj
      obtain ⟨i, hi⟩ := mayFollow_name h2
      have h3 := mayFollow_move hsame.symm.trees hρ' h2
      rw [List.map_map, List.map_congr_left (f := Tok.swap (renumber t'.tokenNames t.tokenNames) ∘ Tok.swap (renumber t.tokenNames t'.tokenNames)) (g := id) fun k hk => back k (hv k hk), List.map_id] at h3
      refine List.mem_map.2 ⟨_, (e1 _).2 h3, ?_⟩
      exact renumber_back (nodup ho' hc') hρ' hρ (List.getElem?_eq_some_iff.1 hi).1

/-! ## Examples -/

namespace C71ex
open Examples C01ex C70ex
open Tests (U L s r logSem)
open Expect (reportB reportB_iff)

theorem ab_names : (tablesOf ab).tokenNames = [.dollar, .ident (U 10), .ident (U 11), .ident (U 1), .ident (U 2), .ident (U 3), .ident (U 4)] := by decide +kernel

theorem ab_productive : Productive Int ab (tablesOf ab).tokenNames := by
  have tok : ∀ {i : Ident} {n : Nat} {ts : List (Tree Int)} {es : List RhsElem}, (tablesOf ab).tokenNames[n]? = some (.ident i) → isClass ab i = false →
      Spec.Fits ab (tablesOf ab).tokenNames ts es → Spec.Fits (V := Int) ab (tablesOf ab).tokenNames (.tok ⟨n, 0⟩ :: ts) (⟨[i], false, false⟩ :: es) :=
    fun h h' h2 => .tok h .self ⟨rfl, by simp [h']⟩ h2
  refine ⟨fun i hi => ?_, fun u hu e he => ?_⟩
  · have : startOf ab = some (L 0) := by decide
    rw [this] at hi; cases hi
    exact ⟨_, .rule (n := 2) (u := ⟨L 0, [s (U 3)], none, none⟩) (by rfl) (tok (n := 5) (by rw [ab_names]; rfl) (by decide) .nil) .nil⟩
  · have : ∀ u ∈ rulesOf ab, ∀ e ∈ u.rhs, e = s (L 1) ∨ e = s (L 2) ∨ e = s (U 1) ∨ e = s (U 2) ∨ e = s (U 3) ∨ e = s (U 4) := by decide
    rcases this u hu e he with rfl | rfl | rfl | rfl | rfl | rfl
    · exact ⟨_, .rule (n := 3) (u := ⟨L 1, [s (U 4)], some 1, none⟩) (by rfl) (tok (n := 6) (by rw [ab_names]; rfl) (by decide) .nil) .nil⟩
    · exact ⟨_, .rule (n := 4) (u := ⟨L 2, [s (U 4)], some 2, none⟩) (by rfl) (tok (n := 6) (by rw [ab_names]; rfl) (by decide) .nil) .nil⟩
    · exact ⟨_, tok (n := 3) (by rw [ab_names]; rfl) (by decide) .nil⟩
    · exact ⟨_, tok (n := 4) (by rw [ab_names]; rfl) (by decide) .nil⟩
    · exact ⟨_, tok (n := 5) (by rw [ab_names]; rfl) (by decide) .nil⟩
    · exact ⟨_, tok (n := 6) (by rw [ab_names]; rfl) (by decide) .nil⟩

/-- The rule `s ::= C` before `%type B`: the tokens `B` and `C` exchange their numbers. -/
def cb : List Decl :=
  [ .type false (U 10) none, .type false (U 11) none, .type false (U 1) none, r (L 0) [s (U 3)], .type false (U 2) none
  , r (L 0) [s (L 1), s (U 1)], r (L 0) [s (L 2), s (U 2)], r (L 1) [s (U 4)] (some 1), r (L 2) [s (U 4)] (some 2) ]

theorem ab_cb : Shuffled ab cb :=
  .swap (l := ab.take 3) (.swap (l := ab.take 4) (.swap (l := ab.take 5) .same rfl) rfl) rfl
theorem cb_ok : compile id cb = .ok (tablesOf cb) := compiles_iff (by decide +kernel)

-- the first token is `A`: one list is `C D`, with the numbers 5 and 6, the other one the same with 4 and 6
example : ∃ ex ex', reportB (tablesOf ab) logSem [] [] ⟨3, 0⟩ 0 ex = true ∧ reportB (tablesOf cb) logSem [] [] ⟨3, 0⟩ 0 ex' = true ∧ ex = [5, 6] ∧
    (ex.map (renumber (tablesOf ab).tokenNames (tablesOf cb).tokenNames)).Perm ex' := by
  have k1 : reportB (tablesOf ab) logSem [] [] ⟨3, 0⟩ 0 [5, 6] = true := by decide +kernel
  have k2 : reportB (tablesOf cb) logSem [] [] ⟨3, 0⟩ 0 [4, 6] = true := by decide +kernel
  refine ⟨_, _, k1, k2, rfl, ?_⟩
  obtain ⟨h1, h2, p, h3, h4, r, q, h5, h6, l, tok, evs, h7, h8⟩ := reportB_iff k1
  obtain ⟨_, _, p', h3', h4', r', q', h5', h6', l', tok', evs', h7', h8'⟩ := reportB_iff k2
  obtain rfl := List.length_eq_zero_iff.1 h8
  obtain rfl := List.length_eq_zero_iff.1 h8'
  have e : (⟨3, 0⟩ : Tok Int).swap (renumber (tablesOf ab).tokenNames (tablesOf cb).tokenNames) = ⟨3, 0⟩ := by decide +kernel
  exact C71_partial OrdOk.id OrdOk.id ab_cb (by decide) ab_ok cb_ok (by decide) (ab_apart _ OrdOk.id) (by decide +kernel) (by decide) (by decide) (by decide)
    ab_productive logSem h1 h2 h3 h3' h4 h4' h5 (e ▸ h5') h6 h6' h7 h7'

-- and these are the tokens that may come first
example (j : Nat) : j ∈ [5, 6] ↔ MayFollow (V := Int) ab (tablesOf ab).tokenNames [] j := by
  obtain ⟨h1, h2, p, h3, h4, r, q, h5, h6, l, tok, evs, h7, h8⟩ := reportB_iff (show reportB (tablesOf ab) logSem [] [] ⟨3, 0⟩ 0 [5, 6] = true by decide +kernel)
  obtain rfl := List.length_eq_zero_iff.1 h8
  exact C71_exact_partial OrdOk.id ab_ok (by decide) (ab_apart _ OrdOk.id) (by decide) (by decide) (by decide) ab_productive logSem h1 h2 h3 h4 h5 h6 h7 j
end C71ex

/-- C71 fails: with `%type A; %type B; s ::= x A; s ::= y B; s ::= C; x ::= D; y ::= D;` the list for `C` after `D` is `A`, as `x ::= D` is reduced first;
with `%type B; %type A; …` it is `B`. -/
theorem C71_false : ¬ C71_statement := by
  intro h
  obtain ⟨h1, h2, p, h3, h4, r, q, h5, h6, l, tok, evs, h7, _⟩ := Expect.reportB_iff
    (show Expect.reportB (Examples.tablesOf C70ex.ab) Tests.logSem [] [⟨6, 0⟩] ⟨5, 0⟩ 1 [3] = true by decide +kernel)
  obtain ⟨_, _, p', h3', h4', r', q', h5', h6', l', tok', evs', h7', _⟩ := Expect.reportB_iff
    (show Expect.reportB (Examples.tablesOf C70ex.ba) Tests.logSem [] [⟨6, 0⟩] ⟨5, 0⟩ 1 [3] = true by decide +kernel)
  have e : ∀ k ∈ [(⟨5, 0⟩ : Tok Int), ⟨6, 0⟩], k.swap (renumber (Examples.tablesOf C70ex.ab).tokenNames (Examples.tablesOf C70ex.ba).tokenNames) = k := by
    decide +kernel
  have := h id id OrdOk.id OrdOk.id _ _ C70ex.ab_ba (by decide) (by decide) (by decide) C70ex.ab_apart C70ex.ba_apart _ _ C70ex.ab_ok C70ex.ba_ok C71ex.ab_productive _
    (names_shuffled OrdOk.id OrdOk.id C70ex.ab_ba (by decide) C70ex.ab_ok C70ex.ba_ok) Tests.logSem [] _ _ h1 h2 1000 1000 p p' h3
    (by rw [List.map_singleton, e _ (by simp)]; exact h3') h4 h4' r r' q q' h5 (by rw [e _ (by simp)]; exact h5') h6 h6' l l' evs evs' tok tok' _ _ h7 h7'
  rw [show [3].map (renumber (Examples.tablesOf C70ex.ab).tokenNames (Examples.tablesOf C70ex.ba).tokenNames) = [4] by decide +kernel] at this
  have := this.mem_iff (a := 4)
  simp at this

end Pomelo
