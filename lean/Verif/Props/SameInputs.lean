import Verif.Proofs.EmbedAccept
import Verif.Props.Accept
import Verif.Props.Pads
/-!
# C67: the order of directives does not change what the parser accepts

C65 says that the macro accepts the declarations in another order; here are the two parsers.  Their tokens, states and rows have other
numbers, and the rows of the packed table lie elsewhere.
-/

namespace Pomelo

open Spec

variable {ord ord' : List (SymbolId × SymbolId) → List (SymbolId × SymbolId)} {ds ds' : List Decl} {t t' : Tables} {V X E : Type}

/-- C67 in full: what is accepted by the parser for some declarations is accepted by the parser for the same declarations in another order,
with the same result. -/
def C67_statement : Prop :=
  ∀ (ord ord' : List (SymbolId × SymbolId) → List (SymbolId × SymbolId)), OrdOk ord → OrdOk ord' → ∀ (ds ds' : List Decl), Reordered ds ds' →
  ∀ (t t' : Tables), compile ord ds = .ok t → compile ord' ds' = .ok t' → ∀ ρ, SameTokens t.tokenNames t'.tokenNames ρ →
  ∀ (sem : Sem Int (List Nat) Unit) (x : List Nat) (toks : List (Tok Int)) (p : Parser Int (List Nat)) (v : Int), AcceptedRun t sem x toks p v →
    ∃ p', AcceptedRun t' sem x (toks.map (Tok.swap ρ)) p' v ∧ p'.extra = p.extra

/-- The rows are apart in whatever order the optional symbols are taken. -/
def Spec.apartAll (ds : List Decl) : Prop := ∀ ord, OrdOk ord → apart ord ds = true

theorem renumber_same {names names' : List SymName} (h : ∀ nm ∈ names, nm ∈ names') : SameTokens names names' (renumber names names') := by
  intro n nm hn
  unfold renumber
  rw [hn]
  have hm := h nm (List.mem_of_getElem? hn)
  have hlt := List.idxOf_lt_length_iff.2 hm
  rw [List.getElem?_eq_getElem hlt, List.getElem_idxOf hlt]

/-- The two lists of declarations say the same. -/
theorem like_accepts (ho : OrdOk ord) (ho' : OrdOk ord') (hc : compile ord ds = .ok t) (hc' : compile ord' ds' = .ok t') (hl : LikeDecls ds ds')
    (hf : flat ds = true) (hs : noSelfFallback ds' = true) (hA : apart ord ds = true) (hA' : apartAll ds') (hr : rootOk ds' = true) (hw : wildcardOf ds = none)
    {ρ : Nat → Nat} (hρ : SameTokens t.tokenNames t'.tokenNames ρ) (sem : Sem V X E) {x : X} {toks : List (Tok V)} {p : Parser V X} {v : V}
    (hF : ∀ tok ∈ toks, ∀ i, t.tokenNames[tok.major]? = some (.ident i) → fallbackOf ds i = none) (h : AcceptedRun t sem x toks p v) :
    ∃ p', AcceptedRun t' sem x (toks.map (Tok.swap ρ)) p' v ∧ p'.extra = p.extra := by
  obtain ⟨g0, h0⟩ := compile_reads hc
  obtain ⟨g0', h0'⟩ := compile_reads hc'
  have hf' := (alike hl h0 h0').flat'.1 hf
  obtain ⟨ord2, t2, ho2, hc2, h2⟩ := like_accepts2 ho hc hl hf hf' hA hA' hr hw h0' (fun ord2 ho2 => other_order ho' ho2 hc')
  obtain ⟨p2, a1, a2⟩ := h2 (by rw [C39_names ho' ho2 hc' hc2]; exact hρ) sem hF h
  obtain ⟨p3, b1, b2⟩ := C59_accepts_partial ho2 ho' hc2 hc' hf' (hA' ord2 ho2) (hA' ord' ho') hs sem a1
  exact ⟨p3, b1, b2.trans a2⟩

theorem reordered_like (h : Reordered ds ds') (hs : noSelfFallback ds = true) (hc : compile ord ds = .ok t) : LikeDecls ds ds' := by
  obtain ⟨g0, h0⟩ := compile_reads hc
  exact (h.orderly ((admitted_orderly hs).1 ((C46_read ds).1 ⟨g0, h0⟩).1)).2.like

/-- C67, without a wildcard and for inputs of tokens without fallback, but for classes that are members of classes, tokens that are
their own fallback, rows of the packed tables that overlap, and a `()` in the types.
Missing: inputs with tokens that have fallbacks, wildcards; the rest is false, see `C67_false`. -/
theorem C67_partial (ho : OrdOk ord) (ho' : OrdOk ord') (hd : Reordered ds ds') (hc : compile ord ds = .ok t) (hc' : compile ord' ds' = .ok t')
    (hf : flat ds = true) (hs : noSelfFallback ds = true) (hA : apart ord ds = true) (hA' : apartAll ds') (hr : rootOk ds' = true) (hw : wildcardOf ds = none)
    {ρ : Nat → Nat} (hρ : SameTokens t.tokenNames t'.tokenNames ρ) (sem : Sem V X E) {x : X} {toks : List (Tok V)} {p : Parser V X} {v : V}
    (hF : ∀ tok ∈ toks, ∀ i, t.tokenNames[tok.major]? = some (.ident i) → fallbackOf ds i = none) (h : AcceptedRun t sem x toks p v) :
    ∃ p', AcceptedRun t' sem x (toks.map (Tok.swap ρ)) p' v ∧ p'.extra = p.extra :=
  like_accepts ho ho' hc hc' (reordered_like hd hs hc) hf (by rw [← noSelf_perm hd.perm]; exact hs) hA hA' hr hw hρ sem hF h

/-- Every token of the one parser is one of the other, with the number that `renumber` finds. -/
theorem names_same (ho : OrdOk ord) (ho' : OrdOk ord') (hc : compile ord ds = .ok t) (hc' : compile ord' ds' = .ok t') (hl : LikeDecls ds ds')
    (hm : ∀ d ∈ ds, ∀ i ∈ Spec.mentions d, ∃ d' ∈ ds', i ∈ Spec.mentions d') : SameTokens t.tokenNames t'.tokenNames (renumber t.tokenNames t'.tokenNames) := by
  obtain ⟨_, _, _, h1, _⟩ := C52_partial ho hc
  obtain ⟨_, _, _, h2, _⟩ := C52_partial ho' hc'
  apply renumber_same
  rw [h1, h2]
  intro nm hnm
  rcases List.mem_cons.1 hnm with rfl | hnm
  · exact List.mem_cons_self
  · obtain ⟨i, hi, rfl⟩ := List.mem_map.1 hnm
    refine List.mem_cons_of_mem _ (List.mem_map.2 ⟨i, ?_, rfl⟩)
    obtain ⟨⟨d, hd, hid⟩, k1, k2⟩ := mem_tokensOf.1 hi
    exact mem_tokensOf.2 ⟨hm d hd i hid, k1, by rw [← hl.multi]; exact k2⟩

theorem names_reordered (ho : OrdOk ord) (ho' : OrdOk ord') (hd : Reordered ds ds') (hc : compile ord ds = .ok t) (hc' : compile ord' ds' = .ok t')
    (hs : noSelfFallback ds = true) : SameTokens t.tokenNames t'.tokenNames (renumber t.tokenNames t'.tokenNames) :=
  names_same ho ho' hc hc' (reordered_like hd hs hc) fun d h _ hi => ⟨d, hd.perm.mem_iff.1 h, hi⟩

/-- The numbers go there and back. -/
theorem renumber_back (hn : t.tokenNames.Nodup) (h : SameTokens t.tokenNames t'.tokenNames (renumber t.tokenNames t'.tokenNames))
    (h' : SameTokens t'.tokenNames t.tokenNames (renumber t'.tokenNames t.tokenNames)) {n : Nat} (hl : n < t.tokenNames.length) :
    renumber t'.tokenNames t.tokenNames (renumber t.tokenNames t'.tokenNames n) = n := by
  have h1 := h n _ (List.getElem?_eq_getElem hl)
  have h2 := h' _ _ h1
  have hl' := (List.getElem?_eq_some_iff.1 h2).1
  exact (List.getElem?_inj hl' hn).1 (by rw [h2, List.getElem?_eq_getElem hl])

/-- C67 in both directions: the same inputs are accepted, and the results are the same. -/
theorem C67_iff_partial (ho : OrdOk ord) (ho' : OrdOk ord') (hd : Reordered ds ds') (hc : compile ord ds = .ok t) (hc' : compile ord' ds' = .ok t')
    (hf : flat ds = true) (hs : noSelfFallback ds = true) (hA : apartAll ds) (hA' : apartAll ds') (hr : rootOk ds = true) (hr' : rootOk ds' = true)
    (hw : wildcardOf ds = none) (sem : Sem V X E) {x x' : X} {toks : List (Tok V)} {v : V} (hv : ∀ tok ∈ toks, tok.Valid t sem)
    (hF : ∀ tok ∈ toks, ∀ i, t.tokenNames[tok.major]? = some (.ident i) → fallbackOf ds i = none) :
    (∃ p, AcceptedRun t sem x toks p v ∧ p.extra = x') ↔
      ∃ p', AcceptedRun t' sem x (toks.map (Tok.swap (renumber t.tokenNames t'.tokenNames))) p' v ∧ p'.extra = x' := by
  have hl := reordered_like hd hs hc
  have hs' : noSelfFallback ds' = true := by rw [← noSelf_perm hd.perm]; exact hs
  have hρ := names_reordered ho ho' hd hc hc' hs
  have hρ' : SameTokens t'.tokenNames t.tokenNames (renumber t'.tokenNames t.tokenNames) :=
    names_same ho' ho hc' hc hl.symm fun d h _ hi => ⟨d, hd.perm.mem_iff.2 h, hi⟩
  constructor
  · rintro ⟨p, h1, h2⟩
    obtain ⟨p', h3, h4⟩ := C67_partial ho ho' hd hc hc' hf hs (hA ord ho) hA' hr' hw hρ sem hF h1
    exact ⟨p', h3, h4.trans h2⟩
  · rintro ⟨p', h1, h2⟩
    obtain ⟨g0, h0⟩ := compile_reads hc
    obtain ⟨g0', h0'⟩ := compile_reads hc'
    have hsame := alike hl h0 h0'
    obtain ⟨_, _, _, hn, hnd⟩ := C52_partial ho hc
    have hnd : t.tokenNames.Nodup := by
      rw [hn, List.nodup_cons]
      refine ⟨by simp, ?_⟩
      exact hnd.map (fun a b h => by cases h; rfl)
    have hlen : ∀ tok ∈ toks, tok.major < t.tokenNames.length := by
      intro tok ht
      obtain ⟨s⟩ := compile_cspec hc
      have hi := s.ginv ho
      have := (hv tok ht).lt
      rw [s.gen.numTerminals, s.gen.shape.nterm] at this
      rw [s.gen.tokenNames, List.length_map, List.length_take, s.gen.shape.nterm, s.gen.shape.symbols, hi.slen]
      have := hi.nterm
      omega
    obtain ⟨p, h3, h4⟩ := like_accepts ho' ho hc' hc hl.symm (hsame.flat'.1 hf) hs (hA' ord' ho') hA hr (by rw [← hsame.wild]; exact hw) hρ' sem (by
      intro tok ht i hi
      obtain ⟨k, hk, rfl⟩ := List.mem_map.1 ht
      rw [← hl.fallback]
      refine hF k hk i ?_
      have h5 := hρ' _ _ hi
      change t.tokenNames[renumber t'.tokenNames t.tokenNames (renumber t.tokenNames t'.tokenNames k.major)]? = _ at h5
      rwa [renumber_back hnd hρ hρ' (hlen k hk)] at h5) h1
    have hback : (toks.map (Tok.swap (renumber t.tokenNames t'.tokenNames))).map (Tok.swap (renumber t'.tokenNames t.tokenNames)) = toks := by
      rw [List.map_map]
      conv => rhs; rw [← List.map_id toks]
      apply List.map_congr_left
      intro tok ht
      show ({ tok with major := _ } : Tok V) = tok
      rw [show renumber t'.tokenNames t.tokenNames (Tok.swap (renumber t.tokenNames t'.tokenNames) tok).major = tok.major from renumber_back hnd hρ hρ' (hlen tok ht)]
    rw [hback] at h3
    exact ⟨p, h3, h4.trans h2⟩

/-- With enough new tokens named in front (C66) the parser accepts what it accepted before, if its rows were apart: the cure does no harm. -/
theorem C67_front_partial {ids : List Ident} (ho : OrdOk ord) (ho' : OrdOk ord') (hp : Pads ds ids) (hc : compile ord ds = .ok t)
    (hc' : compile ord' (front ids ++ ds) = .ok t') (hf : flat ds = true) (hs : noSelfFallback ds = true) (hA : apart ord ds = true) (hr : rootOk ds = true)
    (hw : wildcardOf ds = none) (sem : Sem V X E) {x : X} {toks : List (Tok V)} {p : Parser V X} {v : V}
    (hF : ∀ tok ∈ toks, ∀ i, t.tokenNames[tok.major]? = some (.ident i) → fallbackOf ds i = none) (h : AcceptedRun t sem x toks p v) :
    ∃ p', AcceptedRun t' sem x (toks.map (Tok.swap (renumber t.tokenNames t'.tokenNames))) p' v ∧ p'.extra = p.extra := by
  refine like_accepts ho ho' hc hc' front_like hf (front_noSelf.trans hs) hA ?_ (front_rootOk.trans hr) hw ?_ sem hF h
  · intro ord2 ho2
    obtain ⟨t2, hc2⟩ := other_order ho' ho2 hc'
    exact C64_rows ho2 hc2 hp.padded
  · exact names_same ho ho' hc hc' front_like fun d h _ hi => ⟨d, List.mem_append_right _ h, hi⟩

theorem Spec.Reordered.append {l : List Decl} (h : Reordered ds ds') : Reordered (l ++ ds) (l ++ ds') := by
  induction h with
  | same => exact .same
  | @swap a d d' r _ hm ih =>
    rw [← List.append_assoc] at ih ⊢
    exact .swap ih hm

theorem apartAll_padded (ho : OrdOk ord) (hc : compile ord ds = .ok t) (hp : padded ds = true) : apartAll ds := by
  intro ord' ho'
  obtain ⟨t', hc'⟩ := other_order ho ho' hc
  exact C64_rows ho' hc' hp

/-- With enough new tokens in front there is nothing left to ask of the tables: the order of the directives after them does not matter. -/
theorem C67_cure_partial {ids : List Ident} (ho : OrdOk ord) (ho' : OrdOk ord') (hd : Reordered ds ds') (hp : Pads ds ids) (hp' : Pads ds' ids)
    (hc : compile ord (front ids ++ ds) = .ok t) (hc' : compile ord' (front ids ++ ds') = .ok t') (hf : flat ds = true) (hs : noSelfFallback ds = true)
    (hr : rootOk ds = true) (hr' : rootOk ds' = true) (hw : wildcardOf ds = none) (sem : Sem V X E) {x x' : X} {toks : List (Tok V)} {v : V}
    (hv : ∀ tok ∈ toks, tok.Valid t sem) (hF : ∀ tok ∈ toks, ∀ i, t.tokenNames[tok.major]? = some (.ident i) → fallbackOf ds i = none) :
    (∃ p, AcceptedRun t sem x toks p v ∧ p.extra = x') ↔
      ∃ p', AcceptedRun t' sem x (toks.map (Tok.swap (renumber t.tokenNames t'.tokenNames))) p' v ∧ p'.extra = x' :=
  C67_iff_partial ho ho' hd.append hc hc' (front_flat.trans hf) (front_noSelf.trans hs) (apartAll_padded ho hc hp.padded) (apartAll_padded ho' hc' hp'.padded)
    (front_rootOk.trans hr) (front_rootOk.trans hr') (front_wildcard.trans hw) sem hv fun tok ht i hi => by
      rw [← (front_like (ids := ids) (ds := ds)).fallback]; exact hF tok ht i hi

/-! ## The order of optional symbols -/

theorem prepare_opts (g : Grammar) : g.indexed.addExtraToken.optionals = g.optionals := by
  have h1 : g.indexed.optionals = g.optionals := (assignIndices_keeps _ _ _).2.2.2.2.2.1
  rw [← h1]
  generalize g.indexed = g'
  unfold Grammar.addExtraToken
  split
  · rfl
  · rename_i et _
    generalize (List.drop 1 _) = l
    induction l generalizing g' with
    | nil => rfl
    | cons x l ih =>
      rename_i hx
      rw [List.foldl_cons, ih _ ?_]
      · rfl
      · exact hx

/-- With at most one optional symbol there is only one order. -/
theorem apartAll_of (ho : OrdOk ord) (hc : compile ord ds = .ok t) (h : (optionalOf ds).length ≤ 1) (hA : apart ord ds = true) : apartAll ds := by
  intro ord' ho'
  rw [← hA]
  obtain ⟨s⟩ := compile_cspec hc
  obtain ⟨b⟩ := bridge ho s.decls s.auto
  have hlen := b.toBridge0.optionals_length ho
  obtain ⟨b', hb'⟩ := bridgeP (ord := ord) s.decls
  have hgD : b'.gD = b.gD := Except.ok.inj (b'.parsed.symm.trans b.parsed)
  have hg0 : s.g0.optionals = b.gD.optionals := by rw [hb', ← hgD]; rfl
  have hone : ∀ (o : List (SymbolId × SymbolId) → List (SymbolId × SymbolId)), OrdOk o → o s.g0.optionals = s.g0.optionals := by
    intro o hoo
    rw [hg0]
    match hl : b.gD.optionals with
    | [] => exact List.perm_nil.1 (hoo [])
    | [x] => exact List.perm_singleton.1 (hoo [x])
    | x :: y :: l => rw [hl] at hlen; simp at hlen; omega
  have hp : s.g0.prepare ord' = s.g0.prepare ord := by
    rw [prepare_eq, prepare_eq]
    unfold Grammar.addOptionals
    rw [prepare_opts, hone ord ho, hone ord' ho']
  have hauto : s.g0.automaton ord' = s.g0.automaton ord := by
    unfold Grammar.automaton
    rw [hp]
  have ht : tableRun ord' ds = tableRun ord ds := by
    unfold tableRun
    rw [s.decls]
    show (do let (g, sts) ← s.g0.automaton ord'; _) = (do let (g, sts) ← s.g0.automaton ord; _)
    rw [hauto]
  unfold apart
  rw [ht]

/-! ## Examples -/

namespace C67ex
open Tests Examples C01ex

/-- The declarations of `C01ex.sums` in another order; numbers: Num 1, Plus 2, Dash 3, LP 4, Neg 5, RP 6 -/
def mixed : List Decl :=
  [ .type false (U 2) (some (.named 0)), .assoc .left [U 1], .type false (L 1) (some (.named 0)), .type false (L 0) (some (.named 0))
  , r (L 0) [s (L 1)], .fallback (U 1) [U 3], r (L 1) [s (L 1) true, s (U 1), s (L 1) true] (some 0), r (L 1) [s (U 2)]
  , r (L 1) [s (U 4), s (U 5) true true, s (L 1) true, s (U 6)] (some 1) ]

theorem sums_mixed : Reordered sums mixed := by
  have h0 : Reordered sums sums := .same
  have h1 := Reordered.swap (l := []) h0 rfl
  have h2 := Reordered.swap (l := [_, _]) h1 rfl
  exact Reordered.swap (l := [_, _, _, _]) h2 rfl

/-- `Num(5) Plus LP Num(7) Plus Num(1) RP` -/
def input : List (Tok Int) := [⟨2, 5⟩, ⟨1, 0⟩, ⟨4, 0⟩, ⟨2, 7⟩, ⟨1, 0⟩, ⟨2, 1⟩, ⟨6, 0⟩]

theorem mixed_ok : compile id mixed = .ok (tablesOf mixed) := compiles_iff (by decide +kernel)
theorem mixed_apart : apartAll mixed := apartAll_of OrdOk.id mixed_ok (by decide +kernel) (by decide +kernel)

theorem no_fallback : ∀ tok ∈ input, ∀ i, (tablesOf sums).tokenNames[tok.major]? = some (.ident i) → fallbackOf sums i = none := by
  intro tok ht i hi
  have : ∀ n ∈ input.map Tok.major, (match (tablesOf sums).tokenNames[n]? with | some (.ident i) => (fallbackOf sums i).isNone | _ => true) = true := by
    decide +kernel
  have := this _ (List.mem_map_of_mem ht)
  rw [hi] at this
  exact Option.isNone_iff_eq_none.1 this

-- the hypotheses are met, the numbers of the tokens differ, and the result is the same: 5 + (1000 - (7 + 1))
example : ∃ p, AcceptedRun (tablesOf mixed) sumsSem [] (input.map (Tok.swap (renumber (tablesOf sums).tokenNames (tablesOf mixed).tokenNames))) p 997 ∧
    p.extra = [0, 1, 0] := by
  obtain ⟨p, h, he, _, _⟩ := acceptedB_iff (t := tablesOf sums) (m := sumsSem) (toks := input) (v := 997) (x := [0, 1, 0]) (by decide +kernel)
  obtain ⟨p', h1, h2⟩ := C67_partial OrdOk.id OrdOk.id sums_mixed sums_ok.1 mixed_ok sums_ok.2.1 (by decide +kernel) sums_ok.2.2 mixed_apart
    (by decide +kernel) (by decide +kernel) (names_reordered OrdOk.id OrdOk.id sums_mixed sums_ok.1 mixed_ok (by decide +kernel)) sumsSem
    no_fallback h
  exact ⟨p', h1, h2.trans he⟩
example : input.map (fun tok => renumber (tablesOf sums).tokenNames (tablesOf mixed).tokenNames tok.major) = [1, 2, 4, 1, 2, 1, 6] := by decide +kernel

-- the other direction: what the second parser does with the renumbered input, the first one does
example : (∃ p, AcceptedRun (tablesOf sums) sumsSem [] input p 997 ∧ p.extra = [0, 1, 0]) ↔
    ∃ p, AcceptedRun (tablesOf mixed) sumsSem [] (input.map (Tok.swap (renumber (tablesOf sums).tokenNames (tablesOf mixed).tokenNames))) p 997 ∧
      p.extra = [0, 1, 0] :=
  C67_iff_partial OrdOk.id OrdOk.id sums_mixed sums_ok.1 mixed_ok sums_ok.2.1 (by decide +kernel)
    (apartAll_of OrdOk.id sums_ok.1 (by decide +kernel) sums_ok.2.2) mixed_apart (by decide +kernel) (by decide +kernel) (by decide +kernel) sumsSem
    (fun tok ht => validB_iff (List.all_eq_true.1 (show input.all (validB (tablesOf sums) sumsSem) = true by decide +kernel) tok ht)) no_fallback

/-- Six new tokens, for four rules and an optional symbol -/
def six : List Ident := [U 11, U 12, U 13, U 14, U 15, U 16]
theorem sums_pads : Pads sums six ∧ Pads mixed six := ⟨⟨by decide, by decide, by decide, by decide⟩, ⟨by decide, by decide, by decide, by decide⟩⟩

-- the tokens in front do no harm
example : ∃ p, AcceptedRun (tablesOf (front six ++ sums)) sumsSem []
    (input.map (Tok.swap (renumber (tablesOf sums).tokenNames (tablesOf (front six ++ sums)).tokenNames))) p 997 ∧ p.extra = [0, 1, 0] := by
  obtain ⟨p, h, he, _, _⟩ := acceptedB_iff (t := tablesOf sums) (m := sumsSem) (toks := input) (v := 997) (x := [0, 1, 0]) (by decide +kernel)
  obtain ⟨p', h1, h2⟩ := C67_front_partial OrdOk.id OrdOk.id sums_pads.1 sums_ok.1 (compiles_iff (by decide +kernel)) sums_ok.2.1 (by decide +kernel)
    sums_ok.2.2 (by decide +kernel) (by decide +kernel) sumsSem no_fallback h
  exact ⟨p', h1, h2.trans he⟩
example : input.map (fun tok => renumber (tablesOf sums).tokenNames (tablesOf (front six ++ sums)).tokenNames tok.major) = [8, 7, 10, 8, 7, 8, 12] := by
  decide +kernel

/-- `C01ex.g2` with the first two declarations exchanged: `s ::= C; %left A; s ::= B A;` -/
def h1 : List Decl := [r (L 0) [s (U 2)], .assoc .left [U 0], r (L 0) [s (U 1), s (U 0)]]
theorem g2_h1 : Reordered g2 h1 := Reordered.swap (l := []) .same rfl
end C67ex

/-- C67 fails: `%left A; s ::= C; s ::= B A;` gives a parser that accepts `B` alone (C01), and `s ::= C; %left A; s ::= B A;` one that does not. -/
theorem C67_false : ¬ C67_statement := by
  intro h
  obtain ⟨p, hp, _⟩ := C01ex.g2_accepts
  obtain ⟨p', ⟨_, ⟨n, hn⟩, _⟩, _⟩ := h id id OrdOk.id OrdOk.id _ _ C67ex.g2_h1 _ _ (Examples.compiles_iff (by decide +kernel)) (Examples.compiles_iff (by decide +kernel))
    (renumber (Examples.tablesOf C01ex.g2).tokenNames (Examples.tablesOf C67ex.h1).tokenNames)
    (names_reordered OrdOk.id OrdOk.id C67ex.g2_h1 (Examples.compiles_iff (by decide +kernel)) (Examples.compiles_iff (by decide +kernel)) (by decide +kernel))
    _ _ _ _ _ hp
  have h1 := runAll_mono hn (Nat.le_add_right n 1000)
  have h2 : ∃ r, runAll (Examples.tablesOf C67ex.h1) Tests.logSem 1000 []
      ([⟨3, 0⟩].map (Tok.swap (renumber (Examples.tablesOf C01ex.g2).tokenNames (Examples.tablesOf C67ex.h1).tokenNames))) = some r ∧
      (match r with | .ok _ _ => false | _ => true) = true := by decide +kernel
  obtain ⟨r, h2, h3⟩ := h2
  rw [runAll_mono h2 (Nat.le_add_left 1000 n)] at h1
  cases h1
  cases h3

end Pomelo
