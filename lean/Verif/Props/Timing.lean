import Verif.Proofs.Timing
import Verif.Proofs.Blocks
import Verif.Props.RuleOrder
/-!
# C70: when blocks are run

A block is run when the token after its rule is given to the parser, neither earlier nor later, whatever default reductions the tables have.  So
the extra argument after each token of an accepted input does not depend on the order of the rules and of the directives.  After an error it may.
-/

namespace Pomelo

open Spec

variable {ord ord' : List (SymbolId × SymbolId) → List (SymbolId × SymbolId)} {ds ds' : List Decl} {t t' : Tables} {V X E : Type}

/-- C70 in full: as soon as `toks`, the beginning of an input that will be accepted, have been read, just those rules have been reduced that are before
the last of `toks` in the postorder of a derivation tree of the whole input. -/
def C70_statement : Prop :=
  ∀ (ord : List (SymbolId × SymbolId) → List (SymbolId × SymbolId)), OrdOk ord → ∀ (ds : List Decl) (t : Tables), compile ord ds = .ok t →
  ∀ (sem : Sem Int (List Nat) Unit) (x : List Nat) (toks rest : List (Tok Int)) (pf : Parser Int (List Nat)) (v : Int),
    AcceptedRun t sem x (toks ++ rest) pf v → ∀ (fuel : Nat) (p : Parser Int (List Nat)), feed t sem fuel (Parser.new sem x) toks = some (.ok p ()) →
    ∃ T, IsTree ds t.tokenNames T ∧ T.yield = toks ++ rest ∧ movesOf (rulesOf ds).length p.trace = upTo toks.length T.post

/-! ## Blocks before a token -/

/-- The state of the parser in the middle of an accepted run -/
theorem AcceptedRun.middle {sem : Sem V X E} {x : X} {toks rest : List (Tok V)} {pf : Parser V X} {v : V} (h : AcceptedRun t sem x (toks ++ rest) pf v)
    {fuel : Nat} {p : Parser V X} (hp : feed t sem fuel (Parser.new sem x) toks = some (.ok p ())) :
    p.status = .normal ∧ p.trace <:+ pf.trace := by
  obtain ⟨f, hrun⟩ := h.run
  obtain ⟨p1, p3, h1, h2, h3⟩ := runAll_split hrun
  have := feed_det h1 hp
  cases this
  refine ⟨feed_normal h2 ?_, (feed_suffix h2 rfl).trans (parseToken_suffix h3 rfl)⟩
  rcases parseToken_inv h3 with ⟨h4, _⟩ | ⟨h4, _⟩
  · cases h4
  · exact h4

theorem moves_upTo {sem : Sem V X E} {x : X} {toks rest : List (Tok V)} {pf : Parser V X} {v : V} (h : AcceptedRun t sem x (toks ++ rest) pf v)
    {fuel : Nat} {p : Parser V X} (hp : feed t sem fuel (Parser.new sem x) toks = some (.ok p ())) (n : Nat) :
    movesOf n p.trace = upTo toks.length (movesOf n pf.trace) := by
  obtain ⟨h1, l, h2⟩ := h.middle hp
  have hk : ∀ n, Event.discard n ∉ p.trace := fun n hm => h.kept n (by rw [← h2]; exact List.mem_append_right _ hm)
  obtain ⟨M, h3, h4⟩ := feed_taken n h1 hk hp
  rw [← h2, movesOf_append, h3]
  exact (h4 _).symm

/-- C70 for tables whose rows do not overlap, without classes that are members of classes: with precedences, fallbacks and wildcards, for every
accepted input and each beginning of it.
Missing: tables with overlapping rows, where it is false, see `C70_false`. -/
theorem C70_partial (ho : OrdOk ord) (hc : compile ord ds = .ok t) (hf : flat ds = true) (hA : apart ord ds = true) (sem : Sem V X E) {x : X}
    {toks rest : List (Tok V)} {pf : Parser V X} {v : V} (h : AcceptedRun t sem x (toks ++ rest) pf v) :
    ∃ T, IsTree ds t.tokenNames T ∧ T.yield = toks ++ rest ∧
      ∀ (fuel : Nat) (p : Parser V X), feed t sem fuel (Parser.new sem x) toks = some (.ok p ()) →
        movesOf (rulesOf ds).length p.trace = upTo toks.length T.post := by
  obtain ⟨T, _, h1, h2, _, _, h3⟩ := accepted_tree ho hc hf hA sem h
  exact ⟨T, h1, h2, fun fuel p hp => by rw [moves_upTo h hp, h3]⟩

/-! ## The extra argument before a token -/

/-- A forest whose tokens have no fallback is one in which tokens stand for themselves. -/
theorem fits_ownTokens (hw : wildcardOf ds = none) {names : List SymName} {ts : List (Tree V)} {es : List RhsElem} (h : Spec.Fits ds names ts es) :
    (∀ k ∈ Tree.yields ts, ∀ i, names[k.major]? = some (.ident i) → fallbackOf ds i = none) → Spec.Fits (ownTokens ds) names ts es := by
  intro hF
  induction h with
  | nil => exact .nil
  | @tok k i j e ts es h1 h2 h3 _ ih =>
    have hij : i = j := by
      cases h2 with
      | self => rfl
      | fallback h => rw [hF k (by simp [Tree.yields, Tree.yield]) i h1] at h; cases h
      | wildcard h => rw [hw] at h; cases h
    subst hij
    exact .tok h1 .self (own_matches.2 h3) (ih fun k hk => hF k (List.mem_cons_of_mem _ hk))
  | absent _ ih => exact .absent (ih hF)
  | present _ _ ih1 ih2 =>
    refine .present (ih1 fun k hk => hF k ?_) (ih2 fun k hk => hF k ?_)
    · simp only [Tree.yields, Tree.yield, List.append_nil] at hk ⊢
      exact List.mem_append_left _ hk
    · simp only [Tree.yields]
      exact List.mem_append_right _ hk
  | rule h1 _ _ ih1 ih2 =>
    refine .rule (by rw [own_rules]; exact h1) (ih1 fun k hk => hF k ?_) (ih2 fun k hk => hF k ?_)
    · simp only [Tree.yields, Tree.yield]
      exact List.mem_append_left _ hk
    · simp only [Tree.yields]
      exact List.mem_append_right _ hk

theorem upTo_same {names names' : List SymName} : ∀ {n : Nat} {l l' : List Move}, List.Forall₂ (SameMove ds ds' names names') l l' →
    List.Forall₂ (SameMove ds ds' names names') (upTo n l) (upTo n l')
  | 0, _, _, _ => by simp only [upTo]; exact .nil
  | _ + 1, _, _, .nil => .nil
  | n + 1, .read _ :: _, .read _ :: _, .cons h hs => .cons h (upTo_same hs)
  | n + 1, .rule _ :: _, .rule _ :: _, .cons h hs => .cons h (upTo_same hs)
  | n + 1, .read _ :: _, .rule _ :: _, .cons h _ => h.elim
  | n + 1, .rule _ :: _, .read _ :: _, .cons h _ => h.elim

/-- The two parsers make the same moves in accepted runs. -/
theorem shuffled_moves (ho : OrdOk ord) (ho' : OrdOk ord') (hl : LikeRules ds ds') (hc : compile ord ds = .ok t) (hc' : compile ord' ds' = .ok t')
    (R : Run ord ds) (hn : NoClash R.g) (hf : flat ds = true) (hA : apart ord ds = true) (hA' : apart ord' ds' = true)
    (hw : wildcardOf ds = none) {ρ : Nat → Nat} (hρ : SameTokens t.tokenNames t'.tokenNames ρ) (sem : Sem V X E) {x : X}
    {toks : List (Tok V)} {p p' : Parser V X} {v v' : V}
    (hF : ∀ tok ∈ toks, ∀ i, t.tokenNames[tok.major]? = some (.ident i) → fallbackOf ds i = none) (h : AcceptedRun t sem x toks p v)
    (h' : AcceptedRun t' sem x (toks.map (Tok.swap ρ)) p' v') :
    List.Forall₂ (SameMove ds ds' t.tokenNames t'.tokenNames) (movesOf (rulesOf ds).length p.trace) (movesOf (rulesOf ds').length p'.trace) := by
  obtain ⟨g0, h0⟩ := compile_reads hc
  obtain ⟨g0', h0'⟩ := compile_reads hc'
  have hd := shuffled_alike hl h0 h0'
  have hf' := hd.flat'.1 hf
  obtain ⟨ord2, ho2, hn2⟩ := shuffled_noClash ho hl R hn h0'
  obtain ⟨t2, hc2⟩ := other_order ho' ho2 hc'
  obtain ⟨R2⟩ := run_exists hc2
  have hnm := C39_names ho' ho2 hc' hc2
  obtain ⟨T, _, hT, hTy, _, _, hTp⟩ := accepted_tree ho hc hf hA sem h
  obtain ⟨T2, _, hT2, hTy2, _, _, hTp2⟩ := accepted_tree ho' hc' hf' hA' sem h'
  have hT0 := hT
  obtain ⟨st, hst, hfit⟩ := hT
  obtain ⟨st2, hst2, hfit2⟩ := hT2
  have hy : Tree.yields [T] = toks := by rw [Tree.yields, Tree.yields, List.append_nil, hTy]
  obtain ⟨ts', a1, a2, _, _, _, a6⟩ := fits_shuffle hd.more hρ hfit (by rw [hy]; exact hF) hw
  obtain ⟨T', rfl⟩ := fits_one a1
  have hy' : T'.yield = toks.map (Tok.swap ρ) := by
    rw [hy] at a2
    simpa [Tree.yields] using a2
  have hown : IsOwnTree ds' t2.tokenNames T' := ⟨st, by rw [own_startOf, ← hd.root]; exact hst, by rw [hnm]; exact a1⟩
  have hown2 : IsOwnTree ds' t2.tokenNames T2 := by
    refine ⟨st2, by rw [own_startOf]; exact hst2, ?_⟩
    rw [hnm]
    refine fits_ownTokens (by rw [← hd.wild]; exact hw) hfit2 ?_
    simp only [Tree.yields, List.append_nil, hTy2]
    intro k hk i hi
    obtain ⟨k0, hk0, rfl⟩ := List.mem_map.1 hk
    obtain ⟨j, hj⟩ := isTree_names hT0 k0 (by rw [hTy]; exact hk0)
    have := hρ _ _ hj
    change t'.tokenNames[ρ k0.major]? = some (.ident i) at hi
    rw [this] at hi
    cases hi
    rw [← hd.fallback]
    exact hF k0 hk0 _ hj
  have hpos : ∀ tok ∈ T'.yield, 0 < tok.major := by
    rw [hy']
    exact fun tok ht => (h'.valid tok ht).pos
  have heq := C04 ho2 hc2 R2 (hn2 R2) hown hown2 hpos (by rw [hy', hTy2])
  rw [hTp, hTp2, ← heq]
  simpa [Tree.posts] using a6

/-- The moves that run a block -/
def blockMove (ds : List Decl) : Move → Bool
  | .rule n => match (rulesOf ds)[n]? with | some u => u.code.isSome | none => false
  | .read _ => false

theorem runsBlock_moves (ho : OrdOk ord) (hc : compile ord ds = .ok t) (l : List (Event V)) :
    l.countP t.runsBlock = (movesOf (rulesOf ds).length l).countP (blockMove ds) := by
  obtain ⟨s⟩ := compile_cspec hc
  obtain ⟨b⟩ := bridge ho s.decls s.auto
  have key : ∀ (r : Nat) (vs : List V), t.runsBlock (.reduce r vs) = (decide (r < (rulesOf ds).length) && blockMove ds (.rule r)) := by
    intro r vs
    simp only [Tables.runsBlock]
    by_cases hr : r < s.g.rules.length
    · obtain ⟨rc, h1, h2⟩ := s.ruleCode_get hr
      have hcode := translateCode_code h2
      rw [h1]
      obtain ⟨pats, code, dt⟩ := rc
      simp only at hcode
      by_cases hw : r < (rulesOf ds).length
      · obtain ⟨u, hu⟩ : ∃ u, (rulesOf ds)[r]? = some u := ⟨_, List.getElem?_eq_getElem hw⟩
        rcases (b.toBridge0.written ho hu).2.2.2.2.2 with ⟨n, k1, k2, _⟩ | ⟨k1, _, k2, _⟩ | ⟨k1, _, k2, _⟩ <;>
          rw [hcode, k2, decide_eq_true hw, Bool.true_and] <;> simp only [blockMove, hu, k1] <;> rfl
      · obtain ⟨_, _, _, ⟨_, k⟩ | ⟨_, k⟩⟩ := b.toBridge0.unwritten ho hr (Nat.le_of_not_lt hw) <;> rw [hcode, k] <;> simp [hw]
    · have hn : t.ruleCode[r]? = none := by
        have hrs : s.gen.gT.rules = s.g.rules := (assignTypes_shape s.gen.assign).2.1
        rw [s.gen.ruleCode, List.getElem?_eq_none_iff, ← (mapM_except_forall₂ s.gen.rcEq).length_eq, hrs]
        exact Nat.le_of_not_lt hr
      have hw : ¬ r < (rulesOf ds).length := fun hw => by
        obtain ⟨u, hu⟩ : ∃ u, (rulesOf ds)[r]? = some u := ⟨_, List.getElem?_eq_getElem hw⟩
        exact hr (b.toBridge0.written ho hu).1
      rw [hn]; simp [hw]
  induction l with
  | nil => rfl
  | cons e l ih =>
    rw [show movesOf (rulesOf ds).length (e :: l) = _ from movesOf_append _ [e] l, List.countP_append, ← ih, List.countP_cons, Nat.add_comm]
    rw [Nat.add_comm (List.countP _ l)]
    congr 1
    cases e with
    | reduce r vs =>
      rw [key]
      by_cases hr : r < (rulesOf ds).length <;> simp [movesOf, hr, List.countP_cons]
    | _ => simp [movesOf, Tables.runsBlock, blockMove]

theorem sameMove_count {names names' : List SymName} {l l' : List Move} (h : List.Forall₂ (SameMove ds ds' names names') l l') :
    l.countP (blockMove ds) = l'.countP (blockMove ds') := by
  induction h with
  | nil => rfl
  | @cons a b _ _ h _ ih =>
    rw [List.countP_cons, List.countP_cons, ih]
    congr 1
    cases a <;> cases b
    · rfl
    · exact h.elim
    · exact h.elim
    · rename_i n m
      rw [show blockMove ds (.rule n) = blockMove ds' (.rule m) by simp only [blockMove]; rw [show (rulesOf ds)[n]? = (rulesOf ds')[m]? from h]]

theorem AcceptedRun.remember {sem : Sem V X E} {x : X} {toks : List (Tok V)} {pf : Parser V X} {v : V} (h : AcceptedRun t sem x toks pf v) :
    ∃ pm, AcceptedRun t (remembering sem) (x, []) toks pm v ∧ pm.see Prod.fst = pf := by
  obtain ⟨fuel, hrun⟩ := h.run
  have := (sees_remembering sem).runAll (t := t) fuel (x, []) toks
  rw [show Prod.fst (x, ([] : List X)) = x from rfl, hrun] at this
  obtain ⟨r, h1, h2⟩ := Option.map_eq_some_iff.1 this.symm
  cases r with
  | ok pm w =>
    cases h2
    exact ⟨pm, ⟨fun tok ht => ⟨(h.valid tok ht).pos, (h.valid tok ht).lt, (h.valid tok ht).unit⟩, ⟨fuel, h1⟩, h.kept⟩, rfl⟩
  | err _ _ => cases h2
  | panic _ => cases h2

theorem feed_remember {sem : Sem V X E} {x : X} {toks : List (Tok V)} {fuel : Nat} {p : Parser V X} (h : feed t sem fuel (Parser.new sem x) toks = some (.ok p ())) :
    ∃ pm, feed t (remembering sem) fuel (Parser.new (remembering sem) (x, [])) toks = some (.ok pm ()) ∧ pm.see Prod.fst = p := by
  have := (sees_remembering sem).feed (t := t) fuel toks (Parser.new (remembering sem) (x, []))
  rw [← (sees_remembering sem).new, show Prod.fst (x, ([] : List X)) = x from rfl, h] at this
  obtain ⟨r, h1, h2⟩ := Option.map_eq_some_iff.1 this.symm
  cases r with
  | ok pm w => cases h2; exact ⟨pm, h1, rfl⟩
  | err _ _ => cases h2
  | panic _ => cases h2

/-- The history of the extra argument in the middle of an accepted run -/
theorem AcceptedRun.grew {sem : Sem V X E} {y : X × List X} {toks rest : List (Tok V)} {pf : Parser V (X × List X)} {v : V}
    (h : AcceptedRun t (remembering sem) y (toks ++ rest) pf v) {fuel : Nat} {p : Parser V (X × List X)}
    (hp : feed t (remembering sem) fuel (Parser.new (remembering sem) y) toks = some (.ok p ())) :
    p.history <:+ pf.history ∧ p.history.length = p.trace.countP t.runsBlock + (y.2.length + 1) := by
  obtain ⟨f, hrun⟩ := h.run
  obtain ⟨p1, p3, h1, h2, h3⟩ := runAll_split hrun
  have := feed_det h1 hp
  cases this
  have hk3 : ∀ n, Event.discard n ∉ p3.trace := fun n hm => h.kept n ((parseToken_suffix h3 rfl).mem hm)
  have hk : ∀ n, Event.discard n ∉ p.trace := fun n hm => hk3 n ((feed_suffix h2 rfl).mem hm)
  obtain ⟨_, new, _, g2, _⟩ := (feed_grew hk3 h2).trans (parseToken_grew h.kept h3)
  obtain ⟨evs, new1, k1, k2, k3⟩ := feed_grew hk hp
  refine ⟨⟨new, g2.symm⟩, ?_⟩
  rw [k2, List.length_append, k3, k1]
  simp [Parser.new, Parser.history]

theorem suffix_unique {α : Type} {a b l : List α} (ha : a <:+ l) (hb : b <:+ l) (h : a.length = b.length) : a = b := by
  rw [List.suffix_iff_eq_drop] at ha hb
  rw [ha, hb, h]

/-- C70, the order of declarations: after each beginning of an accepted input the extra argument is the same whatever the order of rules and directives, and
the same blocks have been run in the same order.
Missing: as for `C69_partial`. -/
theorem C70_order_partial (ho : OrdOk ord) (ho' : OrdOk ord') (h : Shuffled ds ds') (hst : startOf ds = startOf ds') (hc : compile ord ds = .ok t)
    (hc' : compile ord' ds' = .ok t') (R : Run ord ds) (hn : NoClash R.g) (hf : flat ds = true) (hs : noSelfFallback ds = true) (hA : apart ord ds = true)
    (hA' : apartAll ds') (hr : rootOk ds = true) (hw : wildcardOf ds = none) {ρ : Nat → Nat} (hρ : SameTokens t.tokenNames t'.tokenNames ρ)
    (sem : Sem V X E) {x : X} {toks rest : List (Tok V)} {pf : Parser V X} {v : V}
    (hF : ∀ tok ∈ toks ++ rest, ∀ i, t.tokenNames[tok.major]? = some (.ident i) → fallbackOf ds i = none) (ha : AcceptedRun t sem x (toks ++ rest) pf v)
    {fuel fuel' : Nat} {p p' : Parser V X} (hp : feed t sem fuel (Parser.new sem x) toks = some (.ok p ()))
    (hp' : feed t' sem fuel' (Parser.new sem x) (toks.map (Tok.swap ρ)) = some (.ok p' ())) :
    p'.extra = p.extra ∧
      List.Forall₂ (SameMove ds ds' t.tokenNames t'.tokenNames) (movesOf (rulesOf ds).length p.trace) (movesOf (rulesOf ds').length p'.trace) := by
  obtain ⟨g0, h0⟩ := compile_reads hc
  have hl := shuffled_like h hst hs h0
  obtain ⟨pm, b1, b2⟩ := ha.remember
  obtain ⟨pm', b3, b4⟩ := C69_partial ho ho' h hst hc hc' R hn hf hs hA hA' hr hw hρ (remembering sem) hF b1
  have hmoves := shuffled_moves ho ho' hl hc hc' R hn hf hA (hA' ord' ho') hw hρ (remembering sem) hF b1 b3
  rw [List.map_append] at b3
  obtain ⟨q, c1, rfl⟩ := feed_remember hp
  obtain ⟨q', c2, rfl⟩ := feed_remember hp'
  have m1 := moves_upTo b1 c1 (rulesOf ds).length
  have m2 := moves_upTo b3 c2 (rulesOf ds').length
  have hsame : List.Forall₂ (SameMove ds ds' t.tokenNames t'.tokenNames) (movesOf (rulesOf ds).length q.trace) (movesOf (rulesOf ds').length q'.trace) := by
    rw [m1, m2, List.length_map]
    exact upTo_same hmoves
  refine ⟨?_, hsame⟩
  obtain ⟨d1, d2⟩ := b1.grew c1
  obtain ⟨d3, d4⟩ := b3.grew c2
  have hlen : q'.history.length = q.history.length := by
    rw [d2, d4, runsBlock_moves ho hc, runsBlock_moves ho' hc', sameMove_count hsame]
  have : pm'.history = pm.history := by unfold Parser.history; rw [b4]
  rw [this] at d3
  have := suffix_unique d3 d1 hlen
  unfold Parser.history at this
  exact (List.cons.inj this).1

/-- C70 for beginnings of sentences: if no conflict was settled, blocks do not fail and the stack has room, just those rules have been reduced that are
before the last token read in the postorder of any tree that begins with these tokens.
Missing: as for `C03_partial`, and trees with tokens that have fallbacks. -/
theorem C70_begins_partial (ho : OrdOk ord) (hc : compile ord ds = .ok t) (hf : flat ds = true) (hA : apart ord ds = true) (hr : rootOk ds = true)
    (hw : wildcardOf ds = none) (R : Run ord ds) (hn : NoClash R.g) (sem : Sem V X E) (he : NoErr sem) {x : X} {T : Tree V}
    (hT : IsOwnTree ds t.tokenNames T) (hroom : HasRoom ds T) (hv : ∀ tok ∈ T.yield, tok.Valid t sem)
    (hF : ∀ tok ∈ T.yield, ∀ i, t.tokenNames[tok.major]? = some (.ident i) → fallbackOf ds i = none) {toks : List (Tok V)} (hy : toks <+: T.yield) :
    ∃ fuel p, feed t sem fuel (Parser.new sem x) toks = some (.ok p ()) ∧ movesOf (rulesOf ds).length p.trace = upTo toks.length T.post := by
  obtain ⟨rest, hy⟩ := hy
  have hacc : AcceptsTree ds t sem x T := by
    rcases accepts_room ho hc hf hA hr hw R hn sem x hT hv with h | ⟨e, p, fuel, _, h1, h2⟩ | h
    · exact h.1
    · exfalso
      have key : (∃ tok, Event.stackOverflow tok ∈ p.trace) ∨ ∃ ev ∈ p.trace, ev.isSyntax = true := by
        unfold runAll at h1
        cases hfe : feed t sem fuel (Parser.new sem x) T.yield with
        | none => rw [hfe] at h1; cases h1
        | some r0 =>
          rw [hfe] at h1
          cases r0 with
          | panic w => cases h1
          | err p1 e1 => cases h1; exact feed_err he hfe
          | ok p1 u =>
            simp only at h1
            unfold endOfInput at h1
            rw [Option.map_eq_some_iff] at h1
            obtain ⟨r4, h4, h5⟩ := h1
            cases r4 with
            | panic w => cases h5
            | ok p4 u => simp only at h5; split at h5 <;> cases h5
            | err p4 e4 =>
              cases h5
              rcases parseToken_inv h4 with ⟨h6, _⟩ | ⟨_, r', hl, hr⟩
              · cases h6
              rcases hr with ⟨p2, e2, rfl, h7⟩ | ⟨h6, rfl⟩
              · cases h7; exact loop_err (p1 := p2) he hl
              · exact absurd rfl (h6 _ _)
      rcases key with ⟨tok, h3⟩ | ⟨ev, h3, h4⟩
      · have := List.all_eq_true.1 h2 _ h3
        cases this
      · have := List.all_eq_true.1 (onlyMoves_noSyntax h2) _ h3
        rw [h4] at this
        cases this
    · exact absurd hroom h.2
  obtain ⟨v, pf, fuel, _, h1, h2⟩ := hacc
  rw [← hy] at h1
  have hrun : AcceptedRun t sem x (toks ++ rest) pf (rootValue ds sem v) := ⟨by rw [hy]; exact hv, ⟨fuel, h1⟩, moves_kept h2⟩
  obtain ⟨p, _, h3, _, _⟩ := runAll_split h1
  obtain ⟨T', ⟨st, hst, hfit⟩, k2, k3⟩ := C70_partial ho hc hf hA sem hrun
  have hown : IsOwnTree ds t.tokenNames T' := by
    refine ⟨st, by rw [own_startOf]; exact hst, fits_ownTokens hw hfit ?_⟩
    simp only [Tree.yields, List.append_nil, k2, hy]
    exact hF
  have := C04 ho hc R hn hT hown (fun tok ht => (hv tok ht).pos) (by rw [k2, hy])
  subst this
  exact ⟨fuel, p, h3, k3 fuel p h3⟩

/-! ## Where it fails -/

/-- C70 fails for tables with overlapping rows: the parser of `C01_false` accepts what has no tree. -/
theorem C70_false : ¬ C70_statement := by
  intro h
  obtain ⟨p, h1, _, _, h3⟩ := C01ex.g2_accepts
  obtain ⟨p1, _, h4, _, _⟩ := runAll_split (toks := [⟨3, 0⟩]) (rest := []) h3
  obtain ⟨T, h5, h6, _⟩ := h id OrdOk.id C01ex.g2 _ (Examples.compiles_iff (by decide +kernel)) Tests.logSem [] [⟨3, 0⟩] [] p 0 h1 1000 p1 h4
  exact C01ex.g2_not T h5 h6

/-- `C70_order_partial` for inputs with an error, too: when `parse` fails, the extra argument is the same for both orders of the declarations. -/
def C70_error_statement : Prop :=
  ∀ (ord ord' : List (SymbolId × SymbolId) → List (SymbolId × SymbolId)), OrdOk ord → OrdOk ord' → ∀ (ds ds' : List Decl), Shuffled ds ds' →
  startOf ds = startOf ds' → noAssoc ds = true → apartAll ds → apartAll ds' → ∀ t t', compile ord ds = .ok t → compile ord' ds' = .ok t' →
  ∀ ρ, SameTokens t.tokenNames t'.tokenNames ρ →
  ∀ (sem : Sem Int (List Nat) Unit) (x : List Nat) (toks : List (Tok Int)) (fuel fuel' : Nat) (p p' : Parser Int (List Nat)),
    feed t sem fuel (Parser.new sem x) toks = some (.ok p ()) → feed t' sem fuel' (Parser.new sem x) (toks.map (Tok.swap ρ)) = some (.ok p' ()) →
    p'.extra = p.extra

/-! ## Examples -/

namespace C70ex
open Examples C01ex
open Tests (U L s r logSem)

/-- `%type P; %type Q; %type A; %type B; s ::= x A; s ::= y B; s ::= C; x ::= D { 1 } y ::= D { 2 }` -/
def ab : List Decl :=
  [ .type false (U 10) none, .type false (U 11) none, .type false (U 1) none, .type false (U 2) none
  , r (L 0) [s (L 1), s (U 1)], r (L 0) [s (L 2), s (U 2)], r (L 0) [s (U 3)], r (L 1) [s (U 4)] (some 1), r (L 2) [s (U 4)] (some 2) ]
/-- The same with `%type B` before `%type A` -/
def ba : List Decl :=
  [ .type false (U 10) none, .type false (U 11) none, .type false (U 2) none, .type false (U 1) none
  , r (L 0) [s (L 1), s (U 1)], r (L 0) [s (L 2), s (U 2)], r (L 0) [s (U 3)], r (L 1) [s (U 4)] (some 1), r (L 2) [s (U 4)] (some 2) ]

theorem ab_ba : Shuffled ab ba := Shuffled.swap (l := [_, _]) .same rfl
theorem ab_ok : compile id ab = .ok (tablesOf ab) := compiles_iff (by decide +kernel)
theorem ba_ok : compile id ba = .ok (tablesOf ba) := compiles_iff (by decide +kernel)
theorem ab_apart : apartAll ab := apartAll_of OrdOk.id ab_ok (by decide +kernel) (by decide +kernel)
theorem ba_apart : apartAll ba := apartAll_of OrdOk.id ba_ok (by decide +kernel) (by decide +kernel)

/-- The extra argument after the tokens, if all calls return `Ok` -/
def extraOf (t : Tables) (toks : List (Tok Int)) : Option (List Nat) :=
  match feed t logSem 1000 (Parser.new logSem []) toks with
  | some (.ok p ()) => some p.extra
  | _ => none

theorem extraOf_iff {t : Tables} {toks : List (Tok Int)} {x : List Nat} (h : extraOf t toks = some x) :
    ∃ p, feed t logSem 1000 (Parser.new logSem []) toks = some (.ok p ()) ∧ p.extra = x := by
  unfold extraOf at h
  split at h
  · rename_i p hp; cases h; exact ⟨p, hp, rfl⟩
  · cases h

-- after `D` neither parser has run a block; the block of `x ::= D` is run when `A` comes, by either
example : extraOf (tablesOf ab) [⟨6, 0⟩] = some [] ∧ extraOf (tablesOf ba) [⟨6, 0⟩] = some [] ∧
    extraOf (tablesOf ab) [⟨6, 0⟩, ⟨3, 0⟩] = some [1] ∧ extraOf (tablesOf ba) [⟨6, 0⟩, ⟨4, 0⟩] = some [1] := by decide +kernel
end C70ex

/-- After an error it may depend on the order of directives which blocks have been run: with `%type A; %type B; s ::= x A; s ::= y B; s ::= C; x ::= D { 1 }
y ::= D { 2 }` the input `D C` runs the first block, with `%type B; %type A; …` the second one (two unused tokens are declared in front, so that no rows
overlap).  The default of a state is the rule that is found first, in the order of the numbers of the tokens. -/
theorem C70_error_false : ¬ C70_error_statement := by
  intro h
  obtain ⟨p, h1, h2⟩ := C70ex.extraOf_iff (t := Examples.tablesOf C70ex.ab) (toks := [⟨6, 0⟩, ⟨5, 0⟩]) (x := [1, 99]) (by decide +kernel)
  obtain ⟨p', h3, h4⟩ := C70ex.extraOf_iff (t := Examples.tablesOf C70ex.ba)
    (toks := [⟨6, 0⟩, ⟨5, 0⟩].map (Tok.swap (renumber (Examples.tablesOf C70ex.ab).tokenNames (Examples.tablesOf C70ex.ba).tokenNames))) (x := [2, 99])
    (by decide +kernel)
  have := h id id OrdOk.id OrdOk.id _ _ C70ex.ab_ba (by decide) (by decide) C70ex.ab_apart C70ex.ba_apart _ _ C70ex.ab_ok C70ex.ba_ok _
    (names_shuffled OrdOk.id OrdOk.id C70ex.ab_ba (by decide) C70ex.ab_ok C70ex.ba_ok) Tests.logSem [] _ 1000 1000 p p' h1 h3
  rw [h2, h4] at this
  cases this

namespace C70ex
open Examples C01ex
open Tests (U L s r logSem)

-- `C70_partial`: `Num(5) Plus LP` of the input of C01, with a precedence, a fallback and an optional symbol; `e ::= Num` has been reduced
example : ∃ T : Tree Int, IsTree sums (tablesOf sums).tokenNames T ∧ T.yield = input ∧
    ∀ fuel p, feed (tablesOf sums) sumsSem fuel (Parser.new sumsSem []) (input.take 3) = some (.ok p ()) →
      movesOf (rulesOf sums).length p.trace = upTo 3 T.post := by
  obtain ⟨p, h, _⟩ := sums_accepted
  exact C70_partial (toks := input.take 3) (rest := input.drop 3) OrdOk.id sums_ok.1 sums_ok.2.1 sums_ok.2.2 sumsSem h

/-- The moves after the tokens -/
def movesAfter (n : Nat) (t : Tables) (toks : List (Tok Int)) : Option (List Move) :=
  match feed t sumsSem 1000 (Parser.new sumsSem []) toks with
  | some (.ok p ()) => some (movesOf n p.trace)
  | _ => none

example : movesAfter (rulesOf sums).length (tablesOf sums) (input.take 3) = some [.read 2, .rule 2, .read 3, .read 4] := by decide +kernel

-- `C70_order_partial`: the hypotheses are met by the two orders of C69, for each part of the input
example (n : Nat) {fuel fuel' : Nat} {p p' : Parser Int (List Nat)}
    (h : feed (tablesOf Complex.sums) sumsSem fuel (Parser.new sumsSem []) (C69ex.input.take n) = some (.ok p ()))
    (h' : feed (tablesOf C69ex.turned) sumsSem fuel' (Parser.new sumsSem []) ((C69ex.input.take n).map
      (Tok.swap (renumber (tablesOf Complex.sums).tokenNames (tablesOf C69ex.turned).tokenNames))) = some (.ok p' ())) : p'.extra = p.extra := by
  obtain ⟨pf, ha, _⟩ := acceptedB_iff (t := tablesOf Complex.sums) (m := sumsSem) (toks := C69ex.input) (v := 997) (x := [0, 1, 0]) (by decide +kernel)
  obtain ⟨R⟩ := run_exists C69ex.sums_ok
  rw [← List.take_append_drop n C69ex.input] at ha
  exact (C70_order_partial OrdOk.id OrdOk.id C69ex.sums_turned (by decide) C69ex.sums_ok C69ex.turned_ok R (noClash_of_noAssoc OrdOk.id R (by decide)) (by decide)
    (by decide) (C69ex.sums_apart _ OrdOk.id) C69ex.turned_apart (by decide) (by decide)
    (names_shuffled OrdOk.id OrdOk.id C69ex.sums_turned (by decide) C69ex.sums_ok C69ex.turned_ok) sumsSem
    (by rw [List.take_append_drop]; exact C69ex.no_fallback) ha h h').1

/-- `D A` as a tree of `ab` -/
def tree : Tree Int := .rule 0 [.rule 3 [.tok ⟨6, 0⟩], .tok ⟨3, 0⟩]
theorem tree_ok : IsOwnTree ab (tablesOf ab).tokenNames tree :=
  ⟨L 0, by decide, .rule (u := ⟨L 0, [s (L 1), s (U 1)], none, none⟩) (by rfl) (.rule (u := ⟨L 1, [s (U 4)], some 1, none⟩) (by rfl) (.tok (i := U 4) (j := U 4) (by decide +kernel) .self ⟨rfl, rfl⟩ .nil)
    (.tok (i := U 1) (j := U 1) (by decide +kernel) .self ⟨rfl, rfl⟩ .nil)) .nil⟩

-- `C70_begins_partial`: after `D`, nothing but the token has been read
example : ∃ fuel p, feed (tablesOf ab) logSem fuel (Parser.new logSem []) [⟨6, 0⟩] = some (.ok p ()) ∧ movesOf (rulesOf ab).length p.trace = [.read 6] := by
  obtain ⟨R⟩ := run_exists ab_ok
  exact C70_begins_partial (T := tree) OrdOk.id ab_ok (by decide) (ab_apart _ OrdOk.id) (by decide) (by decide) R (noClash_of_noAssoc OrdOk.id R (by decide)) logSem
    (fun _ _ _ => ⟨_, _, rfl⟩) tree_ok (by decide +kernel)
    (fun tok ht => validB_iff (List.all_eq_true.1 (show tree.yield.all (validB (tablesOf ab) logSem) = true by decide +kernel) tok ht))
    (fun _ _ i _ => by rfl) ⟨[⟨3, 0⟩], rfl⟩
end C70ex

end Pomelo
