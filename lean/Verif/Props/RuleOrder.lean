import Verif.Spec.Shuffled
import Verif.Spec.Timing
import Verif.Proofs.ShuffleGen
import Verif.Props.Notice
import Verif.Props.Choice
import Verif.Props.Height
/-!
# C69: without conflicts the order of the rules does not matter

Rules have their numbers from the order in which they are written.  The macro goes by these numbers when it sorts configurations and states,
when it settles conflicts, and when it chooses default reductions.
-/

namespace Pomelo

open Spec

variable {ord ord' : List (SymbolId × SymbolId) → List (SymbolId × SymbolId)} {ds ds' : List Decl} {t t' : Tables} {V X E : Type}

/-- C69 in full: declarations without precedences may be written in any order that keeps the start symbol (and the order of two `%token_class`es of one
name and of two `%stack_size`s or `%type`s of one symbol of which one has no type): the macro accepts them in one order if it accepts them in the other,
and the parsers accept the same inputs with the same results. -/
def C69_statement : Prop :=
  ∀ (ord ord' : List (SymbolId × SymbolId) → List (SymbolId × SymbolId)), OrdOk ord → OrdOk ord' → ∀ (ds ds' : List Decl), Shuffled ds ds' →
  startOf ds = startOf ds' → noAssoc ds = true → ∀ t, compile ord ds = .ok t → ∃ t', compile ord' ds' = .ok t' ∧
  ∀ ρ, SameTokens t.tokenNames t'.tokenNames ρ →
  ∀ (sem : Sem Int (List Nat) Unit) (x : List Nat) (toks : List (Tok Int)) (p : Parser Int (List Nat)) (v : Int), AcceptedRun t sem x toks p v →
    ∃ p', AcceptedRun t' sem x (toks.map (Tok.swap ρ)) p' v ∧ p'.extra = p.extra

/-! ## Exchanges -/

/-- As `LikeRules`, but for the start symbol -/
structure LikeButStart (ds ds' : List Decl) : Prop where
  type : ∀ i, typeOf ds i = typeOf ds' i
  prec : ∀ i, precOf ds i = precOf ds' i
  fallback : ∀ i, fallbackOf ds i = fallbackOf ds' i
  multi : ∀ i, isClass ds i = isClass ds' i
  subs : ∀ i, classMembers ds i = classMembers ds' i
  rules : (ds.filterMap Decl.rule?).Perm (ds'.filterMap Decl.rule?)
  glob : ds.foldl Glob.step Grammar.initial.glob = ds'.foldl Glob.step Grammar.initial.glob

theorem LikeButStart.refl (ds : List Decl) : LikeButStart ds ds :=
  ⟨fun _ => rfl, fun _ => rfl, fun _ => rfl, fun _ => rfl, fun _ => rfl, .refl _, rfl⟩

theorem LikeButStart.trans {a b c : List Decl} (h : LikeButStart a b) (k : LikeButStart b c) : LikeButStart a c :=
  ⟨fun i => (h.type i).trans (k.type i), fun i => (h.prec i).trans (k.prec i), fun i => (h.fallback i).trans (k.fallback i),
   fun i => (h.multi i).trans (k.multi i), fun i => (h.subs i).trans (k.subs i), h.rules.trans k.rules, h.glob.trans k.glob⟩

theorem likeButStart_rules {l r : List Decl} {a b c d a' b' c' d'} :
    LikeButStart (l ++ .rule a b c d :: .rule a' b' c' d' :: r) (l ++ .rule a' b' c' d' :: .rule a b c d :: r) where
  type := fun i => findSome_swap _ _ (.inl rfl)
  prec := fun i => by
    unfold precOf
    obtain ⟨m, hm⟩ := precFrom_append i l 0
    rw [hm, hm]
    simp [precFrom]
  fallback := fun i => findSome_swap _ _ (.inl rfl)
  multi := fun i => by unfold isClass; simp
  subs := fun i => by unfold classMembers; simp
  rules := (swap_perm _ _ _ _).filterMap _
  glob := by rw [List.foldl_append, List.foldl_append]; rfl

theorem forbids_fixed {d d' : Decl} (h : orderFixed d d' = false) (ho : orderMatters d d' = true) :
    ∃ a b c e a' b' c' e', d = .rule a b c e ∧ d' = .rule a' b' c' e' := by
  cases d with
  | rule a b c e =>
    cases d' with
    | rule a' b' c' e' => exact ⟨_, _, _, _, _, _, _, _, rfl, rfl⟩
    | _ => cases ho
  | _ => cases d' <;> exact absurd (h.symm.trans ho) (by decide)

theorem shuffled_step {l r : List Decl} {d d' : Decl} (h : orderFixed d d' = false) (ho : Orderly (l ++ d :: d' :: r)) :
    Orderly (l ++ d' :: d :: r) ∧ LikeButStart (l ++ d :: d' :: r) (l ++ d' :: d :: r) := by
  cases hm : orderMatters d d' with
  | false =>
    obtain ⟨h1, h2⟩ := orderly_swap hm ho
    have hs := sameDecls_swap (l := l) (r := r) hm h1
    exact ⟨h2, hs.type, hs.prec, hs.fallback, hs.multi, hs.subs, by rw [hs.rules], hs.glob⟩
  | true =>
    obtain ⟨a, b, c, e, a', b', c', e', rfl, rfl⟩ := forbids_fixed h hm
    have hk := likeButStart_rules (l := l) (r := r) (a := a) (b := b) (c := c) (d := e) (a' := a') (b' := b') (c' := c') (d' := e')
    refine ⟨⟨fun d hd => ho.sound d ((swap_perm _ _ _ _).mem_iff.2 hd), ?_, ?_⟩, hk⟩
    · have := ho.pairs
      rw [List.pairwise_append] at this ⊢
      obtain ⟨p1, p2, p3⟩ := this
      simp only [List.pairwise_cons, List.mem_cons, forall_eq_or_imp] at p2 p3 ⊢
      obtain ⟨⟨q1, q2⟩, q3, q4⟩ := p2
      refine ⟨p1, ⟨⟨?_, q3⟩, q2, q4⟩, fun x hx => ⟨(p3 x hx).2.1, (p3 x hx).1, (p3 x hx).2.2⟩⟩
      simp [Forbids, Twice]
    · intro i
      rw [← funext hk.fallback]
      exact ho.ends i

theorem Spec.Shuffled.orderly (h : Shuffled ds ds') (ho : Orderly ds) : Orderly ds' ∧ LikeButStart ds ds' := by
  induction h with
  | same => exact ⟨ho, .refl _⟩
  | swap _ hm ih =>
    obtain ⟨h1, h2⟩ := shuffled_step hm ih.1
    exact ⟨h1, ih.2.trans h2⟩

theorem Spec.Shuffled.perm (h : Shuffled ds ds') : ds.Perm ds' := by
  induction h with
  | same => exact .refl _
  | swap _ _ ih => exact ih.trans (swap_perm _ _ _ _)

theorem orderFixed_symm {d d' : Decl} (h : orderFixed d d' = false) : orderFixed d' d = false := by
  cases hm : orderMatters d d' with
  | true =>
    obtain ⟨_, _, _, _, _, _, _, _, rfl, rfl⟩ := forbids_fixed h hm
    rfl
  | false =>
    have := orderMatters_symm hm
    cases d' <;> cases d <;> first | exact this | rfl

theorem Spec.Shuffled.trans {a b c : List Decl} (h : Shuffled a b) (k : Shuffled b c) : Shuffled a c := by
  induction k with
  | same => exact h
  | swap _ hm ih => exact .swap ih hm

theorem Spec.Shuffled.symm (h : Shuffled ds ds') : Shuffled ds' ds := by
  induction h with
  | same => exact .same
  | swap _ hm ih => exact (Shuffled.swap .same (orderFixed_symm hm)).trans ih

theorem shuffled_like (h : Shuffled ds ds') (hst : startOf ds = startOf ds') (hs : noSelfFallback ds = true) {g0 : Grammar} (h0 : newFromDecls ds = .ok g0) :
    LikeRules ds ds' := by
  obtain ⟨_, k⟩ := h.orderly ((admitted_orderly hs).1 ((C46_read ds).1 ⟨g0, h0⟩).1)
  exact ⟨k.type, k.prec, k.fallback, k.multi, k.subs, k.rules, k.glob, hst⟩

theorem shuffled_reads (h : Shuffled ds ds') (hs : noSelfFallback ds = true) {g0 : Grammar} (h0 : newFromDecls ds = .ok g0) : ∃ g0', newFromDecls ds' = .ok g0' := by
  have hs' : noSelfFallback ds' = true := by rw [← noSelf_perm h.perm]; exact hs
  obtain ⟨h1, h2⟩ := (C46_read ds).1 ⟨g0, h0⟩
  exact (C46_read ds').2 ⟨(admitted_orderly hs').2 (h.orderly ((admitted_orderly hs).1 h1)).1, fun h3 => h2 ((rulesOf_nil h.perm).2 h3)⟩

theorem noAssoc_perm (h : ds.Perm ds') : noAssoc ds = noAssoc ds' := by
  rw [Bool.eq_iff_iff]
  unfold noAssoc
  rw [List.all_eq_true, List.all_eq_true]
  exact ⟨fun hh x hx => hh x (h.mem_iff.2 hx), fun hh x hx => hh x (h.mem_iff.1 hx)⟩

/-! ## The macro -/

/-- C69, the macro, if no conflict had to be settled: what it accepts, it accepts with the rules in another order.
Missing: grammars with settled conflicts, classes of classes and tokens that are their own fallback. -/
theorem C69_noClash_partial (ho : OrdOk ord) (ho' : OrdOk ord') (h : Shuffled ds ds') (hst : startOf ds = startOf ds') (hs : noSelfFallback ds = true)
    (hf : flat ds = true) (hw : written ds = true) (hc : compile ord ds = .ok t) (R : Run ord ds) (hn : NoClash R.g) : ∃ t', compile ord' ds' = .ok t' := by
  obtain ⟨g0, h0⟩ := compile_reads hc
  obtain ⟨g0', h0'⟩ := shuffled_reads h hs h0
  exact shuffled_compile ho ho' (shuffled_like h hst hs h0) hf hw (by rw [← noSelf_perm h.perm]; exact hs) h0' hc R hn

/-- C69, the macro, without precedences
Missing: as for `C69_noClash_partial`. -/
theorem C69_success_partial (ho : OrdOk ord) (ho' : OrdOk ord') (h : Shuffled ds ds') (hst : startOf ds = startOf ds') (hs : noSelfFallback ds = true)
    (hf : flat ds = true) (hw : written ds = true) (hn : noAssoc ds = true) : (∃ t, compile ord ds = .ok t) ↔ ∃ t', compile ord' ds' = .ok t' := by
  have go : ∀ {ord ord' ds ds'}, OrdOk ord → OrdOk ord' → Shuffled ds ds' → startOf ds = startOf ds' → noSelfFallback ds = true → flat ds = true →
      written ds = true → noAssoc ds = true → (∃ t, compile ord ds = .ok t) → ∃ t', compile ord' ds' = .ok t' := by
    rintro ord ord' ds ds' ho ho' h hst hs hf hw hn ⟨t, hc⟩
    obtain ⟨R⟩ := run_exists hc
    exact C69_noClash_partial ho ho' h hst hs hf hw hc R (noClash_of_noAssoc ho R hn)
  refine ⟨go ho ho' h hst hs hf hw hn, fun hc => ?_⟩
  have hs' : noSelfFallback ds' = true := by rw [← noSelf_perm h.perm]; exact hs
  obtain ⟨t', hc'⟩ := hc
  obtain ⟨g0', h0'⟩ := compile_reads hc'
  obtain ⟨g0, h0⟩ := shuffled_reads h.symm hs' h0'
  have ha := shuffled_alike (shuffled_like h hst hs h0) h0 h0'
  exact go ho' ho h.symm hst.symm hs' (ha.flat'.1 hf) (ha.written ▸ hw) (by rw [← noAssoc_perm h.perm]; exact hn) ⟨t', hc'⟩

/-! ## Trees -/

theorem SaysLike.rootValue (h : SaysLike ds ds') (sem : Sem V X E) : Spec.rootValue ds sem = Spec.rootValue ds' sem := by
  funext v; unfold Spec.rootValue; rw [h.root, h.type, h.dflt]

/-- The second list says of symbols what the first says, and has its rules. -/
structure SaysMore (ds ds' : List Decl) : Prop where
  type : typeOf ds = typeOf ds'
  fallback : fallbackOf ds = fallbackOf ds'
  multi : isClass ds = isClass ds'
  subs : classMembers ds = classMembers ds'
  rules : ∀ u ∈ rulesOf ds, u ∈ rulesOf ds'
  wild : wildcardOf ds = wildcardOf ds'
  dflt : defaultTypeOf ds = defaultTypeOf ds'
  extra : extraTokenOf ds = extraTokenOf ds'

theorem SaysLike.more (h : SaysLike ds ds') : SaysMore ds ds' := ⟨h.type, h.fallback, h.multi, h.subs, fun u hu => (h.mem u).1 hu, h.wild, h.dflt, h.extra⟩

theorem SaysMore.plainType (h : SaysMore ds ds') : Spec.plainType ds = Spec.plainType ds' := by
  funext i; unfold Spec.plainType Spec.ownType; rw [h.wild, h.type, h.multi, h.extra, h.dflt]

theorem SaysMore.ruleValue (h : SaysMore ds ds') (sem : Sem V X E) : Spec.ruleValue ds sem = Spec.ruleValue ds' sem := by
  have hs : Spec.typedSym ds = Spec.typedSym ds' := by funext i; unfold Spec.typedSym; rw [h.type, h.multi, h.extra]
  have he : Spec.typedElem ds = Spec.typedElem ds' := by funext e; unfold Spec.typedElem; rw [hs]
  funext u vs x; unfold Spec.ruleValue; rw [hs, he]

theorem Spec.Tree.need_pos : ∀ T : Tree V, 0 < T.need
  | .tok _ => by simp [Tree.need]
  | .absent => by simp [Tree.need]
  | .present T => by rw [Tree.need]; exact Tree.need_pos T
  | .rule _ _ => by simp [Tree.need]

/-- A forest of the one grammar in which tokens stand for themselves is one of the other, with other numbers. -/
theorem fits_shuffle (hd : SaysMore ds ds') {names names' : List SymName} {ρ : Nat → Nat} (hρ : SameTokens names names' ρ)
    {ts : List (Tree V)} {es : List RhsElem} (h : Spec.Fits ds names ts es) :
    (∀ k ∈ Tree.yields ts, ∀ i, names[k.major]? = some (.ident i) → fallbackOf ds i = none) → wildcardOf ds = none →
    ∃ ts', Spec.Fits (ownTokens ds') names' ts' es ∧ Tree.yields ts' = (Tree.yields ts).map (Tok.swap ρ) ∧ Tree.needs ts' = Tree.needs ts ∧
      ts'.map Tree.height = ts.map Tree.height ∧ (∀ (X E : Type) (sem : Sem V X E) x, Tree.values ds' sem ts' x = Tree.values ds sem ts x) ∧
      List.Forall₂ (SameMove ds ds' names names') (Tree.posts ts) (Tree.posts ts') := by
  intro hF hw
  induction h with
  | nil => exact ⟨[], .nil, rfl, rfl, rfl, fun _ _ _ _ => rfl, .nil⟩
  | @tok k i j e ts es h1 h2 h3 _ ih =>
    obtain ⟨ts', a1, a2, a3, a4, a5, a6⟩ := ih fun k hk => hF k (List.mem_cons_of_mem _ hk)
    have hij : i = j := by
      cases h2 with
      | self => rfl
      | fallback h => rw [hF k (by simp [Tree.yields, Tree.yield]) i h1] at h; cases h
      | wildcard h => rw [hw] at h; cases h
    subst hij
    refine ⟨.tok (Tok.swap ρ k) :: ts', .tok (hρ _ _ h1) .self (own_matches.2 ?_) a1, by simp [Tree.yields, Tree.yield, a2], by simp [Tree.needs, Tree.need, a3],
      by simp [Tree.height, a4], ?_, .cons (h1.trans (hρ _ _ h1).symm) a6⟩
    · unfold Matches at h3 ⊢
      rw [← hd.multi, ← hd.subs]
      exact h3
    · intro X E sem x
      simp only [Tree.values, Tree.value, a5 X E sem]
      rfl
  | absent _ ih =>
    obtain ⟨ts', a1, a2, a3, a4, a5, a6⟩ := ih hF
    exact ⟨.absent :: ts', .absent a1, by simpa [Tree.yields, Tree.yield] using a2, by simp [Tree.needs, Tree.need, a3], by simp [Tree.height, a4],
      fun X E sem x => by simp only [Tree.values, Tree.value, a5 X E sem], a6⟩
  | @present T i al ts es _ _ ih1 ih2 =>
    obtain ⟨us, b1, b2, b3, _, b5, b6⟩ := ih1 fun k hk => hF k (by
      simp only [Tree.yields, Tree.yield, List.append_nil] at hk ⊢
      exact List.mem_append_left _ hk)
    obtain ⟨ts', a1, a2, a3, a4, a5, a6⟩ := ih2 fun k hk => hF k (by
      simp only [Tree.yields] at hk ⊢
      exact List.mem_append_right _ hk)
    obtain ⟨T', rfl⟩ := fits_one b1
    have hv : ∀ (X E : Type) (sem : Sem V X E) x, T'.value ds' sem x = T.value ds sem x := by
      intro X E sem x
      have := b5 X E sem x
      simp only [Tree.values] at this
      rcases h1 : T'.value ds' sem x with ⟨e | v, x1⟩ <;> rcases h2 : T.value ds sem x with ⟨e' | v', x2⟩ <;> rw [h1, h2] at this <;> simp_all
    refine ⟨.present T' :: ts', .present b1 a1, ?_, ?_, by simp [Tree.height, a4], ?_, List.rel_append (by simpa [Tree.posts, Tree.post] using b6) a6⟩
    · simp only [Tree.yields, Tree.yield, List.append_nil] at b2 ⊢
      rw [b2, a2, List.map_append]
    · simp only [Tree.needs, Tree.need] at b3 ⊢
      rw [a3]
      have : T'.need = T.need := by
        have p1 := Tree.need_pos T'
        have p2 := Tree.need_pos T
        omega
      rw [this]
    · intro X E sem x
      simp only [Tree.values, Tree.value, hv X E sem, a5 X E sem]
  | @rule n u kids al ts es h1 _ _ ih1 ih2 =>
    obtain ⟨us, b1, b2, b3, _, b5, b6⟩ := ih1 fun k hk => hF k (by
      simp only [Tree.yields, Tree.yield]
      exact List.mem_append_left _ hk)
    obtain ⟨ts', a1, a2, a3, a4, a5, a6⟩ := ih2 fun k hk => hF k (by
      simp only [Tree.yields] at hk ⊢
      exact List.mem_append_right _ hk)
    obtain ⟨m, hm⟩ := List.mem_iff_getElem?.1 (hd.rules u (List.mem_of_getElem? h1))
    refine ⟨.rule m us :: ts', .rule (by rw [own_rules]; exact hm) b1 a1, ?_, ?_, ?_, ?_, ?_⟩
    · simp only [Tree.yields, Tree.yield]
      rw [b2, a2, List.map_append]
    · simp only [Tree.needs, Tree.need]
      rw [b3, a3]
    · simp only [List.map_cons, Tree.height]
      rw [b3, a4]
    · intro X E sem x
      simp only [Tree.values, Tree.value, b5 X E sem, a5 X E sem, h1, hm, hd.ruleValue sem]
    · exact List.rel_append (List.rel_append b6 (.cons (show SameMove ds ds' names names' (.rule n) (.rule m) from h1.trans hm.symm) .nil)) a6

/-! ## The parsers -/

theorem LikeRules.stackSize (h : LikeRules ds ds') : stackSizeOf ds' = stackSizeOf ds := by
  have h1 := congrArg Glob.stackLimit h.glob
  rw [glob_stackLimit, glob_stackLimit] at h1
  exact h1.symm

/-- Without settled conflicts there are none with the rules in another order, for a suitable order of the optional symbols. -/
theorem shuffled_noClash (ho : OrdOk ord) (hl : LikeRules ds ds') (R : Run ord ds) (hn : NoClash R.g) {g0' : Grammar} (h0' : newFromDecls ds' = .ok g0') :
    ∃ ord2, OrdOk ord2 ∧ ∀ R' : Run ord2 ds', NoClash R'.g := by
  obtain ⟨b⟩ := bridge ho R.decls R.auto
  obtain ⟨gD', hp', _, _, _, _⟩ := newFromDecls_spec h0'
  obtain ⟨σ, τ, hm⟩ := hl.moves
  obtain ⟨ord2, ho2, hopt⟩ := Sh.opt_order ho (Sh.pair_of b.parsed hp' hl hm) b.parsed hp'
  refine ⟨ord2, ho2, fun R' => ?_⟩
  obtain ⟨b'⟩ := bridge ho2 R'.decls R'.auto
  have hgD : b'.gD = gD' := by
    have := b'.parsed
    rw [hp'] at this
    exact (Except.ok.inj this).symm
  have E : Shuf R.g R'.g := Sh.shufOf ho ho2 b.toBridge0 b'.toBridge0 hl hm (by rw [hgD]; exact hopt)
  exact E.noClash (GInv.automaton R.decls ho R.auto) (GInv.automaton R'.decls ho2 R'.auto) hn

theorem SaysLike.rootOk (h : SaysLike ds ds') (hp : ds.Perm ds') (hr : Spec.rootOk ds = true) : Spec.rootOk ds' = true := by
  unfold Spec.rootOk at hr ⊢
  rw [← h.root, ← h.plainType]
  have : (writtenTypes ds').contains .unit = (writtenTypes ds).contains .unit := by
    rw [Bool.eq_iff_iff, List.contains_iff_mem, List.contains_iff_mem]
    unfold writtenTypes
    exact (hp.symm.flatMap_right _).mem_iff
  rw [this]; exact hr

/-- A token is one of the other parser as well. -/
theorem SaysMore.valid (ho : OrdOk ord) (ho' : OrdOk ord') (hc : compile ord ds = .ok t) (hc' : compile ord' ds' = .ok t') (h : SaysMore ds ds') {ρ : Nat → Nat}
    (hρ : SameTokens t.tokenNames t'.tokenNames ρ) {sem : Sem V X E} {tok : Tok V} {i : Ident} (hn : t.tokenNames[tok.major]? = some (.ident i))
    (hv : tok.Valid t sem) : (Tok.swap ρ tok).Valid t' sem := by
  obtain ⟨s⟩ := compile_cspec hc
  obtain ⟨s'⟩ := compile_cspec hc'
  have hn' := hρ _ _ hn
  obtain ⟨_, _, _, _, _, k1, k2⟩ := s'.tokenSym ho' hn'
  refine ⟨Nat.pos_of_ne_zero k2, k1, ?_⟩
  intro hz
  apply hv.unit
  have t1 := (s.tokenTag ho hn).1
  have t1' := (s'.tokenTag ho' hn').1
  rw [t1]
  change t'.tokenDt.getD (ρ tok.major) 0 = 0 at hz
  rw [hz, ← h.plainType] at t1'
  cases hpt : Spec.plainType ds i with
  | none => rfl
  | some ty => rw [hpt] at t1'; cases t1'

theorem SaysLike.valid (ho : OrdOk ord) (ho' : OrdOk ord') (hc : compile ord ds = .ok t) (hc' : compile ord' ds' = .ok t') (h : SaysLike ds ds') {ρ : Nat → Nat}
    (hρ : SameTokens t.tokenNames t'.tokenNames ρ) {sem : Sem V X E} {tok : Tok V} {i : Ident} (hn : t.tokenNames[tok.major]? = some (.ident i))
    (hv : tok.Valid t sem) : (Tok.swap ρ tok).Valid t' sem := h.more.valid ho ho' hc hc' hρ hn hv

theorem moves_kept {l : List (Event V)} (h : onlyMoves l = true) (n : Nat) : Event.discard n ∉ l := by
  intro hm
  have := List.all_eq_true.1 h _ hm
  cases this

theorem shuffled_accepts (ho : OrdOk ord) (ho' : OrdOk ord') (hl : LikeRules ds ds') (hc : compile ord ds = .ok t) (hc' : compile ord' ds' = .ok t')
    (R : Run ord ds) (hn : NoClash R.g) (hf : flat ds = true) (hs : noSelfFallback ds' = true) (hA : apart ord ds = true) (hA' : apartAll ds')
    (hr : rootOk ds' = true) (hw : wildcardOf ds = none) {ρ : Nat → Nat} (hρ : SameTokens t.tokenNames t'.tokenNames ρ) (sem : Sem V X E) {x : X}
    {toks : List (Tok V)} {p : Parser V X} {v : V}
    (hF : ∀ tok ∈ toks, ∀ i, t.tokenNames[tok.major]? = some (.ident i) → fallbackOf ds i = none) (h : AcceptedRun t sem x toks p v) :
    ∃ p', AcceptedRun t' sem x (toks.map (Tok.swap ρ)) p' v ∧ p'.extra = p.extra := by
  obtain ⟨g0, h0⟩ := compile_reads hc
  obtain ⟨g0', h0'⟩ := compile_reads hc'
  have hd := shuffled_alike hl h0 h0'
  have hf' := hd.flat'.1 hf
  obtain ⟨ord2, ho2, hn2⟩ := shuffled_noClash ho hl R hn h0'
  obtain ⟨t2, hc2⟩ := other_order ho' ho2 hc'
  obtain ⟨R2⟩ := run_exists hc2
  have hρ2 : SameTokens t.tokenNames t2.tokenNames ρ := by rw [C39_names ho' ho2 hc' hc2]; exact hρ
  obtain ⟨T, hT, _⟩ := C60_accepted_partial ho hc hf hA sem h
  obtain ⟨st, hst, hfit⟩ := hT.tree
  have hy : Tree.yields [T] = toks := by rw [Tree.yields, Tree.yields, List.append_nil, hT.yield]
  obtain ⟨ts', a1, a2, a3, a4, a5, _⟩ := fits_shuffle hd.more hρ2 hfit (by rw [hy]; exact hF) hw
  obtain ⟨T', rfl⟩ := fits_one a1
  have hy' : T'.yield = toks.map (Tok.swap ρ) := by
    rw [hy] at a2
    simpa [Tree.yields] using a2
  have hown : IsOwnTree ds' t2.tokenNames T' := ⟨st, by rw [own_startOf, ← hd.root]; exact hst, a1⟩
  have hv' : ∀ tok ∈ T'.yield, tok.Valid t2 sem := by
    rw [hy']
    intro tok ht
    obtain ⟨k, hk, rfl⟩ := List.mem_map.1 ht
    obtain ⟨i, hi⟩ := isTree_names hT.tree k (by rw [hT.yield]; exact hk)
    exact hd.valid ho ho2 hc hc2 hρ2 hi (h.valid k hk)
  obtain ⟨w, hw1, hw2⟩ := hT.value
  have hval : T'.value ds' sem x = (.ok w, p.extra) := by
    have := a5 X E sem x
    simp only [Tree.values] at this
    rw [hw1] at this
    rcases hh : T'.value ds' sem x with ⟨e | v', x1⟩ <;> rw [hh] at this <;> simp_all
  have hroom : HasRoom ds' T' := by
    have hr := hT.room
    unfold HasRoom at hr ⊢
    rw [hl.stackSize]
    have : T'.height = T.height := by simpa using a4
    rw [this]; exact hr
  obtain ⟨v2, p2, fuel, q1, q2, q3⟩ := (C60_partial ho2 hc2 hf' (hA' ord2 ho2) hr (by rw [← hd.wild]; exact hw) R2 (hn2 R2) sem x hown hv').1.2 ⟨hroom, w, p.extra, hval⟩
  rw [hval] at q1
  obtain ⟨q4, q5⟩ := Prod.mk.inj q1
  cases q4
  rw [← hd.rootValue, ← hw2, hy'] at q2
  rw [hy'] at hv'
  obtain ⟨p3, b1, b2⟩ := C59_accepts_partial ho2 ho' hc2 hc' hf' (hA' ord2 ho2) (hA' ord' ho') hs sem ⟨hv', ⟨fuel, q2⟩, moves_kept q3⟩
  exact ⟨p3, b1, b2.trans q5.symm⟩

/-- C69, the parsers: if no conflict had to be settled, the inputs that are accepted and their results do not depend on the order of the rules.
Missing: settled conflicts, inputs with tokens that have fallbacks, wildcards; rows of the packed tables that overlap, see `C69_false`, classes of
classes, tokens that are their own fallback, and a `()` in the types. -/
theorem C69_partial (ho : OrdOk ord) (ho' : OrdOk ord') (h : Shuffled ds ds') (hst : startOf ds = startOf ds') (hc : compile ord ds = .ok t)
    (hc' : compile ord' ds' = .ok t') (R : Run ord ds) (hn : NoClash R.g) (hf : flat ds = true) (hs : noSelfFallback ds = true) (hA : apart ord ds = true)
    (hA' : apartAll ds') (hr : rootOk ds = true) (hw : wildcardOf ds = none) {ρ : Nat → Nat} (hρ : SameTokens t.tokenNames t'.tokenNames ρ)
    (sem : Sem V X E) {x : X} {toks : List (Tok V)} {p : Parser V X} {v : V}
    (hF : ∀ tok ∈ toks, ∀ i, t.tokenNames[tok.major]? = some (.ident i) → fallbackOf ds i = none) (ha : AcceptedRun t sem x toks p v) :
    ∃ p', AcceptedRun t' sem x (toks.map (Tok.swap ρ)) p' v ∧ p'.extra = p.extra := by
  obtain ⟨g0, h0⟩ := compile_reads hc
  obtain ⟨g0', h0'⟩ := compile_reads hc'
  have hl := shuffled_like h hst hs h0
  exact shuffled_accepts ho ho' hl hc hc' R hn hf (by rw [← noSelf_perm h.perm]; exact hs) hA hA' ((shuffled_alike hl h0 h0').rootOk h.perm hr) hw hρ sem hF ha

theorem names_shuffled (ho : OrdOk ord) (ho' : OrdOk ord') (h : Shuffled ds ds') (hs : noSelfFallback ds = true) (hc : compile ord ds = .ok t)
    (hc' : compile ord' ds' = .ok t') : SameTokens t.tokenNames t'.tokenNames (renumber t.tokenNames t'.tokenNames) := by
  obtain ⟨g0, h0⟩ := compile_reads hc
  have hl := (h.orderly ((admitted_orderly hs).1 ((C46_read ds).1 ⟨g0, h0⟩).1)).2
  obtain ⟨_, _, _, h1, _⟩ := C52_partial ho hc
  obtain ⟨_, _, _, h2, _⟩ := C52_partial ho' hc'
  apply renumber_same
  rw [h1, h2]
  intro nm hnm
  rcases List.mem_cons.1 hnm with rfl | hnm
  · exact List.mem_cons_self
  · obtain ⟨i, hi, rfl⟩ := List.mem_map.1 hnm
    refine List.mem_cons_of_mem _ (List.mem_map.2 ⟨i, ?_, rfl⟩)
    obtain ⟨⟨d, hd, hid⟩, k1, k2⟩ := mem_tokensOf.1 hi
    exact mem_tokensOf.2 ⟨⟨d, h.perm.mem_iff.1 hd, hid⟩, k1, by rw [← hl.multi]; exact k2⟩

/-- C69, the parsers, without precedences and in both directions: the same inputs are accepted, and the results are the same.
Missing: as for `C69_partial`. -/
theorem C69_iff_partial (ho : OrdOk ord) (ho' : OrdOk ord') (h : Shuffled ds ds') (hst : startOf ds = startOf ds') (hc : compile ord ds = .ok t)
    (hc' : compile ord' ds' = .ok t') (hn : noAssoc ds = true) (hf : flat ds = true) (hs : noSelfFallback ds = true) (hA : apartAll ds) (hA' : apartAll ds')
    (hr : rootOk ds = true) (hw : wildcardOf ds = none) (sem : Sem V X E) {x x' : X} {toks : List (Tok V)} {v : V} (hv : ∀ tok ∈ toks, tok.Valid t sem)
    (hF : ∀ tok ∈ toks, ∀ i, t.tokenNames[tok.major]? = some (.ident i) → fallbackOf ds i = none) :
    (∃ p, AcceptedRun t sem x toks p v ∧ p.extra = x') ↔
      ∃ p', AcceptedRun t' sem x (toks.map (Tok.swap (renumber t.tokenNames t'.tokenNames))) p' v ∧ p'.extra = x' := by
  have hs' : noSelfFallback ds' = true := by rw [← noSelf_perm h.perm]; exact hs
  have hρ := names_shuffled ho ho' h hs hc hc'
  have hρ' := names_shuffled ho' ho h.symm hs' hc' hc
  obtain ⟨R⟩ := run_exists hc
  obtain ⟨R'⟩ := run_exists hc'
  obtain ⟨g0, h0⟩ := compile_reads hc
  obtain ⟨g0', h0'⟩ := compile_reads hc'
  have hsame := shuffled_alike (shuffled_like h hst hs h0) h0 h0'
  constructor
  · rintro ⟨p, h1, h2⟩
    obtain ⟨p', h3, h4⟩ := C69_partial ho ho' h hst hc hc' R (noClash_of_noAssoc ho R hn) hf hs (hA ord ho) hA' hr hw hρ sem hF h1
    exact ⟨p', h3, h4.trans h2⟩
  · rintro ⟨p', h1, h2⟩
    obtain ⟨_, _, _, hnm, hnd⟩ := C52_partial ho hc
    have hnd : t.tokenNames.Nodup := by
      rw [hnm, List.nodup_cons]
      exact ⟨by simp, hnd.map (fun a b h => by cases h; rfl)⟩
    have hlen : ∀ tok ∈ toks, tok.major < t.tokenNames.length := fun tok ht => by rw [names_length ho hc]; exact (hv tok ht).lt
    obtain ⟨p, h3, h4⟩ := C69_partial ho' ho h.symm hst.symm hc' hc R' (noClash_of_noAssoc ho' R' (by rw [← noAssoc_perm h.perm]; exact hn))
      (hsame.flat'.1 hf) hs' (hA' ord' ho') hA (hsame.rootOk h.perm hr) (by rw [← hsame.wild]; exact hw) hρ' sem (by
      intro tok ht i hi
      obtain ⟨k, hk, rfl⟩ := List.mem_map.1 ht
      rw [← hsame.fallback]
      refine hF k hk i ?_
      have h5 := hρ' _ _ hi
      change t.tokenNames[renumber t'.tokenNames t.tokenNames (renumber t.tokenNames t'.tokenNames k.major)]? = _ at h5
      rwa [renumber_back hnd hρ hρ' (hlen k hk)] at h5) h1
    have hback : (toks.map (Tok.swap (renumber t.tokenNames t'.tokenNames))).map (Tok.swap (renumber t'.tokenNames t.tokenNames)) = toks := by
      rw [List.map_map]
      conv => rhs; rw [← List.map_id toks]
      apply List.map_congr_left
      intro tok ht
      show ({ tok with major := _ } : Tok V) = tok
      rw [show renumber t'.tokenNames t.tokenNames (Tok.swap (renumber t.tokenNames t'.tokenNames) tok).major = tok.major from renumber_back hnd hρ hρ' (hlen tok ht)]
    rw [hback] at h3
    exact ⟨p, h3, h4.trans h2⟩

theorem Spec.Shuffled.append {l : List Decl} (h : Shuffled ds ds') : Shuffled (l ++ ds) (l ++ ds') := by
  induction h with
  | same => exact .same
  | @swap a d d' r _ hm ih =>
    rw [← List.append_assoc] at ih ⊢
    exact .swap ih hm

theorem startOf_front {ids : List Ident} : startOf (front ids ++ ds) = startOf ds := by
  unfold startOf startDirective rulesOf front
  induction ids with
  | nil => rfl
  | cons i ids ih => exact ih

theorem noAssoc_front {ids : List Ident} : noAssoc (front ids ++ ds) = noAssoc ds := by
  unfold noAssoc front
  simp

/-- With enough new tokens in front (C66) there is nothing left to ask of the tables: the order of the rules after them does not matter.
Missing: as for `C69_partial`, but for the overlap of rows. -/
theorem C69_cure_partial {ids : List Ident} (ho : OrdOk ord) (ho' : OrdOk ord') (h : Shuffled ds ds') (hst : startOf ds = startOf ds') (hp : Pads ds ids)
    (hp' : Pads ds' ids) (hc : compile ord (front ids ++ ds) = .ok t) (hc' : compile ord' (front ids ++ ds') = .ok t') (hn : noAssoc ds = true)
    (hf : flat ds = true) (hs : noSelfFallback ds = true) (hr : rootOk ds = true) (hw : wildcardOf ds = none) (sem : Sem V X E) {x x' : X}
    {toks : List (Tok V)} {v : V} (hv : ∀ tok ∈ toks, tok.Valid t sem)
    (hF : ∀ tok ∈ toks, ∀ i, t.tokenNames[tok.major]? = some (.ident i) → fallbackOf ds i = none) :
    (∃ p, AcceptedRun t sem x toks p v ∧ p.extra = x') ↔
      ∃ p', AcceptedRun t' sem x (toks.map (Tok.swap (renumber t.tokenNames t'.tokenNames))) p' v ∧ p'.extra = x' :=
  C69_iff_partial ho ho' h.append (by rw [startOf_front, startOf_front]; exact hst) hc hc' (noAssoc_front.trans hn) (front_flat.trans hf) (front_noSelf.trans hs)
    (apartAll_padded ho hc hp.padded) (apartAll_padded ho' hc' hp'.padded) (front_rootOk.trans hr) (front_wildcard.trans hw) sem hv
    fun tok ht i hi => by rw [← (front_like (ids := ids) (ds := ds)).fallback]; exact hF tok ht i hi

theorem SaysLike.trees (h : SaysLike ds ds') : SameTrees ds ds' := ⟨h.mem, h.root, h.multi, h.subs, h.fallback, h.wild⟩

/-- With the rules in another order an error is noticed at the same token, too (C68).
Missing: as for `C68_partial`. -/
theorem C69_notice_partial (ho : OrdOk ord) (ho' : OrdOk ord') (hd : Shuffled ds ds') (hst : startOf ds = startOf ds') (hc : compile ord ds = .ok t)
    (hc' : compile ord' ds' = .ok t') (hf : flat ds = true) (hA : apart ord ds = true) (hA' : apart ord' ds' = true) (hr : rootOk ds = true)
    (hk : ds.all keepsTokens = true) (hn : noAssoc ds = true) (hP : Productive V ds t.tokenNames) (sem : Sem V X E) (he : NoErr sem) {x : X}
    {toks : List (Tok V)} (hv : ∀ tok ∈ toks, tok.Valid t sem) (hv' : ∀ tok ∈ toks, (tok.swap (renumber t.tokenNames t'.tokenNames)).Valid t' sem)
    {fuel fuel' : Nat} {r r' : Res V X E Unit} {p p' : Parser V X}
    (h : feed t sem fuel (Parser.new sem x) toks = some r) (hp : r.parser? = some p) (hs : ∀ tok, Event.stackOverflow tok ∉ p.trace)
    (h' : feed t' sem fuel' (Parser.new sem x) (toks.map (Tok.swap (renumber t.tokenNames t'.tokenNames))) = some r') (hp' : r'.parser? = some p')
    (hs' : ∀ tok, Event.stackOverflow tok ∉ p'.trace) : noSyntaxError p'.trace = noSyntaxError p.trace := by
  have hsf : noSelfFallback ds = true := by
    unfold noSelfFallback
    rw [List.all_eq_true] at hk ⊢
    intro d hd
    have := hk d hd
    cases d <;> first | rfl | cases this
  have hsf' : noSelfFallback ds' = true := by rw [← noSelf_perm hd.perm]; exact hsf
  have hρ := names_shuffled ho ho' hd hsf hc hc'
  have hρ' := names_shuffled ho' ho hd.symm hsf' hc' hc
  obtain ⟨g0, h0⟩ := compile_reads hc
  obtain ⟨g0', h0'⟩ := compile_reads hc'
  have hsame := shuffled_alike (shuffled_like hd hst hsf h0) h0 h0'
  have hk' : ds'.all keepsTokens = true := by rw [← hd.perm.all_eq]; exact hk
  obtain ⟨R⟩ := run_exists hc
  obtain ⟨R'⟩ := run_exists hc'
  obtain ⟨_, _, _, hnm, hnd⟩ := C52_partial ho hc
  have hnd : t.tokenNames.Nodup := by
    rw [hnm, List.nodup_cons]
    exact ⟨by simp, hnd.map (fun a b h => by cases h; rfl)⟩
  have h1 := C68_partial ho hc hf hA hr hk R (noClash_of_noAssoc ho R hn) hP sem he hv h hp hs
  have h2 := C68_partial ho' hc' (hsame.flat'.1 hf) hA' (hsame.rootOk hd.perm hr) hk' R' (noClash_of_noAssoc ho' R' (by rw [← noAssoc_perm hd.perm]; exact hn))
    (productive_move hsame.trees hρ hP) sem he (by intro tok ht; obtain ⟨k, hk, rfl⟩ := List.mem_map.1 ht; exact hv' k hk) h' hp' hs'
  rw [Bool.eq_iff_iff, h1, h2]
  constructor
  · intro hb
    have := begins_move hsame.symm.trees hρ' hb
    rw [List.map_map] at this
    rw [List.map_congr_left (f := _ ∘ _) (g := id) fun k hk => ?_, List.map_id] at this
    · exact this
    · show ({ k with major := _ } : Tok V) = k
      rw [show renumber t'.tokenNames t.tokenNames (Tok.swap (renumber t.tokenNames t'.tokenNames) k).major = k.major from
        renumber_back hnd hρ hρ' (by rw [names_length ho hc]; exact (hv k hk).lt)]
  · exact begins_move hsame.trees hρ

/-! ## Examples -/

namespace C69ex
open Examples C01ex
open Tests (U L s r logSem)

/-- `Complex.sums` with the rules of `e` and of `f` turned round: `…; s ::= e; e ::= f; f ::= LP Neg?(A) e(B) RP { 1 }; e ::= e(A) Plus f(B) { 0 }; f ::= Num;` -/
def turned : List Decl :=
  [ .type false (U 2) (some (.named 0)), .type false (L 0) (some (.named 0)), .type false (L 1) (some (.named 0)), .type false (L 2) (some (.named 0))
  , .fallback (U 1) [U 3]
  , r (L 0) [s (L 1)], r (L 1) [s (L 2)], r (L 2) [s (U 4), s (U 5) true true, s (L 1) true, s (U 6)] (some 1)
  , r (L 1) [s (L 1) true, s (U 1), s (L 2) true] (some 0), r (L 2) [s (U 2)] ]

theorem sums_turned : Shuffled Complex.sums turned := by
  have h0 : Shuffled Complex.sums Complex.sums := .same
  have h1 := Shuffled.swap (l := [_, _, _, _, _, _]) h0 rfl
  have h2 := Shuffled.swap (l := [_, _, _, _, _, _, _, _]) h1 rfl
  exact Shuffled.swap (l := [_, _, _, _, _, _, _]) h2 rfl

theorem turned_ok : compile id turned = .ok (tablesOf turned) := compiles_iff (by decide +kernel)
theorem sums_ok : compile id Complex.sums = .ok (tablesOf Complex.sums) := compiles_iff (by decide +kernel)
theorem turned_apart : apartAll turned := apartAll_of OrdOk.id turned_ok (by decide +kernel) (by decide +kernel)
theorem sums_apart : apartAll Complex.sums := apartAll_of OrdOk.id sums_ok (by decide +kernel) (by decide +kernel)

-- the macro accepts the rules in either order, by `C69_success_partial`
example : ∃ t, compile id turned = .ok t :=
  (C69_success_partial OrdOk.id OrdOk.id sums_turned (by decide) (by decide) (by decide) (by decide) (by decide)).1 ⟨_, sums_ok⟩

/-- `Num(5) Plus LP Num(7) Plus Num(1) RP` -/
def input : List (Tok Int) := [⟨1, 5⟩, ⟨3, 0⟩, ⟨4, 0⟩, ⟨1, 7⟩, ⟨3, 0⟩, ⟨1, 1⟩, ⟨6, 0⟩]

theorem no_fallback : ∀ tok ∈ input, ∀ i, (tablesOf Complex.sums).tokenNames[tok.major]? = some (.ident i) → fallbackOf Complex.sums i = none := by
  intro tok ht i hi
  have : ∀ n ∈ input.map Tok.major, (match (tablesOf Complex.sums).tokenNames[n]? with | some (.ident i) => (fallbackOf Complex.sums i).isNone | _ => true) = true := by
    decide +kernel
  have := this _ (List.mem_map_of_mem ht)
  rw [hi] at this
  exact Option.isNone_iff_eq_none.1 this

-- all hypotheses of `C69_partial` are met, the rules have other numbers, and the result is the same: 5 + (1000 - (7 + 1))
example : ∃ p, AcceptedRun (tablesOf turned) sumsSem [] (input.map (Tok.swap (renumber (tablesOf Complex.sums).tokenNames (tablesOf turned).tokenNames))) p 997 ∧
    p.extra = [0, 1, 0] := by
  obtain ⟨p, h, he, _, _⟩ := acceptedB_iff (t := tablesOf Complex.sums) (m := sumsSem) (toks := input) (v := 997) (x := [0, 1, 0]) (by decide +kernel)
  obtain ⟨R⟩ := run_exists sums_ok
  obtain ⟨p', h1, h2⟩ := C69_partial OrdOk.id OrdOk.id sums_turned (by decide) sums_ok turned_ok R (noClash_of_noAssoc OrdOk.id R (by decide)) (by decide)
    (by decide) (sums_apart _ OrdOk.id) turned_apart (by decide) (by decide) (names_shuffled OrdOk.id OrdOk.id sums_turned (by decide) sums_ok turned_ok)
    sumsSem no_fallback h
  exact ⟨p', h1, h2.trans he⟩
example : (tablesOf turned).ruleInfo ≠ (tablesOf Complex.sums).ruleInfo := by decide +kernel

-- the other direction
example : (∃ p, AcceptedRun (tablesOf Complex.sums) sumsSem [] input p 997 ∧ p.extra = [0, 1, 0]) ↔
    ∃ p, AcceptedRun (tablesOf turned) sumsSem [] (input.map (Tok.swap (renumber (tablesOf Complex.sums).tokenNames (tablesOf turned).tokenNames))) p 997 ∧
      p.extra = [0, 1, 0] :=
  C69_iff_partial OrdOk.id OrdOk.id sums_turned (by decide) sums_ok turned_ok (by decide) (by decide) (by decide) sums_apart turned_apart (by decide) (by decide)
    sumsSem (fun tok ht => validB_iff (List.all_eq_true.1 (show input.all (validB (tablesOf Complex.sums) sumsSem) = true by decide +kernel) tok ht)) no_fallback

/-- `%type A; s ::= C; s ::= B A;` (numbers: A 1, C 2, B 3): two rows of the action table overlap -/
def cb : List Decl := [.type false (U 0) none, r (L 0) [s (U 2)], r (L 0) [s (U 1), s (U 0)]]
/-- `%type A; s ::= B A; s ::= C;` (numbers: A 1, B 2, C 3): no rows overlap -/
def bc : List Decl := [.type false (U 0) none, r (L 0) [s (U 1), s (U 0)], r (L 0) [s (U 2)]]
theorem cb_bc : Shuffled cb bc := Shuffled.swap (l := [_]) .same rfl
example : apart id cb = false ∧ apart id bc = true := by decide +kernel

/-- New tokens that suffice for both -/
def three : List Ident := [U 11, U 12, U 13]
theorem three_pads : Pads cb three ∧ Pads bc three := ⟨⟨by decide, by decide, by decide, by decide⟩, ⟨by decide, by decide, by decide, by decide⟩⟩

-- with three new tokens in front the parsers accept the same inputs, for example `B A` (numbers: 6 4)
example : (∃ p, AcceptedRun (tablesOf (front three ++ cb)) logSem [] (tk [6, 4]) p 0 ∧ p.extra = []) ↔
    ∃ p, AcceptedRun (tablesOf (front three ++ bc)) logSem []
      ((tk [6, 4]).map (Tok.swap (renumber (tablesOf (front three ++ cb)).tokenNames (tablesOf (front three ++ bc)).tokenNames))) p 0 ∧ p.extra = [] :=
  C69_cure_partial OrdOk.id OrdOk.id cb_bc (by decide) three_pads.1 three_pads.2 (compiles_iff (by decide +kernel)) (compiles_iff (by decide +kernel)) (by decide)
    (by decide) (by decide) (by decide) (by decide) logSem
    (fun tok ht => validB_iff (List.all_eq_true.1 (show (tk [6, 4]).all (validB (tablesOf (front three ++ cb)) logSem) = true by decide +kernel) tok ht))
    (by intro _ _ i _; unfold fallbackOf; simp [cb, r])
example : acceptedB (tablesOf (front three ++ cb)) logSem (tk [6, 4]) 0 [] = true := by decide +kernel

-- with precedences the order of two rules decides what is accepted, though no rows overlap
example : Shuffled C58ex.pq C58ex.qp ∧ apart id C58ex.pq = true ∧ apart id C58ex.qp = true ∧ C58ex.accepts C58ex.qp [5, 1, 3] = true ∧
    C58ex.accepts C58ex.pq [5, 1, 3] = false :=
  ⟨Shuffled.swap (l := [_, _, _, _, _, _]) .same rfl, by decide +kernel, by decide +kernel, by decide +kernel, by decide +kernel⟩

/-- `Expect.stars` with the last rule in the second place: `s ::= e Semi; t ::= t Star Num; e ::= t; t ::= Num;`; `Star` has number 2 now, and `Num` 3. -/
def stars' : List Decl := [r (L 0) [s (L 1), s (U 1)], r (L 2) [s (L 2), s (U 3), s (U 2)], r (L 1) [s (L 2)], r (L 2) [s (U 2)]]

theorem stars_stars' : Shuffled Expect.stars stars' :=
  .swap (l := [_]) (.swap (l := [_, _]) .same rfl) rfl

theorem stars'_ok : compile id stars' = .ok (tablesOf stars') := compiles_iff (by decide +kernel)

-- one parser reports the third token of `Num Star Star`, so the other one does, by `C69_notice_partial`
example : ∃ r p, feed (tablesOf stars') logSem 1000 (Parser.new logSem []) (tk [3, 2, 2]) = some r ∧ r.parser? = some p ∧ noSyntaxError p.trace = false := by
  obtain ⟨h1, r, p, h2, h3, h4, h5⟩ := Noticed.quiet_iff (t := tablesOf Expect.stars) (toks := tk [2, 3, 3]) (fails := true) (by decide +kernel)
  have e : (tk [2, 3, 3]).map (Tok.swap (renumber (tablesOf Expect.stars).tokenNames (tablesOf stars').tokenNames)) = tk [3, 2, 2] := by decide +kernel
  obtain ⟨r', hr', p', hp', ho'⟩ : ∃ r', feed (tablesOf stars') logSem 1000 (Parser.new logSem []) (tk [3, 2, 2]) = some r' ∧ ∃ p', r'.parser? = some p' ∧
      p'.trace.all (fun | .stackOverflow _ => false | _ => true) = true := by
    have : ((feed (tablesOf stars') logSem 1000 (Parser.new logSem []) (tk [3, 2, 2])).bind (·.parser?)).any
        (fun p => p.trace.all fun | .stackOverflow _ => false | _ => true) = true := by decide +kernel
    rw [Option.any_eq_true] at this
    obtain ⟨p', h, h'⟩ := this
    obtain ⟨r', a, b⟩ := Option.bind_eq_some_iff.1 h
    exact ⟨r', a, p', b, h'⟩
  refine ⟨r', p', hr', hp', ?_⟩
  rw [C69_notice_partial OrdOk.id OrdOk.id stars_stars' (by decide) Noticed.stars_ok stars'_ok (by decide) (by decide +kernel) (by decide +kernel) (by decide)
    (by decide) (by decide) Expect.stars_productive logSem Noticed.noErr h1 ?_ h2 h3 h5 (e ▸ hr') hp' ?_, h4]
  · rfl
  · intro tok ht
    have : (tk [2, 3, 3]).all (fun tok => validB (tablesOf stars') logSem (tok.swap (renumber (tablesOf Expect.stars).tokenNames (tablesOf stars').tokenNames))) = true := by
      decide +kernel
    exact validB_iff (List.all_eq_true.1 this tok ht)
  · intro tok hm
    have := List.all_eq_true.1 ho' _ hm
    cases this

end C69ex

/-- C69 fails: `%type A; s ::= C; s ::= B A;` gives a parser that accepts `B` alone (as in C01), and `%type A; s ::= B A; s ::= C;` one that does not. -/
theorem C69_false : ¬ C69_statement := by
  intro h
  obtain ⟨p, hp, _⟩ := C01ex.acceptedB_iff (t := Examples.tablesOf C69ex.cb) (m := Tests.logSem) (toks := Examples.tk [3]) (v := 0) (x := []) (by decide +kernel)
  have hc := Examples.compiles_iff (ds := C69ex.cb) (by decide +kernel)
  have hc' := Examples.compiles_iff (ds := C69ex.bc) (by decide +kernel)
  obtain ⟨t', ht', h1⟩ := h id id OrdOk.id OrdOk.id _ _ C69ex.cb_bc (by decide) (by decide) _ hc
  have : t' = Examples.tablesOf C69ex.bc := Except.ok.inj (ht'.symm.trans hc')
  subst this
  obtain ⟨p', ⟨_, ⟨n, hn⟩, _⟩, _⟩ := h1 _ (names_shuffled OrdOk.id OrdOk.id C69ex.cb_bc (by decide) hc hc') _ _ _ _ _ hp
  have h1 := runAll_mono hn (Nat.le_add_right n 1000)
  have h2 : ∃ r, runAll (Examples.tablesOf C69ex.bc) Tests.logSem 1000 []
      ((Examples.tk [3]).map (Tok.swap (renumber (Examples.tablesOf C69ex.cb).tokenNames (Examples.tablesOf C69ex.bc).tokenNames))) = some r ∧
      (match r with | .ok _ _ => false | _ => true) = true := by decide +kernel
  obtain ⟨r, h2, h3⟩ := h2
  rw [runAll_mono h2 (Nat.le_add_left 1000 n)] at h1
  cases h1
  cases h3

end Pomelo
