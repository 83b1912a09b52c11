import Verif.Proofs.Unique
import Verif.Proofs.RulePrec
import Verif.Proofs.Root
/-! # Grammars without conflicts, and grammars without precedences -/

namespace Pomelo

open Spec

variable {V : Type} {g : Grammar} {sts : List LState}

theorem canShift_terminal {q k : StateId} {a : SymbolId} (hk : (g.sym a).kind = .terminal) (h : g.CanShift sts q a k) :
    ∃ X, g.Trans sts q X k ∧ Reads g X a := by
  obtain ⟨X, h1, h2⟩ := h
  refine ⟨X, h1, ?_⟩
  by_cases hX : (g.sym X).kind = .nonTerminal
  · rw [mem_shiftActions] at h2
    rcases h2.2 with ⟨h3, _⟩ | ⟨_, h3⟩
    · rw [hX] at h3; cases h3
    · simp only at h3; rw [h3, hX] at hk; cases hk
  · exact (reads_iff hX).1 h2

theorem NoClash.settled (hi : GInv g) (ha : Auto g sts) {acts : List (List Action)} (hsp : ActsSpec g sts acts) (h : NoClash g) : g.Settled sts := by
  refine ⟨?_, ?_, ?_⟩
  · intro q a k r h1 h2
    obtain ⟨X, h3, h4⟩ := canShift_terminal h2.2.1 h1
    obtain ⟨γ, hp⟩ := ha.exists_path q h3.src
    exact h.shiftReduce ((shiftsOn_iff hi ha hp).2 ⟨⟨k, h3⟩, h4⟩) ((reducesOn_iff hi ha hp).2 h2)
  · intro q a r r' h1 h2
    obtain ⟨γ, hp⟩ := ha.exists_path q (canReduce_rule hi ha h1).2.1
    exact h.reduceReduce ((reducesOn_iff hi ha hp).2 h1) ((reducesOn_iff hi ha hp).2 h2)
  · intro q a k k' hk h1 h2
    obtain ⟨X, h3, h4⟩ := h1
    obtain ⟨sh, rd, e1, _, e3⟩ := hsp.out q h3.src a (.inr (by
      intro e; rw [e, hi.start_kind.1] at hk; cases hk))
    have hlen := e3.short
    have m1 := (e1 k).2 ⟨X, h3, h4⟩
    have m2 := (e1 k').2 h2
    match sh, hlen with
    | [x], _ => simp only [List.mem_singleton] at m1 m2; rw [m1, m2]

/-! ## Without a wildcard -/

theorem wildAlone_of_none (h : g.wildcard = none) : WildAlone g := by
  constructor
  · intro w hw; rw [h] at hw; cases hw
  · intro w γ a r r' hw; rw [h] at hw; cases hw

/-! ## Without precedences -/

theorem precOf_none {ds : List Decl} (h : noAssoc ds = true) (i : Ident) : precOf ds i = none := by
  unfold precOf
  generalize 0 = n
  unfold noAssoc at h
  induction ds generalizing n with
  | nil => rfl
  | cons d ds ih =>
    rw [List.all_cons, Bool.and_eq_true] at h
    cases d with
    | assoc a ids => cases h.1
    | _ => exact ih h.2 n

section
variable {ord : List (SymbolId × SymbolId) → List (SymbolId × SymbolId)} {ds : List Decl}

theorem noAssoc_noClash (ho : OrdOk ord) {g0 g : Grammar} {sts : List LState} (h0 : newFromDecls ds = .ok g0)
    (h : g0.automaton ord = .ok (g, sts)) {acts : List (List Action)} (hf : g.findActions sts = .ok (acts, 0)) (hna : noAssoc ds = true) : NoClash g := by
  obtain ⟨b⟩ := bridge ho h0 h
  have hi := GInv.automaton h0 ho h
  have ha := automaton_auto ho h0 h
  have hn : ∀ r, (g.rule r).precedence = none := by
    intro r
    cases hp : (g.rule r).precedence with
    | none => rfl
    | some p =>
      obtain ⟨i, hi⟩ := b.rule_prec hp
      rw [precOf_none hna] at hi; cases hi
  have hno : ∀ γ a, ¬ Unsettled g γ a := by
    intro γ a hu
    obtain ⟨r, r', p, q, _, _, _, h1, _⟩ := findActions_good hi ha b.levels b.noStart hf hu
    rw [hn] at h1; cases h1
  refine ⟨fun h1 h2 => hno _ _ (.shiftReduce h1 h2 (.inr (hn _))), ?_⟩
  intro γ a r r' h1 h2
  by_contra hne
  exact hno _ _ (.reduceReduce h1 h2 hne (.inl (hn _)))

/-! ## Trees in which tokens stand for themselves -/

variable {t : Tables} {s : CSpec ord ds t}

theorem own_rules : rulesOf (ownTokens ds) = rulesOf ds := by
  unfold rulesOf ownTokens
  induction ds with
  | nil => rfl
  | cons d ds ih => cases d <;> simp [List.filter_cons, keepsTokens, ih]

theorem own_startOf : startOf (ownTokens ds) = startOf ds := by
  unfold startOf
  rw [own_rules]
  congr 1
  unfold startDirective ownTokens
  induction ds with
  | nil => rfl
  | cons d ds ih => cases d <;> simp [List.filter_cons, keepsTokens, ih]

theorem own_isClass (i : Ident) : isClass (ownTokens ds) i = isClass ds i := by
  unfold isClass ownTokens
  induction ds with
  | nil => rfl
  | cons d ds ih => cases d <;> simp [List.filter_cons, keepsTokens, ih]

theorem own_classMembers (i : Ident) : classMembers (ownTokens ds) i = classMembers ds i := by
  unfold classMembers ownTokens
  induction ds with
  | nil => rfl
  | cons d ds ih => cases d <;> simp [List.filter_cons, keepsTokens, ih]

theorem own_fallback (i : Ident) : fallbackOf (ownTokens ds) i = none := by
  unfold fallbackOf ownTokens
  induction ds with
  | nil => rfl
  | cons d ds ih => cases d <;> simp [List.filter_cons, keepsTokens, ih]

theorem own_wildcard : wildcardOf (ownTokens ds) = none := by
  unfold wildcardOf ownTokens
  induction ds with
  | nil => rfl
  | cons d ds ih => cases d <;> simp [List.filter_cons, keepsTokens, ih]

theorem own_typeOf (i : Ident) : typeOf (ownTokens ds) i = typeOf ds i := by
  unfold typeOf ownTokens
  induction ds with
  | nil => rfl
  | cons d ds ih =>
    cases d <;> simp only [List.filter_cons, keepsTokens, if_true, if_false, List.findSome?_cons, ih, Bool.false_eq_true]

theorem own_extraToken : extraTokenOf (ownTokens ds) = extraTokenOf ds := by
  unfold extraTokenOf ownTokens
  induction ds with
  | nil => rfl
  | cons d ds ih => cases d <;> simp [List.filter_cons, keepsTokens, ih]

theorem own_matches {e : RhsElem} {j : Ident} : Matches (ownTokens ds) e j ↔ Matches ds e j := by
  unfold Matches
  split
  · rw [own_isClass, own_classMembers]
  · exact Iff.rfl

theorem own_taken {i j : Ident} (h : TakenFor (ownTokens ds) i j) : i = j := by
  cases h with
  | self => rfl
  | fallback h => rw [own_fallback] at h; cases h
  | wildcard h => rw [own_wildcard] at h; cases h

/-- Trees of the grammar in which tokens stand for themselves are trees of the grammar. -/
theorem own_fits {names : List SymName} {ts : List (Tree V)} {es : List RhsElem} (h : Spec.Fits (ownTokens ds) names ts es) : Spec.Fits ds names ts es := by
  induction h with
  | nil => exact .nil
  | tok h1 h2 h3 _ ih => cases own_taken h2; exact .tok h1 .self (own_matches.1 h3) ih
  | absent _ ih => exact .absent ih
  | present _ _ ih1 ih2 => exact .present ih1 ih2
  | rule h _ _ ih1 ih2 => exact .rule (own_rules ▸ h) ih1 ih2

theorem CSpec.token (s : CSpec ord ds t) (hi : GInv s.g) {n : Nat} (h0 : 0 < n) (hn : n < t.numTerminals) :
    ∃ a, a < s.g.syms.length ∧ (s.g.sym a).kind = .terminal ∧ (s.g.sym a).index = n ∧ a ≠ 0 := by
  rw [s.numTerminals] at hn
  obtain ⟨_, h2, h3⟩ := hi.nterm
  obtain ⟨h4, h5⟩ := hi.index n (by omega)
  refine ⟨_, h4, (hi.term _ h4).2 (by rw [h5]; exact hn), h5, ?_⟩
  intro e
  rw [e, hi.dollar.2.2] at h5
  omega

theorem CSpec.tokenName (s : CSpec ord ds t) (hi : GInv s.g) {a : SymbolId} (ha : a < s.g.syms.length) (hk : (s.g.sym a).kind = .terminal) :
    t.tokenNames[(s.g.sym a).index]? = some (s.g.sym a).name := by
  have hsh := s.gen.shape
  have h1 := (hi.term a ha).1 hk
  obtain ⟨p1, p2⟩ := hi.perm a ha
  rw [s.gen.tokenNames, List.getElem?_map, hsh.nterm, hsh.symbols, List.getElem?_take, if_pos h1]
  have hlt : (s.g.sym a).index < s.g.symbols.length := by rw [hi.slen]; exact p1
  rw [List.getElem?_eq_getElem hlt]
  rw [getD_of_lt hlt] at p2
  rw [p2]
  simp only [Option.map_some, hsh.name]

/-- Every derivation tree in which tokens stand for themselves is that of a tree over the numbered rules. -/
theorem CSpec.unconv (s : CSpec ord ds t) (ho : OrdOk ord) (hinv : GInv s.g) (b : Bridge ord ds s.g) {ts : List (Tree V)} {es : List RhsElem}
    (h : Spec.Fits (ownTokens ds) t.tokenNames ts es) :
    (∀ tok ∈ Tree.yields ts, 0 < tok.major) → ∀ γ, (∀ X ∈ γ, X < b.gD.syms.length) → List.Forall₂ (ElemSym b.gD) es γ →
      ∃ gs, s.g.Plain gs γ ∧ GTree.toTrees (rulesOf ds).length gs = ts ∧ GTree.yields gs = Tree.yields ts := by
  induction h with
  | nil => intro _ γ _ h; cases h; exact ⟨[], .nil, rfl, rfl⟩
  | @tok tok i j e ts es h1 h2 h3 _ ih =>
    intro hp γ hlt hes
    cases hes with
    | @cons _ Y _ γ he hes =>
      obtain ⟨gs, g1, g2, g3⟩ := ih (fun x hx => hp x (by simp only [Tree.yields, List.mem_append]; exact .inr hx)) γ (fun X hX => hlt X (List.mem_cons_of_mem _ hX)) hes
      have h0 : 0 < tok.major := hp tok (by simp [Tree.yields, Tree.yield])
      have hmaj : tok.major < t.numTerminals := by
        have hl := (List.getElem?_eq_some_iff.1 h1).1
        rw [s.gen.tokenNames, List.length_map, List.length_take] at hl
        rw [s.gen.numTerminals]
        omega
      obtain ⟨a, ha, hk, hi, ha0⟩ := s.token hinv h0 hmaj
      have hna := s.tokenName hinv ha hk
      rw [hi, h1] at hna
      have hna := (Option.some.inj hna).symm
      have haD : a < b.gD.syms.length := b.dropped hinv ha (by rw [hna]; simp)
      rw [b.name haD] at hna
      have hti : (b.gD.sym a).name.isTok = true := by
        have hkk := hinv.kinds a ha
        rw [hk, b.name haD, hna] at hkk
        rw [hna]
        cases i <;> simp [kindOk] at hkk ⊢
        rfl
      cases own_taken h2
      refine ⟨.leaf tok :: gs, .leaf ha hk ha0 hi.symm ((b.reads_matches (hlt Y List.mem_cons_self) he haD hna hti).2 (own_matches.1 h3)) g1, ?_, by simp only [GTree.yields, GTree.yield, Tree.yields, Tree.yield, g3]⟩
      simp only [GTree.toTrees, GTree.toTree, g2]
  | @absent i al ts es _ ih =>
    intro hp γ hlt hes
    cases hes with
    | @cons _ Y _ γ he hes =>
      obtain ⟨gs, g1, g2, g3⟩ := ih (fun x hx => hp x (by simp only [Tree.yields, List.mem_append]; exact .inr hx)) γ (fun X hX => hlt X (List.mem_cons_of_mem _ hX)) hes
      rcases he with ⟨tok, e1, e2, e3⟩ | ⟨tok, symR, e1, e2, e3, e4, e5⟩ | ⟨e1, e2, e3⟩
      · cases e2
      · obtain ⟨⟨r, r1, r2, r3, r4, _⟩, _⟩ := b.opt_rules ho e4
        have hsy : s.g.rhsSyms r = [] := by unfold Grammar.rhsSyms; rw [r4]; rfl
        refine ⟨.node r [] :: gs, ?_, ?_, by simp only [GTree.yields, GTree.yield, Tree.yields, Tree.yield, g3]⟩
        · have := Grammar.Plain.node (V := V) (g := s.g) r1 (by rw [hsy]; exact .nil) g1
          rwa [r3] at this
        · simp only [GTree.toTrees, GTree.toTree, g2]
          rw [if_neg (Nat.not_lt_of_le r2)]
      · exact absurd rfl (e1 i)
  | @present t0 i al ts es _ _ ihk ih =>
    intro hp γ hlt hes
    cases hes with
    | @cons _ Y _ γ he hes =>
      obtain ⟨gs, g1, g2, g3⟩ := ih (fun x hx => hp x (by simp only [Tree.yields, List.mem_append]; exact .inr hx)) γ (fun X hX => hlt X (List.mem_cons_of_mem _ hX)) hes
      rcases he with ⟨tok, e1, e2, e3⟩ | ⟨tok, symR, e1, e2, e3, e4, e5⟩ | ⟨e1, e2, e3⟩
      · cases e2
      · obtain ⟨_, ⟨r, r1, r2, r3, r4, _⟩⟩ := b.opt_rules ho e4
        have hsy : s.g.rhsSyms r = [symR] := by unfold Grammar.rhsSyms; rw [r4]; rfl
        obtain ⟨ks, k1, k2, k3⟩ := ihk (fun x hx => hp x (by
          simp only [Tree.yields, Tree.yield, List.mem_append, List.append_nil] at hx ⊢; exact .inl hx)) [symR] (by simpa using e3) (.cons (.inl ⟨tok, e1, rfl, e5⟩) .nil)
        refine ⟨.node r ks :: gs, ?_, ?_, by simp only [GTree.yields, GTree.yield, Tree.yields, Tree.yield, g3, k3, List.append_nil]⟩
        · have := Grammar.Plain.node (V := V) (g := s.g) r1 (by rw [hsy]; exact k1) g1
          rwa [r3] at this
        · simp only [GTree.toTrees, GTree.toTree, g2, k2]
          rw [if_neg (Nat.not_lt_of_le r2)]
      · exact absurd rfl (e1 i)
  | @rule n u kids al ts es hu _ _ ihk ih =>
    intro hp γ hlt hes
    cases hes with
    | @cons _ Y _ γ he hes =>
      obtain ⟨gs, g1, g2, g3⟩ := ih (fun x hx => hp x (by simp only [Tree.yields, List.mem_append]; exact .inr hx)) γ (fun X hX => hlt X (List.mem_cons_of_mem _ hX)) hes
      rw [own_rules] at hu
      obtain ⟨w0, w1, w2, w3, w4, _⟩ := b.written ho hu
      rcases he with ⟨tok, e1, e2, e3⟩ | ⟨tok, symR, e1, e2, e3, e4, e5⟩ | ⟨e1, e2, e3⟩
      · obtain ⟨ks, k1, k2, k3⟩ := ihk (fun x hx => hp x (by simp only [Tree.yields, Tree.yield, List.mem_append]; exact .inl hx)) (s.g.rhsSyms n) w4 w3
        simp only [List.cons.injEq, and_true] at e1
        have hYn : Y = (s.g.rule n).lhs := b.dinv.names _ _ (hlt Y List.mem_cons_self) w1 (by rw [e3, w2, e1]) (by rw [e3]; simp)
        refine ⟨.node n ks :: gs, ?_, ?_, by simp only [GTree.yields, GTree.yield, Tree.yields, Tree.yield, g3, k3]⟩
        · rw [hYn]; exact .node w0 k1 g1
        · simp only [GTree.toTrees, GTree.toTree, g2, k2]
          rw [if_pos (List.getElem?_eq_some_iff.1 hu).1]
      · cases e2
      · exact absurd rfl (e1 u.lhs)

/-- The same for a derivation tree of the start symbol -/
theorem CSpec.unconv_root (s : CSpec ord ds t) (ho : OrdOk ord) {T : Tree V} (h : IsOwnTree ds t.tokenNames T) (hp : ∀ tok ∈ T.yield, 0 < tok.major) :
    ∃ gt, s.g.Plain [gt] [s.g.start.getD 0] ∧ GTree.toTrees (rulesOf ds).length [gt] = [T] ∧ gt.yield = T.yield := by
  obtain ⟨b⟩ := bridge ho s.decls s.auto
  have hi := s.ginv ho
  obtain ⟨i, h1, h2⟩ := h
  rw [own_startOf] at h1
  obtain ⟨x, j, e1, e2, e3, e4, _⟩ := b.start_name hi
  rw [h1] at e4
  cases e4
  obtain ⟨gs, g1, g2, g3⟩ := s.unconv ho hi b h2 (by simpa [Tree.yields] using hp) [x] (by simpa using e2) (.cons (.inl ⟨i, rfl, rfl, e3⟩) .nil)
  rw [e1, Option.getD_some]
  have hy : ∀ gt, gs = [gt] → gt.yield = T.yield := by rintro gt rfl; simpa [GTree.yields, Tree.yields] using g3
  cases g1 with
  | leaf a1 a2 a3 a4 a5 a6 => cases a6; exact ⟨_, .leaf a1 a2 a3 a4 a5 .nil, g2, hy _ rfl⟩
  | node a1 a2 a3 => cases a3; exact ⟨_, .node a1 a2 .nil, g2, hy _ rfl⟩

end

end Pomelo
