import Verif.Proofs.OpTrees
import Verif.Proofs.Early
import Verif.Proofs.Root
/-! # The grammars of `Spec.operators`, numbered -/

namespace Pomelo

open Spec

/-! ## Lists -/

theorem filter_one {α : Type} {p : α → Bool} : ∀ {l : List α}, (l.filter p).length = 1 →
    ∃ (i : Nat) (u : α), l[i]? = some u ∧ p u = true ∧ ∀ (j : Nat) (v : α), l[j]? = some v → p v = true → j = i
  | [], h => by simp at h
  | x :: l, h => by
    by_cases hx : p x = true
    · rw [List.filter_cons_of_pos hx, List.length_cons] at h
      have h0 : (l.filter p).length = 0 := Nat.succ.inj h
      refine ⟨0, x, rfl, hx, ?_⟩
      intro j v hj hv
      cases j with
      | zero => rfl
      | succ j =>
        have : v ∈ l.filter p := List.mem_filter.2 ⟨List.mem_of_getElem? (by simpa using hj), hv⟩
        rw [List.eq_nil_of_length_eq_zero h0] at this
        cases this
    · rw [List.filter_cons_of_neg hx] at h
      obtain ⟨i, u, h1, h2, h3⟩ := filter_one h
      refine ⟨i + 1, u, by simpa using h1, h2, ?_⟩
      intro j v hj hv
      cases j with
      | zero =>
        simp at hj
        rw [← hj] at hv
        exact absurd hv hx
      | succ j => rw [h3 j v (by simpa using hj) hv]

theorem allPairs_get {α : Type} {f : α → α → Bool} {q : α → Bool} : ∀ {l : List α}, allPairs f (l.filter q) = true → ∀ {i j : Nat} {u v : α},
    l[i]? = some u → l[j]? = some v → q u = true → q v = true → i < j → f u v = true
  | [], _, i, j, u, v, hu, _, _, _, _ => by simp at hu
  | x :: l, h, i, j, u, v, hu, hv, qu, qv, hij => by
    cases j with
    | zero => omega
    | succ j =>
      have hv' : l[j]? = some v := by simpa using hv
      cases i with
      | zero =>
        simp at hu
        subst hu
        rw [List.filter_cons_of_pos qu, allPairs, Bool.and_eq_true, List.all_eq_true] at h
        exact h.1 v (List.mem_filter.2 ⟨List.mem_of_getElem? hv', qv⟩)
      | succ i =>
        have h' : allPairs f (l.filter q) = true := by
          rw [List.filter_cons] at h
          split at h
          · rw [allPairs, Bool.and_eq_true] at h; exact h.2
          · exact h
        exact allPairs_get h' (by simpa using hu) hv' qu qv (by omega)

theorem spaced_get {e : Ident} : ∀ {l : List RhsElem}, Spec.spaced e l = true → ∀ {d : Nat} {x y : RhsElem}, l[d]? = some x → l[d + 1]? = some y →
    ¬ (operand e x = true ∧ operand e y = true)
  | [], _, _, _, _, hx, _ => by simp at hx
  | [_], _, _, _, _, _, hy => by simp at hy
  | x :: y :: l, h, d, x', y', hx, hy => by
    rw [Spec.spaced, Bool.and_eq_true] at h
    cases d with
    | zero =>
      simp at hx hy
      subst hx hy
      rintro ⟨h1, h2⟩
      rw [h1, h2] at h
      simp at h
    | succ d => exact spaced_get h.2 (by simpa using hx) (by simpa using hy)

theorem innerAfter_get {e : Ident} : ∀ {l : List RhsElem} {d : Nat} {x y : RhsElem}, l[d]? = some x → l[d + 1]? = some y → operand e x = true → y ∈ innerAfter e l
  | [], _, _, _, hx, _, _ => by simp at hx
  | [_], _, _, _, _, hy, _ => by simp at hy
  | x :: y :: l, d, x', y', hx, hy, ho => by
    rw [innerAfter]
    cases d with
    | zero =>
      simp at hx hy
      subst hx hy
      rw [if_pos ho]
      exact List.mem_cons_self
    | succ d =>
      have := innerAfter_get (l := y :: l) (d := d) (by simpa using hx) (by simpa using hy) ho
      split
      · exact List.mem_cons_of_mem _ this
      · exact this

/-! ## What `operators` says -/

/-- `Spec.operators` by positions -/
structure OpD (ds : List Decl) (s e : Ident) (n0 : Nat) : Prop where
  start : startOf ds = some s
  ne : s ≠ e
  nt : e.isTerminal = false
  noErr : e ≠ .error
  root : ∃ (u : URule) (x : RhsElem), (rulesOf ds)[n0]? = some u ∧ u.lhs = s ∧ u.rhs = [x] ∧ operand e x = true
  only : ∀ {n : Nat} {u : URule}, (rulesOf ds)[n]? = some u → u.lhs = s → n = n0
  elems : ∀ {n : Nat} {u : URule}, (rulesOf ds)[n]? = some u → u.lhs = e → ∀ x ∈ u.rhs, operand e x = true ∨ tokenElem x = true
  token : ∀ {n : Nat} {u : URule}, (rulesOf ds)[n]? = some u → u.lhs = e → ∃ x ∈ u.rhs, operand e x = false
  spaced : ∀ {n : Nat} {u : URule}, (rulesOf ds)[n]? = some u → u.lhs = e → Spec.spaced e u.rhs = true
  clear : ∀ {n n' : Nat} {u v : URule}, (rulesOf ds)[n]? = some u → (rulesOf ds)[n']? = some v → u.lhs = e → v.lhs = e → n ≠ n' → opClear e u v = true
  inner : ∀ {n n' : Nat} {u v : URule}, (rulesOf ds)[n]? = some u → (rulesOf ds)[n']? = some v → u.lhs = e → v.lhs = e → innerClear ds e u v = true

theorem opClear_symm {e : Ident} {u v : URule} (h : opClear e u v = true) : opClear e v u = true := by
  unfold opClear at h ⊢
  rw [Bool.or_eq_true] at h ⊢
  rcases h with h | h
  · left
    rw [bne_iff_ne] at h ⊢
    exact fun h' => h h'.symm
  · right
    revert h
    cases operator e u <;> cases operator e v <;> simp
    intro h h'; exact h h'.symm

theorem operators_opD {ds : List Decl} {s e : Ident} (h : operators ds s e = true) : ∃ n0, OpD ds s e n0 := by
  unfold operators at h
  simp only [Bool.and_eq_true, beq_iff_eq, bne_iff_ne, Bool.not_eq_true'] at h
  obtain ⟨⟨⟨⟨⟨⟨⟨h1, h2⟩, h3⟩, h4⟩, h5⟩, h6⟩, h7⟩, h8⟩ := h
  obtain ⟨n0, u0, a1, a2, a3⟩ := filter_one h6
  simp only [beq_iff_eq] at a2 a3
  rw [List.all_eq_true] at h5
  have hop : ∀ {n : Nat} {u : URule}, (rulesOf ds)[n]? = some u → u.lhs = e → opRule e u = true := by
    intro n u hu he
    have := h5 u (List.mem_of_getElem? hu)
    rwa [if_neg (by rw [he]; simpa using fun h' => h2 h'.symm)] at this
  have hne : ∀ {u : URule}, u.lhs = e → (u.lhs != s) = true := by
    intro u hu
    rw [hu]
    simpa using fun h' => h2 h'.symm
  refine ⟨n0, ⟨h1, h2, h3, h4, ?_, fun hu hl => a3 _ _ hu hl, ?_, ?_, ?_, ?_, ?_⟩⟩
  · have := h5 u0 (List.mem_of_getElem? a1)
    rw [if_pos (by simpa using a2)] at this
    split at this
    · rename_i x hx
      exact ⟨u0, x, a1, a2, hx, this⟩
    · cases this
  · intro n u hu he x hx
    have := hop hu he
    unfold opRule at this
    simp only [Bool.and_eq_true, List.all_eq_true, Bool.or_eq_true] at this
    exact this.1.1.2 x hx
  · intro n u hu he
    have := hop hu he
    unfold opRule at this
    simp only [Bool.and_eq_true, List.any_eq_true, Bool.not_eq_true'] at this
    exact this.1.2
  · intro n u hu he
    have := hop hu he
    unfold opRule at this
    simp only [Bool.and_eq_true] at this
    exact this.2
  · intro n n' u v hu hv eu ev hnn
    rcases Nat.lt_or_gt_of_ne hnn with hlt | hlt
    · exact allPairs_get h7 hu hv (hne eu) (hne ev) hlt
    · exact opClear_symm (allPairs_get h7 hv hu (hne ev) (hne eu) hlt)
  · intro n n' u v hu hv eu ev
    rw [List.all_eq_true] at h8
    have := h8 u (List.mem_filter.2 ⟨List.mem_of_getElem? hu, hne eu⟩)
    rw [List.all_eq_true] at this
    exact this v (List.mem_filter.2 ⟨List.mem_of_getElem? hv, hne ev⟩)

/-! ## The numbered grammar -/

namespace Bridge0
variable {ord : List (SymbolId × SymbolId) → List (SymbolId × SymbolId)} {ds : List Decl} {g : Grammar}

theorem tokenElem_kind (b : Bridge0 ord ds g) {x : RhsElem} {X : SymbolId} (hX : X < b.gD.syms.length) (h : ElemSym b.gD x X) (ht : tokenElem x = true) :
    (b.gD.sym X).name.isNt = false ∧ (b.gD.sym X).kind ≠ .nonTerminal := by
  have hk := b.dinv.kinds X hX
  unfold tokenElem at ht
  rcases h with ⟨tok, h1, h2, h3⟩ | ⟨tok, symR, h1, h2, h3, h4, h5⟩ | ⟨h1, h2, h3⟩
  · rw [h1] at ht
    simp only [h2, Bool.not_false, Bool.true_and] at ht
    rw [h3] at hk ⊢
    cases tok with
    | upper n =>
      refine ⟨rfl, ?_⟩
      intro h; rw [h] at hk; cases hk
    | _ => cases ht
  · rw [h1] at ht
    simp [h2] at ht
  · rw [h2] at hk ⊢
    refine ⟨rfl, ?_⟩
    intro h; rw [h] at hk; cases hk

/-- Elements recorded as the same symbol are the same. -/
theorem elem_toks (b : Bridge0 ord ds g) {x y : RhsElem} {X : SymbolId} (hx : ElemSym b.gD x X) (hy : ElemSym b.gD y X) (tx : tokenElem x = true) (ty : tokenElem y = true) : x.toks = y.toks := by
  have aux : ∀ {x : RhsElem}, ElemSym b.gD x X → tokenElem x = true → ((∃ tok, x.toks = [tok] ∧ (b.gD.sym X).name = .ident tok) ∨
      ((b.gD.sym X).name = .anon ∧ x.toks.map SymName.ident = (b.gD.sym X).subs.map (fun c => (b.gD.sym c).name))) := by
    intro x h ht
    unfold tokenElem at ht
    rcases h with ⟨tok, h1, h2, h3⟩ | ⟨tok, symR, h1, h2, h3, h4, h5⟩ | ⟨h1, h2, h3⟩
    · exact .inl ⟨tok, h1, h3⟩
    · rw [h1] at ht
      simp [h2] at ht
    · refine .inr ⟨h2, ?_⟩
      generalize (b.gD.sym X).subs = l at h3
      generalize x.toks = l' at h3
      clear * - h3
      induction h3 with
      | nil => rfl
      | cons h _ ih => simp only [List.map_cons, ih, h.2]
  rcases aux hx tx with ⟨i, h1, h2⟩ | ⟨h1, h2⟩ <;> rcases aux hy ty with ⟨j, k1, k2⟩ | ⟨k1, k2⟩
  · rw [h2] at k2
    cases k2
    rw [h1, k1]
  · rw [h2] at k1; cases k1
  · rw [h1] at k2; cases k2
  · have := h2.trans k2.symm
    clear * - this
    generalize x.toks = l at this
    generalize y.toks = l' at this
    induction l generalizing l' with
    | nil =>
      cases l' with
      | nil => rfl
      | cons => cases this
    | cons a l ih =>
      cases l' with
      | nil => cases this
      | cons a' l' =>
        simp only [List.map_cons, List.cons.injEq, SymName.ident.injEq] at this
        rw [this.1, ih l' this.2]

/-- The name of a token -/
theorem terminal_name (b : Bridge0 ord ds g) (hi : GInv g) {a : SymbolId} (ha : a < g.syms.length) (hk : (g.sym a).kind = .terminal) (h0 : a ≠ 0) :
    a < b.gD.syms.length ∧ ∃ i, (b.gD.sym a).name = .ident i ∧ (b.gD.sym a).name.isTok = true := by
  have had : a < b.gD.syms.length := by
    refine b.dropped hi ha ?_
    intro hn
    have hk' := hi.kinds a ha
    rw [hk, hn] at hk'
    cases hk'
  refine ⟨had, ?_⟩
  have hkD := b.kind had
  rw [hk] at hkD
  have hkk := b.dinv.kinds a had
  rw [← hkD] at hkk
  cases hn : (b.gD.sym a).name with
  | ident i =>
    rw [hn] at hkk
    refine ⟨i, rfl, ?_⟩
    cases i <;> first | rfl | cases hkk
  | dollar =>
    exfalso
    have two := b.dinv.two
    exact h0 (b.dinv.names a 0 had (by omega) (by rw [hn, b.dinv.dollar]) (by rw [hn]; simp))
  | dflt => rw [hn] at hkk; cases hkk
  | opt k => rw [hn] at hkk; cases hkk
  | anon => rw [hn] at hkk; cases hkk

theorem matches_elemToks {x : RhsElem} {j : Ident} (h : Matches ds x j) : j ∈ elemToks ds x := by
  unfold Matches at h
  unfold elemToks
  split at h
  · rename_i i hi
    rw [hi]
    simp only
    obtain ⟨_, h⟩ := h
    split at h
    · rename_i hc; rw [if_pos hc]; exact h
    · rename_i hc; rw [if_neg hc, h]; exact List.mem_singleton.2 rfl
  · rename_i hne
    split
    · rename_i i hi; exact absurd hi (hne i)
    · exact h

/-- The grammar of `Spec.operators`, numbered -/
theorem opG (ho : OrdOk ord) (b : Bridge0 ord ds g) (hi : GInv g) {s e : Ident} {n0 : Nat} (D : OpD ds s e n0) :
    ∃ S eS, OpG g S eS n0 ∧ eS < b.gD.syms.length ∧ (b.gD.sym eS).name = .ident e ∧ ∀ r, RuleOf g eS r → ∃ u, (rulesOf ds)[r]? = some u ∧ u.lhs = e := by
  obtain ⟨S, i, s1, s2, s3, s4, s5⟩ := b.start_name hi
  rw [D.start] at s4
  cases s4
  obtain ⟨u0, x0, r1, r2, r3, r4⟩ := D.root
  obtain ⟨w1, w2, w3, w4, w5, _⟩ := b.written ho r1
  rw [r3] at w4
  obtain ⟨eS, hrhs, hx0⟩ : ∃ eS, g.rhsSyms n0 = [eS] ∧ ElemSym b.gD x0 eS := by
    revert w4
    cases g.rhsSyms n0 with
    | nil => intro h; cases h
    | cons X l =>
      intro h
      cases h with
      | cons h1 h2 =>
        cases h2
        exact ⟨X, rfl, h1⟩
  have heS : eS < b.gD.syms.length := w5 eS (by rw [hrhs]; simp)
  have opn : ∀ {x : RhsElem} {X : SymbolId}, operand e x = true → ElemSym b.gD x X → (b.gD.sym X).name = .ident e := by
    intro x X hx hX
    unfold operand at hx
    simp only [Bool.and_eq_true, beq_iff_eq, Bool.not_eq_true'] at hx
    rcases hX with ⟨tok, h1, h2, h3⟩ | ⟨tok, symR, h1, h2, _⟩ | ⟨h1, _⟩
    · rw [hx.1] at h1
      cases h1
      exact h3
    · rw [hx.2] at h2; cases h2
    · exact absurd hx.1 (h1 e)
  have hname : (b.gD.sym eS).name = .ident e := opn r4 hx0
  -- the rules of `e`
  have hrule : ∀ {r}, RuleOf g eS r → ∃ u, (rulesOf ds)[r]? = some u ∧ u.lhs = e := by
    intro r hr
    exact b.rule_of_named ho hr.1 (by rw [hr.2]; exact hname)
  have hnt : (SymName.ident e).isNt = true := by
    have h1 := D.nt
    have h2 := b.dinv.kinds eS heS
    rw [hname] at h2
    cases e with
    | lower n => rfl
    | error => rfl
    | upper n => cases h1
    | other n => cases hk : (b.gD.sym eS).kind <;> rw [hk] at h2 <;> cases h2
  -- their symbols
  have hsym : ∀ {r : Nat} {u : URule}, (rulesOf ds)[r]? = some u → ∀ {d : Nat} {X : SymbolId}, (g.rhsSyms r)[d]? = some X → X < b.gD.syms.length ∧ ∃ x, u.rhs[d]? = some x ∧ ElemSym b.gD x X := by
    intro r u hu d X hX
    obtain ⟨_, _, _, w4, w5, _⟩ := b.written ho hu
    refine ⟨w5 X (List.mem_of_getElem? hX), ?_⟩
    rcases forall₂_getElem? w4 d with ⟨_, h⟩ | ⟨x, X', h1, h2, h3⟩
    · rw [hX] at h; cases h
    · rw [hX] at h2
      cases h2
      exact ⟨x, h1, h3⟩
  have hiff : ∀ {r : Nat} {u : URule}, (rulesOf ds)[r]? = some u → u.lhs = e → ∀ {d : Nat} {X : SymbolId} {x : RhsElem}, (g.rhsSyms r)[d]? = some X → u.rhs[d]? = some x → ElemSym b.gD x X →
      (X = eS ∧ operand e x = true) ∨ (X ≠ eS ∧ tokenElem x = true ∧ operand e x = false) := by
    intro r u hu he d X x hX hx hel
    have hXl := (hsym hu hX).1
    cases hop : operand e x with
    | true => exact .inl ⟨b.same_name hXl heS (opn hop hel) hname, rfl⟩
    | false =>
      right
      have ht : tokenElem x = true := by
        rcases D.elems hu he x (List.mem_of_getElem? hx) with h | h
        · rw [hop] at h; cases h
        · exact h
      refine ⟨?_, ht, rfl⟩
      rintro rfl
      have := (b.tokenElem_kind hXl hel ht).1
      rw [hname, hnt] at this
      cases this
  have hpos : ∀ {r}, RuleOf g eS r → ∃ u, (rulesOf ds)[r]? = some u ∧ u.lhs = e ∧ ∀ {d : Nat} {X : SymbolId}, (g.rhsSyms r)[d]? = some X → X < b.gD.syms.length ∧ ∃ x, u.rhs[d]? = some x ∧ ElemSym b.gD x X ∧
      ((X = eS ∧ operand e x = true) ∨ (X ≠ eS ∧ tokenElem x = true ∧ operand e x = false)) := by
    intro r hr
    obtain ⟨u, hu, he⟩ := hrule hr
    refine ⟨u, hu, he, ?_⟩
    intro d X hX
    obtain ⟨a1, x, a2, a3⟩ := hsym hu hX
    exact ⟨a1, x, a2, a3, hiff hu he hX a2 a3⟩
  -- the operator
  have op0 : ∀ {u : URule} {x}, u.rhs[0]? = some x → operand e x = false → leads e u = false ∧ operator e u = some x := by
    intro u x hx ho
    unfold leads operator
    cases hr : u.rhs with
    | nil => rw [hr] at hx; cases hx
    | cons y l =>
      rw [hr] at hx
      simp at hx
      subst hx
      simp [ho]
  have op1 : ∀ {u : URule} {x y}, u.rhs[0]? = some x → operand e x = true → u.rhs[1]? = some y → operand e y = false → leads e u = true ∧ operator e u = some y := by
    intro u x y hx ho hy ho'
    unfold leads operator
    match hr : u.rhs with
    | [] => rw [hr] at hx; cases hx
    | [_] => rw [hr] at hy; cases hy
    | x' :: y' :: l =>
      rw [hr] at hx hy
      simp at hx hy
      subst hx hy
      simp [ho, ho']
  have clash : ∀ {r r' : Nat} {u v : URule}, (rulesOf ds)[r]? = some u → (rulesOf ds)[r']? = some v → u.lhs = e → v.lhs = e → leads e u = leads e v → ∀ {x y}, operator e u = some x →
      operator e v = some y → x.toks = y.toks → r = r' := by
    intro r r' u v hu hv eu ev hl x y hx hy hxy
    by_cases hrr : r = r'
    · exact hrr
    · exfalso
      have := D.clear hu hv eu ev hrr
      unfold opClear at this
      rw [hl, hx, hy] at this
      simp [hxy] at this
  refine ⟨S, eS, ⟨?_, ?_, ?_, hrhs, ?_, ?_, ?_, ?_, ?_, ?_, ?_, ?_⟩, heS, hname, fun r hr => hrule hr⟩
  · rw [s1]; rfl
  · exact ⟨w1, b.same_name w2 s2 (by rw [w3, r2]) s3⟩
  · intro r hr
    obtain ⟨u, hu, he⟩ := b.rule_of_named ho hr.1 (by rw [hr.2]; exact s3)
    exact D.only hu he
  · rintro rfl
    rw [hname] at s3
    cases s3
    exact D.ne rfl
  · intro r r' X hr hX hr'
    rcases hr with rfl | hr
    · rw [hrhs] at hX
      exact List.mem_singleton.1 hX
    · obtain ⟨u, hu, he, hp⟩ := hpos hr
      obtain ⟨d, hd⟩ := List.mem_iff_getElem?.1 hX
      obtain ⟨a1, x, a2, a3, a4⟩ := hp hd
      rcases a4 with ⟨h, _⟩ | ⟨_, h, _⟩
      · exact h
      · exfalso
        have h1 := (b.tokenElem_kind a1 a3 h).2
        have h2 := (hi.lhs r' hr'.1).2.1
        rw [hr'.2, b.kind a1] at h2
        exact h1 h2
  · intro r hr
    obtain ⟨u, hu, he, hp⟩ := hpos hr
    obtain ⟨x, hx, hxo⟩ := D.token hu he
    obtain ⟨d, hd⟩ := List.mem_iff_getElem?.1 hx
    obtain ⟨_, _, _, w4, _, _⟩ := b.written ho hu
    rcases forall₂_getElem? w4 d with ⟨h, _⟩ | ⟨x', X, h1, h2, h3⟩
    · rw [hd] at h; cases h
    · rw [hd] at h1
      cases h1
      obtain ⟨_, x'', a2, _, a4⟩ := hp h2
      rw [hd] at a2
      cases a2
      rcases a4 with ⟨_, h⟩ | ⟨h, _⟩
      · rw [hxo] at h; cases h
      · exact ⟨X, List.mem_of_getElem? h2, h⟩
  · intro r d hr h1 h2
    obtain ⟨u, hu, he, hp⟩ := hpos hr
    obtain ⟨_, x, a2, _, a4⟩ := hp h1
    obtain ⟨_, y, b2, _, b4⟩ := hp h2
    refine spaced_get (D.spaced hu he) a2 b2 ⟨?_, ?_⟩
    · rcases a4 with ⟨_, h⟩ | ⟨h, _⟩
      · exact h
      · exact absurd rfl h
    · rcases b4 with ⟨_, h⟩ | ⟨h, _⟩
      · exact h
      · exact absurd rfl h
  · intro r r' X hr hr' h1 hne h2
    obtain ⟨u, hu, he, hp⟩ := hpos hr
    obtain ⟨v, hv, he', hp'⟩ := hpos hr'
    obtain ⟨_, x, a2, a3, a4⟩ := hp h1
    obtain ⟨_, y, b2, b3, b4⟩ := hp' h2
    rcases a4 with ⟨h, _⟩ | ⟨_, t1, o1⟩
    · exact absurd h hne
    rcases b4 with ⟨h, _⟩ | ⟨_, t2, o2⟩
    · exact absurd h hne
    obtain ⟨l1, p1⟩ := op0 a2 o1
    obtain ⟨l2, p2⟩ := op0 b2 o2
    exact clash hu hv he he' (by rw [l1, l2]) p1 p2 (b.elem_toks a3 b3 t1 t2)
  · intro r r' X hr hr' h0 h1 h0' h1'
    obtain ⟨u, hu, he, hp⟩ := hpos hr
    obtain ⟨v, hv, he', hp'⟩ := hpos hr'
    obtain ⟨_, z, c2, _, c4⟩ := hp h0
    obtain ⟨_, z', c2', _, c4'⟩ := hp' h0'
    obtain ⟨_, x, a2, a3, a4⟩ := hp h1
    obtain ⟨_, y, b2, b3, b4⟩ := hp' h1'
    rcases c4 with ⟨_, oz⟩ | ⟨h, _⟩
    swap
    · exact absurd rfl h
    rcases c4' with ⟨_, oz'⟩ | ⟨h, _⟩
    swap
    · exact absurd rfl h
    rcases a4 with ⟨rfl, ox⟩ | ⟨_, t1, o1⟩
    · exact absurd ⟨oz, ox⟩ (spaced_get (D.spaced hu he) c2 a2)
    rcases b4 with ⟨rfl, oy⟩ | ⟨_, t2, o2⟩
    · exact absurd ⟨oz', oy⟩ (spaced_get (D.spaced hv he') c2' b2)
    obtain ⟨l1, p1⟩ := op1 c2 oz a2 o1
    obtain ⟨l2, p2⟩ := op1 c2' oz' b2 o2
    exact clash hu hv he he' (by rw [l1, l2]) p1 p2 (b.elem_toks a3 b3 t1 t2)
  · intro r r' d X hr hr' hd h0 h1 h0' h1'
    obtain ⟨u, hu, he, hp⟩ := hpos hr
    obtain ⟨v, hv, he', hp'⟩ := hpos hr'
    obtain ⟨_, z, c2, _, c4⟩ := hp h0
    obtain ⟨_, z', c2', _, c4'⟩ := hp' h0'
    obtain ⟨_, x, a2, a3, a4⟩ := hp h1
    obtain ⟨_, y, b2, b3, b4⟩ := hp' h1'
    rcases c4 with ⟨_, oz⟩ | ⟨h, _⟩
    swap
    · exact absurd rfl h
    rcases c4' with ⟨_, oz'⟩ | ⟨h, _⟩
    swap
    · exact absurd rfl h
    rcases a4 with ⟨rfl, ox⟩ | ⟨_, t1, o1⟩
    · exact absurd ⟨oz, ox⟩ (spaced_get (D.spaced hu he) c2 a2)
    rcases b4 with ⟨rfl, oy⟩ | ⟨_, t2, o2⟩
    · exact absurd ⟨oz', oy⟩ (spaced_get (D.spaced hv he') c2' b2)
    obtain ⟨l2, p2⟩ := op1 c2' oz' b2 o2
    have := D.inner hu hv he he'
    unfold innerClear at this
    rw [l2, p2] at this
    simp only [Bool.not_true, Bool.false_or, List.all_eq_true] at this
    have := this x (by
      obtain ⟨d, rfl⟩ : ∃ d', d = d' + 1 := ⟨d - 1, by omega⟩
      exact innerAfter_get (d := d) (by rw [List.getElem?_tail]; exact c2) (by rw [List.getElem?_tail]; exact a2) oz)
    unfold apartElems at this
    rw [Bool.and_eq_true, bne_iff_ne] at this
    exact this.1 (b.elem_toks a3 b3 t1 t2)
  · intro r r' d X Y a hr hr' hd h0 h1 h0' h1' ha hk hne hX hY
    obtain ⟨u, hu, he, hp⟩ := hpos hr
    obtain ⟨v, hv, he', hp'⟩ := hpos hr'
    obtain ⟨_, z, c2, _, c4⟩ := hp h0
    obtain ⟨_, z', c2', _, c4'⟩ := hp' h0'
    obtain ⟨hXl, x, a2, a3, a4⟩ := hp h1
    obtain ⟨hYl, y, b2, b3, b4⟩ := hp' h1'
    rcases c4 with ⟨_, oz⟩ | ⟨h, _⟩
    swap
    · exact absurd rfl h
    rcases c4' with ⟨_, oz'⟩ | ⟨h, _⟩
    swap
    · exact absurd rfl h
    rcases a4 with ⟨rfl, ox⟩ | ⟨_, t1, o1⟩
    · exact absurd ⟨oz, ox⟩ (spaced_get (D.spaced hu he) c2 a2)
    rcases b4 with ⟨rfl, oy⟩ | ⟨_, t2, o2⟩
    · exact absurd ⟨oz', oy⟩ (spaced_get (D.spaced hv he') c2' b2)
    obtain ⟨l2, p2⟩ := op1 c2' oz' b2 o2
    have := D.inner hu hv he he'
    unfold innerClear at this
    rw [l2, p2] at this
    simp only [Bool.not_true, Bool.false_or, List.all_eq_true] at this
    have := this x (by
      obtain ⟨d, rfl⟩ : ∃ d', d = d' + 1 := ⟨d - 1, by omega⟩
      exact innerAfter_get (d := d) (by rw [List.getElem?_tail]; exact c2) (by rw [List.getElem?_tail]; exact a2) oz)
    unfold apartElems at this
    rw [Bool.and_eq_true, List.all_eq_true] at this
    obtain ⟨had, j, hj, hjt⟩ := b.terminal_name hi ha hk hne
    have m1 := matches_elemToks ((b.reads_matches hXl a3 had hj hjt).1 hX)
    have m2 := matches_elemToks ((b.reads_matches hYl b3 had hj hjt).1 hY)
    have := this.2 j m1
    simp only [Bool.not_eq_true'] at this
    rw [List.contains_eq_mem, decide_eq_false_iff_not] at this
    exact this m2

end Bridge0

end Pomelo
