import Verif.Proofs.EmbedDecl
import Verif.Proofs.EmbedGen
import Verif.Proofs.Shuffle
/-!
# The same declarations with the rules in another order
-/

namespace Pomelo

open Spec

/-! ## The rules by their numbers -/

/-- `σ` and `τ` exchange numbers below `n`. -/
structure Bij (n : Nat) (σ τ : Nat → Nat) : Prop where
  left : ∀ r, τ (σ r) = r
  right : ∀ r, σ (τ r) = r
  out : ∀ r, n ≤ r → σ r = r
  out' : ∀ r, n ≤ r → τ r = r

theorem Bij.symm {n : Nat} {σ τ : Nat → Nat} (h : Bij n σ τ) : Bij n τ σ := ⟨h.right, h.left, h.out', h.out⟩

theorem Bij.lt {n : Nat} {σ τ : Nat → Nat} (h : Bij n σ τ) {r : Nat} (hr : r < n) : σ r < n := by
  apply Nat.lt_of_not_le
  intro hn
  have h1 := h.out' _ hn
  rw [h.left] at h1
  omega

theorem Bij.lt_of {n m : Nat} {σ τ : Nat → Nat} (h : Bij n σ τ) (hm : n ≤ m) {r : Nat} (hr : r < m) : σ r < m := by
  by_cases hn : r < n
  · exact Nat.lt_of_lt_of_le (h.lt hn) hm
  · rw [h.out r (Nat.le_of_not_lt hn)]; exact hr

theorem Bij.of_perm {α : Type} {l l' : List α} (h : l.Perm l') : ∃ σ τ, Bij l.length σ τ ∧ ∀ r, l'[σ r]? = l[r]? := by
  induction h with
  | nil => exact ⟨id, id, ⟨fun _ => rfl, fun _ => rfl, fun _ _ => rfl, fun _ _ => rfl⟩, fun _ => rfl⟩
  | @cons a l l' _ ih =>
    obtain ⟨σ, τ, h1, h2⟩ := ih
    refine ⟨fun r => match r with | 0 => 0 | r + 1 => σ r + 1, fun r => match r with | 0 => 0 | r + 1 => τ r + 1, ⟨?_, ?_, ?_, ?_⟩, ?_⟩
    · rintro (_ | r)
      · rfl
      · exact congrArg (· + 1) (h1.left r)
    · rintro (_ | r)
      · rfl
      · exact congrArg (· + 1) (h1.right r)
    · rintro (_ | r) hr
      · rfl
      · exact congrArg (· + 1) (h1.out r (by simpa using hr))
    · rintro (_ | r) hr
      · rfl
      · exact congrArg (· + 1) (h1.out' r (by simpa using hr))
    · rintro (_ | r)
      · rfl
      · simpa using h2 r
  | swap a b l =>
    refine ⟨fun r => match r with | 0 => 1 | 1 => 0 | r + 2 => r + 2, fun r => match r with | 0 => 1 | 1 => 0 | r + 2 => r + 2, ⟨?_, ?_, ?_, ?_⟩, ?_⟩
    · rintro (_ | _ | r) <;> rfl
    · rintro (_ | _ | r) <;> rfl
    · rintro (_ | _ | r) hr
      · simp at hr
      · simp at hr
      · rfl
    · rintro (_ | _ | r) hr
      · simp at hr
      · simp at hr
      · rfl
    · rintro (_ | _ | r) <;> rfl
  | @trans l m n h1 _ ih1 ih2 =>
    obtain ⟨σ, τ, a1, a2⟩ := ih1
    obtain ⟨σ', τ', b1, b2⟩ := ih2
    refine ⟨σ' ∘ σ, τ ∘ τ', ⟨?_, ?_, ?_, ?_⟩, ?_⟩
    · intro r; simp [b1.left, a1.left]
    · intro r; simp [b1.right, a1.right]
    · intro r hr; simp [a1.out r hr, b1.out r (h1.length_eq ▸ hr)]
    · intro r hr; simp [b1.out' r (h1.length_eq ▸ hr), a1.out' r hr]
    · intro r; simp [a2, b2]

/-! ## The declarations -/

/-- The declarations say the same, but for the order of the rules. -/
structure LikeRules (ds ds' : List Decl) : Prop where
  type : ∀ i, typeOf ds i = typeOf ds' i
  prec : ∀ i, precOf ds i = precOf ds' i
  fallback : ∀ i, fallbackOf ds i = fallbackOf ds' i
  multi : ∀ i, isClass ds i = isClass ds' i
  subs : ∀ i, classMembers ds i = classMembers ds' i
  rules : (ds.filterMap Decl.rule?).Perm (ds'.filterMap Decl.rule?)
  glob : ds.foldl Glob.step Grammar.initial.glob = ds'.foldl Glob.step Grammar.initial.glob
  root : startOf ds = startOf ds'

theorem LikeRules.symm {ds ds' : List Decl} (h : LikeRules ds ds') : LikeRules ds' ds :=
  ⟨fun i => (h.type i).symm, fun i => (h.prec i).symm, fun i => (h.fallback i).symm, fun i => (h.multi i).symm, fun i => (h.subs i).symm,
   h.rules.symm, h.glob.symm, h.root.symm⟩

theorem urule_inj {u v : URule} (h : (u.lhs, u.rhs, u.code, u.prec) = (v.lhs, v.rhs, v.code, v.prec)) : u = v := by
  obtain ⟨a, b, c, d⟩ := u
  obtain ⟨a', b', c', d'⟩ := v
  simpa using h

theorem LikeRules.mem {ds ds' : List Decl} (h : LikeRules ds ds') {u : URule} (hu : u ∈ Spec.rulesOf ds) : u ∈ Spec.rulesOf ds' := by
  have h1 : (u.lhs, u.rhs, u.code, u.prec) ∈ ds.filterMap Decl.rule? := by
    rw [filterMap_rule?]; exact List.mem_map_of_mem hu
  rw [h.rules.mem_iff, filterMap_rule?] at h1
  obtain ⟨v, hv, e⟩ := List.mem_map.1 h1
  exact urule_inj e ▸ hv

/-- `σ` finds the rules of `ds` among those of `ds'`. -/
structure Carries (ds ds' : List Decl) (σ τ : Nat → Nat) : Prop where
  bij : Bij (ds.filterMap Decl.rule?).length σ τ
  get : ∀ r, (ds'.filterMap Decl.rule?)[σ r]? = (ds.filterMap Decl.rule?)[r]?

theorem Carries.symm {ds ds' : List Decl} {σ τ : Nat → Nat} (h : Carries ds ds' σ τ) (hl : LikeRules ds ds') : Carries ds' ds τ σ where
  bij := by rw [hl.rules.length_eq.symm]; exact h.bij.symm
  get := fun r => by rw [← h.get, h.bij.right]

theorem LikeRules.moves {ds ds' : List Decl} (h : LikeRules ds ds') : ∃ σ τ, Carries ds ds' σ τ := by
  obtain ⟨σ, τ, h1, h2⟩ := Bij.of_perm h.rules
  exact ⟨σ, τ, h1, h2⟩

namespace Sh

/-- Symbols that correspond to each other -/
inductive Corr (σ : Nat → Nat) (g g' : Grammar) : SymbolId → SymbolId → Prop
  | dollar : Corr σ g g' 0 0
  | named {x y i} : x < g.syms.length → y < g'.syms.length → (g.sym x).name = .ident i → (g'.sym y).name = .ident i → Corr σ g g' x y
  | optional {a x a' y i} : (a, x) ∈ g.optionals → (a', y) ∈ g'.optionals → (g.sym a).name = .ident i → (g'.sym a').name = .ident i → Corr σ g g' x y
  | compound {r i : Nat} {x y : RhsSym} : r < g.rules.length → σ r < g'.rules.length → (g.rule r).rhs[i]? = some x → (g'.rule (σ r)).rhs[i]? = some y →
      (g.sym x.sym).name = .anon → (g'.sym y.sym).name = .anon → Corr σ g g' x.sym y.sym

theorem Corr.symm {g g' : Grammar} {σ τ : Nat → Nat} (hl : ∀ r, τ (σ r) = r) {x y : SymbolId} (h : Corr σ g g' x y) : Corr τ g' g y x := by
  cases h with
  | dollar => exact .dollar
  | named h1 h2 h3 h4 => exact .named h2 h1 h4 h3
  | optional h1 h2 h3 h4 => exact .optional h2 h1 h4 h3
  | compound h1 h2 h3 h4 h5 h6 => exact .compound (r := σ _) h2 (by rw [hl]; exact h1) h4 (by rw [hl]; exact h3) h6 h5

theorem Corr.fn {g g' : Grammar} {σ : Nat → Nat} (hd : DInv g) (hd' : DInv g') (ho : AnonOnce g) {x y y' : SymbolId}
    (h : Corr σ g g' x y) (k : Corr σ g g' x y') : y = y' := by
  cases h with
  | dollar =>
    generalize hx : (0 : SymbolId) = x at k
    have hn : (g.sym x).name = .dollar := by rw [← hx]; exact hd.dollar
    cases k with
    | dollar => rfl
    | named _ _ h3 _ => rw [hn] at h3; cases h3
    | optional h1 _ _ _ => obtain ⟨_, _, _, _, e⟩ := hd.opt h1; rw [hn] at e; cases e
    | compound _ _ _ _ h5 _ => rw [hn] at h5; cases h5
  | named h1 h2 hn h4 =>
    cases k with
    | dollar => rw [hd.dollar] at hn; cases hn
    | named _ k2 k3 k4 =>
      rw [hn] at k3; cases k3
      exact hd'.ident_inj h2 k2 h4 k4
    | optional h1 _ _ _ => obtain ⟨_, _, _, _, e⟩ := hd.opt h1; rw [hn] at e; cases e
    | compound _ _ _ _ h5 _ => rw [hn] at h5; cases h5
  | @optional a _ a' _ i h1 h2 h3 h4 =>
    obtain ⟨n, n1, _, n3, hn⟩ := hd.opt h1
    cases k with
    | dollar => rw [hd.dollar] at hn; cases hn
    | named _ k2 k3 k4 => rw [hn] at k3; cases k3
    | @optional b _ b' _ j k1 k2 k3 k4 =>
      obtain ⟨m, m1, _, _, hm⟩ := hd.opt k1
      rw [hn] at hm
      cases hm
      rw [n1] at m1
      cases m1
      rw [h3] at k3
      cases k3
      obtain ⟨p, p1, p2, _, _⟩ := hd'.opt h2
      obtain ⟨q, q1, q2, _, _⟩ := hd'.opt k2
      have hab := hd'.ident_inj p2 q2 h4 k4
      subst hab
      have hpq : p = q := by
        have hl : p < (g'.optionals.map Prod.fst).length := by
          rw [List.length_map]; exact (List.getElem?_eq_some_iff.1 p1).1
        refine (List.getElem?_inj hl hd'.optKeys).1 ?_
        rw [List.getElem?_map, List.getElem?_map, p1, q1]; rfl
      subst hpq
      rw [p1] at q1
      cases q1
      rfl
    | compound _ _ _ _ h5 _ => rw [hn] at h5; cases h5
  | @compound r i x y h1 h2 h3 h4 hn h6 =>
    generalize hx : x.sym = z at k
    rw [hx] at hn
    cases k with
    | dollar => rw [hd.dollar] at hn; cases hn
    | named _ _ h3 _ => rw [hn] at h3; cases h3
    | optional h1 _ _ _ => obtain ⟨_, _, _, _, e⟩ := hd.opt h1; rw [hn] at e; cases e
    | @compound r' j x' y' k1 k2 k3 k4 k5 k6 =>
      obtain ⟨rfl, rfl⟩ := ho.once h1 k1 h3 k3 hx (by rw [hx]; exact hn)
      rw [h4] at k4
      cases k4
      rfl

/-- Two lists of declarations that say the same, both read -/
structure Pair (σ τ : Nat → Nat) (g g' : Grammar) (ds ds' : List Decl) : Prop where
  hd : DInv g
  hd' : DInv g'
  once : AnonOnce g
  once' : AnonOnce g'
  plain : PlainAnon g
  plain' : PlainAnon g'
  decl : Declared g ds
  decl' : Declared g' ds'
  recs : RulesRec g ds
  recs' : RulesRec g' ds'
  like : LikeRules ds ds'
  glob : g.glob = g'.glob
  moves : Carries ds ds' σ τ

theorem Pair.symm {σ τ : Nat → Nat} {g g' : Grammar} {ds ds' : List Decl} (p : Pair σ τ g g' ds ds') : Pair τ σ g' g ds' ds :=
  ⟨p.hd', p.hd, p.once', p.once, p.plain', p.plain, p.decl', p.decl, p.recs', p.recs, p.like.symm, p.glob.symm, p.moves.symm p.like⟩

theorem pair_of {σ τ : Nat → Nat} {g g' : Grammar} {ds ds' : List Decl} (h : Grammar.initial.parseDecls ds = .ok g) (h' : Grammar.initial.parseDecls ds' = .ok g')
    (hl : LikeRules ds ds') (hm : Carries ds ds' σ τ) : Pair σ τ g g' ds ds' where
  hd := (DInv.initial.parseDecls h).1
  hd' := (DInv.initial.parseDecls h').1
  once := AnonOnce.initial.parseDecls DInv.initial h
  once' := AnonOnce.initial.parseDecls DInv.initial h'
  plain := PlainAnon.initial.parseDecls DInv.initial h
  plain' := PlainAnon.initial.parseDecls DInv.initial h'
  decl := declared h
  decl' := declared h'
  recs := (DInv.initial.parseDecls h).2.2 [] (by exact List.Forall₂.nil)
  recs' := (DInv.initial.parseDecls h').2.2 [] (by exact List.Forall₂.nil)
  like := hl
  moves := hm
  glob := by rw [(preAll_parseDecls DInv.initial h).2.1, (preAll_parseDecls DInv.initial h').2.1, hl.glob]

namespace Pair
variable {σ τ : Nat → Nat} {g g' : Grammar} {ds ds' : List Decl}

theorem lt (p : Pair σ τ g g' ds ds') {x y : SymbolId} (h : Corr σ g g' x y) : x < g.syms.length ∧ y < g'.syms.length := by
  cases h with
  | dollar => exact ⟨Nat.lt_of_lt_of_le (by decide) p.hd.two, Nat.lt_of_lt_of_le (by decide) p.hd'.two⟩
  | named h1 h2 _ _ => exact ⟨h1, h2⟩
  | optional h1 h2 _ _ =>
    obtain ⟨_, _, _, a, _⟩ := p.hd.opt h1
    obtain ⟨_, _, _, b, _⟩ := p.hd'.opt h2
    exact ⟨a, b⟩
  | compound h1 h2 h3 h4 _ _ => exact ⟨(p.hd.rhs _ h1 _ (List.mem_of_getElem? h3)).1, (p.hd'.rhs _ h2 _ (List.mem_of_getElem? h4)).1⟩

theorem kind (p : Pair σ τ g g' ds ds') {x y : SymbolId} (h : Corr σ g g' x y) : (g'.sym y).kind = (g.sym x).kind := by
  obtain ⟨hx, hy⟩ := p.lt h
  have k1 := p.hd.kinds x hx
  have k2 := p.hd'.kinds y hy
  have fin : ∀ {n m : SymName} {k k' : SymKind}, kindOk n k = true → kindOk m k' = true →
      (n = .dollar ∧ m = .dollar ∨ (∃ i j, n = .opt i ∧ m = .opt j) ∨ n = .anon ∧ m = .anon) → k' = k := by
    intro n m k k' h1 h2 h3
    rcases h3 with ⟨rfl, rfl⟩ | ⟨i, j, rfl, rfl⟩ | ⟨rfl, rfl⟩ <;> cases k <;> cases k' <;> simp_all [kindOk]
  cases h with
  | dollar => exact fin k1 k2 (.inl ⟨p.hd.dollar, p.hd'.dollar⟩)
  | named h1 h2 h3 h4 =>
    have m1 := (p.decl.sym p.hd hx h3).2.1
    have m2 := (p.decl'.sym p.hd' hy h4).2.1
    rw [p.like.multi, ← m2] at m1
    refine (kind_of k1 (by rw [h3, ← h4]; exact k2) ?_).symm
    rw [decide_eq_decide]; exact m1
  | optional h1 h2 _ _ =>
    obtain ⟨_, _, _, _, a⟩ := p.hd.opt h1
    obtain ⟨_, _, _, _, b⟩ := p.hd'.opt h2
    exact fin k1 k2 (.inr (.inl ⟨_, _, a, b⟩))
  | compound _ _ _ _ a b => exact fin k1 k2 (.inr (.inr ⟨a, b⟩))

theorem prec (p : Pair σ τ g g' ds ds') {x y : SymbolId} (h : Corr σ g g' x y) : (g'.sym y).precedence = (g.sym x).precedence := by
  obtain ⟨hx, hy⟩ := p.lt h
  have fin : (g.sym x).name.isIdent = false → (g'.sym y).name.isIdent = false → (g'.sym y).precedence = (g.sym x).precedence :=
    fun a b => by rw [(p.plain x hx a).1, (p.plain' y hy b).1]
  cases h with
  | dollar => exact fin (by rw [p.hd.dollar]; rfl) (by rw [p.hd'.dollar]; rfl)
  | named h1 h2 h3 h4 => rw [(p.decl.sym p.hd hx h3).1, (p.decl'.sym p.hd' hy h4).1, p.like.prec]
  | optional h1 h2 _ _ =>
    obtain ⟨_, _, _, _, a⟩ := p.hd.opt h1
    obtain ⟨_, _, _, _, b⟩ := p.hd'.opt h2
    exact fin (by rw [a]; rfl) (by rw [b]; rfl)
  | compound _ _ _ _ a b => exact fin (by rw [a]; rfl) (by rw [b]; rfl)

theorem corr_names {l l' : List SymbolId} (hl : ∀ m ∈ l, m < g.syms.length) (hl' : ∀ m ∈ l', m < g'.syms.length) : ∀ {ids : List Ident},
    l.map (fun m => (g.sym m).name) = ids.map SymName.ident → l'.map (fun m => (g'.sym m).name) = ids.map SymName.ident →
    List.Forall₂ (Corr σ g g') l l' := by
  induction l generalizing l' with
  | nil =>
    intro ids h h'
    cases ids with
    | nil => cases l' with
      | nil => exact .nil
      | cons _ _ => simp at h'
    | cons _ _ => simp at h
  | cons a l ih =>
    intro ids h h'
    cases ids with
    | nil => simp at h
    | cons i ids =>
      cases l' with
      | nil => simp at h'
      | cons b l' =>
        simp only [List.map_cons, List.cons.injEq] at h h'
        exact .cons (.named (hl a (by simp)) (hl' b (by simp)) h.1 h'.1)
          (ih (fun m hm => hl m (by simp [hm])) (fun m hm => hl' m (by simp [hm])) h.2 h'.2)

theorem nrules (p : Pair σ τ g g' ds ds') : g'.rules.length = g.rules.length := by
  have h1 := p.recs.length_eq
  have h2 := p.recs'.length_eq
  rw [← h1, ← h2, p.like.rules.length_eq]

theorem rec_rule (p : Pair σ τ g g' ds ds') {r : Nat} (hr : r < g.rules.length) : σ r < g'.rules.length ∧
    ∃ u : Ident × List RhsElem × Option Nat × Option Ident, RuleRec g u.1 u.2.1 u.2.2.1 u.2.2.2 (g.rule r) ∧ RuleRec g' u.1 u.2.1 u.2.2.1 u.2.2.2 (g'.rule (σ r)) := by
  have h1 := p.recs
  have h2 := p.recs'
  unfold RulesRec at h1 h2
  have l1 := h1.length_eq
  have l2 := h2.length_eq
  have hu : r < (ds.filterMap Decl.rule?).length := l1 ▸ hr
  have hu' : σ r < (ds'.filterMap Decl.rule?).length := by rw [← p.like.rules.length_eq]; exact p.moves.bij.lt hu
  have hr' : σ r < g'.rules.length := l2 ▸ hu'
  have a := List.Forall₂.get h1 hu hr
  have b := List.Forall₂.get h2 hu' hr'
  have hq := p.moves.get r
  rw [List.getElem?_eq_getElem hu, List.getElem?_eq_getElem hu'] at hq
  simp only [List.get_eq_getElem] at a b
  rw [Option.some.inj hq] at b
  have e : g.rules[r] = g.rule r := by simp [Grammar.rule, List.getElem?_eq_getElem hr]
  have e' : g'.rules[σ r] = g'.rule (σ r) := by simp [Grammar.rule, List.getElem?_eq_getElem hr']
  rw [e] at a
  rw [e'] at b
  exact ⟨hr', _, a, b⟩

theorem lhs (p : Pair σ τ g g' ds ds') {r : Nat} (hr : r < g.rules.length) : Corr σ g g' (g.rule r).lhs (g'.rule (σ r)).lhs := by
  obtain ⟨hr', u, a, b⟩ := p.rec_rule hr
  exact .named (p.hd.lhs r hr).1 (p.hd'.lhs _ hr').1 a.1 b.1

theorem elem (p : Pair σ τ g g' ds ds') {r : Nat} (hr : r < g.rules.length) {i : Nat} {x y : RhsSym} (hx : (g.rule r).rhs[i]? = some x)
    (hy : (g'.rule (σ r)).rhs[i]? = some y) : Corr σ g g' x.sym y.sym ∧ ∃ e, ElemRec g e x ∧ ElemRec g' e y := by
  obtain ⟨hr', u, a, b⟩ := p.rec_rule hr
  have hxl := (p.hd.rhs r hr x (List.mem_of_getElem? hx)).1
  have hyl := (p.hd'.rhs _ hr' y (List.mem_of_getElem? hy)).1
  obtain ⟨hi, ex⟩ := List.getElem?_eq_some_iff.1 hx
  obtain ⟨hj, ey⟩ := List.getElem?_eq_some_iff.1 hy
  have hu : i < u.2.1.length := by rw [a.2.1.length_eq]; exact hi
  have h := List.Forall₂.get a.2.1 hu hi
  have h' := List.Forall₂.get b.2.1 hu hj
  simp only [List.get_eq_getElem] at h h'
  rw [ex] at h
  rw [ey] at h'
  refine ⟨?_, _, h, h'⟩
  generalize u.2.1[i] = e at h h'
  obtain ⟨_, h⟩ := h
  obtain ⟨_, h'⟩ := h'
  rcases h with ⟨tok, h1, h2, h3⟩ | ⟨tok, symR, h1, h2, h3, h4, h5⟩ | ⟨h1, h2, h3⟩ <;>
    rcases h' with ⟨tok', h1', h2', h3'⟩ | ⟨tok', symR', h1', h2', h3', h4', h5'⟩ | ⟨h1', h2', h3'⟩
  · rw [h1] at h1'; cases h1'
    exact .named hxl hyl h3 h3'
  · rw [h2] at h2'; cases h2'
  · exact absurd h1 (h1' tok)
  · rw [h2] at h2'; cases h2'
  · rw [h1] at h1'; cases h1'
    exact .optional h4 h4' h5 h5'
  · exact absurd h1 (h1' tok)
  · exact absurd h1' (h1 tok')
  · exact absurd h1' (h1 tok')
  · exact .compound hr hr' hx hy h2 h2'

theorem rhs (p : Pair σ τ g g' ds ds') {r : Nat} (hr : r < g.rules.length) :
    List.Forall₂ (Corr σ g g') ((g.rule r).rhs.map (·.sym)) ((g'.rule (σ r)).rhs.map (·.sym)) := by
  obtain ⟨hr', u, a, b⟩ := p.rec_rule hr
  have hlen : (g.rule r).rhs.length = (g'.rule (σ r)).rhs.length := by rw [← a.2.1.length_eq, b.2.1.length_eq]
  rw [List.forall₂_iff_get]
  refine ⟨by simpa using hlen, ?_⟩
  intro i h1 h2
  simp only [List.length_map] at h1 h2
  simp only [List.get_eq_getElem, List.getElem_map]
  exact (p.elem hr (List.getElem?_eq_getElem h1) (List.getElem?_eq_getElem h2)).1

theorem subs (p : Pair σ τ g g' ds ds') {x y : SymbolId} (h : Corr σ g g' x y) : List.Forall₂ (Corr σ g g') (g.sym x).subs (g'.sym y).subs := by
  obtain ⟨hx, hy⟩ := p.lt h
  have s1 : ∀ m ∈ (g.sym x).subs, m < g.syms.length := fun m hm => (p.hd.subs x hx m hm).1
  have s2 : ∀ m ∈ (g'.sym y).subs, m < g'.syms.length := fun m hm => (p.hd'.subs y hy m hm).1
  have hk := p.kind h
  have fin : (g.sym x).kind ≠ .multiTerminal → List.Forall₂ (Corr σ g g') (g.sym x).subs (g'.sym y).subs := by
    intro hne
    have e1 : (g.sym x).subs = [] := Decidable.not_not.1 fun h => hne (p.hd.subsKind x hx h)
    have e2 : (g'.sym y).subs = [] := Decidable.not_not.1 fun h => hne (hk ▸ p.hd'.subsKind y hy h)
    rw [e1, e2]; exact .nil
  have k1 := p.hd.kinds x hx
  cases h with
  | dollar =>
    refine fin fun e => ?_
    rw [p.hd.dollar, e] at k1; cases k1
  | named h1 h2 h3 h4 =>
    refine corr_names s1 s2 (p.decl.sym p.hd hx h3).2.2.1 ?_
    rw [p.like.subs]
    exact (p.decl'.sym p.hd' hy h4).2.2.1
  | optional h1 h2 _ _ =>
    refine fin fun e => ?_
    obtain ⟨_, _, _, _, a⟩ := p.hd.opt h1
    rw [a, e] at k1; cases k1
  | @compound r i x y h1 h2 h3 h4 a b =>
    obtain ⟨e, ⟨_, u⟩, ⟨_, v⟩⟩ := (p.elem h1 h3 h4).2
    have nm : ∀ {g : Grammar} {l : List SymbolId} {ids : List Ident}, List.Forall₂ (fun s id => s < g.syms.length ∧ (g.sym s).name = .ident id) l ids →
        l.map (fun m => (g.sym m).name) = ids.map SymName.ident := by
      intro g l ids h
      induction h with
      | nil => rfl
      | cons h _ ih => simp [h.2, ih]
    have u3 : List.Forall₂ (fun s id => s < g.syms.length ∧ (g.sym s).name = .ident id) (g.sym x.sym).subs e.toks := by
      rcases u with ⟨tok, _, _, h⟩ | ⟨tok, symR, _, _, _, h, _⟩ | ⟨_, _, h⟩
      · rw [h] at a; cases a
      · obtain ⟨_, _, _, _, q⟩ := p.hd.opt h
        rw [q] at a; cases a
      · exact h
    have v3 : List.Forall₂ (fun s id => s < g'.syms.length ∧ (g'.sym s).name = .ident id) (g'.sym y.sym).subs e.toks := by
      rcases v with ⟨tok, _, _, h⟩ | ⟨tok, symR, _, _, _, h, _⟩ | ⟨_, _, h⟩
      · rw [h] at b; cases b
      · obtain ⟨_, _, _, _, q⟩ := p.hd'.opt h
        rw [q] at b; cases b
      · exact h
    exact corr_names s1 s2 (nm u3) (nm v3)

theorem symPrec (p : Pair σ τ g g' ds ds') {x y : SymbolId} (h : Corr σ g g' x y) : g'.symPrec y = g.symPrec x := by
  unfold Grammar.symPrec
  rw [p.kind h, p.prec h]
  have hs := p.subs h
  generalize (g.sym x).subs = l at hs
  generalize (g'.sym y).subs = l' at hs
  have : l'.findSome? (fun m => (g'.sym m).precedence) = l.findSome? (fun m => (g.sym m).precedence) := by
    induction hs with
    | nil => rfl
    | cons h1 _ ih => rw [List.findSome?_cons, List.findSome?_cons, p.prec h1, ih]
  rw [this]

theorem first_name {g : Grammar} {ds : List Decl} (h : RulesRec g ds) (hr : 0 < g.rules.length) : ∃ u, (rulesOf ds).head? = some u ∧ (g.sym (g.rule 0).lhs).name = .ident u.lhs := by
  unfold RulesRec at h
  rw [filterMap_rule?] at h
  have hu : 0 < ((rulesOf ds).map (fun u => (u.lhs, u.rhs, u.code, u.prec))).length := by rw [h.length_eq]; exact hr
  have a := List.Forall₂.get h hu hr
  simp only [List.get_eq_getElem] at a
  have e : g.rules[0] = g.rule 0 := by simp [Grammar.rule, List.getElem?_eq_getElem hr]
  rw [e] at a
  rw [List.length_map] at hu
  refine ⟨(rulesOf ds)[0], by rw [List.head?_eq_getElem?, List.getElem?_eq_getElem hu], ?_⟩
  have := a.1
  simpa using this

theorem first (p : Pair σ τ g g' ds ds') (hr : 0 < g.rules.length) (hr' : 0 < g'.rules.length) (hs : g.start = none) (hs' : g'.start = none) :
    ∃ i, (g.sym (g.rule 0).lhs).name = .ident i ∧ (g'.sym (g'.rule 0).lhs).name = .ident i := by
  obtain ⟨u, h1, h2⟩ := first_name p.recs hr
  obtain ⟨u', h1', h2'⟩ := first_name p.recs' hr'
  have d := p.decl.start
  have d' := p.decl'.start
  rw [hs] at d
  rw [hs'] at d'
  have e : startDirective ds = none := by cases hd : startDirective ds with
    | none => rfl
    | some i => rw [hd] at d; cases d
  have e' : startDirective ds' = none := by cases hd : startDirective ds' with
    | none => rfl
    | some i => rw [hd] at d'; cases d'
  have := p.like.root
  unfold startOf at this
  rw [e, e', h1, h1'] at this
  simp only [Option.map_some, Option.none_or, Option.some.injEq] at this
  exact ⟨u.lhs, h2, this ▸ h2'⟩

theorem start (p : Pair σ τ g g' ds ds') (hne : g.rules ≠ []) :
    Corr σ g g' (g.start.getD (g.rule 0).lhs) (g'.start.getD (g'.rule 0).lhs) := by
  have h := congrArg Glob.start p.glob
  change g.start.map (fun s => (g.sym s).name) = g'.start.map (fun s => (g'.sym s).name) at h
  cases hs : g.start with
  | none =>
    rw [hs] at h
    cases hs' : g'.start with
    | none =>
      have hr : 0 < g.rules.length := List.length_pos_of_ne_nil hne
      have hr' : 0 < g'.rules.length := p.nrules ▸ hr
      obtain ⟨i, k1, k2⟩ := p.first hr hr' hs hs'
      exact .named (p.hd.lhs 0 hr).1 (p.hd'.lhs 0 hr').1 k1 k2
    | some s' => rw [hs'] at h; cases h
  | some s =>
    rw [hs] at h
    cases hs' : g'.start with
    | none => rw [hs'] at h; cases h
    | some s' =>
      rw [hs'] at h
      simp only [Option.map_some, Option.some.injEq] at h
      obtain ⟨a1, a2⟩ := p.hd.start s hs
      obtain ⟨b1, _⟩ := p.hd'.start s' hs'
      cases hn : (g.sym s).name with
      | ident i => exact .named a1 b1 hn (h.symm.trans hn)
      | _ => rw [hn] at a2; cases a2

end Pair

variable {ord ord' : List (SymbolId × SymbolId) → List (SymbolId × SymbolId)} {ds ds' : List Decl} {g g' : Grammar} {σ τ : Nat → Nat}

/-- Rules that correspond to each other -/
structure RuleLike (σ : Nat → Nat) (g g' : Grammar) (a a' : Rule) : Prop where
  lhs : Corr σ g g' a.lhs a'.lhs
  rhs : List.Forall₂ (Corr σ g g') (a.rhs.map (·.sym)) (a'.rhs.map (·.sym))
  precSym : a.precSym.map (fun s => (g.sym s).precedence) = a'.precSym.map (fun s => (g'.sym s).precedence)
  lt : (∀ s, a.precSym = some s → s < g.syms.length) ∧ ∀ s, a'.precSym = some s → s < g'.syms.length
  fresh : a.precedence = none ∧ a'.precedence = none

theorem ruleD (p : Pair σ τ g g' ds ds') {r : Nat} (h1 : r < g.rules.length) : RuleLike σ g g' (g.rule r) (g'.rule (σ r)) := by
    have h2 := (p.rec_rule h1).1
    refine ⟨p.lhs h1, p.rhs h1, ?_, ⟨fun s hs => (p.hd.precSym r h1 s hs).1, fun s hs => (p.hd'.precSym _ h2 s hs).1⟩, (p.hd.fresh r h1).1, (p.hd'.fresh _ h2).1⟩
    obtain ⟨_, u, u1, u2⟩ := p.rec_rule h1
    have u1 := u1.2.2.2
    have u2 := u2.2.2.2
    have l1 := p.hd.precSym r h1
    have l2 := p.hd'.precSym _ h2
    cases hu : u.2.2.2 with
    | none =>
      rw [hu] at u1 u2
      cases hs : (g.rule r).precSym with
      | none =>
        cases hs' : (g'.rule (σ r)).precSym with
        | none => rfl
        | some s' => rw [hs'] at u2; exact u2.elim
      | some s => rw [hs] at u1; exact u1.elim
    | some i =>
      rw [hu] at u1 u2
      cases hs : (g.rule r).precSym with
      | none => rw [hs] at u1; exact u1.elim
      | some s =>
        cases hs' : (g'.rule (σ r)).precSym with
        | none => rw [hs'] at u2; exact u2.elim
        | some s' =>
          rw [hs] at u1
          rw [hs'] at u2
          simp only [Option.map_some, Option.some.injEq]
          rw [(p.decl.sym p.hd (l1 s hs).1 u1).1, (p.decl'.sym p.hd' (l2 s' hs').1 u2).1, p.like.prec]

theorem likeP (ho : OrdOk ord) (ho' : OrdOk ord') (b : BridgeP ord ds) (b' : BridgeP ord' ds') (hl : LikeRules ds ds') (hm : Carries ds ds' σ τ)
    (hopt : List.Forall₂ (SameKey b.gD b'.gD) (ord b.gD.optionals) (ord' b'.gD.optionals)) :
    b'.gP.rules.length = b.gP.rules.length ∧ b.gD.rules.length ≤ b.gP.rules.length ∧
      ∀ r, r < b.gP.rules.length → RuleLike σ b.gD b'.gD (b.gP.rule r) (b'.gP.rule (σ r)) := by
  have p := pair_of b.parsed b'.parsed hl hm
  have hn := p.nrules
  have hw : (ds.filterMap Decl.rule?).length = b.gD.rules.length := p.recs.length_eq
  have hO : List.Forall₂ (RuleLike σ b.gD b'.gD) ((ord b.gD.optionals).flatMap optRules) ((ord' b'.gD.optionals).flatMap optRules) := forall₂_flatMap hopt (by
    rintro ⟨a, x⟩ hm ⟨a', y⟩ hm' ⟨i, h1, h2⟩
    have hm := (ho _).mem_iff.1 hm
    have hm' := (ho' _).mem_iff.1 hm'
    obtain ⟨_, _, k1, _, _⟩ := p.hd.opt hm
    obtain ⟨_, _, k2, _, _⟩ := p.hd'.opt hm'
    have hc : Corr σ b.gD b'.gD x y := .optional hm hm' h1 h2
    refine .cons ⟨hc, .nil, rfl, ⟨?_, ?_⟩, rfl, rfl⟩ (.cons ⟨hc, .cons (.named k1 k2 h1 h2) .nil, rfl, ⟨?_, ?_⟩, rfl, rfl⟩ .nil) <;>
      · intro s hs; cases hs)
  have e1 := b.rulesP
  have e2 := b'.rulesP
  have hl1 := congrArg List.length e1
  have hl2 := congrArg List.length e2
  rw [List.length_append] at hl1 hl2
  have hol := hO.length_eq
  refine ⟨by omega, by omega, ?_⟩
  intro r hr
  by_cases hd : r < b.gD.rules.length
  · have h1 := ruleD p hd
    have h2 := (p.rec_rule hd).1
    have q1 : b.gP.rule r = b.gD.rule r := by
      unfold Grammar.rule; rw [e1, List.getD_eq_getElem?_getD, List.getElem?_append_left hd, List.getD_eq_getElem?_getD]
    have q2 : b'.gP.rule (σ r) = b'.gD.rule (σ r) := by
      unfold Grammar.rule; rw [e2, List.getD_eq_getElem?_getD, List.getElem?_append_left h2, List.getD_eq_getElem?_getD]
    rw [q1, q2]; exact h1
  · have hd := Nat.le_of_not_lt hd
    rw [hm.bij.out r (by omega)]
    have k1 : r - b.gD.rules.length < ((ord b.gD.optionals).flatMap optRules).length := by omega
    have k2 : r - b.gD.rules.length < ((ord' b'.gD.optionals).flatMap optRules).length := by omega
    have q := List.Forall₂.get hO k1 k2
    simp only [List.get_eq_getElem] at q
    have q1 : b.gP.rule r = ((ord b.gD.optionals).flatMap optRules)[r - b.gD.rules.length] := by
      unfold Grammar.rule; rw [e1, List.getD_eq_getElem?_getD, List.getElem?_append_right hd, List.getElem?_eq_getElem k1]; rfl
    have q2 : b'.gP.rule r = ((ord' b'.gD.optionals).flatMap optRules)[r - b.gD.rules.length] := by
      unfold Grammar.rule; rw [e2, List.getD_eq_getElem?_getD, List.getElem?_append_right (hn ▸ hd), hn, List.getElem?_eq_getElem k2]; rfl
    rw [q1, q2]; exact q

theorem like_prec (b : BridgeP ord ds) (b' : BridgeP ord' ds') (hl : LikeRules ds ds') (hm : Carries ds ds' σ τ) {a a' : Rule} (h : RuleLike σ b.gD b'.gD a a') :
    (b'.gP.rulePrec a').precedence = (b.gP.rulePrec a).precedence := by
  have p := pair_of b.parsed b'.parsed hl hm
  rw [rulePrec_precedence _ h.fresh.1, rulePrec_precedence _ h.fresh.2]
  have hp := h.precSym
  cases hs : a.precSym with
  | none =>
    cases hs' : a'.precSym with
    | some s' => rw [hs, hs'] at hp; cases hp
    | none =>
      simp only
      refine findSome?_corr h.rhs ?_
      intro x _ y _ hc
      obtain ⟨h1, h2⟩ := p.lt hc
      rw [b.symPrecP h1, b'.symPrecP h2, p.symPrec hc]
  | some s =>
    cases hs' : a'.precSym with
    | none => rw [hs, hs'] at hp; cases hp
    | some s' =>
      rw [hs, hs'] at hp
      simp only [Option.map_some, Option.some.injEq] at hp
      simp only
      have e1 : (b.gP.sym s).precedence = (b.gD.sym s).precedence := congrArg (·.2.2.2.2.1) (b.keepP s (h.lt.1 s hs))
      have e2 : (b'.gP.sym s').precedence = (b'.gD.sym s').precedence := congrArg (·.2.2.2.2.1) (b'.keepP s' (h.lt.2 s' hs'))
      rw [e1, e2, hp]

theorem like_rule (ho : OrdOk ord) (ho' : OrdOk ord') (b : Bridge0 ord ds g) (b' : Bridge0 ord' ds' g') (hl : LikeRules ds ds') (hm : Carries ds ds' σ τ)
    (hopt : List.Forall₂ (SameKey b.gD b'.gD) (ord b.gD.optionals) (ord' b'.gD.optionals)) :
    g'.rules.length = g.rules.length ∧ b.gD.rules.length ≤ g.rules.length ∧ ∀ r, r < g.rules.length →
      Corr σ b.gD b'.gD (g.rule r).lhs (g'.rule (σ r)).lhs ∧
      List.Forall₂ (Corr σ b.gD b'.gD) (g.rhsSyms r) (g'.rhsSyms (σ r)) ∧ (g'.rule (σ r)).precedence = (g.rule r).precedence := by
  obtain ⟨l0, lD, h⟩ := likeP ho ho' b.toBridgeP b'.toBridgeP hl hm hopt
  have l1 := b.rules.length_eq
  have l2 := b'.rules.length_eq
  have hw : (ds.filterMap Decl.rule?).length = b.gD.rules.length := (pair_of b.parsed b'.parsed hl hm).recs.length_eq
  refine ⟨by omega, by omega, ?_⟩
  intro r (hr : r < _)
  have q1 : r < b.gP.rules.length := by omega
  have hr' : σ r < b.gP.rules.length := hm.bij.lt_of (by omega) q1
  have q2 : σ r < b'.gP.rules.length := by omega
  have q3 : σ r < g'.rules.length := by omega
  have k := h r q1
  obtain ⟨c, c1, c2⟩ := List.Forall₂.get b.rules q1 hr
  obtain ⟨c', d1, d2⟩ := List.Forall₂.get b'.rules q2 q3
  simp only [List.get_eq_getElem] at c1 c2 d1 d2
  have e : g.rules[r] = g.rule r := by simp [Grammar.rule, List.getElem?_eq_getElem hr]
  have e' : g'.rules[σ r] = g'.rule (σ r) := by simp [Grammar.rule, List.getElem?_eq_getElem q3]
  have f : b.gP.rules[r] = b.gP.rule r := by simp [Grammar.rule, List.getElem?_eq_getElem q1]
  have f' : b'.gP.rules[σ r] = b'.gP.rule (σ r) := by simp [Grammar.rule, List.getElem?_eq_getElem q2]
  rw [e] at c2
  rw [e'] at d2
  rw [f] at c1
  rw [f'] at d1
  have n1 := normalizeRule_keeps c1
  have n2 := normalizeRule_keeps d1
  have r1 := rulePrec_keeps b.gP (b.gP.rule r)
  have r2 := rulePrec_keeps b'.gP (b'.gP.rule (σ r))
  have hpr := like_prec b.toBridgeP b'.toBridgeP hl hm k
  unfold Grammar.rhsSyms
  rw [c2, d2]
  simp only
  rw [n1.1, n2.1, n1.2.1, n2.2.1, n1.2.2.1, n2.2.2.1, r1.1, r2.1, r1.2.1, r2.2.1]
  exact ⟨k.lhs, k.rhs, hpr⟩

/-- The grammars of two lists of declarations that say the same correspond to each other. -/
def shufOf (ho : OrdOk ord) (ho' : OrdOk ord') (b : Bridge0 ord ds g) (b' : Bridge0 ord' ds' g') (hl : LikeRules ds ds') (hm : Carries ds ds' σ τ)
    (hopt : List.Forall₂ (SameKey b.gD b'.gD) (ord b.gD.optionals) (ord' b'.gD.optionals)) : Shuf g g' :=
  have p := pair_of b.parsed b'.parsed hl hm
  { rel := Corr σ b.gD b'.gD
    fn := fun h k => h.fn p.hd p.hd' p.once k
    inj := fun h k => (h.symm p.moves.bij.left).fn p.hd' p.hd p.once' (k.symm p.moves.bij.left)
    lt := fun h => by
      obtain ⟨h1, h2⟩ := p.lt h
      exact ⟨b.lt_of_gD h1, b'.lt_of_gD h2⟩
    kind := fun {x y} h => by
      obtain ⟨h1, h2⟩ := p.lt h
      have e1 : (g.sym x).kind = (b.gD.sym x).kind := congrArg (·.2.1) (b.keep x h1)
      have e2 : (g'.sym y).kind = (b'.gD.sym y).kind := congrArg (·.2.1) (b'.keep y h2)
      rw [e1, e2, p.kind h]
    prec := fun {x y} h => by
      obtain ⟨h1, h2⟩ := p.lt h
      have e1 : (g.sym x).precedence = (b.gD.sym x).precedence := congrArg (·.2.2.2.2.1) (b.keep x h1)
      have e2 : (g'.sym y).precedence = (b'.gD.sym y).precedence := congrArg (·.2.2.2.2.1) (b'.keep y h2)
      rw [e1, e2, p.prec h]
    subs := fun {x y} h => by
      obtain ⟨h1, h2⟩ := p.lt h
      have e1 : (g.sym x).subs = (b.gD.sym x).subs := congrArg (·.2.2.1) (b.keep x h1)
      have e2 : (g'.sym y).subs = (b'.gD.sym y).subs := congrArg (·.2.2.1) (b'.keep y h2)
      rw [e1, e2]; exact p.subs h
    σ := σ
    τ := τ
    σlt := fun {r} hr => by
      obtain ⟨h1, h2, _⟩ := like_rule ho ho' b b' hl hm hopt
      have hw : (ds.filterMap Decl.rule?).length = b.gD.rules.length := p.recs.length_eq
      rw [h1]; exact hm.bij.lt_of (by omega) hr
    τlt := fun {r} hr => by
      obtain ⟨h1, h2, _⟩ := like_rule ho ho' b b' hl hm hopt
      have hw : (ds.filterMap Decl.rule?).length = b.gD.rules.length := p.recs.length_eq
      exact hm.bij.symm.lt_of (by omega) (h1 ▸ hr)
    left := hm.bij.left
    right := hm.bij.right
    lhs := fun r hr => ((like_rule ho ho' b b' hl hm hopt).2.2 r hr).1
    rhs := fun r hr => ((like_rule ho ho' b b' hl hm hopt).2.2 r hr).2.1
    rprec := fun r hr => ((like_rule ho ho' b b' hl hm hopt).2.2 r hr).2.2
    start := by
      rw [b.start, b'.start]
      exact p.start b.nonempty
    dollar := .dollar }

/-! ## The order of the optional symbols -/

theorem opt_same (p : Pair σ τ g g' ds ds') (hp : Grammar.initial.parseDecls ds = .ok g) {o : SymbolId × SymbolId} (h : o ∈ g.optionals) :
    ∃ o' ∈ g'.optionals, SameKey g g' o o' := by
  obtain ⟨u, hu, e, he, h4, i, h5, h6⟩ := opt_source hp o h
  have hu := p.like.mem hu
  obtain ⟨n, hn⟩ := List.mem_iff_getElem?.1 hu
  have hn : (ds'.filterMap Decl.rule?)[n]? = some (u.lhs, u.rhs, u.code, u.prec) := by
    rw [filterMap_rule?, List.getElem?_map, hn]; rfl
  obtain ⟨r, _, hr⟩ := forall₂_mem_left p.recs' (List.mem_of_getElem? hn)
  obtain ⟨x, _, hs⟩ := forall₂_mem_left hr.2.1 he
  rcases hs.2 with ⟨tok, t1, t2, t3⟩ | ⟨tok, symR, t1, t2, _, t4, t5⟩ | ⟨t1, t2, _⟩
  · rw [h4] at t2; cases t2
  · rw [h5] at t1
    cases t1
    exact ⟨_, t4, i, h6, t5⟩
  · exact absurd h5 (t1 i)

/-- The optional symbols of the one in the order of the other -/
theorem opt_order (ho : OrdOk ord) (p : Pair σ τ g g' ds ds') (hp : Grammar.initial.parseDecls ds = .ok g) (hp' : Grammar.initial.parseDecls ds' = .ok g') :
    ∃ ord', OrdOk ord' ∧ List.Forall₂ (SameKey g g') (ord g.optionals) (ord' g'.optionals) := by
  have hex : ∀ {l : List (SymbolId × SymbolId)}, (∀ o ∈ l, o ∈ g.optionals) → ∃ l', (∀ o' ∈ l', o' ∈ g'.optionals) ∧ List.Forall₂ (SameKey g g') l l' := by
    intro l
    induction l with
    | nil => intro _; exact ⟨[], by simp, .nil⟩
    | cons o l ih =>
      intro h
      obtain ⟨l', h1, h2⟩ := ih fun o ho => h o (by simp [ho])
      obtain ⟨o', h3, h4⟩ := opt_same p hp (h o (by simp))
      refine ⟨o' :: l', ?_, .cons h4 h2⟩
      intro x hx
      rcases List.mem_cons.1 hx with rfl | hx
      · exact h3
      · exact h1 x hx
  have hsub : ∀ o ∈ ord g.optionals, o ∈ g.optionals := fun o h => (ho _).mem_iff.1 h
  obtain ⟨l', h1, h2⟩ := hex hsub
  have hnd : (ord g.optionals).Nodup := ((ho _).nodup_iff).2 (nodup_opts p.hd)
  have symm : ∀ {o o'}, SameKey g g' o o' → SameKey g' g o' o := fun ⟨i, a, b⟩ => ⟨i, b, a⟩
  have hnd' : l'.Nodup := by
    clear hex
    generalize ord g.optionals = l at *
    induction h2 with
    | nil => exact .nil
    | @cons o o' l l' k1 k2 ih =>
      rw [List.nodup_cons] at hnd ⊢
      refine ⟨fun hm => ?_, ih (fun o ho => h1 o (by simp [ho])) (fun o ho => hsub o (by simp [ho])) hnd.2⟩
      obtain ⟨x, hx, hr⟩ := forall₂_mem_right k2 hm
      have := SameKey.inj p.hd (hsub o (by simp)) (hsub x (by simp [hx])) k1 hr
      exact hnd.1 (this ▸ hx)
  have hperm : l'.Perm g'.optionals := by
    rw [List.perm_ext_iff_of_nodup hnd' (nodup_opts p.hd')]
    intro o'
    refine ⟨h1 o', fun hm => ?_⟩
    obtain ⟨o, m1, m2⟩ := opt_same p.symm hp' hm
    obtain ⟨o2, m3, m4⟩ := forall₂_mem_left h2 ((ho _).mem_iff.2 m1)
    have := SameKey.inj p.hd' hm (h1 o2 m3) m2 (symm m4)
    rw [this]; exact m3
  refine ⟨fun l => if l = g'.optionals then l' else l, ?_, ?_⟩
  · intro l
    simp only
    split
    · rename_i h; rw [h]; exact hperm
    · exact .refl _
  · simp only [if_true]; exact h2

end Sh

end Pomelo
