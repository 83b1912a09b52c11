import Verif.Proofs.EmbedActs
import Verif.Proofs.AnonOnce
import Verif.Proofs.Swap
import Verif.Proofs.Early
/-! # Grammars of declarations that say the same -/

namespace Pomelo
open Spec

/-- Two lists of declarations say the same, but for the tokens that they mention. -/
structure LikeDecls (ds ds' : List Decl) : Prop where
  type : ∀ i, typeOf ds i = typeOf ds' i
  prec : ∀ i, precOf ds i = precOf ds' i
  fallback : ∀ i, fallbackOf ds i = fallbackOf ds' i
  multi : ∀ i, isClass ds i = isClass ds' i
  subs : ∀ i, classMembers ds i = classMembers ds' i
  rules : ds.filterMap Decl.rule? = ds'.filterMap Decl.rule?
  glob : ds.foldl Glob.step Grammar.initial.glob = ds'.foldl Glob.step Grammar.initial.glob

theorem SameDecls.like {ds ds' : List Decl} (h : SameDecls ds ds') : LikeDecls ds ds' :=
  ⟨h.type, h.prec, h.fallback, h.multi, h.subs, h.rules, h.glob⟩

theorem LikeDecls.symm {ds ds' : List Decl} (h : LikeDecls ds ds') : LikeDecls ds' ds :=
  ⟨fun i => (h.type i).symm, fun i => (h.prec i).symm, fun i => (h.fallback i).symm, fun i => (h.multi i).symm, fun i => (h.subs i).symm,
   h.rules.symm, h.glob.symm⟩

theorem LikeDecls.rulesOf {ds ds' : List Decl} (h : LikeDecls ds ds') : Spec.rulesOf ds = Spec.rulesOf ds' := by
  have := h.rules
  rw [filterMap_rule?, filterMap_rule?] at this
  refine List.map_injective_iff.2 ?_ this
  rintro ⟨a, b, c, d⟩ ⟨a', b', c', d'⟩ h
  simpa using h

/-- Symbols that correspond to each other -/
inductive Corr (g g' : Grammar) : SymbolId → SymbolId → Prop
  | dollar : Corr g g' 0 0
  | named {x y i} : x < g.syms.length → y < g'.syms.length → (g.sym x).name = .ident i → (g'.sym y).name = .ident i → Corr g g' x y
  | optional {a x a' y i} : (a, x) ∈ g.optionals → (a', y) ∈ g'.optionals → (g.sym a).name = .ident i → (g'.sym a').name = .ident i → Corr g g' x y
  | compound {r i : Nat} {x y : RhsSym} : r < g.rules.length → r < g'.rules.length → (g.rule r).rhs[i]? = some x → (g'.rule r).rhs[i]? = some y →
      (g.sym x.sym).name = .anon → (g'.sym y.sym).name = .anon → Corr g g' x.sym y.sym

theorem Corr.symm {g g' : Grammar} {x y : SymbolId} (h : Corr g g' x y) : Corr g' g y x := by
  cases h with
  | dollar => exact .dollar
  | named h1 h2 h3 h4 => exact .named h2 h1 h4 h3
  | optional h1 h2 h3 h4 => exact .optional h2 h1 h4 h3
  | compound h1 h2 h3 h4 h5 h6 => exact .compound h2 h1 h4 h3 h6 h5

theorem DInv.opt {g : Grammar} (hd : DInv g) {a b : SymbolId} (h : (a, b) ∈ g.optionals) :
    ∃ k, g.optionals[k]? = some (a, b) ∧ a < g.syms.length ∧ b < g.syms.length ∧ (g.sym b).name = .opt k := by
  obtain ⟨k, hk⟩ := List.mem_iff_getElem?.1 h
  have := hd.opts k a b hk
  exact ⟨k, hk, this.1, this.2.1, this.2.2.2⟩

theorem DInv.ident_inj {g : Grammar} (hd : DInv g) {x y : SymbolId} (hx : x < g.syms.length) (hy : y < g.syms.length) {i : Ident}
    (h1 : (g.sym x).name = .ident i) (h2 : (g.sym y).name = .ident i) : x = y :=
  hd.names x y hx hy (by rw [h1, h2]) (by rw [h1]; simp)

theorem Corr.fn {g g' : Grammar} (hd : DInv g) (hd' : DInv g') (ho : AnonOnce g) {x y y' : SymbolId}
    (h : Corr g g' x y) (k : Corr g g' x y') : y = y' := by
  cases h with
  | dollar =>
    generalize hx : (0 : SymbolId) = x at k
    have hn : (g.sym x).name = .dollar := by rw [← hx]; exact hd.dollar
    cases k with
    | dollar => rfl
    | named _ _ h3 _ => rw [hn] at h3; cases h3
    | optional h1 _ _ _ => obtain ⟨_, _, _, _, e⟩ := hd.opt h1; rw [hn] at e; cases e
    | compound _ _ _ _ h5 _ => rw [hn] at h5; cases h5
  | named h1 h2 hn h4 =>
    cases k with
    | dollar => rw [hd.dollar] at hn; cases hn
    | named _ k2 k3 k4 =>
      rw [hn] at k3; cases k3
      exact hd'.ident_inj h2 k2 h4 k4
    | optional h1 _ _ _ => obtain ⟨_, _, _, _, e⟩ := hd.opt h1; rw [hn] at e; cases e
    | compound _ _ _ _ h5 _ => rw [hn] at h5; cases h5
  | @optional a _ a' _ i h1 h2 h3 h4 =>
    obtain ⟨n, n1, _, n3, hn⟩ := hd.opt h1
    cases k with
    | dollar => rw [hd.dollar] at hn; cases hn
    | named _ k2 k3 k4 => rw [hn] at k3; cases k3
    | @optional b _ b' _ j k1 k2 k3 k4 =>
      obtain ⟨m, m1, _, _, hm⟩ := hd.opt k1
      rw [hn] at hm
      cases hm
      rw [n1] at m1
      cases m1
      rw [h3] at k3
      cases k3
      obtain ⟨p, p1, p2, _, _⟩ := hd'.opt h2
      obtain ⟨q, q1, q2, _, _⟩ := hd'.opt k2
      have hab := hd'.ident_inj p2 q2 h4 k4
      subst hab
      have hpq : p = q := by
        have hl : p < (g'.optionals.map Prod.fst).length := by
          rw [List.length_map]; exact (List.getElem?_eq_some_iff.1 p1).1
        refine (List.getElem?_inj hl hd'.optKeys).1 ?_
        rw [List.getElem?_map, List.getElem?_map, p1, q1]; rfl
      subst hpq
      rw [p1] at q1
      cases q1
      rfl
    | compound _ _ _ _ h5 _ => rw [hn] at h5; cases h5
  | @compound r i x y h1 h2 h3 h4 hn h6 =>
    generalize hx : x.sym = z at k
    rw [hx] at hn
    cases k with
    | dollar => rw [hd.dollar] at hn; cases hn
    | named _ _ h3 _ => rw [hn] at h3; cases h3
    | optional h1 _ _ _ => obtain ⟨_, _, _, _, e⟩ := hd.opt h1; rw [hn] at e; cases e
    | @compound r' j x' y' k1 k2 k3 k4 k5 k6 =>
      obtain ⟨rfl, rfl⟩ := ho.once h1 k1 h3 k3 hx (by rw [hx]; exact hn)
      rw [h4] at k4
      cases k4
      rfl

/-- Two lists of declarations that say the same, both read -/
structure Pair (g g' : Grammar) (ds ds' : List Decl) : Prop where
  hd : DInv g
  hd' : DInv g'
  once : AnonOnce g
  once' : AnonOnce g'
  plain : PlainAnon g
  plain' : PlainAnon g'
  decl : Declared g ds
  decl' : Declared g' ds'
  recs : RulesRec g ds
  recs' : RulesRec g' ds'
  like : LikeDecls ds ds'
  glob : g.glob = g'.glob

theorem Pair.symm {g g' : Grammar} {ds ds' : List Decl} (p : Pair g g' ds ds') : Pair g' g ds' ds :=
  ⟨p.hd', p.hd, p.once', p.once, p.plain', p.plain, p.decl', p.decl, p.recs', p.recs, p.like.symm, p.glob.symm⟩

theorem pair_of {g g' : Grammar} {ds ds' : List Decl} (h : Grammar.initial.parseDecls ds = .ok g) (h' : Grammar.initial.parseDecls ds' = .ok g')
    (hl : LikeDecls ds ds') : Pair g g' ds ds' where
  hd := (DInv.initial.parseDecls h).1
  hd' := (DInv.initial.parseDecls h').1
  once := AnonOnce.initial.parseDecls DInv.initial h
  once' := AnonOnce.initial.parseDecls DInv.initial h'
  plain := PlainAnon.initial.parseDecls DInv.initial h
  plain' := PlainAnon.initial.parseDecls DInv.initial h'
  decl := declared h
  decl' := declared h'
  recs := (DInv.initial.parseDecls h).2.2 [] (by exact List.Forall₂.nil)
  recs' := (DInv.initial.parseDecls h').2.2 [] (by exact List.Forall₂.nil)
  like := hl
  glob := by rw [(preAll_parseDecls DInv.initial h).2.1, (preAll_parseDecls DInv.initial h').2.1, hl.glob]

namespace Pair
variable {g g' : Grammar} {ds ds' : List Decl}

theorem lt (p : Pair g g' ds ds') {x y : SymbolId} (h : Corr g g' x y) : x < g.syms.length ∧ y < g'.syms.length := by
  cases h with
  | dollar => exact ⟨Nat.lt_of_lt_of_le (by decide) p.hd.two, Nat.lt_of_lt_of_le (by decide) p.hd'.two⟩
  | named h1 h2 _ _ => exact ⟨h1, h2⟩
  | optional h1 h2 _ _ =>
    obtain ⟨_, _, _, a, _⟩ := p.hd.opt h1
    obtain ⟨_, _, _, b, _⟩ := p.hd'.opt h2
    exact ⟨a, b⟩
  | compound h1 h2 h3 h4 _ _ => exact ⟨(p.hd.rhs _ h1 _ (List.mem_of_getElem? h3)).1, (p.hd'.rhs _ h2 _ (List.mem_of_getElem? h4)).1⟩

theorem kind (p : Pair g g' ds ds') {x y : SymbolId} (h : Corr g g' x y) : (g'.sym y).kind = (g.sym x).kind := by
  obtain ⟨hx, hy⟩ := p.lt h
  have k1 := p.hd.kinds x hx
  have k2 := p.hd'.kinds y hy
  have fin : ∀ {n m : SymName} {k k' : SymKind}, kindOk n k = true → kindOk m k' = true →
      (n = .dollar ∧ m = .dollar ∨ (∃ i j, n = .opt i ∧ m = .opt j) ∨ n = .anon ∧ m = .anon) → k' = k := by
    intro n m k k' h1 h2 h3
    rcases h3 with ⟨rfl, rfl⟩ | ⟨i, j, rfl, rfl⟩ | ⟨rfl, rfl⟩ <;> cases k <;> cases k' <;> simp_all [kindOk]
  cases h with
  | dollar => exact fin k1 k2 (.inl ⟨p.hd.dollar, p.hd'.dollar⟩)
  | named h1 h2 h3 h4 =>
    have m1 := (p.decl.sym p.hd hx h3).2.1
    have m2 := (p.decl'.sym p.hd' hy h4).2.1
    rw [p.like.multi, ← m2] at m1
    refine (kind_of k1 (by rw [h3, ← h4]; exact k2) ?_).symm
    rw [decide_eq_decide]; exact m1
  | optional h1 h2 _ _ =>
    obtain ⟨_, _, _, _, a⟩ := p.hd.opt h1
    obtain ⟨_, _, _, _, b⟩ := p.hd'.opt h2
    exact fin k1 k2 (.inr (.inl ⟨_, _, a, b⟩))
  | compound _ _ _ _ a b => exact fin k1 k2 (.inr (.inr ⟨a, b⟩))

theorem prec (p : Pair g g' ds ds') {x y : SymbolId} (h : Corr g g' x y) : (g'.sym y).precedence = (g.sym x).precedence := by
  obtain ⟨hx, hy⟩ := p.lt h
  have fin : (g.sym x).name.isIdent = false → (g'.sym y).name.isIdent = false → (g'.sym y).precedence = (g.sym x).precedence :=
    fun a b => by rw [(p.plain x hx a).1, (p.plain' y hy b).1]
  cases h with
  | dollar => exact fin (by rw [p.hd.dollar]; rfl) (by rw [p.hd'.dollar]; rfl)
  | named h1 h2 h3 h4 => rw [(p.decl.sym p.hd hx h3).1, (p.decl'.sym p.hd' hy h4).1, p.like.prec]
  | optional h1 h2 _ _ =>
    obtain ⟨_, _, _, _, a⟩ := p.hd.opt h1
    obtain ⟨_, _, _, _, b⟩ := p.hd'.opt h2
    exact fin (by rw [a]; rfl) (by rw [b]; rfl)
  | compound _ _ _ _ a b => exact fin (by rw [a]; rfl) (by rw [b]; rfl)

theorem corr_names {l l' : List SymbolId} (hl : ∀ m ∈ l, m < g.syms.length) (hl' : ∀ m ∈ l', m < g'.syms.length) : ∀ {ids : List Ident},
    l.map (fun m => (g.sym m).name) = ids.map SymName.ident → l'.map (fun m => (g'.sym m).name) = ids.map SymName.ident →
    List.Forall₂ (Corr g g') l l' := by
  induction l generalizing l' with
  | nil =>
    intro ids h h'
    cases ids with
    | nil => cases l' with
      | nil => exact .nil
      | cons _ _ => simp at h'
    | cons _ _ => simp at h
  | cons a l ih =>
    intro ids h h'
    cases ids with
    | nil => simp at h
    | cons i ids =>
      cases l' with
      | nil => simp at h'
      | cons b l' =>
        simp only [List.map_cons, List.cons.injEq] at h h'
        exact .cons (.named (hl a (by simp)) (hl' b (by simp)) h.1 h'.1)
          (ih (fun m hm => hl m (by simp [hm])) (fun m hm => hl' m (by simp [hm])) h.2 h'.2)

theorem rec_rule (p : Pair g g' ds ds') {r : Nat} (hr : r < g.rules.length) : r < g'.rules.length ∧
    ∃ u : Ident × List RhsElem × Option Nat × Option Ident, RuleRec g u.1 u.2.1 u.2.2.1 u.2.2.2 (g.rule r) ∧ RuleRec g' u.1 u.2.1 u.2.2.1 u.2.2.2 (g'.rule r) := by
  have h1 := p.recs
  have h2 := p.recs'
  unfold RulesRec at h1 h2
  rw [← p.like.rules] at h2
  have l1 := h1.length_eq
  have l2 := h2.length_eq
  have hr' : r < g'.rules.length := by rw [← l2, l1]; exact hr
  have hu : r < (ds.filterMap Decl.rule?).length := l1 ▸ hr
  have a := List.Forall₂.get h1 hu hr
  have b := List.Forall₂.get h2 hu hr'
  simp only [List.get_eq_getElem] at a b
  have e : g.rules[r] = g.rule r := by simp [Grammar.rule, List.getElem?_eq_getElem hr]
  have e' : g'.rules[r] = g'.rule r := by simp [Grammar.rule, List.getElem?_eq_getElem hr']
  rw [e] at a
  rw [e'] at b
  exact ⟨hr', _, a, b⟩

theorem nrules (p : Pair g g' ds ds') : g'.rules.length = g.rules.length := by
  have h1 := p.recs.length_eq
  have h2 := p.recs'.length_eq
  rw [← p.like.rules] at h2
  rw [← h1, ← h2]

theorem lhs (p : Pair g g' ds ds') {r : Nat} (hr : r < g.rules.length) : Corr g g' (g.rule r).lhs (g'.rule r).lhs := by
  obtain ⟨hr', u, a, b⟩ := p.rec_rule hr
  exact .named (p.hd.lhs r hr).1 (p.hd'.lhs r hr').1 a.1 b.1

theorem elem (p : Pair g g' ds ds') {r : Nat} (hr : r < g.rules.length) {i : Nat} {x y : RhsSym} (hx : (g.rule r).rhs[i]? = some x)
    (hy : (g'.rule r).rhs[i]? = some y) : Corr g g' x.sym y.sym ∧ ∃ e, ElemRec g e x ∧ ElemRec g' e y := by
  obtain ⟨hr', u, a, b⟩ := p.rec_rule hr
  have hxl := (p.hd.rhs r hr x (List.mem_of_getElem? hx)).1
  have hyl := (p.hd'.rhs r hr' y (List.mem_of_getElem? hy)).1
  obtain ⟨hi, ex⟩ := List.getElem?_eq_some_iff.1 hx
  obtain ⟨hj, ey⟩ := List.getElem?_eq_some_iff.1 hy
  have hu : i < u.2.1.length := by rw [a.2.1.length_eq]; exact hi
  have h := List.Forall₂.get a.2.1 hu hi
  have h' := List.Forall₂.get b.2.1 hu hj
  simp only [List.get_eq_getElem] at h h'
  rw [ex] at h
  rw [ey] at h'
  refine ⟨?_, _, h, h'⟩
  generalize u.2.1[i] = e at h h'
  obtain ⟨_, h⟩ := h
  obtain ⟨_, h'⟩ := h'
  rcases h with ⟨tok, h1, h2, h3⟩ | ⟨tok, symR, h1, h2, h3, h4, h5⟩ | ⟨h1, h2, h3⟩ <;>
    rcases h' with ⟨tok', h1', h2', h3'⟩ | ⟨tok', symR', h1', h2', h3', h4', h5'⟩ | ⟨h1', h2', h3'⟩
  · rw [h1] at h1'; cases h1'
    exact .named hxl hyl h3 h3'
  · rw [h2] at h2'; cases h2'
  · exact absurd h1 (h1' tok)
  · rw [h2] at h2'; cases h2'
  · rw [h1] at h1'; cases h1'
    exact .optional h4 h4' h5 h5'
  · exact absurd h1 (h1' tok)
  · exact absurd h1' (h1 tok')
  · exact absurd h1' (h1 tok')
  · exact .compound hr hr' hx hy h2 h2'

theorem rhs (p : Pair g g' ds ds') {r : Nat} (hr : r < g.rules.length) :
    List.Forall₂ (Corr g g') ((g.rule r).rhs.map (·.sym)) ((g'.rule r).rhs.map (·.sym)) := by
  obtain ⟨hr', u, a, b⟩ := p.rec_rule hr
  have hlen : (g.rule r).rhs.length = (g'.rule r).rhs.length := by rw [← a.2.1.length_eq, b.2.1.length_eq]
  rw [List.forall₂_iff_get]
  refine ⟨by simpa using hlen, ?_⟩
  intro i h1 h2
  simp only [List.length_map] at h1 h2
  simp only [List.get_eq_getElem, List.getElem_map]
  exact (p.elem hr (List.getElem?_eq_getElem h1) (List.getElem?_eq_getElem h2)).1

theorem subs (p : Pair g g' ds ds') {x y : SymbolId} (h : Corr g g' x y) : List.Forall₂ (Corr g g') (g.sym x).subs (g'.sym y).subs := by
  obtain ⟨hx, hy⟩ := p.lt h
  have s1 : ∀ m ∈ (g.sym x).subs, m < g.syms.length := fun m hm => (p.hd.subs x hx m hm).1
  have s2 : ∀ m ∈ (g'.sym y).subs, m < g'.syms.length := fun m hm => (p.hd'.subs y hy m hm).1
  have hk := p.kind h
  have fin : (g.sym x).kind ≠ .multiTerminal → List.Forall₂ (Corr g g') (g.sym x).subs (g'.sym y).subs := by
    intro hne
    have e1 : (g.sym x).subs = [] := Decidable.not_not.1 fun h => hne (p.hd.subsKind x hx h)
    have e2 : (g'.sym y).subs = [] := Decidable.not_not.1 fun h => hne (hk ▸ p.hd'.subsKind y hy h)
    rw [e1, e2]; exact .nil
  have k1 := p.hd.kinds x hx
  cases h with
  | dollar =>
    refine fin fun e => ?_
    rw [p.hd.dollar, e] at k1; cases k1
  | named h1 h2 h3 h4 =>
    refine corr_names s1 s2 (p.decl.sym p.hd hx h3).2.2.1 ?_
    rw [p.like.subs]
    exact (p.decl'.sym p.hd' hy h4).2.2.1
  | optional h1 h2 _ _ =>
    refine fin fun e => ?_
    obtain ⟨_, _, _, _, a⟩ := p.hd.opt h1
    rw [a, e] at k1; cases k1
  | @compound r i x y h1 h2 h3 h4 a b =>
    obtain ⟨e, ⟨_, u⟩, ⟨_, v⟩⟩ := (p.elem h1 h3 h4).2
    have nm : ∀ {g : Grammar} {l : List SymbolId} {ids : List Ident}, List.Forall₂ (fun s id => s < g.syms.length ∧ (g.sym s).name = .ident id) l ids →
        l.map (fun m => (g.sym m).name) = ids.map SymName.ident := by
      intro g l ids h
      induction h with
      | nil => rfl
      | cons h _ ih => simp [h.2, ih]
    have u3 : List.Forall₂ (fun s id => s < g.syms.length ∧ (g.sym s).name = .ident id) (g.sym x.sym).subs e.toks := by
      rcases u with ⟨tok, _, _, h⟩ | ⟨tok, symR, _, _, _, h, _⟩ | ⟨_, _, h⟩
      · rw [h] at a; cases a
      · obtain ⟨_, _, _, _, q⟩ := p.hd.opt h
        rw [q] at a; cases a
      · exact h
    have v3 : List.Forall₂ (fun s id => s < g'.syms.length ∧ (g'.sym s).name = .ident id) (g'.sym y.sym).subs e.toks := by
      rcases v with ⟨tok, _, _, h⟩ | ⟨tok, symR, _, _, _, h, _⟩ | ⟨_, _, h⟩
      · rw [h] at b; cases b
      · obtain ⟨_, _, _, _, q⟩ := p.hd'.opt h
        rw [q] at b; cases b
      · exact h
    exact corr_names s1 s2 (nm u3) (nm v3)

theorem symPrec (p : Pair g g' ds ds') {x y : SymbolId} (h : Corr g g' x y) : g'.symPrec y = g.symPrec x := by
  unfold Grammar.symPrec
  rw [p.kind h, p.prec h]
  have hs := p.subs h
  generalize (g.sym x).subs = l at hs
  generalize (g'.sym y).subs = l' at hs
  have : l'.findSome? (fun m => (g'.sym m).precedence) = l.findSome? (fun m => (g.sym m).precedence) := by
    induction hs with
    | nil => rfl
    | cons h1 _ ih => rw [List.findSome?_cons, List.findSome?_cons, p.prec h1, ih]
  rw [this]

theorem start (p : Pair g g' ds ds') (hne : g.rules ≠ []) :
    Corr g g' (g.start.getD (g.rule 0).lhs) (g'.start.getD (g'.rule 0).lhs) := by
  have h := congrArg Glob.start p.glob
  change g.start.map (fun s => (g.sym s).name) = g'.start.map (fun s => (g'.sym s).name) at h
  cases hs : g.start with
  | none =>
    rw [hs] at h
    cases hs' : g'.start with
    | none => exact p.lhs (List.length_pos_of_ne_nil hne)
    | some s' => rw [hs'] at h; cases h
  | some s =>
    rw [hs] at h
    cases hs' : g'.start with
    | none => rw [hs'] at h; cases h
    | some s' =>
      rw [hs'] at h
      simp only [Option.map_some, Option.some.injEq] at h
      obtain ⟨a1, a2⟩ := p.hd.start s hs
      obtain ⟨b1, _⟩ := p.hd'.start s' hs'
      cases hn : (g.sym s).name with
      | ident i => exact .named a1 b1 hn (h.symm.trans hn)
      | _ => rw [hn] at a2; cases a2

end Pair

variable {ord ord' : List (SymbolId × SymbolId) → List (SymbolId × SymbolId)} {ds ds' : List Decl} {g g' : Grammar}

/-- Optional symbols for symbols of the same name -/
def SameKey (g g' : Grammar) (o o' : SymbolId × SymbolId) : Prop := ∃ i, (g.sym o.1).name = .ident i ∧ (g'.sym o'.1).name = .ident i

/-- Rules that correspond to each other -/
structure RuleLike (g g' : Grammar) (a a' : Rule) : Prop where
  lhs : Corr g g' a.lhs a'.lhs
  rhs : List.Forall₂ (Corr g g') (a.rhs.map (·.sym)) (a'.rhs.map (·.sym))
  precSym : a.precSym.map (fun s => (g.sym s).precedence) = a'.precSym.map (fun s => (g'.sym s).precedence)
  lt : (∀ s, a.precSym = some s → s < g.syms.length) ∧ ∀ s, a'.precSym = some s → s < g'.syms.length
  fresh : a.precedence = none ∧ a'.precedence = none

theorem forall₂_flatMap {α β γ δ : Type} {R : α → β → Prop} {S : γ → δ → Prop} {f : α → List γ} {f' : β → List δ} {l : List α} {l' : List β}
    (h : List.Forall₂ R l l') (hf : ∀ a ∈ l, ∀ b ∈ l', R a b → List.Forall₂ S (f a) (f' b)) : List.Forall₂ S (l.flatMap f) (l'.flatMap f') := by
  induction h with
  | nil => exact .nil
  | cons h1 _ ih =>
    rw [List.flatMap_cons, List.flatMap_cons]
    exact forall₂_append (hf _ (by simp) _ (by simp) h1) (ih fun a ha b hb => hf a (by simp [ha]) b (by simp [hb]))

theorem likeP (ho : OrdOk ord) (ho' : OrdOk ord') (b : BridgeP ord ds) (b' : BridgeP ord' ds') (hl : LikeDecls ds ds')
    (hopt : List.Forall₂ (SameKey b.gD b'.gD) (ord b.gD.optionals) (ord' b'.gD.optionals)) :
    List.Forall₂ (RuleLike b.gD b'.gD) b.gP.rules b'.gP.rules := by
  have p := pair_of b.parsed b'.parsed hl
  rw [b.rulesP, b'.rulesP]
  apply forall₂_append
  · rw [List.forall₂_iff_get]
    refine ⟨p.nrules.symm, ?_⟩
    intro r h1 h2
    simp only [List.get_eq_getElem]
    have e : b.gD.rules[r] = b.gD.rule r := by simp [Grammar.rule, List.getElem?_eq_getElem h1]
    have e' : b'.gD.rules[r] = b'.gD.rule r := by simp [Grammar.rule, List.getElem?_eq_getElem h2]
    rw [e, e']
    refine ⟨p.lhs h1, p.rhs h1, ?_, ⟨fun s hs => (p.hd.precSym r h1 s hs).1, fun s hs => (p.hd'.precSym r h2 s hs).1⟩, (p.hd.fresh r h1).1, (p.hd'.fresh r h2).1⟩
    obtain ⟨_, u, u1, u2⟩ := p.rec_rule h1
    have u1 := u1.2.2.2
    have u2 := u2.2.2.2
    have l1 := p.hd.precSym r h1
    have l2 := p.hd'.precSym r h2
    cases hu : u.2.2.2 with
    | none =>
      rw [hu] at u1 u2
      cases hs : (b.gD.rule r).precSym with
      | none =>
        cases hs' : (b'.gD.rule r).precSym with
        | none => rfl
        | some s' => rw [hs'] at u2; exact u2.elim
      | some s => rw [hs] at u1; exact u1.elim
    | some i =>
      rw [hu] at u1 u2
      cases hs : (b.gD.rule r).precSym with
      | none => rw [hs] at u1; exact u1.elim
      | some s =>
        cases hs' : (b'.gD.rule r).precSym with
        | none => rw [hs'] at u2; exact u2.elim
        | some s' =>
          rw [hs] at u1
          rw [hs'] at u2
          simp only [Option.map_some, Option.some.injEq]
          rw [(p.decl.sym p.hd (l1 s hs).1 u1).1, (p.decl'.sym p.hd' (l2 s' hs').1 u2).1, p.like.prec]
  · refine forall₂_flatMap hopt ?_
    rintro ⟨a, x⟩ hm ⟨a', y⟩ hm' ⟨i, h1, h2⟩
    have hm := (ho _).mem_iff.1 hm
    have hm' := (ho' _).mem_iff.1 hm'
    obtain ⟨_, _, k1, _, _⟩ := p.hd.opt hm
    obtain ⟨_, _, k2, _, _⟩ := p.hd'.opt hm'
    have hc : Corr b.gD b'.gD x y := .optional hm hm' h1 h2
    refine .cons ⟨hc, .nil, rfl, ⟨?_, ?_⟩, rfl, rfl⟩ (.cons ⟨hc, .cons (.named k1 k2 h1 h2) .nil, rfl, ⟨?_, ?_⟩, rfl, rfl⟩ .nil) <;>
      · intro s hs; cases hs

theorem findSome?_corr {α β γ : Type} {R : α → β → Prop} {f : α → Option γ} {f' : β → Option γ} {l : List α} {l' : List β} (h : List.Forall₂ R l l')
    (hf : ∀ a ∈ l, ∀ b ∈ l', R a b → f' b = f a) : l'.findSome? f' = l.findSome? f := by
  induction h with
  | nil => rfl
  | cons h1 _ ih =>
    rw [List.findSome?_cons, List.findSome?_cons, hf _ (by simp) _ (by simp) h1, ih fun a ha b hb => hf a (by simp [ha]) b (by simp [hb])]

theorem rulePrec_precedence (g : Grammar) {a : Rule} (h : a.precedence = none) : (g.rulePrec a).precedence =
    match a.precSym with
    | some ps => (g.sym ps).precedence
    | none => (a.rhs.map (·.sym)).findSome? g.symPrec := by
  unfold Grammar.rulePrec
  cases a.precSym with
  | some ps => rfl
  | none =>
    simp only
    rw [List.findSome?_map]
    have : a.rhs.findSome? (g.symPrec ∘ fun x => x.sym) = a.rhs.findSome? fun s => g.symPrec s.sym := rfl
    rw [this, findSome?_find?]
    cases a.rhs.find? fun s => (g.symPrec s.sym).isSome with
    | none => simpa using h
    | some s => rfl

theorem like_prec (b : BridgeP ord ds) (b' : BridgeP ord' ds') (hl : LikeDecls ds ds') {a a' : Rule} (h : RuleLike b.gD b'.gD a a') :
    (b'.gP.rulePrec a').precedence = (b.gP.rulePrec a).precedence := by
  have p := pair_of b.parsed b'.parsed hl
  rw [rulePrec_precedence _ h.fresh.1, rulePrec_precedence _ h.fresh.2]
  have hp := h.precSym
  cases hs : a.precSym with
  | none =>
    cases hs' : a'.precSym with
    | some s' => rw [hs, hs'] at hp; cases hp
    | none =>
      simp only
      refine findSome?_corr h.rhs ?_
      intro x _ y _ hc
      obtain ⟨h1, h2⟩ := p.lt hc
      rw [b.symPrecP h1, b'.symPrecP h2, p.symPrec hc]
  | some s =>
    cases hs' : a'.precSym with
    | none => rw [hs, hs'] at hp; cases hp
    | some s' =>
      rw [hs, hs'] at hp
      simp only [Option.map_some, Option.some.injEq] at hp
      simp only
      have e1 : (b.gP.sym s).precedence = (b.gD.sym s).precedence := congrArg (·.2.2.2.2.1) (b.keepP s (h.lt.1 s hs))
      have e2 : (b'.gP.sym s').precedence = (b'.gD.sym s').precedence := congrArg (·.2.2.2.2.1) (b'.keepP s' (h.lt.2 s' hs'))
      rw [e1, e2, hp]

theorem like_rule (ho : OrdOk ord) (ho' : OrdOk ord') (b : Bridge0 ord ds g) (b' : Bridge0 ord' ds' g') (hl : LikeDecls ds ds')
    (hopt : List.Forall₂ (SameKey b.gD b'.gD) (ord b.gD.optionals) (ord' b'.gD.optionals)) :
    g'.rules.length = g.rules.length ∧ ∀ r, r < g.rules.length → Corr b.gD b'.gD (g.rule r).lhs (g'.rule r).lhs ∧
      List.Forall₂ (Corr b.gD b'.gD) (g.rhsSyms r) (g'.rhsSyms r) ∧ (g'.rule r).precedence = (g.rule r).precedence := by
  have h := likeP ho ho' b.toBridgeP b'.toBridgeP hl hopt
  have l0 := h.length_eq
  have l1 := b.rules.length_eq
  have l2 := b'.rules.length_eq
  refine ⟨by omega, ?_⟩
  intro r (hr : r < _)
  have q1 : r < b.gP.rules.length := by omega
  have q2 : r < b'.gP.rules.length := by omega
  have q3 : r < g'.rules.length := by omega
  have k := List.Forall₂.get h q1 q2
  obtain ⟨c, c1, c2⟩ := List.Forall₂.get b.rules q1 hr
  obtain ⟨c', d1, d2⟩ := List.Forall₂.get b'.rules q2 q3
  simp only [List.get_eq_getElem] at k c1 c2 d1 d2
  have e : g.rules[r] = g.rule r := by simp [Grammar.rule, List.getElem?_eq_getElem hr]
  have e' : g'.rules[r] = g'.rule r := by simp [Grammar.rule, List.getElem?_eq_getElem q3]
  rw [e] at c2
  rw [e'] at d2
  have n1 := normalizeRule_keeps c1
  have n2 := normalizeRule_keeps d1
  have r1 := rulePrec_keeps b.gP b.gP.rules[r]
  have r2 := rulePrec_keeps b'.gP b'.gP.rules[r]
  have hpr := like_prec b.toBridgeP b'.toBridgeP hl k
  unfold Grammar.rhsSyms
  rw [c2, d2]
  simp only
  rw [n1.1, n2.1, n1.2.1, n2.2.1, n1.2.2.1, n2.2.2.1, r1.1, r2.1, r1.2.1, r2.2.1]
  exact ⟨k.lhs, k.rhs, hpr⟩

/-- The grammars of two lists of declarations that say the same correspond to each other. -/
def embedOf (ho : OrdOk ord) (ho' : OrdOk ord') (b : Bridge0 ord ds g) (b' : Bridge0 ord' ds' g') (hl : LikeDecls ds ds')
    (hopt : List.Forall₂ (SameKey b.gD b'.gD) (ord b.gD.optionals) (ord' b'.gD.optionals)) : Embed g g' :=
  have p := pair_of b.parsed b'.parsed hl
  { rel := Corr b.gD b'.gD
    fn := fun h k => h.fn p.hd p.hd' p.once k
    inj := fun h k => h.symm.fn p.hd' p.hd p.once' k.symm
    lt := fun h => by
      obtain ⟨h1, h2⟩ := p.lt h
      exact ⟨b.lt_of_gD h1, b'.lt_of_gD h2⟩
    kind := fun {x y} h => by
      obtain ⟨h1, h2⟩ := p.lt h
      have e1 : (g.sym x).kind = (b.gD.sym x).kind := congrArg (·.2.1) (b.keep x h1)
      have e2 : (g'.sym y).kind = (b'.gD.sym y).kind := congrArg (·.2.1) (b'.keep y h2)
      rw [e1, e2, p.kind h]
    prec := fun {x y} h => by
      obtain ⟨h1, h2⟩ := p.lt h
      have e1 : (g.sym x).precedence = (b.gD.sym x).precedence := congrArg (·.2.2.2.2.1) (b.keep x h1)
      have e2 : (g'.sym y).precedence = (b'.gD.sym y).precedence := congrArg (·.2.2.2.2.1) (b'.keep y h2)
      rw [e1, e2, p.prec h]
    subs := fun {x y} h => by
      obtain ⟨h1, h2⟩ := p.lt h
      have e1 : (g.sym x).subs = (b.gD.sym x).subs := congrArg (·.2.2.1) (b.keep x h1)
      have e2 : (g'.sym y).subs = (b'.gD.sym y).subs := congrArg (·.2.2.1) (b'.keep y h2)
      rw [e1, e2]; exact p.subs h
    nrules := (like_rule ho ho' b b' hl hopt).1
    lhs := fun r hr => ((like_rule ho ho' b b' hl hopt).2 r hr).1
    rhs := fun r hr => ((like_rule ho ho' b b' hl hopt).2 r hr).2.1
    rprec := fun r hr => ((like_rule ho ho' b b' hl hopt).2 r hr).2.2
    start := by
      rw [b.start, b'.start]
      exact p.start b.nonempty
    dollar := .dollar }

/-! ## The order of the optional symbols -/

theorem opt_same (p : Pair g g' ds ds') (hp : Grammar.initial.parseDecls ds = .ok g) {o : SymbolId × SymbolId} (h : o ∈ g.optionals) :
    ∃ o' ∈ g'.optionals, SameKey g g' o o' := by
  obtain ⟨u, hu, e, he, h4, i, h5, h6⟩ := opt_source hp o h
  rw [p.like.rulesOf] at hu
  obtain ⟨n, hn⟩ := List.mem_iff_getElem?.1 hu
  have hn : (ds'.filterMap Decl.rule?)[n]? = some (u.lhs, u.rhs, u.code, u.prec) := by
    rw [filterMap_rule?, List.getElem?_map, hn]; rfl
  obtain ⟨r, _, hr⟩ := forall₂_mem_left p.recs' (List.mem_of_getElem? hn)
  obtain ⟨x, _, hs⟩ := forall₂_mem_left hr.2.1 he
  rcases hs.2 with ⟨tok, t1, t2, t3⟩ | ⟨tok, symR, t1, t2, _, t4, t5⟩ | ⟨t1, t2, _⟩
  · rw [h4] at t2; cases t2
  · rw [h5] at t1
    cases t1
    exact ⟨_, t4, i, h6, t5⟩
  · exact absurd h5 (t1 i)

theorem SameKey.inj (hd : DInv g) {o o2 o' : SymbolId × SymbolId} (h : o ∈ g.optionals) (h2 : o2 ∈ g.optionals) (k : SameKey g g' o o') (k2 : SameKey g g' o2 o') :
    o = o2 := by
  obtain ⟨i, k1, k3⟩ := k
  obtain ⟨j, k4, k5⟩ := k2
  rw [k3] at k5
  cases k5
  obtain ⟨n, n1, n2, _, _⟩ := hd.opt h
  obtain ⟨m, m1, m2, _, _⟩ := hd.opt h2
  have hab := hd.ident_inj n2 m2 k1 k4
  have hnm : n = m := by
    have hl : n < (g.optionals.map Prod.fst).length := by
      rw [List.length_map]; exact (List.getElem?_eq_some_iff.1 n1).1
    refine (List.getElem?_inj hl hd.optKeys).1 ?_
    rw [List.getElem?_map, List.getElem?_map, n1, m1]
    exact congrArg some hab
  subst hnm
  rw [n1] at m1
  exact Option.some.inj m1

theorem nodup_opts (hd : DInv g) : g.optionals.Nodup := List.Nodup.of_map _ hd.optKeys

/-- The optional symbols of the one in the order of the other -/
theorem opt_order (ho : OrdOk ord) (p : Pair g g' ds ds') (hp : Grammar.initial.parseDecls ds = .ok g) (hp' : Grammar.initial.parseDecls ds' = .ok g') :
    ∃ ord', OrdOk ord' ∧ List.Forall₂ (SameKey g g') (ord g.optionals) (ord' g'.optionals) := by
  have hex : ∀ {l : List (SymbolId × SymbolId)}, (∀ o ∈ l, o ∈ g.optionals) → ∃ l', (∀ o' ∈ l', o' ∈ g'.optionals) ∧ List.Forall₂ (SameKey g g') l l' := by
    intro l
    induction l with
    | nil => intro _; exact ⟨[], by simp, .nil⟩
    | cons o l ih =>
      intro h
      obtain ⟨l', h1, h2⟩ := ih fun o ho => h o (by simp [ho])
      obtain ⟨o', h3, h4⟩ := opt_same p hp (h o (by simp))
      refine ⟨o' :: l', ?_, .cons h4 h2⟩
      intro x hx
      rcases List.mem_cons.1 hx with rfl | hx
      · exact h3
      · exact h1 x hx
  have hsub : ∀ o ∈ ord g.optionals, o ∈ g.optionals := fun o h => (ho _).mem_iff.1 h
  obtain ⟨l', h1, h2⟩ := hex hsub
  have hnd : (ord g.optionals).Nodup := ((ho _).nodup_iff).2 (nodup_opts p.hd)
  have symm : ∀ {o o'}, SameKey g g' o o' → SameKey g' g o' o := fun ⟨i, a, b⟩ => ⟨i, b, a⟩
  have hnd' : l'.Nodup := by
    clear hex
    generalize ord g.optionals = l at *
    induction h2 with
    | nil => exact .nil
    | @cons o o' l l' k1 k2 ih =>
      rw [List.nodup_cons] at hnd ⊢
      refine ⟨fun hm => ?_, ih (fun o ho => h1 o (by simp [ho])) (fun o ho => hsub o (by simp [ho])) hnd.2⟩
      obtain ⟨x, hx, hr⟩ := forall₂_mem_right k2 hm
      have := SameKey.inj p.hd (hsub o (by simp)) (hsub x (by simp [hx])) k1 hr
      exact hnd.1 (this ▸ hx)
  have hperm : l'.Perm g'.optionals := by
    rw [List.perm_ext_iff_of_nodup hnd' (nodup_opts p.hd')]
    intro o'
    refine ⟨h1 o', fun hm => ?_⟩
    obtain ⟨o, m1, m2⟩ := opt_same p.symm hp' hm
    obtain ⟨o2, m3, m4⟩ := forall₂_mem_left h2 ((ho _).mem_iff.2 m1)
    have := SameKey.inj p.hd' hm (h1 o2 m3) m2 (symm m4)
    rw [this]; exact m3
  refine ⟨fun l => if l = g'.optionals then l' else l, ?_, ?_⟩
  · intro l
    simp only
    split
    · rename_i h; rw [h]; exact hperm
    · exact .refl _
  · simp only [if_true]; exact h2

end Pomelo
