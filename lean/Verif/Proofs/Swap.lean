import Verif.Proofs.Exchange
import Verif.Proofs.Names
/-! # Two adjacent declarations change places -/

namespace Pomelo

open Spec

/-! ## The grammar depends on what is declared only -/

theorem symbolNew_dflt {g : Grammar} (h : DInv g) : (g.symbolNew .dflt .nonTerminal).1 = g.pushSym { name := .dflt, kind := .nonTerminal } := by
  rcases symbolNew_cases h.symbols .dflt .nonTerminal with ⟨s, hs, hn, _, _⟩ | ⟨_, he⟩
  · exact absurd hn (h.noDflt s hs)
  · rw [he]

/-- The grammar with the symbol `{default}` added -/
abbrev withDflt (g : Grammar) : Grammar := g.pushSym { name := .dflt, kind := .nonTerminal }

theorem push_ident {g : Grammar} {s : SymbolId} {i : Ident} (hs : s < (g.pushSym { name := .dflt, kind := .nonTerminal }).syms.length)
    (hn : ((g.pushSym { name := .dflt, kind := .nonTerminal }).sym s).name = .ident i) :
    s < g.syms.length ∧ (g.sym s).name = .ident i ∧ (g.pushSym { name := .dflt, kind := .nonTerminal }).sym s = g.sym s := by
  rw [length_pushSym] at hs
  rcases Nat.lt_or_eq_of_le (Nat.le_of_lt_succ hs) with h | h
  · rw [sym_pushSym_lt h] at hn
    exact ⟨h, hn, sym_pushSym_lt h⟩
  · rw [h, sym_pushSym_last] at hn; cases hn

section
variable {g g' : Grammar}

theorem sameSym_push {s s' : SymbolId} (hs : s < g.syms.length) (hs' : s' < g'.syms.length) {i : Ident} (hn : (g.sym s).name = .ident i)
    (hn' : (g'.sym s').name = .ident i) : SameSym (withDflt g) (withDflt g') s s' :=
  .named (by rw [length_pushSym]; exact Nat.lt_succ_of_lt (by assumption)) (by rw [length_pushSym]; exact Nat.lt_succ_of_lt (by assumption)) (by rw [sym_pushSym_lt hs]; exact hn) (by rw [sym_pushSym_lt hs']; exact hn')

theorem push_forall {ss : List SymbolId} {ids : List Ident} (h : List.Forall₂ (fun s id => s < g.syms.length ∧ (g.sym s).name = .ident id) ss ids) :
    List.Forall₂ (fun s id => s < (withDflt g).syms.length ∧ ((withDflt g).sym s).name = .ident id) ss ids := by
  refine h.imp ?_
  rintro s id ⟨h1, h2⟩
  exact ⟨by rw [length_pushSym]; exact Nat.lt_succ_of_lt h1, by rw [sym_pushSym_lt h1]; exact h2⟩

theorem sameElem {e : RhsElem} {x x' : RhsSym} (hx : x.sym < g.syms.length) (hx' : x'.sym < g'.syms.length) (h : ElemRec g e x) (h' : ElemRec g' e x') :
    x.alias = x'.alias ∧ SameSym (withDflt g) (withDflt g') x.sym x'.sym := by
  obtain ⟨ha, h⟩ := h
  obtain ⟨ha', h'⟩ := h'
  refine ⟨ha.trans ha'.symm, ?_⟩
  rcases h with ⟨tok, h1, h2, h3⟩ | ⟨tok, symR, h1, h2, h3, h4, h5⟩ | ⟨h1, h2, h3⟩ <;>
    rcases h' with ⟨tok', h1', h2', h3'⟩ | ⟨tok', symR', h1', h2', h3', h4', h5'⟩ | ⟨h1', h2', h3'⟩
  · rw [h1] at h1'; cases h1'
    exact sameSym_push hx hx' h3 h3'
  · rw [h2] at h2'; cases h2'
  · exact absurd h1 (h1' tok)
  · rw [h2] at h2'; cases h2'
  · rw [h1] at h1'; cases h1'
    exact .optional h4 h4' (by rw [length_pushSym]; exact Nat.lt_succ_of_lt (by assumption)) (by rw [length_pushSym]; exact Nat.lt_succ_of_lt (by assumption)) (by rw [sym_pushSym_lt h3]; exact h5) (by rw [sym_pushSym_lt h3']; exact h5')
  · exact absurd h1 (h1' tok)
  · exact absurd h1' (h1 tok')
  · exact absurd h1' (h1 tok')
  · refine .compound (ids := e.toks) (by rw [length_pushSym]; exact Nat.lt_succ_of_lt (by assumption)) (by rw [length_pushSym]; exact Nat.lt_succ_of_lt (by assumption)) (by rw [sym_pushSym_lt hx]; exact h2)
      (by rw [sym_pushSym_lt hx']; exact h2') ?_ ?_
    · rw [sym_pushSym_lt hx]; exact push_forall h3
    · rw [sym_pushSym_lt hx']; exact push_forall h3'

theorem forall₂_join {α β γ : Type} {R : α → β → Prop} {S : α → γ → Prop} {T : β → γ → Prop} {l : List α} {a : List β} {b : List γ}
    (h1 : List.Forall₂ R l a) (h2 : List.Forall₂ S l b) (h : ∀ x y z, y ∈ a → z ∈ b → R x y → S x z → T y z) : List.Forall₂ T a b := by
  induction h1 generalizing b with
  | nil => cases h2; exact .nil
  | cons hd tl ih =>
    cases h2 with
    | cons hd' tl' =>
      exact .cons (h _ _ _ (by simp) (by simp) hd hd') (ih tl' (fun x y z hy hz => h x y z (List.mem_cons_of_mem _ hy) (List.mem_cons_of_mem _ hz)))

theorem sameOpt {o o' : Option SymbolId} (hb : ∀ s, o = some s → s < g.syms.length ∧ ((g.sym s).name.isTok = true ∨ (g.sym s).name.isNt = true))
    (hb' : ∀ s, o' = some s → s < g'.syms.length) (h : o.map (fun s => (g.sym s).name) = o'.map (fun s => (g'.sym s).name)) : SameOpt (withDflt g) (withDflt g') o o' := by
  cases o with
  | none =>
    cases o' with
    | none => trivial
    | some s' => cases h
  | some s =>
    cases o' with
    | none => cases h
    | some s' =>
      simp only [Option.map_some, Option.some.injEq] at h
      obtain ⟨h1, h2⟩ := hb s rfl
      cases hn : (g.sym s).name with
      | ident i => exact sameSym_push h1 (hb' s' rfl) hn (by rw [← h, hn])
      | _ => rw [hn] at h2; simp [SymName.isTok, SymName.isNt] at h2

theorem isTok_ident {n : SymName} (h : n.isTok = true) : ∃ i, n = .ident i := by
  cases n with
  | ident i => exact ⟨i, rfl⟩
  | _ => cases h

theorem sameSubs {a b : List SymbolId} (ha : ∀ m ∈ a, m < g.syms.length ∧ (g.sym m).name.isTok = true) (hb : ∀ m ∈ b, m < g'.syms.length)
    (h : a.map (fun m => (g.sym m).name) = b.map (fun m => (g'.sym m).name)) : List.Forall₂ (SameSym (withDflt g) (withDflt g')) a b := by
  induction a generalizing b with
  | nil =>
    cases b with
    | nil => exact .nil
    | cons y b => cases h
  | cons x a ih =>
    cases b with
    | nil => cases h
    | cons y b =>
      simp only [List.map_cons, List.cons.injEq] at h
      obtain ⟨h1, h2⟩ := ha x (by simp)
      obtain ⟨i, hi⟩ := isTok_ident h2
      exact .cons (sameSym_push h1 (hb y (by simp)) hi (by rw [← h.1, hi]))
        (ih (fun m hm => ha m (List.mem_cons_of_mem _ hm)) (fun m hm => hb m (List.mem_cons_of_mem _ hm)) h.2)

/-- What two lists of declarations have in common if one is the other in another order -/
structure SameDecls (ds ds' : List Decl) : Prop where
  type : ∀ i, typeOf ds i = typeOf ds' i
  prec : ∀ i, precOf ds i = precOf ds' i
  fallback : ∀ i, fallbackOf ds i = fallbackOf ds' i
  multi : ∀ i, isClass ds i = isClass ds' i
  subs : ∀ i, classMembers ds i = classMembers ds' i
  rules : ds.filterMap Decl.rule? = ds'.filterMap Decl.rule?
  names : ∀ i, (∃ d ∈ ds, i ∈ mentions d) ↔ ∃ d ∈ ds', i ∈ mentions d
  glob : ds.foldl Glob.step Grammar.initial.glob = ds'.foldl Glob.step Grammar.initial.glob

theorem kind_of {n : SymName} {k k' : SymKind} (h : kindOk n k = true) (h' : kindOk n k' = true)
    (hm : decide (k = .multiTerminal) = decide (k' = .multiTerminal)) : k = k' := by
  cases n with
  | ident i => cases i <;> cases k <;> cases k' <;> simp_all [kindOk]
  | _ => cases k <;> cases k' <;> simp_all [kindOk]

theorem sameGrammar {ds ds' : List Decl} (hg : Grammar.initial.parseDecls ds = .ok g) (hg' : Grammar.initial.parseDecls ds' = .ok g')
    (h : SameDecls ds ds') : SameGrammar (withDflt g) (withDflt g') := by
  obtain ⟨i1, _, i3⟩ := DInv.initial.parseDecls hg
  obtain ⟨j1, _, j3⟩ := DInv.initial.parseDecls hg'
  have i3 : RulesRec g ds := i3 [] (by exact List.Forall₂.nil)
  have j3 : RulesRec g' ds' := j3 [] (by exact List.Forall₂.nil)
  have d := declared hg
  have d' := declared hg'
  have hglob : g.glob = g'.glob := by
    rw [(preAll_parseDecls DInv.initial hg).2.1, (preAll_parseDecls DInv.initial hg').2.1, h.glob]
  have hobs : ∀ i, { g.obs i with attributes := false } = { g'.obs i with attributes := false } := by
    intro i
    have e1 := (d.type i).trans ((h.type i).trans (d'.type i).symm)
    have e2 := (d.prec i).trans ((h.prec i).trans (d'.prec i).symm)
    have e3 := (d.fallback i).trans ((congrArg _ (h.fallback i)).trans (d'.fallback i).symm)
    have e4 := (d.multi i).trans ((h.multi i).trans (d'.multi i).symm)
    have e5 := (d.subs i).trans ((congrArg _ (h.subs i)).trans (d'.subs i).symm)
    generalize g.obs i = x at *
    generalize g'.obs i = y at *
    cases x; cases y
    simp only at e1 e2 e3 e4 e5
    rw [e1, e2, e3, e4, e5]
  have rbound : ∀ {g : Grammar}, DInv g → ∀ r ∈ g.rules, r.lhs < g.syms.length ∧ (∀ x ∈ r.rhs, x.sym < g.syms.length) ∧
      ∀ p, r.precSym = some p → p < g.syms.length ∧ (g.sym p).name.isTok = true := by
    intro g hi r hr
    obtain ⟨k, hk, rfl⟩ := List.getElem_of_mem hr
    have : g.rules[k] = g.rule k := by simp [Grammar.rule, List.getElem?_eq_getElem hk]
    rw [this]
    exact ⟨(hi.lhs k hk).1, fun x hx => (hi.rhs k hk x hx).1, hi.precSym k hk⟩
  refine ⟨?_, ?_, ?_, ?_, ?_, ?_⟩
  · intro i
    rw [← has_iff, ← has_iff]
    have key : ∀ g : Grammar, (withDflt g).has i ↔ g.has i := by
      intro g
      unfold Grammar.has withDflt Grammar.pushSym
      simp
    rw [key, key, has_parseDecls DInv.initial.symbols hg, has_parseDecls DInv.initial.symbols hg', h.names i]
  · intro s s' i hs hs' hn hn'
    obtain ⟨a1, a2, a3⟩ := push_ident hs hn
    obtain ⟨b1, b2, b3⟩ := push_ident hs' hn'
    rw [a3, b3]
    have e := hobs i
    rw [obs_of_name i1 a1 a2, obs_of_name j1 b1 b2] at e
    unfold Symbol.attrs at e
    simp only [Attrs.mk.injEq] at e
    obtain ⟨e1, e2, e3, e4, e5, _⟩ := e
    refine ⟨?_, e1, e2, ?_, ?_⟩
    · exact kind_of (i1.kinds s a1) (by rw [a2, ← b2]; exact j1.kinds s' b1) e4
    · refine sameOpt (fun f hf => ?_) (fun f hf => (j1.fb s' b1 f hf).1) e3
      have := i1.fb s a1 f hf
      exact ⟨this.1, .inl this.2.1⟩
    · exact sameSubs (i1.subs s a1) (fun m hm => (j1.subs s' b1 m hm).1) e5
  · show List.Forall₂ _ g.rules g'.rules
    unfold RulesRec at i3 j3
    rw [← h.rules] at j3
    refine forall₂_join i3 j3 ?_
    rintro u r r' hr hr' ⟨a1, a2, a3, a4⟩ ⟨b1, b2, b3, b4⟩
    obtain ⟨c1, c2, c3⟩ := rbound i1 r hr
    obtain ⟨c1', c2', c3'⟩ := rbound j1 r' hr'
    refine ⟨sameSym_push c1 c1' a1 b1, a3.trans b3.symm, ?_, ?_⟩
    · refine sameOpt (fun p hp => ⟨(c3 p hp).1, .inl (c3 p hp).2⟩) (fun p hp => (c3' p hp).1) ?_
      cases hu : u.2.2.2 <;> cases hp : r.precSym <;> cases hp' : r'.precSym <;> rw [hu, hp] at a4 <;> rw [hu, hp'] at b4 <;> simp_all
    · exact forall₂_join a2 b2 (fun e x x' hx hx' r1 r2 => sameElem (c2 x hx) (c2' x' hx') r1 r2)
  · exact sameOpt (fun s hs => ⟨(i1.start s hs).1, .inr (i1.start s hs).2⟩) (fun s hs => (j1.start s hs).1) (congrArg Glob.start hglob)
  · exact sameOpt (fun s hs => ⟨(i1.wild s hs).1, .inl (i1.wild s hs).2⟩) (fun s hs => (j1.wild s hs).1) (congrArg Glob.wildcard hglob)
  · exact ⟨congrArg Glob.defaultType hglob, congrArg Glob.extraToken hglob, congrArg Glob.arg hglob, congrArg Glob.errType hglob,
      congrArg Glob.syntaxError hglob, congrArg Glob.parseFail hglob, congrArg Glob.stackOverflow hglob, congrArg Glob.tokenEnum hglob,
      congrArg Glob.parserStruct hglob, congrArg Glob.stackType hglob, congrArg Glob.stackLimit hglob, congrArg Glob.prec hglob⟩

end

/-! ## An exchange -/

theorem findSome_swap {α β : Type} {f : α → Option β} {d d' : α} (l r : List α) (h : f d = none ∨ f d' = none) :
    (l ++ d :: d' :: r).findSome? f = (l ++ d' :: d :: r).findSome? f := by
  rw [List.findSome?_append, List.findSome?_append]
  congr 1
  rcases h with h | h <;> simp only [List.findSome?_cons, h]

theorem precFrom_append (i : Ident) : ∀ (l : List Decl) (n : Nat), ∃ m, ∀ r', precFrom i n (l ++ r') = (precFrom i n l).or (precFrom i m r') := by
  intro l
  induction l with
  | nil => intro n; exact ⟨n, fun r' => rfl⟩
  | cons d l ih =>
    intro n
    cases d with
    | assoc a ids =>
      obtain ⟨m, hm⟩ := ih (n + 1)
      refine ⟨m, fun r' => ?_⟩
      rw [List.cons_append, precFrom, precFrom]
      split
      · rfl
      · exact hm r'
    | _ =>
      obtain ⟨m, hm⟩ := ih n
      exact ⟨m, fun r' => by rw [List.cons_append, precFrom, precFrom]; exact hm r'; all_goals simp⟩

theorem forbids_symm {d d' : Decl} (h : orderMatters d d' = false) : Forbids d d' ↔ Forbids d' d := by
  cases d with
  | type a i ty =>
    cases d' with
    | type b j ty' =>
      unfold orderMatters at h
      cases ty with
      | none =>
        cases ty' with
        | none => simp [Forbids, Twice]
        | some t' =>
          simp only [Option.isNone_none, Bool.true_or, Bool.and_true, beq_eq_false_iff_ne] at h
          simp only [Forbids, Twice, false_iff]
          exact fun e => h e.symm
      | some t =>
        cases ty' with
        | none =>
          simp only [Option.isNone_none, Bool.or_true, Bool.and_true, beq_eq_false_iff_ne] at h
          simp only [Forbids, Twice, iff_false]
          exact h
        | some t' => exact eq_comm
    | _ => cases ty <;> simp [Forbids, Twice]
  | stackSize n ty =>
    cases d' with
    | stackSize n' ty' =>
      unfold orderMatters at h
      cases ty <;> cases ty' <;> simp_all [Forbids, Twice]
    | type b j ty' => cases ty <;> cases ty' <;> simp [Forbids, Twice]
    | _ => cases ty <;> simp [Forbids, Twice]
  | assoc a ids =>
    cases d' with
    | assoc b js => simp [orderMatters] at h
    | type b j ty' => cases ty' <;> simp [Forbids, Twice]
    | stackSize n' ty' => cases ty' <;> simp [Forbids, Twice]
    | _ => simp [Forbids, Twice]
  | fallback f ids =>
    cases d' with
    | fallback f' js => simp only [Forbids, and_comm]
    | type b j ty' => cases ty' <;> simp [Forbids, Twice]
    | stackSize n' ty' => cases ty' <;> simp [Forbids, Twice]
    | _ => simp [Forbids, Twice]
  | _ =>
    cases d' with
    | type b j ty' => cases ty' <;> simp [Forbids, Twice]
    | stackSize n' ty' => cases ty' <;> simp [Forbids, Twice]
    | _ => simp [Forbids, Twice]

theorem step_swap {d d' : Decl} (h : orderMatters d d' = false) (hf : ¬ Forbids d d') (a : Glob) : (a.step d).step d' = (a.step d').step d := by
  cases d with
  | stackSize n ty =>
    cases d' with
    | stackSize n' ty' =>
      unfold orderMatters at h
      cases ty <;> cases ty' <;> simp_all [Forbids, Twice]
    | _ => rfl
  | _ => cases d' <;> first | rfl | (exact absurd trivial hf)

theorem sameDecls_swap {l r : List Decl} {d d' : Decl} (h : orderMatters d d' = false) (hf : ¬ Forbids d d') :
    SameDecls (l ++ d :: d' :: r) (l ++ d' :: d :: r) := by
  refine ⟨?_, ?_, ?_, ?_, ?_, ?_, ?_, ?_⟩
  · intro i
    unfold typeOf
    apply findSome_swap
    cases d with
    | type a j ty =>
      cases d' with
      | type b k ty' =>
        cases ty with
        | none => exact .inl rfl
        | some t =>
          cases ty' with
          | none => exact .inr rfl
          | some t' =>
            by_cases e : j = i
            · right
              simp only [Forbids] at hf
              have : ¬ k = i := fun e' => hf (e.trans e'.symm)
              simp [this]
            · left; simp [e]
      | _ => exact .inr rfl
    | _ => exact .inl rfl
  · intro i
    unfold precOf
    obtain ⟨m, hm⟩ := precFrom_append i l 0
    rw [hm, hm]
    congr 1
    cases d with
    | assoc a ids =>
      cases d' with
      | assoc b js => simp [orderMatters] at h
      | _ => simp [precFrom]
    | _ =>
      cases d' <;> simp [precFrom]
  · intro i
    unfold fallbackOf
    apply findSome_swap
    cases d with
    | fallback f ids =>
      cases d' with
      | fallback f' js =>
        by_cases e : i ∈ ids
        · right
          simp only
          rw [if_neg]; intro hj; exact hf ⟨i, e, hj⟩
        · left; simp [e]
      | _ => exact .inr rfl
    | _ => exact .inl rfl
  · intro i
    unfold isClass
    simp only [List.any_append, List.any_cons]
    congr 1
    exact Bool.or_left_comm _ _ _
  · intro i
    unfold classMembers
    simp only [List.flatMap_append, List.flatMap_cons]
    congr 1
    rw [← List.append_assoc, ← List.append_assoc]
    congr 1
    cases d with
    | tokenClass t ids =>
      cases d' with
      | tokenClass t' js =>
        simp only [orderMatters, beq_eq_false_iff_ne] at h
        by_cases e : t = i
        · have : ¬ t' = i := fun e' => h (e.trans e'.symm)
          simp [this]
        · simp [e]
      | _ => simp
    | _ => simp
  · simp only [List.filterMap_append, List.filterMap_cons]
    congr 1
    cases d with
    | rule l rhs c p =>
      cases d' with
      | rule l' rhs' c' p' => simp [orderMatters] at h
      | _ => rfl
    | _ => rfl
  · intro i
    simp only [List.mem_append, List.mem_cons]
    refine exists_congr (fun x => and_congr_left' ?_)
    tauto
  · rw [List.foldl_append, List.foldl_append, List.foldl_cons, List.foldl_cons, List.foldl_cons, List.foldl_cons, step_swap h hf]

theorem swap_perm (l r : List Decl) (d d' : Decl) : (l ++ d :: d' :: r).Perm (l ++ d' :: d :: r) := (List.Perm.swap _ _ _).append_left l

theorem orderly_swap {l r : List Decl} {d d' : Decl} (h : orderMatters d d' = false) (ho : Orderly (l ++ d :: d' :: r)) :
    ¬ Forbids d d' ∧ Orderly (l ++ d' :: d :: r) := by
  have hp := ho.pairs
  rw [List.pairwise_append, List.pairwise_cons, List.pairwise_cons] at hp
  obtain ⟨p1, ⟨p2, p3, p4⟩, p5⟩ := hp
  have hf : ¬ Forbids d d' := p2 d' (by simp)
  refine ⟨hf, ?_, ?_, ?_⟩
  · intro x hx
    exact ho.sound x ((swap_perm l r d d').mem_iff.2 hx)
  · rw [List.pairwise_append, List.pairwise_cons, List.pairwise_cons]
    refine ⟨p1, ⟨?_, fun x hx => p2 x (List.mem_cons_of_mem _ hx), p4⟩, ?_⟩
    · intro x hx
      rcases List.mem_cons.1 hx with rfl | hx
      · rw [← forbids_symm h]; exact hf
      · exact p3 x hx
    · intro a ha b hb
      apply p5 a ha b
      simp only [List.mem_cons] at hb ⊢
      tauto
  · intro i
    have := (sameDecls_swap (l := l) (r := r) h hf).fallback
    rw [← show fallbackOf (l ++ d :: d' :: r) = fallbackOf (l ++ d' :: d :: r) from funext this]
    exact ho.ends i

end Pomelo
