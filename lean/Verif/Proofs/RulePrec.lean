import Verif.Proofs.Bridge
import Verif.Proofs.DeclPlain
/-! # Precedences of rules -/

namespace Pomelo

open Spec

theorem Declared.sym {g : Grammar} {ds : List Decl} (d : Declared g ds) (h : DInv g) {x : SymbolId} (hx : x < g.syms.length)
    {i : Ident} (hn : (g.sym x).name = .ident i) :
    (g.sym x).precedence = precOf ds i ∧ ((g.sym x).kind = .multiTerminal ↔ isClass ds i = true) ∧
    (g.sym x).subs.map (fun m => (g.sym m).name) = (classMembers ds i).map SymName.ident ∧
    (g.sym x).fallback.map (fun m => (g.sym m).name) = (fallbackOf ds i).map SymName.ident ∧
    (g.sym x).dataType = typeOf ds i := by
  have ho := obs_of_name h hx hn
  refine ⟨?_, ?_, ?_, ?_, ?_⟩
  · rw [← d.prec, ho]; rfl
  · rw [← d.multi, ho]; simp [Symbol.attrs]
  · rw [← d.subs, ho]; rfl
  · rw [← d.fallback, ho]; rfl
  · rw [← d.type, ho]; rfl

theorem findSome?_map_name {g : Grammar} {ds : List Decl} (d : Declared g ds) (h : DInv g) :
    ∀ {l : List SymbolId} {ids : List Ident}, (∀ m ∈ l, m < g.syms.length) →
      l.map (fun m => (g.sym m).name) = ids.map SymName.ident →
      l.findSome? (fun m => (g.sym m).precedence) = ids.findSome? (precOf ds) := by
  intro l
  induction l with
  | nil => intro ids _ he; cases ids with
    | nil => rfl
    | cons _ _ => simp at he
  | cons a l ih =>
    intro ids hl he
    cases ids with
    | nil => simp at he
    | cons i ids =>
      simp only [List.map_cons, List.cons.injEq] at he
      have := (d.sym h (hl a (by simp)) he.1).1
      rw [List.findSome?_cons, List.findSome?_cons, this, ih (fun m hm => hl m (by simp [hm])) he.2]

/-- Precedence of a recorded element -/
theorem elemRec_prec {g : Grammar} {ds : List Decl} (d : Declared g ds) (h : DInv g) {e : RhsElem} {x : RhsSym}
    (hx : x.sym < g.syms.length) (hr : ElemRec g e x) (hopt : PlainAnon g) :
    g.symPrec x.sym = elemPrec ds e := by
  obtain ⟨_, hr⟩ := hr
  unfold Grammar.symPrec elemPrec
  rcases hr with ⟨tok, h1, h2, h3⟩ | ⟨tok, symR, h1, h2, h3, h4, h5⟩ | ⟨h1, h2, h3⟩
  · obtain ⟨a1, a2, a3, _, _⟩ := d.sym h hx h3
    rw [h1]
    simp only [h2]
    by_cases hm : isClass ds tok = true
    · have hk := a2.2 hm
      rw [hk, if_neg (by simp), if_pos hm]
      exact findSome?_map_name d h (fun m hm => (h.subs _ hx m hm).1) a3
    · have hk : (g.sym x.sym).kind ≠ .multiTerminal := fun e => hm (a2.1 e)
      rw [if_neg (by simp), if_neg hm]
      split
      · rename_i e; exact absurd e hk
      · exact a1
  · rw [h1]
    simp only [h2, if_true]
    obtain ⟨k, hk, he⟩ := List.getElem_of_mem h4
    have hb := (h.opts k symR x.sym (by rw [List.getElem?_eq_getElem hk, he])).2.2.2
    have hkk := h.kinds _ hx
    rw [hb] at hkk
    have : (g.sym x.sym).kind = .nonTerminal := by
      revert hkk; cases (g.sym x.sym).kind <;> simp [kindOk]
    rw [this]
    exact (hopt _ hx (by rw [hb]; rfl)).1
  · have hkk := h.kinds _ hx
    rw [h2] at hkk
    have hk : (g.sym x.sym).kind = .multiTerminal := by
      revert hkk; cases (g.sym x.sym).kind <;> simp [kindOk]
    rw [hk]
    simp only
    apply findSome?_map_name d h (fun m hm => (h.subs _ hx m hm).1)
    generalize (g.sym x.sym).subs = ss at h3 ⊢
    generalize e.toks = ts at h3 ⊢
    clear * - h3
    induction h3 with
    | nil => rfl
    | cons a _ ih => simp [a.2, ih]

theorem BridgeP.plainAnon {ord} {ds : List Decl} (b : BridgeP ord ds) : PlainAnon b.gD :=
  PlainAnon.initial.parseDecls DInv.initial b.parsed

theorem BridgeP.symPrecP {ord} {ds : List Decl} (b : BridgeP ord ds) {x : SymbolId} (hx : x < b.gD.syms.length) :
    b.gP.symPrec x = b.gD.symPrec x := by
  have hk := b.keepP x hx
  have h1 : (b.gP.sym x).kind = (b.gD.sym x).kind := congrArg (·.2.1) hk
  have h2 : (b.gP.sym x).subs = (b.gD.sym x).subs := congrArg (·.2.2.1) hk
  have h3 : (b.gP.sym x).precedence = (b.gD.sym x).precedence := congrArg (·.2.2.2.2.1) hk
  unfold Grammar.symPrec
  rw [h1, h2, h3]
  have : ∀ l : List SymbolId, (∀ m ∈ l, m < b.gD.syms.length) →
      l.findSome? (fun m => (b.gP.sym m).precedence) = l.findSome? (fun m => (b.gD.sym m).precedence) := by
    intro l
    induction l with
    | nil => intro _; rfl
    | cons a l ih =>
      intro hl
      have h4 : (b.gP.sym a).precedence = (b.gD.sym a).precedence := congrArg (·.2.2.2.2.1) (b.keepP a (hl a (by simp)))
      rw [List.findSome?_cons, List.findSome?_cons, h4, ih (fun m hm => hl m (by simp [hm]))]
  split
  · exact this _ (fun m hm => (b.dinv.subs x hx m hm).1)
  · rfl

theorem findSome?_find? {α β : Type} (f : α → Option β) (l : List α) :
    l.findSome? f = (l.find? (fun x => (f x).isSome)).bind f := by
  induction l with
  | nil => rfl
  | cons a l ih =>
    rw [List.findSome?_cons, List.find?_cons]
    cases h : f a with
    | none => simpa using ih
    | some b => simp [h]

theorem filterMap_rule? (ds : List Decl) :
    ds.filterMap Decl.rule? = (rulesOf ds).map (fun u => (u.lhs, u.rhs, u.code, u.prec)) := by
  unfold rulesOf
  rw [List.map_filterMap]
  congr 1
  funext d
  cases d <;> rfl

theorem Bridge0.rule_rec {ord} {ds : List Decl} {g : Grammar} (b : Bridge0 ord ds g) {r : RuleId} {u : URule}
    (hu : (rulesOf ds)[r]? = some u) :
    ∃ a c, b.gD.rules[r]? = some a ∧ b.gP.rules[r]? = some a ∧ g.rules[r]? = some (g.rule r) ∧
      RuleRec b.gD u.lhs u.rhs u.code u.prec a ∧
      b.gP.normalizeRule (b.gP.rulePrec a) = .ok c ∧ g.rule r = { c with lhsStart := (g.rule r).lhsStart } := by
  have he : (ds.filterMap Decl.rule?)[r]? = some (u.lhs, u.rhs, u.code, u.prec) := by
    rw [filterMap_rule?, List.getElem?_map, hu]; rfl
  obtain ⟨hlt, he⟩ := List.getElem?_eq_some_iff.1 he
  have hlen := b.recs.length_eq
  have h1 := List.Forall₂.get b.recs hlt (hlen ▸ hlt)
  simp only [List.get_eq_getElem] at h1
  rw [he] at h1
  have hltD : r < b.gD.rules.length := hlen ▸ hlt
  have hP : b.gP.rules[r]? = some b.gD.rules[r] := by
    rw [b.rulesP, List.getElem?_append_left hltD, List.getElem?_eq_getElem hltD]
  obtain ⟨hltP, heP⟩ := List.getElem?_eq_some_iff.1 hP
  have hlenG := b.rules.length_eq
  have h2 := List.Forall₂.get b.rules hltP (hlenG ▸ hltP)
  simp only [List.get_eq_getElem] at h2
  rw [heP] at h2
  obtain ⟨c, hc1, hc2⟩ := h2
  have hltG : r < g.rules.length := hlenG ▸ hltP
  have hgr : g.rule r = g.rules[r] := by unfold Grammar.rule; rw [getD_of_lt hltG]
  refine ⟨_, c, List.getElem?_eq_getElem hltD, hP, by rw [hgr]; exact List.getElem?_eq_getElem hltG, h1, hc1, ?_⟩
  rw [hgr]; exact hc2

theorem normalizeRule_precedence {g : Grammar} {a c : Rule} (h : g.normalizeRule a = .ok c) : c.precedence = a.precedence := by
  unfold Grammar.normalizeRule at h
  split at h
  · split at h
    · cases h; rfl
    · cases h
  · cases h; rfl

/-- The precedence the conflict resolution uses for a written rule -/
theorem Bridge0.rulePrec_spec {ord} {ds : List Decl} {g : Grammar} (b : Bridge0 ord ds g) {r : RuleId} {u : URule}
    (hu : (rulesOf ds)[r]? = some u) : (g.rule r).precedence = rulePrec ds u := by
  obtain ⟨a, c, ha, haP, _, ⟨_, hrec, _, hps⟩, hc, hg⟩ := b.rule_rec hu
  have hd := b.dinv
  obtain ⟨hlt, hae⟩ := List.getElem?_eq_some_iff.1 ha
  have har : b.gD.rule r = a := by unfold Grammar.rule; rw [getD_of_lt hlt]; exact hae
  rw [hg]
  show c.precedence = _
  rw [normalizeRule_precedence hc]
  unfold Grammar.rulePrec Spec.rulePrec
  cases hp : u.prec with
  | some id =>
    rw [hp] at hps
    cases hq : a.precSym with
    | none => rw [hq] at hps; exact hps.elim
    | some p =>
      rw [hq] at hps
      simp only at hps
      have hplt := (hd.precSym r hlt p (by rw [har]; exact hq)).1
      simp only
      have : (b.gP.sym p).precedence = (b.gD.sym p).precedence := congrArg (·.2.2.2.2.1) (b.keepP p hplt)
      rw [this, (b.decl.sym hd hplt hps).1]
  | none =>
    rw [hp] at hps
    cases hq : a.precSym with
    | some p => rw [hq] at hps; exact hps.elim
    | none =>
      simp only
      have hfs : u.rhs.findSome? (elemPrec ds) = a.rhs.findSome? (fun s => b.gP.symPrec s.sym) := by
        have hb : ∀ x ∈ a.rhs, x.sym < b.gD.syms.length := fun x hx => (hd.rhs r hlt x (by rw [har]; exact hx)).1
        generalize a.rhs = rs at hrec hb
        generalize u.rhs = us at hrec
        induction hrec with
        | nil => rfl
        | @cons e x es xs h1 _ ih =>
          rw [List.findSome?_cons, List.findSome?_cons, ih (fun x hx => hb x (by simp [hx])),
            b.symPrecP (hb x (by simp)), elemRec_prec b.decl hd (hb x (by simp)) h1 b.plainAnon]
      rw [hfs, findSome?_find?]
      have hfresh := (hd.fresh r hlt).1
      rw [har] at hfresh
      cases a.rhs.find? (fun s => (b.gP.symPrec s.sym).isSome) with
      | none => simpa using hfresh
      | some s => rfl

end Pomelo
