import Verif.Proofs.DeclGlob
import Verif.Spec.Api
/-!
# The names of the symbols are those mentioned in the declarations, in order
-/

namespace Pomelo
open Spec

/-- The identifier of a name -/
def SymName.ident? : SymName → Option Ident
  | .ident i => some i
  | _ => none

/-- The identifiers that have become symbols, in order -/
def Grammar.idents (g : Grammar) : List Ident := g.syms.filterMap (·.name.ident?)

/-- Appended unless present -/
def addIdent (l : List Ident) (i : Ident) : List Ident := if i ∈ l then l else l ++ [i]

/-- The positions of the symbols are in order. -/
def Ranged (g : Grammar) : Prop := g.symbols = List.range g.syms.length

/-- `g'` is well numbered and has the identifiers of `g` and then `is`, unless present. -/
structure Adds (g g' : Grammar) (is : List Ident) : Prop where
  ranged : Ranged g'
  idents : g'.idents = is.foldl addIdent g.idents

theorem Adds.trans {a b c : Grammar} {l m : List Ident} (h1 : Adds a b l) (h2 : Adds b c m) : Adds a c (l ++ m) :=
  ⟨h2.ranged, by rw [h2.idents, h1.idents, List.foldl_append]⟩

theorem Adds.congr {g g' : Grammar} (h : Ranged g) (h1 : g'.syms = g.syms) (h2 : g'.symbols = g.symbols) : Adds g g' [] := by
  refine ⟨?_, ?_⟩
  · unfold Ranged; rw [h1, h2]; exact h
  · unfold Grammar.idents; rw [h1]; rfl

theorem filterMap_modify {α β : Type} (p : α → Option β) {f : α → α} (hf : ∀ a, p (f a) = p a) : ∀ (l : List α) (k : Nat), (l.modify k f).filterMap p = l.filterMap p := by
  intro l
  induction l with
  | nil => intro k; simp
  | cons a l ih =>
    intro k
    cases k with
    | zero => simp [List.filterMap_cons, hf]
    | succ k => simp [List.filterMap_cons, ih]

theorem Adds.modify {g : Grammar} (h : Ranged g) (s : SymbolId) {f : Symbol → Symbol} (hf : ∀ b, (f b).name = b.name) : Adds g (g.modifySym s f) [] := by
  refine ⟨?_, ?_⟩
  · unfold Ranged Grammar.modifySym; rw [List.length_modify]; exact h
  · exact filterMap_modify _ (fun b => by rw [hf]) _ _

theorem syms_getD {g : Grammar} {s : Nat} (hs : s < g.syms.length) : g.syms.getD s default = g.syms[s] := by
  simp [List.getD_eq_getElem?_getD, List.getElem?_eq_getElem hs]

theorem mem_idents {g : Grammar} {i : Ident} : i ∈ g.idents ↔ ∃ s, s < g.syms.length ∧ (g.sym s).name = .ident i := by
  unfold Grammar.idents
  rw [List.mem_filterMap]
  constructor
  · rintro ⟨b, hb, he⟩
    obtain ⟨s, hs, rfl⟩ := List.getElem_of_mem hb
    refine ⟨s, hs, ?_⟩
    unfold Grammar.sym
    rw [syms_getD hs]
    revert he
    cases g.syms[s].name <;> simp [SymName.ident?]
  · rintro ⟨s, hs, he⟩
    refine ⟨g.syms[s], List.getElem_mem hs, ?_⟩
    unfold Grammar.sym at he
    rw [syms_getD hs] at he
    rw [he]; rfl

theorem Adds.symbolNew {g : Grammar} (h : Ranged g) (n : SymName) (k : SymKind) : Adds g (g.symbolNew n k).1 n.ident?.toList := by
  rcases symbolNew_cases h n k with ⟨s, hs, hn, ha, he⟩ | ⟨hn, he⟩
  · rw [he]
    have h1 := Adds.modify h s (f := touch k) (fun _ => rfl)
    refine ⟨h1.ranged, ?_⟩
    rw [h1.idents]
    cases n with
    | ident i =>
      have : i ∈ g.idents := mem_idents.2 ⟨s, hs, hn⟩
      simp [SymName.ident?, addIdent, this]
    | _ => rfl
  · rw [he]
    refine ⟨?_, ?_⟩
    · unfold Ranged Grammar.pushSym
      simp only [List.length_append, List.length_singleton, List.range_succ]
      rw [← h]
    · show (g.syms ++ [_]).filterMap _ = _
      rw [List.filterMap_append]
      cases n with
      | ident i =>
        have : i ∉ g.idents := by
          intro hm
          obtain ⟨s, hs, he⟩ := mem_idents.1 hm
          rcases hn with hn | hn
          · cases hn
          · exact hn s hs he
        simp only [SymName.ident?, Option.toList_some, List.foldl_cons, List.foldl_nil, addIdent, this, if_false]
        rfl
      | _ => simp [SymName.ident?, Grammar.idents]

theorem Adds.after {a b c : Grammar} {l m : List Ident} (h1 : Adds a b l) (h2 : Ranged b → Adds b c m) : Adds a c (l ++ m) := h1.trans (h2 h1.ranged)
theorem Adds.then {a b c : Grammar} {l : List Ident} (h1 : Adds a b l) (h2 : Ranged b → Adds b c []) : Adds a c l := by
  have := h1.trans (h2 h1.ranged); rwa [List.append_nil] at this

theorem Adds.ident {g : Grammar} (h : Ranged g) (i : Ident) (k : SymKind) : Adds g (g.symbolNew (.ident i) k).1 [i] := Adds.symbolNew h _ k

theorem Adds.declTokens {e : GErr} : ∀ {ids : List Ident} {g g' : Grammar} {ss : List SymbolId}, Ranged g → g.declTokens e ids = .ok (g', ss) → Adds g g' ids := by
  intro ids
  induction ids with
  | nil => intro g g' ss h he; cases he; exact .congr h rfl rfl
  | cons i ids ih =>
    intro g g' ss h he
    unfold Grammar.declTokens at he
    split at he
    · cases he
    · simp only at he
      split at he
      · rename_i g2 ss' h2
        cases he
        exact (Adds.ident h i .terminal).after fun hr => ih hr h2
      · cases he

theorem Adds.declAssoc {p : Precedence} : ∀ {ids : List Ident} {g g' : Grammar}, Ranged g → g.declAssoc p ids = .ok g' → Adds g g' ids := by
  intro ids
  induction ids with
  | nil => intro g g' h he; cases he; exact .congr h rfl rfl
  | cons i ids ih =>
    intro g g' h he
    unfold Grammar.declAssoc at he
    split at he
    · cases he
    · simp only at he
      split at he
      · cases he
      · refine Adds.after (l := [i]) ?_ fun hr => ih hr he
        exact (Adds.ident h i .terminal).then fun hr => Adds.modify hr _ (fun _ => rfl)

theorem Adds.setFallbacks {f : SymbolId} : ∀ {ss : List SymbolId} {g g' : Grammar}, Ranged g → g.setFallbacks f ss = .ok g' → Adds g g' [] := by
  intro ss
  induction ss with
  | nil => intro g g' h he; cases he; exact .congr h rfl rfl
  | cons s ss ih =>
    intro g g' h he
    unfold Grammar.setFallbacks at he
    split at he
    · cases he
    · have h1 : Adds g { g.modifySym s (fun b => { b with fallback := some f }) with hasFallback := true } [] :=
        (Adds.modify h s (f := fun b => { b with fallback := some f }) (fun _ => rfl)).then fun hr => .congr hr rfl rfl
      exact h1.then fun hr => ih hr he

theorem Adds.declClass {tk : SymbolId} : ∀ {ids : List Ident} {g g' : Grammar}, Ranged g → g.declClass tk ids = .ok g' → Adds g g' ids := by
  intro ids
  induction ids with
  | nil => intro g g' h he; cases he; exact .congr h rfl rfl
  | cons i ids ih =>
    intro g g' h he
    unfold Grammar.declClass at he
    split at he
    · cases he
    · refine Adds.after (l := [i]) ?_ fun hr => ih hr he
      exact (Adds.ident h i .terminal).then fun hr => Adds.modify hr _ (fun _ => rfl)

theorem Adds.declElem {g g' : Grammar} {e : RhsElem} {x : RhsSym} (h : Ranged g) (he : g.declElem e = .ok (g', x)) : Adds g g' e.toks := by
  unfold Grammar.declElem at he
  split at he
  · rename_i tok htok
    rw [htok]
    simp only at he
    split at he
    · cases he
    · rename_i nst _
      split at he
      · split at he
        · cases he; exact Adds.ident h tok nst
        · cases he
          exact (Adds.ident h tok nst).then fun hr => (Adds.symbolNew hr (.opt _) .nonTerminal).then fun hr => .congr hr rfl rfl
      · cases he; exact Adds.ident h tok nst
  · simp only at he
    split at he
    · cases he
    · rename_i g2 ss h2
      cases he
      have h1 := Adds.symbolNew h .anon .multiTerminal
      have h3 := (h1.after fun hr => Adds.declTokens hr h2).then fun hr => Adds.modify hr (g.symbolNew .anon .multiTerminal).2
        (f := fun b => { b with subs := b.subs ++ ss }) (fun _ => rfl)
      exact h3

theorem Adds.declRhs : ∀ {es : List RhsElem} {g g' : Grammar} {xs : List RhsSym}, Ranged g → g.declRhs es = .ok (g', xs) → Adds g g' (es.flatMap (·.toks)) := by
  intro es
  induction es with
  | nil => intro g g' xs h he; cases he; exact .congr h rfl rfl
  | cons e es ih =>
    intro g g' xs h he
    unfold Grammar.declRhs at he
    split at he
    · cases he
    · rename_i g1 s h1
      split at he
      · cases he
      · rename_i g2 ss h2
        cases he
        exact (Adds.declElem h h1).after fun hr => ih hr h2

theorem Adds.createRule {g : Grammar} (h : Ranged g) (l : SymbolId) (rs : List RhsSym) (c : Option Code) (p : Option SymbolId) : Adds g (g.createRule l rs c p) [] := by
  have h1 : Adds g { g with rules := g.rules ++ [{ lhs := l, rhs := rs, code := c, precSym := p }] } [] := .congr h rfl rfl
  exact h1.then fun hr => Adds.modify hr l (fun _ => rfl)

theorem Adds.parseOneDecl {g g' : Grammar} {d : Decl} (h : Ranged g) (he : g.parseOneDecl d = .ok g') : Adds g g' (mentions d) := by
  cases d with
  | type a i ty =>
    simp only [Grammar.parseOneDecl] at he
    split at he
    · cases he
    · rename_i nst _
      split at he
      · cases he
      · cases he
        exact (Adds.ident h i nst).then fun hr => Adds.modify hr _ (fun _ => rfl)
  | assoc a ids =>
    have h1 : Adds g { g with prec := g.prec + 1 } [] := .congr h rfl rfl
    exact h1.after fun hr => Adds.declAssoc hr he
  | startSymbol i =>
    simp only [Grammar.parseOneDecl] at he
    split at he
    · cases he
    · split at he
      · cases he
      · cases he; exact (Adds.ident h i .nonTerminal).then fun hr => .congr hr rfl rfl
  | fallback f ids =>
    simp only [Grammar.parseOneDecl] at he
    split at he
    · cases he
    · rename_i g1 ss h1
      split at he
      · cases he
      · split at he
        · cases he
        · exact ((Adds.declTokens h h1).after fun hr => Adds.ident hr f .terminal).then fun hr => Adds.setFallbacks hr he
  | wildcard i =>
    simp only [Grammar.parseOneDecl] at he
    split at he
    · cases he
    · split at he
      · cases he
      · cases he; exact (Adds.ident h i .terminal).then fun hr => .congr hr rfl rfl
  | tokenClass c ids =>
    simp only [Grammar.parseOneDecl] at he
    split at he
    · cases he
    · exact (Adds.ident h c .multiTerminal).after fun hr => Adds.declClass hr he
  | rule lhs rhs action prec =>
    simp only [Grammar.parseOneDecl] at he
    split at he
    · cases he
    · split at he
      · cases he
      · rename_i g1 rs h1
        have h2 := (Adds.ident h lhs .nonTerminal).after fun hr => Adds.declRhs hr h1
        split at he
        · cases he
          have h3 := h2.then fun hr => Adds.createRule hr (g.symbolNew (.ident lhs) .nonTerminal).2 rs (action.map Code.user) none
          simpa [mentions] using h3
        · rename_i i
          split at he
          · cases he
          · cases he
            exact (h2.after fun hr => Adds.ident hr i .terminal).then fun hr => Adds.createRule hr _ _ _ _
  | stackSize l ty =>
    simp only [Grammar.parseOneDecl] at he
    split at he <;> cases he
    exact .congr h rfl rfl
  | «module» => cases he; exact .congr h rfl rfl
  | «include» => cases he; exact .congr h rfl rfl
  | verbose => cases he; exact .congr h rfl rfl
  | _ =>
    simp only [Grammar.parseOneDecl] at he
    split at he <;> cases he
    exact .congr h rfl rfl

theorem Adds.parseDecls : ∀ {ds : List Decl} {g g' : Grammar}, Ranged g → g.parseDecls ds = .ok g' → Adds g g' (ds.flatMap mentions) := by
  intro ds
  induction ds with
  | nil => intro g g' h he; cases he; exact .congr h rfl rfl
  | cons d ds ih =>
    intro g g' h he
    unfold Grammar.parseDecls at he
    split at he
    · cases he
    · rename_i g1 h1
      exact (Adds.parseOneDecl h h1).after fun hr => ih hr he

theorem foldl_addIdent : ∀ (l m : List Ident), l.foldl addIdent m = m ++ (l.filter (· ∉ m)).eraseDups := by
  intro l
  induction l with
  | nil => intro m; simp
  | cons i l ih =>
    intro m
    rw [List.foldl_cons, ih]
    unfold addIdent
    by_cases h : i ∈ m
    · rw [if_pos h, List.filter_cons_of_neg (by simp [h])]
    · rw [if_neg h, List.filter_cons_of_pos (by simp [h]), List.eraseDups_cons, List.filter_filter, List.append_assoc]
      congr 2
      simp only [List.singleton_append, List.cons.injEq, true_and]
      congr 1
      apply List.filter_congr
      intro x _
      simp only [List.mem_append, List.mem_singleton, not_or, Bool.decide_and, decide_not]
      rw [Bool.and_comm]; rfl

theorem idents_decls {ds : List Decl} {g : Grammar} (h : Grammar.initial.parseDecls ds = .ok g) :
    g.idents = .error :: ((ds.flatMap mentions).filter (· ≠ .error)).eraseDups := by
  have h1 := (Adds.parseDecls (by rfl) h).idents
  rw [foldl_addIdent] at h1
  rw [h1]
  have : Grammar.initial.idents = [.error] := by rfl
  rw [this]
  simp only [List.singleton_append, List.mem_singleton]

theorem filter_eraseDups {α : Type} [DecidableEq α] (p : α → Bool) : ∀ (n : Nat) (l : List α), l.length ≤ n → (l.filter p).eraseDups = l.eraseDups.filter p := by
  intro n
  induction n with
  | zero => intro l h; rw [List.length_eq_zero_iff.1 (Nat.le_zero.1 h)]; simp
  | succ n ih =>
    intro l h
    cases l with
    | nil => simp
    | cons a l =>
      rw [List.eraseDups_cons]
      by_cases ha : p a = true
      · rw [List.filter_cons_of_pos ha, List.filter_cons_of_pos ha, List.eraseDups_cons, ← ih _ (Nat.le_trans (List.length_filter_le _ _) (Nat.le_of_succ_le_succ h))]
        rw [List.filter_filter, List.filter_filter]
        congr 2
        apply List.filter_congr
        intro x _
        rw [Bool.and_comm]
      · rw [List.filter_cons_of_neg ha, List.filter_cons_of_neg ha, ← ih _ (Nat.le_trans (List.length_filter_le _ _) (Nat.le_of_succ_le_succ h)), List.filter_filter]
        congr 1
        apply List.filter_congr
        intro x _
        by_cases hx : x = a
        · subst hx; simp [ha]
        · simp [hx]

/-- The tokens among the symbols -/
theorem idents_tokens {ds : List Decl} {g : Grammar} (h : Grammar.initial.parseDecls ds = .ok g) :
    g.idents.filter (fun i => i.isTerminal && !isClass ds i) = tokensOf ds := by
  rw [idents_decls h, filter_eraseDups _ _ _ (Nat.le_refl _), List.filter_cons_of_neg (by simp [Ident.isTerminal]), List.filter_filter]
  unfold tokensOf
  apply List.filter_congr
  intro x _
  cases x <;> simp [Ident.isTerminal]

end Pomelo
