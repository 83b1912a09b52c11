import Verif.Proofs.Stack
/-! # Trees over the rules of the grammar, and their evaluation -/

namespace Pomelo

open Spec

/-- A tree over the numbered rules of a grammar -/
inductive GTree (V : Type) where
  | leaf (tok : Tok V)
  | node (rule : Nat) (kids : List (GTree V))

/-- What the parser does to its stack -/
inductive Act where
  | shift (major : Nat)
  | reduce (rule : Nat)
  deriving DecidableEq, Repr

/-- The shift or reduction recorded by an event -/
def Event.act? {V : Type} : Event V → Option Act
  | .shift n => some (.shift n)
  | .reduce r _ => some (.reduce r)
  | _ => none

/-- The shifts and reductions of a log (newest first), oldest first -/
def actsOfLog {V : Type} (l : List (Event V)) : List Act := (l.filterMap Event.act?).reverse

variable {V X E : Type}

/-- The values bound by the aliases -/
def pickArgs : List (Option Nat) → List V → List V
  | some _ :: ps, v :: vs => v :: pickArgs ps vs
  | none :: ps, _ :: vs => pickArgs ps vs
  | _, _ => []

mutual
def GTree.yield : GTree V → List (Tok V)
  | .leaf tok => [tok]
  | .node _ kids => GTree.yields kids
def GTree.yields : List (GTree V) → List (Tok V)
  | [] => []
  | t :: ts => t.yield ++ GTree.yields ts
end

mutual
def GTree.post : GTree V → List Act
  | .leaf tok => [.shift tok.major]
  | .node r kids => GTree.posts kids ++ [.reduce r]
def GTree.posts : List (GTree V) → List Act
  | [] => []
  | t :: ts => t.post ++ GTree.posts ts
end

mutual
/-- Bottom-up, left to right evaluation -/
def GTree.eval (t : Tables) (sem : Sem V X E) : GTree V → X → Except E V × X
  | .leaf tok, x => (.ok tok.val, x)
  | .node r kids, x =>
    match GTree.evals t sem kids x with
    | (.error e, x) => (.error e, x)
    | (.ok vs, x) => runCode sem (t.ruleCode.getD r default).code (pickArgs (t.ruleCode.getD r default).pats vs) x
def GTree.evals (t : Tables) (sem : Sem V X E) : List (GTree V) → X → Except E (List V) × X
  | [], x => (.ok [], x)
  | k :: ks, x =>
    match k.eval t sem x with
    | (.error e, x) => (.error e, x)
    | (.ok v, x) =>
      match GTree.evals t sem ks x with
      | (.error e, x) => (.error e, x)
      | (.ok vs, x) => (.ok (v :: vs), x)
end

mutual
/-- How many entries the parser adds to its stack at most while it builds the tree -/
def GTree.need : GTree V → Nat
  | .leaf _ => 1
  | .node _ kids => max 1 (GTree.needs kids)
def GTree.needs : List (GTree V) → Nat
  | [] => 0
  | t :: ts => max t.need (1 + GTree.needs ts)
end

theorem GTree.need_pos (T : GTree V) : 0 < T.need := by
  cases T <;> simp only [GTree.need] <;> omega

theorem GTree.needs_length (ts : List (GTree V)) : ts.length ≤ GTree.needs ts := by
  induction ts with
  | nil => exact Nat.le_refl _
  | cons T ts ih => simp only [List.length_cons, GTree.needs]; omega

theorem GTree.needs_append (a b : List (GTree V)) : GTree.needs (a ++ b) = max (GTree.needs a) (a.length + GTree.needs b) := by
  induction a with
  | nil => simp [GTree.needs]
  | cons T a ih => simp only [List.cons_append, GTree.needs, ih, List.length_cons]; omega

/-- A stack of height `h` has room for `n` more entries. -/
def Room (t : Tables) (h n : Nat) : Prop := t.stackLimit = 0 ∨ n = 0 ∨ h + n ≤ t.stackLimit

theorem Room.snoc_leaf {t : Tables} {ts : List (GTree V)} {tok : Tok V} (h : Room t 1 (GTree.needs ts)) (h1 : t.stackLimit = 0 ∨ ts.length + 1 < t.stackLimit) :
    Room t 1 (GTree.needs (ts ++ [.leaf tok])) := by
  unfold Room at *
  simp only [GTree.needs_append, GTree.needs, GTree.need]
  omega

theorem Room.snoc_node {t : Tables} {a b : List (GTree V)} {r : Nat} (h : Room t 1 (GTree.needs (a ++ b))) (h1 : t.stackLimit = 0 ∨ a.length + 1 < t.stackLimit) :
    Room t 1 (GTree.needs (a ++ [.node r b])) := by
  unfold Room at *
  simp only [GTree.needs_append, GTree.needs, GTree.need] at *
  omega

/-- A sequence of trees for a sequence of symbols -/
inductive Grammar.Forest (g : Grammar) : List (GTree V) → List SymbolId → Prop
  | nil : g.Forest [] []
  | leaf {tok a b Y ts γ} : a < g.syms.length → (g.sym a).kind = .terminal → a ≠ 0 → tok.major = (g.sym a).index → Stands g a b → Reads g Y b → g.Forest ts γ → g.Forest (.leaf tok :: ts) (Y :: γ)
  | node {r kids ts γ} : r < g.rules.length → g.Forest kids (g.rhsSyms r) → g.Forest ts γ → g.Forest (.node r kids :: ts) ((g.rule r).lhs :: γ)

theorem GTree.yields_append (a b : List (GTree V)) : GTree.yields (a ++ b) = GTree.yields a ++ GTree.yields b := by
  induction a with
  | nil => rfl
  | cons t a ih => simp only [List.cons_append, GTree.yields, ih, List.append_assoc]

theorem GTree.posts_append (a b : List (GTree V)) : GTree.posts (a ++ b) = GTree.posts a ++ GTree.posts b := by
  induction a with
  | nil => rfl
  | cons t a ih => simp only [List.cons_append, GTree.posts, ih, List.append_assoc]

theorem GTree.evals_append {t : Tables} {sem : Sem V X E} (a b : List (GTree V)) (x : X) :
    GTree.evals t sem (a ++ b) x = match GTree.evals t sem a x with
      | (.error e, x) => (.error e, x)
      | (.ok vs, x) => match GTree.evals t sem b x with
        | (.error e, x) => (.error e, x)
        | (.ok ws, x) => (.ok (vs ++ ws), x) := by
  induction a generalizing x with
  | nil =>
    simp only [List.nil_append, GTree.evals]
    rcases GTree.evals t sem b x with ⟨_ | _, _⟩ <;> rfl
  | cons k a ih =>
    simp only [List.cons_append, GTree.evals]
    rcases k.eval t sem x with ⟨_ | v, x1⟩
    · rfl
    · simp only [ih]
      rcases GTree.evals t sem a x1 with ⟨_ | vs, x2⟩
      · rfl
      · simp only
        rcases GTree.evals t sem b x2 with ⟨_ | ws, x3⟩ <;> rfl

theorem GTree.evals_length {t : Tables} {sem : Sem V X E} {a : List (GTree V)} {x x' : X} {vs : List V}
    (h : GTree.evals t sem a x = (.ok vs, x')) : vs.length = a.length := by
  induction a generalizing x x' vs with
  | nil => simp only [GTree.evals, Prod.mk.injEq, Except.ok.injEq] at h; rw [← h.1]; rfl
  | cons k a ih =>
    simp only [GTree.evals] at h
    rcases h1 : k.eval t sem x with ⟨_ | v, x1⟩
    · rw [h1] at h; simp at h
    · rw [h1] at h
      simp only at h
      rcases h2 : GTree.evals t sem a x1 with ⟨_ | ws, x2⟩
      · rw [h2] at h; simp at h
      · rw [h2] at h
        simp only [Prod.mk.injEq, Except.ok.injEq] at h
        rw [← h.1, List.length_cons, List.length_cons, ih h2]

/-- Splitting an evaluation -/
theorem GTree.evals_split {t : Tables} {sem : Sem V X E} {a b : List (GTree V)} {x x' : X} {vs ws : List V}
    (h : GTree.evals t sem (a ++ b) x = (.ok (vs ++ ws), x')) (hl : vs.length = a.length) :
    ∃ x1, GTree.evals t sem a x = (.ok vs, x1) ∧ GTree.evals t sem b x1 = (.ok ws, x') := by
  rw [GTree.evals_append] at h
  rcases h1 : GTree.evals t sem a x with ⟨_ | us, x1⟩
  · rw [h1] at h; simp at h
  · rw [h1] at h
    simp only at h
    rcases h2 : GTree.evals t sem b x1 with ⟨_ | ys, x2⟩
    · rw [h2] at h; simp at h
    · rw [h2] at h
      simp only [Prod.mk.injEq, Except.ok.injEq] at h
      have hl2 := GTree.evals_length h1
      obtain ⟨e1, e2⟩ := List.append_inj h.1 (by rw [hl, hl2])
      subst e1 e2
      exact ⟨x1, rfl, by rw [h2, h.2]⟩

theorem Grammar.Forest.length {g : Grammar} {ts : List (GTree V)} {γ : List SymbolId} (h : g.Forest ts γ) : ts.length = γ.length := by
  induction h with
  | nil => rfl
  | leaf _ _ _ _ _ _ _ ih => simp [ih]
  | node _ _ _ _ ih => simp [ih]

theorem Grammar.Forest.append {g : Grammar} {a b : List (GTree V)} {γ δ : List SymbolId} (h : g.Forest a γ) (h2 : g.Forest b δ) :
    g.Forest (a ++ b) (γ ++ δ) := by
  induction h with
  | nil => exact h2
  | leaf h1 h2 h3 h4 h5 h6 _ ih => exact .leaf h1 h2 h3 h4 h5 h6 ih
  | node h1 h2 _ _ ih => exact .node h1 h2 ih

theorem Grammar.Forest.split {g : Grammar} {γ δ : List SymbolId} : ∀ {ts : List (GTree V)}, g.Forest ts (γ ++ δ) →
    ∃ a b, ts = a ++ b ∧ g.Forest a γ ∧ g.Forest b δ := by
  induction γ with
  | nil => intro ts h; exact ⟨[], ts, rfl, .nil, h⟩
  | cons Y γ ih =>
    intro ts h
    simp only [List.cons_append] at h
    cases h with
    | leaf h1 h2 h3 h4 h5 h6 h7 =>
      obtain ⟨a, b, rfl, ha, hb⟩ := ih h7
      exact ⟨_ :: a, b, rfl, .leaf h1 h2 h3 h4 h5 h6 ha, hb⟩
    | node h1 h2 h3 =>
      obtain ⟨a, b, rfl, ha, hb⟩ := ih h3
      exact ⟨_ :: a, b, rfl, .node h1 h2 ha, hb⟩

theorem matchPats_pick : ∀ {ps : List (Option Nat)} {es : List (Entry V)} {vs : List V}, matchPats ps es = some vs →
    vs = pickArgs ps (es.map (·.minor.val)) := by
  intro ps
  induction ps with
  | nil => intro es vs h; simp only [matchPats, Option.some.injEq] at h; rw [← h]; simp [pickArgs]
  | cons p ps ih =>
    intro es vs h
    cases es with
    | nil => cases p <;> simp [matchPats] at h
    | cons e es =>
      cases p with
      | none => simp only [matchPats] at h; simp only [List.map_cons, pickArgs]; exact ih h
      | some d =>
        simp only [matchPats] at h
        split at h
        · cases hm : matchPats ps es with
          | none => rw [hm] at h; simp at h
          | some ws =>
            rw [hm] at h
            simp only [Option.map_some, Option.some.injEq] at h
            simp only [List.map_cons, pickArgs, ← ih hm, h]
        · cases h

/-- Values on the stack without the bottom entry, oldest first -/
def stackVals (es : List (Entry V)) : List V := (es.dropLast.map (·.minor.val)).reverse

theorem stackVals_cons {e : Entry V} {es : List (Entry V)} (h : es ≠ []) : stackVals (e :: es) = stackVals es ++ [e.minor.val] := by
  unfold stackVals
  rw [List.dropLast_cons_of_ne_nil h]; simp

theorem stackVals_split {es : List (Entry V)} {n : Nat} (h : n < es.length) :
    stackVals es = stackVals (es.drop n) ++ ((es.take n).reverse.map (·.minor.val)) := by
  induction n generalizing es with
  | zero => simp
  | succ n ih =>
    cases es with
    | nil => simp at h
    | cons e es =>
      simp only [List.length_cons, Nat.add_lt_add_iff_right] at h
      rw [stackVals_cons (by rintro rfl; simp at h), ih h]
      simp

end Pomelo
