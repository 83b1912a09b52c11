import Verif.Proofs.Tree
/-! # Trees together with the moves of the automaton that build them -/

namespace Pomelo

open Spec

variable {V X E : Type}

/-- Number of the first token of a forest, or `n` if it has none -/
def nextOf (ts : List (GTree V)) (n : Nat) : Nat := ((GTree.yields ts).head?.map (·.major)).getD n

theorem nextOf_nil (n : Nat) : nextOf ([] : List (GTree V)) n = n := rfl

theorem nextOf_leaf (k : Tok V) (ts : List (GTree V)) (n : Nat) : nextOf (.leaf k :: ts) n = k.major := by
  simp [nextOf, GTree.yields, GTree.yield]

theorem nextOf_append (a b : List (GTree V)) (n : Nat) : nextOf (a ++ b) n = nextOf a (nextOf b n) := by
  unfold nextOf
  rw [GTree.yields_append]
  cases GTree.yields a <;> simp

theorem nextOf_node (r : Nat) (kids ts : List (GTree V)) (n : Nat) : nextOf (.node r kids :: ts) n = nextOf kids (nextOf ts n) := by
  rw [← nextOf_append]
  unfold nextOf
  rw [GTree.yields_append]
  simp [GTree.yields, GTree.yield]

section
variable {ord : List (SymbolId × SymbolId) → List (SymbolId × SymbolId)} {ds : List Decl} {t : Tables} {s : CSpec ord ds t} {dflt : SymbolId}

/-- The parser reads the forest `ts` in state `q` and comes to `q'`, if the token `n` follows. -/
inductive Drive (s : CSpec ord ds t) : StateId → List (GTree V) → Nat → List SymbolId → StateId → Prop
  | nil {q n} : Drive s q [] n [] q
  | leaf {q tok ts n γ a b Y k q'} : a < s.g.syms.length → (s.g.sym a).kind = .terminal → a ≠ 0 → tok.major = (s.g.sym a).index →
      Stands s.g a b → Reads s.g Y b → s.g.Trans s.sts q Y k → t.findShift (s.num q) tok.major = .ok (s.num k) →
      Drive s k ts n γ q' → Drive s q (.leaf tok :: ts) n (Y :: γ) q'
  | node {q r kids ts n γ q1 b k q'} : Drive s q kids (nextOf ts n) (s.g.rhsSyms r) q1 → s.g.CanReduce s.sts q1 b r →
      t.findShift (s.num q1) (nextOf ts n) = .ok (t.nState + r) → s.g.Trans s.sts q (s.g.rule r).lhs k →
      Drive s k ts n γ q' → Drive s q (.node r kids :: ts) n ((s.g.rule r).lhs :: γ) q'

theorem Drive.forest (hi : GInv s.g) (ha : Auto s.g s.sts) {q q' : StateId} {ts : List (GTree V)} {n : Nat} {γ : List SymbolId} (h : Drive s q ts n γ q') : s.g.Forest ts γ := by
  induction h with
  | nil => exact .nil
  | leaf h1 h2 h3 h4 h5 h6 _ _ _ ih => exact .leaf h1 h2 h3 h4 h5 h6 ih
  | node _ h2 _ _ _ ih1 ih2 => exact .node (canReduce_rule hi ha h2).1 ih1 ih2

theorem Drive.append {q q1 q' : StateId} {a b : List (GTree V)} {n : Nat} {γ δ : List SymbolId} (h1 : Drive s q a (nextOf b n) γ q1) (h2 : Drive s q1 b n δ q') :
    Drive s q (a ++ b) n (γ ++ δ) q' := by
  generalize hn : nextOf b n = n' at h1
  induction h1 with
  | nil => exact h2
  | leaf e1 e2 e3 e4 e5 e6 e7 e8 _ ih => exact .leaf e1 e2 e3 e4 e5 e6 e7 e8 (ih h2 hn)
  | node e1 e2 e3 e4 _ _ ih =>
    subst hn
    simp only [List.cons_append]
    exact .node (by rw [nextOf_append]; exact e1) e2 (by rw [nextOf_append]; exact e3) e4 (ih h2 rfl)

theorem Drive.split {γ δ : List SymbolId} : ∀ {q q' : StateId} {ts : List (GTree V)} {n : Nat}, Drive s q ts n (γ ++ δ) q' →
    ∃ a b q1, ts = a ++ b ∧ Drive s q a (nextOf b n) γ q1 ∧ Drive s q1 b n δ q' := by
  induction γ with
  | nil => intro q q' ts n h; exact ⟨[], ts, q, rfl, .nil, h⟩
  | cons Y γ ih =>
    intro q q' ts n h
    simp only [List.cons_append] at h
    cases h with
    | leaf e1 e2 e3 e4 e5 e6 e7 e8 h =>
      obtain ⟨a, b, q1, rfl, h1, h2⟩ := ih h
      exact ⟨_ :: a, b, q1, rfl, .leaf e1 e2 e3 e4 e5 e6 e7 e8 h1, h2⟩
    | node e1 e2 e3 e4 h =>
      obtain ⟨a, b, q1, rfl, h1, h2⟩ := ih h
      rw [nextOf_append] at e1 e3
      exact ⟨_ :: a, b, q1, rfl, .node e1 e2 e3 e4 h1, h2⟩

theorem Drive.path {q q' : StateId} {ts : List (GTree V)} {n : Nat} {γ δ : List SymbolId} (h : Drive s q ts n γ q') (hp : s.g.Path s.sts δ q) :
    s.g.Path s.sts (δ ++ γ) q' := by
  induction h generalizing δ with
  | nil => simpa using hp
  | leaf _ _ _ _ _ _ e _ _ ih => have := ih (.snoc hp e); simpa using this
  | node _ _ _ e _ _ ih => have := ih (.snoc hp e); simpa using this

end

end Pomelo
