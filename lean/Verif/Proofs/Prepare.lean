import Verif.Model.Prepare
import Verif.Proofs.DeclAll
/-! # `prepare`: order and indices of the symbols, rules of optional symbols -/

namespace Pomelo

/-! ## The sort of the symbols -/

theorem insertRev_skip {α : Type} {lt : α → α → Bool} {x : α} {A B : List α} (hA : ∀ y ∈ A, lt x y = true)
    (hB : ∀ y ∈ B, lt x y = false) : insertRev lt x (A ++ B) = A ++ x :: B := by
  induction A with
  | nil =>
    cases B with
    | nil => rfl
    | cons b B => unfold insertRev; simp [hB b (by simp)]
  | cons a A ih =>
    show insertRev lt x (a :: (A ++ B)) = _
    unfold insertRev
    rw [if_pos (hA a (by simp)), ih (fun y hy => hA y (by simp [hy]))]
    rfl

/-- A stable sort with three keys concatenates the three groups. -/
theorem sortBy_three {α : Type} (key : α → SymKind) (l : List α) :
    sortBy (fun a b => decide ((key a).ord < (key b).ord)) l =
      l.filter (fun a => key a = .terminal) ++ l.filter (fun a => key a = .nonTerminal) ++
      l.filter (fun a => key a = .multiTerminal) := by
  unfold sortBy
  suffices H : ∀ (l done : List α),
      (l.foldl (fun acc x => insertRev (fun a b => decide ((key a).ord < (key b).ord)) x acc)
        (done.filter (fun a => key a = .terminal) ++ done.filter (fun a => key a = .nonTerminal) ++
          done.filter (fun a => key a = .multiTerminal)).reverse).reverse =
      (done ++ l).filter (fun a => key a = .terminal) ++ (done ++ l).filter (fun a => key a = .nonTerminal) ++
      (done ++ l).filter (fun a => key a = .multiTerminal) from by simpa using H l []
  intro l
  induction l with
  | nil => intro done; simp
  | cons x l ih =>
    intro done
    have hstep : insertRev (fun a b => decide ((key a).ord < (key b).ord)) x
        (done.filter (fun a => key a = .terminal) ++ done.filter (fun a => key a = .nonTerminal) ++
          done.filter (fun a => key a = .multiTerminal)).reverse =
        ((done ++ [x]).filter (fun a => key a = .terminal) ++ (done ++ [x]).filter (fun a => key a = .nonTerminal) ++
          (done ++ [x]).filter (fun a => key a = .multiTerminal)).reverse := by
      simp only [List.reverse_append, List.filter_append]
      cases hk : key x
      · rw [← List.append_assoc, insertRev_skip]
        · simp [hk]
        · intro y hy
          simp only [List.mem_append, List.mem_reverse, List.mem_filter, decide_eq_true_eq] at hy
          rcases hy with ⟨_, e⟩ | ⟨_, e⟩ <;> simp [hk, e, SymKind.ord]
        · intro y hy
          simp only [List.mem_reverse, List.mem_filter, decide_eq_true_eq] at hy
          simp [hk, hy.2]
      · rw [insertRev_skip]
        · simp [hk]
        · intro y hy
          simp only [List.mem_reverse, List.mem_filter, decide_eq_true_eq] at hy
          simp [hk, hy.2, SymKind.ord]
        · intro y hy
          simp only [List.mem_append, List.mem_reverse, List.mem_filter, decide_eq_true_eq] at hy
          rcases hy with ⟨_, e⟩ | ⟨_, e⟩ <;> simp [hk, e, SymKind.ord]
      · rw [← List.nil_append ((List.filter (fun a => decide (key a = .multiTerminal)) done).reverse ++ _), insertRev_skip]
        · simp [hk]
        · intro y hy; simp at hy
        · intro y hy
          simp only [List.mem_append, List.mem_reverse, List.mem_filter, decide_eq_true_eq] at hy
          rcases hy with ⟨_, e⟩ | ⟨_, e⟩ | ⟨_, e⟩ <;> simp [hk, e, SymKind.ord]
    rw [List.foldl_cons, hstep, ih (done ++ [x])]
    simp

/-! ## Indices -/

/-- Everything of a symbol but its index -/
theorem sym_assignIndices_of_notMem : ∀ {l : List SymbolId} {g : Grammar} {i : Nat} {x : SymbolId}, x ∉ l →
    (g.assignIndices i l).sym x = g.sym x := by
  intro l
  induction l with
  | nil => intro g i x _; rfl
  | cons s l ih =>
    intro g i x hx
    unfold Grammar.assignIndices
    rw [ih (fun h => hx (by simp [h]))]
    have hxs : x ≠ s := fun h => hx (by simp [h])
    split <;> exact sym_modifySym_ne hxs

theorem length_assignIndices : ∀ {l : List SymbolId} {g : Grammar} {i : Nat},
    (g.assignIndices i l).syms.length = g.syms.length := by
  intro l
  induction l with
  | nil => intro g i; rfl
  | cons s l ih =>
    intro g i
    unfold Grammar.assignIndices
    rw [ih]
    split <;> exact length_modifySym _ _ _

theorem sym_assignIndices_mem : ∀ {l : List SymbolId} {g : Grammar} {i : Nat}, l.Nodup →
    (∀ s ∈ l, s < g.syms.length) → ∀ k (h : k < l.length),
    (g.assignIndices i l).sym l[k] = { g.sym l[k] with index := i + k } := by
  intro l
  induction l with
  | nil => intro g i _ _ k h; simp at h
  | cons s l ih =>
    intro g i hnd hlt k h
    obtain ⟨h1, h2⟩ := List.nodup_cons.1 hnd
    cases k with
    | zero =>
      unfold Grammar.assignIndices
      simp only [List.getElem_cons_zero, Nat.add_zero]
      rw [sym_assignIndices_of_notMem h1]
      have e := sym_modifySym_same (g := g) (f := fun b => { b with index := i }) (hlt s (by simp))
      split <;> exact e
    | succ k =>
      simp only [List.getElem_cons_succ]
      have hk : k < l.length := by simpa using h
      unfold Grammar.assignIndices
      have hne : l[k] ≠ s := fun e => h1 (e ▸ List.getElem_mem hk)
      have e : ∀ g' : Grammar, g'.syms = (g.modifySym s (fun b => { b with index := i })).syms →
          (g'.assignIndices (i + 1) l).sym l[k] = { g.sym l[k] with index := i + (k + 1) } := by
        intro g' hg'
        rw [ih h2 (by intro x hx; rw [hg', length_modifySym]; exact hlt x (by simp [hx])) k hk]
        have : g'.sym l[k] = g.sym l[k] := by
          have e1 : g'.sym l[k] = (g.modifySym s (fun b => { b with index := i })).sym l[k] := by
            unfold Grammar.sym; rw [hg']
          rw [e1, sym_modifySym_ne hne]
        rw [this, Nat.add_assoc, Nat.add_comm 1 k]
      simp only
      split <;> exact e _ rfl

theorem assignIndices_append : ∀ (l1 l2 : List SymbolId) (g : Grammar) (i : Nat),
    g.assignIndices i (l1 ++ l2) = (g.assignIndices i l1).assignIndices (i + l1.length) l2 := by
  intro l1
  induction l1 with
  | nil => intro l2 g i; rfl
  | cons s l ih =>
    intro l2 g i
    show Grammar.assignIndices g i (s :: (l ++ l2)) = _
    rw [Grammar.assignIndices, Grammar.assignIndices, ih]
    rw [List.length_cons, show i + 1 + l.length = i + (l.length + 1) by omega]

/-- Kinds are not touched. -/
theorem proj_assignIndices {β : Type} (π : Symbol → β) (hπ : ∀ (b : Symbol) n, π { b with index := n } = π b) :
    ∀ (l : List SymbolId) (g : Grammar) (i : Nat) (x : SymbolId), π ((g.assignIndices i l).sym x) = π (g.sym x) := by
  intro l
  induction l with
  | nil => intro g i x; rfl
  | cons s l ih =>
    intro g i x
    unfold Grammar.assignIndices
    rw [ih]
    have e := proj_modifySym π (g := g) (s := s) (f := fun b => { b with index := i }) (fun b => hπ b i) x
    split <;> exact e

theorem kind_after_modify {g : Grammar} {s : SymbolId} {i : Nat} :
    ((g.modifySym s (fun b => { b with index := i })).sym s).kind = (g.sym s).kind :=
  proj_modifySym Symbol.kind (g := g) (s := s) (f := fun b => { b with index := i }) (fun _ => rfl) s

/-- The counters after a run over symbols of one kind -/
theorem counters_assignIndices : ∀ (l : List SymbolId) (g : Grammar) (i : Nat) (k : SymKind),
    (∀ s ∈ l, (g.sym s).kind = k) →
    (g.assignIndices i l).numTerminals = (if k = .terminal ∧ l ≠ [] then i + l.length else g.numTerminals) ∧
    (g.assignIndices i l).defaultIndex = (if k = .nonTerminal ∧ l ≠ [] then i + l.length - 1 else g.defaultIndex) := by
  intro l
  induction l with
  | nil => intro g i k _; simp [Grammar.assignIndices]
  | cons s l ih =>
    intro g i k hk
    have hs : (g.sym s).kind = k := hk s (by simp)
    have hl : ∀ x ∈ l, ((g.modifySym s (fun b => { b with index := i })).sym x).kind = k := by
      intro x hx
      rw [proj_modifySym Symbol.kind (g := g) (s := s) (f := fun b => { b with index := i }) (fun _ => rfl) x]
      exact hk x (by simp [hx])
    unfold Grammar.assignIndices
    simp only
    rw [kind_after_modify, hs]
    cases k
    · obtain ⟨h1, h2⟩ := ih { g.modifySym s (fun b => { b with index := i }) with numTerminals := i + 1 } (i + 1) .terminal hl
      rw [h1, h2]
      cases l <;> simp [Grammar.modifySym]
      omega
    · obtain ⟨h1, h2⟩ := ih { g.modifySym s (fun b => { b with index := i }) with defaultIndex := i } (i + 1) .nonTerminal hl
      rw [h1, h2]
      cases l <;> simp [Grammar.modifySym]
      omega
    · obtain ⟨h1, h2⟩ := ih (g.modifySym s (fun b => { b with index := i })) (i + 1) .multiTerminal hl
      rw [h1, h2]
      simp [Grammar.modifySym]

end Pomelo
