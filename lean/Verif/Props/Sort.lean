import Verif.Proofs.Sort
import Verif.Examples
import Verif.Props.Stops
/-!
# C54: what is sorted, and whether the result is determined
-/

namespace Pomelo

open Spec

theorem compare_lt (a b : Nat) : (compare a b == .lt) = decide (a < b) := by
  rw [Bool.eq_iff_iff, beq_iff_eq, decide_eq_true_eq, Nat.compare_eq_lt]

theorem compare_eqB (a b : Nat) : (compare a b == .eq) = (a == b) := by
  rw [Bool.eq_iff_iff, beq_iff_eq, beq_iff_eq, Nat.compare_eq_eq]

theorem Detail.lt_cmp (a b : Detail) : a.lt b = (a.cmp b == .lt) := by
  cases a <;> cases b <;> first | rfl | exact (compare_lt _ _).symm

theorem Detail.cmpEq_cmp (a b : Detail) : a.cmpEq b = (a.cmp b == .eq) := by
  cases a <;> cases b <;> first | rfl | exact (compare_eqB _ _).symm

/-! ## The order of the actions -/

/-- Shifts, the accepting action, reduces, all others -/
def Detail.pair : Detail → Nat × Nat
  | .shift s => (0, s)
  | .accept => (1, 0)
  | .reduce r => (2, r)
  | _ => (3, 0)

theorem Detail.cmp_lt (a b : Detail) : a.cmp b = .lt ↔ a.pair.1 < b.pair.1 ∨ a.pair.1 = b.pair.1 ∧ a.pair.2 < b.pair.2 := by
  cases a <;> cases b <;> simp [Detail.cmp, Detail.pair, Nat.compare_eq_lt]

theorem Grammar.actionCmp_lt (g : Grammar) (a b : Action) : g.actionCmp a b = .lt ↔
    (g.sym a.la).index < (g.sym b.la).index ∨ (g.sym a.la).index = (g.sym b.la).index ∧ a.detail.cmp b.detail = .lt := by
  unfold Grammar.actionCmp
  rcases Nat.lt_trichotomy (g.sym a.la).index (g.sym b.la).index with h | h | h
  · rw [Nat.compare_eq_lt.2 h]; simp [h]
  · rw [Nat.compare_eq_eq.2 h]; simp [h]
  · rw [Nat.compare_eq_gt.2 h]; simp; omega

theorem Grammar.actionLt_cmp (g : Grammar) : g.actionLt = fun a b => g.actionCmp a b == .lt := by
  funext a b
  rw [Bool.eq_iff_iff, beq_iff_eq, g.actionCmp_lt]
  simp only [Grammar.actionLt, Bool.or_eq_true, Bool.and_eq_true, decide_eq_true_eq, beq_iff_eq, Detail.lt_cmp]

theorem Grammar.actionCmp_weak (g : Grammar) : StrictWeak g.actionCmp where
  asymm a b := by simp only [ne_eq, Grammar.actionCmp_lt, Detail.cmp_lt]; omega
  trans a b c := by simp only [Grammar.actionCmp_lt, Detail.cmp_lt]; omega
  cotrans a b c := by simp only [Grammar.actionCmp_lt, Detail.cmp_lt]; omega

/-! ## The other four orders -/

theorem TotalOrder.weak {α : Type} {cmp : α → α → Ordering} (h : ∀ l, TotalOrder cmp l) : StrictWeak cmp := by
  have sw : ∀ a b, cmp a b = (cmp b a).swap := fun a b => (h [a, b]).swap a (by simp) b (by simp)
  have tr : ∀ a b c, cmp a b ≠ .gt → cmp b c ≠ .gt → cmp a c ≠ .gt := fun a b c => (h [a, b, c]).trans a (by simp) b (by simp) c (by simp)
  have gt : ∀ a b, cmp a b = .gt ↔ cmp b a = .lt := by
    intro a b; rw [sw a b]; cases cmp b a <;> simp
  have co : ∀ a b c, cmp a c = .lt → cmp a b = .lt ∨ cmp b c = .lt := by
    intro a b c h1
    by_contra hn
    rw [not_or] at hn
    exact tr c b a (fun h => hn.2 ((gt _ _).1 h)) (fun h => hn.1 ((gt _ _).1 h)) ((gt _ _).2 h1)
  have as : ∀ a b, cmp a b = .lt → cmp b a ≠ .lt := by
    intro a b h1 h2
    rw [← gt, h1] at h2; cases h2
  refine ⟨as, fun a b c h1 h2 => ?_, co⟩
  rcases co _ c _ h1 with h3 | h3
  · exact h3
  · exact absurd h2 (as _ _ h3)

theorem total_key {α : Type} (f : α → Nat) (l : List α) : TotalOrder (fun a b => compare (f a) (f b)) l where
  swap a _ b _ := (Nat.compare_swap _ _).symm
  trans a _ b _ c _ := by simp only [ne_eq, Nat.compare_eq_gt]; omega

theorem then_gt (x y : Ordering) : x.then y = .gt ↔ x = .gt ∨ x = .eq ∧ y = .gt := by cases x <;> cases y <;> decide
theorem then_lt (x y : Ordering) : x.then y = .lt ↔ x = .lt ∨ x = .eq ∧ y = .lt := by cases x <;> cases y <;> decide

theorem total_then {α : Type} {c1 c2 : α → α → Ordering} {l : List α} (h1 : TotalOrder c1 l) (h2 : TotalOrder c2 l) : TotalOrder (fun a b => (c1 a b).then (c2 a b)) l where
  swap a ha b hb := by
    rw [h1.swap a ha b hb, h2.swap a ha b hb]
    cases c1 b a <;> cases c2 b a <;> rfl
  trans a ha b hb c hc := by
    simp only [ne_eq, then_gt]
    have t1 := h1.trans a ha b hb c hc
    have t2 := h2.trans a ha b hb c hc
    have t3 := h1.trans b hb c hc a ha
    have t4 := h1.trans c hc a ha b hb
    rw [h1.swap c hc a ha, h1.swap b hb a ha] at t3
    rw [h1.swap c hc a ha, h1.swap c hc b hb] at t4
    revert t1 t2 t3 t4
    cases c1 a b <;> cases c1 b c <;> cases c1 a c <;> simp +decide

theorem Grammar.symbolCmp_total (g : Grammar) (l : List SymbolId) : TotalOrder g.symbolCmp l := total_key (fun a => (g.sym a).kind.ord) l

theorem Item.cmp_total (l : List Item) : TotalOrder Item.cmp l := total_then (total_key (·.rule) l) (total_key (·.dot) l)

theorem Ax.cmp_total (l : List Ax) : TotalOrder Ax.cmp l := total_key (·.n) l

theorem TotalOrder.flip {α : Type} {cmp : α → α → Ordering} {l : List α} (h : TotalOrder cmp l) : TotalOrder (fun a b => cmp b a) l where
  swap a ha b hb := h.swap b hb a ha
  trans a ha b hb c hc h1 h2 := h.trans c hc b hb a ha h2 h1

theorem resortCmp_total (l : List RState) : TotalOrder resortCmp l :=
  total_then (TotalOrder.flip (total_key (·.nNt) l)) (total_then (TotalOrder.flip (total_key (·.nTkn) l)) (TotalOrder.flip (total_key (·.id) l)))

theorem TotalOrder.comap {α β : Type} {cmp : β → β → Ordering} (f : α → β) {l : List α} (h : TotalOrder cmp (l.map f)) : TotalOrder (fun a b => cmp (f a) (f b)) l where
  swap a ha b hb := h.swap _ (List.mem_map_of_mem ha) _ (List.mem_map_of_mem hb)
  trans a ha b hb c hc := h.trans _ (List.mem_map_of_mem ha) _ (List.mem_map_of_mem hb) _ (List.mem_map_of_mem hc)

/-! ### what the model asks is whether the outcome is `Less` -/

theorem Grammar.sortSymbols_cmp (g : Grammar) : (fun a b => decide ((g.sym a).kind.ord < (g.sym b).kind.ord)) = fun a b => g.symbolCmp a b == .lt := by
  funext a b; exact (compare_lt _ _).symm

theorem Item.lt_cmp (a b : Item) : a.lt b = (a.cmp b == .lt) := by
  rw [Bool.eq_iff_iff, beq_iff_eq]
  simp only [Item.lt, Item.cmp, then_lt, Nat.compare_eq_lt, Nat.compare_eq_eq, Bool.or_eq_true, Bool.and_eq_true, decide_eq_true_eq, beq_iff_eq]

theorem resortLt_cmp : resortLt = fun a b => resortCmp a b == .lt := by
  funext a b
  rw [Bool.eq_iff_iff, beq_iff_eq]
  simp only [resortLt, resortCmp, then_lt, Nat.compare_eq_lt, Nat.compare_eq_eq, Bool.or_eq_true, Bool.and_eq_true, decide_eq_true_eq, beq_iff_eq]

/-! ## The property -/

variable {ord : List (SymbolId × SymbolId) → List (SymbolId × SymbolId)} {ds : List Decl}

/-- The comparisons of everything that is sorted before the default actions are chosen, and of the states and rows, are total orders. -/
def SortsByOrder (R : Run ord ds) : Prop :=
  (∀ l, TotalOrder R.g0.symbolCmp l) ∧ (∀ l, TotalOrder Item.cmp l) ∧
  (∀ q, q < R.sts.length → TotalOrder R.g.actionCmp (R.g.rawActions q (R.sts.getD q default))) ∧
  (∀ l, TotalOrder resortCmp l) ∧ ∀ l, TotalOrder Ax.cmp l

/-- C54 as stated: so are the comparisons of the actions when a default has been chosen, which are then sorted again. -/
def C54_statement : Prop :=
  ∀ (ord : List (SymbolId × SymbolId) → List (SymbolId × SymbolId)), OrdOk ord → ∀ (ds : List Decl) (R : Run ord ds),
    SortsByOrder R ∧ ∀ q, R.finalOf q ≠ R.actionsOf q → TotalOrder R.g.actionCmp (R.finalOf q)

/-- C54: all sorts but the second one of the actions are by total orders.
Missing: the second one of the actions, where it is false (`C54_false`); but see `C54_determined`. -/
theorem C54_partial (ho : OrdOk ord) (R : Run ord ds) : SortsByOrder R := by
  refine ⟨R.g0.symbolCmp_total, Item.cmp_total, fun q hq => ?_, resortCmp_total, Ax.cmp_total⟩
  obtain ⟨hi, ha, _⟩ := R.aspec ho
  have plain : ∀ a ∈ R.g.rawActions q (R.sts.getD q default), a.detail.pair.1 ≠ 3 := by
    intro a h
    rcases (mem_rawActions hi ha hq a).1 h with ⟨k, _, h⟩ | ⟨r, _, h⟩ | ⟨_, h⟩ <;> rw [h] <;> simp [Detail.pair]
  generalize R.g.rawActions q (R.sts.getD q default) = l at plain
  have key : ∀ a b : Detail, a.pair.1 ≠ 3 → b.pair.1 ≠ 3 → a.cmp b = (compare a.pair.1 b.pair.1).then (compare a.pair.2 b.pair.2) := by
    intro a b
    cases a <;> cases b <;> simp [Detail.pair, Detail.cmp] <;> rfl
  have he : ∀ a ∈ l, ∀ b ∈ l, R.g.actionCmp a b =
      (compare (R.g.sym a.la).index (R.g.sym b.la).index).then ((compare a.detail.pair.1 b.detail.pair.1).then (compare a.detail.pair.2 b.detail.pair.2)) := by
    intro a ha b hb
    unfold Grammar.actionCmp
    rw [key _ _ (plain a ha) (plain b hb)]
    cases compare (R.g.sym a.la).index (R.g.sym b.la).index <;> rfl
  have ht := total_then (total_key (fun a : Action => (R.g.sym a.la).index) l) (total_then (total_key (fun a : Action => a.detail.pair.1) l) (total_key (fun a : Action => a.detail.pair.2) l))
  refine ⟨fun a ha b hb => ?_, fun a ha b hb c hc => ?_⟩
  · rw [he a ha b hb, he b hb a ha]; exact ht.swap a ha b hb
  · rw [he a ha b hb, he b hb c hc, he a ha c hc]; exact ht.trans a ha b hb c hc

/-- C54: each of the six sorts of the macro has a single stable result, which is the one of the model, as far as the sort only asks whether
the outcome is `Less`. -/
theorem C54_determined (g : Grammar) :
    (∀ l out, StableSort g.symbolCmp l out ↔ out = sortBy (fun a b => decide ((g.sym a).kind.ord < (g.sym b).kind.ord)) l) ∧
    (∀ l out : List Cfg, StableSort (fun a b => a.item.cmp b.item) l out ↔ out = sortCfgs l) ∧
    (∀ l out, StableSort g.actionCmp l out ↔ out = sortBy g.actionLt l) ∧
    (∀ l out, StableSort resortCmp l out ↔ out = sortBy resortLt l) ∧
    (∀ l out, StableSort Ax.cmp l out ↔ out = sortBy (fun a b => decide (a.n < b.n)) l) := by
  refine ⟨fun l out => ?_, fun l out => ?_, fun l out => ?_, fun l out => ?_, fun l out => ?_⟩
  · rw [g.sortSymbols_cmp]; exact stableSort_iff (TotalOrder.weak g.symbolCmp_total)
  · unfold sortCfgs
    simp only [Item.lt_cmp]
    exact stableSort_iff (cmp := fun a b : Cfg => a.item.cmp b.item) (TotalOrder.weak fun l => TotalOrder.comap (fun c : Cfg => c.item) (Item.cmp_total _))
  · rw [g.actionLt_cmp]; exact stableSort_iff g.actionCmp_weak
  · rw [resortLt_cmp]; exact stableSort_iff (TotalOrder.weak resortCmp_total)
  · rw [show (fun a b : Ax => decide (a.n < b.n)) = fun a b => Ax.cmp a b == .lt from by funext a b; exact (compare_lt _ _).symm]
    exact stableSort_iff (TotalOrder.weak Ax.cmp_total)

/-- The rows of the packed table: two for each state, stably sorted by the number of their actions, and then reversed, so the
largest come first. -/
theorem C54_rows (sts : List RState) :
    (∀ out, StableSort Ax.cmp (sts.zipIdx.flatMap fun x => [⟨x.2, true, x.1.nTkn⟩, ⟨x.2, false, x.1.nNt⟩]) out ↔ axSets sts = out.reverse) ∧
    (axSets sts).Pairwise (fun a b => b.n ≤ a.n) := by
  constructor
  · intro out
    rw [(C54_determined default).2.2.2.2, ← List.reverse_inj]
    exact eq_comm
  · unfold axSets
    rw [List.pairwise_reverse]
    refine pairwise_sortBy (R := fun a b : Ax => a.n ≤ b.n) (fun _ _ _ => Nat.le_trans) (fun a b h => ?_) (fun a b h => ?_) _
    · exact Nat.le_of_lt (of_decide_eq_true h)
    · exact Nat.le_of_not_lt (of_decide_eq_false h)

-- C54_rows: two states; of rows with as many actions the later one comes first
example : (axSets [⟨0, [], 2, 1, 9⟩, ⟨1, [], 0, 1, 9⟩]).map (fun a => (a.pos, a.isTkn, a.n)) =
    [(0, true, 2), (1, false, 1), (0, false, 1), (1, true, 0)] := by decide

/-! ## The second sort of the actions -/

namespace Sortex
open Tests (U L s r)
open Examples

/-- The grammar and the actions before and after the choice of defaults -/
def finalsOf (ds : List Decl) : Option (Grammar × List (List Action) × List (List Action)) :=
  match autoOf ds with
  | some (g, sts) => match g.findActions sts with
    | .ok (acts, _) => match g.compressTables acts with
      | .ok final => some (g, acts, final)
      | .error _ => none
    | .error _ => none
  | none => none

theorem finalsOf_run {ds : List Decl} (R : Run id ds) : finalsOf ds = some (R.g, R.acts, R.final) := by
  unfold finalsOf
  rw [Stopex.Run.autoOf R]
  simp only [R.actions, R.compress]

/-- `%right Plus; s ::= e; e ::= e Plus e; e ::= Lp e Rp; e ::= Num;` -/
def sum : List Decl := [ .assoc .right [U 1], r (L 0) [s (L 1)], r (L 1) [s (L 1), s (U 1), s (L 1)], r (L 1) [s (U 3), s (L 1), s (U 4)], r (L 1) [s (U 2)] ]

/-- Some state has been sorted again, with two actions of which one is less than the other, but the other equal to the one. -/
def odd (x : Grammar × List (List Action) × List (List Action)) : Bool :=
  (List.range x.2.2.length).any fun q =>
    let l := x.2.2.getD q []
    decide (l ≠ x.2.1.getD q []) && l.any fun a => l.any fun b => x.1.actionCmp a b == .lt && x.1.actionCmp b a == .eq

end Sortex

open Sortex Examples in
/-- C54 fails for an expression grammar: of a shift and a reduce that has lost against it the shift is less than the reduce, but the reduce equal to the
shift. -/
theorem C54_false : ¬ C54_statement := by
  intro h
  obtain ⟨R⟩ := run_exists (compiles_iff (ds := sum) (by decide +kernel))
  have h1 : (finalsOf sum).any odd = true := by decide +kernel
  rw [finalsOf_run R] at h1
  simp only [Option.any_some, odd, List.any_eq_true, Bool.and_eq_true, decide_eq_true_eq, beq_iff_eq] at h1
  obtain ⟨q, _, h2, a, ha, b, hb, h3, h4⟩ := h1
  have := ((h id (fun _ => List.Perm.refl _) sum R).2 q h2).swap a ha b hb
  rw [h3, h4] at this
  cases this

-- C54_partial: a run, with a state that sorts four actions
open Sortex Examples in
example : ∃ R : Run id sum, SortsByOrder R ∧ ∃ q, 4 ≤ (R.actionsOf q).length := by
  obtain ⟨R⟩ := run_exists (compiles_iff (ds := sum) (by decide +kernel))
  refine ⟨R, C54_partial (fun _ => List.Perm.refl _) R, ?_⟩
  have h1 : (finalsOf sum).any (fun x => (List.range x.2.1.length).any fun q => decide (4 ≤ (x.2.1.getD q []).length)) = true := by decide +kernel
  rw [finalsOf_run R] at h1
  simp only [Option.any_some, List.any_eq_true, decide_eq_true_eq] at h1
  obtain ⟨q, _, h2⟩ := h1
  exact ⟨q, h2⟩

end Pomelo
