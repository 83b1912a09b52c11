import Verif.Proofs.First
import Verif.Proofs.Bridge
/-! # Exactness of nullable, FIRST and the closure's look at the rest of a rule -/

namespace Pomelo

open Spec

/-- Tokens by which the symbol itself may begin -/
def Grammar.heads (g : Grammar) (x : SymbolId) : List Nat :=
  match (g.sym x).kind with
  | .terminal => [(g.sym x).index]
  | .multiTerminal => (g.sym x).subs.map (fun k => (g.sym k).index)
  | .nonTerminal => (g.sym x).firstSet

/-- Membership in the look at the rest of a rule -/
def Grammar.InFollow (g : Grammar) : List SymbolId → Nat → Prop
  | [], _ => False
  | x :: xs, n => n ∈ g.heads x ∨ ((g.sym x).isLambda = true ∧ g.InFollow xs n)

theorem Symbol.isLambda_nt {b : Symbol} (h : b.isLambda = true) : b.kind = .nonTerminal := by
  unfold Symbol.isLambda at h
  cases hk : b.kind <;> rw [hk] at h <;> first | rfl | simp at h

theorem Symbol.isLambda_lambda {b : Symbol} (h : b.isLambda = true) : b.lambda = true := by
  unfold Symbol.isLambda at h
  cases hk : b.kind <;> rw [hk] at h <;> first | exact h | simp at h

theorem followOf_inFollow (g : Grammar) : ∀ xs n, n ∈ (g.followOf xs).1 ↔ g.InFollow xs n := by
  intro xs
  induction xs with
  | nil => intro n; simp [Grammar.followOf, Grammar.InFollow]
  | cons x xs ih =>
    intro n
    unfold Grammar.followOf Grammar.InFollow Grammar.heads
    simp only
    cases hk : (g.sym x).kind with
    | terminal => simp [Symbol.isLambda, hk]
    | multiTerminal => simp [Symbol.isLambda, hk]
    | nonTerminal =>
      simp only
      by_cases hl : (g.sym x).lambda = true
      · rw [if_pos hl]
        simp only [mem_setUnion, ih]
        simp [Symbol.isLambda, hk, hl]
      · rw [if_neg hl]
        simp [Symbol.isLambda, hk, hl]

theorem followOf_broken (g : Grammar) : ∀ xs, (g.followOf xs).2 = false ↔ ∀ x ∈ xs, (g.sym x).isLambda = true := by
  intro xs
  induction xs with
  | nil => simp [Grammar.followOf]
  | cons x xs ih =>
    unfold Grammar.followOf
    simp only
    cases hk : (g.sym x).kind with
    | terminal => simp [Symbol.isLambda, hk]
    | multiTerminal => simp [Symbol.isLambda, hk]
    | nonTerminal =>
      simp only
      by_cases hl : (g.sym x).lambda = true
      · rw [if_pos hl]
        simp only [ih]
        simp [Symbol.isLambda, hk, hl]
      · rw [if_neg hl]
        simp [Symbol.isLambda, hk, hl]

theorem inFollow_append (g : Grammar) (ys : List SymbolId) (n : Nat) : ∀ xs, g.InFollow (xs ++ ys) n ↔
    g.InFollow xs n ∨ ((∀ x ∈ xs, (g.sym x).isLambda = true) ∧ g.InFollow ys n) := by
  intro xs
  induction xs with
  | nil => simp [Grammar.InFollow]
  | cons x xs ih =>
    simp only [List.cons_append, Grammar.InFollow, ih, List.forall_mem_cons]
    tauto

/-- Closed under the rules -/
structure FirstClosed (g : Grammar) : Prop where
  lam : ∀ r, r < g.rules.length → (∀ x ∈ g.rhsSyms r, (g.sym x).isLambda = true) → (g.sym (g.rule r).lhs).isLambda = true
  fst : ∀ r, r < g.rules.length → ∀ n, g.InFollow (g.rhsSyms r) n → n ∈ g.heads (g.rule r).lhs

/-- `lambda` and `first_set` are what the textbooks define -/
structure FirstExact (g : Grammar) : Prop where
  lam : ∀ x, (g.sym x).isLambda = true ↔ Derives g [x] []
  fst : ∀ x, (g.sym x).kind = .nonTerminal → ∀ n, n ∈ (g.sym x).firstSet ↔ Begins g [x] n
  closed : FirstClosed g

theorem FirstClosed.lam_complete {g : Grammar} (h : FirstClosed g) {α : List SymbolId} (hd : Derives g α []) :
    ∀ x ∈ α, (g.sym x).isLambda = true := by
  have key : ∀ {α β : List SymbolId}, Derives g α β → (∀ x ∈ β, (g.sym x).isLambda = true) →
      ∀ x ∈ α, (g.sym x).isLambda = true := by
    intro α β hd
    induction hd using Relation.ReflTransGen.head_induction_on with
    | refl => exact id
    | head h1 _ ih =>
      intro hb
      have := ih hb
      obtain ⟨u, v, r, hr, rfl, rfl⟩ := h1
      simp only [List.mem_append, List.mem_cons] at this ⊢
      rintro x (hx | rfl | hx)
      · exact this x (.inl (.inl hx))
      · exact h.lam r hr (fun y hy => this y (.inl (.inr hy)))
      · exact this x (.inr hx)
  exact key hd (by simp)

theorem FirstClosed.fst_complete {g : Grammar} (h : FirstClosed g) {α : List SymbolId} {n : Nat} (hb : Begins g α n) :
    g.InFollow α n := by
  obtain ⟨a, X, β, rfl, hd, hr⟩ := hb
  have base : g.InFollow (X :: β) (g.sym a).index := by
    left
    unfold Reads at hr
    unfold Grammar.heads
    cases hk : (g.sym X).kind with
    | terminal => rw [hk] at hr; simp only at hr ⊢; subst hr; simp
    | multiTerminal => rw [hk] at hr; simp only at hr ⊢; exact List.mem_map.2 ⟨a, hr, rfl⟩
    | nonTerminal => rw [hk] at hr; exact hr.elim
  generalize hγ : X :: β = γ at hd base
  clear hγ hr
  induction hd using Relation.ReflTransGen.head_induction_on with
  | refl => exact base
  | head h1 _ ih =>
    obtain ⟨u, v, r, hr, rfl, rfl⟩ := h1
    rw [List.append_assoc, inFollow_append, inFollow_append] at ih
    rw [inFollow_append]
    rcases ih with h2 | ⟨h2, h3 | ⟨h3, h4⟩⟩
    · exact .inl h2
    · exact .inr ⟨h2, .inl (h.fst r hr _ h3)⟩
    · exact .inr ⟨h2, .inr ⟨h.lam r hr h3, h4⟩⟩

/-- Nothing but a nonterminal rewrites. -/
theorem heads_sound {g : Grammar} (hf : FstSound g g.syms) (x : SymbolId) :
    ∀ n ∈ g.heads x, Begins g [x] n := by
  intro n hn
  unfold Grammar.heads at hn
  split at hn
  · rename_i hk
    simp only [List.mem_singleton] at hn
    exact ⟨x, x, [], hn, .refl _, by unfold Reads; rw [hk]⟩
  · rename_i hk
    obtain ⟨m, hm, rfl⟩ := List.mem_map.1 hn
    exact ⟨m, x, [], rfl, .refl _, by unfold Reads; rw [hk]; exact hm⟩
  · exact hf x n hn

theorem inFollow_sound {g : Grammar} (hf : FstSound g g.syms) (hl : LamSound g g.syms) : ∀ {α : List SymbolId} {n : Nat},
    g.InFollow α n → Begins g α n := by
  intro α
  induction α with
  | nil => intro n h; exact h.elim
  | cons x α ih =>
    intro n h
    rcases h with h | ⟨h1, h2⟩
    · obtain ⟨a, X, β, rfl, h2, h3⟩ := heads_sound hf x n h
      exact ⟨a, X, β ++ α, rfl, by simpa using h2.append_right α, h3⟩
    · obtain ⟨a, X, β, rfl, h3, h4⟩ := ih h2
      refine ⟨a, X, β, rfl, ?_, h4⟩
      have := (hl x h1).append_right α
      exact Derives.trans (by simpa using this) h3

theorem firstExact_of {g : Grammar} (hf : FstSound g g.syms) (hl : LamSound g g.syms) (hc : FirstClosed g) : FirstExact g where
  lam := fun x => ⟨hl x, fun h => hc.lam_complete h x (by simp)⟩
  fst := by
    intro x hk n
    refine ⟨hf x n, fun h => ?_⟩
    have := hc.fst_complete h
    rcases this with h1 | ⟨_, h2⟩
    · unfold Grammar.heads at h1; rw [hk] at h1; exact h1
    · exact h2.elim
  closed := hc

theorem FirstExact.fstSound {g : Grammar} (h : FirstExact g) (hk : ∀ x, (g.sym x).firstSet ≠ [] → (g.sym x).kind = .nonTerminal) :
    FstSound g g.syms := by
  intro x n hn
  have : (g.sym x).kind = .nonTerminal := hk x (by intro e; unfold Grammar.sym at e; rw [e] at hn; cases hn)
  exact (h.fst x this n).1 hn

theorem FirstExact.follow {g : Grammar} (h : FirstExact g) (hk : ∀ x, (g.sym x).firstSet ≠ [] → (g.sym x).kind = .nonTerminal)
    {α : List SymbolId} (n : Nat) : n ∈ (g.followOf α).1 ↔ Begins g α n := by
  rw [followOf_inFollow]
  refine ⟨inFollow_sound (h.fstSound hk) (fun x hx => (h.lam x).1 hx), fun hb => ?_⟩
  exact h.closed.fst_complete hb

theorem FirstExact.broken {g : Grammar} (h : FirstExact g) {α : List SymbolId} : (g.followOf α).2 = false ↔ Derives g α [] := by
  rw [followOf_broken]
  refine ⟨fun hall => Derives.nil_of_all (fun x hx => (h.lam x).1 (hall x hx)), fun hd => ?_⟩
  exact h.closed.lam_complete hd

/-! ## The loops establish it -/

theorem derives_of_rules {g g' : Grammar} (h1 : g'.rules.length = g.rules.length) (h2 : ∀ r, (g'.rule r).lhs = (g.rule r).lhs)
    (h3 : ∀ r, g'.rhsSyms r = g.rhsSyms r) : Derives g' = Derives g := by
  have : Rewrites g' = Rewrites g := by
    funext α β
    unfold Rewrites
    simp only [h1, h2, h3]
  unfold Derives
  rw [this]

theorem Shape.derives {g g' : Grammar} (h : Shape g g') : Derives g' = Derives g := derives_of_rules h.rlen h.lhs h.rhs

theorem Shape.reads {g g' : Grammar} (h : Shape g g') : Reads g' = Reads g := by
  funext X a
  unfold Reads
  rw [h.kind, h.subs]

theorem Shape.begins {g g' : Grammar} (h : Shape g g') : Begins g' = Begins g := by
  funext α n
  unfold Begins
  rw [h.derives, h.reads]
  simp only [h.index]

/-- No flags or first sets yet -/
def Fresh (g : Grammar) : Prop := ∀ s, (g.sym s).firstSet = [] ∧ (g.sym s).lambda = false

theorem rhsClosed_inFollow {g : Grammar} {lhs : SymbolId} (hk : (g.sym lhs).kind = .nonTerminal) : ∀ {xs : List RhsSym},
    RhsClosed g.syms lhs xs → ∀ n, g.InFollow (xs.map (·.sym)) n → n ∈ (g.sym lhs).firstSet := by
  intro xs
  induction xs with
  | nil => intro _ n h; exact h.elim
  | cons x xs ih =>
    intro h n hn
    unfold RhsClosed at h
    rw [List.map_cons] at hn
    split at h
    · rename_i he
      rcases hn with h1 | ⟨h1, h2⟩
      · unfold Grammar.heads at h1; rw [← he, hk] at h1; exact h1
      · rw [← he] at h1; exact ih (h h1) n h2
    · rcases hn with h1 | ⟨h1, h2⟩
      · unfold Grammar.heads at h1
        cases hkx : (g.sym x.sym).kind with
        | terminal =>
          have e : (g.syms.getD x.sym default).kind = .terminal := hkx
          rw [e] at h; rw [hkx] at h1
          simp only [List.mem_singleton] at h h1
          subst h1; exact h
        | multiTerminal =>
          have e : (g.syms.getD x.sym default).kind = .multiTerminal := hkx
          rw [e] at h; rw [hkx] at h1
          simp only at h h1
          obtain ⟨m, hm, rfl⟩ := List.mem_map.1 h1
          exact h m hm
        | nonTerminal =>
          have e : (g.syms.getD x.sym default).kind = .nonTerminal := hkx
          rw [e] at h; rw [hkx] at h1
          exact h.1 n h1
      · have hkx := Symbol.isLambda_nt h1
        have e : (g.syms.getD x.sym default).kind = .nonTerminal := hkx
        rw [e] at h
        exact ih (h.2 (Symbol.isLambda_lambda h1)) n h2

theorem lambdaLoop_firstSet {rules : List Rule} : ∀ {fuel : Nat} {a b : List Symbol}, lambdaLoop rules fuel a = .ok b →
    ∀ x, (b.getD x default).firstSet = (a.getD x default).firstSet := by
  have hstep : ∀ (acc : List Symbol × Bool) (r : Rule) (x : Nat),
      ((lambdaStep acc r).1.getD x default).firstSet = (acc.1.getD x default).firstSet := by
    intro acc r x
    unfold lambdaStep
    split
    · rfl
    · split
      · simp only; rw [getD_modify]; split <;> rfl
      · rfl
  have hfold : ∀ (l : List Rule) (acc : List Symbol × Bool) (x : Nat),
      ((l.foldl lambdaStep acc).1.getD x default).firstSet = (acc.1.getD x default).firstSet := by
    intro l
    induction l with
    | nil => intro acc x; rfl
    | cons r l ih => intro acc x; rw [List.foldl_cons, ih, hstep]
  intro fuel
  induction fuel with
  | zero => intro a b h; cases h
  | succ n ih =>
    intro a b h x
    unfold lambdaLoop at h
    have := hfold rules (a, false) x
    rcases hf : rules.foldl lambdaStep (a, false) with ⟨c, pr⟩
    rw [hf] at h this
    simp only at h this
    split at h
    · rw [ih h, this]
    · cases h; exact this

/-- `find_first_sets` computes them exactly. -/
theorem findFirstSets_exact {g g' : Grammar} (hfr : Fresh g)
    (hlhs : ∀ r, r < g.rules.length → (g.sym (g.rule r).lhs).kind = .nonTerminal)
    (h : g.findFirstSets = .ok g') : FirstExact g' ∧ (∀ x, (g'.sym x).firstSet ≠ [] → (g'.sym x).kind = .nonTerminal) := by
  have hsh := findFirstSets_shape h
  unfold Grammar.findFirstSets at h
  split at h
  · cases h
  · rename_i a ha
    split at h
    · cases h
    · rename_i b hb
      cases h
      have l0 : LamSound g g.syms := by
        intro x hx
        have h1 : (g.sym x).lambda = true := Symbol.isLambda_lambda hx
        rw [(hfr x).2] at h1
        cases h1
      obtain ⟨l1, l2⟩ := lambdaLoop_exact l0 ha
      have foA := firstOnly_lambdaLoop _ _ ha
      have f0 : FstSound g a := by
        intro x n hn
        rw [lambdaLoop_firstSet ha] at hn
        have := (hfr x).1
        unfold Grammar.sym at this
        rw [this] at hn
        cases hn
      obtain ⟨f1, f2, f3⟩ := firstLoop_exact f0 l1 foA hb
      generalize hg' : ({ g with syms := b } : Grammar) = g' at hsh
      have eb : g'.syms = b := by rw [← hg']
      have er : g'.rules = g.rules := by rw [← hg']
      have hlam : LamSound g' g'.syms := by
        unfold LamSound
        rw [hsh.derives, eb]
        intro x hx
        rw [f3] at hx
        exact l1 x hx
      have hfst : FstSound g' g'.syms := by
        unfold FstSound
        rw [hsh.begins, eb]
        exact f1
      have hcl : FirstClosed g' := by
        constructor
        · intro r hr hall
          have hm : g'.rule r ∈ g.rules := by
            unfold Grammar.rule; rw [getD_of_lt hr]; rw [← er]; exact List.getElem_mem hr
          have := l2 _ hm
          unfold Grammar.sym
          rw [eb, f3]
          apply this
          intro s hs
          rw [← f3]
          have := hall s.sym (List.mem_map.2 ⟨s, hs, rfl⟩)
          unfold Grammar.sym at this
          rw [eb] at this
          exact this
        · intro r hr n hn
          have hm : g'.rule r ∈ g.rules := by
            unfold Grammar.rule; rw [getD_of_lt hr]; rw [← er]; exact List.getElem_mem hr
          have hk : (g'.sym (g'.rule r).lhs).kind = .nonTerminal := by
            rw [hsh.kind, hsh.lhs]; exact hlhs r (by rw [← hsh.rlen]; exact hr)
          have := f2 _ hm
          rw [← eb] at this
          unfold Grammar.heads
          rw [hk]
          exact rhsClosed_inFollow hk this n hn
      refine ⟨firstExact_of hfst hlam hcl, ?_⟩
      -- only left-hand sides get first sets
      have hgrow : ∀ {l : List RhsSym} {s1 : SymbolId} {acc : List Symbol × Bool} {x : SymbolId},
          ((firstRhs s1 acc l).1.getD x default).firstSet ≠ [] → (acc.1.getD x default).firstSet ≠ [] ∨ x = s1 := by
        have h1 : ∀ {s1 : SymbolId} {acc : List Symbol × Bool} {add : List Nat} {x : SymbolId},
          ((growFirst acc s1 add).1.getD x default).firstSet ≠ [] → (acc.1.getD x default).firstSet ≠ [] ∨ x = s1 := by
          intro s1 acc add x hx
          unfold growFirst at hx
          simp only at hx
          rw [getD_modify] at hx
          split at hx
          · rename_i hh; exact .inr hh.1.symm
          · exact .inl hx
        intro l
        induction l with
        | nil => intro s1 acc x hx; exact .inl hx
        | cons y l ih =>
          intro s1 acc x hx
          unfold firstRhs at hx
          simp only at hx
          split at hx
          · split at hx
            · exact ih hx
            · exact .inl hx
          · split at hx
            · exact h1 hx
            · exact h1 hx
            · split at hx
              · rcases ih hx with h2 | h2
                · exact h1 h2
                · exact .inr h2
              · exact h1 hx
      have hfold : ∀ {l : List Rule} {acc : List Symbol × Bool} {x : SymbolId},
          ((l.foldl (fun acc r => firstRhs r.lhs acc r.rhs) acc).1.getD x default).firstSet ≠ [] →
          (acc.1.getD x default).firstSet ≠ [] ∨ ∃ r ∈ l, x = r.lhs := by
        intro l
        induction l with
        | nil => intro acc x hx; exact .inl hx
        | cons r l ih =>
          intro acc x hx
          rw [List.foldl_cons] at hx
          rcases ih hx with h2 | ⟨r', h2, h3⟩
          · rcases hgrow h2 with h3 | h3
            · exact .inl h3
            · exact .inr ⟨r, by simp, h3⟩
          · exact .inr ⟨r', by simp [h2], h3⟩
      have hloop : ∀ {fuel : Nat} {a b : List Symbol}, firstLoop g.rules fuel a = .ok b → ∀ x, (b.getD x default).firstSet ≠ [] →
          (a.getD x default).firstSet ≠ [] ∨ ∃ r ∈ g.rules, x = r.lhs := by
        intro fuel
        induction fuel with
        | zero => intro a b h; cases h
        | succ n ih =>
          intro a b h x hx
          unfold firstLoop at h
          have := hfold (l := g.rules) (acc := (a, false)) (x := x)
          rcases hf : g.rules.foldl (fun acc r => firstRhs r.lhs acc r.rhs) (a, false) with ⟨c, pr⟩
          rw [hf] at h this
          simp only at h this
          split at h
          · rcases ih h x hx with h2 | h2
            · exact this h2
            · exact .inr h2
          · cases h; exact this hx
      intro x hx
      have hx2 : (b.getD x default).firstSet ≠ [] := by
        unfold Grammar.sym at hx; rw [eb] at hx; exact hx
      rcases hloop hb x hx2 with h2 | ⟨r, hr, rfl⟩
      · rw [lambdaLoop_firstSet ha] at h2
        exact absurd (hfr x).1 h2
      · obtain ⟨i, hi, rfl⟩ := mem_rules hr
        rw [hsh.kind]
        exact hlhs i hi

/-! ## The loops end before their fuel -/

/-- What can grow in the second loop -/
def firstTotal (syms : List Symbol) : Nat := (syms.map (·.firstSet.length)).sum

theorem firstTotal_modify (v : List Nat) : ∀ (syms : List Symbol) (k : Nat), k < syms.length →
    firstTotal (syms.modify k (fun b => { b with firstSet := v })) + (syms.getD k default).firstSet.length =
      firstTotal syms + v.length := by
  intro syms
  induction syms with
  | nil => intro k h; simp at h
  | cons b syms ih =>
    intro k h
    cases k with
    | zero => simp [firstTotal, List.modify_zero_cons]; omega
    | succ k =>
      have := ih k (by simpa using h)
      simp only [firstTotal, List.modify_succ_cons, List.map_cons, List.sum_cons, List.getD_cons_succ] at this ⊢
      omega

/-- First sets have no duplicates and hold indices only -/
def FirstBnd (n : Nat) (syms : List Symbol) : Prop :=
  ∀ x, (syms.getD x default).firstSet.Nodup ∧ ∀ k ∈ (syms.getD x default).firstSet, k < n

theorem firstTotal_le {n : Nat} : ∀ {syms : List Symbol}, FirstBnd n syms → firstTotal syms ≤ syms.length * n := by
  intro syms
  induction syms with
  | nil => intro _; simp [firstTotal]
  | cons b syms ih =>
    intro h
    have h1 := ih (fun x => by have := h (x + 1); simpa only [List.getD_cons_succ] using this)
    have h2 := h 0
    simp only [List.getD_cons_zero] at h2
    have h3 := length_le_of_nodup h2.1 h2.2
    simp only [firstTotal, List.map_cons, List.sum_cons, List.length_cons, Nat.succ_mul] at h1 ⊢
    omega

/-- One step of the second loop: nothing shrinks, and the flag means something grew -/
def FirstGrow (n : Nat) (a b : List Symbol × Bool) : Prop :=
  FirstBnd n b.1 ∧ FirstOnly a.1 b.1 ∧ firstTotal a.1 ≤ firstTotal b.1 ∧
    (b.2 = true → a.2 = true ∨ firstTotal a.1 < firstTotal b.1)

theorem FirstGrow.trans {n : Nat} {a b c : List Symbol × Bool} (h1 : FirstGrow n a b) (h2 : FirstGrow n b c) : FirstGrow n a c := by
  obtain ⟨_, b1, c1, d1⟩ := h1
  obtain ⟨a2, b2, c2, d2⟩ := h2
  refine ⟨a2, FirstOnly.trans (b := b.1) b1 b2, Nat.le_trans c1 c2, fun h => ?_⟩
  rcases d2 h with h | h
  · rcases d1 h with h | h
    · exact .inl h
    · exact .inr (Nat.lt_of_lt_of_le h c2)
  · exact .inr (Nat.lt_of_le_of_lt c1 h)

theorem firstGrow_grow {n : Nat} {acc : List Symbol × Bool} {s : SymbolId} {add : List Nat} (hb : FirstBnd n acc.1)
    (hs : s < acc.1.length) (ha : ∀ k ∈ add, k < n) : FirstGrow n acc (growFirst acc s add) := by
  have htot := firstTotal_modify (setUnion (acc.1.getD s default).firstSet add) acc.1 s hs
  have hle := length_setUnion (acc.1.getD s default).firstSet add
  unfold growFirst
  refine ⟨?_, .modify_first _ _ _, ?_, ?_⟩
  · intro x
    simp only
    rw [firstSet_modify]
    split
    · refine ⟨nodup_setUnion (hb s).1, ?_⟩
      intro k hk
      rw [mem_setUnion] at hk
      rcases hk with hk | hk
      · exact (hb s).2 k hk
      · exact ha k hk
    · exact hb x
  · simp only; omega
  · simp only [Bool.or_eq_true, decide_eq_true_eq]
    rintro (h | h)
    · exact .inl h
    · right; omega

theorem firstGrow_rhs {n : Nat} {s1 : SymbolId} : ∀ {xs : List RhsSym} {acc : List Symbol × Bool}, FirstBnd n acc.1 →
    s1 < acc.1.length → (∀ s, (acc.1.getD s default).index < n) → FirstGrow n acc (firstRhs s1 acc xs) := by
  intro xs
  induction xs with
  | nil => intro acc hb _ _; exact ⟨hb, .refl _, Nat.le_refl _, fun h => .inl h⟩
  | cons x xs ih =>
    intro acc hb hs hi
    unfold firstRhs
    simp only
    split
    · split
      · exact ih hb hs hi
      · exact ⟨hb, .refl _, Nat.le_refl _, fun h => .inl h⟩
    · split
      · exact firstGrow_grow hb hs (by simpa using hi x.sym)
      · refine firstGrow_grow hb hs ?_
        intro k hk
        obtain ⟨m, _, rfl⟩ := List.mem_map.1 hk
        exact hi m
      · have hg := firstGrow_grow (add := (acc.1.getD x.sym default).firstSet) hb hs (hb x.sym).2
        split
        · refine hg.trans (ih hg.1 (by rw [hg.2.1.len]; exact hs) ?_)
          intro s
          rw [hg.2.1.proj Symbol.index (fun _ _ => rfl) (fun _ _ => rfl)]; exact hi s
        · exact hg

theorem firstLoop_ends {rules : List Rule} {n : Nat} : ∀ {fuel : Nat} {a : List Symbol}, FirstBnd n a →
    (∀ r ∈ rules, r.lhs < a.length) → (∀ s, (a.getD s default).index < n) → a.length * n < fuel + firstTotal a →
    ∃ b, firstLoop rules fuel a = .ok b := by
  have hfold : ∀ {l : List Rule} {acc : List Symbol × Bool}, FirstBnd n acc.1 → (∀ r ∈ l, r.lhs < acc.1.length) →
      (∀ s, (acc.1.getD s default).index < n) →
      FirstGrow n acc (l.foldl (fun acc r => firstRhs r.lhs acc r.rhs) acc) := by
    intro l
    induction l with
    | nil => intro acc hb _ _; exact ⟨hb, .refl _, Nat.le_refl _, fun h => .inl h⟩
    | cons r l ih =>
      intro acc hb hl hi
      rw [List.foldl_cons]
      have hg := firstGrow_rhs (s1 := r.lhs) (xs := r.rhs) hb (hl r (by simp)) hi
      refine hg.trans (ih hg.1 (fun x hx => by rw [hg.2.1.len]; exact hl x (by simp [hx])) ?_)
      intro s
      rw [hg.2.1.proj Symbol.index (fun _ _ => rfl) (fun _ _ => rfl)]; exact hi s
  intro fuel
  induction fuel with
  | zero =>
    intro a hb _ _ h
    have := firstTotal_le hb
    omega
  | succ k ih =>
    intro a hb hl hi h
    unfold firstLoop
    obtain ⟨h1, h2, h3, h4⟩ := hfold (l := rules) (acc := (a, false)) hb hl hi
    rcases hf : rules.foldl (fun acc r => firstRhs r.lhs acc r.rhs) (a, false) with ⟨c, pr⟩
    rw [hf] at h1 h2 h3 h4 ⊢
    simp only at h1 h2 h3 h4 ⊢
    cases pr with
    | false => exact ⟨c, by simp⟩
    | true =>
      simp only [if_true]
      have h5 := h4 rfl
      simp only [Bool.false_eq_true, false_or] at h5
      refine ih h1 (fun r hr => by rw [h2.len]; exact hl r hr) ?_ (by rw [h2.len]; omega)
      intro s
      rw [h2.proj Symbol.index (fun _ _ => rfl) (fun _ _ => rfl)]; exact hi s

/-- `find_first_sets` always ends. -/
theorem findFirstSets_ends {g : Grammar} (hi : GInv g) (hfr : Fresh g) : ∃ g', g.findFirstSets = .ok g' := by
  have hlhs : ∀ r ∈ g.rules, r.lhs < g.syms.length ∧ (g.syms.getD r.lhs default).kind = .nonTerminal := by
    intro r hr
    obtain ⟨i, h1, rfl⟩ := mem_rules hr
    exact ⟨(hi.lhs i h1).1, (hi.lhs i h1).2.1⟩
  obtain ⟨a, ha⟩ := lambdaLoop_ends (fuel := g.syms.length + 1) hlhs
    (Nat.lt_succ_of_le (by unfold unflagged; exact List.countP_le_length))
  have fo := firstOnly_lambdaLoop _ _ ha
  have hidx : ∀ s, (a.getD s default).index < g.syms.length := by
    intro s
    rw [fo.proj Symbol.index (fun _ _ => rfl) (fun _ _ => rfl)]
    by_cases hs : s < g.syms.length
    · exact hi.index_lt hs
    · rw [List.getD_eq_getElem?_getD, List.getElem?_eq_none (Nat.le_of_not_lt hs)]
      exact Nat.lt_of_lt_of_le (by decide) hi.two
  have hempty : ∀ x, (a.getD x default).firstSet = [] := by
    intro x; rw [lambdaLoop_firstSet ha]; exact (hfr x).1
  obtain ⟨b, hb⟩ := firstLoop_ends (rules := g.rules) (n := g.syms.length) (fuel := g.syms.length * g.syms.length + 1) (a := a)
    (fun x => by rw [hempty x]; simp) (fun r hr => by rw [fo.len]; exact (hlhs r hr).1) hidx (by rw [fo.len]; omega)
  exact ⟨{ g with syms := b }, by unfold Grammar.findFirstSets; rw [ha]; simp only [hb]⟩

/-! ## For a compiled grammar -/

theorem AutoSpec.firstExact {gD : Grammar} (hd : DInv gD) (hne : gD.rules ≠ []) {ord} (ho : OrdOk ord)
    {g' : Grammar} {sts' : List LState}
    (s : AutoSpec (gD.pushSym { name := .dflt, kind := .nonTerminal }) ord g' sts') :
    FirstExact g' ∧ ∀ x, (g'.sym x).firstSet ≠ [] → (g'.sym x).kind = .nonTerminal := by
  have hgi := GInv.prepare hd hne ho
  have hN := (findRulePrecedences_shape _).trans (normalizeRules_shape s.norm)
  have hgN := hgi.shape hN
  obtain ⟨rulesN, heN, _⟩ := normalizeRules_spec s.norm
  have hfr : Fresh s.gN := by
    intro x
    have hx : s.gN.sym x = ((gD.pushSym { name := .dflt, kind := .nonTerminal }).prepare ord).sym x := by
      rw [heN]; rfl
    rw [hx]
    have h1 := proj_addOptionals (fun b => (b.firstSet, b.lambda)) (fun _ _ => rfl) (fun _ _ => rfl)
      (g := ((gD.pushSym { name := .dflt, kind := .nonTerminal }).indexed.addExtraToken)) (ord := ord) x
    rw [proj_addExtraToken (fun b => (b.firstSet, b.lambda)) (fun _ _ => rfl), proj_indexed (fun b => (b.firstSet, b.lambda)) (fun _ _ => rfl)] at h1
    rw [← prepare_eq] at h1
    have h2 : ((gD.pushSym { name := .dflt, kind := .nonTerminal }).sym x).firstSet = [] ∧
        ((gD.pushSym { name := .dflt, kind := .nonTerminal }).sym x).lambda = false := by
      by_cases hx : x < gD.syms.length
      · rw [sym_pushSym_lt hx]; exact hd.plain x hx
      · unfold Grammar.sym Grammar.pushSym
        by_cases he : x = gD.syms.length
        · subst he; simp [List.getD_eq_getElem?_getD]
        · have : gD.syms.length + 1 ≤ x := Nat.lt_of_le_of_ne (Nat.le_of_not_lt hx) (Ne.symm he)
          simp only [List.getD_eq_getElem?_getD]
          rw [List.getElem?_eq_none (by simpa using this)]
          exact ⟨rfl, rfl⟩
    have h3 := congrArg Prod.fst h1
    have h4 := congrArg Prod.snd h1
    simp only at h3 h4
    rw [h3, h4]; exact h2
  obtain ⟨h1, h2⟩ := findFirstSets_exact hfr (fun r hr => (hgN.lhs r hr).2.1) s.first
  have hm := markStart_shape s.gF (s.gF.start.getD 0)
  have hs : (s.gF.markStart (s.gF.start.getD 0)).syms = s.gF.syms := (markStart_rules _ _).1
  have hmk := s.marked
  clear hfr heN hgN hN
  generalize s.gF = gF at *
  clear s
  subst hmk
  have hsym : ∀ x, (gF.markStart (gF.start.getD 0)).sym x = gF.sym x := by
    intro x; unfold Grammar.sym; rw [hs]
  have hm' := hm
  have hin : ∀ xs n, (gF.markStart (gF.start.getD 0)).InFollow xs n ↔ gF.InFollow xs n := by
    intro xs n
    induction xs with
    | nil => exact Iff.rfl
    | cons x xs ih => unfold Grammar.InFollow Grammar.heads; simp only [hsym, ih]
  refine ⟨⟨?_, ?_, ⟨?_, ?_⟩⟩, ?_⟩
  · intro x; rw [hsym, hm'.derives]; exact h1.lam x
  · intro x; rw [hsym, hm'.begins]; exact h1.fst x
  · intro r; rw [hm'.rlen, hm'.rhs, hm'.lhs]; simp only [hsym]; exact h1.closed.lam r
  · intro r; rw [hm'.rlen, hm'.rhs, hm'.lhs]; unfold Grammar.heads; simp only [hsym, hin]; exact h1.closed.fst r
  · intro x; rw [hsym]; exact h2 x

end Pomelo
