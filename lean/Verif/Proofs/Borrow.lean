import Verif.Model.Borrow
import Verif.Proofs.TwinActs
import Verif.Proofs.Yields
import Verif.Proofs.Early
/-! # Borrows -/

namespace Pomelo

variable {g : Grammar} {sts : List LState}

/-! ## Sequences that give back what they take -/

/-- No panic, and all borrows have been given back. -/
def Bal (live : List (Cell × Bool)) (es : List BorrowEv) : Prop := borrowRun live es = some live

theorem borrowRun_append (a b : List BorrowEv) : ∀ live, borrowRun live (a ++ b) = (borrowRun live a).bind (fun l => borrowRun l b) := by
  induction a with
  | nil => intro live; rfl
  | cons e a ih =>
    intro live
    simp only [List.cons_append, borrowRun]
    cases borrowStep live e with
    | none => rfl
    | some l => simp only [Option.bind_some]; exact ih l

theorem Bal.nil (live : List (Cell × Bool)) : Bal live [] := rfl

theorem Bal.append {live : List (Cell × Bool)} {a b : List BorrowEv} (ha : Bal live a) (hb : Bal live b) : Bal live (a ++ b) := by
  unfold Bal at *
  rw [borrowRun_append, ha]; exact hb

theorem Bal.flatMap {α : Type} {live : List (Cell × Bool)} {f : α → List BorrowEv} : ∀ {l : List α}, (∀ a ∈ l, Bal live (f a)) → Bal live (l.flatMap f)
  | [], _ => rfl
  | a :: l, h => by
    rw [List.flatMap_cons]
    exact (h a (by simp)).append (Bal.flatMap fun b hb => h b (by simp [hb]))

theorem Bal.get {live : List (Cell × Bool)} {c : Cell} {es : List BorrowEv} (h : ∀ b ∈ live, b.1 = c → b.2 = false)
    (he : Bal ((c, false) :: live) es) : Bal live (.get c :: es ++ [.drop c]) := by
  have h1 : live.any (fun b => b.1 = c && b.2) = false := by
    rw [List.any_eq_false]
    intro b hb
    by_cases hc : b.1 = c
    · simp [h b hb hc]
    · simp [hc]
  unfold Bal at *
  rw [List.cons_append]
  simp only [borrowRun, borrowStep, h1, Bool.false_eq_true, if_false, Option.bind_some]
  rw [borrowRun_append, he]
  simp [borrowRun, borrowStep]

theorem Bal.getMut {live : List (Cell × Bool)} {c : Cell} {es : List BorrowEv} (h : ∀ b ∈ live, b.1 ≠ c)
    (he : Bal ((c, true) :: live) es) : Bal live (.getMut c :: es ++ [.drop c]) := by
  have h1 : live.any (fun b => b.1 = c) = false := by
    rw [List.any_eq_false]
    intro b hb
    simp [h b hb]
  unfold Bal at *
  rw [List.cons_append]
  simp only [borrowRun, borrowStep, h1, Bool.false_eq_true, if_false, Option.bind_some]
  rw [borrowRun_append, he]
  simp [borrowRun, borrowStep]

/-! ## `find_first_sets` -/

/-- What the loops do not change -/
def keepSubs (a b : List Symbol) : Prop := ∀ s, (b.getD s default).subs = (a.getD s default).subs

theorem keepSubs.refl (a : List Symbol) : keepSubs a a := fun _ => rfl
theorem keepSubs.trans {a b c : List Symbol} (h : keepSubs a b) (h' : keepSubs b c) : keepSubs a c := fun s => (h' s).trans (h s)

theorem keepSubs.modify (a : List Symbol) (s : SymbolId) {f : Symbol → Symbol} (hf : ∀ b, (f b).subs = b.subs) : keepSubs a (a.modify s f) := by
  intro t
  simp only [List.getD_eq_getElem?_getD, List.getElem?_modify]
  split
  · cases h : a[t]? with
    | none => rfl
    | some b => simp [hf]
  · simp

theorem lambdaStep_subs (acc : List Symbol × Bool) (r : Rule) : keepSubs acc.1 (lambdaStep acc r).1 := by
  unfold lambdaStep
  split
  · exact .refl _
  · split
    · exact keepSubs.modify _ _ fun _ => rfl
    · exact .refl _

theorem foldl_subs {α : Type} {f : List Symbol × Bool → α → List Symbol × Bool} (hf : ∀ acc x, keepSubs acc.1 (f acc x).1) : ∀ (l : List α) acc,
    keepSubs acc.1 (l.foldl f acc).1
  | [], _ => .refl _
  | x :: l, acc => (hf acc x).trans (foldl_subs hf l (f acc x))

theorem lambdaLoop_subs {rules : List Rule} : ∀ {n : Nat} {syms syms' : List Symbol}, lambdaLoop rules n syms = .ok syms' → keepSubs syms syms'
  | 0, _, _, h => by cases h
  | n + 1, syms, syms', h => by
    unfold lambdaLoop at h
    have h1 := foldl_subs lambdaStep_subs rules (syms, false)
    simp only at h h1
    split at h
    · exact h1.trans (lambdaLoop_subs h)
    · cases h; exact h1

theorem growFirst_subs (acc : List Symbol × Bool) (s : SymbolId) (add : List Nat) : keepSubs acc.1 (growFirst acc s add).1 :=
  keepSubs.modify _ _ fun _ => rfl

theorem firstRhs_subs (s1 : SymbolId) : ∀ (xs : List RhsSym) (acc : List Symbol × Bool), keepSubs acc.1 (firstRhs s1 acc xs).1
  | [], _ => .refl _
  | x :: xs, acc => by
    unfold firstRhs
    simp only
    split
    · split
      · exact firstRhs_subs s1 xs acc
      · exact .refl _
    · split
      · exact growFirst_subs _ _ _
      · exact growFirst_subs _ _ _
      · split
        · exact (growFirst_subs _ _ _).trans (firstRhs_subs s1 xs _)
        · exact growFirst_subs _ _ _

theorem firstRhsEvents_bal {live : List (Cell × Bool)} (hl : ∀ b ∈ live, ∀ s, b.1 ≠ .symbol s) {s1 : SymbolId} {syms : List Symbol}
    (hs : ∀ t, s1 ∉ (syms.getD t default).subs) : ∀ (xs : List RhsSym) (acc : List Symbol × Bool), keepSubs syms acc.1 → Bal live (firstRhsEvents s1 acc xs)
  | [], _, _ => rfl
  | x :: xs, acc, h => by
    unfold firstRhsEvents
    simp only
    split
    · refine Bal.append (Bal.get (es := []) (fun b hb e => absurd e (hl b hb _)) rfl) ?_
      split
      · exact firstRhsEvents_bal hl hs xs acc h
      · rfl
    · rename_i hne
      have hin : ∀ es, Bal ((.symbol s1, true) :: (.symbol x.sym, false) :: live) es →
          Bal live (.get (.symbol x.sym) :: (.getMut (.symbol s1) :: es ++ [.drop (.symbol s1)]) ++ [.drop (.symbol x.sym)]) := by
        intro es he
        refine Bal.get (fun b hb e => absurd e (hl b hb _)) (Bal.getMut (fun b hb => ?_) he)
        rcases List.mem_cons.1 hb with rfl | hb
        · simpa using fun e => hne e.symm
        · exact hl b hb _
      split
      · exact hin [] rfl
      · have := hin ((acc.1.getD x.sym default).subs.flatMap (fun ss => [.get (.symbol ss), .drop (.symbol ss)])) (Bal.flatMap fun m hm => ?_)
        · simpa using this
        · refine Bal.get (es := []) (fun b hb e => ?_) rfl
          rcases List.mem_cons.1 hb with rfl | hb
          · rw [Cell.symbol.injEq] at e
            rw [h, ← e] at hm
            exact absurd hm (hs _)
          · rcases List.mem_cons.1 hb with rfl | hb
            · rfl
            · exact absurd e (hl b hb _)
      · rw [← List.append_assoc]
        refine Bal.append (hin [] rfl) ?_
        split
        · exact firstRhsEvents_bal hl hs xs _ (h.trans (growFirst_subs _ _ _))
        · rfl

theorem firstPassEvents_bal {syms : List Symbol} : ∀ (rs : List Rule) (i : Nat) (acc : List Symbol × Bool), (∀ r ∈ rs, ∀ t, r.lhs ∉ (syms.getD t default).subs) →
    keepSubs syms acc.1 → Bal [] (firstPassEvents i acc rs)
  | [], _, _, _, _ => rfl
  | r :: rs, i, acc, hs, h => by
    unfold firstPassEvents
    have h1 : Bal [] (.get (.rule i) :: firstRhsEvents r.lhs acc r.rhs ++ [.drop (.rule i)]) :=
      Bal.get (by simp) (firstRhsEvents_bal (by simp) (hs r (by simp)) r.rhs acc h)
    have h2 := firstPassEvents_bal rs (i + 1) (firstRhs r.lhs acc r.rhs) (fun r' hr => hs r' (by simp [hr])) (h.trans (firstRhs_subs r.lhs r.rhs acc))
    have := h1.append h2
    simpa using this

theorem firstLoopEvents_bal {rules : List Rule} {syms : List Symbol} (hs : ∀ r ∈ rules, ∀ t, r.lhs ∉ (syms.getD t default).subs) : ∀ (n : Nat) (syms' : List Symbol),
    keepSubs syms syms' → Bal [] (firstLoopEvents rules n syms')
  | 0, _, _ => rfl
  | n + 1, syms', h => by
    unfold firstLoopEvents
    refine Bal.append (firstPassEvents_bal rules 0 _ hs h) ?_
    have h1 := foldl_subs (fun acc (r : Rule) => firstRhs_subs r.lhs r.rhs acc) rules (syms', false)
    simp only at h1 ⊢
    split
    · exact firstLoopEvents_bal hs n _ (h.trans h1)
    · rfl

theorem firstEvents_bal (hi : GInv g) : Bal [] g.firstEvents := by
  unfold Grammar.firstEvents
  split
  · rfl
  · rename_i syms h
    refine firstLoopEvents_bal ?_ _ _ (.refl _)
    intro r hr t hm
    rw [lambdaLoop_subs h] at hm
    obtain ⟨i, hi', rfl⟩ := List.getElem_of_mem hr
    have h1 := hi.lhs i hi'
    have hr : g.rule i = g.rules[i] := by unfold Grammar.rule; exact getD_of_lt hi'
    rw [hr] at h1
    have ht : t < g.syms.length := by
      by_contra hn
      rw [List.getD_eq_getElem?_getD, List.getElem?_eq_none (Nat.le_of_not_lt hn)] at hm
      cases hm
    have h2 := (hi.subs t ht _ hm).2
    have h3 := hi.kinds _ h1.1
    rw [h1.2.1] at h3
    revert h2 h3
    generalize (g.sym g.rules[i].lhs).name = nm
    cases nm with
    | ident n => cases n <;> simp [SymName.isTok, kindOk]
    | _ => simp [SymName.isTok]

/-! ## Links -/

theorem mergeEvents_bal {k : StateId} (hk : k < sts.length) (bp : List Cfg) : Bal [] (mergeEvents sts k bp) := by
  unfold mergeEvents
  refine Bal.get (by simp) (Bal.flatMap fun x _ => ?_)
  refine Bal.getMut (es := [.get (.config ⟨sts.length, x.item⟩), .drop (.config ⟨sts.length, x.item⟩)]) (by simp) ?_
  refine Bal.get (es := []) (fun b hb e => ?_) rfl
  simp only [List.mem_cons, List.not_mem_nil, or_false] at hb
  rcases hb with rfl | rfl
  · simp only [Cell.config.injEq, CRef.mk.injEq, and_true] at e
    exact absurd e (Nat.ne_of_lt hk)
  · rfl

theorem linksEvents_bal (h : ∀ q, q < sts.length → ∀ it l, HasBp (cfgs sts q) it l → it = l.item.succ) : Bal [] (linksEvents sts) := by
  unfold linksEvents
  refine Bal.flatMap ?_
  rintro ⟨st, q⟩ hq
  rw [List.mem_zipIdx_iff_getElem?] at hq
  obtain ⟨hq, he⟩ := List.getElem?_eq_some_iff.1 hq
  simp only at hq he
  refine Bal.get (by simp) (Bal.flatMap fun c hc => Bal.get (by simp) (Bal.flatMap fun p hp => Bal.getMut (es := []) (fun b hb e => ?_) rfl))
  simp only [List.mem_cons, List.not_mem_nil, or_false] at hb
  rcases hb with rfl | rfl
  · have h1 := h q hq c.item p ⟨c, by unfold cfgs; rw [getD_of_lt hq, he]; exact hc, rfl, hp⟩
    simp only [Cell.config.injEq] at e
    rw [← e] at h1
    have := congrArg Item.dot h1
    simp [Item.succ] at this
  · cases e

/-! ## Sorting -/

def Detail.isShift : Detail → Bool
  | .shift _ => true
  | _ => false

/-- No two of them are shifts on the same token of which one is to the state `q`. -/
def NoSelf (q : StateId) (acts : List Action) : Prop :=
  acts.Pairwise fun a b => a.la = b.la → a.detail.isShift = true → b.detail.isShift = true → a.detail ≠ .shift q ∧ b.detail ≠ .shift q

theorem NoSelf.get {q : StateId} {acts : List Action} (h : NoSelf q acts) {i j : Nat} (hij : i ≠ j) (hi : i < acts.length) (hj : j < acts.length)
    (hl : (acts.getD i default).la = (acts.getD j default).la) (h1 : (acts.getD i default).detail.isShift = true) (h2 : (acts.getD j default).detail.isShift = true) :
    (acts.getD i default).detail ≠ .shift q ∧ (acts.getD j default).detail ≠ .shift q := by
  rw [getD_of_lt hi, getD_of_lt hj] at *
  rcases Nat.lt_or_gt_of_ne hij with hlt | hlt
  · exact List.pairwise_iff_getElem.1 h i j hi hj hlt hl h1 h2
  · exact (List.pairwise_iff_getElem.1 h j i hj hi hlt hl.symm h2 h1).symm

theorem selfShift_noSelf {q : StateId} {acts : List Action} (h : selfShift q acts = false) : NoSelf q acts := by
  unfold NoSelf
  rw [List.pairwise_iff_getElem]
  intro i j hi hj hij hl h1 h2
  have hsub : [acts[i], acts[j]].Sublist acts := by
    have h3 : (acts[i] :: acts.drop (i + 1)).Sublist acts := by
      rw [← List.drop_eq_getElem_cons hi]; exact List.drop_sublist _ _
    refine List.Sublist.trans (List.Sublist.cons₂ _ ?_) h3
    rw [List.singleton_sublist, List.mem_iff_getElem]
    refine ⟨j - (i + 1), by rw [List.length_drop]; omega, ?_⟩
    rw [List.getElem_drop]
    congr 1; omega
  have key : ∀ a ∈ acts, a.la = acts[i].la → a.detail ≠ .shift q := by
    intro a ha hla hd
    unfold selfShift at h
    rw [List.any_eq_false] at h
    apply h a ha
    rw [Bool.and_eq_true, decide_eq_true_eq, decide_eq_true_eq]
    refine ⟨hd, ?_⟩
    generalize hP : (fun b : Action => decide (b.la = a.la) && (match b.detail with | .shift _ => true | _ => false)) = P
    have h3 := (hsub.filter P).length_le
    have h4 : ∀ b : Action, b.la = acts[i].la → b.detail.isShift = true → P b = true := by
      intro b hb hs
      rw [← hP]
      simp only
      rw [hb, hla]
      revert hs
      cases b.detail <;> simp [Detail.isShift]
    rw [List.filter_cons_of_pos (h4 _ rfl h1), List.filter_cons_of_pos (h4 _ hl.symm h2)] at h3
    exact h3
  exact ⟨key _ (List.getElem_mem hi) rfl, key _ (List.getElem_mem hj) hl.symm⟩

theorem cmpEvents_bal' {q : StateId} {acts : List Action}
    (hinj : ∀ a ∈ acts, ∀ b ∈ acts, (g.sym a.la).index = (g.sym b.la).index → a.la = b.la) {p : Nat × Nat} (h1 : p.1 < acts.length)
    (h2 : p.2 < acts.length) (hn : (acts.getD p.1 default).la = (acts.getD p.2 default).la → (acts.getD p.1 default).detail.isShift = true →
      (acts.getD p.2 default).detail.isShift = true → (acts.getD p.1 default).detail ≠ .shift q ∧ (acts.getD p.2 default).detail ≠ .shift q) :
    Bal [(.state q, true)] (g.cmpEvents q acts p) := by
  unfold Grammar.cmpEvents
  simp only
  have key : ∀ E, Bal [(.action q p.2, false), (.action q p.1, false), (.state q, true)] E → Bal [(.state q, true)]
      ([.get (.action q p.1), .get (.action q p.2), .get (.symbol (acts.getD p.1 default).la), .get (.symbol (acts.getD p.2 default).la),
        .drop (.symbol (acts.getD p.2 default).la), .drop (.symbol (acts.getD p.1 default).la)] ++ E ++ [.drop (.action q p.2), .drop (.action q p.1)]) := by
    intro E hE
    have inner : Bal [(.action q p.2, false), (.action q p.1, false), (.state q, true)]
        (.get (.symbol (acts.getD p.1 default).la) :: (.get (.symbol (acts.getD p.2 default).la) :: [] ++ [.drop (.symbol (acts.getD p.2 default).la)]) ++
          [.drop (.symbol (acts.getD p.1 default).la)]) := by
      refine Bal.get (by simp) (Bal.get (by simp) rfl)
    have := Bal.get (live := [(.state q, true)]) (c := .action q p.1) (by simp) (Bal.get (c := .action q p.2) (by simp) (inner.append hE))
    simpa using this
  refine key _ ?_
  split
  · rename_i he
    have hl := hinj _ (by rw [getD_of_lt h1]; exact List.getElem_mem h1) _ (by rw [getD_of_lt h2]; exact List.getElem_mem h2) he
    split
    · rename_i sa sb ea eb
      obtain ⟨n1, n2⟩ := hn hl (by rw [ea]; rfl) (by rw [eb]; rfl)
      rw [ea] at n1
      rw [eb] at n2
      have n1 : q ≠ sa := fun e => n1 (by rw [e])
      have n2 : q ≠ sb := fun e => n2 (by rw [e])
      refine Bal.get (es := [.get (.state sb), .drop (.state sb)]) (by simp [n1]) (Bal.get (es := []) (by simp [n2]) rfl)
    · rename_i ra rb _ _
      refine Bal.get (es := [.get (.rule rb), .drop (.rule rb)]) (by simp) (Bal.get (es := []) (by simp) rfl)
    · rfl
  · rfl

theorem cmpEvents_bal {q : StateId} {acts : List Action} (hn : NoSelf q acts)
    (hinj : ∀ a ∈ acts, ∀ b ∈ acts, (g.sym a.la).index = (g.sym b.la).index → a.la = b.la) {p : Nat × Nat} (hp : p.1 ≠ p.2) (h1 : p.1 < acts.length)
    (h2 : p.2 < acts.length) : Bal [(.state q, true)] (g.cmpEvents q acts p) :=
  cmpEvents_bal' hinj h1 h2 (hn.get hp h1 h2)

/-- Two different positions of the list -/
def Pairs (n : Nat) (pairs : List (Nat × Nat)) : Prop := ∀ p ∈ pairs, p.1 ≠ p.2 ∧ p.1 < n ∧ p.2 < n

theorem sortEvents_bal {q : StateId} {acts : List Action} (hn : NoSelf q acts)
    (hinj : ∀ a ∈ acts, ∀ b ∈ acts, (g.sym a.la).index = (g.sym b.la).index → a.la = b.la) {pairs : List (Nat × Nat)} (hp : Pairs acts.length pairs) :
    Bal [] (g.sortEvents q acts pairs) :=
  Bal.getMut (by simp) (Bal.flatMap fun p h => cmpEvents_bal hn hinj (hp p h).1 (hp p h).2.1 (hp p h).2.2)

theorem resolveEvents_bal {q : StateId} {i j : Nat} (h : i ≠ j) (same : Bool) : Bal [] (resolveEvents q i j same) := by
  unfold resolveEvents
  refine Bal.append (Bal.get (es := [.get (.action q j), .drop (.action q j)]) (by simp) (Bal.get (es := []) (by simp) rfl)) ?_
  split
  · exact Bal.getMut (es := [.getMut (.action q j), .drop (.action q j)]) (by simp) (Bal.getMut (es := []) (by simp [h]) rfl)
  · rfl

/-! ## Types -/

theorem typeEvents_bal {l : List SymbolId} : borrowRun [] (g.typeEvents l) = some [] ↔
    ∀ s ∈ l, g.wildcard ≠ some s → (g.sym s).kind = .multiTerminal → (g.sym s).subs.head? ≠ some s := by
  unfold Grammar.typeEvents
  induction l with
  | nil => simp [borrowRun]
  | cons s l ih =>
    rw [List.flatMap_cons, borrowRun_append, List.forall_mem_cons, ← ih]
    have key : borrowRun [] (g.typeEvents1 s) =
        if g.wildcard ≠ some s ∧ (g.sym s).kind = .multiTerminal ∧ (g.sym s).subs.head? = some s then none else some [] := by
      unfold Grammar.typeEvents1
      by_cases hw : g.wildcard = some s
      · simp [hw, borrowRun]
      · rw [if_neg hw]
        by_cases hk : (g.sym s).kind = .multiTerminal
        · cases hs : (g.sym s).subs with
          | nil => simp [hk, borrowRun, borrowStep]
          | cons f fs =>
            by_cases hf : f = s
            · simp [hk, hw, hf, borrowRun, borrowStep]
            · have hf' : s ≠ f := fun e => hf e.symm
              simp [hk, hf, hf', borrowRun, borrowStep]
        · split
          · rename_i h _; exact absurd h hk
          · simp [hk, borrowRun, borrowStep]
    rw [key]
    by_cases h : g.wildcard ≠ some s ∧ (g.sym s).kind = .multiTerminal ∧ (g.sym s).subs.head? = some s
    · rw [if_pos h]
      simp only [Option.bind_none, reduceCtorEq, false_iff, not_and]
      intro h1
      exact absurd h.2.2 (h1 h.1 h.2.1)
    · rw [if_neg h]
      simp only [Option.bind_some]
      exact ⟨fun h1 => ⟨fun a b c => h ⟨a, b, c⟩, h1⟩, fun h1 => h1.2⟩

/-! ## The second sort -/

/-- No two shifts on the same token -/
def OneShift (acts : List Action) : Prop :=
  acts.Pairwise fun a b => a.la = b.la → a.detail.isShift = true → b.detail.isShift = false

theorem OneShift.noSelf {acts : List Action} (h : OneShift acts) (q : StateId) : NoSelf q acts := by
  refine List.Pairwise.imp ?_ h
  intro a b h hl h1 h2
  rw [h hl h1] at h2; cases h2

theorem Kept.isShift {a b : Action} (h : Kept a b) (hs : b.detail.isShift = true) : b = a := by
  rcases h with h | ⟨_, h, _⟩
  · exact h
  · revert hs
    cases e : b.detail <;> simp [Detail.isShift]
    exact absurd e (h _)

theorem resolveConflict_shifts (x y : Action) (h1 : (g.resolveConflict x y).1.detail.isShift = true) :
    (g.resolveConflict x y).2.1.detail.isShift = false := by
  by_contra h2
  rw [Bool.not_eq_false] at h2
  obtain ⟨k1, k2, _⟩ := resolveConflict_kept (g := g) x y
  have e1 := k1.isShift h1
  have e2 := k2.isShift h2
  rw [e1] at h1
  rw [e2] at h2
  cases ex : x.detail <;> rw [ex] at h1 <;> simp [Detail.isShift] at h1
  cases ey : y.detail <;> rw [ey] at h2 <;> simp [Detail.isShift] at h2
  unfold Grammar.resolveConflict at e2
  rw [ex, ey] at e2
  simp only at e2
  have := congrArg Action.detail e2
  rw [ey] at this
  cases this

theorem resolveFrom_shifts : ∀ (ys : List Action) (x : Action), g.Sorted (x :: ys) → (g.resolveFrom x ys).1.detail.isShift = true →
    ∀ y ∈ (g.resolveFrom x ys).2.1, x.la = y.la → y.detail.isShift = false
  | [], _, _, _, _, hy, _ => by cases hy
  | y :: ys, x, hs, h, z, hz, hl => by
    unfold Grammar.resolveFrom at h hz
    by_cases he : x.la = y.la
    · rw [if_pos he] at h hz
      simp only at h hz
      have hla := resolveConflict_la (g := g) x y
      have hs' : g.Sorted ((g.resolveConflict x y).1 :: ys) := by
        have h1 : g.Sorted (x :: ys) := ⟨hs.le.sublist (List.Sublist.cons₂ _ (List.sublist_cons_self _ _)),
          fun a ha b hb => hs.inj a (by simp at ha ⊢; tauto) b (by simp at hb ⊢; tauto)⟩
        exact h1.of_la (by simp [hla.1])
      have hk := resolveFrom_kept' (g := g) ys (g.resolveConflict x y).1
      rcases List.mem_cons.1 hz with rfl | hz
      · exact resolveConflict_shifts x y (by rw [← hk.isShift h]; exact h)
      · exact resolveFrom_shifts ys _ hs' h z hz (by rw [hla.1]; exact hl)
    · rw [if_neg he] at hz
      exfalso
      have hle := List.pairwise_cons.1 hs.le
      have h1 := hle.1 y (by simp)
      have h2 : (g.sym y.la).index ≤ (g.sym z.la).index := by
        rcases List.mem_cons.1 hz with rfl | hz
        · exact Nat.le_refl _
        · exact (List.pairwise_cons.1 hle.2).1 z hz
      rw [← hl] at h2
      exact he (hs.inj x (by simp) y (by simp) (by omega))

theorem resolveL_oneShift : ∀ (n : Nat) (l : List Action), l.length = n → g.Sorted l → OneShift (g.resolveL l).1
  | 0, l, h, _ => by
    rw [List.length_eq_zero_iff] at h; subst h
    exact List.Pairwise.nil
  | n + 1, [], h, _ => by cases h
  | n + 1, x :: xs, h, hs => by
    rw [resolveL_cons]
    have hla := resolveFrom_la (g := g) xs x
    have hs' : g.Sorted (g.resolveFrom x xs).2.1 := hs.tail.of_la hla.2
    have ih := resolveL_oneShift n (g.resolveFrom x xs).2.1 (by rw [resolveFrom_len]; simpa using h) hs'
    refine List.pairwise_cons.2 ⟨fun y hy hl h1 => ?_, ih⟩
    rw [hla.1] at hl
    by_contra h2
    rw [Bool.not_eq_false] at h2
    obtain ⟨y0, hy0, hk⟩ : ∃ y0 ∈ (g.resolveFrom x xs).2.1, Kept y0 y := by
      exact forall₂_mem_right (resolveL_kept (g := g) _ rfl) hy
    have e := hk.isShift h2
    subst e
    rw [resolveFrom_shifts xs x hs h1 y hy0 hl] at h2
    cases h2

theorem makeDefault_oneShift {ig : List SymbolId} {dflt : SymbolId} {r : RuleId} : ∀ {l : List Action}, OneShift l → OneShift (makeDefault ig dflt r l)
  | [], _ => List.Pairwise.nil
  | a :: l, h => by
    obtain ⟨h1, h2⟩ := List.pairwise_cons.1 h
    unfold makeDefault
    split
    · rename_i hb
      have hb := isBest_iff.1 hb
      refine List.pairwise_cons.2 ⟨fun b _ _ hs => ?_, ?_⟩
      · simp only [hb.2, Detail.isShift] at hs; cases hs
      · rw [List.pairwise_map]
        refine List.Pairwise.imp ?_ h2
        intro x y hxy
        split <;> split <;> simp_all [Detail.isShift]
    · refine List.pairwise_cons.2 ⟨fun b hb hl hs => ?_, makeDefault_oneShift h2⟩
      by_contra hb2
      rw [Bool.not_eq_false] at hb2
      have : ∀ {l : List Action}, b ∈ makeDefault ig dflt r l → b ∈ l := by
        intro l
        induction l with
        | nil => intro h; cases h
        | cons c l ih =>
          intro h
          unfold makeDefault at h
          split at h
          · rename_i hc
            rcases List.mem_cons.1 h with rfl | h
            · have := (isBest_iff.1 hc).2
              simp [this, Detail.isShift] at hb2
            · obtain ⟨d, hd, e⟩ := List.mem_map.1 h
              split at e
              · subst e; simp [Detail.isShift] at hb2
              · subst e; exact List.mem_cons_of_mem _ hd
          · rcases List.mem_cons.1 h with rfl | h
            · exact List.mem_cons_self
            · exact List.mem_cons_of_mem _ (ih h)
      rw [h1 b (this hb) hl hs] at hb2
      cases hb2

/-! ## A comparison that panics -/

theorem two_positions {α : Type} {l : List α} {a b : α} (h : [a, b].Subperm l) : ∃ i j : Nat, i ≠ j ∧ l[i]? = some a ∧ l[j]? = some b := by
  obtain ⟨l', hp, hs⟩ := h
  have two : ∀ {x y : α}, [x, y].Sublist l → ∃ i j : Nat, i ≠ j ∧ l[i]? = some x ∧ l[j]? = some y := by
    intro x y hs
    obtain ⟨r1, r2, e, h1, h2⟩ := List.cons_sublist_iff.1 hs
    obtain ⟨i, hi, ei⟩ := List.mem_iff_getElem.1 h1
    obtain ⟨j, hj, ej⟩ := List.mem_iff_getElem.1 (List.singleton_sublist.1 h2)
    refine ⟨i, r1.length + j, by omega, ?_, ?_⟩
    · rw [e, List.getElem?_append_left hi, List.getElem?_eq_getElem hi, ei]
    · rw [e, List.getElem?_append_right (by omega), Nat.add_sub_cancel_left, List.getElem?_eq_getElem hj, ej]
  have h2 : l' = [a, b] ∨ l' = [b, a] := by
    match l', hp with
    | [], hp => exact absurd hp.length_eq (by simp)
    | [_], hp => exact absurd hp.length_eq (by simp)
    | [x, y], hp =>
      have hx : x ∈ [a, b] := hp.mem_iff.1 (by simp)
      simp only [List.mem_cons, List.not_mem_nil, or_false] at hx
      rcases hx with rfl | rfl
      · have := (List.perm_cons x).1 hp
        rw [List.singleton_perm_singleton] at this
        left; rw [this]
      · have := (List.perm_cons x).1 (hp.trans (List.Perm.swap x a []))
        rw [List.singleton_perm_singleton] at this
        right; rw [this]
    | _ :: _ :: _ :: _, hp => exact absurd hp.length_eq (by simp)
  rcases h2 with rfl | rfl
  · exact two hs
  · obtain ⟨i, j, h1, h2, h3⟩ := two hs
    exact ⟨j, i, h1.symm, h3, h2⟩

theorem cmpEvents_panics {q : StateId} {acts : List Action} {i j : Nat} {a b : Action} (hi : acts[i]? = some a) (hj : acts[j]? = some b) (hl : a.la = b.la)
    (ha : a.detail.isShift = true) (hb : b.detail.isShift = true) (hq : a.detail = .shift q ∨ b.detail = .shift q) :
    borrowRun [(.state q, true)] (g.cmpEvents q acts (i, j)) = none := by
  unfold Grammar.cmpEvents
  simp only [List.getD_eq_getElem?_getD, hi, hj, Option.getD_some, hl, if_true]
  cases ea : a.detail <;> rw [ea] at ha <;> simp [Detail.isShift] at ha
  cases eb : b.detail <;> rw [eb] at hb <;> simp [Detail.isShift] at hb
  rename_i sa sb
  rw [ea, eb, Detail.shift.injEq, Detail.shift.injEq] at hq
  rcases hq with rfl | rfl
  · simp [borrowRun, borrowStep]
  · by_cases h : sb = sa
    · simp [borrowRun, borrowStep, h]
    · simp [borrowRun, borrowStep, h]

/-- Two neighbours of the sorted list -/
theorem neighbours {out : List Action} (hb : out.Pairwise g.Before) (hinj : ∀ a ∈ out, ∀ b ∈ out, (g.sym a.la).index = (g.sym b.la).index → a.la = b.la)
    {i j : Nat} (hij : i < j) (hj : j < out.length) (hl : (out[i]'(by omega)).la = out[j].la) (h1 : (out[i]'(by omega)).detail.isShift = true)
    (h2 : out[j].detail.isShift = true) : ∀ k (hk : k < out.length), i ≤ k → k ≤ j → out[k].la = out[j].la ∧ out[k].detail.isShift = true := by
  intro k hk hik hkj
  have rk : ∀ d : Detail, d.isShift = true ↔ d.rank = 0 := by intro d; cases d <;> simp [Detail.isShift, Detail.rank]
  rcases Nat.eq_or_lt_of_le hkj with rfl | hkj
  · exact ⟨rfl, h2⟩
  · have b2 := List.pairwise_iff_getElem.1 hb k j hk hj hkj
    have b1 : g.Before (out[i]'(by omega)) out[k] ∨ i = k := by
      rcases Nat.eq_or_lt_of_le hik with h | h
      · exact .inr h
      · exact .inl (List.pairwise_iff_getElem.1 hb i k (by omega) hk h)
    rcases b1 with b1 | rfl
    · unfold Grammar.Before at b1 b2
      rw [rk] at h1 h2 ⊢
      rw [hl] at b1
      have : (g.sym out[k].la).index = (g.sym out[j].la).index := by omega
      exact ⟨hinj _ (List.getElem_mem hk) _ (List.getElem_mem hj) this, by omega⟩
    · exact ⟨hl, h1⟩

/-- If two shifts on a token can be found of which one leads back, then two such actions are neighbours when the list is sorted. -/
theorem selfShift_neighbours {q : StateId} {acts : List Action} (h : selfShift q acts = true)
    (hinj : ∀ a ∈ acts, ∀ b ∈ acts, (g.sym a.la).index = (g.sym b.la).index → a.la = b.la) :
    ∃ pre a b post, sortBy g.actionLt acts = pre ++ a :: b :: post ∧ a.la = b.la ∧ a.detail.isShift = true ∧ b.detail.isShift = true ∧
      (a.detail = .shift q ∨ b.detail = .shift q) := by
  have hm : ∀ a, a ∈ sortBy g.actionLt acts ↔ a ∈ acts := fun a => mem_sortBy
  have hperm : (sortBy g.actionLt acts).Perm acts := perm_sortBy _ _
  have hb := sorted_actions (g := g) acts
  generalize sortBy g.actionLt acts = out at hm hperm hb
  have hinj' : ∀ a ∈ out, ∀ b ∈ out, (g.sym a.la).index = (g.sym b.la).index → a.la = b.la :=
    fun a ha b hb' => hinj a ((hm a).1 ha) b ((hm b).1 hb')
  have h' : selfShift q out = true := by
    unfold selfShift at h ⊢
    obtain ⟨a, ha, h⟩ := List.any_eq_true.1 h
    refine List.any_eq_true.2 ⟨a, (hm a).2 ha, ?_⟩
    rw [Bool.and_eq_true] at h ⊢
    refine ⟨h.1, ?_⟩
    rw [(hperm.filter _).length_eq]
    exact h.2
  have hn : ¬ NoSelf q out := by
    intro hn
    unfold selfShift at h'
    obtain ⟨a, ha, h⟩ := List.any_eq_true.1 h'
    rw [Bool.and_eq_true, decide_eq_true_eq, decide_eq_true_eq] at h
    obtain ⟨hd, h2⟩ := h
    have hn' := hn.filter (fun b => b.la = a.la && (match b.detail with | .shift _ => true | _ => false))
    have hmem : ∀ b ∈ out.filter (fun b => b.la = a.la && (match b.detail with | .shift _ => true | _ => false)), b.la = a.la ∧ b.detail.isShift = true := by
      intro b hb
      have := (List.mem_filter.1 hb).2
      rw [Bool.and_eq_true, decide_eq_true_eq] at this
      refine ⟨this.1, ?_⟩
      have := this.2
      revert this
      cases b.detail <;> simp [Detail.isShift]
    have ha' : a ∈ out.filter (fun b => b.la = a.la && (match b.detail with | .shift _ => true | _ => false)) :=
      List.mem_filter.2 ⟨ha, by simp [hd]⟩
    generalize out.filter (fun b => b.la = a.la && (match b.detail with | .shift _ => true | _ => false)) = L at hn' hmem ha' h2
    obtain ⟨i, hi, e⟩ := List.getElem_of_mem ha'
    obtain ⟨j, hj, hij⟩ : ∃ j, j < L.length ∧ i ≠ j := by
      by_cases h0 : i = 0
      · exact ⟨1, by omega, by omega⟩
      · exact ⟨0, by omega, h0⟩
    have e1 : L.getD i default = a := by rw [getD_of_lt hi, e]
    have hjm := hmem _ (List.getElem_mem hj)
    have := NoSelf.get hn' hij hi hj (by rw [e1, getD_of_lt hj, hjm.1]) (by rw [e1, hd]; rfl) (by rw [getD_of_lt hj]; exact hjm.2)
    rw [e1] at this
    exact this.1 hd
  unfold NoSelf at hn
  rw [List.pairwise_iff_getElem] at hn
  push Not at hn
  obtain ⟨i, j, hi, hj, hij, hl, h1, h2, hq⟩ := hn
  have hnb := neighbours hb hinj' hij hj hl h1 h2
  have split : ∀ k, k + 1 < out.length → ∃ pre post, out = pre ++ out.getD k default :: out.getD (k + 1) default :: post := by
    intro k hk
    refine ⟨out.take k, out.drop (k + 2), ?_⟩
    rw [getD_of_lt (by omega : k < out.length), getD_of_lt hk, ← List.drop_eq_getElem_cons, ← List.drop_eq_getElem_cons, List.take_append_drop]
  by_cases hqi : out[i].detail = .shift q
  · obtain ⟨pre, post, e⟩ := split i (by omega)
    rw [getD_of_lt hi, getD_of_lt (by omega : i + 1 < out.length)] at e
    have a1 := hnb (i + 1) (by omega) (by omega) (by omega)
    exact ⟨pre, out[i], out[i + 1], post, e, by rw [a1.1, hl], h1, a1.2, .inl hqi⟩
  · have hqj := hq hqi
    obtain ⟨pre, post, e⟩ := split (j - 1) (by omega)
    have hj1 : j - 1 + 1 = j := by omega
    rw [getD_of_lt (by omega : j - 1 < out.length), hj1, getD_of_lt hj] at e
    have a1 := hnb (j - 1) (by omega) (by omega) (by omega)
    exact ⟨pre, out[j - 1], out[j], post, e, a1.1, a1.2, h2, .inr hqj⟩

end Pomelo
