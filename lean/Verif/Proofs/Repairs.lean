import Verif.Spec.Recovery
import Mathlib.Data.List.Induction
/-! # Consequences of a parse with recovery -/

namespace Pomelo

open Spec

variable {V X E : Type} {ds : List Decl} {sem : Sem V X E} {er : Bool} {x0 x : X} {toks : List (Tok V)} {F : List (RTree V × V)} {ms : List (RMove V)}

theorem leavess_append (a b : List (RTree V)) : RTree.leavess (a ++ b) = RTree.leavess a ++ RTree.leavess b := by
  induction a with
  | nil => rfl
  | cons T a ih => simp only [List.cons_append, RTree.leavess, ih, List.append_assoc]

theorem rposts_append (a b : List (RTree V)) : RTree.posts (a ++ b) = RTree.posts a ++ RTree.posts b := by
  induction a with
  | nil => rfl
  | cons T a ih => simp only [List.cons_append, RTree.posts, ih, List.append_assoc]

theorem leavess_one (T : RTree V) : RTree.leavess [T] = T.leaves := by simp [RTree.leavess]
theorem rposts_one (T : RTree V) : RTree.posts [T] = T.post := by simp [RTree.posts]

/-! ## Repairs -/

theorem repairs_last {ts : List (Tok V)} {ls : List (Leaf V)} {l : Leaf V} (h : Repairs ts (ls ++ [l])) :
    ∃ t1 d, ts = t1 ++ d ∧ Repairs t1 ls ∧ ∀ k, l = .error k → k ∈ d := by
  generalize hl : ls ++ [l] = ls' at h
  cases h with
  | nil => simp at hl
  | @keep ts ls1 k h =>
    obtain ⟨e1, e2⟩ := List.append_inj' hl rfl
    subst e1
    simp only [List.cons.injEq, and_true] at e2
    subst e2
    exact ⟨ts, [k], rfl, h, by intro k' e; cases e⟩
  | @cut ts ls1 d k h hk =>
    obtain ⟨e1, e2⟩ := List.append_inj' hl rfl
    subst e1
    simp only [List.cons.injEq, and_true] at e2
    subst e2
    exact ⟨ts, d, rfl, h, by intro k' e; cases e; exact hk⟩

theorem repairs_split {a b : List (Leaf V)} : ∀ {ts : List (Tok V)}, Repairs ts (a ++ b) → ∃ t1 d, ts = t1 ++ d ∧ Repairs t1 a := by
  induction b using List.reverseRecOn with
  | nil => intro ts h; exact ⟨ts, [], by simp, by simpa using h⟩
  | append_singleton b l ih =>
    intro ts h
    rw [← List.append_assoc] at h
    obtain ⟨t1, d, rfl, h1, _⟩ := repairs_last h
    obtain ⟨t2, d2, rfl, h2⟩ := ih h1
    exact ⟨t2, d2 ++ d, by simp, h2⟩

theorem recovery_repairs (h : Recovery ds sem er x0 toks F x ms) (her : er = true) (hno : ∀ u ∈ rulesOf ds, u.lhs ≠ .error) :
    Repairs toks (RTree.leavess (F.map (·.1))) := by
  induction h with
  | start => exact .nil
  | read k _ ih =>
    rw [List.map_append, leavess_append]
    exact .keep ih
  | @rule toks F K x ms n u v x' _ _ _ _ ih =>
    rw [List.map_append, leavess_append] at ih ⊢
    simpa [RTree.leavess, RTree.leaves] using ih
  | absent _ ih =>
    rw [List.map_append, leavess_append]
    simpa [RTree.leavess, RTree.leaves] using ih
  | present _ ih =>
    rw [List.map_append, leavess_append] at ih ⊢
    simpa [RTree.leavess, RTree.leaves] using ih
  | @replace toks F K x ms k ex v x' _ _ _ ih =>
    rw [List.map_append, leavess_append] at ih ⊢
    obtain ⟨t1, d, rfl, h1⟩ := repairs_split ih
    rw [List.append_assoc]
    exact .cut h1 (by simp)
  | @absorb toks F T K x ms k _ _ hT ih =>
    rcases hT with ⟨k', ex, v, hT⟩ | ⟨n, kids, u, _, hu, hl⟩
    · rw [List.map_append, leavess_append] at ih
      obtain ⟨t1, d, rfl, h1⟩ := repairs_split ih
      rw [List.map_append, leavess_append] at h1 ⊢
      have e1 : RTree.leavess (List.map (·.1) [T]) = [.error k'] := by simp [RTree.leavess, RTree.leaves, hT]
      rw [e1] at h1 ⊢
      obtain ⟨t2, d2, rfl, h2, h3⟩ := repairs_last h1
      rw [List.append_assoc, List.append_assoc]
      exact .cut h2 (by simp [h3 k' rfl])
    · exact absurd hl (hno u (List.mem_of_getElem? hu))
  | report h => rw [her] at h; cases h
  | skip k h => rw [her] at h; cases h

/-! ## Skipping -/

theorem plains_append {a b : List (RTree V)} : RTree.plains? (a ++ b) = (RTree.plains? a).bind fun a => (RTree.plains? b).map (a ++ ·) := by
  induction a with
  | nil => simp [RTree.plains?]
  | cons T a ih =>
    simp only [List.cons_append, RTree.plains?, ih]
    cases T.plain? with
    | none => rfl
    | some T =>
      cases RTree.plains? a with
      | none => rfl
      | some a => cases RTree.plains? b <;> rfl

theorem plains_split {a b : List (RTree V)} {P : List (Tree V)} (h : RTree.plains? (a ++ b) = some P) :
    ∃ A B, RTree.plains? a = some A ∧ RTree.plains? b = some B ∧ P = A ++ B := by
  rw [plains_append] at h
  cases h1 : RTree.plains? a with
  | none => rw [h1] at h; cases h
  | some A =>
    cases h2 : RTree.plains? b with
    | none => rw [h1, h2] at h; cases h
    | some B => rw [h1, h2] at h; cases h; exact ⟨A, B, rfl, rfl, rfl⟩

theorem yields_append' (a b : List (Tree V)) : Tree.yields (a ++ b) = Tree.yields a ++ Tree.yields b := by
  induction a with
  | nil => rfl
  | cons T a ih => simp only [List.cons_append, Tree.yields, ih, List.append_assoc]

/-- The tokens read -/
def RMove.read? : RMove V → Option Nat
  | .read m => some m
  | _ => none

theorem recovery_plain (h : Recovery ds sem er x0 toks F x ms) (her : er = false) :
    ∃ P, RTree.plains? (F.map (·.1)) = some P ∧ (Tree.yields P).Sublist toks ∧ (Tree.yields P).map (·.major) = ms.filterMap RMove.read? := by
  induction h with
  | start => exact ⟨[], rfl, .slnil, rfl⟩
  | read k _ ih =>
    obtain ⟨P, h1, h2, h3⟩ := ih
    refine ⟨P ++ [.tok k], ?_, ?_, ?_⟩
    · rw [List.map_append, plains_append, h1]; rfl
    · rw [yields_append']; exact h2.append (List.Sublist.refl _)
    · rw [yields_append', List.map_append, h3, List.filterMap_append]; rfl
  | @rule toks F K x ms n u v x' _ _ _ _ ih =>
    obtain ⟨P, h1, h2, h3⟩ := ih
    rw [List.map_append] at h1
    obtain ⟨A, B, h4, h5, rfl⟩ := plains_split h1
    refine ⟨A ++ [.rule n B], ?_, ?_, ?_⟩
    · rw [List.map_append, plains_append, h4]
      simp [RTree.plains?, RTree.plain?, h5]
    · rw [yields_append'] at h2 ⊢
      simpa [Tree.yields, Tree.yield] using h2
    · rw [yields_append'] at h3 ⊢
      rw [List.filterMap_append, ← h3]
      simp [Tree.yields, Tree.yield, RMove.read?]
  | absent _ ih =>
    obtain ⟨P, h1, h2, h3⟩ := ih
    refine ⟨P ++ [.absent], ?_, ?_, ?_⟩
    · rw [List.map_append, plains_append, h1]; rfl
    · rw [yields_append']; simpa [Tree.yields, Tree.yield] using h2
    · rw [yields_append', ← h3]; simp [Tree.yields, Tree.yield]
  | @present toks F T v x ms _ ih =>
    obtain ⟨P, h1, h2, h3⟩ := ih
    rw [List.map_append] at h1
    obtain ⟨A, B, h4, h5, rfl⟩ := plains_split h1
    simp only [List.map_cons, List.map_nil, RTree.plains?] at h5
    cases hT : T.plain? with
    | none => rw [hT] at h5; cases h5
    | some T' =>
      rw [hT] at h5
      simp only [Option.bind_some, Option.map_some, Option.some.injEq] at h5
      subst h5
      refine ⟨A ++ [.present T'], ?_, ?_, ?_⟩
      · rw [List.map_append, plains_append, h4]
        simp [RTree.plains?, RTree.plain?, hT]
      · rw [yields_append'] at h2 ⊢
        simpa [Tree.yields, Tree.yield] using h2
      · rw [yields_append'] at h3 ⊢
        rw [← h3]
        simp [Tree.yields, Tree.yield]
  | replace h => rw [her] at h; cases h
  | absorb h => rw [her] at h; cases h
  | report _ _ _ ih =>
    obtain ⟨P, h1, h2, h3⟩ := ih
    refine ⟨P, h1, h2.trans (List.sublist_append_left _ _), ?_⟩
    rw [List.filterMap_append, h3]; simp [RMove.read?]
  | skip k _ _ ih =>
    obtain ⟨P, h1, h2, h3⟩ := ih
    refine ⟨P, h1, h2.trans (List.sublist_append_left _ _), ?_⟩
    rw [List.filterMap_append, h3]; simp [RMove.read?]

theorem rfits_plain {names : List SymName} {ts : List (RTree V)} {es : List RhsElem} (h : RFits ds names ts es) :
    ∀ {P}, RTree.plains? ts = some P → Fits ds names P es := by
  induction h with
  | nil => intro P h; cases h; exact .nil
  | tok h1 h2 h3 _ ih =>
    intro P h
    simp only [RTree.plains?, RTree.plain?, Option.bind_some, Option.map_eq_some_iff] at h
    obtain ⟨Q, hQ, rfl⟩ := h
    exact .tok h1 h2 h3 (ih hQ)
  | error => intro P h; simp [RTree.plains?, RTree.plain?] at h
  | absent _ ih =>
    intro P h
    simp only [RTree.plains?, RTree.plain?, Option.bind_some, Option.map_eq_some_iff] at h
    obtain ⟨Q, hQ, rfl⟩ := h
    exact .absent (ih hQ)
  | @present T i al ts es _ _ ih1 ih =>
    intro P h
    simp only [RTree.plains?, RTree.plain?, Option.bind_eq_some_iff, Option.map_eq_some_iff] at h
    obtain ⟨_, ⟨T', hT, rfl⟩, Q, hQ, rfl⟩ := h
    exact .present (ih1 (by simp [RTree.plains?, hT])) (ih hQ)
  | rule hu _ _ ih1 ih =>
    intro P h
    simp only [RTree.plains?, RTree.plain?, Option.bind_eq_some_iff, Option.map_eq_some_iff] at h
    obtain ⟨_, ⟨T', hT, rfl⟩, Q, hQ, rfl⟩ := h
    exact .rule hu (ih1 hT) (ih hQ)

/-! ## Postorder -/

theorem recovery_posts (h : Recovery ds sem er x0 toks F x ms) : (RTree.posts (F.map (·.1))).Sublist ms := by
  induction h with
  | start => exact .slnil
  | read k _ ih => rw [List.map_append, rposts_append]; exact ih.append (List.Sublist.refl _)
  | @rule toks F K x ms n u v x' _ _ _ _ ih =>
    rw [List.map_append, rposts_append] at ih ⊢
    simp only [List.map_cons, List.map_nil, rposts_one, RTree.post]
    rw [← List.append_assoc]
    exact ih.append (List.Sublist.refl _)
  | absent _ ih =>
    rw [List.map_append, rposts_append]
    simpa [RTree.posts, RTree.post] using ih
  | present _ ih =>
    rw [List.map_append, rposts_append] at ih ⊢
    simpa [RTree.posts, RTree.post] using ih
  | replace _ _ _ ih =>
    rw [List.map_append, rposts_append] at ih ⊢
    exact ((List.sublist_append_left _ _).trans ih).append (by simp [RTree.posts, RTree.post])
  | absorb _ _ _ ih =>
    rw [List.map_append, rposts_append] at ih
    exact ((List.sublist_append_left _ _).trans ih).trans (List.sublist_append_left _ _)
  | report _ _ _ ih => exact ih.trans (List.sublist_append_left _ _)
  | skip k _ _ ih => exact ih.trans (List.sublist_append_left _ _)

/-! ## Values -/

theorem ruleValue_pure (hp : PureBlocks sem) (u : URule) (vs : List V) (x y : X) : (ruleValue ds sem u vs x).1 = (ruleValue ds sem u vs y).1 := by
  unfold ruleValue
  split
  · exact hp _ _ _ _
  · rfl

theorem rvalues_append (y : X) (a b : List (RTree V)) {vs ws : List V} (h1 : RTree.values ds sem y a = .ok vs) (h2 : RTree.values ds sem y b = .ok ws) :
    RTree.values ds sem y (a ++ b) = .ok (vs ++ ws) := by
  induction a generalizing vs with
  | nil => cases h1; exact h2
  | cons T a ih =>
    simp only [RTree.values] at h1
    cases h3 : T.value ds sem y with
    | error e => rw [h3] at h1; cases h1
    | ok v =>
      cases h4 : RTree.values ds sem y a with
      | error e => rw [h3, h4] at h1; cases h1
      | ok vs' =>
        rw [h3, h4] at h1
        cases h1
        simp only [List.cons_append, RTree.values, h3, ih h4]

theorem rvalues_split (y : X) (a b : List (RTree V)) {vs : List V} (h : RTree.values ds sem y (a ++ b) = .ok vs) :
    ∃ us ws, RTree.values ds sem y a = .ok us ∧ RTree.values ds sem y b = .ok ws ∧ vs = us ++ ws ∧ us.length = a.length := by
  induction a generalizing vs with
  | nil => exact ⟨[], vs, rfl, h, rfl, rfl⟩
  | cons T a ih =>
    simp only [List.cons_append, RTree.values] at h
    cases h3 : T.value ds sem y with
    | error e => rw [h3] at h; cases h
    | ok v =>
      cases h4 : RTree.values ds sem y (a ++ b) with
      | error e => rw [h3, h4] at h; cases h
      | ok vs' =>
        rw [h3, h4] at h
        cases h
        obtain ⟨us, ws, h5, h6, rfl, h7⟩ := ih h4
        exact ⟨v :: us, ws, by simp only [RTree.values, h3, h5], h6, rfl, by simp [h7]⟩

theorem recovery_values (hp : PureBlocks sem) (y : X) (h : Recovery ds sem er x0 toks F x ms) :
    RTree.values ds sem y (F.map (·.1)) = .ok (F.map (·.2)) := by
  have hsplit : ∀ {A B : List (RTree V × V)}, RTree.values ds sem y ((A ++ B).map (·.1)) = .ok ((A ++ B).map (·.2)) →
      RTree.values ds sem y (A.map (·.1)) = .ok (A.map (·.2)) ∧ RTree.values ds sem y (B.map (·.1)) = .ok (B.map (·.2)) := by
    intro A B h
    rw [List.map_append, List.map_append] at h
    obtain ⟨us, ws, h1, h2, h3, h4⟩ := rvalues_split y _ _ h
    obtain ⟨rfl, rfl⟩ := List.append_inj h3 (by simp [h4])
    exact ⟨h1, h2⟩
  have hadd : ∀ {A : List (RTree V × V)} {T : RTree V} {v : V}, RTree.values ds sem y (A.map (·.1)) = .ok (A.map (·.2)) → T.value ds sem y = .ok v →
      RTree.values ds sem y ((A ++ [(T, v)]).map (·.1)) = .ok ((A ++ [(T, v)]).map (·.2)) := by
    intro A T v h1 h2
    rw [List.map_append, List.map_append]
    refine rvalues_append y _ _ h1 ?_
    simp only [List.map_cons, List.map_nil, RTree.values, h2]
  induction h with
  | start => rfl
  | read k _ ih => exact hadd ih rfl
  | @rule toks F K x ms n u v x' _ hu _ hv ih =>
    obtain ⟨h1, h2⟩ := hsplit ih
    refine hadd h1 ?_
    simp only [RTree.value, h2, hu]
    rw [ruleValue_pure hp u _ y x, hv]
  | absent _ ih => exact hadd ih rfl
  | @present toks F T v x ms _ ih =>
    obtain ⟨h1, h2⟩ := hsplit ih
    refine hadd h1 ?_
    simp only [List.map_cons, List.map_nil, RTree.values] at h2
    simp only [RTree.value]
    cases h3 : T.value ds sem y with
    | error e => rw [h3] at h2; cases h2
    | ok w => rw [h3] at h2; cases h2; rfl
  | replace _ _ _ ih => exact hadd (hsplit ih).1 rfl
  | absorb _ _ _ ih => exact (hsplit ih).1
  | report _ _ _ ih => exact ih
  | skip k _ _ ih => exact ih

end Pomelo
