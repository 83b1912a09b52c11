import Verif.Spec.Operators
import Mathlib.Data.List.Forall2
/-! # Every expression has a tree that agrees with the precedences -/

namespace Pomelo

open Spec

namespace Norm

variable {V : Type}

/-- The token of a leaf -/
def tokOf : Tree V → Option (Tok V)
  | .tok k => some k
  | _ => none

/-- Trees of an expression: `F n sh` says which tokens and operands make up rule `n`. -/
inductive ET (F : Nat → List (Option (Tok V)) → Prop) : Tree V → Prop
  | mk {n kids} : F n (kids.map tokOf) → (∀ T ∈ kids, tokOf T = none → ET F T) → ET F (.rule n kids)

/-- `Spec.Respects` for any two relations of tokens and rules -/
structure Resp (Lo Ti : Tok V → Nat → Prop) (T : Tree V) : Prop where
  left : ∀ {m L k rest}, Sub (.rule m (L :: .tok k :: rest)) T → ∀ r, OnRight L r → Lo k r
  right : ∀ {n front k' R}, Sub (.rule n (front ++ [.tok k', R])) T → ∀ k, OnLeft R k → Ti k n

variable {F : Nat → List (Option (Tok V)) → Prop} {Lo Ti : Tok V → Nat → Prop}

theorem resp_tok (k : Tok V) : Resp Lo Ti (.tok k) := by
  constructor
  · intro m L k' rest h; cases h
  · intro n front k' R h; cases h

theorem resp_rule {n : Nat} {kids : List (Tree V)} (h1 : ∀ L k rest, kids = L :: .tok k :: rest → ∀ r, OnRight L r → Lo k r)
    (h2 : ∀ front k' R, kids = front ++ [.tok k', R] → ∀ k, OnLeft R k → Ti k n) (h3 : ∀ T ∈ kids, Resp Lo Ti T) : Resp Lo Ti (.rule n kids) := by
  constructor
  · intro m L k rest h r hr
    generalize hw : Tree.rule m (L :: .tok k :: rest) = w at h
    cases h with
    | refl => cases hw; exact h1 L k rest rfl r hr
    | rule hm hs => subst hw; exact (h3 _ hm).left hs r hr
  · intro m front k' R h k hk
    generalize hw : Tree.rule m (front ++ [.tok k', R]) = w at h
    cases h with
    | refl => cases hw; exact h2 front k' R rfl k hk
    | rule hm hs => subst hw; exact (h3 _ hm).right hs k hk

theorem Resp.kid {n : Nat} {kids : List (Tree V)} (h : Resp Lo Ti (.rule n kids)) {T : Tree V} (hT : T ∈ kids) : Resp Lo Ti T :=
  ⟨fun hs => h.left (.rule hT hs), fun hs => h.right (.rule hT hs)⟩

/-- Trees of an expression that agree with the precedences -/
def Good (F : Nat → List (Option (Tok V)) → Prop) (Lo Ti : Tok V → Nat → Prop) (T : Tree V) : Prop := ET F T ∧ Resp Lo Ti T

theorem Good.tokOf {T : Tree V} (h : Good F Lo Ti T) : Norm.tokOf T = none := by
  cases h.1 with
  | mk => rfl

theorem ET.rule {T : Tree V} (h : ET F T) : ∃ n kids, T = .rule n kids := by
  cases h with
  | mk => exact ⟨_, _, rfl⟩

theorem yields_append (ts us : List (Tree V)) : Tree.yields (ts ++ us) = Tree.yields ts ++ Tree.yields us := by
  induction ts with
  | nil => rfl
  | cons t ts ih => rw [List.cons_append, Tree.yields, Tree.yields, ih, List.append_assoc]

/-- The rules on the right edge end with an operand. -/
theorem onRight_shape {T : Tree V} {r : Nat} (h : OnRight T r) (hT : ET F T) : ∃ sh k, F r (sh ++ [some k, none]) := by
  induction h with
  | @here n m front k kids =>
    cases hT with
    | mk h1 _ =>
      refine ⟨front.map Norm.tokOf, k, ?_⟩
      simpa [Norm.tokOf] using h1
  | @down n m front k kids r _ ih =>
    cases hT with
    | mk _ h2 => exact ih (h2 _ (by simp) rfl)

/-- A rule with an operand in front, and what comes after that operand -/
structure StepOk (F : Nat → List (Option (Tok V)) → Prop) (Lo Ti : Tok V → Nat → Prop) (m : Nat) (k : Tok V) (rest : List (Tree V)) : Prop where
  shape : F m (none :: some k :: rest.map tokOf)
  kids : ∀ T ∈ rest, tokOf T = none → Good F Lo Ti T
  toks : ∀ T ∈ rest, tokOf T ≠ none → Resp Lo Ti T
  last : ∀ front k' R, .tok k :: rest = front ++ [.tok k', R] → ∀ j, ¬ OnLeft R j

/-- Put an operator behind a tree. -/
theorem attach (tot : ∀ {m n k s s' k'}, F m (none :: some k :: s) → F n (s' ++ [some k', none]) → Ti k n ∨ Lo k n)
    {m : Nat} {k : Tok V} {rest : List (Tree V)} (hs : StepOk F Lo Ti m k rest) {T : Tree V} (hT : ET F T) (hR : Resp Lo Ti T) :
    ∃ T', Good F Lo Ti T' ∧ T'.yield = T.yield ++ k :: Tree.yields rest ∧ (∀ j, OnLeft T' j → OnLeft T j ∨ (j = k ∧ ∀ r, OnRight T r → ¬ Ti k r)) := by
  induction hT with
  | @mk n kids h1 h2 ih =>
    have hET : ET F (.rule n kids) := .mk h1 h2
    by_cases hex : ∃ r, OnRight (.rule n kids) r ∧ Ti k r
    · -- into the last operand
      obtain ⟨front, k', m', ks, rfl⟩ : ∃ front k' m' ks, kids = front ++ [.tok k', .rule m' ks] := by
        obtain ⟨r, hr, _⟩ := hex
        generalize hw : Tree.rule n kids = w at hr
        cases hr with
        | here => cases hw; exact ⟨_, _, _, _, rfl⟩
        | down => cases hw; exact ⟨_, _, _, _, rfl⟩
      have hmem : Tree.rule m' ks ∈ front ++ [.tok k', .rule m' ks] := by simp
      obtain ⟨R', g1, g2, g3⟩ := ih _ hmem rfl (hR.kid hmem)
      obtain ⟨n2, ks2, rfl⟩ := g1.1.rule
      have hleft : ∀ L k2 rest2, front ++ [.tok k', .rule n2 ks2] = L :: .tok k2 :: rest2 → ∃ rest3, front ++ [.tok k', .rule m' ks] = L :: .tok k2 :: rest3 := by
        intro L k2 rest2 he
        match front, he with
        | [], he => simp at he
        | [x], he =>
          simp only [List.cons_append, List.nil_append, List.cons.injEq, Tree.tok.injEq] at he
          obtain ⟨rfl, rfl, _⟩ := he
          exact ⟨_, rfl⟩
        | x :: y :: l, he =>
          simp only [List.cons_append, List.cons.injEq] at he
          obtain ⟨rfl, rfl, _⟩ := he
          exact ⟨_, rfl⟩
      refine ⟨.rule n (front ++ [.tok k', .rule n2 ks2]), ⟨?_, ?_⟩, ?_, ?_⟩
      · refine .mk (by simpa [Norm.tokOf] using h1) ?_
        intro T hT hn
        rcases List.mem_append.1 hT with hT | hT
        · exact h2 T (by simp [hT]) hn
        · simp only [List.mem_cons, List.not_mem_nil, or_false] at hT
          rcases hT with rfl | rfl
          · cases hn
          · exact g1.1
      · refine resp_rule ?_ ?_ ?_
        · intro L k2 rest2 he r hr
          obtain ⟨rest3, he3⟩ := hleft L k2 rest2 he
          rw [he3] at hR
          exact hR.left .refl r hr
        · intro front2 k2 R2 he j hj
          have hsnoc : front ++ [Tree.tok k', .rule n2 ks2] = (front ++ [.tok k']) ++ [.rule n2 ks2] := by simp
          have hsnoc2 : front2 ++ [Tree.tok k2, R2] = (front2 ++ [.tok k2]) ++ [R2] := by simp
          rw [hsnoc, hsnoc2] at he
          obtain ⟨_, he2⟩ := List.append_inj' he rfl
          cases he2
          rcases g3 j hj with hj | ⟨rfl, hno⟩
          · exact hR.right .refl j hj
          · obtain ⟨r, hr, ht⟩ := hex
            generalize hw : Tree.rule n (front ++ [.tok k', .rule m' ks]) = w at hr
            cases hr with
            | here =>
              simp only [Tree.rule.injEq] at hw
              rw [hw.1]
              exact ht
            | @down n3 m3 front3 k3 kids3 _ hr =>
              simp only [Tree.rule.injEq] at hw
              obtain ⟨rfl, hw⟩ := hw
              have e1 : front ++ [Tree.tok k', .rule m' ks] = (front ++ [.tok k']) ++ [.rule m' ks] := by simp
              have e2 : front3 ++ [Tree.tok k3, .rule m3 kids3] = (front3 ++ [.tok k3]) ++ [.rule m3 kids3] := by simp
              rw [e1, e2] at hw
              obtain ⟨_, he2⟩ := List.append_inj' hw rfl
              cases he2
              exact absurd ht (hno r hr)
        · intro T hT
          rcases List.mem_append.1 hT with hT | hT
          · exact hR.kid (by simp [hT])
          · simp only [List.mem_cons, List.not_mem_nil, or_false] at hT
            rcases hT with rfl | rfl
            · exact resp_tok _
            · exact g1.2
      · simp only [Tree.yield, yields_append, Tree.yields, List.append_nil] at g2 ⊢
        rw [g2]
        simp
      · intro j hj
        left
        generalize hw : Tree.rule n (front ++ [.tok k', .rule n2 ks2]) = w at hj
        cases hj with
        | here =>
          simp only [Tree.rule.injEq] at hw
          obtain ⟨rfl, hw⟩ := hw
          obtain ⟨rest3, he3⟩ := hleft _ _ _ hw
          rw [he3]
          exact .here
        | down hj =>
          simp only [Tree.rule.injEq] at hw
          obtain ⟨rfl, hw⟩ := hw
          obtain ⟨rest3, he3⟩ := hleft _ _ _ hw
          rw [he3]
          exact .down hj
    · -- on top
      have hno : ∀ r, OnRight (.rule n kids) r → ¬ Ti k r := fun r hr ht => hex ⟨r, hr, ht⟩
      refine ⟨.rule m (.rule n kids :: .tok k :: rest), ⟨?_, ?_⟩, ?_, ?_⟩
      · refine .mk (by simpa [Norm.tokOf] using hs.shape) ?_
        intro T hT hn
        simp only [List.mem_cons] at hT
        rcases hT with rfl | rfl | hT
        · exact hET
        · cases hn
        · exact (hs.kids T hT hn).1
      · refine resp_rule ?_ ?_ ?_
        · intro L k2 rest2 he r hr
          simp only [List.cons.injEq, Tree.tok.injEq] at he
          obtain ⟨rfl, rfl, _⟩ := he
          obtain ⟨sh, k', hF⟩ := onRight_shape hr hET
          rcases tot hs.shape hF with h | h
          · exact absurd h (hno r hr)
          · exact h
        · intro front k2 R he j hj
          exfalso
          match front, he with
          | [], he => simp at he
          | x :: front, he =>
            simp only [List.cons_append, List.cons.injEq] at he
            exact hs.last front k2 R he.2 j hj
        · intro T hT
          simp only [List.mem_cons] at hT
          rcases hT with rfl | rfl | hT
          · exact hR
          · exact resp_tok _
          · cases hn : Norm.tokOf T with
            | none => exact (hs.kids T hT hn).2
            | some => exact hs.toks T hT (by rw [hn]; simp)
      · simp [Tree.yield, Tree.yields]
      · intro j hj
        generalize hw : Tree.rule m (.rule n kids :: .tok k :: rest) = w at hj
        cases hj with
        | here =>
          simp only [Tree.rule.injEq, List.cons.injEq, Tree.tok.injEq] at hw
          obtain ⟨_, _, rfl, _⟩ := hw
          exact .inr ⟨rfl, hno⟩
        | down hj =>
          simp only [Tree.rule.injEq, List.cons.injEq] at hw
          obtain ⟨_, ⟨rfl, rfl⟩, _, _⟩ := hw
          exact .inl hj

/-- The yield of a sequence of operators -/
def stepsYield (l : List (Nat × Tok V × List (Tree V))) : List (Tok V) := l.flatMap (fun s => s.2.1 :: Tree.yields s.2.2)

theorem attach_all (tot : ∀ {m n k s s' k'}, F m (none :: some k :: s) → F n (s' ++ [some k', none]) → Ti k n ∨ Lo k n) :
    ∀ (l : List (Nat × Tok V × List (Tree V))), (∀ s ∈ l, StepOk F Lo Ti s.1 s.2.1 s.2.2) → ∀ {T : Tree V}, Good F Lo Ti T →
      ∃ T', Good F Lo Ti T' ∧ T'.yield = T.yield ++ stepsYield l
  | [], _, T, hT => ⟨T, hT, by simp [stepsYield]⟩
  | s :: l, h, T, hT => by
    obtain ⟨T1, g1, g2, _⟩ := attach tot (h s (by simp)) hT.1 hT.2
    obtain ⟨T2, h1, h2⟩ := attach_all tot l (fun s hs => h s (by simp [hs])) g1
    exact ⟨T2, h1, by rw [h2, g2]; simp [stepsYield]⟩

/-- A tree as an operand without operators on its left edge, and the operators after it -/
def Flat (F : Nat → List (Option (Tok V)) → Prop) (Lo Ti : Tok V → Nat → Prop) (w : List (Tok V)) : Prop :=
  ∃ (B : Tree V) (l : List (Nat × Tok V × List (Tree V))), Good F Lo Ti B ∧ (∀ j, ¬ OnLeft B j) ∧ (∀ s ∈ l, StepOk F Lo Ti s.1 s.2.1 s.2.2) ∧ w = B.yield ++ stepsYield l

/-- Good operands in place of the operands -/
theorem good_kids : ∀ (kids : List (Tree V)), (∀ T ∈ kids, tokOf T = none → ∃ T', Good F Lo Ti T' ∧ T'.yield = T.yield) →
    ∃ kids' : List (Tree V), kids'.map tokOf = kids.map tokOf ∧ Tree.yields kids' = Tree.yields kids ∧ (∀ T ∈ kids', tokOf T = none → Good F Lo Ti T) ∧
      ∀ T ∈ kids', tokOf T ≠ none → Resp Lo Ti T
  | [], _ => ⟨[], rfl, rfl, by simp, by simp⟩
  | T :: kids, h => by
    obtain ⟨kids', h1, h2, h3, h4⟩ := good_kids kids (fun T hT => h T (by simp [hT]))
    cases hn : tokOf T with
    | none =>
      obtain ⟨T', g1, g2⟩ := h T (by simp) hn
      refine ⟨T' :: kids', by simp [h1, hn, g1.tokOf], by simp [Tree.yields, g2, h2], ?_, ?_⟩
      · intro U hU hUn
        rcases List.mem_cons.1 hU with rfl | hU
        · exact g1
        · exact h3 U hU hUn
      · intro U hU hUn
        rcases List.mem_cons.1 hU with rfl | hU
        · exact absurd g1.tokOf hUn
        · exact h4 U hU hUn
    | some k =>
      refine ⟨T :: kids', by simp [h1], by simp [Tree.yields, h2], ?_, ?_⟩
      · intro U hU hUn
        rcases List.mem_cons.1 hU with rfl | hU
        · rw [hn] at hUn; cases hUn
        · exact h3 U hU hUn
      · intro U hU hUn
        rcases List.mem_cons.1 hU with rfl | hU
        · cases U with
          | tok k => exact resp_tok k
          | _ => cases hn
        · exact h4 U hU hUn

theorem onLeft_head {n : Nat} {kids : List (Tree V)} {j : Tok V} (h : OnLeft (.rule n kids) j) : ∃ m ks k rest, kids = .rule m ks :: .tok k :: rest := by
  generalize hw : Tree.rule n kids = w at h
  cases h with
  | here => cases hw; exact ⟨_, _, _, _, rfl⟩
  | down => cases hw; exact ⟨_, _, _, _, rfl⟩

theorem flat_good (tot : ∀ {m n k s s' k'}, F m (none :: some k :: s) → F n (s' ++ [some k', none]) → Ti k n ∨ Lo k n)
    {w : List (Tok V)} (h : Flat F Lo Ti w) : ∃ T, Good F Lo Ti T ∧ T.yield = w := by
  obtain ⟨B, l, h1, _, h3, rfl⟩ := h
  exact attach_all tot l h3 h1

/-- The kids behind a possible first operand: with the operators of the last operand behind them -/
theorem flat_tail {front : List (Tree V)} (ih : ∀ T ∈ front, tokOf T = none → ∃ T', Good F Lo Ti T' ∧ T'.yield = T.yield)
    (ihf : ∀ T ∈ front, tokOf T = none → Flat F Lo Ti T.yield) (sp : ∀ l, front.map tokOf ≠ l ++ [none, none]) (ne : front.map tokOf ≠ [none]) :
    ∃ (kids' : List (Tree V)) (l : List (Nat × Tok V × List (Tree V))), kids'.map tokOf = front.map tokOf ∧ Tree.yields kids' ++ stepsYield l = Tree.yields front ∧
      (∀ T ∈ kids', tokOf T = none → Good F Lo Ti T) ∧ (∀ T ∈ kids', tokOf T ≠ none → Resp Lo Ti T) ∧ (∀ s ∈ l, StepOk F Lo Ti s.1 s.2.1 s.2.2) ∧
      ∀ fr k' R, kids' = fr ++ [.tok k', R] → ∀ j, ¬ OnLeft R j := by
  rcases List.eq_nil_or_concat front with rfl | ⟨init, R, rfl⟩
  · exact ⟨[], [], rfl, rfl, by simp, by simp, by simp, by simp⟩
  · rw [List.concat_eq_append] at *
    cases hn : tokOf R with
    | some k =>
      obtain ⟨kids', h1, h2, h3, h4⟩ := good_kids (F := F) (Lo := Lo) (Ti := Ti) (init ++ [R]) ih
      refine ⟨kids', [], h1, by simp [stepsYield, h2], h3, h4, by simp, ?_⟩
      intro fr k' R' he j hj
      have : tokOf R' = some k := by
        rw [he] at h1
        simp only [List.map_append, List.map_cons, List.map_nil] at h1
        have e : fr.map tokOf ++ [tokOf (.tok k'), tokOf R'] = (fr.map tokOf ++ [tokOf (.tok k')]) ++ [tokOf R'] := by simp
        rw [e] at h1
        obtain ⟨_, h5⟩ := List.append_inj' h1 rfl
        rw [hn] at h5
        simpa using h5
      cases hj with
      | here => cases this
      | down => cases this
    | none =>
      obtain ⟨init', h1, h2, h3, h4⟩ := good_kids (F := F) (Lo := Lo) (Ti := Ti) init (fun T hT => ih T (by simp [hT]))
      obtain ⟨B, l, b1, b2, b3, b4⟩ := ihf R (by simp) hn
      refine ⟨init' ++ [B], l, by simp [h1, hn, b1.tokOf], ?_, ?_, ?_, b3, ?_⟩
      · rw [yields_append, yields_append, h2]
        simp [Tree.yields, b4]
      · intro T hT hTn
        rcases List.mem_append.1 hT with hT | hT
        · exact h3 T hT hTn
        · rw [List.mem_singleton.1 hT]; exact b1
      · intro T hT hTn
        rcases List.mem_append.1 hT with hT | hT
        · exact h4 T hT hTn
        · rw [List.mem_singleton.1 hT] at hTn; exact absurd b1.tokOf hTn
      · intro fr k' R' he j hj
        have e : fr ++ [Tree.tok k', R'] = (fr ++ [.tok k']) ++ [R'] := by simp
        rw [e] at he
        obtain ⟨_, he⟩ := List.append_inj' he rfl
        cases he
        exact b2 j hj

/-- No two operands side by side, and not just an operand -/
structure Shaped (F : Nat → List (Option (Tok V)) → Prop) : Prop where
  spaced : ∀ {n l l'}, ¬ F n (l ++ none :: none :: l')
  token : ∀ {n}, ¬ F n [none]

theorem flatten (hF : Shaped F) (tot : ∀ {m n k s s' k'}, F m (none :: some k :: s) → F n (s' ++ [some k', none]) → Ti k n ∨ Lo k n)
    {T : Tree V} (hT : ET F T) : Flat F Lo Ti T.yield := by
  induction hT with
  | @mk n kids h1 h2 ih =>
    have ihg : ∀ T ∈ kids, tokOf T = none → ∃ T', Good F Lo Ti T' ∧ T'.yield = T.yield := fun T hT hn => flat_good tot (ih T hT hn)
    by_cases hlead : (kids.map tokOf).head? = some none
    · -- operand in front
      match kids, hlead with
      | L :: kids, hlead =>
        have hL : tokOf L = none := by simpa using hlead
        match kids with
        | [] =>
          simp only [List.map_cons, List.map_nil, hL] at h1
          exact absurd h1 hF.token
        | K :: rest =>
          cases hK : tokOf K with
          | none =>
            simp only [List.map_cons, hL, hK] at h1
            exact absurd h1 (hF.spaced (l := []))
          | some k =>
            have hKk : K = .tok k := by
              cases K with
              | tok => cases hK; rfl
              | _ => cases hK
            subst hKk
            obtain ⟨B, l, b1, b2, b3, b4⟩ := ih L (by simp) hL
            obtain ⟨kids', l', k1, k2, k3, k4, k5, k6⟩ := flat_tail (F := F) (Lo := Lo) (Ti := Ti) (front := Tree.tok k :: rest)
              (fun T hT => ihg T (List.mem_cons_of_mem _ hT)) (fun T hT => ih T (List.mem_cons_of_mem _ hT))
              (by
                intro l0 e
                rw [List.map_cons, e] at h1
                exact hF.spaced (l := tokOf L :: l0) (l' := []) (by simpa using h1))
              (by simp [Norm.tokOf])
            match kids', k1 with
            | K' :: rest', k1 =>
              simp only [List.map_cons, List.cons.injEq] at k1
              have hK' : K' = .tok k := by
                have := k1.1
                cases K' with
                | tok => cases this; rfl
                | _ => cases this
              subst hK'
              refine ⟨B, l ++ (n, k, rest') :: l', b1, b2, ?_, ?_⟩
              · intro s hs
                rcases List.mem_append.1 hs with hs | hs
                · exact b3 s hs
                · rcases List.mem_cons.1 hs with rfl | hs
                  · refine ⟨?_, fun T hT => k3 T (by simp [hT]), fun T hT => k4 T (by simp [hT]), k6⟩
                    simp only [List.map_cons, hL] at h1
                    rw [k1.2]
                    exact h1
                  · exact k5 s hs
              · simp only [Tree.yield, Tree.yields] at k2 ⊢
                rw [b4, ← k2]
                simp [stepsYield]
    · -- no operand in front
      obtain ⟨kids', l', k1, k2, k3, k4, k5, k6⟩ := flat_tail (F := F) (Lo := Lo) (Ti := Ti) (front := kids) ihg ih
        (by
          intro l0 e
          rw [e] at h1
          exact hF.spaced (l' := []) h1)
        (by intro e; rw [e] at hlead; exact hlead rfl)
      refine ⟨.rule n kids', l', ⟨.mk (by rw [k1]; exact h1) (fun T hT hn => (k3 T hT hn).1), ?_⟩, ?_, k5, by rw [Tree.yield, Tree.yield, k2]⟩
      · refine resp_rule ?_ ?_ ?_
        · intro L k rest he r hr
          exfalso
          apply hlead
          rw [← k1, he]
          cases hr <;> rfl
        · intro front k' R he j hj
          exact absurd hj (k6 front k' R he j)
        · intro T hT
          cases hn : Norm.tokOf T with
          | none => exact (k3 T hT hn).2
          | some => exact k4 T hT (by rw [hn]; simp)
      · intro j hj
        obtain ⟨_, _, _, _, e⟩ := onLeft_head hj
        apply hlead
        rw [← k1, e]
        rfl

/-- Every expression has a tree that agrees with the precedences. -/
theorem normal (hF : Shaped F) (tot : ∀ {m n k s s' k'}, F m (none :: some k :: s) → F n (s' ++ [some k', none]) → Ti k n ∨ Lo k n)
    {T : Tree V} (hT : ET F T) : ∃ T', Good F Lo Ti T' ∧ T'.yield = T.yield := flat_good tot (flatten hF tot hT)

end Norm

end Pomelo
