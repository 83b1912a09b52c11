import Verif.Proofs.Lists
import Verif.Model.Actions
/-! # Conflict resolution within one state -/

namespace Pomelo

/-- Actions that end up in the tables (`compute_action` returns `Some`) -/
def Detail.live : Detail → Bool
  | .shift _ | .reduce _ | .error | .accept => true
  | _ => false

/-- The rule of a reduce -/
def Detail.red? : Detail → Option RuleId
  | .reduce r => some r
  | _ => none

/-- Rules reduced by a list of actions -/
def reds (l : List Action) : List RuleId := l.filterMap (fun a => a.detail.red?)

/-- Details of the live actions -/
def lives (l : List Action) : List Detail := (l.map (·.detail)).filter Detail.live

/-- Resolution of a sorted list -/
def Grammar.resolveL (g : Grammar) (l : List Action) : List Action × Nat := g.resolveAll l.length l

/-- The rule `r` wins over `b`: both have a precedence, that of `r` is higher, or the same and
associative. -/
def Grammar.Beats (g : Grammar) (r b : RuleId) : Prop :=
  ∃ p q, (g.rule r).precedence = some p ∧ (g.rule b).precedence = some q ∧
    (q.level < p.level ∨ (q.level = p.level ∧ (p.assoc ≠ .none ∨ q.assoc ≠ .none)))

/-- Precedence of the token against that of a rule -/
def Grammar.TokVs (g : Grammar) (s : SymbolId) (r : RuleId) (o : Ordering) : Prop :=
  ∃ p q, (g.sym s).precedence = some p ∧ (g.rule r).precedence = some q ∧ precedenceCmp p q = o

/-- Only reduces and reduces that have lost -/
def RedOnly (s : SymbolId) (l : List Action) : Prop := ∀ a ∈ l, a.la = s ∧ ∃ r, a.detail = .reduce r ∨ a.detail = .rdResolved r

variable {g : Grammar}

theorem reds_cons (a : Action) (l : List Action) : reds (a :: l) = (match a.detail.red? with | some r => [r] | none => []) ++ reds l := by
  unfold reds
  rw [List.filterMap_cons]
  cases a.detail.red? <;> rfl

theorem lives_cons (a : Action) (l : List Action) : lives (a :: l) = (if a.detail.live then [a.detail] else []) ++ lives l := by
  unfold lives
  rw [List.map_cons, List.filter_cons]
  split <;> rfl

theorem lives_append (a b : List Action) : lives (a ++ b) = lives a ++ lives b := by
  unfold lives; rw [List.map_append, List.filter_append]

theorem lives_redOnly {s : SymbolId} {l : List Action} (h : RedOnly s l) : lives l = (reds l).map Detail.reduce := by
  induction l with
  | nil => rfl
  | cons a l ih =>
    rw [lives_cons, reds_cons, ih (fun x hx => h x (by simp [hx]))]
    obtain ⟨_, r, h1 | h1⟩ := h a (by simp) <;> rw [h1] <;> rfl

theorem resolveConflict_red {a b : RuleId} {x y : Action} (hx : x.detail = .reduce a) (hy : y.detail = .reduce b) {x' y' : Action}
    (h : g.resolveConflict x y = (x', y', false)) :
    (x' = { x with detail := .rdResolved a } ∧ y' = y ∧ g.Beats b a) ∨ (x' = x ∧ y' = { y with detail := .rdResolved b } ∧ g.Beats a b) := by
  unfold Grammar.resolveConflict at h
  rw [hx, hy] at h
  simp only at h
  split at h
  · rename_i px py h1 h2
    unfold precedenceCmp at h
    split at h
    · rename_i hc
      simp only [Prod.mk.injEq, and_true] at h
      refine .inl ⟨h.1.symm, h.2.symm, py, px, h2, h1, ?_⟩
      split at hc
      · rename_i hl; exact .inl hl
      · split at hc
        · cases hc
        · rename_i h3 h4
          right
          refine ⟨by omega, .inr ?_⟩
          intro e
          rw [e] at hc; cases hc
    · cases h
    · rename_i hc
      simp only [Prod.mk.injEq, and_true] at h
      refine .inr ⟨h.1.symm, h.2.symm, px, py, h1, h2, ?_⟩
      split at hc
      · cases hc
      · split at hc
        · rename_i hl; exact .inl hl
        · rename_i h3 h4
          right
          refine ⟨by omega, .inl ?_⟩
          intro e
          rw [e] at hc; cases hc
  · cases h

theorem resolveConflict_dead {x y : Action} (h : ∀ a, x.detail ≠ .shift a) (h2 : ∀ a, x.detail ≠ .reduce a) :
    g.resolveConflict x y = (x, y, false) := by
  unfold Grammar.resolveConflict
  split
  · rename_i h3 _; exact absurd h3 (h _)
  · rename_i h3 _; exact absurd h3 (h _)
  · rename_i h3 _; exact absurd h3 (h2 _)
  · rfl

theorem resolveConflict_dead2 {x y : Action} (h : ∀ a, y.detail ≠ .shift a) (h2 : ∀ a, y.detail ≠ .reduce a) :
    g.resolveConflict x y = (x, y, false) := by
  unfold Grammar.resolveConflict
  split
  · rename_i _ h3; exact absurd h3 (h _)
  · rename_i _ h3; exact absurd h3 (h2 _)
  · rename_i _ h3; exact absurd h3 (h2 _)
  · rfl

/-- An action that is out of the game changes nothing. -/
theorem resolveFrom_dead {x : Action} (h : ∀ a, x.detail ≠ .shift a) (h2 : ∀ a, x.detail ≠ .reduce a) :
    ∀ ys, g.resolveFrom x ys = (x, ys, 0) := by
  intro ys
  induction ys with
  | nil => rfl
  | cons y ys ih =>
    unfold Grammar.resolveFrom
    split
    · rw [resolveConflict_dead h h2]
      simp only [ih]; rfl
    · rfl

/-- The look-aheads do not change. -/
theorem resolveConflict_la (x y : Action) : (g.resolveConflict x y).1.la = x.la ∧ (g.resolveConflict x y).2.1.la = y.la := by
  unfold Grammar.resolveConflict
  split
  · exact ⟨rfl, rfl⟩
  · split
    · split <;> exact ⟨rfl, rfl⟩
    · exact ⟨rfl, rfl⟩
  · split
    · split <;> exact ⟨rfl, rfl⟩
    · exact ⟨rfl, rfl⟩
  · exact ⟨rfl, rfl⟩

theorem resolveFrom_la : ∀ (ys : List Action) (x : Action), (g.resolveFrom x ys).1.la = x.la ∧
    (g.resolveFrom x ys).2.1.map (·.la) = ys.map (·.la) := by
  intro ys
  induction ys with
  | nil => intro x; exact ⟨rfl, rfl⟩
  | cons y ys ih =>
    intro x
    unfold Grammar.resolveFrom
    split
    · have h := resolveConflict_la (g := g) x y
      obtain ⟨h1, h2⟩ := ih (g.resolveConflict x y).1
      simp only
      exact ⟨by rw [h1, h.1], by rw [List.map_cons, List.map_cons, h2, h.2]⟩
    · exact ⟨rfl, rfl⟩

theorem resolveFrom_len (ys : List Action) (x : Action) : (g.resolveFrom x ys).2.1.length = ys.length := by
  have := congrArg List.length (resolveFrom_la (g := g) ys x).2
  simpa using this

theorem resolveL_cons (x : Action) (xs : List Action) : g.resolveL (x :: xs) =
    ((g.resolveFrom x xs).1 :: (g.resolveL (g.resolveFrom x xs).2.1).1,
      (g.resolveFrom x xs).2.2 + (g.resolveL (g.resolveFrom x xs).2.1).2) := by
  unfold Grammar.resolveL
  rw [List.length_cons]
  conv => lhs; unfold Grammar.resolveAll
  simp only [resolveFrom_len]

theorem resolveL_la : ∀ (n : Nat) (l : List Action), l.length = n → (g.resolveL l).1.map (·.la) = l.map (·.la) := by
  intro n
  induction n with
  | zero => intro l h; rw [List.length_eq_zero_iff] at h; subst h; rfl
  | succ n ih =>
    intro l h
    cases l with
    | nil => cases h
    | cons x xs =>
      rw [resolveL_cons]
      simp only [List.map_cons]
      rw [ih _ (by rw [resolveFrom_len]; simpa using h), (resolveFrom_la xs x).1, (resolveFrom_la xs x).2]

/-! ## Reduces only -/

theorem Grammar.Beats.trans {a b c : RuleId} (h1 : g.Beats a b) (h2 : g.Beats b c) (hc : ∀ p q : Precedence,
    (∃ r, (g.rule r).precedence = some p) → (∃ r, (g.rule r).precedence = some q) → p.level = q.level → p.assoc = q.assoc) :
    g.Beats a c := by
  obtain ⟨p, q, h3, h4, h5⟩ := h1
  obtain ⟨p', q', h6, h7, h8⟩ := h2
  rw [h4] at h6
  cases h6
  refine ⟨p, q', h3, h7, ?_⟩
  rcases h5 with h5 | ⟨h5, h9⟩ <;> rcases h8 with h8 | ⟨h8, h10⟩
  · left; omega
  · left; omega
  · left; omega
  · right
    refine ⟨by omega, ?_⟩
    have := hc p q ⟨a, h3⟩ ⟨b, h4⟩ h5.symm
    rcases h9 with h9 | h9
    · exact .inl h9
    · left; rw [this]; exact h9

/-- Same level, same associativity -/
def Grammar.Levels (g : Grammar) : Prop := ∀ p q : Precedence,
    (∃ r, (g.rule r).precedence = some p) → (∃ r, (g.rule r).precedence = some q) → p.level = q.level → p.assoc = q.assoc

theorem resolveFrom_red {s : SymbolId} {a : RuleId} : ∀ {ys : List Action} {x : Action}, x.la = s → x.detail = .reduce a → RedOnly s ys →
    (g.resolveFrom x ys).2.2 = 0 → RedOnly s (g.resolveFrom x ys).2.1 ∧ (∀ b ∈ reds (g.resolveFrom x ys).2.1, b ∈ reds ys) ∧
    (((g.resolveFrom x ys).1 = x ∧ reds (g.resolveFrom x ys).2.1 = [] ∧ ∀ b ∈ reds ys, g.Beats a b) ∨
     ((g.resolveFrom x ys).1 = { x with detail := .rdResolved a } ∧ ∃ c ∈ reds (g.resolveFrom x ys).2.1, g.Beats c a ∧
        ∀ b ∈ reds ys, b ∈ reds (g.resolveFrom x ys).2.1 ∨ g.Beats a b)) := by
  intro ys
  induction ys with
  | nil =>
    intro x _ _ _ _
    exact ⟨fun _ h => (by cases h), fun _ h => h, .inl ⟨rfl, rfl, fun _ h => (by cases h)⟩⟩
  | cons y ys ih =>
    intro x hx hd hr h0
    have hy := hr y (by simp)
    have hys : RedOnly s ys := fun z hz => hr z (by simp [hz])
    have hsame : x.la = y.la := by rw [hx, hy.1]
    unfold Grammar.resolveFrom at h0 ⊢
    simp only [if_pos hsame] at h0 ⊢
    obtain ⟨b, hb | hb⟩ := hy.2
    · -- two live reduces
      have hcf : (g.resolveConflict x y).2.2 = false := by
        cases hc : (g.resolveConflict x y).2.2 with
        | false => rfl
        | true => rw [hc] at h0; simp at h0
      have hdec : g.resolveConflict x y = ((g.resolveConflict x y).1, (g.resolveConflict x y).2.1, false) := by
        rw [← hcf]
      rcases resolveConflict_red hd hb hdec with ⟨h1, h2, h3⟩ | ⟨h1, h2, h3⟩
      · rw [h1, h2]
        have hdead : g.resolveFrom { x with detail := .rdResolved a } ys = ({ x with detail := .rdResolved a }, ys, 0) :=
          resolveFrom_dead (by simp) (by simp) ys
        rw [hdead]
        refine ⟨hr, fun _ h => h, .inr ⟨rfl, b, ?_, h3, fun _ h => .inl h⟩⟩
        rw [reds_cons, hb]; simp [Detail.red?]
      · rw [h1] at h0 ⊢
        rw [h2]
        obtain ⟨i1, i2, i3⟩ := ih hx hd hys (Nat.eq_zero_of_add_eq_zero_right h0)
        refine ⟨?_, ?_, ?_⟩
        · intro z hz
          rcases List.mem_cons.1 hz with rfl | hz
          · exact ⟨hy.1, b, .inr rfl⟩
          · exact i1 z hz
        · intro c hc
          rw [reds_cons] at hc ⊢
          simp only [Detail.red?, List.nil_append] at hc
          exact List.mem_append_right _ (i2 c hc)
        · rcases i3 with ⟨j1, j2, j3⟩ | ⟨j1, c, j2, j3, j4⟩
          · left
            refine ⟨j1, ?_, ?_⟩
            · rw [reds_cons]; simp only [Detail.red?, List.nil_append]; exact j2
            · intro c hc
              rw [reds_cons, hb] at hc
              simp only [Detail.red?, List.singleton_append, List.mem_cons] at hc
              rcases hc with rfl | hc
              · exact h3
              · exact j3 c hc
          · right
            refine ⟨j1, c, ?_, j3, ?_⟩
            · rw [reds_cons]; simp only [Detail.red?, List.nil_append]; exact j2
            · intro c hc
              rw [reds_cons, hb] at hc
              simp only [Detail.red?, List.singleton_append, List.mem_cons] at hc
              rw [reds_cons]; simp only [Detail.red?, List.nil_append]
              rcases hc with rfl | hc
              · exact .inr h3
              · exact j4 c hc
    · rw [resolveConflict_dead2 (by rw [hb]; simp) (by rw [hb]; simp)] at h0 ⊢
      obtain ⟨i1, i2, i3⟩ := ih hx hd hys (by simpa using h0)
      have hre : ∀ l, reds (y :: l) = reds l := by intro l; rw [reds_cons, hb]; rfl
      simp only [hre]
      refine ⟨?_, i2, i3⟩
      intro z hz
      rcases List.mem_cons.1 hz with rfl | hz
      · exact hy
      · exact i1 z hz

theorem resolveL_red (hl : g.Levels) {s : SymbolId} : ∀ (n : Nat) {l : List Action}, l.length = n → RedOnly s l → (g.resolveL l).2 = 0 →
    RedOnly s (g.resolveL l).1 ∧ ((reds l = [] ∧ reds (g.resolveL l).1 = []) ∨
      ∃ r ∈ reds l, reds (g.resolveL l).1 = [r] ∧ ∀ b ∈ reds l, b = r ∨ g.Beats r b) := by
  intro n
  induction n with
  | zero => intro l h _ _; rw [List.length_eq_zero_iff] at h; subst h; exact ⟨fun _ h => (by cases h), .inl ⟨rfl, rfl⟩⟩
  | succ n ih =>
    intro l h hr h0
    cases l with
    | nil => cases h
    | cons x xs =>
      rw [resolveL_cons] at h0 ⊢
      simp only at h0 ⊢
      have hx := hr x (by simp)
      have hxs : RedOnly s xs := fun z hz => hr z (by simp [hz])
      have hn : xs.length = n := by simpa using h
      obtain ⟨a, ha | ha⟩ := hx.2
      · obtain ⟨i1, i2, i3⟩ := resolveFrom_red hx.1 ha hxs (Nat.eq_zero_of_add_eq_zero_right h0)
        obtain ⟨j1, j2⟩ := ih (by rw [resolveFrom_len]; exact hn) i1 (Nat.eq_zero_of_add_eq_zero_left h0)
        have hra : reds (x :: xs) = a :: reds xs := by rw [reds_cons, ha]; rfl
        rw [hra]
        rcases i3 with ⟨k1, k2, k3⟩ | ⟨k1, c, k2, k3, k4⟩
        · rw [k1]
          refine ⟨?_, .inr ⟨a, by simp, ?_, ?_⟩⟩
          · intro z hz
            rcases List.mem_cons.1 hz with rfl | hz
            · exact hx
            · exact j1 z hz
          · rw [reds_cons, ha]
            rcases j2 with ⟨_, j2⟩ | ⟨r, j2, _⟩
            · rw [j2]; rfl
            · rw [k2] at j2; cases j2
          · intro b hb
            rcases List.mem_cons.1 hb with rfl | hb
            · exact .inl rfl
            · exact .inr (k3 b hb)
        · rw [k1]
          rcases j2 with ⟨j2, _⟩ | ⟨r, j2, j3, j4⟩
          · rw [j2] at k2; cases k2
          · have hrc : g.Beats r a := by
              rcases j4 c k2 with rfl | h5
              · exact k3
              · exact h5.trans k3 hl
            refine ⟨?_, .inr ⟨r, by simp [i2 r j2], ?_, ?_⟩⟩
            · intro z hz
              rcases List.mem_cons.1 hz with rfl | hz
              · exact ⟨hx.1, a, .inr rfl⟩
              · exact j1 z hz
            · rw [reds_cons]; simp only [Detail.red?, List.nil_append]; exact j3
            · intro b hb
              rcases List.mem_cons.1 hb with rfl | hb
              · exact .inr hrc
              · rcases k4 b hb with h5 | h5
                · exact j4 b h5
                · exact .inr (hrc.trans h5 hl)
      · rw [resolveFrom_dead (by rw [ha]; simp) (by rw [ha]; simp)] at h0 ⊢
        simp only at h0 ⊢
        obtain ⟨j1, j2⟩ := ih hn hxs (by simpa using h0)
        have hre : ∀ l, reds (x :: l) = reds l := by intro l; rw [reds_cons, ha]; rfl
        rw [hre, hre]
        refine ⟨?_, j2⟩
        intro z hz
        rcases List.mem_cons.1 hz with rfl | hz
        · exact hx
        · exact j1 z hz

/-! ## With a shift -/

theorem resolveConflict_shift {k : StateId} {b : RuleId} {x y : Action} (hx : x.detail = .shift k) (hy : y.detail = .reduce b) {x' y' : Action}
    (h : g.resolveConflict x y = (x', y', false)) :
    (x' = { x with detail := .shResolved k } ∧ y' = y ∧ g.TokVs x.la b .lt) ∨
    (x' = { x with detail := .error } ∧ y' = y ∧ g.TokVs x.la b .eq) ∨
    (x' = x ∧ y' = { y with detail := .rdResolved b } ∧ g.TokVs x.la b .gt) := by
  unfold Grammar.resolveConflict at h
  rw [hx, hy] at h
  simp only at h
  split at h
  · rename_i px py h1 h2
    split at h <;> rename_i hc <;> simp only [Prod.mk.injEq, and_true] at h
    · exact .inl ⟨h.1.symm, h.2.symm, px, py, h1, h2, hc⟩
    · exact .inr (.inl ⟨h.1.symm, h.2.symm, px, py, h1, h2, hc⟩)
    · exact .inr (.inr ⟨h.1.symm, h.2.symm, px, py, h1, h2, hc⟩)
  · cases h

theorem resolveFrom_shift {s : SymbolId} {k : StateId} : ∀ {ys : List Action} {x : Action}, x.la = s → x.detail = .shift k → RedOnly s ys →
    (g.resolveFrom x ys).2.2 = 0 → RedOnly s (g.resolveFrom x ys).2.1 ∧ (∀ b ∈ reds (g.resolveFrom x ys).2.1, b ∈ reds ys) ∧
    (((g.resolveFrom x ys).1 = x ∧ reds (g.resolveFrom x ys).2.1 = [] ∧ ∀ b ∈ reds ys, g.TokVs s b .gt) ∨
     ((g.resolveFrom x ys).1 = { x with detail := .shResolved k } ∧ ∃ c ∈ reds (g.resolveFrom x ys).2.1, g.TokVs s c .lt ∧
        ∀ b ∈ reds ys, b ∈ reds (g.resolveFrom x ys).2.1 ∨ g.TokVs s b .gt) ∨
     ((g.resolveFrom x ys).1 = { x with detail := .error } ∧ ∃ c ∈ reds (g.resolveFrom x ys).2.1, g.TokVs s c .eq ∧
        ∀ b ∈ reds ys, b ∈ reds (g.resolveFrom x ys).2.1 ∨ g.TokVs s b .gt)) := by
  intro ys
  induction ys with
  | nil =>
    intro x _ _ _ _
    exact ⟨fun _ h => (by cases h), fun _ h => h, .inl ⟨rfl, rfl, fun _ h => (by cases h)⟩⟩
  | cons y ys ih =>
    intro x hx hd hr h0
    have hy := hr y (by simp)
    have hys : RedOnly s ys := fun z hz => hr z (by simp [hz])
    have hsame : x.la = y.la := by rw [hx, hy.1]
    unfold Grammar.resolveFrom at h0 ⊢
    simp only [if_pos hsame] at h0 ⊢
    obtain ⟨b, hb | hb⟩ := hy.2
    · have hcf : (g.resolveConflict x y).2.2 = false := by
        cases hc : (g.resolveConflict x y).2.2 with
        | false => rfl
        | true => rw [hc] at h0; simp at h0
      have hdec : g.resolveConflict x y = ((g.resolveConflict x y).1, (g.resolveConflict x y).2.1, false) := by
        rw [← hcf]
      have hbm : b ∈ reds (y :: ys) := by rw [reds_cons, hb]; simp [Detail.red?]
      rcases resolveConflict_shift hd hb hdec with ⟨h1, h2, h3⟩ | ⟨h1, h2, h3⟩ | ⟨h1, h2, h3⟩
      · rw [h1, h2]
        have hdead : g.resolveFrom { x with detail := .shResolved k } ys = ({ x with detail := .shResolved k }, ys, 0) :=
          resolveFrom_dead (by simp) (by simp) ys
        rw [hdead]
        rw [hx] at h3
        exact ⟨hr, fun _ h => h, .inr (.inl ⟨rfl, b, hbm, h3, fun _ h => .inl h⟩)⟩
      · rw [h1, h2]
        have hdead : g.resolveFrom { x with detail := .error } ys = ({ x with detail := .error }, ys, 0) :=
          resolveFrom_dead (by simp) (by simp) ys
        rw [hdead]
        rw [hx] at h3
        exact ⟨hr, fun _ h => h, .inr (.inr ⟨rfl, b, hbm, h3, fun _ h => .inl h⟩)⟩
      · rw [hx] at h3
        rw [h1] at h0 ⊢
        rw [h2]
        obtain ⟨i1, i2, i3⟩ := ih hx hd hys (Nat.eq_zero_of_add_eq_zero_right h0)
        have hkill : reds ({ y with detail := .rdResolved b } :: (g.resolveFrom x ys).2.1) = reds (g.resolveFrom x ys).2.1 := by
          rw [reds_cons]; rfl
        have hyb : reds (y :: ys) = b :: reds ys := by rw [reds_cons, hb]; rfl
        simp only [hkill, hyb]
        refine ⟨?_, fun c hc => List.mem_cons_of_mem _ (i2 c hc), ?_⟩
        · intro z hz
          rcases List.mem_cons.1 hz with rfl | hz
          · exact ⟨hy.1, b, .inr rfl⟩
          · exact i1 z hz
        · rcases i3 with ⟨j1, j2, j3⟩ | ⟨j1, c, j2, j3, j4⟩ | ⟨j1, c, j2, j3, j4⟩
          · refine .inl ⟨j1, j2, ?_⟩
            intro c hc
            rcases List.mem_cons.1 hc with rfl | hc
            · exact h3
            · exact j3 c hc
          · refine .inr (.inl ⟨j1, c, j2, j3, ?_⟩)
            intro c hc
            rcases List.mem_cons.1 hc with rfl | hc
            · exact .inr h3
            · exact j4 c hc
          · refine .inr (.inr ⟨j1, c, j2, j3, ?_⟩)
            intro c hc
            rcases List.mem_cons.1 hc with rfl | hc
            · exact .inr h3
            · exact j4 c hc
    · rw [resolveConflict_dead2 (by rw [hb]; simp) (by rw [hb]; simp)] at h0 ⊢
      obtain ⟨i1, i2, i3⟩ := ih hx hd hys (by simpa using h0)
      have hre : ∀ l, reds (y :: l) = reds l := by intro l; rw [reds_cons, hb]; rfl
      simp only [hre]
      refine ⟨?_, i2, i3⟩
      intro z hz
      rcases List.mem_cons.1 hz with rfl | hz
      · exact hy
      · exact i1 z hz

theorem TokVs.up {s : SymbolId} {c r : RuleId} (h : g.TokVs s c .lt) (h2 : c = r ∨ g.Beats r c) : g.TokVs s r .lt := by
  rcases h2 with rfl | ⟨p, q, h3, h4, h5⟩
  · exact h
  · obtain ⟨a, b, h6, h7, h8⟩ := h
    rw [h4] at h7; cases h7
    refine ⟨a, p, h6, h3, ?_⟩
    have hle : q.level ≤ p.level := by
      rcases h5 with h5 | h5
      · omega
      · omega
    unfold precedenceCmp at h8 ⊢
    by_cases h9 : a.level < p.level
    · rw [if_pos h9]
    · rw [if_neg h9]
      rw [if_neg (show ¬ a.level < q.level by omega)] at h8
      by_cases h10 : q.level < a.level
      · rw [if_pos h10] at h8; cases h8
      · rw [if_neg h10] at h8
        rw [if_neg (show ¬ p.level < a.level by omega)]
        exact h8

theorem resolveL_dead {x : Action} {xs : List Action} (h : ∀ a, x.detail ≠ .shift a) (h2 : ∀ a, x.detail ≠ .reduce a) :
    g.resolveL (x :: xs) = (x :: (g.resolveL xs).1, (g.resolveL xs).2) := by
  rw [resolveL_cons, resolveFrom_dead h h2]; simp

/-- What is left of the actions of a state for one token.  `sh` are the states that can be shifted to,
`rd` the rules that can be reduced. -/
inductive Grammar.Outcome (g : Grammar) (s : SymbolId) (sh : List StateId) (rd : List RuleId) : List Detail → Prop
  | nothing : sh = [] → rd = [] → g.Outcome s sh rd []
  | shift {k} : sh = [k] → (∀ b ∈ rd, g.TokVs s b .gt) → g.Outcome s sh rd [.shift k]
  | reduce {r} : r ∈ rd → sh.length ≤ 1 → (sh ≠ [] → g.TokVs s r .lt) →
      (∀ b ∈ rd, b = r ∨ g.Beats r b ∨ (sh ≠ [] ∧ g.TokVs s b .gt)) → g.Outcome s sh rd [.reduce r]
  | error {k r c} : sh = [k] → r ∈ rd → c ∈ rd → g.TokVs s c .eq → (c = r ∨ g.Beats r c) →
      (∀ b ∈ rd, b = r ∨ g.Beats r b ∨ g.TokVs s b .gt) → g.Outcome s sh rd [.error, .reduce r]

theorem redOnly_map (s : SymbolId) (rd : List RuleId) : RedOnly s (rd.map (fun r => (⟨s, .reduce r⟩ : Action))) := by
  intro a ha
  obtain ⟨r, _, rfl⟩ := List.mem_map.1 ha
  exact ⟨rfl, r, .inl rfl⟩

theorem reds_map (s : SymbolId) (rd : List RuleId) : reds (rd.map (fun r => (⟨s, .reduce r⟩ : Action))) = rd := by
  induction rd with
  | nil => rfl
  | cons r rd ih => rw [List.map_cons, reds_cons, ih]; rfl

theorem resolve_group (hl : g.Levels) {s : SymbolId} {sh : List StateId} {rd : List RuleId}
    (h0 : (g.resolveL (sh.map (fun k => (⟨s, .shift k⟩ : Action)) ++ rd.map (fun r => ⟨s, .reduce r⟩))).2 = 0) :
    g.Outcome s sh rd (lives (g.resolveL (sh.map (fun k => (⟨s, .shift k⟩ : Action)) ++ rd.map (fun r => ⟨s, .reduce r⟩))).1) := by
  cases sh with
  | nil =>
    simp only [List.map_nil, List.nil_append] at h0 ⊢
    obtain ⟨h1, h2⟩ := resolveL_red hl _ rfl (redOnly_map s rd) h0
    rw [lives_redOnly h1]
    rw [reds_map] at h2
    rcases h2 with ⟨h2, h3⟩ | ⟨r, h2, h3, h4⟩
    · rw [h3]; exact .nothing rfl h2
    · rw [h3]
      refine .reduce h2 (by simp) (by simp) ?_
      intro b hb
      rcases h4 b hb with h5 | h5
      · exact .inl h5
      · exact .inr (.inl h5)
  | cons k sh =>
    cases sh with
    | cons k2 sh =>
      exfalso
      rw [List.map_cons, List.map_cons, List.cons_append, resolveL_cons] at h0
      simp only [List.cons_append] at h0
      unfold Grammar.resolveFrom at h0
      simp [Grammar.resolveConflict] at h0
    | nil =>
      simp only [List.map_cons, List.map_nil, List.singleton_append] at h0 ⊢
      rw [resolveL_cons] at h0 ⊢
      simp only at h0 ⊢
      obtain ⟨h1, h2, h3⟩ := resolveFrom_shift (g := g) (x := ⟨s, .shift k⟩) rfl rfl (redOnly_map s rd) (by omega)
      obtain ⟨h4, h5⟩ := resolveL_red hl _ rfl h1 (by omega)
      rw [reds_map] at h2 h3
      rw [lives_cons, lives_redOnly h4]
      rcases h3 with ⟨i1, i2, i3⟩ | ⟨i1, c, i2, i3, i4⟩ | ⟨i1, c, i2, i3, i4⟩
      · rcases h5 with ⟨_, h5⟩ | ⟨r, h5, _⟩
        · rw [i1, h5]; exact .shift rfl i3
        · rw [i2] at h5; cases h5
      · rcases h5 with ⟨h5, _⟩ | ⟨r, h5, h6, h7⟩
        · rw [h5] at i2; cases i2
        · rw [i1, h6]
          have hc := h7 c i2
          refine .reduce (h2 r h5) (by simp) (fun _ => TokVs.up i3 hc) ?_
          intro b hb
          rcases i4 b hb with h8 | h8
          · rcases h7 b h8 with h9 | h9
            · exact .inl h9
            · exact .inr (.inl h9)
          · exact .inr (.inr ⟨by simp, h8⟩)
      · rcases h5 with ⟨h5, _⟩ | ⟨r, h5, h6, h7⟩
        · rw [h5] at i2; cases i2
        · rw [i1, h6]
          refine .error rfl (h2 r h5) (h2 c i2) i3 (h7 c i2) ?_
          intro b hb
          rcases i4 b hb with h8 | h8
          · rcases h7 b h8 with h9 | h9
            · exact .inl h9
            · exact .inr (.inl h9)
          · exact .inr (.inr h8)

end Pomelo
