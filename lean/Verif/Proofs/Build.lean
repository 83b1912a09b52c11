import Verif.Proofs.GInv
/-! # The phases of `build` keep the grammar well formed -/

namespace Pomelo

theorem GInv.createRule {g : Grammar} (h : GInv g) {l : SymbolId} {rs : List RhsSym} {c : Option Code}
    {p : Option SymbolId} (hl : l < g.syms.length) (hlk : (g.sym l).kind = .nonTerminal)
    (hld : (g.sym l).name ≠ .dflt)
    (hrs : ∀ x ∈ rs, x.sym < g.syms.length ∧ (g.sym x.sym).name ≠ .dollar ∧ (g.sym x.sym).name ≠ .dflt) :
    GInv (g.createRule l rs c p) := by
  have hn : ∀ x, ((g.createRule l rs c p).sym x).name = (g.sym x).name :=
    fun x => proj_createRule Symbol.name (fun _ _ => rfl) x
  have hk : ∀ x, ((g.createRule l rs c p).sym x).kind = (g.sym x).kind :=
    fun x => proj_createRule Symbol.kind (fun _ _ => rfl) x
  have hi : ∀ x, ((g.createRule l rs c p).sym x).index = (g.sym x).index :=
    fun x => proj_createRule Symbol.index (fun _ _ => rfl) x
  have hsub : ∀ x, ((g.createRule l rs c p).sym x).subs = (g.sym x).subs :=
    fun x => proj_createRule Symbol.subs (fun _ _ => rfl) x
  have hfb : ∀ x, ((g.createRule l rs c p).sym x).fallback = (g.sym x).fallback :=
    fun x => proj_createRule Symbol.fallback (fun _ _ => rfl) x
  have hlen : (g.createRule l rs c p).syms.length = g.syms.length := length_createRule
  have hrl : (g.createRule l rs c p).rules.length = g.rules.length + 1 := by
    rw [rules_createRule]; simp
  have hr : ∀ r, r < g.rules.length + 1 →
      (r < g.rules.length ∧ (g.createRule l rs c p).rule r = g.rule r) ∨
      (r = g.rules.length ∧ (g.createRule l rs c p).rule r =
        { lhs := l, rhs := rs, code := c, precSym := p }) := by
    intro r hr
    by_cases e : r < g.rules.length
    · exact .inl ⟨e, rule_createRule_lt e⟩
    · have : r = g.rules.length := by omega
      subst this; exact .inr ⟨rfl, rule_createRule_last⟩
  constructor
  · rw [hlen]; exact h.slen
  · rw [hlen]; intro s; rw [hi]; exact h.perm s
  · rw [hlen]; intro s; rw [hi]; exact h.index s
  · rw [hlen]; exact h.two
  · rw [hn, hk, hi]; exact h.dollar
  · rw [hn, hk]; exact h.err
  · exact h.errSym
  · rw [hlen]; intro i j; rw [hn, hn]; exact h.names i j
  · rw [hlen]; intro s; rw [hn, hk]; exact h.kinds s
  · rw [hlen]; intro s; rw [hk, hi]; exact h.term s
  · rw [hlen]; intro s; rw [hk, hi]; exact h.nt s
  · obtain ⟨d, h1, h2, h3⟩ := h.dflt
    exact ⟨d, by rw [hlen]; exact h1, by rw [hn]; exact h2, by rw [hi]; exact h3⟩
  · rw [hlen]; exact h.nterm
  · rw [hlen]; intro s hs m; rw [hsub, hn]; exact h.subs s hs m
  · rw [hlen]; intro s; rw [hsub, hk]; exact h.subsKind s
  · rw [hlen]; intro s hs f; rw [hfb, hn, hn]; exact h.fb s hs f
  · rw [hlen]; intro s hs; exact rulesOf_createRule hl (h.rulesOf s hs)
  · rw [hrl, hlen]; intro r hr'
    rcases hr r hr' with ⟨a, e⟩ | ⟨a, e⟩ <;> rw [e, hn, hk]
    · exact h.lhs r a
    · exact ⟨hl, hlk, hld⟩
  · rw [hrl, hlen]; intro r hr' x hx
    rw [hn]
    unfold Grammar.rhsSyms at hx
    rcases hr r hr' with ⟨a, e⟩ | ⟨a, e⟩ <;> rw [e] at hx
    · exact h.rhs r a x hx
    · obtain ⟨y, hy, rfl⟩ := List.mem_map.1 hx
      exact hrs y hy
  · obtain ⟨s, h1, h2, h3⟩ := h.start
    exact ⟨s, h1, by rw [hlen]; exact h2, by rw [hn]; exact h3⟩
  · rw [hlen]; intro s; rw [hn]; exact h.wild s

/-! ## `%extra_token` -/

theorem foldl_modifySym_shape (l : List SymbolId) (f : Symbol → Symbol) (hf : ∀ b, (f b).core = b.core) :
    ∀ g : Grammar, Shape g (l.foldl (fun g s => g.modifySym s f) g) := by
  induction l with
  | nil => intro g; exact Shape.refl g
  | cons s l ih => intro g; exact (Shape.modify hf).trans (ih _)

theorem addExtraToken_shape (g : Grammar) : Shape g g.addExtraToken := by
  unfold Grammar.addExtraToken
  split
  · exact Shape.refl g
  · refine foldl_modifySym_shape _ _ ?_ g
    intro b; rfl

theorem foldl_modifySym_fields (l : List SymbolId) (f : Symbol → Symbol) : ∀ g : Grammar,
    (l.foldl (fun g s => g.modifySym s f) g).rules = g.rules ∧
    (l.foldl (fun g s => g.modifySym s f) g).optionals = g.optionals ∧
    (l.foldl (fun g s => g.modifySym s f) g).defaultType = g.defaultType := by
  induction l with
  | nil => intro g; exact ⟨rfl, rfl, rfl⟩
  | cons s l ih => intro g; exact ih _

theorem addExtraToken_fields (g : Grammar) :
    g.addExtraToken.rules = g.rules ∧ g.addExtraToken.optionals = g.optionals ∧
    g.addExtraToken.defaultType = g.defaultType := by
  unfold Grammar.addExtraToken
  split
  · exact ⟨rfl, rfl, rfl⟩
  · exact foldl_modifySym_fields _ _ g

theorem proj_foldl_modifySym {β : Type} (π : Symbol → β) (l : List SymbolId) (f : Symbol → Symbol)
    (hf : ∀ b, π (f b) = π b) : ∀ (g : Grammar) (x : SymbolId),
      π ((l.foldl (fun g s => g.modifySym s f) g).sym x) = π (g.sym x) := by
  induction l with
  | nil => intro g x; rfl
  | cons s l ih => intro g x; rw [List.foldl_cons, ih]; exact proj_modifySym π hf x

theorem proj_addExtraToken {β : Type} (π : Symbol → β) (hπ : ∀ (b : Symbol) t, π { b with dataType := t } = π b)
    (g : Grammar) (x : SymbolId) : π (g.addExtraToken.sym x) = π (g.sym x) := by
  unfold Grammar.addExtraToken
  split
  · rfl
  · exact proj_foldl_modifySym π _ _ (fun b => hπ b _) g x

/-! ## Optional symbols -/

/-- The two rules of an optional symbol -/
def optRules (o : SymbolId × SymbolId) : List Rule :=
  [{ lhs := o.2, rhs := [], code := some .optNone, precSym := none },
   { lhs := o.2, rhs := [⟨o.1, true⟩], code := some .optSome, precSym := none }]

theorem rules_addOptional (g : Grammar) (o : SymbolId × SymbolId) :
    (g.addOptional o).rules = g.rules ++ optRules o := by
  unfold Grammar.addOptional optRules
  simp only [rules_createRule, List.append_assoc]
  rfl

theorem rules_addOptionals (g : Grammar) (ord : List (SymbolId × SymbolId) → List (SymbolId × SymbolId)) :
    (g.addOptionals ord).rules = g.rules ++ (ord g.optionals).flatMap optRules := by
  unfold Grammar.addOptionals
  show (List.foldl Grammar.addOptional g (ord g.optionals)).rules = _
  generalize ord g.optionals = l
  induction l generalizing g with
  | nil => simp
  | cons o l ih => rw [List.foldl_cons, ih, rules_addOptional, List.flatMap_cons, List.append_assoc]

/-- Everything of a symbol but its rules and its type survives `addOptionals`. -/
theorem proj_addOptional {β : Type} (π : Symbol → β) (h1 : ∀ (b : Symbol) t, π { b with dataType := t } = π b)
    (h2 : ∀ (b : Symbol) t, π { b with rules := t } = π b) (g : Grammar) (o : SymbolId × SymbolId) (x : SymbolId) :
    π ((g.addOptional o).sym x) = π (g.sym x) := by
  unfold Grammar.addOptional
  simp only
  rw [proj_createRule π h2, proj_createRule π h2]
  exact proj_modifySym (g := g) (s := o.2) (f := fun b => { b with dataType := some (.option (((g.sym o.1).dataType).getD .unit)) })
    π (fun b => h1 b _) x

theorem proj_addOptionals {β : Type} (π : Symbol → β) (h1 : ∀ (b : Symbol) t, π { b with dataType := t } = π b)
    (h2 : ∀ (b : Symbol) t, π { b with rules := t } = π b) (g : Grammar)
    (ord : List (SymbolId × SymbolId) → List (SymbolId × SymbolId)) (x : SymbolId) :
    π ((g.addOptionals ord).sym x) = π (g.sym x) := by
  unfold Grammar.addOptionals
  show π ((List.foldl Grammar.addOptional g (ord g.optionals)).sym x) = _
  generalize ord g.optionals = l
  induction l generalizing g with
  | nil => rfl
  | cons o l ih => rw [List.foldl_cons, ih, proj_addOptional π h1 h2]

/-- An entry of `optional_tokens`: the symbol and its optional version -/
def OptOk (g : Grammar) (o : SymbolId × SymbolId) : Prop :=
  o.1 < g.syms.length ∧ o.2 < g.syms.length ∧
  ((g.sym o.1).name.isTok = true ∨ (g.sym o.1).name.isNt = true) ∧ ∃ k, (g.sym o.2).name = .opt k

theorem GInv.opt_kind {g : Grammar} (h : GInv g) {s : SymbolId} (hs : s < g.syms.length) {k : Nat}
    (hn : (g.sym s).name = .opt k) : (g.sym s).kind = .nonTerminal := by
  have := h.kinds s hs
  rw [hn] at this
  revert this
  generalize (g.sym s).kind = kd
  cases kd <;> simp [kindOk]

theorem GInv.addOptional {g : Grammar} (h : GInv g) {o : SymbolId × SymbolId} (ho : OptOk g o) :
    GInv (g.addOptional o) := by
  obtain ⟨h1, h2, h3, k, h4⟩ := ho
  unfold Grammar.addOptional
  simp only
  generalize hf : (fun b : Symbol => { b with dataType := some (.option (((g.sym o.1).dataType).getD .unit)) }) = f
  have hcore : ∀ b : Symbol, (f b).core = b.core := by intro b; rw [← hf]; rfl
  have hs : Shape g (g.modifySym o.2 f) := Shape.modify hcore
  have i1 : GInv (g.modifySym o.2 f) := h.shape hs
  have n2 : ((g.modifySym o.2 f).sym o.2).name = .opt k := by rw [hs.name]; exact h4
  have n1 : ((g.modifySym o.2 f).sym o.1).name = (g.sym o.1).name := hs.name _
  have l1 : o.1 < (g.modifySym o.2 f).syms.length := by rw [hs.len]; exact h1
  have l2 : o.2 < (g.modifySym o.2 f).syms.length := by rw [hs.len]; exact h2
  generalize g.modifySym o.2 f = g1 at *
  have i2 : GInv (g1.createRule o.2 [] (some .optNone) none) :=
    i1.createRule l2 (i1.opt_kind l2 n2) (by rw [n2]; simp) (by simp)
  have m : ∀ x, ((g1.createRule o.2 [] (some .optNone) none).sym x).name = (g1.sym x).name :=
    fun x => proj_createRule Symbol.name (fun _ _ => rfl) x
  have ml : (g1.createRule o.2 [] (some .optNone) none).syms.length = g1.syms.length := length_createRule
  refine i2.createRule (by rw [ml]; exact l2) (i2.opt_kind (by rw [ml]; exact l2) (by rw [m]; exact n2))
    (by rw [m, n2]; simp) ?_
  intro x hx
  simp only [List.mem_singleton] at hx
  subst hx
  refine ⟨by rw [ml]; exact l1, ?_, ?_⟩
  · show _ ≠ _
    rw [m, n1]
    intro e; rw [e] at h3; simp [SymName.isTok, SymName.isNt] at h3
  · show _ ≠ _
    rw [m, n1]
    intro e; rw [e] at h3; simp [SymName.isTok, SymName.isNt] at h3

theorem length_addOptional (g : Grammar) (o : SymbolId × SymbolId) : (g.addOptional o).syms.length = g.syms.length := by
  unfold Grammar.addOptional
  simp only [length_createRule, length_modifySym]

theorem OptOk.addOptional {g : Grammar} {o p : SymbolId × SymbolId} (h : OptOk g p) : OptOk (g.addOptional o) p := by
  have hn : ∀ x, ((g.addOptional o).sym x).name = (g.sym x).name :=
    fun x => proj_addOptional Symbol.name (fun _ _ => rfl) (fun _ _ => rfl) g o x
  unfold OptOk
  simp only [length_addOptional, hn]
  exact h

theorem GInv.addOptionals {g : Grammar} (h : GInv g)
    {ord : List (SymbolId × SymbolId) → List (SymbolId × SymbolId)} (ho : ∀ o ∈ ord g.optionals, OptOk g o) :
    GInv (g.addOptionals ord) := by
  have key : ∀ (l : List (SymbolId × SymbolId)) (g : Grammar), GInv g → (∀ o ∈ l, OptOk g o) →
      GInv (List.foldl Grammar.addOptional g l) := by
    intro l
    induction l with
    | nil => intro g h _; exact h
    | cons o l ih =>
      intro g h ho
      refine ih _ (h.addOptional (ho o (by simp))) ?_
      intro p hp
      exact (ho p (by simp [hp])).addOptional
  unfold Grammar.addOptionals
  refine (key _ g h ho).shape ?_
  exact ⟨rfl, fun _ => rfl, rfl, rfl, fun _ => rfl, fun _ => rfl, rfl, rfl, rfl, rfl, rfl⟩

/-! ## Precedences, forwarding rules, first sets, start marks -/

/-- A change of the rules that keeps left sides and right-hand symbols -/
theorem rules_shape {g : Grammar} {rules : List Rule} (hlen : rules.length = g.rules.length)
    (h : ∀ r, (rules.getD r default).lhs = (g.rule r).lhs ∧
      (rules.getD r default).rhs.map (·.sym) = (g.rule r).rhs.map (·.sym)) :
    Shape g { g with rules := rules } :=
  ⟨rfl, fun _ => rfl, rfl, hlen, fun r => (h r).1, fun r => (h r).2, rfl, rfl, rfl, rfl, rfl⟩

theorem rulePrec_keeps (g : Grammar) (r : Rule) : (g.rulePrec r).lhs = r.lhs ∧ (g.rulePrec r).rhs = r.rhs ∧
    (g.rulePrec r).code = r.code := by
  unfold Grammar.rulePrec
  split
  · exact ⟨rfl, rfl, rfl⟩
  · split <;> exact ⟨rfl, rfl, rfl⟩

theorem findRulePrecedences_shape (g : Grammar) : Shape g g.findRulePrecedences := by
  refine rules_shape (by simp) ?_
  intro r
  unfold Grammar.rule
  simp only [List.getD_eq_getElem?_getD, List.getElem?_map]
  cases h : g.rules[r]? with
  | none => exact ⟨rfl, rfl⟩
  | some x => exact ⟨(rulePrec_keeps g x).1, by simp only [Option.map_some, Option.getD_some, (rulePrec_keeps g x).2.1]⟩

theorem mapM_except_forall₂ {α β ε : Type} {f : α → Except ε β} : ∀ {l : List α} {l' : List β},
    l.mapM f = .ok l' → List.Forall₂ (fun a b => f a = .ok b) l l' := by
  intro l
  induction l with
  | nil => intro l' h; simp [pure, Except.pure] at h; subst h; exact .nil
  | cons a l ih =>
    intro l' h
    rw [List.mapM_cons] at h
    simp only [bind, Except.bind, pure, Except.pure] at h
    split at h
    · cases h
    · rename_i b hb
      split at h
      · cases h
      · rename_i bs hbs
        cases h
        exact .cons hb (ih hbs)

theorem forall₂_getElem? {α β : Type} {R : α → β → Prop} {l1 : List α} {l2 : List β} (h : List.Forall₂ R l1 l2)
    (i : Nat) : (l1[i]? = none ∧ l2[i]? = none) ∨ ∃ a b, l1[i]? = some a ∧ l2[i]? = some b ∧ R a b := by
  induction h generalizing i with
  | nil => simp
  | cons hr _ ih =>
    cases i with
    | zero => exact .inr ⟨_, _, rfl, rfl, hr⟩
    | succ i => simpa using ih i

theorem normalizeRule_keeps {g : Grammar} {r r' : Rule} (h : g.normalizeRule r = .ok r') :
    r'.lhs = r.lhs ∧ r'.rhs.map (·.sym) = r.rhs.map (·.sym) ∧ r'.precedence = r.precedence ∧ r'.precSym = r.precSym := by
  unfold Grammar.normalizeRule at h
  split at h
  · split at h
    · cases h
      refine ⟨rfl, ?_, rfl, rfl⟩
      simp only [List.map_map]
      apply List.map_congr_left
      intro a _
      simp only [Function.comp]
      split <;> rfl
    · cases h
  · cases h; exact ⟨rfl, rfl, rfl, rfl⟩

theorem normalizeRules_spec {g g' : Grammar} (h : g.normalizeRules = .ok g') :
    ∃ rules, g' = { g with rules := rules } ∧ List.Forall₂ (fun a b => g.normalizeRule a = .ok b) g.rules rules := by
  unfold Grammar.normalizeRules at h
  split at h
  · cases h
  · rename_i rules hr
    cases h
    exact ⟨rules, rfl, mapM_except_forall₂ hr⟩

theorem normalizeRules_shape {g g' : Grammar} (h : g.normalizeRules = .ok g') : Shape g g' := by
  obtain ⟨rules, rfl, hf⟩ := normalizeRules_spec h
  refine rules_shape hf.length_eq.symm ?_
  intro r
  unfold Grammar.rule
  simp only [List.getD_eq_getElem?_getD]
  rcases forall₂_getElem? hf r with ⟨a, b⟩ | ⟨a, b, h1, h2, h3⟩
  · rw [a, b]; exact ⟨rfl, rfl⟩
  · rw [h1, h2]
    exact ⟨(normalizeRule_keeps h3).1, (normalizeRule_keeps h3).2.1⟩

theorem markStart_shape (g : Grammar) (sp : SymbolId) : Shape g (g.markStart sp) := by
  unfold Grammar.markStart
  split
  · generalize (g.sym sp).rules = l
    have key : ∀ (l : List RuleId) (rs : List Rule),
        (l.foldl (fun rs rp => rs.modify rp (fun r => { r with lhsStart := true })) rs).length = rs.length ∧
        ∀ r, ((l.foldl (fun rs rp => rs.modify rp (fun r => { r with lhsStart := true })) rs).getD r default).lhs =
            (rs.getD r default).lhs ∧
          ((l.foldl (fun rs rp => rs.modify rp (fun r => { r with lhsStart := true })) rs).getD r default).rhs =
            (rs.getD r default).rhs := by
      intro l
      induction l with
      | nil => intro rs; exact ⟨rfl, fun _ => ⟨rfl, rfl⟩⟩
      | cons x l ih =>
        intro rs
        rw [List.foldl_cons]
        have := ih (rs.modify x (fun r => { r with lhsStart := true }))
        refine ⟨by rw [this.1]; simp, ?_⟩
        intro r
        rw [(this.2 r).1, (this.2 r).2]
        simp only [List.getD_eq_getElem?_getD, List.getElem?_modify]
        cases rs[r]? with
        | none => exact ⟨rfl, rfl⟩
        | some y => by_cases e : x = r <;> simp [e]
    refine rules_shape (key l g.rules).1 ?_
    intro r
    refine ⟨((key l g.rules).2 r).1, ?_⟩
    rw [((key l g.rules).2 r).2]
    rfl
  · exact Shape.refl g

/-! ## First sets -/

/-- Changing only `lambda` and `firstSet` -/
structure FirstOnly (a b : List Symbol) : Prop where
  len : b.length = a.length
  proj : ∀ {β : Type} (π : Symbol → β), (∀ (x : Symbol) l, π { x with lambda := l } = π x) →
    (∀ (x : Symbol) l, π { x with firstSet := l } = π x) → ∀ s, π (b.getD s default) = π (a.getD s default)

theorem FirstOnly.refl (a : List Symbol) : FirstOnly a a := ⟨rfl, fun _ _ _ _ => rfl⟩

theorem FirstOnly.trans {a b c : List Symbol} (h1 : FirstOnly a b) (h2 : FirstOnly b c) : FirstOnly a c :=
  ⟨h2.len.trans h1.len, fun π p1 p2 s => (h2.proj π p1 p2 s).trans (h1.proj π p1 p2 s)⟩

theorem getD_modify {α : Type} [Inhabited α] (l : List α) (k : Nat) (f : α → α) (s : Nat) :
    (l.modify k f).getD s default = if k = s ∧ s < l.length then f (l.getD s default) else l.getD s default := by
  simp only [List.getD_eq_getElem?_getD, List.getElem?_modify]
  by_cases hl : s < l.length
  · by_cases e : k = s <;> simp [e, hl]
  · simp [hl]

theorem FirstOnly.modify_lambda (a : List Symbol) (k : Nat) (v : Bool) :
    FirstOnly a (a.modify k (fun b => { b with lambda := v })) := by
  refine ⟨by simp, ?_⟩
  intro β π p1 p2 s
  rw [getD_modify]; split
  · exact p1 _ _
  · rfl

theorem FirstOnly.modify_first (a : List Symbol) (k : Nat) (v : List Nat) :
    FirstOnly a (a.modify k (fun b => { b with firstSet := v })) := by
  refine ⟨by simp, ?_⟩
  intro β π p1 p2 s
  rw [getD_modify]; split
  · exact p2 _ _
  · rfl

theorem FirstOnly.foldl {γ : Type} {f : List Symbol × Bool → γ → List Symbol × Bool}
    (hf : ∀ acc c, FirstOnly acc.1 (f acc c).1) (l : List γ) :
    ∀ acc, FirstOnly acc.1 (l.foldl f acc).1 := by
  induction l with
  | nil => intro acc; exact .refl _
  | cons c l ih => intro acc; exact (hf acc c).trans (ih _)

theorem firstOnly_lambdaStep (acc : List Symbol × Bool) (r : Rule) : FirstOnly acc.1 (lambdaStep acc r).1 := by
  unfold lambdaStep
  split
  · exact .refl _
  · split
    · exact .modify_lambda _ _ _
    · exact .refl _

theorem firstOnly_lambdaLoop (rules : List Rule) : ∀ (fuel : Nat) {a b : List Symbol},
    lambdaLoop rules fuel a = .ok b → FirstOnly a b := by
  intro fuel
  induction fuel with
  | zero => intro a b h; cases h
  | succ n ih =>
    intro a b h
    unfold lambdaLoop at h
    have := FirstOnly.foldl firstOnly_lambdaStep rules (a, false)
    rcases hf : rules.foldl lambdaStep (a, false) with ⟨c, pr⟩
    rw [hf] at h this
    simp only at h
    split at h
    · exact this.trans (ih h)
    · cases h; exact this

theorem firstOnly_firstRhs (s1 : SymbolId) (rhs : List RhsSym) :
    ∀ acc : List Symbol × Bool, FirstOnly acc.1 (firstRhs s1 acc rhs).1 := by
  induction rhs with
  | nil => intro acc; exact .refl _
  | cons x xs ih =>
    intro acc
    unfold firstRhs
    simp only
    split
    · split
      · exact ih acc
      · exact .refl _
    · split
      · exact .modify_first _ _ _
      · exact .modify_first _ _ _
      · split
        · exact FirstOnly.trans (b := (growFirst acc s1 (acc.1.getD x.sym default).firstSet).1)
            (.modify_first _ _ _) (ih _)
        · exact .modify_first _ _ _

theorem firstOnly_firstLoop (rules : List Rule) : ∀ (fuel : Nat) {a b : List Symbol},
    firstLoop rules fuel a = .ok b → FirstOnly a b := by
  intro fuel
  induction fuel with
  | zero => intro a b h; cases h
  | succ n ih =>
    intro a b h
    unfold firstLoop at h
    have := FirstOnly.foldl (f := fun acc r => firstRhs r.lhs acc r.rhs)
      (fun acc r => firstOnly_firstRhs r.lhs r.rhs acc) rules (a, false)
    rcases hf : rules.foldl (fun acc r => firstRhs r.lhs acc r.rhs) (a, false) with ⟨c, pr⟩
    rw [hf] at h this
    simp only at h
    split at h
    · exact this.trans (ih h)
    · cases h; exact this

theorem findFirstSets_only {g g' : Grammar} (h : g.findFirstSets = .ok g') :
    g' = { g with syms := g'.syms } ∧ FirstOnly g.syms g'.syms := by
  unfold Grammar.findFirstSets at h
  split at h
  · cases h
  · rename_i a ha
    split at h
    · cases h
    · rename_i b hb
      cases h
      exact ⟨rfl, (firstOnly_lambdaLoop _ _ ha).trans (firstOnly_firstLoop _ _ hb)⟩

theorem findFirstSets_shape {g g' : Grammar} (h : g.findFirstSets = .ok g') : Shape g g' := by
  obtain ⟨e, h⟩ := findFirstSets_only h
  rw [e]
  exact ⟨h.len, fun s => h.proj Symbol.core (fun _ _ => rfl) (fun _ _ => rfl) s, rfl, rfl, fun _ => rfl, fun _ => rfl,
    rfl, rfl, rfl, rfl, rfl⟩

/-! ## All phases together -/

/-- The iteration order of a hash map visits every entry once. -/
def OrdOk (ord : List (SymbolId × SymbolId) → List (SymbolId × SymbolId)) : Prop := ∀ l, (ord l).Perm l

theorem GInv.prepare {g0 : Grammar} (h : DInv g0) (hr : g0.rules ≠ [])
    {ord : List (SymbolId × SymbolId) → List (SymbolId × SymbolId)} (ho : OrdOk ord) :
    GInv ((g0.pushSym { name := .dflt, kind := .nonTerminal }).prepare ord) := by
  rw [prepare_eq]
  have i1 := GInv.indexed h hr
  refine (i1.shape (addExtraToken_shape _)).addOptionals ?_
  intro o ho'
  rw [(ho _).mem_iff, (addExtraToken_fields _).2.1, (indexed_fields _).2.2.2.2.1] at ho'
  have hsh := addExtraToken_shape (g0.pushSym { name := .dflt, kind := .nonTerminal }).indexed
  have hn : ∀ x, (((g0.pushSym { name := .dflt, kind := .nonTerminal }).indexed.addExtraToken).sym x).name =
      ((g0.pushSym { name := .dflt, kind := .nonTerminal }).sym x).name := by
    intro x
    rw [hsh.name, proj_indexed Symbol.name (fun _ _ => rfl)]
  obtain ⟨k, hk, he⟩ := List.getElem_of_mem ho'
  have := h.opts k o.1 o.2 (by
    have hk' : k < g0.optionals.length := hk
    rw [List.getElem?_eq_getElem hk']
    exact congrArg some he)
  obtain ⟨a1, a2, a3, a4⟩ := this
  unfold OptOk
  rw [hsh.len, (indexed_fields _).1, length_pushSym, hn, hn, sym_pushSym_lt a1, sym_pushSym_lt a2]
  exact ⟨Nat.lt_succ_of_lt a1, Nat.lt_succ_of_lt a2, a3, k, a4⟩

/-- The grammars along `build`: after `prepare`, after forwarding, after the first sets, and the one
with the start rules marked; the states before and after the follow sets. -/
structure AutoSpec (g : Grammar) (ord : List (SymbolId × SymbolId) → List (SymbolId × SymbolId))
    (g' : Grammar) (sts' : List LState) where
  gN : Grammar
  gF : Grammar
  sts : List LState
  norm : (g.prepare ord).findRulePrecedences.normalizeRules = .ok gN
  first : gN.findFirstSets = .ok gF
  noStart : gF.rules.any (fun r => r.rhs.any (fun s => s.sym = gF.start.getD 0)) = false
  marked : g' = gF.markStart (gF.start.getD 0)
  states : ∃ k, g'.getState (2 ^ g'.numItems + 1) [] (gF.startBasis (gF.start.getD 0)) = .ok (sts, k)
  follow : findFollowSets g'.syms.length (findLinks sts) = .ok sts'

theorem automaton_spec {g : Grammar} {ord} {g' : Grammar} {sts' : List LState}
    (h : g.automaton ord = .ok (g', sts')) : Nonempty (AutoSpec g ord g' sts') := by
  unfold Grammar.automaton at h
  simp only [bind, Except.bind, pure, Except.pure] at h
  split at h
  · cases h
  · rename_i gN hN
    split at h
    · cases h
    · rename_i gF hF
      split at h
      · cases h
      · rename_i x hx
        obtain ⟨gS, sts⟩ := x
        simp only at h
        split at h
        · cases h
        · rename_i sts2 hfol
          cases h
          unfold Grammar.findStates at hx
          simp only at hx
          split at hx
          · cases hx
          · rename_i hns
            split at hx
            · cases hx
            · rename_i y hy
              rename_i sts3 k
              cases hx
              exact ⟨⟨gN, gF, sts, hN, hF, by simpa using hns, rfl, ⟨_, hy⟩, hfol⟩⟩

theorem AutoSpec.shape {g : Grammar} {ord} {g' : Grammar} {sts' : List LState} (s : AutoSpec g ord g' sts') :
    Shape (g.prepare ord) g' := by
  have h1 := (findRulePrecedences_shape (g.prepare ord)).trans (normalizeRules_shape s.norm)
  have h2 := h1.trans (findFirstSets_shape s.first)
  rw [s.marked]
  exact h2.trans (markStart_shape _ _)

/-- The grammar the automaton is built for is well formed. -/
theorem GInv.automaton {ds : List Decl} {g : Grammar} (hg : newFromDecls ds = .ok g) {ord} (ho : OrdOk ord)
    {g' : Grammar} {sts' : List LState} (h : g.automaton ord = .ok (g', sts')) : GInv g' := by
  obtain ⟨g0, _, h1, _, h2, rfl⟩ := newFromDecls_spec hg
  obtain ⟨s⟩ := automaton_spec h
  exact (GInv.prepare h1 h2 ho).shape s.shape

theorem compile_spec {ord} {ds : List Decl} {t : Tables} (h : compile ord ds = .ok t) :
    ∃ g0 g sts acts acts', newFromDecls ds = .ok g0 ∧ g0.automaton ord = .ok (g, sts) ∧
      g.findActions sts = .ok (acts, 0) ∧ g.compressTables acts = .ok acts' ∧
      g.generate (g.resortStates acts') = .ok t := by
  unfold compile Grammar.build at h
  simp only [bind, Except.bind, throw, throwThe, MonadExceptOf.throw] at h
  split at h
  · cases h
  · rename_i g0 hg0
    split at h
    · cases h
    · rename_i x hx
      obtain ⟨g, sts⟩ := x
      simp only at h
      split at h
      · cases h
      · rename_i y hy
        obtain ⟨acts, n⟩ := y
        simp only at h
        split at h
        · cases h
        · rename_i hn
          have : n = 0 := by omega
          subst this
          split at h
          · cases h
          · rename_i acts' ha
            exact ⟨g0, g, sts, acts, acts', hg0, hx, hy, ha, h⟩

end Pomelo
