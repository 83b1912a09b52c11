import Verif.Model.Decl
import Verif.Proofs.Lists
/-! # Invariants of the declaration phase -/

namespace Pomelo

/-! ## Arena access -/

theorem sym_modifySym (g : Grammar) (s : SymbolId) (f : Symbol → Symbol) (x : SymbolId) :
    (g.modifySym s f).sym x = if x = s ∧ s < g.syms.length then f (g.sym x) else g.sym x := by
  unfold Grammar.modifySym Grammar.sym
  simp only [List.getD_eq_getElem?_getD, List.getElem?_modify]
  by_cases hx : x = s
  · subst hx
    by_cases hl : x < g.syms.length
    · simp [hl]
    · simp [hl]
  · have : ¬ s = x := fun e => hx e.symm
    simp [hx, this]

theorem sym_modifySym_ne {g : Grammar} {s x : SymbolId} {f : Symbol → Symbol} (h : x ≠ s) :
    (g.modifySym s f).sym x = g.sym x := by
  rw [sym_modifySym, if_neg (fun hh => h hh.1)]

theorem sym_modifySym_same {g : Grammar} {s : SymbolId} {f : Symbol → Symbol} (h : s < g.syms.length) :
    (g.modifySym s f).sym s = f (g.sym s) := by
  rw [sym_modifySym, if_pos ⟨rfl, h⟩]

@[simp] theorem length_modifySym (g : Grammar) (s : SymbolId) (f : Symbol → Symbol) :
    (g.modifySym s f).syms.length = g.syms.length := by
  simp [Grammar.modifySym]

/-- If `f` keeps some projection, so does the whole update. -/
theorem proj_modifySym {β : Type} (π : Symbol → β) {g : Grammar} {s : SymbolId} {f : Symbol → Symbol}
    (h : ∀ b, π (f b) = π b) (x : SymbolId) : π ((g.modifySym s f).sym x) = π (g.sym x) := by
  rw [sym_modifySym]; split
  · exact h _
  · rfl

/-- The grammar with one more symbol -/
def Grammar.pushSym (g : Grammar) (b : Symbol) : Grammar :=
  { g with syms := g.syms ++ [b], symbols := g.symbols ++ [g.syms.length] }

theorem sym_pushSym_lt {g : Grammar} {b : Symbol} {x : SymbolId} (h : x < g.syms.length) :
    (g.pushSym b).sym x = g.sym x := by
  simp [Grammar.pushSym, Grammar.sym, List.getElem?_append_left h]

theorem sym_pushSym_last {g : Grammar} {b : Symbol} : (g.pushSym b).sym g.syms.length = b := by
  simp [Grammar.pushSym, Grammar.sym]

@[simp] theorem length_pushSym (g : Grammar) (b : Symbol) : (g.pushSym b).syms.length = g.syms.length + 1 := by
  simp [Grammar.pushSym]

/-! ## `symbol_new` -/

/-- What `symbol_new` does to a symbol it finds -/
def touch (k : SymKind) (b : Symbol) : Symbol :=
  { b with
    useCnt := b.useCnt + 1
    kind := if k = .multiTerminal ∧ b.kind = .terminal then .multiTerminal else b.kind }

theorem symbolNew_cases {g : Grammar} (h : g.symbols = List.range g.syms.length) (name : SymName) (k : SymKind) :
    (∃ s, s < g.syms.length ∧ (g.sym s).name = name ∧ name ≠ .anon ∧
      g.symbolNew name k = (g.modifySym s (touch k), s)) ∨
    ((name = .anon ∨ ∀ s, s < g.syms.length → (g.sym s).name ≠ name) ∧
      g.symbolNew name k = (g.pushSym { name := name, kind := k }, g.syms.length)) := by
  unfold Grammar.symbolNew
  by_cases ha : name = .anon
  · right
    simp [ha, Grammar.pushSym]
  · simp only [ha, if_false]
    rcases hf : g.symbolFind name with _ | s
    · right
      refine ⟨.inr ?_, rfl⟩
      intro s hs he
      unfold Grammar.symbolFind at hf
      rw [List.find?_eq_none] at hf
      have := hf s (by rw [h]; exact List.mem_range.2 hs)
      simp [he] at this
    · left
      unfold Grammar.symbolFind at hf
      refine ⟨s, ?_, ?_, ?_, rfl⟩
      · have := List.mem_of_find?_eq_some hf
        rw [h] at this
        exact List.mem_range.1 this
      · have := List.find?_some hf
        simpa using this
      · exact ha

/-! ## The invariant -/

/-- Token names -/
def SymName.isTok : SymName → Bool
  | .ident (.upper _) => true
  | _ => false

/-- Names of nonterminals a user can write -/
def SymName.isNt : SymName → Bool
  | .ident (.lower _) => true
  | .ident .error => true
  | _ => false

/-- Kinds agree with names. -/
def kindOk : SymName → SymKind → Bool
  | .dollar, .terminal => true
  | .dflt, .nonTerminal => true
  | .ident (.upper _), .terminal => true
  | .ident (.upper _), .multiTerminal => true
  | .ident (.lower _), .nonTerminal => true
  | .ident .error, .nonTerminal => true
  | .opt _, .nonTerminal => true
  | .anon, .multiTerminal => true
  | _, _ => false

/-- Invariant of the grammar under construction -/
structure DInv (g : Grammar) : Prop where
  symbols : g.symbols = List.range g.syms.length
  two : 2 ≤ g.syms.length
  dollar : (g.sym 0).name = .dollar
  errName : (g.sym 1).name = .ident .error
  errSym : g.errorSymbol = 1
  names : ∀ i j, i < g.syms.length → j < g.syms.length → (g.sym i).name = (g.sym j).name →
    (g.sym i).name ≠ .anon → i = j
  kinds : ∀ s, s < g.syms.length → kindOk (g.sym s).name (g.sym s).kind = true
  noDflt : ∀ s, s < g.syms.length → (g.sym s).name ≠ .dflt
  plain : ∀ s, s < g.syms.length → (g.sym s).firstSet = [] ∧ (g.sym s).lambda = false
  subs : ∀ s, s < g.syms.length → ∀ m ∈ (g.sym s).subs, m < g.syms.length ∧ (g.sym m).name.isTok = true
  subsKind : ∀ s, s < g.syms.length → (g.sym s).subs ≠ [] → (g.sym s).kind = .multiTerminal
  fb : ∀ s, s < g.syms.length → ∀ f, (g.sym s).fallback = some f →
    f < g.syms.length ∧ (g.sym f).name.isTok = true ∧ (g.sym s).name.isTok = true
  rulesOf : ∀ s, s < g.syms.length →
    (g.sym s).rules = (List.range g.rules.length).filter (fun r => (g.rule r).lhs == s)
  lhs : ∀ r, r < g.rules.length → (g.rule r).lhs < g.syms.length ∧ (g.sym (g.rule r).lhs).name.isNt = true
  rhs : ∀ r, r < g.rules.length → ∀ x ∈ (g.rule r).rhs, x.sym < g.syms.length ∧ (g.sym x.sym).name ≠ .dollar
  precSym : ∀ r, r < g.rules.length → ∀ p, (g.rule r).precSym = some p →
    p < g.syms.length ∧ (g.sym p).name.isTok = true
  fresh : ∀ r, r < g.rules.length → (g.rule r).precedence = none ∧ (g.rule r).lhsStart = false ∧
    (∀ c, (g.rule r).code = some c → ∃ n, c = .user n)
  start : ∀ s, g.start = some s → s < g.syms.length ∧ (g.sym s).name.isNt = true
  wild : ∀ s, g.wildcard = some s → s < g.syms.length ∧ (g.sym s).name.isTok = true
  optKeys : (g.optionals.map Prod.fst).Nodup
  opts : ∀ k a b, g.optionals[k]? = some (a, b) → a < g.syms.length ∧ b < g.syms.length ∧
    ((g.sym a).name.isTok = true ∨ (g.sym a).name.isNt = true) ∧ (g.sym b).name = .opt k
  optNames : ∀ s, s < g.syms.length → ∀ k, (g.sym s).name = .opt k → k < g.optionals.length

/-- Kinds only change from terminal to multi-terminal. -/
def kindLe (a b : SymKind) : Prop := a = b ∨ (a = .terminal ∧ b = .multiTerminal)

/-- The parts of the grammar that later declarations keep -/
structure DLe (g g' : Grammar) : Prop where
  len : g.syms.length ≤ g'.syms.length
  name : ∀ s, s < g.syms.length → (g'.sym s).name = (g.sym s).name
  kind : ∀ s, s < g.syms.length → kindLe (g.sym s).kind (g'.sym s).kind
  subs : ∀ s, s < g.syms.length → (g.sym s).name.isTok = false → (g'.sym s).subs = (g.sym s).subs
  subsPre : ∀ s, s < g.syms.length → (g.sym s).subs <+: (g'.sym s).subs
  rules : g.rules <+: g'.rules
  opts : g.optionals <+: g'.optionals

theorem kindLe.refl (k : SymKind) : kindLe k k := .inl rfl

theorem kindLe.trans {a b c : SymKind} (h1 : kindLe a b) (h2 : kindLe b c) : kindLe a c := by
  rcases h1 with rfl | ⟨rfl, rfl⟩
  · exact h2
  · rcases h2 with rfl | ⟨h, _⟩
    · exact .inr ⟨rfl, rfl⟩
    · cases h

theorem DLe.refl (g : Grammar) : DLe g g :=
  ⟨Nat.le_refl _, fun _ _ => rfl, fun _ _ => .inl rfl, fun _ _ _ => rfl, fun _ _ => List.prefix_refl _,
    List.prefix_refl _, List.prefix_refl _⟩

theorem DLe.trans {a b c : Grammar} (h1 : DLe a b) (h2 : DLe b c) : DLe a c where
  len := Nat.le_trans h1.len h2.len
  name := fun s hs => by rw [h2.name s (Nat.lt_of_lt_of_le hs h1.len), h1.name s hs]
  kind := fun s hs => (h1.kind s hs).trans (h2.kind s (Nat.lt_of_lt_of_le hs h1.len))
  subs := fun s hs ht => by
    rw [h2.subs s (Nat.lt_of_lt_of_le hs h1.len) (by rw [h1.name s hs]; exact ht), h1.subs s hs ht]
  subsPre := fun s hs => (h1.subsPre s hs).trans (h2.subsPre s (Nat.lt_of_lt_of_le hs h1.len))
  rules := h1.rules.trans h2.rules
  opts := h1.opts.trans h2.opts

/-- `g'` differs from `g` in the symbols only. -/
def OnlySyms (g g' : Grammar) : Prop := g' = { g with syms := g'.syms, symbols := g'.symbols }

theorem OnlySyms.refl (g : Grammar) : OnlySyms g g := rfl

theorem OnlySyms.trans {a b c : Grammar} (h1 : OnlySyms a b) (h2 : OnlySyms b c) : OnlySyms a c := by
  unfold OnlySyms at *
  rw [h2]
  rw [h1]

theorem OnlySyms.rule {g g' : Grammar} (h : OnlySyms g g') (r : RuleId) : g'.rule r = g.rule r := by
  unfold OnlySyms at h; rw [h]; rfl
theorem OnlySyms.rules {g g' : Grammar} (h : OnlySyms g g') : g'.rules = g.rules := by
  unfold OnlySyms at h; rw [h]
theorem OnlySyms.optionals {g g' : Grammar} (h : OnlySyms g g') : g'.optionals = g.optionals := by
  unfold OnlySyms at h; rw [h]
theorem OnlySyms.start {g g' : Grammar} (h : OnlySyms g g') : g'.start = g.start := by
  unfold OnlySyms at h; rw [h]
theorem OnlySyms.wildcard {g g' : Grammar} (h : OnlySyms g g') : g'.wildcard = g.wildcard := by
  unfold OnlySyms at h; rw [h]
theorem OnlySyms.errorSymbol {g g' : Grammar} (h : OnlySyms g g') : g'.errorSymbol = g.errorSymbol := by
  unfold OnlySyms at h; rw [h]

theorem OnlySyms.modify (g : Grammar) (s : SymbolId) (f : Symbol → Symbol) : OnlySyms g (g.modifySym s f) := rfl
theorem OnlySyms.push (g : Grammar) (b : Symbol) : OnlySyms g (g.pushSym b) := rfl

/-- A change of one symbol that keeps name, first set, lambda, rules, and keeps kinds, members and
fallbacks reasonable, keeps the invariant. -/
theorem DInv.modify {g : Grammar} (h : DInv g) {s : SymbolId} {f : Symbol → Symbol}
    (hname : ∀ b, (f b).name = b.name) (hfirst : ∀ b, (f b).firstSet = b.firstSet)
    (hlam : ∀ b, (f b).lambda = b.lambda) (hrules : ∀ b, (f b).rules = b.rules)
    (hkind : s < g.syms.length → kindOk (g.sym s).name (f (g.sym s)).kind = true)
    (hsubs : s < g.syms.length → ∀ m ∈ (f (g.sym s)).subs, m < g.syms.length ∧ (g.sym m).name.isTok = true)
    (hsk : s < g.syms.length → (f (g.sym s)).subs ≠ [] → (f (g.sym s)).kind = .multiTerminal)
    (hfb : s < g.syms.length → ∀ x, (f (g.sym s)).fallback = some x →
      x < g.syms.length ∧ (g.sym x).name.isTok = true ∧ (g.sym s).name.isTok = true) :
    DInv (g.modifySym s f) := by
  have hn : ∀ x, ((g.modifySym s f).sym x).name = (g.sym x).name := proj_modifySym Symbol.name hname
  have hcase : ∀ x, x < g.syms.length → (x = s ∧ s < g.syms.length ∧ (g.modifySym s f).sym x = f (g.sym s)) ∨
      (g.modifySym s f).sym x = g.sym x := by
    intro x hx
    by_cases e : x = s
    · subst e; exact .inl ⟨rfl, hx, sym_modifySym_same hx⟩
    · exact .inr (sym_modifySym_ne e)
  constructor
  · exact h.symbols.trans (by rw [length_modifySym])
  · simpa using h.two
  · rw [hn]; exact h.dollar
  · rw [hn]; exact h.errName
  · exact h.errSym
  · intro i j hi hj; rw [hn, hn]; exact h.names i j (by simpa using hi) (by simpa using hj)
  · intro x hx
    rw [length_modifySym] at hx
    rw [hn]
    rcases hcase x hx with ⟨rfl, h1, h2⟩ | h2
    · rw [h2]; exact hkind h1
    · rw [h2]; exact h.kinds x hx
  · intro x hx; rw [hn]; exact h.noDflt x (by simpa using hx)
  · intro x hx
    rw [proj_modifySym Symbol.firstSet hfirst, proj_modifySym Symbol.lambda hlam]
    exact h.plain x (by simpa using hx)
  · intro x hx m hm
    rw [length_modifySym] at hx ⊢
    rw [hn]
    rcases hcase x hx with ⟨rfl, h1, h2⟩ | h2
    · rw [h2] at hm; exact hsubs h1 m hm
    · rw [h2] at hm; exact h.subs x hx m hm
  · intro x hx
    rw [length_modifySym] at hx
    rcases hcase x hx with ⟨rfl, h1, h2⟩ | h2
    · rw [h2]; exact hsk h1
    · rw [h2]; exact h.subsKind x hx
  · intro x hx y hy
    rw [length_modifySym] at hx ⊢
    rw [hn, hn]
    rcases hcase x hx with ⟨rfl, h1, h2⟩ | h2
    · rw [h2] at hy; exact hfb h1 y hy
    · rw [h2] at hy; exact h.fb x hx y hy
  · intro x hx
    rw [proj_modifySym Symbol.rules hrules]
    exact h.rulesOf x (by simpa using hx)
  · intro r hr; rw [length_modifySym, hn]; exact h.lhs r hr
  · intro r hr x hx; rw [length_modifySym, hn]; exact h.rhs r hr x hx
  · intro r hr x hx; rw [length_modifySym, hn]; exact h.precSym r hr x hx
  · exact h.fresh
  · intro x hx; rw [length_modifySym, hn]; exact h.start x hx
  · intro x hx; rw [length_modifySym, hn]; exact h.wild x hx
  · exact h.optKeys
  · intro k a b hk; rw [length_modifySym, hn, hn]; exact h.opts k a b hk
  · intro x hx k hk; rw [hn] at hk; exact h.optNames x (by simpa using hx) k hk

/-- Changes that `DInv` does not even look at -/
theorem DInv.modify_other {g : Grammar} (h : DInv g) {s : SymbolId} {f : Symbol → Symbol}
    (hname : ∀ b, (f b).name = b.name) (hfirst : ∀ b, (f b).firstSet = b.firstSet)
    (hlam : ∀ b, (f b).lambda = b.lambda) (hrules : ∀ b, (f b).rules = b.rules)
    (hkind : ∀ b, (f b).kind = b.kind) (hsubs : ∀ b, (f b).subs = b.subs)
    (hfb : ∀ b, (f b).fallback = b.fallback) : DInv (g.modifySym s f) := by
  apply h.modify hname hfirst hlam hrules
  · intro hs; rw [hkind]; exact h.kinds s hs
  · intro hs; rw [hsubs]; exact h.subs s hs
  · intro hs; rw [hsubs, hkind]; exact h.subsKind s hs
  · intro hs; rw [hfb]; exact h.fb s hs

theorem DLe.modify {g : Grammar} {s : SymbolId} {f : Symbol → Symbol}
    (hname : ∀ b, (f b).name = b.name)
    (hkind : ∀ b, kindLe b.kind (f b).kind)
    (hsubs : (g.sym s).name.isTok = false → (f (g.sym s)).subs = (g.sym s).subs)
    (hpre : (g.sym s).subs <+: (f (g.sym s)).subs) :
    DLe g (g.modifySym s f) where
  len := by simp
  name := fun x _ => proj_modifySym Symbol.name hname x
  kind := fun x hx => by
    rw [sym_modifySym]; split
    · exact hkind _
    · exact .inl rfl
  subs := fun x hx ht => by
    rw [sym_modifySym]; split
    · rename_i hh; obtain ⟨rfl, _⟩ := hh; exact hsubs ht
    · rfl
  subsPre := fun x hx => by
    rw [sym_modifySym]; split
    · rename_i hh; obtain ⟨rfl, _⟩ := hh; exact hpre
    · exact List.prefix_refl _
  rules := List.prefix_refl _
  opts := List.prefix_refl _

theorem DLe.modify_other {g : Grammar} {s : SymbolId} {f : Symbol → Symbol}
    (hname : ∀ b, (f b).name = b.name) (hkind : ∀ b, (f b).kind = b.kind) (hsubs : ∀ b, (f b).subs = b.subs) :
    DLe g (g.modifySym s f) :=
  DLe.modify hname (fun b => .inl (hkind b).symm) (fun _ => hsubs _) (by rw [hsubs]; exact List.prefix_refl _)

theorem DInv.push {g : Grammar} (h : DInv g) {name : SymName} {k : SymKind}
    (hnew : name = .anon ∨ ∀ s, s < g.syms.length → (g.sym s).name ≠ name)
    (hk : kindOk name k = true) (hd : name ≠ .dflt) (hopt : ∀ n, name ≠ .opt n) :
    DInv (g.pushSym { name := name, kind := k }) := by
  have hcase : ∀ x, x < g.syms.length + 1 → (x < g.syms.length ∧ (g.pushSym { name := name, kind := k }).sym x = g.sym x) ∨
      (x = g.syms.length ∧ (g.pushSym { name := name, kind := k }).sym x = { name := name, kind := k }) := by
    intro x hx
    by_cases e : x < g.syms.length
    · exact .inl ⟨e, sym_pushSym_lt e⟩
    · have : x = g.syms.length := by omega
      subst this; exact .inr ⟨rfl, sym_pushSym_last⟩
  have hlt : ∀ x, x < g.syms.length → (g.pushSym { name := name, kind := k }).sym x = g.sym x :=
    fun x hx => sym_pushSym_lt hx
  have h2 := h.two
  constructor
  · rw [length_pushSym, List.range_succ, ← h.symbols]; rfl
  · simp; omega
  · rw [hlt 0 (by omega)]; exact h.dollar
  · rw [hlt 1 (by omega)]; exact h.errName
  · exact h.errSym
  · intro i j hi hj he hne
    rw [length_pushSym] at hi hj
    rcases hcase i hi with ⟨hi', ei⟩ | ⟨hi', ei⟩ <;> rcases hcase j hj with ⟨hj', ej⟩ | ⟨hj', ej⟩ <;>
      rw [ei] at he hne <;> rw [ej] at he
    · exact h.names i j hi' hj' he hne
    · rcases hnew with hh | hh
      · rw [he] at hne; exact absurd hh hne
      · exact absurd he (hh i hi')
    · rcases hnew with hh | hh
      · exact absurd hh hne
      · exact absurd he.symm (hh j hj')
    · omega
  · intro x hx
    rw [length_pushSym] at hx
    rcases hcase x hx with ⟨_, e⟩ | ⟨_, e⟩ <;> rw [e]
    · exact h.kinds x ‹_›
    · exact hk
  · intro x hx
    rw [length_pushSym] at hx
    rcases hcase x hx with ⟨_, e⟩ | ⟨_, e⟩ <;> rw [e]
    · exact h.noDflt x ‹_›
    · exact hd
  · intro x hx
    rw [length_pushSym] at hx
    rcases hcase x hx with ⟨_, e⟩ | ⟨_, e⟩ <;> rw [e]
    · exact h.plain x ‹_›
    · exact ⟨rfl, rfl⟩
  · intro x hx m hm
    rw [length_pushSym] at hx ⊢
    rcases hcase x hx with ⟨hx', e⟩ | ⟨_, e⟩ <;> rw [e] at hm
    · have := h.subs x hx' m hm
      rw [hlt m this.1]; exact ⟨Nat.lt_succ_of_lt this.1, this.2⟩
    · simp at hm
  · intro x hx
    rw [length_pushSym] at hx
    rcases hcase x hx with ⟨_, e⟩ | ⟨_, e⟩ <;> rw [e]
    · exact h.subsKind x ‹_›
    · intro hh; exact absurd rfl hh
  · intro x hx y hy
    rw [length_pushSym] at hx ⊢
    rcases hcase x hx with ⟨hx', e⟩ | ⟨_, e⟩ <;> rw [e] at hy
    · have := h.fb x hx' y hy
      rw [hlt y this.1, e]; exact ⟨Nat.lt_succ_of_lt this.1, this.2⟩
    · simp at hy
  · intro x hx
    rw [length_pushSym] at hx
    rcases hcase x hx with ⟨_, e⟩ | ⟨hx', e⟩ <;> rw [e]
    · exact h.rulesOf x ‹_›
    · symm
      show List.filter _ _ = []
      rw [List.filter_eq_nil_iff]
      intro r hr
      have hr : r < g.rules.length := List.mem_range.1 hr
      have := (h.lhs r hr).1
      have hru : (g.pushSym { name := name, kind := k }).rule r = g.rule r := rfl
      rw [hru, hx']
      simp only [beq_iff_eq]
      exact Nat.ne_of_lt this
  · intro r hr
    have := h.lhs r hr
    rw [length_pushSym]
    have hru : (g.pushSym { name := name, kind := k }).rule r = g.rule r := rfl
    rw [hru, hlt _ this.1]; exact ⟨Nat.lt_succ_of_lt this.1, this.2⟩
  · intro r hr x hx
    have := h.rhs r hr x hx
    rw [length_pushSym, hlt _ this.1]; exact ⟨Nat.lt_succ_of_lt this.1, this.2⟩
  · intro r hr x hx
    have := h.precSym r hr x hx
    rw [length_pushSym, hlt _ this.1]; exact ⟨Nat.lt_succ_of_lt this.1, this.2⟩
  · exact h.fresh
  · intro x hx
    have := h.start x hx
    rw [length_pushSym, hlt _ this.1]; exact ⟨Nat.lt_succ_of_lt this.1, this.2⟩
  · intro x hx
    have := h.wild x hx
    rw [length_pushSym, hlt _ this.1]; exact ⟨Nat.lt_succ_of_lt this.1, this.2⟩
  · exact h.optKeys
  · intro i a b hk
    have := h.opts i a b hk
    rw [length_pushSym, hlt _ this.1, hlt _ this.2.1]
    exact ⟨Nat.lt_succ_of_lt this.1, Nat.lt_succ_of_lt this.2.1, this.2.2⟩
  · intro x hx i hi
    rw [length_pushSym] at hx
    rcases hcase x hx with ⟨hx', e⟩ | ⟨hx', e⟩ <;> rw [e] at hi
    · exact h.optNames x hx' i hi
    · exact absurd hi (hopt i)

theorem DLe.push (g : Grammar) (b : Symbol) : DLe g (g.pushSym b) where
  len := by simp
  name := fun x hx => by rw [sym_pushSym_lt hx]
  kind := fun x hx => by rw [sym_pushSym_lt hx]; exact .inl rfl
  subs := fun x hx _ => by rw [sym_pushSym_lt hx]
  subsPre := fun x hx => by rw [sym_pushSym_lt hx]; exact List.prefix_refl _
  rules := List.prefix_refl _
  opts := List.prefix_refl _

/-- Names a user can write together with the kind asked for -/
def askOk : SymName → SymKind → Bool
  | .ident (.upper _), .terminal => true
  | .ident (.upper _), .multiTerminal => true
  | .ident (.lower _), .nonTerminal => true
  | .ident .error, .nonTerminal => true
  | .anon, .multiTerminal => true
  | _, _ => false

theorem kindOk_touch {n : SymName} {k k' : SymKind} (h : kindOk n k = true) (ha : askOk n k' = true) :
    kindOk n (if k' = .multiTerminal ∧ k = .terminal then .multiTerminal else k) = true := by
  split
  · rename_i hh
    obtain ⟨rfl, rfl⟩ := hh
    revert h ha; unfold kindOk askOk
    split <;> simp
  · exact h

theorem kindOk_of_askOk {n : SymName} {k : SymKind} (ha : askOk n k = true) : kindOk n k = true := by
  revert ha; unfold kindOk askOk; split <;> simp

/-- `symbol_new` keeps the invariant and returns a symbol of the name asked for. -/
theorem DInv.symbolNew {g : Grammar} (h : DInv g) {name : SymName} {k : SymKind} (hk : askOk name k = true) :
    DInv (g.symbolNew name k).1 ∧ DLe g (g.symbolNew name k).1 ∧
    (g.symbolNew name k).2 < (g.symbolNew name k).1.syms.length ∧
    ((g.symbolNew name k).1.sym (g.symbolNew name k).2).name = name ∧
    OnlySyms g (g.symbolNew name k).1 := by
  have hd : name ≠ .dflt := by rintro rfl; simp [askOk] at hk
  have ho : ∀ n, name ≠ .opt n := by rintro n rfl; simp [askOk] at hk
  rcases symbolNew_cases h.symbols name k with ⟨s, hs, hn, ha, he⟩ | ⟨hnew, he⟩ <;> rw [he]
  · refine ⟨?_, ?_, by simpa using hs, ?_, rfl⟩
    · apply h.modify
      · intro b; rfl
      · intro b; rfl
      · intro b; rfl
      · intro b; rfl
      · intro _
        refine kindOk_touch (h.kinds s hs) ?_
        rw [hn]; exact hk
      · intro _; exact h.subs s hs
      · intro _ hne
        have := h.subsKind s hs hne
        simp [touch, this]
      · intro _; exact h.fb s hs
    · apply DLe.modify
      · intro b; rfl
      · intro b
        unfold touch
        simp only
        split
        · rename_i hh; exact .inr ⟨hh.2, rfl⟩
        · exact .inl rfl
      · intro _; rfl
      · exact List.prefix_refl _
    · show ((g.modifySym s (touch k)).sym s).name = name
      rw [sym_modifySym_same hs]; exact hn
  · refine ⟨h.push hnew (kindOk_of_askOk hk) hd ho, DLe.push _ _, by simp, ?_, rfl⟩
    show ((g.pushSym _).sym g.syms.length).name = name
    rw [sym_pushSym_last]

end Pomelo
