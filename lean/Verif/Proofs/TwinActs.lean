import Verif.Proofs.TwinOpt
import Verif.Proofs.MacroPanics
import Verif.Proofs.Marked
import Verif.Props.Order
import Mathlib.Data.Prod.Lex
/-! # The actions of the other automaton: conflicts and compression -/

namespace Pomelo

open Spec

/-! ## Sorting -/

theorem insertRev_map {α β : Type} {lt : α → α → Bool} {lt' : β → β → Bool} {f : α → β} {x : α} : ∀ {l : List α}, (∀ y ∈ l, lt' (f x) (f y) = lt x y) →
    insertRev lt' (f x) (l.map f) = (insertRev lt x l).map f := by
  intro l
  induction l with
  | nil => intro _; rfl
  | cons y l ih =>
    intro h
    rw [List.map_cons]
    unfold insertRev
    rw [h y List.mem_cons_self]
    split
    · rw [List.map_cons, ih (fun z hz => h z (List.mem_cons_of_mem _ hz))]
    · rfl

/-- Sorting renamed elements -/
theorem sortBy_map {α β : Type} {lt : α → α → Bool} {lt' : β → β → Bool} {f : α → β} {l : List α} (h : ∀ a ∈ l, ∀ b ∈ l, lt' (f a) (f b) = lt a b) :
    sortBy lt' (l.map f) = (sortBy lt l).map f := by
  unfold sortBy
  rw [List.map_reverse]
  congr 1
  suffices H : ∀ (xs acc : List α), (∀ a ∈ xs, a ∈ l) → (∀ a ∈ acc, a ∈ l) → (xs.map f).foldl (fun acc x => insertRev lt' x acc) (acc.map f) =
      (xs.foldl (fun acc x => insertRev lt x acc) acc).map f from H l [] (fun _ h => h) (fun a h => by cases h)
  intro xs
  induction xs with
  | nil => intro acc _ _; rfl
  | cons x xs ih =>
    intro acc h1 h2
    rw [List.map_cons, List.foldl_cons, List.foldl_cons, insertRev_map (fun y hy => h x (h1 x List.mem_cons_self) y (h2 y hy))]
    refine ih _ (fun a ha => h1 a (List.mem_cons_of_mem _ ha)) (fun a ha => ?_)
    rcases List.mem_cons.1 ((perm_insertRev lt x acc).mem_iff.1 ha) with rfl | h3
    · exact h1 _ List.mem_cons_self
    · exact h2 a h3

/-- Sorting by a key that tells the elements apart does not depend on the order they come in. -/
theorem sortBy_perm {α κ : Type} [LinearOrder κ] {lt : α → α → Bool} (key : α → κ) {l l' : List α} (hp : l.Perm l')
    (h : ∀ a ∈ l, ∀ b ∈ l, (lt a b = true ↔ key a < key b)) (hk : ∀ a ∈ l, ∀ b ∈ l, key a = key b → a = b) : sortBy lt l = sortBy lt l' := by
  have e : ∀ m : List α, m.Perm l → sortBy lt m = sortBy (fun a b => decide (key a < key b)) m := by
    intro m hm
    have := sortBy_map (f := id) (lt := fun a b => decide (key a < key b)) (lt' := lt) (l := m) (by
      intro a ha b hb
      have := h a (hm.mem_iff.1 ha) b (hm.mem_iff.1 hb)
      simp only [id]
      rw [Bool.eq_iff_iff, this, decide_eq_true_eq])
    simpa using this
  have hs : ∀ m : List α, (sortBy (fun a b => decide (key a < key b)) m).Pairwise (fun a b => key a ≤ key b) := by
    intro m
    apply pairwise_sortBy
    · intro a b c h1 h2; exact le_trans h1 h2
    · intro a b h; exact le_of_lt (by simpa using h)
    · intro a b h; exact not_lt.1 (by simpa using h)
  rw [e l (List.Perm.refl _), e l' hp.symm]
  refine List.Perm.eq_of_pairwise (le := fun a b => key a ≤ key b) ?_ (hs l) (hs l') ((perm_sortBy _ l).trans (hp.trans (perm_sortBy _ l').symm))
  intro a b ha hb h1 h2
  have ha' := mem_sortBy.1 ha
  have hb' := hp.mem_iff.2 (mem_sortBy.1 hb)
  exact hk a ha' b hb' (le_antisymm h1 h2)

variable {g g' : Grammar} {sts sts' : List LState}

/-- What a pair of automata of one grammar without conflicts satisfies besides -/
structure Twin.Fit (T : Twin g g' sts sts') : Prop where
  frame : g'.frame = g.frame
  subs : ∀ q X k, g.Trans sts q X k → (g.sym X).subs.Nodup
  one : ∀ q s k k', g.CanShift sts q s k → g.CanShift sts q s k' → k = k'
  mono : ∀ q s (r r' : Nat), q < sts.length → g.CanReduce sts q s r → g.CanReduce sts q s r' → (T.R.σ r < T.R.σ r' ↔ r < r')
  flag : ∀ r, r < g.rules.length → (g'.rule (T.R.σ r)).lhsStart = (g.rule r).lhsStart

theorem start_flag {ord : List (SymbolId × SymbolId) → List (SymbolId × SymbolId)} {ds : List Decl} (ho : OrdOk ord) {g0 : Grammar}
    (h0 : newFromDecls ds = .ok g0) (h1 : g0.automaton ord = .ok (g, sts)) {r : RuleId} (hr : r < g.rules.length) :
    (g.rule r).lhsStart = decide ((g.rule r).lhs = g.start.getD 0) := by
  have hi := GInv.automaton h0 ho h1
  rw [Bool.eq_iff_iff, decide_eq_true_eq]
  constructor
  · exact start_of_lhsStart ho h0 h1
  · intro hl
    obtain ⟨s⟩ := automaton_spec h1
    have hsh := markStart_shape s.gF (s.gF.start.getD 0)
    rw [← s.marked] at hsh
    have hst : g.start = s.gF.start := (congrArg Grammar.start s.marked).trans (by unfold Grammar.markStart; split <;> rfl)
    have hk : (s.gF.sym (s.gF.start.getD 0)).kind = .nonTerminal := by rw [← hsh.kind, ← hst]; exact hi.start_kind.1
    have hrl : r < s.gF.rules.length := by rw [← hsh.rlen]; exact hr
    have hmem : r ∈ (s.gF.sym (s.gF.start.getD 0)).rules := by
      have e : (g.sym (g.start.getD 0)).rules = (s.gF.sym (g.start.getD 0)).rules := congrArg (·.2.2.2.1) (hsh.core (g.start.getD 0))
      rw [← hst, ← e, hi.rulesOf _ hi.start_kind.2.1]
      exact List.mem_filter.2 ⟨List.mem_range.2 hr, by simpa using hl⟩
    have := markStart_flag hk hmem hrl
    rw [← s.marked] at this
    exact this

/-- The two automata for two orders of the optional symbols, if one of them has no conflicts -/
theorem fit_exists {ord ord' : List (SymbolId × SymbolId) → List (SymbolId × SymbolId)} {ds : List Decl} (ho : OrdOk ord) (ho' : OrdOk ord') {g0 : Grammar}
    (h0 : newFromDecls ds = .ok g0) (h : g0.automaton ord = .ok (g, sts)) (h' : g0.automaton ord' = .ok (g', sts')) {acts : List (List Action)}
    (h2 : g.findActions sts = .ok (acts, 0)) :
    ∃ T : Twin g g' sts sts', T.Fit ∧ ∀ r, r < (rulesOf ds).length → T.R.σ r = r := by
  have hi := GInv.automaton h0 ho h
  have ha := automaton_auto ho h0 h
  have hi' := GInv.automaton h0 ho' h'
  have ha' := automaton_auto ho' h0 h'
  obtain ⟨b⟩ := bridge ho h0 h
  obtain ⟨⟨R, hR⟩, _⟩ := renumbered_of ho ho' h0 h h'
  obtain ⟨T, rfl⟩ := twin_exists R hi ha hi' ha'
  have hs := findActions_spec hi ha b.levels b.noStart h2
  refine ⟨T, ⟨frame_automata ho ho' h0 h h', fun q X k => subs_nodup hi ha b.levels b.noStart h2, ?_, ?_, ?_⟩, fun r hr => (hR r hr).1⟩
  · intro q s k k' c1 c2
    obtain ⟨X, c0, _⟩ := id c1
    obtain ⟨sh, rd, e1, _, hout⟩ := hs.out q c0.src s (.inr (c1.ne_start hi ha b.noStart))
    have := hout.short
    have m1 := (e1 k).2 c1
    have m2 := (e1 k').2 c2
    cases sh with
    | nil => cases m1
    | cons x l =>
      cases l with
      | nil => rw [List.mem_singleton] at m1 m2; rw [m1, m2]
      | cons _ _ => simp at this
  · intro q s r r' hq c1 c2
    have hr : r < g.rules.length := ha.item_rule hi hq (LA_item hi ha c1.2.2).2
    have hr' : r' < g.rules.length := ha.item_rule hi hq (LA_item hi ha c2.2.2).2
    have up : ∀ x : Nat, x < g.rules.length → (rulesOf ds).length ≤ x → (rulesOf ds).length ≤ T.R.σ x := by
      intro x hx hn
      by_contra hlt
      have h1 := (hR _ (Nat.lt_of_not_le hlt)).2
      rw [(T.R.rule x hx).2.2] at h1
      rw [← h1] at hlt
      exact hlt hn
    rcases Nat.lt_or_ge r (rulesOf ds).length with a | a <;> rcases Nat.lt_or_ge r' (rulesOf ds).length with c | c
    · rw [(hR r a).1, (hR r' c).1]
    · rw [(hR r a).1]
      exact ⟨fun _ => Nat.lt_of_lt_of_le a c, fun _ => Nat.lt_of_lt_of_le a (up r' hr' c)⟩
    · rw [(hR r' c).1]
      exact ⟨fun hlt => absurd (Nat.lt_of_lt_of_le hlt (Nat.le_of_lt c)) (Nat.not_lt.2 (up r hr a)),
        fun hlt => absurd (Nat.lt_of_lt_of_le hlt (Nat.le_of_lt c)) (Nat.not_lt.2 a)⟩
    · have := unwritten_alone ho b hi ha hs c1 c2 hq a c
      subst this
      simp
  · intro r hr
    obtain ⟨k1, k2, _⟩ := T.R.rule r hr
    rw [start_flag ho' h0 h' k1, start_flag ho h0 h hr, T.R.lhs hr, T.R.start]

/-- The number in an action -/
def Detail.number : Detail → Nat
  | .shift k => k
  | .reduce r => r
  | _ => 0

/-- What the actions are sorted by as long as they are shifts, reduces and the accept -/
def Grammar.sortKey (g : Grammar) (a : Action) : Nat ×ₗ Nat ×ₗ Nat := toLex ((g.sym a.la).index, toLex (a.detail.rank, a.detail.number))

theorem actionLt_key {a b : Action} (h : a.detail.rank < 3) (h' : b.detail.rank < 3) : g.actionLt a b = true ↔ g.sortKey a < g.sortKey b := by
  unfold Grammar.actionLt Grammar.sortKey
  rw [Prod.Lex.toLex_lt_toLex, Prod.Lex.toLex_lt_toLex]
  simp only [Bool.or_eq_true, decide_eq_true_eq, Bool.and_eq_true, beq_iff_eq]
  have : a.detail.lt b.detail = true ↔ a.detail.rank < b.detail.rank ∨ a.detail.rank = b.detail.rank ∧ a.detail.number < b.detail.number := by
    revert h h'
    cases a.detail <;> cases b.detail <;> simp [Detail.lt, Detail.rank, Detail.number]
  rw [this]

theorem sortKey_inj {a b : Action} (hi : GInv g) (hla : a.la < g.syms.length) (hlb : b.la < g.syms.length) (h : a.detail.rank < 3) (h' : b.detail.rank < 3)
    (e : g.sortKey a = g.sortKey b) : a = b := by
  unfold Grammar.sortKey at e
  have e1 := congrArg (fun x => (ofLex x).1) e
  have e2 := congrArg (fun x => (ofLex (ofLex x).2).1) e
  have e3 := congrArg (fun x => (ofLex (ofLex x).2).2) e
  simp only [ofLex_toLex] at e1 e2 e3
  have h1 := hi.index_inj hla hlb e1
  have h2 : a.detail = b.detail := by
    revert h h' e2 e3
    cases a.detail <;> cases b.detail <;> simp [Detail.rank, Detail.number]
  cases a; cases b
  simp only at h1 h2
  rw [h1, h2]

theorem raw_la (hi : GInv g) (ha : Auto g sts) {q : StateId} (hq : q < sts.length) : ∀ a ∈ g.rawActions q (sts.getD q default), a.la < g.syms.length ∧ a.detail.rank < 3 := by
  intro a h
  rw [mem_rawActions hi ha hq] at h
  rcases h with ⟨k, h, e⟩ | ⟨r, h, e⟩ | ⟨h, e⟩
  · obtain ⟨X, hX, hm⟩ := h
    obtain ⟨r, hr, hx⟩ := hX.rhs hi ha
    have hXl := (hi.rhs r hr X hx).1
    refine ⟨?_, by rw [e]; simp [Detail.rank]⟩
    rcases (mem_shiftActions.1 hm).2 with ⟨_, h1⟩ | ⟨_, h1⟩
    · exact (hi.subs X hXl _ h1).1
    · have h1 : a.la = X := h1
      rw [h1]; exact hXl
  · exact ⟨h.1, by rw [e]; simp [Detail.rank]⟩
  · exact ⟨by rw [e]; exact hi.start_kind.2.1, by rw [e]; simp [Detail.rank]⟩

/-- No token is shifted to two states, so the sort does not compare shifts on one token. -/
theorem selfShift_false (hi : GInv g) (hA : Auto g sts) {q : StateId} (hq : q < sts.length) (hsub : ∀ X k, g.Trans sts q X k → (g.sym X).subs.Nodup)
    (hone : ∀ s k k', g.CanShift sts q s k → g.CanShift sts q s k' → k = k') {p : StateId} : selfShift p (g.rawActions q (sts.getD q default)) = false := by
  have hnd := nodup_raw hi hA hq hsub
  rw [Bool.eq_false_iff]
  intro h
  unfold selfShift at h
  rw [List.any_eq_true] at h
  obtain ⟨a, ha, h⟩ := h
  rw [Bool.and_eq_true, decide_eq_true_eq, decide_eq_true_eq] at h
  obtain ⟨_, h⟩ := h
  generalize hL : (g.rawActions q (sts.getD q default)).filter (fun b => b.la = a.la && (match b.detail with | .shift _ => true | _ => false)) = L at h
  have hLn : L.Nodup := by rw [← hL]; exact hnd.filter _
  have hmem : ∀ b ∈ L, b.la = a.la ∧ ∃ k, b.detail = .shift k ∧ g.CanShift sts q a.la k := by
    intro b hb
    rw [← hL, List.mem_filter, Bool.and_eq_true, decide_eq_true_eq] at hb
    obtain ⟨h1, h2, h3⟩ := hb
    refine ⟨h2, ?_⟩
    rw [mem_rawActions hi hA hq] at h1
    rcases h1 with ⟨k, h1, e⟩ | ⟨r, h1, e⟩ | ⟨_, e⟩
    · exact ⟨k, e, h2 ▸ h1⟩
    · rw [e] at h3; cases h3
    · rw [e] at h3; cases h3
  match L, hLn, hmem, h with
  | [], _, _, h => simp at h
  | [_], _, _, h => simp at h
  | b :: c :: L, hLn, hmem, _ =>
    obtain ⟨b1, k, b2, b3⟩ := hmem b List.mem_cons_self
    obtain ⟨c1, k', c2, c3⟩ := hmem c (List.mem_cons_of_mem _ List.mem_cons_self)
    have hk := hone _ _ _ b3 c3
    have : b = c := by
      cases b; cases c
      simp only at b1 b2 c1 c2
      rw [b1, b2, c1, c2, hk]
    rw [this] at hLn
    simp at hLn

namespace Twin
variable (T : Twin g g' sts sts') (F : T.Fit)

/-! ## What does not depend on the rules -/

section
include F

theorem fsym (x : SymbolId) : (g'.sym x).frame = (g.sym x).frame := (frame_iff.1 F.frame).2.2 x

theorem index (x : SymbolId) : (g'.sym x).index = (g.sym x).index := by have := congrArg Symbol.index (T.fsym F x); exact this
theorem prec (x : SymbolId) : (g'.sym x).precedence = (g.sym x).precedence := by have := congrArg Symbol.precedence (T.fsym F x); exact this
theorem fallback (x : SymbolId) : (g'.sym x).fallback = (g.sym x).fallback := by have := congrArg Symbol.fallback (T.fsym F x); exact this
theorem fname (x : SymbolId) : (g'.sym x).name = (g.sym x).name := by have := congrArg Symbol.name (T.fsym F x); exact this
theorem fkind (x : SymbolId) : (g'.sym x).kind = (g.sym x).kind := by have := congrArg Symbol.kind (T.fsym F x); exact this
theorem hasFallback : g'.hasFallback = g.hasFallback := by have := congrArg Grammar.hasFallback F.frame; exact this
theorem wildcard : g'.wildcard = g.wildcard := by have := congrArg Grammar.wildcard F.frame; exact this
theorem symbols : g'.symbols = g.symbols := by have := congrArg Grammar.symbols F.frame; exact this
theorem numTerminals : g'.numTerminals = g.numTerminals := by have := congrArg Grammar.numTerminals F.frame; exact this
theorem defaultIndex : g'.defaultIndex = g.defaultIndex := by have := congrArg Grammar.defaultIndex F.frame; exact this

end

/-! ## Actions that mean the same -/

/-- The numbers in the action are those of rules and states. -/
def Ok (_T : Twin g g' sts sts') (a : Action) : Prop := (∀ r, a.detail = .reduce r → r < g.rules.length) ∧ ∀ k, a.detail = .shift k → k < sts.length

/-- A list of actions in which the renaming respects the order -/
structure Tame (T : Twin g g' sts sts') (l : List Action) : Prop where
  ok : ∀ a ∈ l, T.Ok a
  shift : ∀ a ∈ l, ∀ b ∈ l, (g.sym a.la).index = (g.sym b.la).index → ∀ k k', a.detail = .shift k → b.detail = .shift k' → k = k'
  reduce : ∀ a ∈ l, ∀ b ∈ l, (g.sym a.la).index = (g.sym b.la).index → ∀ r r' : Nat, a.detail = .reduce r → b.detail = .reduce r' →
    (T.R.σ r < T.R.σ r' ↔ r < r')

theorem Tame.of_mem {l l' : List Action} (h : T.Tame l) (hm : ∀ a ∈ l', a ∈ l) : T.Tame l' :=
  ⟨fun a ha => h.ok a (hm a ha), fun a ha b hb => h.shift a (hm a ha) b (hm b hb), fun a ha b hb => h.reduce a (hm a ha) b (hm b hb)⟩

/-- Every action of the first list is one of the second, or out of the game. -/
def Under (l' l : List Action) : Prop := ∀ a ∈ l', ∃ b ∈ l, Kept b a

theorem Under.of_kept {l l' : List Action} (h : List.Forall₂ Kept l l') : Under l' l := by
  intro a ha
  obtain ⟨i, hi⟩ := List.getElem?_of_mem ha
  rcases forall₂_getElem? h i with ⟨_, h2⟩ | ⟨b, c, h1, h2, h3⟩
  · rw [hi] at h2; cases h2
  · rw [hi] at h2
    cases h2
    exact ⟨b, List.mem_of_getElem? h1, h3⟩

theorem Tame.under {l l' : List Action} (h : T.Tame l) (hu : Under l' l) : T.Tame l' := by
  have key : ∀ a ∈ l', a ∈ l ∨ a.detail.dead := by
    intro a ha
    obtain ⟨b, hb, hk⟩ := hu a ha
    rcases hk with rfl | ⟨_, hd⟩
    · exact .inl hb
    · exact .inr hd
  refine ⟨fun a ha => ?_, fun a ha b hb he k k' e1 e2 => ?_, fun a ha b hb he k k' e1 e2 => ?_⟩
  · rcases key a ha with h1 | h1
    · exact h.ok a h1
    · exact ⟨fun r e => absurd e (h1.2 r), fun k e => absurd e (h1.1 k)⟩
  · rcases key a ha with h1 | h1
    · rcases key b hb with h2 | h2
      · exact h.shift a h1 b h2 he k k' e1 e2
      · exact absurd e2 (h2.1 _)
    · exact absurd e1 (h1.1 _)
  · rcases key a ha with h1 | h1
    · rcases key b hb with h2 | h2
      · exact h.reduce a h1 b h2 he k k' e1 e2
      · exact absurd e2 (h2.2 _)
    · exact absurd e1 (h1.2 _)

theorem detail_lt {d e : Detail} (h1 : ∀ k k', d = .shift k → e = .shift k' → k = k') (h2 : ∀ r r' : Nat, d = .reduce r → e = .reduce r' → (T.R.σ r < T.R.σ r' ↔ r < r')) :
    (T.detail d).lt (T.detail e) = d.lt e := by
  cases d <;> cases e <;> try rfl
  · rename_i k k'
    have := h1 k k' rfl rfl
    subst this
    simp [detail, Detail.lt]
  · rename_i r r'
    have := h2 r r' rfl rfl
    simp only [detail, Detail.lt]
    rw [Bool.eq_iff_iff, decide_eq_true_eq, decide_eq_true_eq]
    exact this

section
include F

theorem actionLt {l : List Action} (h : T.Tame l) : ∀ a ∈ l, ∀ b ∈ l, g'.actionLt (T.ren a) (T.ren b) = g.actionLt a b := by
  intro a ha b hb
  unfold Grammar.actionLt
  simp only [ren, T.index F]
  by_cases he : (g.sym a.la).index = (g.sym b.la).index
  · rw [T.detail_lt (h.shift a ha b hb he) (h.reduce a ha b hb he)]
  · have : ((g.sym a.la).index == (g.sym b.la).index) = false := by simpa using he
    rw [this]
    rfl

theorem sort {l : List Action} (h : T.Tame l) : sortBy g'.actionLt (l.map T.ren) = (sortBy g.actionLt l).map T.ren :=
  sortBy_map (T.actionLt F h)

/-- The actions of a state before any conflict is looked for -/
theorem tame_raw {q : StateId} (hq : q < sts.length) : T.Tame (g.rawActions q (sts.getD q default)) := by
  have hla : ∀ a ∈ g.rawActions q (sts.getD q default), a.la < g.syms.length := fun a h => (raw_la T.inv T.auto hq a h).1
  have hsh : ∀ a ∈ g.rawActions q (sts.getD q default), ∀ k, a.detail = .shift k → g.CanShift sts q a.la k := by
    intro a h k hk
    rw [mem_rawActions T.inv T.auto hq] at h
    rcases h with ⟨k', h, e⟩ | ⟨r, h, e⟩ | ⟨h, e⟩
    · rw [e] at hk; cases hk; exact h
    · rw [e] at hk; cases hk
    · rw [e] at hk; cases hk
  have hrd : ∀ a ∈ g.rawActions q (sts.getD q default), ∀ r, a.detail = .reduce r → g.CanReduce sts q a.la r := by
    intro a h k hk
    rw [mem_rawActions T.inv T.auto hq] at h
    rcases h with ⟨k', h, e⟩ | ⟨r, h, e⟩ | ⟨h, e⟩
    · rw [e] at hk; cases hk
    · rw [e] at hk; cases hk; exact h
    · rw [e] at hk; cases hk
  refine ⟨fun a ha => ⟨fun r e => T.auto.item_rule T.inv hq (LA_item T.inv T.auto (hrd a ha r e).2.2).2, fun k e => ?_⟩, ?_, ?_⟩
  · obtain ⟨X, h, _⟩ := hsh a ha k e
    exact h.dst
  · intro a ha b hb he k k' e1 e2
    have hab := T.inv.index_inj (hla a ha) (hla b hb) he
    have c2 := hsh b hb k' e2
    rw [← hab] at c2
    exact F.one q a.la k k' (hsh a ha k e1) c2
  · intro a ha b hb he r r' e1 e2
    have hab := T.inv.index_inj (hla a ha) (hla b hb) he
    have c2 := hrd b hb r' e2
    rw [← hab] at c2
    exact F.mono q a.la r r' hq (hrd a ha r e1) c2

theorem sort_raw {q : StateId} (hq : q < sts.length) :
    sortBy g'.actionLt (g'.rawActions (T.ρ q) (sts'.getD (T.ρ q) default)) = (sortBy g.actionLt (g.rawActions q (sts.getD q default))).map T.ren := by
  rw [← T.sort F (T.tame_raw F hq)]
  have hla := raw_la T.inv' T.auto' (T.lt hq)
  apply sortBy_perm g'.sortKey (T.raw_perm F.subs hq)
  · intro a ha b hb
    exact actionLt_key (hla a ha).2 (hla b hb).2
  · intro a ha b hb
    exact sortKey_inj T.inv' (hla a ha).1 (hla b hb).1 (hla a ha).2 (hla b hb).2

/-! ## Conflicts -/

omit F in
theorem rulePrec {r : RuleId} (hr : r < g.rules.length) : (g'.rule (T.R.σ r)).precedence = (g.rule r).precedence := T.R.rulePrec hr

theorem resolveConflict {x y : Action} (hx : T.Ok x) (hy : T.Ok y) : g'.resolveConflict (T.ren x) (T.ren y) =
    (T.ren (g.resolveConflict x y).1, T.ren (g.resolveConflict x y).2.1, (g.resolveConflict x y).2.2) := by
  cases x with
  | mk la d =>
    cases y with
    | mk lb e =>
      cases d <;> cases e <;> try rfl
      · rename_i k r
        have h1 := T.rulePrec (hy.1 r rfl)
        have h2 := T.prec F la
        unfold Grammar.resolveConflict
        simp only [ren, detail]
        rw [h1, h2]
        cases (g.sym la).precedence <;> cases (g.rule r).precedence <;> try rfl
        rename_i p p'
        simp only
        cases precedenceCmp p p' <;> rfl
      · rename_i k r
        have h1 := T.rulePrec (hy.1 r rfl)
        have h2 := T.rulePrec (hx.1 k rfl)
        unfold Grammar.resolveConflict
        simp only [ren, detail]
        rw [h1, h2]
        cases (g.rule k).precedence <;> cases (g.rule r).precedence <;> try rfl
        rename_i p p'
        simp only
        cases precedenceCmp p p' <;> rfl

omit F in
theorem Ok.kept {a b : Action} (h : T.Ok a) (hk : Kept a b) : T.Ok b := by
  rcases hk with rfl | ⟨_, hd⟩
  · exact h
  · exact ⟨fun r e => absurd e (hd.2 r), fun k e => absurd e (hd.1 k)⟩

theorem resolveFrom : ∀ {ys : List Action} {x : Action}, T.Ok x → (∀ y ∈ ys, T.Ok y) → g'.resolveFrom (T.ren x) (ys.map T.ren) =
    (T.ren (g.resolveFrom x ys).1, (g.resolveFrom x ys).2.1.map T.ren, (g.resolveFrom x ys).2.2) := by
  intro ys
  induction ys with
  | nil => intro x _ _; rfl
  | cons y ys ih =>
    intro x hx hy
    rw [List.map_cons]
    unfold Grammar.resolveFrom
    by_cases he : x.la = y.la
    · have he' : (T.ren x).la = (T.ren y).la := he
      rw [if_pos he, if_pos he', T.resolveConflict F hx (hy y List.mem_cons_self)]
      simp only
      have hk := (resolveConflict_kept (g := g) x y).1
      rw [ih (hx.kept T hk) (fun z hz => hy z (List.mem_cons_of_mem _ hz))]
      rfl
    · have he' : ¬ (T.ren x).la = (T.ren y).la := he
      rw [if_neg he, if_neg he']
      rfl

theorem resolveAll : ∀ {n : Nat} {l : List Action}, (∀ y ∈ l, T.Ok y) → g'.resolveAll n (l.map T.ren) =
    ((g.resolveAll n l).1.map T.ren, (g.resolveAll n l).2) := by
  intro n
  induction n with
  | zero => intro l _; rfl
  | succ n ih =>
    intro l h
    cases l with
    | nil => rfl
    | cons x xs =>
      rw [List.map_cons]
      unfold Grammar.resolveAll
      rw [T.resolveFrom F (h x List.mem_cons_self) (fun z hz => h z (List.mem_cons_of_mem _ hz))]
      simp only
      have hk := (resolveFrom_kept (g := g) xs x).1
      rw [ih (l := (g.resolveFrom x xs).2.1) (by
        intro y hy
        obtain ⟨b, hb, hbk⟩ := Under.of_kept hk y hy
        exact (h b (List.mem_cons_of_mem _ hb)).kept T hbk)]
      rfl

theorem resolveState {q : StateId} (hq : q < sts.length) : g'.resolveState (g'.rawActions (T.ρ q) (sts'.getD (T.ρ q) default)) =
    ((g.resolveState (g.rawActions q (sts.getD q default))).1.map T.ren, (g.resolveState (g.rawActions q (sts.getD q default))).2) := by
  unfold Grammar.resolveState
  rw [T.sort_raw F hq]
  simp only [List.length_map]
  rw [T.resolveAll F]
  intro y hy
  exact (T.tame_raw F hq).ok y (mem_sortBy.1 hy)

theorem tame_acts {q : StateId} (hq : q < sts.length) : T.Tame (g.resolveState (g.rawActions q (sts.getD q default))).1 := by
  have h1 : T.Tame (sortBy g.actionLt (g.rawActions q (sts.getD q default))) := (T.tame_raw F hq).of_mem T (fun a h => mem_sortBy.1 h)
  exact h1.under T (Under.of_kept (resolveL_kept _ rfl))

theorem one' (q : StateId) (s : SymbolId) (k k' : StateId) (h : g'.CanShift sts' q s k) (h' : g'.CanShift sts' q s k') : k = k' := by
  have e := F.one _ _ _ _ (T.symm.canShift h) (T.symm.canShift h')
  obtain ⟨_, h1, _⟩ := h
  obtain ⟨_, h2, _⟩ := h'
  exact T.symm.inj h1.dst h2.dst e

theorem no_selfShift {q : StateId} (hq : q < sts'.length) (p : StateId) : selfShift p (g'.rawActions q (sts'.getD q default)) = false :=
  selfShift_false T.inv' T.auto' hq (T.subs' F.subs q) (T.one' F q)

/-- The other automaton has no conflicts either, and the same actions. -/
theorem findActions {acts : List (List Action)} (h : g.findActions sts = .ok (acts, 0)) : ∃ acts2, g'.findActions sts' = .ok (acts2, 0) ∧
    ∀ q, q < sts.length → acts2.getD (T.ρ q) [] = (acts.getD q []).map T.ren := by
  obtain ⟨a1, a2, a3, a4⟩ := findActions_get h
  have a3 := a3.1 rfl
  have hmem : ∀ q, q < sts'.length → (g'.resolveState (g'.rawActions q (sts'.getD q default))).1 ∈
      (sts'.zipIdx.map (fun x => g'.resolveState (g'.rawActions x.2 x.1))).map (·.1) := by
    intro q hq
    refine List.mem_map.2 ⟨_, List.mem_map.2 ⟨(sts'.getD q default, q), ?_, rfl⟩, rfl⟩
    rw [List.mem_zipIdx_iff_getElem?]
    simp [List.getElem?_eq_getElem hq]
  have hok : ∃ acts2 n, g'.findActions sts' = .ok (acts2, n) := by
    unfold Grammar.findActions
    rw [if_neg, if_pos]
    · exact ⟨_, _, rfl⟩
    · rw [List.all_eq_true]
      intro r hr
      rw [List.mem_range] at hr
      obtain ⟨r1, _, r3⟩ := T.R.rule' r hr
      obtain ⟨q, hq, a, ha, hd⟩ := a4 _ r1
      rw [List.any_eq_true]
      refine ⟨_, hmem (T.ρ q) (T.lt hq), ?_⟩
      rw [List.any_eq_true, T.resolveState F hq, ← a2 q hq]
      refine ⟨T.ren a, List.mem_map.2 ⟨a, ha, rfl⟩, ?_⟩
      rw [decide_eq_true_eq]
      unfold ren
      rw [hd]
      simp only [detail]
      rw [r3]
    · rw [Bool.not_eq_true, List.any_eq_false]
      rintro ⟨st, q⟩ hx
      rw [List.mem_zipIdx_iff_getElem?] at hx
      have hx : sts'[q]? = some st := hx
      have hq := (List.getElem?_eq_some_iff.1 hx).1
      have hst : st = sts'.getD q default := by rw [List.getD_eq_getElem?_getD, hx]; rfl
      simp only [hst, T.no_selfShift F hq]
      exact Bool.false_ne_true
  obtain ⟨acts2, n, hok⟩ := hok
  obtain ⟨b1, b2, b3, b4⟩ := findActions_get hok
  have hn : n = 0 := by
    rw [b3]
    intro q hq
    have hq' := T.symm.lt hq
    have e : T.ρ (T.ρ' q) = q := T.symm.back hq
    have h1 := T.resolveState F (q := T.ρ' q) hq'
    rw [e] at h1
    rw [h1]
    exact a3 _ hq'
  subst hn
  refine ⟨acts2, hok, fun q hq => ?_⟩
  rw [b2 _ (T.lt hq), T.resolveState F hq, a2 q hq]

end

end Twin

end Pomelo
