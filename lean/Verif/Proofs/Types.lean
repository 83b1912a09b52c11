import Verif.Proofs.RulePrec
import Verif.Spec.Parse
/-! # Types of symbols before the rules are normalized -/

namespace Pomelo

open Spec

/-- Type of a token under `%extra_token` -/
def tokType : Option Ty → Option Ty → Option Ty
  | none, dt => dt
  | some e, none => some e
  | some e, some d => some (.pair e d)

theorem sym_foldl_modify {f : Symbol → Symbol} : ∀ {l : List SymbolId} {g : Grammar}, l.Nodup → (∀ s ∈ l, s < g.syms.length) →
    ∀ x, (l.foldl (fun g s => g.modifySym s f) g).sym x = if x ∈ l then f (g.sym x) else g.sym x := by
  intro l
  induction l with
  | nil => intro g _ _ x; simp
  | cons a l ih =>
    intro g hn hl x
    obtain ⟨ha, hn⟩ := List.nodup_cons.1 hn
    rw [List.foldl_cons, ih hn (by intro s hs; rw [length_modifySym]; exact hl s (List.mem_cons_of_mem _ hs))]
    by_cases e : x = a
    · subst e
      rw [if_neg ha, if_pos List.mem_cons_self, sym_modifySym_same (hl x List.mem_cons_self)]
    · rw [sym_modifySym_ne e]
      simp [e]

theorem GInv.symbols_nodup {g : Grammar} (h : GInv g) : g.symbols.Nodup := by
  rw [List.Nodup, List.pairwise_iff_getElem]
  intro i j hi hj hij he
  have h1 := (h.index i (by rw [← h.slen]; exact hi)).2
  have h2 := (h.index j (by rw [← h.slen]; exact hj)).2
  rw [getD_of_lt hi] at h1
  rw [getD_of_lt hj, ← he, h1] at h2
  omega

theorem GInv.mem_tokens {g : Grammar} (h : GInv g) {x : SymbolId} (hx : x < g.syms.length) :
    x ∈ (g.symbols.take g.numTerminals).drop 1 ↔ (g.sym x).kind = .terminal ∧ x ≠ 0 := by
  have hlen : g.numTerminals ≤ g.symbols.length := by rw [h.slen]; have := h.nterm; omega
  rw [List.mem_iff_getElem?]
  simp only [List.getElem?_drop, List.getElem?_take]
  obtain ⟨p1, p2⟩ := h.perm x hx
  have hg : g.symbols[(g.sym x).index]? = some x := by
    have : (g.sym x).index < g.symbols.length := by rw [h.slen]; exact p1
    rw [List.getElem?_eq_getElem this]
    rw [getD_of_lt this] at p2
    rw [p2]
  constructor
  · rintro ⟨i, hi⟩
    split at hi
    · rename_i hlt
      have hi' : 1 + i < g.syms.length := by rw [← h.slen]; omega
      have h1 := (h.index (1 + i) hi').2
      rw [List.getD_eq_getElem?_getD, hi] at h1
      simp only [Option.getD_some] at h1
      refine ⟨(h.term x hx).2 (by rw [h1]; exact hlt), ?_⟩
      rintro rfl
      rw [h.dollar.2.2] at h1
      omega
    · cases hi
  · rintro ⟨hk, h0⟩
    have h1 := (h.term x hx).1 hk
    have h2 : (g.sym x).index ≠ 0 := by
      intro e
      rw [e] at p2
      have := (h.perm 0 (Nat.lt_of_lt_of_le Nat.zero_lt_two h.two)).2
      rw [h.dollar.2.2, p2] at this
      exact h0 this
    refine ⟨(g.sym x).index - 1, ?_⟩
    rw [show 1 + ((g.sym x).index - 1) = (g.sym x).index by omega, if_pos h1, hg]

theorem dataType_addExtraToken {g : Grammar} (h : GInv g) {x : SymbolId} (hx : x < g.syms.length) :
    (g.addExtraToken.sym x).dataType = if (g.sym x).kind = .terminal ∧ x ≠ 0 then tokType g.extraToken (g.sym x).dataType else (g.sym x).dataType := by
  unfold Grammar.addExtraToken
  cases he : g.extraToken with
  | none => simp [tokType]
  | some et =>
    simp only
    have hnd : ((g.symbols.take g.numTerminals).drop 1).Nodup := (h.symbols_nodup.sublist (List.take_sublist _ _)).sublist (List.drop_sublist _ _)
    have hlt : ∀ s ∈ (g.symbols.take g.numTerminals).drop 1, s < g.syms.length := by
      intro s hs
      have hs := List.mem_of_mem_take (List.mem_of_mem_drop hs)
      obtain ⟨i, hi, rfl⟩ := List.getElem_of_mem hs
      have := (h.index i (by rw [← h.slen]; exact hi)).1
      rwa [getD_of_lt hi] at this
    rw [sym_foldl_modify hnd hlt, if_congr (h.mem_tokens hx) rfl rfl]
    split
    · simp only
      cases (g.sym x).dataType <;> rfl
    · rfl

theorem dataType_addOptional (g : Grammar) (o : SymbolId × SymbolId) (h2 : o.2 < g.syms.length) (x : SymbolId) :
    ((g.addOptional o).sym x).dataType = if x = o.2 then some (.option (((g.sym o.1).dataType).getD .unit)) else (g.sym x).dataType := by
  unfold Grammar.addOptional
  simp only
  rw [proj_createRule Symbol.dataType (fun _ _ => rfl), proj_createRule Symbol.dataType (fun _ _ => rfl)]
  by_cases e : x = o.2
  · subst e; rw [sym_modifySym_same h2, if_pos rfl]
  · rw [sym_modifySym_ne e, if_neg e]

theorem dataType_addOptionals_foldl : ∀ {l : List (SymbolId × SymbolId)} {g : Grammar}, (∀ o ∈ l, o.2 < g.syms.length) →
    (∀ o ∈ l, ∀ o' ∈ l, o.1 ≠ o'.2) → (∀ o ∈ l, ∀ o' ∈ l, o.2 = o'.2 → o = o') →
    (∀ o ∈ l, ((l.foldl Grammar.addOptional g).sym o.2).dataType = some (.option (((g.sym o.1).dataType).getD .unit))) ∧
    (∀ x, (∀ o ∈ l, x ≠ o.2) → ((l.foldl Grammar.addOptional g).sym x).dataType = (g.sym x).dataType) := by
  intro l
  induction l with
  | nil => intro g _ _ _; exact ⟨by simp, fun _ _ => rfl⟩
  | cons a l ih =>
    intro g h1 h2 h3
    have ha := h1 a List.mem_cons_self
    obtain ⟨i1, i2⟩ := ih (g := g.addOptional a) (fun o ho => by rw [length_addOptional]; exact h1 o (List.mem_cons_of_mem _ ho))
      (fun o ho o' ho' => h2 o (List.mem_cons_of_mem _ ho) o' (List.mem_cons_of_mem _ ho'))
      (fun o ho o' ho' => h3 o (List.mem_cons_of_mem _ ho) o' (List.mem_cons_of_mem _ ho'))
    constructor
    · intro o ho
      rw [List.foldl_cons]
      by_cases hm : o ∈ l
      · rw [i1 o hm, dataType_addOptional g a ha, if_neg (h2 o ho a List.mem_cons_self)]
      · have : o = a := by
          rcases List.mem_cons.1 ho with e | e
          · exact e
          · exact absurd e hm
        subst this
        rw [i2 o.2 ?_, dataType_addOptional g o ha, if_pos rfl]
        intro o' ho' e
        have := h3 o ho o' (List.mem_cons_of_mem _ ho') e
        exact hm (this ▸ ho')
    · intro x hx
      rw [List.foldl_cons, i2 x (fun o ho => hx o (List.mem_cons_of_mem _ ho)), dataType_addOptional g a ha,
        if_neg (hx a List.mem_cons_self)]

theorem indexed_extraToken (g : Grammar) : g.indexed.extraToken = g.extraToken := by
  unfold Grammar.indexed
  simp only
  exact (assignIndices_keeps _ _ _).2.2.2.2.2.2

namespace BridgeP
variable {ord : List (SymbolId × SymbolId) → List (SymbolId × SymbolId)} {ds : List Decl} {g : Grammar}

theorem opt_name (b : BridgeP ord ds) {o : SymbolId × SymbolId} (ho : o ∈ b.gD.optionals) :
    o.1 < b.gD.syms.length ∧ o.2 < b.gD.syms.length ∧ ((b.gD.sym o.1).name.isTok = true ∨ (b.gD.sym o.1).name.isNt = true) ∧
    ∃ k, b.gD.optionals[k]? = some o ∧ (b.gD.sym o.2).name = .opt k := by
  obtain ⟨k, hk, he⟩ := List.getElem_of_mem ho
  have h := b.dinv.opts k o.1 o.2 (by rw [List.getElem?_eq_getElem hk, he])
  exact ⟨h.1, h.2.1, h.2.2.1, k, by rw [List.getElem?_eq_getElem hk, he], h.2.2.2⟩

theorem opt_inj (b : BridgeP ord ds) {o o' : SymbolId × SymbolId} (ho : o ∈ b.gD.optionals) (ho' : o' ∈ b.gD.optionals) (h : o.2 = o'.2) : o = o' := by
  obtain ⟨_, _, _, k, h1, h2⟩ := b.opt_name ho
  obtain ⟨_, _, _, k', h1', h2'⟩ := b.opt_name ho'
  rw [← h, h2] at h2'
  cases h2'
  rw [h1] at h1'
  exact (Option.some.inj h1')

/-- Types that are given before the rules are normalized -/
theorem dataTypeP (ho : OrdOk ord) (b : BridgeP ord ds) :
    (∀ o ∈ b.gD.optionals, (b.gP.sym o.2).dataType = some (.option (((b.gP.sym o.1).dataType).getD .unit))) ∧
    (∀ x, x < b.gD.syms.length → (∀ o ∈ b.gD.optionals, x ≠ o.2) → (b.gP.sym x).dataType =
      if (b.gD.sym x).kind = .terminal ∧ x ≠ 0 then tokType (extraTokenOf ds) (b.gD.sym x).dataType else (b.gD.sym x).dataType) := by
  have hi := GInv.indexed b.dinv b.nonempty
  have hlen : ((b.gD.pushSym { name := .dflt, kind := .nonTerminal }).indexed).syms.length = b.gD.syms.length + 1 := by
    rw [(indexed_fields _).1, length_pushSym]
  have hdt : ∀ x, x < b.gD.syms.length → (((b.gD.pushSym { name := .dflt, kind := .nonTerminal }).indexed).sym x).dataType = (b.gD.sym x).dataType ∧
      (((b.gD.pushSym { name := .dflt, kind := .nonTerminal }).indexed).sym x).kind = (b.gD.sym x).kind := by
    intro x hx
    constructor
    · rw [proj_indexed Symbol.dataType (fun _ _ => rfl), sym_pushSym_lt hx]
    · rw [proj_indexed Symbol.kind (fun _ _ => rfl), sym_pushSym_lt hx]
  have het : ((b.gD.pushSym { name := .dflt, kind := .nonTerminal }).indexed).extraToken = extraTokenOf ds := by
    rw [indexed_extraToken, ← b.decl.extraToken]; rfl
  have hopts : ((b.gD.pushSym { name := .dflt, kind := .nonTerminal }).indexed).addExtraToken.optionals = b.gD.optionals := by
    rw [(addExtraToken_fields _).2.1, (indexed_fields _).2.2.2.2.1]; rfl
  have hlen2 := (addExtraToken_shape ((b.gD.pushSym { name := .dflt, kind := .nonTerminal }).indexed)).len
  have hP : b.gP = { (ord b.gD.optionals).foldl Grammar.addOptional ((b.gD.pushSym { name := .dflt, kind := .nonTerminal }).indexed).addExtraToken with optionals := [] } := by
    rw [b.gP_eq, prepare_eq]
    unfold Grammar.addOptionals
    rw [hopts]
  have hmem : ∀ o, o ∈ ord b.gD.optionals ↔ o ∈ b.gD.optionals := fun o => (ho b.gD.optionals).mem_iff
  generalize ((b.gD.pushSym { name := .dflt, kind := .nonTerminal }).indexed) = gI at *
  have hd : ∀ x, x < b.gD.syms.length → (gI.addExtraToken.sym x).dataType =
      if (b.gD.sym x).kind = .terminal ∧ x ≠ 0 then tokType (extraTokenOf ds) (b.gD.sym x).dataType else (b.gD.sym x).dataType := by
    intro x hx
    rw [dataType_addExtraToken hi (by rw [hlen]; exact Nat.lt_succ_of_lt hx), (hdt x hx).1, (hdt x hx).2, het]
  obtain ⟨f1, f2⟩ := dataType_addOptionals_foldl (l := ord b.gD.optionals) (g := gI.addExtraToken)
    (fun o ho' => by rw [hlen2, hlen]; exact Nat.lt_succ_of_lt (b.opt_name ((hmem o).1 ho')).2.1)
    (by
      intro o h1 o' h2 e
      obtain ⟨_, _, h3, _⟩ := b.opt_name ((hmem o).1 h1)
      obtain ⟨_, _, _, k, _, h4⟩ := b.opt_name ((hmem o').1 h2)
      rw [e, h4] at h3
      simp [SymName.isTok, SymName.isNt] at h3)
    (fun o h1 o' h2 e => b.opt_inj ((hmem o).1 h1) ((hmem o').1 h2) e)
  have hsym : ∀ x, b.gP.sym x = (List.foldl Grammar.addOptional gI.addExtraToken (ord b.gD.optionals)).sym x := by
    intro x; rw [hP]; rfl
  have hrest : ∀ x, x < b.gD.syms.length → (∀ o ∈ b.gD.optionals, x ≠ o.2) → (b.gP.sym x).dataType =
      if (b.gD.sym x).kind = .terminal ∧ x ≠ 0 then tokType (extraTokenOf ds) (b.gD.sym x).dataType else (b.gD.sym x).dataType := by
    intro x hx hx'
    rw [hsym, f2 x (fun o h => hx' o ((hmem o).1 h)), hd x hx]
  refine ⟨?_, hrest⟩
  intro o ho'
  rw [hsym, f1 o ((hmem o).2 ho')]
  have hne : ∀ o' ∈ b.gD.optionals, o.1 ≠ o'.2 := by
    intro o' h2 e
    obtain ⟨_, _, h3, _⟩ := b.opt_name ho'
    obtain ⟨_, _, _, k, _, h4⟩ := b.opt_name h2
    rw [e, h4] at h3
    simp [SymName.isTok, SymName.isNt] at h3
  rw [hsym o.1, f2 o.1 (fun o' h => hne o' ((hmem o').1 h))]

/-- Whether a named symbol has a type before the rules are normalized -/
theorem typed_ident (ho : OrdOk ord) (b : BridgeP ord ds) {x : SymbolId} (hx : x < b.gD.syms.length) {i : Ident}
    (hn : (b.gD.sym x).name = .ident i) : b.gP.typed x = typedSym ds i := by
  obtain ⟨_, hm, _, _, ht⟩ := b.decl.sym b.dinv hx hn
  have h1 := (b.dataTypeP ho).2 x hx (by
    rintro o h2 rfl
    obtain ⟨_, _, _, k, _, h4⟩ := b.opt_name h2
    rw [h4] at hn; cases hn)
  have hx0 : x ≠ 0 := by
    rintro rfl
    rw [b.dinv.dollar] at hn; cases hn
  have hk := b.dinv.kinds x hx
  unfold Grammar.typed typedSym
  rw [h1, ht]
  have hkind : (b.gD.sym x).kind = .terminal ↔ (i.isTerminal && !isClass ds i) = true := by
    rw [hn] at hk
    cases hc : isClass ds i with
    | true =>
      rw [hc] at hm
      rw [hm.2 rfl]; simp
    | false =>
      have : (b.gD.sym x).kind ≠ .multiTerminal := fun e => by rw [hc] at hm; exact absurd (hm.1 e) (by simp)
      revert hk this
      cases i <;> cases (b.gD.sym x).kind <;> simp [kindOk, Ident.isTerminal]
  by_cases hkt : (i.isTerminal && !isClass ds i) = true
  · rw [if_pos ⟨hkind.2 hkt, hx0⟩, hkt]
    cases extraTokenOf ds <;> cases typeOf ds i <;> rfl
  · rw [if_neg (fun h => hkt (hkind.1 h.1))]
    rw [Bool.not_eq_true] at hkt
    rw [hkt]; simp

/-- Whether an element of a right-hand side has a type before the rules are normalized -/
theorem typed_elem (ho : OrdOk ord) (b : BridgeP ord ds) {e : RhsElem} {x : RhsSym} (hx : x.sym < b.gD.syms.length) (hr : ElemRec b.gD e x) :
    b.gP.typed x.sym = typedElem ds e := by
  obtain ⟨_, hr⟩ := hr
  unfold typedElem
  rcases hr with ⟨tok, h1, h2, h3⟩ | ⟨tok, symR, h1, h2, h3, h4, h5⟩ | ⟨h1, h2, h3⟩
  · rw [h1]; simp only [h2, Bool.false_or]
    exact b.typed_ident ho hx h3
  · rw [h1]; simp only [h2, Bool.true_or]
    unfold Grammar.typed
    rw [(b.dataTypeP ho).1 _ h4]; rfl
  · split
    · rename_i i he; exact absurd he (h1 i)
    unfold Grammar.typed
    have hk := b.dinv.kinds x.sym hx
    rw [h2] at hk
    rw [(b.dataTypeP ho).2 x.sym hx (by
      rintro o h2' e
      obtain ⟨_, _, _, k, _, h4⟩ := b.opt_name h2'
      rw [← e, h2] at h4; cases h4), if_neg]
    · rw [(b.plainAnon x.sym hx (by rw [h2]; rfl)).2.1]; rfl
    · rintro ⟨h, _⟩
      rw [h] at hk; simp [kindOk] at hk

end BridgeP

end Pomelo
