import Verif.Proofs.Convert
/-! # The start symbol and the type of the result -/

namespace Pomelo

open Spec

variable {V X E : Type}

theorem GInv.mem_symbols {g : Grammar} (h : GInv g) {x : SymbolId} (hx : x < g.syms.length) : x ∈ g.symbols := by
  obtain ⟨p1, p2⟩ := h.perm x hx
  have hlt : (g.sym x).index < g.symbols.length := by rw [h.slen]; exact p1
  rw [getD_of_lt hlt] at p2
  exact p2 ▸ List.getElem_mem hlt

/-- The final type and the tag of a symbol that is neither a class nor the wildcard -/
theorem assigned_plain {g gT : Grammar} {types : List Ty} (hass : g.assignTypes [] g.symbols = .ok (gT, types)) (hi : GInv g) {x : SymbolId}
    (hx : x < g.syms.length) (hk : (g.sym x).kind ≠ .multiTerminal) (hw : g.wildcard ≠ some x) :
    (gT.sym x).dataType = ((g.sym x).dataType).or g.defaultType ∧ (gT.sym x).dtNum = tagOf types (gT.sym x).dataType ∧
    ∀ T, (gT.sym x).dataType = some T → T ∈ types := by
  obtain ⟨_, _, _, _, h5⟩ := assignTypes_spec hass List.nodup_nil hi.symbols_nodup
  obtain ⟨h1, h2, g1, h3, _, _, h6, h7⟩ := h5 x (hi.mem_symbols hx) hx hw
  refine ⟨?_, h1, h2⟩
  unfold Grammar.finalType at h3
  rw [h6, h7] at h3
  simp only at h3
  simp only [Except.map, Except.ok.injEq] at h3
  exact h3.symm

theorem GenSpec.symType {g : Grammar} {sts : List RState} {t : Tables} (s : GenSpec g sts t) (hi : GInv g) {x : SymbolId} (hx : x < g.syms.length)
    (hk : (g.sym x).kind ≠ .multiTerminal) (hw : g.wildcard ≠ some x) :
    (s.gT.sym x).dataType = ((g.sym x).dataType).or g.defaultType ∧ (s.gT.sym x).dtNum = tagOf s.types (s.gT.sym x).dataType ∧
    ∀ T, (s.gT.sym x).dataType = some T → T ∈ s.types :=
  assigned_plain s.assign hi hx hk hw

section
variable {ord : List (SymbolId × SymbolId) → List (SymbolId × SymbolId)} {ds : List Decl} {t : Tables}

/-- The start symbol is the declared one. -/
theorem Bridge0.start_name {g : Grammar} (b : Bridge0 ord ds g) (hi : GInv g) :
    ∃ x i, g.start = some x ∧ x < b.gD.syms.length ∧ (b.gD.sym x).name = .ident i ∧ startOf ds = some i ∧ (SymName.ident i).isNt = true := by
  obtain ⟨x, hx1, hx2, hx3⟩ := hi.start
  have hx : x < b.gD.syms.length := b.dropped hi hx2 (by intro h; rw [h] at hx3; cases hx3)
  rw [b.name hx] at hx3
  obtain ⟨i, hn, hnt⟩ : ∃ i, (b.gD.sym x).name = .ident i ∧ (SymName.ident i).isNt = true := by
    cases hn : (b.gD.sym x).name with
    | ident i => rw [hn] at hx3; exact ⟨i, rfl, hx3⟩
    | _ => rw [hn] at hx3; cases hx3
  refine ⟨x, i, hx1, hx, hn, ?_, hnt⟩
  have hd := b.decl.start
  have hst := b.start
  rw [hx1] at hst
  cases hs : b.gD.start with
  | some y =>
    rw [hs] at hst hd
    simp only [Option.getD_some, Option.some.injEq] at hst
    subst hst
    simp only [Option.map_some, hn] at hd
    unfold startOf
    cases hsd : startDirective ds with
    | none => rw [hsd] at hd; cases hd
    | some j => rw [hsd] at hd; simp at hd; rw [hd]; rfl
  | none =>
    rw [hs] at hst hd
    simp only [Option.getD_none, Option.some.injEq] at hst
    have hsd : startDirective ds = none := by
      cases hsd : startDirective ds with
      | none => rfl
      | some j => rw [hsd] at hd; cases hd
    have h0 : 0 < b.gD.rules.length := List.length_pos_iff.2 b.nonempty
    have hr0 : 0 < (rulesOf ds).length := by rw [← b.nrules]; exact h0
    obtain ⟨a, c, e1, _, _, ⟨r1, _⟩, _, _⟩ := b.rule_rec (r := 0) (List.getElem?_eq_getElem hr0)
    have ha : b.gD.rule 0 = a := by unfold Grammar.rule; rw [List.getD_eq_getElem?_getD, e1]; rfl
    rw [hst, ha, r1] at hn
    unfold startOf
    rw [hsd]
    cases hr : rulesOf ds with
    | nil => rw [hr] at hr0; simp at hr0
    | cons u us => simp only [hr, List.getElem_cons_zero] at hn; simp only [Option.none_or, List.head?_cons, Option.map_some]; injection hn with hn; rw [hn]

variable {s : CSpec ord ds t} {dflt : SymbolId}

/-- The accept code returns the value of the start symbol if that has a type. -/
theorem Made.root (m : Made s dflt) (ho : OrdOk ord) (b : Bridge ord ds s.g) (sem : Sem V X E) (w : V)
    (hr : ∀ n, t.rootDt = some n → (s.gen.gT.sym (s.g.start.getD 0)).dtNum = n) :
    (if t.rootDt.isSome then w else sem.unit) = rootValue ds sem w := by
  obtain ⟨x, i, h1, h2, h3, h4, h5⟩ := b.start_name m.inv
  have hx : x < s.g.syms.length := by rw [b.len]; exact Nat.lt_succ_of_lt h2
  have hkind : (b.gD.sym x).kind = .nonTerminal := by
    have := b.dinv.kinds x h2
    rw [h3] at this
    cases i <;> first | (cases h5; done) | (cases hk : (b.gD.sym x).kind <;> rw [hk] at this <;> first | rfl | cases this)
  have hkg : (s.g.sym x).kind = .nonTerminal := by rw [b.kind h2, hkind]
  have hw : s.g.wildcard ≠ some x := by
    intro h
    have := (m.inv.wild x h).2
    rw [b.name h2, h3] at this
    cases i <;> first | (cases h5; done) | cases this
  obtain ⟨t1, t2, t3⟩ := s.gen.symType m.inv hx (by rw [hkg]; simp) hw
  have hty : (s.g.sym x).dataType = typeOf ds i := by
    rw [b.types, (b.dataTypeP ho).2 x h2 ?_, hkind]
    · simp only [reduceCtorEq, false_and, if_false]
      exact (b.decl.sym b.dinv h2 h3).2.2.2.2
    · rintro o h6 rfl
      obtain ⟨_, _, _, k, _, h7⟩ := b.opt_name h6
      rw [h7] at h3; cases h3
  have hdt : s.g.defaultType = defaultTypeOf ds := by rw [b.defaultType, b.decl.defaultType]
  have hst : s.gen.gT.start = some x := by rw [s.gen.shape.start, h1]
  rw [hty, hdt] at t1
  rw [h1, Option.getD_some] at hr
  have hroot := s.gen.rootDt
  rw [hst, Option.getD_some] at hroot
  unfold rootValue
  rw [h4, Option.bind_some]
  have hor : ((typeOf ds i).isSome || (defaultTypeOf ds).isSome) = ((s.gen.gT.sym x).dataType).isSome := by
    rw [t1]; cases typeOf ds i <;> simp
  rw [hor]
  cases hd : (s.gen.gT.sym x).dataType with
  | some T =>
    have := t3 T hd
    rw [hd, Option.getD_some, if_pos (by simpa using this)] at hroot
    rw [hroot]; rfl
  | none =>
    rw [hd] at t2
    cases hn : t.rootDt with
    | none => rfl
    | some n =>
      have h6 := hr n hn
      rw [t2] at h6
      rw [hn] at hroot
      split at hroot
      · rw [← h6] at hroot; simp [tagOf] at hroot
      · cases hroot

end

end Pomelo
