import Verif.Proofs.Rows
import Verif.Proofs.Convert
import Verif.Proofs.Variant
import Verif.Proofs.OptSrc
import Verif.Proofs.Reductions
import Verif.Spec.Unread
import Verif.Proofs.Ints
/-! # Tokens that no rule reads -/

namespace Pomelo

open Spec

/-! ## No lookahead is such a token -/

section
variable {g : Grammar} {sts : List LState}

/-- A token number that some rule can read -/
def Grammar.Read (g : Grammar) (n : Nat) : Prop := ∃ r X a, r < g.rules.length ∧ X ∈ g.rhsSyms r ∧ Reads g X a ∧ n = (g.sym a).index

theorem Grammar.Starts.read' {α : List SymbolId} {n : Nat} (h : g.Starts α n) : (∀ x ∈ α, ∃ r, r < g.rules.length ∧ x ∈ g.rhsSyms r) → g.Read n := by
  induction h with
  | @read X a β h =>
    intro hx
    obtain ⟨r, hr, hX⟩ := hx X List.mem_cons_self
    exact ⟨r, X, a, hr, hX, h, rfl⟩
  | @rule r β n hr _ ih => intro _; exact ih fun x hx => ⟨r, hr, hx⟩
  | @skip X β n _ _ ih => intro hx; exact ih fun x h => hx x (List.mem_cons_of_mem _ h)

theorem LA_read (hi : GInv g) (ha : Auto g sts) {q : StateId} {it : Item} {n : Nat} (h : g.LA sts q it n) : n = 0 ∨ g.Read n := by
  induction h with
  | start _ => exact .inl rfl
  | @first q c r' n hq hc _ hb =>
    right
    have hr := ha.item_rule hi hq hc
    exact (starts_of_begins hb).read' fun x hx => ⟨c.rule, hr, List.mem_of_mem_drop hx⟩
  | pass _ _ _ ih => exact ih
  | shift _ _ _ ih => exact ih

theorem acts_read (hi : GInv g) (ha : Auto g sts) {acts : List (List Action)} (hs : ActsSpec g sts acts) {q : StateId} (hq : q < sts.length)
    {a : Action} (h : a ∈ acts.getD q []) (ht : (g.sym a.la).kind = .terminal) : (g.sym a.la).index = 0 ∨ g.Read (g.sym a.la).index := by
  rcases hs.las q hq a h with ⟨k, X, h1, h2⟩ | ⟨r, h1⟩ | ⟨_, h1⟩
  · right
    obtain ⟨r, hr, hX⟩ := h1.rhs hi ha
    refine ⟨r, X, a.la, hr, hX, ?_, rfl⟩
    rcases (mem_shiftActions.1 h2).2 with ⟨h3, h4⟩ | ⟨h3, h4⟩
    · unfold Reads; rw [h3]; exact h4
    · simp only at h4
      unfold Reads; rw [← h4, ht]
  · exact LA_read hi ha h1.2.2
  · rw [h1, hi.start_kind.1] at ht; cases ht

end

section
variable {ord : List (SymbolId × SymbolId) → List (SymbolId × SymbolId)} {ds : List Decl} {t : Tables}

theorem matches_tokens {e : RhsElem} {i : Ident} (hi : i.isTerminal = true) (h : Matches ds e i) : i ∈ elemTokens ds e := by
  unfold Matches at h
  unfold elemTokens
  split at h
  · rename_i k he
    rw [he]
    simp only
    by_cases hc : isClass ds k = true
    · rw [if_pos hc] at h ⊢; exact h.2
    · rw [if_neg hc] at h ⊢
      rw [← h.2, if_pos hi]; simp
  · rename_i l hl
    split
    · rename_i k he; exact absurd he (hl k)
    · exact h

theorem elemTokens_toks {e e' : RhsElem} (h : e.toks = e'.toks) : elemTokens ds e = elemTokens ds e' := by
  unfold elemTokens; rw [h]

theorem read_written (ho : OrdOk ord) {g : Grammar} (b : Bridge0 ord ds g) {r : RuleId} {X a : SymbolId} {i : Ident} (hr : r < g.rules.length) (hX : X ∈ g.rhsSyms r)
    (h : Reads g X a) (ha : a < b.gD.syms.length) (hn : (b.gD.sym a).name = .ident i) (hi : i.isTerminal = true) : unread ds i = false := by
  have ht : (b.gD.sym a).name.isTok = true := by rw [hn]; cases i <;> first | rfl | cases hi
  suffices ∃ u ∈ rulesOf ds, ∃ e ∈ u.rhs, i ∈ elemTokens ds e by
    obtain ⟨u, hu, e, he, hm⟩ := this
    unfold unread
    rw [Bool.eq_false_iff]
    intro hall
    have h1 := List.all_eq_true.1 (List.all_eq_true.1 hall u hu) e he
    rw [List.contains_iff_mem.2 hm] at h1
    cases h1
  by_cases hw : r < (rulesOf ds).length
  · obtain ⟨_, _, _, h4, h5, _⟩ := b.written ho (List.getElem?_eq_getElem hw)
    obtain ⟨e, he, hs⟩ : ∃ e ∈ ((rulesOf ds)[r]).rhs, ElemSym b.gD e X := by
      clear h5 h
      revert hX h4
      generalize ((rulesOf ds)[r]).rhs = l1
      generalize g.rhsSyms r = l2
      intro hX h4
      revert hX
      induction h4 with
      | nil => intro h; cases h
      | cons h1 _ ih =>
        intro h
        rcases List.mem_cons.1 h with rfl | h
        · exact ⟨_, List.mem_cons_self, h1⟩
        · obtain ⟨e, he, hs⟩ := ih h
          exact ⟨e, List.mem_cons_of_mem _ he, hs⟩
    exact ⟨_, List.getElem_mem hw, e, he, matches_tokens hi ((b.reads_matches (h5 X hX) hs ha hn ht).1 h)⟩
  · obtain ⟨o, h1, _, ⟨h2, _⟩ | ⟨h2, _⟩⟩ := b.unwritten ho hr (Nat.le_of_not_lt hw)
    · unfold Grammar.rhsSyms at hX; rw [h2] at hX; cases hX
    · unfold Grammar.rhsSyms at hX; rw [h2] at hX
      simp only [List.map_cons, List.map_nil, List.mem_singleton] at hX
      obtain ⟨u, hu, e, he, _, tok, htok, hname⟩ := opt_source b.parsed o h1
      have hs : ElemSym b.gD ⟨[tok], false, false⟩ X := .inl ⟨tok, rfl, rfl, by rw [hX]; exact hname⟩
      have hm := matches_tokens hi ((b.reads_matches (by rw [hX]; exact (b.opt_name h1).1) hs ha hn ht).1 h)
      exact ⟨u, hu, e, he, by rw [elemTokens_toks (e' := ⟨[tok], false, false⟩) htok]; exact hm⟩

/-! ## The action for such a token -/

theorem CSpec.tokenSym (ho : OrdOk ord) (s : CSpec ord ds t) {k : Nat} {i : Ident} (hk : t.tokenNames[k]? = some (.ident i)) :
    ∃ x, x < s.g.syms.length ∧ (s.g.sym x).index = k ∧ (s.g.sym x).name = .ident i ∧ (s.g.sym x).kind = .terminal ∧ k < t.numTerminals ∧ k ≠ 0 := by
  have hi := s.ginv ho
  rw [s.gen.tokenNames, List.getElem?_map, s.gen.shape.nterm, s.gen.shape.symbols] at hk
  obtain ⟨x, hx, he⟩ := Option.map_eq_some_iff.1 hk
  rw [s.gen.shape.name] at he
  rw [List.getElem?_take] at hx
  split at hx
  · rename_i hkt
    have hkl := (List.getElem?_eq_some_iff.1 hx).1
    rw [hi.slen] at hkl
    have hxe : s.g.symbols.getD k 0 = x := by rw [List.getD_eq_getElem?_getD, hx]; rfl
    obtain ⟨h1, h2⟩ := hi.index k hkl
    rw [hxe] at h1 h2
    refine ⟨x, h1, h2, he, (hi.term x h1).2 (by rw [h2]; exact hkt), ?_, ?_⟩
    · rw [s.gen.numTerminals, s.gen.shape.nterm]; exact hkt
    · rintro rfl
      have := hi.index_inj h1 (b := 0) (Nat.lt_of_lt_of_le Nat.zero_lt_two hi.two) (by rw [h2, hi.dollar.2.2])
      rw [this, hi.dollar.1] at he; cases he
  · cases hx

theorem mem_row {g : Grammar} {rs : List RState} {k : Bool} {acts : List Action} {c : LaAct} (h : c ∈ g.row rs k acts) :
    ∃ x ∈ acts, c.la = (g.sym x.la).index ∧ g.InRow k c.la := by
  unfold Grammar.row at h
  obtain ⟨x, hx, hf⟩ := List.mem_filterMap.1 h
  refine ⟨x, hx, ?_⟩
  simp only at hf
  split at hf
  · rename_i hk
    split at hf
    · cases hf
    · rename_i hlt
      obtain ⟨act, _, rfl⟩ := Option.map_eq_some_iff.1 hf
      refine ⟨rfl, ?_⟩
      unfold Grammar.InRow
      rw [if_pos hk]; exact Nat.lt_of_not_le hlt
  · rename_i hk
    split at hf
    · cases hf
    · rename_i hlt
      split at hf
      · cases hf
      · rename_i hne
        obtain ⟨act, _, rfl⟩ := Option.map_eq_some_iff.1 hf
        refine ⟨rfl, ?_⟩
        unfold Grammar.InRow
        rw [if_neg hk]; exact ⟨Nat.le_of_not_lt hlt, hne⟩

/-- No row has an entry for a token that no rule reads. -/
theorem CSpec.unread_row (ho : OrdOk ord) (s : CSpec ord ds t) {k : Nat} {i : Ident} (hk : t.tokenNames[k]? = some (.ident i)) (hu : unread ds i = true)
    (hterm : i.isTerminal = true) {rs : List RState} {kd : Bool} {q : StateId} (hq : q < s.acts'.length) {c : LaAct} (hm : c ∈ s.g.row rs kd (s.acts'.getD q [])) :
    c.la ≠ k := by
  intro hck
  have hi := s.ginv ho
  obtain ⟨b⟩ := bridge ho s.decls s.auto
  obtain ⟨a, ha, hak, han, hat, hkt, hk0⟩ := s.tokenSym ho hk
  have haD : a < b.gD.syms.length := b.dropped hi ha (by rw [han]; simp)
  have hnD : (b.gD.sym a).name = .ident i := by rw [← b.name haD]; exact han
  obtain ⟨dflt, d1, d2, d3, d4, d5⟩ := compressTables_spec hi s.compress
  have hau := automaton_auto ho s.decls s.auto
  have hs := findActions_spec hi hau b.levels b.noStart s.actions
  have hkd : k ≠ s.gen.gT.defaultIndex := by
    intro e
    have h1 : (s.g.sym a).index = s.g.defaultIndex := by rw [hak, e, s.gen.shape.dflt]
    rw [hi.default_name ha h1] at hat; cases hat
  obtain ⟨x, hx, hc2, _⟩ := mem_row hm
  have hqa : q < s.acts.length := by rw [← d4]; exact hq
  obtain ⟨d, ig, hcomp⟩ := d5 q hqa
  have hqs : q < s.sts.length := by rw [← hs.len]; exact hqa
  rcases hcomp.las hx with h3 | ⟨y, hy, h3⟩
  · rw [h3, d2, ← s.gen.shape.dflt] at hc2
    exact hkd (by rw [← hc2, hck])
  · have hyl : y.la < s.g.syms.length := by
      rcases hs.las q hqs y hy with ⟨k', h4⟩ | ⟨r, h4⟩ | ⟨_, h4⟩
      · exact h4.lt hi hau
      · exact h4.1
      · rw [h4]; exact hi.start_kind.2.1
    have hya : y.la = a := hi.index_inj hyl ha (by rw [h3, ← hc2, hck, hak])
    rcases acts_read hi hau hs hqs hy (by rw [hya]; exact hat) with h4 | ⟨r, X, z, hr, hX, h4, h5⟩
    · rw [hya, hak] at h4; exact hk0 h4
    · rw [hya] at h5
      have hzl : z < s.g.syms.length := by
        unfold Reads at h4
        split at h4
        · rw [h4]; exact (hi.rhs r hr X hX).1
        · exact (hi.subs X (hi.rhs r hr X hX).1 z h4).1
        · exact h4.elim
      have := hi.index_inj ha hzl h5
      rw [read_written ho b.toBridge0 hr hX (this ▸ h4) haD hnD hterm] at hu
      cases hu

theorem CSpec.unread_lookup (ho : OrdOk ord) (s : CSpec ord ds t) {k : Nat} {i : Ident} (hk : t.tokenNames[k]? = some (.ident i)) (hu : unread ds i = true)
    (hterm : i.isTerminal = true) (j : Int) : t.lookup j k = none := by
  have hi := s.ginv ho
  obtain ⟨a, ha, hak, han, hat, hkt, hk0⟩ := s.tokenSym ho hk
  have hkd : k ≠ s.gen.gT.defaultIndex := by
    intro e
    have h1 : (s.g.sym a).index = s.g.defaultIndex := by rw [hak, e, s.gen.shape.dflt]
    rw [hi.default_name ha h1] at hat; cases hat
  have hv := lookup_vis s.gen.action s.gen.lookahead hkd (j - k)
  rw [Int.sub_add_cancel] at hv
  rw [hv]
  unfold ActTab.vis
  rw [Int.sub_add_cancel]
  cases hc : s.gen.p.tab.at j with
  | none => rfl
  | some c =>
    simp only
    apply if_neg
    intro hck
    have hlen := resort_len (g := s.g) s.acts'
    have hpi := pack_inv (s.rowsSorted ho) s.packed
    obtain ⟨kd, pos, h1, h2⟩ := hpi.only _ _ hc
    obtain ⟨ax, ha1, _, _, ha4⟩ := (hpi.keys kd pos).1 ⟨_, h1⟩
    have hp : pos < s.acts'.length := by rw [← ha4, ← hlen]; exact (mem_axSets.1 ha1).1
    obtain ⟨q, hq, rfl⟩ := stateNum_surj (g := s.g) s.acts' hp
    unfold Grammar.rowOf at h2
    rw [getD_resort q hq] at h2
    exact s.unread_row ho hk hu hterm hq (rowGet_some h2) hck

theorem CSpec.unread_findShift (ho : OrdOk ord) (s : CSpec ord ds t) {k l : Nat} {i j : Ident}
    (hk : t.tokenNames[k]? = some (.ident i)) (hl : t.tokenNames[l]? = some (.ident j)) (hu : unread ds i = true) (hfb : fallbackOf ds i = some j)
    (st : Nat) : t.findShift st k = t.findShift st l := by
  have hi := s.ginv ho
  obtain ⟨b⟩ := bridge ho s.decls s.auto
  obtain ⟨a, ha, hak, han, hat, hkt, hk0⟩ := s.tokenSym ho hk
  obtain ⟨f, hfl, hfk, hfn, hft, hlt, hl0⟩ := s.tokenSym ho hl
  have haD : a < b.gD.syms.length := b.dropped hi ha (by rw [han]; simp)
  have hnD : (b.gD.sym a).name = .ident i := by rw [← b.name haD]; exact han
  have hfa : (s.g.sym a).fallback = some f := by
    have h1 := (b.decl.sym b.dinv haD hnD).2.2.2.1
    rw [hfb] at h1
    cases hfa : (b.gD.sym a).fallback with
    | none => rw [hfa] at h1; cases h1
    | some x =>
      rw [hfa] at h1
      simp only [Option.map_some, Option.some.injEq] at h1
      obtain ⟨x1, _, _⟩ := b.dinv.fb a haD x hfa
      rw [b.fallback haD, hfa]
      have hx : x < s.g.syms.length := by rw [b.len]; exact Nat.lt_succ_of_lt x1
      exact congrArg some (hi.names x f hx hfl (by rw [b.name x1, h1, hfn]) (by rw [b.name x1, h1]; simp))
  have hterm : i.isTerminal = true := by
    have := (hi.fb a ha f hfa).2.2
    rw [han] at this
    cases i <;> first | rfl | cases this
  have hak' : t.fallback.getD k 0 = l := by
    have hsh := s.gen.shape
    rw [s.gen.fallback, ← hak]
    have := fallbackTable_get (s.ginvT ho) s.gen.fbEq (s := a) (by rw [hsh.len]; exact ha)
    simp only [hsh.index, hsh.fallback] at this
    rw [this, hfa]
    exact hfk
  have hno := s.unread_lookup ho hk hu hterm
  cases h1 : t.shiftOfst[st]? with
  | none =>
    unfold Tables.findShift Tables.findShiftFuel
    rw [h1]
  | some ofs =>
    by_cases h2 : ofs = t.shiftUseDflt
    · unfold Tables.findShift Tables.findShiftFuel
      rw [h1]; simp [h2]
    · apply findShift_fallback
      intro n
      rw [Tables.findShiftFuel]
      simp only [h1, if_neg h2]
      rw [if_neg (by rw [s.symbols ho, ← hak]; exact Nat.ne_of_lt (hi.perm _ ha).1), hno]
      simp only
      rw [if_neg hk0, hak', if_pos hl0]

end
end Pomelo
