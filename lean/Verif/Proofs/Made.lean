import Verif.Proofs.Lookup
import Verif.Proofs.Fallback
/-! # Everything known about a successful run -/

namespace Pomelo

open Spec

variable {ord : List (SymbolId × SymbolId) → List (SymbolId × SymbolId)} {ds : List Decl} {t : Tables}

/-- Position of a state in the tables -/
def CSpec.num (s : CSpec ord ds t) : StateId → Nat := stateNum (s.g.resortStates s.acts')

/-- The tables come from the LALR(1) automaton of the grammar. -/
structure Made (s : CSpec ord ds t) (dflt : SymbolId) : Prop where
  inv : GInv s.g
  auto : Auto s.g s.sts
  noStart : s.g.NoStart
  aspec : ActsSpec s.g s.sts s.acts
  dlt : dflt < s.g.syms.length
  dname : (s.g.sym dflt).name = .dflt
  didx : (s.g.sym dflt).index = s.g.defaultIndex
  len : s.acts'.length = s.sts.length
  comp : ∀ q, q < s.sts.length → ∃ d ig, CompSpec s.g dflt (s.acts.getD q []) (s.acts'.getD q []) d ig
  las : LasOk s.g s.acts
  las' : LasOk s.g s.acts'
  tab : TabSpec s.g s.acts' dflt s.num t (apart ord ds = true)

theorem Grammar.CanShift.kind {g : Grammar} {sts : List LState} (hi : GInv g) (ha : Auto g sts) (hf : g.Flat) {q k : StateId} {s : SymbolId}
    (h : g.CanShift sts q s k) : (g.sym s).kind ≠ .multiTerminal := by
  obtain ⟨X, hX, hm⟩ := h
  obtain ⟨r, hr, hx⟩ := hX.rhs hi ha
  rcases (mem_shiftActions.1 hm).2 with ⟨h1, h2⟩ | ⟨h1, h2⟩
  · simp only at h2
    rw [hf r hr X hx s h2]; simp
  · simp only at h2
    rw [h2]; exact h1

theorem apart_iff (s : CSpec ord ds t) : apart ord ds = ownRows s.g (s.g.resortStates s.acts') s.gen.p := by
  have hp : s.g.pack (s.g.resortStates s.acts') = some s.gen.p := by rw [← s.gen.shape.pack]; exact s.gen.pack
  unfold apart tableRun
  rw [s.decls]
  simp only [bind, Except.bind]
  rw [s.auto]
  simp only
  rw [s.actions]
  simp only
  rw [s.compress]
  simp only
  rw [hp]
  rfl

theorem CSpec.made (ho : OrdOk ord) (hf : flat ds = true) (s : CSpec ord ds t) : ∃ dflt, Made s dflt := by
  have hi := s.ginv ho
  have ha := automaton_auto ho s.decls s.auto
  have hb := bridge ho s.decls s.auto
  obtain ⟨b⟩ := hb
  have hfl := b.flat ho hf
  have hsp := findActions_spec hi ha b.levels b.noStart s.actions
  obtain ⟨dflt, d1, d2, d3, d4, d5⟩ := compressTables_spec hi s.compress
  have hlen : s.acts'.length = s.sts.length := by rw [d4, hsp.len]
  have hst := hi.start_kind
  have hl : LasOk s.g s.acts := by
    refine ⟨?_, ?_, ?_⟩
    · intro q hq a haa
      rcases hsp.las q (hsp.len ▸ hq) a haa with ⟨k, hk⟩ | ⟨r, hr⟩ | ⟨_, he⟩
      · exact hk.lt hi ha
      · exact hr.1
      · rw [he]; exact hst.2.1
    · intro q hq a haa
      rcases hsp.las q (hsp.len ▸ hq) a haa with ⟨k, hk⟩ | ⟨r, hr⟩ | ⟨_, he⟩
      · exact hk.kind hi ha hfl
      · rw [hr.2.1]; simp
      · rw [he, hst.1]; simp
    · intro q hq
      exact (hsp.sorted q (hsp.len ▸ hq)).le
  have hdk : (s.g.sym dflt).kind = .nonTerminal := hi.default_name d1 d2
  have hl' : LasOk s.g s.acts' := by
    refine ⟨?_, ?_, ?_⟩
    · intro q hq a haa
      have hq' : q < s.acts.length := d4 ▸ hq
      obtain ⟨d, ig, hc⟩ := d5 q hq'
      rcases hc.las haa with h | ⟨x, hx, he⟩
      · rw [h]; exact d1
      · rw [← he]; exact hl.lt q hq' x hx
    · intro q hq a haa
      have hq' : q < s.acts.length := d4 ▸ hq
      obtain ⟨d, ig, hc⟩ := d5 q hq'
      rcases hc.las haa with h | ⟨x, hx, he⟩
      · rw [h, hdk]; simp
      · rw [← he]; exact hl.kind q hq' x hx
    · intro q hq
      have hq' : q < s.acts.length := d4 ▸ hq
      obtain ⟨d, ig, hc⟩ := d5 q hq'
      exact hc.sorted (hl.sorted q hq')
  exact ⟨dflt, hi, ha, b.noStart, hsp, d1, d3, d2, hlen, fun q hq => d5 q (hsp.len ▸ hq), hl, hl',
    tabSpec hi hl' d1 d2 s.gen (fun h => by rw [← apart_iff s]; exact h)⟩

end Pomelo
