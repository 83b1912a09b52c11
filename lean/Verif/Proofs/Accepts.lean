import Verif.Proofs.Never
import Verif.Proofs.Root
import Verif.Spec.Calls
/-! # Accepting is the reduction of a rule of the start symbol -/

namespace Pomelo

open Spec

variable {ord : List (SymbolId × SymbolId) → List (SymbolId × SymbolId)} {ds : List Decl} {t : Tables} {V X E : Type}

theorem CSpec.reduce_accepts (ho : OrdOk ord) (s : CSpec ord ds t) {sem : Sem V X E} {p p' : Parser V X} {r : Nat} (hp : p.status = .normal)
    (h : reduce t sem p r = .ok p' ()) : p'.status = .normal ∨
      ∃ v w, p'.status = .accepted v ∧ RootReduced ds t sem p' w ∧ v = if t.rootDt.isSome then w else sem.unit := by
  have hi := s.ginv ho
  rcases reduce_cases t sem p r with ⟨w, h1⟩ | ⟨rc, vs, hrc, _, _, ⟨e, x, _, h1⟩ | ⟨v, x, lhs, top, rest, act, hcode, h2, _, h3, ⟨h4, h1⟩ | ⟨h4, h5, h1⟩⟩⟩
  · rw [h1] at h; cases h
  · rw [h1] at h; cases h
  · rw [h1] at h
    rcases shift_cases t sem { p with stack := p.stack.drop rc.pats.length, extra := x, trace := .reduce r vs :: p.trace } act lhs ⟨rc.lhsDt, v⟩ with
      ⟨_, _, h6⟩ | ⟨_, h6⟩
    · rw [h6] at h; cases h
    · rw [h6] at h; cases h; exact .inl hp
  · right
    obtain ⟨n1, n2⟩ := s.nStates ho
    have hrl : r < t.nRule := by
      have := (List.getElem?_eq_some_iff.1 h2).1
      rw [s.gen.ruleInfo, List.length_map] at this
      rw [s.gen.nRule]; exact this
    have hlhs : (s.g.rule r).lhs = s.g.start.getD 0 := by
      by_contra hne
      rcases s.findReduce_harmless ho hrl hne h2 h3 with h | h | ⟨r', h, h', _⟩ <;> omega
    obtain ⟨b⟩ := bridge ho s.decls s.auto
    obtain ⟨st, i, g1, g2, g3, g4, g5⟩ := b.start_name hi
    rw [g1, Option.getD_some] at hlhs
    rw [n2] at hrl
    obtain ⟨u, hu⟩ : ∃ u, (rulesOf ds)[r]? = some u := by
      by_cases hlt : r < (rulesOf ds).length
      · exact ⟨_, List.getElem?_eq_getElem hlt⟩
      · obtain ⟨o, o1, o2, _⟩ := b.unwritten ho hrl (by omega)
        obtain ⟨_, _, _, k, _, o3⟩ := b.opt_name o1
        rw [← o2, hlhs, g3] at o3; cases o3
    obtain ⟨_, _, u3, _⟩ := b.written ho hu
    have hui : u.lhs = i := by rw [hlhs, g3] at u3; injection u3 with e; exact e.symm
    have hrcD : t.ruleCode.getD r default = rc := by rw [List.getD_eq_getElem?_getD, hrc]; rfl
    rw [h1] at h
    unfold accept at h
    split at h
    · rename_i n hn
      split at h
      · cases h
        exact ⟨v, v, rfl, ⟨r, u, vs, p.trace, p.extra, rfl, hu, by rw [hui]; exact g4, by rw [hrcD]; exact hcode⟩, by rw [hn]; rfl⟩
      · cases h
    · rename_i hn
      cases h
      exact ⟨sem.unit, v, rfl, ⟨r, u, vs, p.trace, p.extra, rfl, hu, by rw [hui]; exact g4, by rw [hrcD]; exact hcode⟩, by rw [hn]; rfl⟩

end Pomelo
