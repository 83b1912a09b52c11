import Verif.Proofs.Never
import Verif.Spec.Calls
/-! # The panic "after failure" does not come from inside a call -/

namespace Pomelo

open Spec

variable {ord : List (SymbolId × SymbolId) → List (SymbolId × SymbolId)} {ds : List Decl} {t : Tables} {V X E : Type}

theorem findShiftFuel_panic {t : Tables} {st : Nat} : ∀ {fuel la : Nat} {w : Panic}, t.findShiftFuel st fuel la = .error w → w ≠ .afterFailure := by
  have hd : ∀ {w}, t.dfltAct st = .error w → w ≠ .afterFailure := by
    intro w h
    unfold Tables.dfltAct at h
    split at h
    · cases h
    · cases h; decide
  intro fuel
  induction fuel with
  | zero => intro la w h; cases h; decide
  | succ fuel ih =>
    intro la w h
    unfold Tables.findShiftFuel at h
    split at h
    · exact hd h
    · split at h
      · exact hd h
      · split at h
        · cases h; decide
        · split at h
          · cases h
          · split at h
            · exact hd h
            · split at h
              · exact ih h
              · split at h
                · split at h
                  · cases h
                  · exact hd h
                · exact hd h

theorem findReduce_panic {t : Tables} {st la : Nat} {w : Panic} (h : t.findReduce st la = .error w) : w ≠ .afterFailure := by
  have hd : ∀ {w}, t.dfltAct st = .error w → w ≠ .afterFailure := by
    intro w h
    unfold Tables.dfltAct at h
    split at h
    · cases h
    · cases h; decide
  unfold Tables.findReduce at h
  split at h
  · split at h
    · exact hd h
    · cases h; decide
  · split at h
    · cases h; decide
    · split at h
      · cases h; decide
      · split at h
        · cases h
        · split at h
          · exact hd h
          · cases h; decide

theorem reduce_panic {t : Tables} {sem : Sem V X E} {p : Parser V X} {r : Nat} {w : Panic} (h : reduce t sem p r = .panic w) : w ≠ .afterFailure := by
  unfold reduce at h
  split at h
  · cases h; decide
  · split at h
    · cases h; decide
    · simp only at h
      split at h
      · cases h; decide
      · split at h
        · cases h
        · split at h
          · cases h; decide
          · split at h
            · cases h; decide
            · split at h
              · rename_i hf; cases h; exact findReduce_panic hf
              · split at h
                · unfold shift at h; simp only at h; split at h <;> cases h
                · split at h
                  · rcases accept_cases t sem _ _ with ha | ⟨v, ha⟩
                    · rw [ha] at h; cases h; decide
                    · rw [ha] at h; cases h
                  · cases h; decide

theorem expected_panic {t : Tables} {s : Nat} {w : Panic} (h : t.expected s = .error w) : w ≠ .afterFailure := by
  unfold Tables.expected at h
  unfold List.filterM at h
  suffices H : ∀ (l acc : List Nat) (w : Panic), List.filterAuxM (fun la => (t.findShift s la).map (fun a => decide (a < t.nState + t.nRule))) l acc = .error w →
      w ≠ .afterFailure by
    cases hx : List.filterAuxM (fun la => (t.findShift s la).map (fun a => decide (a < t.nState + t.nRule))) ((List.range t.numTerminals).drop 1) [] with
    | error w' => rw [hx] at h; cases h; exact H _ _ _ hx
    | ok l => rw [hx] at h; cases h
  intro l
  induction l with
  | nil => intro acc w h; cases h
  | cons a l ih =>
    intro acc w h
    unfold List.filterAuxM at h
    cases hf : t.findShift s a with
    | error w' => rw [hf] at h; cases h; exact findShiftFuel_panic hf
    | ok c => rw [hf] at h; exact ih _ _ h

theorem recover_panic {t : Tables} {sem : Sem V X E} {major : Nat} {m : Minor V} {ex : List Nat} : ∀ {stk : List (Entry V)} {p : Parser V X} {w : Panic},
    recover t sem major m ex stk p = .panic w → w ≠ .afterFailure := by
  intro stk
  induction stk with
  | nil => intro p w h; cases h
  | cons top rest ih =>
    intro p w h
    unfold recover at h
    split at h
    · cases h
    · split at h
      · rename_i hf; cases h; exact findReduce_panic hf
      · split at h
        · split at h
          · rename_i hs
            rcases syntaxError_cases t sem { p with stack := top :: rest } major m ex with ⟨e', x, _, h3⟩ | ⟨v, x, _, h3⟩ <;> rw [h3] at hs <;> cases hs
          · cases h
          · unfold shift at h; simp only at h; split at h <;> cases h
        · exact ih h

theorem onError_panic {t : Tables} {sem : Sem V X E} {p : Parser V X} {top : Entry V} {major : Nat} {m : Minor V} {w : Panic}
    (h : onError t sem p top major m = .panic w) : w ≠ .afterFailure := by
  unfold onError at h
  split at h
  · cases h
  · split at h
    · rename_i he; cases h; exact expected_panic he
    · split at h
      · split at h
        · rename_i hr; cases h; exact recover_panic hr
        · cases h
        · split at h
          · cases h
          · cases h
      · split at h
        · split at h
          · rename_i hs
            rcases syntaxError_cases t sem p major m _ with ⟨e', x, _, h3⟩ | ⟨v, x, _, h3⟩ <;> rw [h3] at hs <;> cases hs
          · cases h
          · cases h
        · cases h

theorem loop_panic {t : Tables} {sem : Sem V X E} {major : Nat} {m : Minor V} : ∀ {fuel : Nat} {p : Parser V X} {w : Panic},
    loop t sem major m fuel p = some (.panic w) → w ≠ .afterFailure := by
  intro fuel
  induction fuel with
  | zero => intro p w h; cases h
  | succ fuel ih =>
    intro p w h
    unfold loop at h
    split at h
    · split at h
      · rename_i r hst
        cases h
        unfold step at hst
        split at hst
        · cases hst; decide
        · split at hst
          · rename_i hf; cases hst; exact findShiftFuel_panic hf
          · split at hst
            · split at hst
              · cases hst; decide
              · split at hst
                · rename_i hs
                  unfold shift at hs; simp only at hs; split at hs <;> cases hs
                · cases hst
                · cases hst
            · split at hst
              · split at hst
                · rename_i hr; cases hst; exact reduce_panic hr
                · cases hst
                · cases hst
              · split at hst
                · simp only [Step.done.injEq] at hst
                  exact onError_panic hst
                · cases hst; decide
      · exact ih h
    · cases h

theorem normal_parse {t : Tables} {sem : Sem V X E} {p : Parser V X} (hp : p.status = .normal) : NoPanic t sem p (· = .afterFailure) := by
  have key : ∀ {fuel major m w}, parseToken t sem fuel p major m = some (.panic w) → w ≠ .afterFailure := by
    intro fuel major m w h
    rcases parseToken_inv h with ⟨_, h2⟩ | ⟨_, r', h1, h2⟩
    · exact absurd hp h2
    · rcases h2 with ⟨_, _, _, h2⟩ | ⟨_, h2⟩
      · cases h2
      · subst h2; exact loop_panic h1
  refine ⟨fun tok fuel w _ h => key h, fun fuel w h => ?_⟩
  unfold endOfInput at h
  obtain ⟨r, hr, h⟩ := Option.map_eq_some_iff.1 h
  cases r with
  | panic w' => cases h; exact key hr
  | err p e => cases h
  | ok p u =>
    simp only at h
    split at h
    · cases h
    · cases h; decide

theorem OkReach.normal (ho : OrdOk ord) (hc : compile ord ds = .ok t) {sem : Sem V X E} {p : Parser V X} (h : OkReach t sem p) : p.status = .normal := by
  obtain ⟨s⟩ := compile_cspec hc
  induction h with
  | new x => rfl
  | extra x _ ih => exact ih
  | @parse p p' tok fuel _ hv hp ih =>
    rcases parseToken_inv hp with ⟨h1, _⟩ | ⟨_, r', h1, h2⟩
    · cases h1
    · rcases h2 with ⟨_, _, _, h2⟩ | ⟨_, h2⟩
      · cases h2
      · subst h2; exact s.loop_status ho sem (s.token_index hv.pos hv.lt) ih h1

end Pomelo
