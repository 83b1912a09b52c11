import Verif.Proofs.Compress
import Verif.Proofs.Pack
/-! # The renumbered states and their rows -/

namespace Pomelo

open Spec

variable {g : Grammar}

/-! ## Renumbering -/

/-- One step of counting the entries of a state -/
def Grammar.rstep (g : Grammar) (n : Nat) (st : RState) (a : Action) : RState :=
  match computeAction n g.rules.length (fun s => s) a.detail with
  | none => st
  | some x =>
    let index := (g.sym a.la).index
    if index < g.numTerminals then { st with nTkn := st.nTkn + 1 }
    else if index < g.defaultIndex then { st with nNt := st.nNt + 1 }
    else { st with dflt := x }

theorem rstate_eq (n : Nat) (id : StateId) (l : List Action) : g.rstate n id l =
    l.foldl (g.rstep n) { id := id, actions := l, nTkn := 0, nNt := 0, dflt := n + g.rules.length } := rfl

theorem rstate_fold (n : Nat) (l : List Action) : ∀ (st : RState), (l.foldl (g.rstep n) st).id = st.id ∧
    (l.foldl (g.rstep n) st).actions = st.actions := by
  induction l with
  | nil => intro st; exact ⟨rfl, rfl⟩
  | cons a l ih =>
    intro st
    rw [List.foldl_cons]
    obtain ⟨h1, h2⟩ := ih (g.rstep n st a)
    rw [h1, h2]
    unfold Grammar.rstep
    split
    · exact ⟨rfl, rfl⟩
    · simp only
      split
      · exact ⟨rfl, rfl⟩
      · split <;> exact ⟨rfl, rfl⟩

theorem rstate_id (n : Nat) (id : StateId) (l : List Action) : (g.rstate n id l).id = id := (rstate_fold n l _).1
theorem rstate_actions (n : Nat) (id : StateId) (l : List Action) : (g.rstate n id l).actions = l := (rstate_fold n l _).2

/-- The states before sorting -/
def Grammar.rstates (g : Grammar) (acts : List (List Action)) : List RState := acts.zipIdx.map (fun (l, id) => g.rstate acts.length id l)

theorem rstates_getElem? (acts : List (List Action)) (i : Nat) :
    (g.rstates acts)[i]? = if i < acts.length then some (g.rstate acts.length i (acts.getD i [])) else none := by
  unfold Grammar.rstates
  rw [List.getElem?_map, List.getElem?_zipIdx]
  by_cases h : i < acts.length
  · rw [if_pos h, List.getElem?_eq_getElem h, List.getD_eq_getElem?_getD, List.getElem?_eq_getElem h]
    simp
  · rw [if_neg h, List.getElem?_eq_none (by omega)]
    rfl

theorem resort_perm (acts : List (List Action)) : (g.resortStates acts).Perm (g.rstates acts) := by
  have : g.resortStates acts = match g.rstates acts with
    | [] => []
    | s0 :: rest => s0 :: sortBy resortLt rest := rfl
  rw [this]
  split
  · rename_i h; rw [h]
  · rename_i s0 rest h
    rw [h]
    exact (perm_sortBy _ _).cons _

theorem resort_len (acts : List (List Action)) : (g.resortStates acts).length = acts.length := by
  rw [(resort_perm acts).length_eq]
  unfold Grammar.rstates
  simp

theorem resort_zero (acts : List (List Action)) : (g.resortStates acts)[0]? = (g.rstates acts)[0]? := by
  have : g.resortStates acts = match g.rstates acts with
    | [] => []
    | s0 :: rest => s0 :: sortBy resortLt rest := rfl
  rw [this]
  split
  · rename_i h; rw [h]
  · rename_i s0 rest h; rw [h]; rfl

theorem resort_ids (acts : List (List Action)) : ((g.resortStates acts).map (·.id)).Nodup := by
  rw [((resort_perm acts).map _).nodup_iff]
  have : (g.rstates acts).map (·.id) = List.range acts.length := by
    apply List.ext_getElem?
    intro i
    rw [List.getElem?_map, rstates_getElem?]
    split
    · rename_i h
      rw [Option.map_some, rstate_id, List.getElem?_range h]
    · rename_i h
      rw [List.getElem?_eq_none (by simpa using h)]
      rfl
  rw [this]
  exact List.nodup_range

/-- State `id` is found at its number. -/
theorem resort_get (acts : List (List Action)) {id : StateId} (h : id < acts.length) :
    (g.resortStates acts)[stateNum (g.resortStates acts) id]? = some (g.rstate acts.length id (acts.getD id [])) := by
  have hm : g.rstate acts.length id (acts.getD id []) ∈ g.resortStates acts := by
    rw [(resort_perm acts).mem_iff]
    apply List.mem_of_getElem? (i := id)
    rw [rstates_getElem?, if_pos h]
  have hlt : stateNum (g.resortStates acts) id < (g.resortStates acts).length :=
    List.findIdx_lt_length_of_exists ⟨_, hm, by simp [rstate_id]⟩
  have h1 := List.findIdx_getElem (w := hlt)
  simp only [beq_iff_eq] at h1
  obtain ⟨j, hj, he⟩ := List.mem_iff_getElem.1 hm
  have hnd := resort_ids (g := g) acts
  have hj2 : j = stateNum (g.resortStates acts) id := by
    refine (List.Nodup.getElem_inj_iff hnd (hi := by simpa using hj) (hj := by simpa using hlt)).1 ?_
    rw [List.getElem_map, List.getElem_map, he, rstate_id]
    exact h1.symm
  rw [← hj2, List.getElem?_eq_getElem hj, he]

theorem stateNum_lt (acts : List (List Action)) {id : StateId} (h : id < acts.length) :
    stateNum (g.resortStates acts) id < acts.length := by
  have := resort_get (g := g) acts h
  obtain ⟨h1, _⟩ := List.getElem?_eq_some_iff.1 this
  rw [resort_len] at h1; exact h1

theorem stateNum_inj (acts : List (List Action)) {a b : StateId} (ha : a < acts.length) (hb : b < acts.length)
    (h : stateNum (g.resortStates acts) a = stateNum (g.resortStates acts) b) : a = b := by
  have h1 := resort_get (g := g) acts ha
  rw [h, resort_get (g := g) acts hb] at h1
  have := congrArg (Option.map RState.id) h1
  simp only [Option.map_some, rstate_id, Option.some.injEq] at this
  exact this.symm

theorem stateNum_zero (acts : List (List Action)) (h : 0 < acts.length) : stateNum (g.resortStates acts) 0 = 0 := by
  have h1 := resort_zero (g := g) acts
  rw [rstates_getElem?, if_pos h] at h1
  unfold stateNum
  obtain ⟨hl, he⟩ := List.getElem?_eq_some_iff.1 h1
  rw [List.findIdx_eq hl]
  exact ⟨by rw [he, rstate_id]; rfl, fun j hj => by omega⟩

theorem stateNum_surj (acts : List (List Action)) {pos : Nat} (h : pos < acts.length) :
    ∃ id, id < acts.length ∧ stateNum (g.resortStates acts) id = pos := by
  have hl : pos < (g.resortStates acts).length := by rw [resort_len]; exact h
  have hm : (g.resortStates acts)[pos] ∈ g.rstates acts := (resort_perm acts).mem_iff.1 (List.getElem_mem hl)
  obtain ⟨i, hi⟩ := List.mem_iff_getElem?.1 hm
  rw [rstates_getElem?] at hi
  split at hi
  · rename_i hlt
    refine ⟨i, hlt, ?_⟩
    have h1 := resort_get (g := g) acts hlt
    have hnd := resort_ids (g := g) acts
    obtain ⟨h2, h3⟩ := List.getElem?_eq_some_iff.1 h1
    refine (List.Nodup.getElem_inj_iff hnd (hi := by simpa using h2) (hj := by simpa using hl)).1 ?_
    rw [List.getElem_map, List.getElem_map, h3]
    simp only [Option.some.injEq] at hi
    rw [hi]
  · cases hi

/-! ## Rows -/

theorem computeAction_live {n m : Nat} {f : StateId → Nat} {d : Detail} : (computeAction n m f d).isSome = d.live := by
  cases d <;> rfl

/-- Number of an action in the tables -/
def codeOf (n m : Nat) (f : StateId → Nat) (d : Detail) : Nat := (computeAction n m f d).getD 0

theorem computeAction_some {n m : Nat} {f : StateId → Nat} {d : Detail} (h : d.live = true) : computeAction n m f d = some (codeOf n m f d) := by
  cases d <;> simp_all [codeOf, computeAction, Detail.live]

theorem computeAction_none {n m : Nat} {f : StateId → Nat} {d : Detail} (h : d.live = false) : computeAction n m f d = none := by
  cases d <;> simp_all [computeAction, Detail.live]

theorem rowGet_eq (row : List LaAct) (la : Nat) : rowGet row la = ((row.filter (fun a => a.la == la)).getLast?).map (·.act) := by
  unfold rowGet
  rw [← List.head?_filter, List.filter_reverse, List.head?_reverse]

/-- The row of a state of that kind has room for the symbol. -/
def Grammar.InRow (g : Grammar) (isTkn : Bool) (n : Nat) : Prop :=
  if isTkn then n < g.numTerminals else g.numTerminals ≤ n ∧ n ≠ g.defaultIndex

theorem row_filter {rs : List RState} {k : Bool} {s : SymbolId} (hk : g.InRow k (g.sym s).index) : ∀ {acts : List Action},
    (∀ a ∈ acts, (g.sym a.la).index = (g.sym s).index → a.la = s) →
    (g.row rs k acts).filter (fun a => a.la == (g.sym s).index) =
      (lives (onSym s acts)).map (fun d => ⟨(g.sym s).index, codeOf rs.length g.rules.length (stateNum rs) d⟩) := by
  intro acts
  induction acts with
  | nil => intro _; rfl
  | cons a acts ih =>
    intro hinj
    have ih := ih (fun x hx => hinj x (by simp [hx]))
    have h1 : onSym s (a :: acts) = if a.la = s then a :: onSym s acts else onSym s acts := by
      unfold onSym; rw [List.filter_cons]; simp
    have h2 : g.row rs k (a :: acts) = (g.row rs k [a]) ++ g.row rs k acts := by
      unfold Grammar.row
      rw [← List.filterMap_append]; rfl
    rw [h2, List.filter_append, ih, h1]
    by_cases he : a.la = s
    · rw [if_pos he, lives_cons, List.map_append]
      congr 1
      unfold Grammar.row Grammar.InRow at *
      rw [List.filterMap_cons, List.filterMap_nil]
      simp only [he]
      cases k with
      | true =>
        simp only [if_true] at hk ⊢
        rw [if_neg (by omega)]
        cases hl : a.detail.live with
        | true => rw [computeAction_some hl]; simp
        | false => rw [computeAction_none hl]; simp
      | false =>
        simp only [Bool.false_eq_true, if_false] at hk ⊢
        rw [if_neg (by omega), if_neg hk.2]
        cases hl : a.detail.live with
        | true => rw [computeAction_some hl]; simp
        | false => rw [computeAction_none hl]; simp
    · rw [if_neg he]
      have hne : (g.sym a.la).index ≠ (g.sym s).index := fun e => he (hinj a (by simp) e)
      have : (g.row rs k [a]).filter (fun a => a.la == (g.sym s).index) = [] := by
        rw [List.filter_eq_nil_iff]
        intro x hx
        unfold Grammar.row at hx
        rw [List.filterMap_cons, List.filterMap_nil] at hx
        have key : x.la = (g.sym a.la).index := by
          split at hx
          · cases hx
          · rename_i b hb
            rw [List.mem_singleton] at hx
            subst hx
            simp only at hb
            split at hb
            · split at hb
              · cases hb
              · obtain ⟨_, _, rfl⟩ := Option.map_eq_some_iff.1 hb; rfl
            · split at hb
              · cases hb
              · split at hb
                · cases hb
                · obtain ⟨_, _, rfl⟩ := Option.map_eq_some_iff.1 hb; rfl
        rw [key]
        simpa using hne
      rw [this]; rfl

/-- The entry of a row for a symbol -/
theorem rowGet_row {rs : List RState} {k : Bool} {s : SymbolId} (hk : g.InRow k (g.sym s).index) {acts : List Action}
    (hinj : ∀ a ∈ acts, (g.sym a.la).index = (g.sym s).index → a.la = s) :
    rowGet (g.row rs k acts) (g.sym s).index = (ownOf acts s).map (codeOf rs.length g.rules.length (stateNum rs)) := by
  rw [rowGet_eq, row_filter hk hinj]
  unfold ownOf
  rw [List.getLast?_map, Option.map_map]
  rfl

/-! ## Counts and defaults -/

/-- Live actions are on tokens, nonterminals or the default symbol, not on classes. -/
def Grammar.NoClassLa (g : Grammar) (acts : List Action) : Prop := ∀ a ∈ acts, a.detail.live = true → (g.sym a.la).index ≤ g.defaultIndex

theorem rstate_counts (hd : g.numTerminals ≤ g.defaultIndex) {rs : List RState} (n : Nat) (id : StateId) {acts : List Action} (h : g.NoClassLa acts) :
    (g.rstate n id acts).nTkn = (g.row rs true acts).length ∧ (g.rstate n id acts).nNt = (g.row rs false acts).length := by
  have key : ∀ (l : List Action) (st : RState), g.NoClassLa l →
    (l.foldl (g.rstep n) st).nTkn = st.nTkn + (g.row rs true l).length ∧
    (l.foldl (g.rstep n) st).nNt = st.nNt + (g.row rs false l).length := by
    intro l
    induction l with
    | nil => intro st _; exact ⟨rfl, rfl⟩
    | cons a l ih =>
      intro st hl
      have h2 : ∀ k, g.row rs k (a :: l) = (g.row rs k [a]) ++ g.row rs k l := by
        intro k
        unfold Grammar.row
        rw [← List.filterMap_append]; rfl
      rw [List.foldl_cons, h2, h2, List.length_append, List.length_append]
      obtain ⟨i1, i2⟩ := ih (g.rstep n st a) (fun x hx => hl x (by simp [hx]))
      rw [i1, i2]
      have : (g.rstep n st a).nTkn = st.nTkn + (g.row rs true [a]).length ∧ (g.rstep n st a).nNt = st.nNt + (g.row rs false [a]).length := by
        unfold Grammar.row Grammar.rstep
        simp only [List.filterMap_cons, List.filterMap_nil]
        cases hv : a.detail.live with
        | false => simp [computeAction_none hv]
        | true =>
          have hle := hl a (by simp) hv
          simp only [computeAction_some hv]
          by_cases h3 : (g.sym a.la).index < g.numTerminals
          · simp [h3, Nat.not_le.2 h3]
          · by_cases h4 : (g.sym a.la).index < g.defaultIndex
            · have h5 : (g.sym a.la).index ≠ g.defaultIndex := by omega
              simp [h3, h4, h5, Nat.le_of_not_lt h3]
            · have h5 : (g.sym a.la).index = g.defaultIndex := by omega
              simp [h5, hd, Nat.not_lt.2 hd]
      omega
  obtain ⟨h1, h2⟩ := key acts { id := id, actions := acts, nTkn := 0, nNt := 0, dflt := n + g.rules.length } h
  rw [rstate_eq, h1, h2]
  simp

theorem rstate_dflt (hd : g.numTerminals ≤ g.defaultIndex) (n : Nat) (id : StateId) {dflt : SymbolId} (hdf : (g.sym dflt).index = g.defaultIndex)
    {acts : List Action} (h : g.NoClassLa acts) (hinj : ∀ a ∈ acts, (g.sym a.la).index = (g.sym dflt).index → a.la = dflt) :
    (g.rstate n id acts).dflt = (ownOf acts dflt).elim (n + g.rules.length) (codeOf n g.rules.length (fun s => s)) := by
  have key : ∀ (l : List Action) (st : RState), g.NoClassLa l → (∀ a ∈ l, (g.sym a.la).index = (g.sym dflt).index → a.la = dflt) →
    (l.foldl (g.rstep n) st).dflt = (ownOf l dflt).elim st.dflt (codeOf n g.rules.length (fun s => s)) := by
    intro l
    induction l with
    | nil => intro st _ _; rfl
    | cons a l ih =>
      intro st hl hj
      rw [List.foldl_cons]
      rw [ih (g.rstep n st a) (fun x hx => hl x (by simp [hx])) (fun x hx => hj x (by simp [hx]))]
      have h1 : onSym dflt (a :: l) = if a.la = dflt then a :: onSym dflt l else onSym dflt l := by
        unfold onSym; rw [List.filter_cons]; simp
      unfold ownOf Grammar.rstep
      rw [h1]
      by_cases he : a.la = dflt
      · rw [if_pos he, lives_cons, List.getLast?_append, he, hdf]
        cases hv : a.detail.live with
        | false => simp [computeAction_none hv]
        | true =>
          simp only [computeAction_some hv]
          rw [if_neg (by omega), if_neg (by omega)]
          cases (lives (onSym dflt l)).getLast? <;> simp
      · rw [if_neg he]
        have hne : (g.sym a.la).index ≠ g.defaultIndex := fun e => he (hj a (by simp) (by rw [e, hdf]))
        cases hv : a.detail.live with
        | false => simp [computeAction_none hv]
        | true =>
          have hle := hl a (by simp) hv
          simp only [computeAction_some hv]
          split
          · rfl
          · rw [if_pos (by omega)]
  rw [rstate_eq, key acts _ h hinj]

end Pomelo
