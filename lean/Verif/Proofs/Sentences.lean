import Verif.Proofs.Goes
/-! # Running the parser on the tokens of a derivation tree -/

namespace Pomelo

open Spec

variable {V X E : Type}

theorem Grammar.Plain.forest {g : Grammar} {ts : List (GTree V)} {γ : List SymbolId} (h : g.Plain ts γ) : g.Forest ts γ := by
  induction h with
  | nil => exact .nil
  | leaf h1 h2 h3 h4 h5 _ ih => exact .leaf h1 h2 h3 h4 .self h5 ih
  | node h1 _ _ ih1 ih2 => exact .node h1 ih1 ih2

/-- The root of a tree of the start symbol, and the moves that build its children -/
theorem Grammar.Plain.root {g : Grammar} {sts : List LState} (hi : GInv g) (ha : Auto g sts) {T : GTree V} (h : g.Plain [T] [g.start.getD 0]) :
    ∃ r kids q', T = .node r kids ∧ (g.rule r).lhs = g.start.getD 0 ∧ g.Moves sts 0 kids 0 (g.rhsSyms r) q' ∧ g.CanReduce sts q' 0 r := by
  have h0 : (0 : SymbolId) < g.syms.length := Nat.lt_of_lt_of_le Nat.zero_lt_two hi.two
  generalize hS : g.start.getD 0 = S at h
  generalize hγ : [S] = γ at h
  cases h with
  | leaf _ _ _ _ h5 _ =>
    simp only [List.cons.injEq] at hγ
    exfalso
    have := Reads.kind h5
    rw [← hγ.1, ← hS] at this
    exact this hi.start_kind.1
  | @node r kids _ _ hr hk _ =>
    simp only [List.cons.injEq] at hγ
    have hlhs : RuleOf g (g.start.getD 0) r := ⟨hr, by rw [hS, ← hγ.1]⟩
    obtain ⟨q', hm⟩ := hk.moves hi ha (δ := []) (q := 0) (c := ⟨r, 0⟩) (n := 0) .nil (.start hlhs) rfl ⟨0, h0, hi.dollar.2.1, hi.dollar.2.2⟩
    refine ⟨r, kids, q', rfl, hγ.1.symm, hm, h0, hi.dollar.2.1, ?_⟩
    rw [hi.dollar.2.2]
    refine (la_iff hi ha).2 ⟨g.rhsSyms r, hm.path .nil, ?_⟩
    have : ∀ d, d ≤ (g.rhsSyms r).length → Ahead g ((g.rhsSyms r).take d) ⟨r, d⟩ 0 := by
      intro d
      induction d with
      | zero => intro _; exact .start hlhs
      | succ d ihd =>
        intro hdl
        have e := ihd (Nat.le_of_succ_le hdl)
        have hX : atDot g (⟨r, d⟩ : Item) = some ((g.rhsSyms r)[d]'hdl) := List.getElem?_eq_getElem hdl
        have := Ahead.shift e hX
        rwa [List.take_append_getElem] at this
    have := this _ (Nat.le_refl _)
    rwa [List.take_length] at this

/-! ## Runs over tokens with their stack values -/

section
variable {t : Tables} {sem : Sem V X E}

/-- Feeding tokens given with their stack values -/
def runPend (t : Tables) (sem : Sem V X E) (fuel : Nat) (p : Parser V X) : List (Nat × Minor V) → Option (Res V X E Unit)
  | [] => some (.ok p ())
  | (n, mn) :: rest =>
    match parseToken t sem fuel p n mn with
    | some (.ok p ()) => runPend t sem fuel p rest
    | r => r

theorem runPend_mono {fuel k : Nat} {p : Parser V X} {inp : List (Nat × Minor V)} {r : Res V X E Unit} (h : runPend t sem fuel p inp = some r) (hk : fuel ≤ k) :
    runPend t sem k p inp = some r := by
  induction inp generalizing p with
  | nil => exact h
  | cons c rest ih =>
    obtain ⟨n, mn⟩ := c
    simp only [runPend] at h ⊢
    cases hp : parseToken t sem fuel p n mn with
    | none => rw [hp] at h; cases h
    | some o =>
      rw [hp] at h
      rw [parseToken_mono hp hk]
      cases o with
      | ok p1 u => exact ih h
      | err => exact h
      | panic => exact h

theorem Goes.run {p p2 : Parser V X} {inp inp2 : List (Nat × Minor V)} (h : Goes t sem p inp p2 inp2) {fuel : Nat} {r : Res V X E Unit}
    (h2 : runPend t sem fuel p2 inp2 = some r) : ∃ fuel, runPend t sem fuel p inp = some r := by
  induction h with
  | refl => exact ⟨fuel, h2⟩
  | @again p p1 p2 n mn inp inp2 a1 a2 a3 _ _ ih =>
    obtain ⟨f, hf⟩ := ih h2
    refine ⟨f + 1, ?_⟩
    simp only [runPend] at hf ⊢
    have hp : parseToken t sem (f + 1) p n mn = parseToken t sem f p1 n mn := by
      simp only [parseToken, a1, a2, loop, a3]
    rw [hp]
    cases hq : parseToken t sem f p1 n mn with
    | none => rw [hq] at hf; cases hf
    | some o =>
      rw [hq] at hf
      cases o with
      | ok p3 u => exact runPend_mono hf (Nat.le_succ f)
      | err => exact hf
      | panic => exact hf
  | @next p p1 p2 n mn inp inp2 a1 a2 a3 _ _ ih =>
    obtain ⟨f, hf⟩ := ih h2
    refine ⟨f + 1, ?_⟩
    have hp : parseToken t sem (f + 1) p n mn = some (.ok p1 ()) := by simp only [parseToken, a1, loop, a3, Option.map_some]
    simp only [runPend, hp]
    exact runPend_mono hf (Nat.le_succ f)

theorem Stops.run {p p2 : Parser V X} {inp : List (Nat × Minor V)} {e : E} (h : Stops t sem p inp p2 e) :
    ∃ fuel, runPend t sem fuel p inp = some (.err { p2 with status := .failed } e) := by
  obtain ⟨p1, n, mn, inp1, h1, h2, h3, _⟩ := h
  refine h1.run (fuel := 1) ?_
  have hp : parseToken t sem 1 p1 n mn = some (.err { p2 with status := .failed } e) := by simp only [parseToken, h2, loop, h3, Option.map_some]
  simp only [runPend, hp]

theorem runPend_last {p p2 : Parser V X} {n : Nat} {mn : Minor V} {v : V} (h : p.status = .normal) (hstep : step t sem p n mn = .again p2) (h2 : p2.status = .accepted v) :
    runPend t sem 2 p [(n, mn)] = some (.ok p2 ()) := by
  simp only [runPend, parseToken, h, loop, hstep, h2, Option.map_some]

/-- `runAll` is a run over the tokens and the end of input. -/
theorem runAll_eq {fuel : Nat} {x : X} {toks : List (Tok V)} :
    runAll t sem fuel x toks = (runPend t sem fuel (Parser.new sem x) (toks.map (t.tokenValue sem) ++ [(0, ⟨0, sem.unit⟩)])).map (fun r =>
      match r with
      | .panic w => .panic w
      | .err p e => .err p e
      | .ok p () =>
        match p.status with
        | .accepted v => .ok p v
        | _ => .panic .noData) := by
  have key : ∀ (toks : List (Tok V)) (p : Parser V X),
      (match feed t sem fuel p toks with
        | none => none
        | some (.ok p ()) => endOfInput t sem fuel p
        | some (.err p e) => some (.err p e)
        | some (.panic w) => some (.panic w)) =
      (runPend t sem fuel p (toks.map (t.tokenValue sem) ++ [(0, ⟨0, sem.unit⟩)])).map (fun r =>
        match r with
        | .panic w => .panic w
        | .err p e => .err p e
        | .ok p () =>
          match p.status with
          | .accepted v => .ok p v
          | _ => .panic .noData) := by
    intro toks
    induction toks with
    | nil =>
      intro p
      simp only [feed, List.map_nil, List.nil_append, runPend, endOfInput]
      cases hp : parseToken t sem fuel p 0 ⟨0, sem.unit⟩ with
      | none => rfl
      | some o => cases o <;> rfl
    | cons k ks ih =>
      intro p
      simp only [feed, List.map_cons, List.cons_append, parse]
      rw [runPend]
      cases hp : parseToken t sem fuel p (t.tokenValue sem k).1 (t.tokenValue sem k).2 with
      | none => rfl
      | some o =>
        cases o with
        | ok p1 u => exact ih p1
        | err => rfl
        | panic => rfl
  exact key toks _

end

section
variable {ord : List (SymbolId × SymbolId) → List (SymbolId × SymbolId)} {ds : List Decl} {t : Tables} {s : CSpec ord ds t} {dflt : SymbolId}

/-- What the parser does with the tokens of a tree whose moves it finds in the table -/
theorem Made.accepts (m : Made s dflt) (ho : OrdOk ord) (hf : flat ds = true) (b : Bridge ord ds s.g) (hw : s.AliasW)
    (hR : s.RootTyped) (sem : Sem V X E) {r : RuleId} {kids : List (GTree V)} {q' : StateId} (hl : (s.g.rule r).lhs = s.g.start.getD 0)
    (hd : PDrive s 0 kids 0 (s.g.rhsSyms r) q') (hc : s.g.CanReduce s.sts q' 0 r) (hlook : t.findShift (s.num q') 0 = .ok (t.nState + r))
    (hv : ∀ tok ∈ (GTree.node r kids).yield, tok.Valid t sem) (x : X) :
    (∃ v p, (GTree.node r kids).eval t sem x = (.ok v, p.extra) ∧ p.status = .accepted (if t.rootDt.isSome then v else sem.unit) ∧ onlyMoves p.trace = true ∧ Room t 1 (GTree.needs kids) ∧
      ∃ fuel, runPend t sem fuel (Parser.new sem x) ((GTree.node r kids).yield.map (t.tokenValue sem) ++ [(0, ⟨0, sem.unit⟩)]) = some (.ok p ())) ∨
    (∃ e p, (GTree.node r kids).eval t sem x = (.error e, p.extra) ∧ p.status = .failed ∧ onlyMoves p.trace = true ∧
      ∃ fuel, runPend t sem fuel (Parser.new sem x) ((GTree.node r kids).yield.map (t.tokenValue sem) ++ [(0, ⟨0, sem.unit⟩)]) = some (.err p e)) ∨
    (t.stackLimit ≠ 0 ∧ ¬ Room t 1 (GTree.needs kids) ∧ ∃ e p tok tr, p.trace = .stackOverflow tok :: tr ∧ p.status = .failed ∧ noSyntaxError p.trace = true ∧
      ∃ fuel, runPend t sem fuel (Parser.new sem x) ((GTree.node r kids).yield.map (t.tokenValue sem) ++ [(0, ⟨0, sem.unit⟩)]) = some (.err p e)) := by
  have hnew : Stk s (Parser.new sem x).stack [] 0 := .base rfl rfl
  have hrl := (canReduce_rule m.inv m.auto hc).1
  rcases m.follow ho hf b hw sem hd (by simpa [GTree.yield] using hv) (p := Parser.new sem x) (mn := ⟨0, sem.unit⟩) (inp := []) rfl hnew with
    ⟨ws, p1, es, a1, a2, a3, a4, a5, a6, a7, a8⟩ | ⟨e, p2, a1, a2, a9⟩ | ⟨⟨p2, e, tok, tr, a1, a2, a3⟩, a4⟩
  · have hred := m.read_node ho hf b hw sem a4 hnew a6 a7 hc
    rw [a5] at hred
    have hstep : step t sem p1 0 ⟨0, sem.unit⟩ = (match reduce t sem p1 r with
        | .panic w => .done (.panic w)
        | .err p e => .done (.err p e)
        | .ok p () => .again p) := by
      obtain ⟨top, rest, hd⟩ : ∃ top rest, p1.stack = top :: rest := by
        cases hd : p1.stack with
        | nil => have := a6.length; rw [hd] at this; simp at this
        | cons a b => exact ⟨a, b, rfl⟩
      have htop := a6
      rw [hd] at htop
      have htop := htop.top m
      have hn : t.nRule = s.g.rules.length := m.tab.nRule
      unfold step
      rw [hd]
      simp only [htop, hlook]
      rw [if_neg (by exact Nat.not_lt.2 (Nat.le_add_right _ _)), if_pos (by rw [hn]; exact Nat.add_lt_add_left hrl _), Nat.add_sub_cancel_left]
      cases reduce t sem p1 r <;> rfl
    have ha1 : GTree.evals t sem kids x = (.ok ws, p1.extra) := a1
    rcases hcode : runCode sem (t.ruleCode.getD r default).code (pickArgs (t.ruleCode.getD r default).pats ws) p1.extra with ⟨e | v, x'⟩
    · rw [hcode] at hred
      simp only at hred
      rw [hred] at hstep
      right; left
      have hst : Stops t sem (Parser.new sem x) _ _ e := a2.stops ⟨p1, _, _, _, .refl, a3, hstep, [_], rfl, rfl⟩
      obtain ⟨f, hrun⟩ := hst.run
      rw [GTree.yield]
      refine ⟨e, _, ?_, ?_, ?_, f, hrun⟩
      · simp only [GTree.eval, ha1, hcode]
      · rfl
      · have := a2.moves rfl
        simp only [onlyMoves, List.all_cons] at this ⊢
        rw [this]; rfl
    · rw [hcode] at hred
      simp only [if_pos hl] at hred
      left
      have hacc : ∀ p : Parser V X, accept t sem p ⟨s.tag (s.g.rule r).lhs, v⟩ = .ok { p with status := .accepted (if t.rootDt.isSome then v else sem.unit), stack := [] } () := by
        intro p
        unfold accept
        cases hr : t.rootDt with
        | none => rfl
        | some n =>
          have := hR n hr
          rw [hl]
          simp only [this, if_true, Option.isSome_some]
      rw [hacc] at hred
      rw [hred] at hstep
      simp only at hstep
      have hlast := runPend_last a3 hstep rfl
      obtain ⟨f, hrun⟩ := a2.run hlast
      rw [GTree.yield]
      refine ⟨v, _, ?_, ?_, ?_, a8, f, hrun⟩
      · simp only [GTree.eval, ha1, hcode]
      · rfl
      · have := a2.moves rfl
        simp only [onlyMoves, List.all_cons] at this ⊢
        rw [this]; rfl
  · right; left
    have ha1 : GTree.evals t sem kids x = (.error e, p2.extra) := a1
    exact ⟨e, { p2 with status := .failed }, by simp only [GTree.eval, ha1], rfl, a9 rfl, by simpa only [GTree.yield] using a2.run⟩
  · right; right
    exact ⟨a3, a4, e, { p2 with status := .failed }, tok, tr, a2, rfl, by exact a1.noSyntax rfl, by simpa only [GTree.yield] using a1.run⟩

end

end Pomelo
