import Verif.Model.States
/-!
# Actions, conflicts, compression, renumbering

`find_actions`, `resolve_conflict`, `compress_tables`, `resort_states`, `compute_action` (mod.rs).
-/

namespace Pomelo

/-- `ActionDetail::cmp` (mod.rs:163-191) as `is_lt`.  `state_num` is still the creation number
when it is called.  Not an order: `reduce < error` while `error` and `reduce` compare equal the
other way round. -/
def Detail.lt (a b : Detail) : Bool :=
  match a, b with
  | .shift sa, .shift sb => sa < sb
  | .shift _, _ => true
  | .accept, .shift _ => false
  | .accept, .accept => false
  | .accept, _ => true
  | .reduce _, .shift _ => false
  | .reduce _, .accept => false
  | .reduce ra, .reduce rb => ra < rb
  | .reduce _, _ => true
  | _, _ => false

/-- `ActionDetail::cmp(..).is_eq()` (mod.rs:163-191) -/
def Detail.cmpEq (a b : Detail) : Bool :=
  match a, b with
  | .shift sa, .shift sb => sa == sb
  | .shift _, _ => false
  | .accept, .accept => true
  | .accept, _ => false
  | .reduce ra, .reduce rb => ra == rb
  | .reduce _, _ => false
  | _, _ => true

/-- `action_cmp` (mod.rs:201-218) as `is_lt` -/
def Grammar.actionLt (g : Grammar) (a b : Action) : Bool :=
  let ia := (g.sym a.la).index
  let ib := (g.sym b.la).index
  ia < ib || (ia == ib && a.detail.lt b.detail)

/-- Reduce actions of one state (mod.rs:1085-1104) -/
def Grammar.reduceActions (g : Grammar) (st : LState) : List Action :=
  st.configs.flatMap (fun c =>
    if c.item.dot = (g.rhsSyms c.item.rule).length then
      (List.range g.numTerminals).filterMap (fun j =>
        if c.fws.contains j then some ⟨g.symbols.getD j 0, .reduce c.item.rule⟩ else none)
    else [])

/-- `precedence_cmp` (mod.rs:30-39) -/
def precedenceCmp (a b : Precedence) : Ordering :=
  if a.level < b.level then .lt
  else if b.level < a.level then .gt
  else match a.assoc with
    | .left => .lt
    | .right => .gt
    | .none => .eq

/-- `resolve_conflict` (mod.rs:1181-1220): the new details of the two actions and whether it is
an unresolved conflict. -/
def Grammar.resolveConflict (g : Grammar) (x y : Action) : Action × Action × Bool :=
  match x.detail, y.detail with
  | .shift _, .shift b => (x, { y with detail := .ssConflict b }, true)
  | .shift a, .reduce b =>
    match (g.sym x.la).precedence, (g.rule b).precedence with
    | some px, some py =>
      match precedenceCmp px py with
      | .lt => ({ x with detail := .shResolved a }, y, false)
      | .eq => ({ x with detail := .error }, y, false)
      | .gt => (x, { y with detail := .rdResolved b }, false)
    | _, _ => (x, { y with detail := .srConflict b }, true)
  | .reduce a, .reduce b =>
    match (g.rule a).precedence, (g.rule b).precedence with
    | some px, some py =>
      match precedenceCmp px py with
      | .lt => ({ x with detail := .rdResolved a }, y, false)
      | .eq => (x, { y with detail := .rrConflict b }, true)
      | .gt => (x, { y with detail := .rdResolved b }, false)
    | _, _ => (x, { y with detail := .rrConflict b }, true)
  | _, _ => (x, y, false)

/-- The inner loop of the conflict search (mod.rs:1131-1145): `x` against the following actions,
up to the first one with another look-ahead. -/
def Grammar.resolveFrom (g : Grammar) (x : Action) : List Action → Action × List Action × Nat
  | [] => (x, [], 0)
  | y :: ys =>
    if x.la = y.la then
      let (x, y, c) := g.resolveConflict x y
      let (x, ys, n) := g.resolveFrom x ys
      (x, y :: ys, n + c.toNat)
    else (x, y :: ys, 0)

/-- The outer loop (mod.rs:1129-1146).  The fuel is the number of actions. -/
def Grammar.resolveAll (g : Grammar) : Nat → List Action → List Action × Nat
  | 0, l => (l, 0)
  | _ + 1, [] => ([], 0)
  | fuel + 1, x :: xs =>
    let (x, xs, n) := g.resolveFrom x xs
    let (xs, m) := g.resolveAll fuel xs
    (x :: xs, n + m)

/-- Sort and conflict resolution of one state (mod.rs:1123-1147) -/
def Grammar.resolveState (g : Grammar) (acts : List Action) : List Action × Nat :=
  let acts := sortBy g.actionLt acts
  g.resolveAll acts.length acts

/-- All actions of a state before conflict resolution (mod.rs:1084-1119) -/
def Grammar.rawActions (g : Grammar) (q : StateId) (st : LState) : List Action :=
  st.actions ++ g.reduceActions st ++ (if q = 0 then [⟨g.start.getD 0, .accept⟩] else [])

/-- Two shifts on one token, one of them to the state `q` itself.  The comparison of the two in
`sort_by` (mod.rs:1123-1125, 170-174) borrows `the_states[q]`, which `get_mut` has borrowed
mutably: `RefCell` panics. -/
def selfShift (q : StateId) (acts : List Action) : Bool :=
  acts.any (fun a => a.detail = .shift q && decide (2 ≤ (acts.filter (fun b => b.la = a.la &&
    (match b.detail with | .shift _ => true | _ => false))).length))

/-- `find_actions` (mod.rs:1079-1166): the action lists of all states and the number of
conflicts, or an error if some rule cannot be reduced. -/
def Grammar.findActions (g : Grammar) (sts : List LState) : Except GErr (List (List Action) × Nat) :=
  if sts.zipIdx.any (fun (st, q) => selfShift q (g.rawActions q st)) then .error .panic
  else
  let res := sts.zipIdx.map (fun (st, q) => g.resolveState (g.rawActions q st))
  let acts := res.map (·.1)
  let n := (res.map (·.2)).sum
  if (List.range g.rules.length).all (fun r =>
      acts.any (fun l => l.any (fun a => a.detail = .reduce r)))
  then .ok (acts, n)
  else .error .cannotReduce

/-! ## `compress_tables` (mod.rs:1231-1375) -/

/-- The walk along the fallback chain (mod.rs:1252-1281): `true` if the action must be ignored.
The chain is followed at most `fuel` steps; a cyclic chain never ends in the code. -/
def Grammar.fallbackDiffers (g : Grammar) (acts : List Action) (d : Detail) : Nat → SymbolId → Except GErr Bool
  | 0, _ => .error .hang
  | fuel + 1, sym =>
    match (g.sym sym).fallback with
    | none => .ok false
    | some fb =>
      match acts.find? (fun a => a.la = fb) with
      | some a2 => if d.cmpEq a2.detail then g.fallbackDiffers acts d fuel fb else .ok true
      | none => g.fallbackDiffers acts d fuel fb

/-- `ignored_actions` (mod.rs:1248-1283) -/
def Grammar.ignoredActions (g : Grammar) (acts : List Action) : Except GErr (List SymbolId) :=
  if g.hasFallback then
    (acts.filterM (fun a => g.fallbackDiffers acts a.detail (g.syms.length + 1) a.la)).map
      (·.map (·.la))
  else .ok []

/-- State of the search of the best default (mod.rs:1238-1240) -/
structure Best where
  nbest : Nat := 0
  rbest : Option RuleId := none
  usesWildcard : Bool := false
  deriving DecidableEq, Repr, Inhabited

/-- Number of further reduces by `rp` (mod.rs:1303-1320) -/
def countReduces (ignored : List SymbolId) (rp : RuleId) (acts : List Action) : Nat :=
  (acts.filter (fun a => !ignored.contains a.la && a.detail = .reduce rp)).length

/-- mod.rs:1285-1328.  `rp2 == rbest` is skipped in the code before the comparison with `rp`;
`rp` itself is not `rbest` there, so the test has no effect. -/
def Grammar.findBest (g : Grammar) (ignored : List SymbolId) (b : Best) : List Action → Best
  | [] => b
  | a :: rest =>
    if ignored.contains a.la then g.findBest ignored b rest
    else
      match a.detail with
      | .shift _ =>
        g.findBest ignored (if g.wildcard = some a.la then { b with usesWildcard := true } else b) rest
      | .reduce rp =>
        if (g.rule rp).lhsStart then g.findBest ignored b rest
        else if b.rbest = some rp then g.findBest ignored b rest
        else
          let n := 1 + countReduces ignored rp rest
          g.findBest ignored (if b.nbest < n then { b with nbest := n, rbest := some rp } else b) rest
      | _ => g.findBest ignored b rest

/-- Whether an action is a reduce by `r` that takes part in the compression -/
def isBest (ignored : List SymbolId) (r : RuleId) (a : Action) : Bool :=
  !ignored.contains a.la && a.detail = .reduce r

/-- mod.rs:1341-1369: the first matching action becomes the default, the others are deleted.
`ignored.contains` is tested on the look-ahead before it is replaced. -/
def makeDefault (ignored : List SymbolId) (dflt : SymbolId) (r : RuleId) : List Action → List Action
  | [] => []
  | a :: rest =>
    if isBest ignored r a then
      { a with la := dflt } ::
        rest.map (fun a => if isBest ignored r a then { a with detail := .notUsed } else a)
    else a :: makeDefault ignored dflt r rest

/-- One state of `compress_tables` (mod.rs:1236-1374).  Without a default the final sort is
skipped (`continue`, mod.rs:1335). -/
def Grammar.compressState (g : Grammar) (dflt : SymbolId) (acts : List Action) :
    Except GErr (List Action) :=
  match g.ignoredActions acts with
  | .error e => .error e
  | .ok ignored =>
    let b := g.findBest ignored {} acts
    match b.rbest with
    | some r =>
      if b.usesWildcard then .ok acts
      else .ok (sortBy g.actionLt (makeDefault ignored dflt r acts))
    | none => .ok acts

/-- `compress_tables` (mod.rs:1231-1375) -/
def Grammar.compressTables (g : Grammar) (acts : List (List Action)) : Except GErr (List (List Action)) :=
  match g.symbolFind .dflt with
  | none => .error .panic
  | some dflt => acts.mapM (g.compressState dflt)

/-! ## `resort_states` -/

/-- `compute_action` (mod.rs:1419-1429); `num` maps state ids to state numbers -/
def computeAction (nstates nrules : Nat) (num : StateId → Nat) : Detail → Option Nat
  | .shift s => some (num s)
  | .reduce r => some (r + nstates)
  | .error => some (nstates + nrules)
  | .accept => some (nstates + nrules + 1)
  | _ => none

/-- Fields of `State` filled by `resort_states` (mod.rs:226-230) -/
structure RState where
  id : StateId
  actions : List Action
  nTkn : Nat
  nNt : Nat
  dflt : Nat
  deriving DecidableEq, Repr, Inhabited

/-- mod.rs:1382-1405.  `state_num` is still the creation number here. -/
def Grammar.rstate (g : Grammar) (nstates : Nat) (id : StateId) (acts : List Action) : RState :=
  acts.foldl (fun st a =>
    match computeAction nstates g.rules.length (fun s => s) a.detail with
    | none => st
    | some x =>
      let index := (g.sym a.la).index
      if index < g.numTerminals then { st with nTkn := st.nTkn + 1 }
      else if index < g.defaultIndex then { st with nNt := st.nNt + 1 }
      else { st with dflt := x })
    { id := id, actions := acts, nTkn := 0, nNt := 0, dflt := nstates + g.rules.length }

/-- `state_resort_cmp` (mod.rs:1747-1751): `a` before `b` iff its triple is larger -/
def resortLt (a b : RState) : Bool :=
  b.nNt < a.nNt || (b.nNt == a.nNt &&
    (b.nTkn < a.nTkn || (b.nTkn == a.nTkn && b.id < a.id)))

/-- `resort_states` (mod.rs:1381-1413): the states in their final order -/
def Grammar.resortStates (g : Grammar) (acts : List (List Action)) : List RState :=
  match acts.zipIdx.map (fun (l, id) => g.rstate acts.length id l) with
  | [] => []
  | s0 :: rest => s0 :: sortBy resortLt rest

/-- The final `state_num` of a state id (mod.rs:1409-1411) -/
def stateNum (sts : List RState) (id : StateId) : Nat := sts.findIdx (fun s => s.id == id)

end Pomelo
