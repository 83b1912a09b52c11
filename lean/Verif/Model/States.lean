import Verif.Model.First
/-!
# LR(0) states and propagation links

`find_states`, `get_state`, `build_shifts`, `configlist_closure`, `add_config`, `state_find`,
`find_links` (mod.rs).

In the code configurations live in an arena and are referred to by `ConfigId`.  A configuration
belongs to exactly one state, in which `(rule, dot)` is unique (`add_config`), so the model
refers to it by `(state, rule, dot)`.
-/

namespace Pomelo

/-- Key of a configuration inside its state (mod.rs:128-129) -/
structure Item where
  rule : RuleId
  dot : Nat
  deriving DecidableEq, Repr, Inhabited

/-- Stands for a `ConfigId` (mod.rs:44) -/
structure CRef where
  state : StateId
  item : Item
  deriving DecidableEq, Repr, Inhabited

/-- `struct Config` (mod.rs:127-134); `status` as a flag, used by `find_follow_sets` only (its
use in `build_shifts` is replaced by removing configurations from a list). -/
structure Cfg where
  item : Item
  fws : List Nat := []
  fplp : List CRef := []
  bplp : List CRef := []
  complete : Bool := false
  deriving DecidableEq, Repr, Inhabited

/-- `enum ActionDetail` (mod.rs:149-160) -/
inductive Detail where
  | shift (s : StateId)
  | accept
  | reduce (r : RuleId)
  | error
  | ssConflict (s : StateId)
  | srConflict (r : RuleId)
  | rrConflict (r : RuleId)
  | shResolved (s : StateId)
  | rdResolved (r : RuleId)
  | notUsed
  deriving DecidableEq, Repr, Inhabited

/-- `struct Action` (mod.rs:196-199) -/
structure Action where
  la : SymbolId
  detail : Detail
  deriving DecidableEq, Repr, Inhabited

/-- `struct State` (mod.rs:221-231) without the fields filled by `resort_states` and
`generate_source`, which the model computes in separate structures.  `basis` keeps only the
keys (the follow sets and links of a basis configuration are those of the equal configuration
in `configs`: in the code it is the same `ConfigId`). -/
structure LState where
  configs : List Cfg
  basis : List Item
  actions : List Action := []
  deriving DecidableEq, Repr, Inhabited

/-- `config_cmp` (mod.rs:136-146) as a strict order -/
def Item.lt (a b : Item) : Bool := a.rule < b.rule || (a.rule == b.rule && a.dot < b.dot)

/-- Symbols after position `dot` of a rule -/
def Grammar.rhsSyms (g : Grammar) (r : RuleId) : List SymbolId := (g.rule r).rhs.map (·.sym)

/-- `add_config` (mod.rs:1654-1674) -/
def addConfig (cur : List Cfg) (i : Item) : List Cfg :=
  if cur.any (fun c => c.item = i) then cur else cur ++ [{ item := i }]

/-- `the_configs.get_mut(id)` followed by an assignment -/
def modifyCfg (cur : List Cfg) (i : Item) (f : Cfg → Cfg) : List Cfg :=
  cur.map (fun c => if c.item = i then f c else c)

/-- The loop over `rhs[dot + 1..]` (mod.rs:1612-1641): the terminals that can follow and the
flag `broken`. -/
def Grammar.followOf (g : Grammar) : List SymbolId → List Nat × Bool
  | [] => ([], false)
  | x :: xs =>
    let b := g.sym x
    match b.kind with
    | .terminal => ([b.index], true)
    | .multiTerminal => (b.subs.map (fun k => (g.sym k).index), true)
    | .nonTerminal =>
      if b.lambda then
        let (rest, broken) := g.followOf xs
        (setUnion b.firstSet rest, broken)
      else (b.firstSet, true)

/-- Adds the rule `newrp` to the closure because of configuration `c` (mod.rs:1610-1645).
`sid` is the id the state under construction will get. -/
def closeRule (sid : StateId) (c : Item) (follow : List Nat × Bool)
    (cur : List Cfg) (newrp : RuleId) : List Cfg :=
  let cur := addConfig cur ⟨newrp, 0⟩
  let cur := modifyCfg cur ⟨newrp, 0⟩ (fun k => { k with fws := setUnion k.fws follow.1 })
  if follow.2 then cur
  else modifyCfg cur c (fun k => { k with fplp := k.fplp ++ [⟨sid, ⟨newrp, 0⟩⟩] })

/-- One iteration of the closure loop for configuration `c` (mod.rs:1592-1647) -/
def Grammar.closeItem (g : Grammar) (sid : StateId) (cur : List Cfg) (c : Item) :
    Except GErr (List Cfg) :=
  match (g.rhsSyms c.rule)[c.dot]? with
  | none => .ok cur
  | some sp =>
    match (g.sym sp).kind with
    | .nonTerminal =>
      if (g.sym sp).rules.isEmpty && sp ≠ g.errorSymbol then .error .noRulesFor
      else .ok ((g.sym sp).rules.foldl
        (closeRule sid c (g.followOf ((g.rhsSyms c.rule).drop (c.dot + 1)))) cur)
    | _ => .ok cur

/-- `configlist_closure` (mod.rs:1588-1652); the list only grows by items `(r, 0)`, so
`cur.length + rules.length + 1` iterations are enough. -/
def Grammar.closureLoop (g : Grammar) (sid : StateId) : Nat → Nat → List Cfg → Except GErr (List Cfg)
  | 0, _, _ => .error .fuel
  | fuel + 1, i, cur =>
    match cur[i]? with
    | none => .ok cur
    | some c =>
      match g.closeItem sid cur c.item with
      | .error e => .error e
      | .ok cur => g.closureLoop sid fuel (i + 1) cur

/-- See `closureLoop`. -/
def Grammar.closure (g : Grammar) (sid : StateId) (cur : List Cfg) : Except GErr (List Cfg) :=
  g.closureLoop sid (cur.length + g.rules.length + 1) 0 cur

/-- Symbol after the dot -/
def Grammar.next (g : Grammar) (i : Item) : Option SymbolId := (g.rhsSyms i.rule)[i.dot]?

/-- Actions for a transition on `sp` (mod.rs:991-1009): one per member of a multi-terminal -/
def Grammar.shiftActions (g : Grammar) (sp : SymbolId) (target : StateId) : List Action :=
  match (g.sym sp).kind with
  | .multiTerminal => (g.sym sp).subs.map (fun ss => ⟨ss, .shift target⟩)
  | _ => [⟨sp, .shift target⟩]

/-- Basis of the successor on `sp` (mod.rs:954-983): every configuration with `sp` after the dot,
with the dot moved and a link back to the original. -/
def Grammar.shiftBasis (g : Grammar) (sid : StateId) (sp : SymbolId) (pending : List Cfg) : List Cfg :=
  (pending.filter (fun c => g.next c.item = some sp)).map
    (fun c => { item := ⟨c.item.rule, c.item.dot + 1⟩, bplp := [⟨sid, c.item⟩] })

/-- The loop of `build_shifts` (mod.rs:945-1010).  `pending` are the configurations not yet
marked complete, in order; `get` is `get_state`.  The fuel is the number of configurations. -/
def Grammar.shiftsLoop (g : Grammar)
    (get : List LState → List Cfg → Except GErr (List LState × StateId)) (sid : StateId) :
    Nat → List LState → List Cfg → List Action → Except GErr (List LState × List Action)
  | 0, sts, _, aps => .ok (sts, aps)
  | fuel + 1, sts, pending, aps =>
    match pending with
    | [] => .ok (sts, aps)
    | c :: rest =>
      match g.next c.item with
      | none => g.shiftsLoop get sid fuel sts rest aps
      | some sp =>
        match get sts (g.shiftBasis sid sp (c :: rest)) with
        | .error e => .error e
        | .ok (sts, new) =>
          g.shiftsLoop get sid fuel sts
            (rest.filter (fun c => g.next c.item ≠ some sp)) (aps ++ g.shiftActions sp new)

/-- `bp.sort_by(config_cmp)` -/
def sortCfgs (l : List Cfg) : List Cfg := sortBy (fun a b => a.item.lt b.item) l

/-- mod.rs:904-907: the back links of the new basis go to the existing one -/
def mergeBack (st : LState) (bp : List Cfg) : LState :=
  bp.foldl (fun st x =>
    { st with configs := modifyCfg st.configs x.item (fun y => { y with bplp := y.bplp ++ x.bplp }) }) st

/-- `get_state` with `build_shifts` (mod.rs:895-1014).  The recursion creates a state with a new
basis at every level; the fuel is a bound on the number of bases. -/
def Grammar.getState (g : Grammar) : Nat → List LState → List Cfg → Except GErr (List LState × StateId)
  | 0, _, _ => .error .fuel
  | fuel + 1, sts, cur =>
    let bp := sortCfgs cur
    match sts.findIdx? (fun s => s.basis = bp.map (·.item)) with
    | some k => .ok (sts.modify k (fun st => mergeBack st bp), k)
    | none =>
      let id := sts.length
      match g.closure id cur with
      | .error e => .error e
      | .ok configs =>
        let configs := sortCfgs configs
        let sts := sts ++ [{ configs := configs, basis := bp.map (·.item) }]
        match g.shiftsLoop (g.getState fuel) id configs.length sts configs [] with
        | .error e => .error e
        | .ok (sts, aps) =>
          .ok (sts.modify id (fun st => { st with actions := st.actions ++ aps }), id)

/-- Number of items of the grammar: every basis is a set of items. -/
def Grammar.numItems (g : Grammar) : Nat := (g.rules.map (fun r => r.rhs.length + 1)).sum

/-- Basis of the first state (mod.rs:874-886) -/
def Grammar.startBasis (g : Grammar) (sp : SymbolId) : List Cfg :=
  match (g.sym sp).kind with
  | .nonTerminal => (g.sym sp).rules.foldl (fun cur rp =>
      modifyCfg (addConfig cur ⟨rp, 0⟩) ⟨rp, 0⟩ (fun c => { c with fws := setInsert c.fws 0 })) []
  | _ => []

/-- Sets `lhs_start` (mod.rs:881) -/
def Grammar.markStart (g : Grammar) (sp : SymbolId) : Grammar :=
  match (g.sym sp).kind with
  | .nonTerminal =>
    { g with rules := (g.sym sp).rules.foldl (fun rs rp =>
        rs.modify rp (fun r => { r with lhsStart := true })) g.rules }
  | _ => g

/-- `find_states` (mod.rs:852-890) -/
def Grammar.findStates (g : Grammar) : Except GErr (Grammar × List LState) :=
  let sp := g.start.getD 0
  if g.rules.any (fun r => r.rhs.any (fun s => s.sym = sp)) then .error .startOnRhs
  else
    let basis := g.startBasis sp
    let g := g.markStart sp
    match g.getState (2 ^ g.numItems + 1) [] basis with
    | .error e => .error e
    | .ok (sts, _) => .ok (g, sts)

/-! ## Propagation links -/

/-- `the_configs.get_mut(id)` for a configuration of some state -/
def modifyRef (sts : List LState) (r : CRef) (f : Cfg → Cfg) : List LState :=
  sts.modify r.state (fun st => { st with configs := modifyCfg st.configs r.item f })

/-- All configurations of all states, in the order of the loops -/
def allRefs (sts : List LState) : List CRef :=
  sts.zipIdx.flatMap (fun (st, q) => st.configs.map (fun c => ⟨q, c.item⟩))

/-- `the_configs.get(id)` -/
def getRef (sts : List LState) (r : CRef) : Cfg :=
  ((sts.getD r.state default).configs.find? (fun c => c.item = r.item)).getD default

/-- `find_links` (mod.rs:1017-1036) -/
def findLinks (sts : List LState) : List LState :=
  (allRefs sts).foldl (fun sts r =>
    (getRef sts r).bplp.foldl (fun sts plp =>
      modifyRef sts plp (fun c => { c with fplp := c.fplp ++ [r] })) sts) sts

/-! ## Follow sets -/

/-- Propagation to one link (mod.rs:1063-1069) -/
def propagate (fws : List Nat) (acc : List LState × Bool) (plp : CRef) : List LState × Bool :=
  let old := (getRef acc.1 plp).fws
  let new := setUnion old fws
  if old.length < new.length then
    (modifyRef acc.1 plp (fun c => { c with fws := new, complete := false }), true)
  else acc

/-- Body of the loop for one configuration (mod.rs:1055-1071) -/
def followStep (acc : List LState × Bool) (r : CRef) : List LState × Bool :=
  let c := getRef acc.1 r
  if c.complete then acc
  else
    let acc := c.fplp.foldl (propagate c.fws) acc
    (modifyRef acc.1 r (fun c => { c with complete := true }), acc.2)

/-- `while progress` (mod.rs:1051-1074) -/
def followLoop : Nat → List LState → Except GErr (List LState)
  | 0, _ => .error .fuel
  | fuel + 1, sts =>
    let (sts, progress) := (allRefs sts).foldl followStep (sts, false)
    if progress then followLoop fuel sts else .ok sts

/-- `find_follow_sets` (mod.rs:1043-1075) -/
def findFollowSets (nsyms : Nat) (sts : List LState) : Except GErr (List LState) :=
  followLoop ((allRefs sts).length * nsyms + 1)
    (sts.map (fun st => { st with configs := st.configs.map (fun c => { c with complete := false }) }))

end Pomelo
