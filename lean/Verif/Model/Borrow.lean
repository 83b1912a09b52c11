import Verif.Model.Sort
/-!
# Borrows: `vecref.rs` and the passes that hold more than one borrow of an arena

`VecRef::get` and `get_mut` are `RefCell::borrow` and `borrow_mut` of one cell (vecref.rs:22-27), which panic if the cell is
borrowed in a way that does not allow it.  The traces below list the borrows of a pass in the order in which they are made and
given back.  Only the passes are listed in which a cell of an arena may be borrowed mutably while another borrow of a cell of
the same arena is alive; all others take one borrow at a time or only shared ones.
-/

namespace Pomelo

/-- The cells: `the_symbols`, `the_rules`, `the_states`, `the_configs` (mod.rs:235-238), and the actions of a state, each in a
`RefCell` of its own (mod.rs:225) -/
inductive Cell where
  | symbol (s : SymbolId)
  | rule (r : RuleId)
  | state (q : StateId)
  | config (c : CRef)
  | action (q : StateId) (i : Nat)
  deriving DecidableEq, Repr

/-- `get` and `get_mut` (vecref.rs:22-27) or `borrow` and `borrow_mut`, and the end of the scope of the guard -/
inductive BorrowEv where
  | get (c : Cell)
  | getMut (c : Cell)
  | drop (c : Cell)
  deriving DecidableEq, Repr

/-- One event with the borrows that are alive, `true` for mutable ones.  `none` is the panic of `RefCell`. -/
def borrowStep (live : List (Cell × Bool)) : BorrowEv → Option (List (Cell × Bool))
  | .get c => if live.any (fun b => b.1 = c && b.2) then none else some ((c, false) :: live)
  | .getMut c => if live.any (fun b => b.1 = c) then none else some ((c, true) :: live)
  | .drop c => some (live.eraseP (fun b => b.1 = c))

/-- A sequence of events -/
def borrowRun (live : List (Cell × Bool)) : List BorrowEv → Option (List (Cell × Bool))
  | [] => some live
  | e :: es => (borrowStep live e).bind (fun live => borrowRun live es)

/-! ## `find_first_sets` -/

/-- The loop over the right-hand side (mod.rs:801-840), with the data of `firstRhs` -/
def firstRhsEvents (s1 : SymbolId) (acc : List Symbol × Bool) : List RhsSym → List BorrowEv
  | [] => []
  | x :: xs =>
    let s2 := x.sym
    if s1 = s2 then
      [.get (.symbol s1), .drop (.symbol s1)] ++ (if (acc.1.getD s1 default).isLambda then firstRhsEvents s1 acc xs else [])
    else
      let b2 := acc.1.getD s2 default
      [.get (.symbol s2), .getMut (.symbol s1)] ++
      match b2.kind with
      | .terminal => [.drop (.symbol s1), .drop (.symbol s2)]
      | .multiTerminal => b2.subs.flatMap (fun ss => [.get (.symbol ss), .drop (.symbol ss)]) ++ [.drop (.symbol s1), .drop (.symbol s2)]
      | .nonTerminal => [.drop (.symbol s1), .drop (.symbol s2)] ++
        (if b2.lambda then firstRhsEvents s1 (growFirst acc s1 b2.firstSet) xs else [])

/-- One pass over the rules, from number `i` (mod.rs:798-841) -/
def firstPassEvents (i : Nat) (acc : List Symbol × Bool) : List Rule → List BorrowEv
  | [] => []
  | r :: rs => .get (.rule i) :: firstRhsEvents r.lhs acc r.rhs ++ .drop (.rule i) :: firstPassEvents (i + 1) (firstRhs r.lhs acc r.rhs) rs

/-- The second loop (mod.rs:795-845) -/
def firstLoopEvents (rules : List Rule) : Nat → List Symbol → List BorrowEv
  | 0, _ => []
  | fuel + 1, syms =>
    firstPassEvents 0 (syms, false) rules ++
      let (syms, progress) := rules.foldl (fun acc r => firstRhs r.lhs acc r.rhs) (syms, false)
      if progress then firstLoopEvents rules fuel syms else []

/-- `find_first_sets` (mod.rs:763-846); the first loop holds one borrow of a symbol at a time. -/
def Grammar.firstEvents (g : Grammar) : List BorrowEv :=
  match lambdaLoop g.rules (g.syms.length + 1) g.syms with
  | .error _ => []
  | .ok syms => firstLoopEvents g.rules (g.syms.length * g.syms.length + 1) syms

/-! ## Links -/

/-- The back links of a new basis go to the existing state `k` (mod.rs:903-907); the new configurations are those of a state that
is not made. -/
def mergeEvents (sts : List LState) (k : StateId) (bp : List Cfg) : List BorrowEv :=
  .get (.state k) :: bp.flatMap (fun x => [.getMut (.config ⟨k, x.item⟩), .get (.config ⟨sts.length, x.item⟩),
    .drop (.config ⟨sts.length, x.item⟩), .drop (.config ⟨k, x.item⟩)]) ++ [.drop (.state k)]

/-- `find_links` (mod.rs:1029-1035); the loop does not change the links it follows. -/
def linksEvents (sts : List LState) : List BorrowEv :=
  sts.zipIdx.flatMap fun (st, q) =>
    .get (.state q) :: st.configs.flatMap (fun c =>
      .get (.config ⟨q, c.item⟩) :: c.bplp.flatMap (fun p => [.getMut (.config p), .drop (.config p)]) ++ [.drop (.config ⟨q, c.item⟩)]) ++
    [.drop (.state q)]

/-! ## Sorting and resolving the actions of a state -/

/-- `action_cmp` (mod.rs:201-218) of the actions number `i` and `j` of the state `q` -/
def Grammar.cmpEvents (g : Grammar) (q : StateId) (acts : List Action) (p : Nat × Nat) : List BorrowEv :=
  let a := acts.getD p.1 default
  let b := acts.getD p.2 default
  [.get (.action q p.1), .get (.action q p.2), .get (.symbol a.la), .get (.symbol b.la), .drop (.symbol b.la), .drop (.symbol a.la)] ++
  (if (g.sym a.la).index = (g.sym b.la).index then
    match a.detail, b.detail with
    | .shift sa, .shift sb => [.get (.state sa), .get (.state sb), .drop (.state sb), .drop (.state sa)]
    | .reduce ra, .reduce rb => [.get (.rule ra), .get (.rule rb), .drop (.rule rb), .drop (.rule ra)]
    | _, _ => []
  else []) ++
  [.drop (.action q p.2), .drop (.action q p.1)]

/-- `the_states.get_mut(stp).actions.sort_by(..)` (mod.rs:1124-1126, 1371-1373) if the sort compares the given pairs of actions, which are
numbered as they were before the sort -/
def Grammar.sortEvents (g : Grammar) (q : StateId) (acts : List Action) (pairs : List (Nat × Nat)) : List BorrowEv :=
  .getMut (.state q) :: pairs.flatMap (g.cmpEvents q acts) ++ [.drop (.state q)]

/-- The comparison of the look-aheads of two actions and their resolution (mod.rs:1133-1143): the guards of the condition are gone
when the actions are borrowed mutably; `resolve_conflict` (mod.rs:1181-1220) only reads symbols and rules. -/
def resolveEvents (q : StateId) (i j : Nat) (same : Bool) : List BorrowEv :=
  [.get (.action q i), .get (.action q j), .drop (.action q j), .drop (.action q i)] ++
  (if same then [.getMut (.action q i), .getMut (.action q j), .drop (.action q j), .drop (.action q i)] else [])

/-! ## Types -/

/-- One round of the loop that fills `dt_num` (mod.rs:2138-2168) -/
def Grammar.typeEvents1 (g : Grammar) (s : SymbolId) : List BorrowEv :=
  if g.wildcard = some s then []
  else .getMut (.symbol s) :: (match (g.sym s).kind, (g.sym s).subs with
    | .multiTerminal, f :: _ => [.get (.symbol f), .drop (.symbol f)]
    | _, _ => []) ++ [.drop (.symbol s)]

/-- The loop that fills `dt_num` (mod.rs:2138-2168) -/
def Grammar.typeEvents (g : Grammar) (l : List SymbolId) : List BorrowEv := l.flatMap g.typeEvents1

end Pomelo
