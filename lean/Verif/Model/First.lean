import Verif.Model.Prepare
/-!
# `find_first_sets` (mod.rs:763-846)

Both loops run until a pass makes no progress.  The model bounds the number of passes by the
size of what can grow, plus one; `Verif/Proofs` shows the bound is never reached.
-/

namespace Pomelo

/-- Body of the first loop for one rule (mod.rs:767-788) -/
def lambdaStep (acc : List Symbol × Bool) (r : Rule) : List Symbol × Bool :=
  if (acc.1.getD r.lhs default).isLambda then acc
  else if r.rhs.all (fun s => (acc.1.getD s.sym default).isLambda) then
    (acc.1.modify r.lhs (fun b => { b with lambda := true }), true)
  else acc

/-- First loop (mod.rs:764-793) -/
def lambdaLoop (rules : List Rule) : Nat → List Symbol → Except GErr (List Symbol)
  | 0, _ => .error .fuel
  | fuel + 1, syms =>
    let (syms, progress) := rules.foldl lambdaStep (syms, false)
    if progress then lambdaLoop rules fuel syms else .ok syms

/-- Adds to the first set of `s` the elements of `add`; the flag tells whether it grew
(mod.rs:817, 822, 831-833) -/
def growFirst (acc : List Symbol × Bool) (s : SymbolId) (add : List Nat) : List Symbol × Bool :=
  let old := (acc.1.getD s default).firstSet
  let new := setUnion old add
  (acc.1.modify s (fun b => { b with firstSet := new }),
   acc.2 || old.length < new.length)

/-- Body of the second loop for the right-hand side of one rule (mod.rs:801-840) -/
def firstRhs (s1 : SymbolId) (acc : List Symbol × Bool) : List RhsSym → List Symbol × Bool
  | [] => acc
  | x :: xs =>
    let s2 := x.sym
    if s1 = s2 then
      if (acc.1.getD s1 default).isLambda then firstRhs s1 acc xs else acc
    else
      let b2 := acc.1.getD s2 default
      match b2.kind with
      | .terminal => growFirst acc s1 [b2.index]
      | .multiTerminal => growFirst acc s1 (b2.subs.map (fun ss => (acc.1.getD ss default).index))
      | .nonTerminal =>
        let acc := growFirst acc s1 b2.firstSet
        if b2.lambda then firstRhs s1 acc xs else acc

/-- Second loop (mod.rs:795-845) -/
def firstLoop (rules : List Rule) : Nat → List Symbol → Except GErr (List Symbol)
  | 0, _ => .error .fuel
  | fuel + 1, syms =>
    let (syms, progress) := rules.foldl (fun acc r => firstRhs r.lhs acc r.rhs) (syms, false)
    if progress then firstLoop rules fuel syms else .ok syms

/-- `find_first_sets` (mod.rs:763-846) -/
def Grammar.findFirstSets (g : Grammar) : Except GErr Grammar :=
  match lambdaLoop g.rules (g.syms.length + 1) g.syms with
  | .error e => .error e
  | .ok syms =>
    match firstLoop g.rules (g.syms.length * g.syms.length + 1) syms with
    | .error e => .error e
    | .ok syms => .ok { g with syms := syms }

end Pomelo
