import Verif.Model.Tables
/-!
# The comparisons handed to `sort_by`, as they are written: with three outcomes

The other files of the model only need whether the outcome is `Less`, which is all that the sort asks for.
-/

namespace Pomelo

/-- The sort of `symbols` (mod.rs:607-618) -/
def Grammar.symbolCmp (g : Grammar) (a b : SymbolId) : Ordering := compare (g.sym a).kind.ord (g.sym b).kind.ord

/-- `config_cmp` (mod.rs:136-146): the pairs of rule and dot -/
def Item.cmp (a b : Item) : Ordering := (compare a.rule b.rule).then (compare a.dot b.dot)

/-- `ActionDetail::cmp` (mod.rs:162-192); before `resort_states` the number of a state is its id -/
def Detail.cmp (a b : Detail) : Ordering :=
  match a with
  | .shift sa => match b with
    | .shift sb => compare sa sb
    | _ => .lt
  | .accept => match b with
    | .shift _ => .gt
    | .accept => .eq
    | _ => .lt
  | .reduce ra => match b with
    | .shift _ => .gt
    | .accept => .gt
    | .reduce rb => compare ra rb
    | _ => .lt
  | _ => .eq

/-- `action_cmp` (mod.rs:201-218) -/
def Grammar.actionCmp (g : Grammar) (a b : Action) : Ordering :=
  match compare (g.sym a.la).index (g.sym b.la).index with
  | .eq => a.detail.cmp b.detail
  | rc => rc

/-- `state_resort_cmp` (mod.rs:1747-1751) -/
def resortCmp (a b : RState) : Ordering := (compare b.nNt a.nNt).then ((compare b.nTkn a.nTkn).then (compare b.id a.id))

/-- `sort_by_key` of the rows (mod.rs:2280) -/
def Ax.cmp (a b : Ax) : Ordering := compare a.n b.n

end Pomelo
