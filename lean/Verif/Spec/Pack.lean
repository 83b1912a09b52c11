import Verif.Model.Tables
/-! # Rows placed in one table -/

namespace Pomelo.Spec

/-- A row as `generate_source` passes it: not empty, the symbol numbers increase. -/
def ProperRow (row : List LaAct) : Prop := row ≠ [] ∧ row.Pairwise (fun a b => a.la < b.la)

instance (row : List LaAct) : Decidable (ProperRow row) := inferInstanceAs (Decidable (_ ∧ _))

/-- Places rows one after the other, starting with the table `t`; the offsets in the order of the rows. -/
def insertAll (t : ActTab) : List (List LaAct) → Option (ActTab × List Int)
  | [] => some (t, [])
  | row :: rows => match t.insert row with
    | none => none
    | some (t, o) => (insertAll t rows).map (fun (t, os) => (t, o :: os))

/-- What the generated parser finds for the symbol number `la` with the offset `o`: the action in the
cell `o + la` if that cell is labelled `la`. -/
def sees (t : ActTab) (o : Int) (la : Nat) : Option Nat :=
  if o + la < 0 then none
  else match t[(o + la).toNat]? with
    | some (some a) => if a.la = la then some a.act else none
    | _ => none

/-- What the row says about the symbol number `la` -/
def wants (row : List LaAct) (la : Nat) : Option Nat := (row.find? (fun a => a.la == la)).map (·.act)

/-- The row has one entry, and as many cells at the end of the table as its number wants are labelled 0. -/
def tight (t : ActTab) (row : List LaAct) : Bool :=
  match row with
  | [a] => decide (1 ≤ a.la) && decide (a.la ≤ t.length) && (t.drop (t.length - a.la)).all (fun c => match c with
    | some b => b.la == 0
    | none => false)
  | _ => false

/-- No row is tight when it is placed. -/
def noneTight (t : ActTab) : List (List LaAct) → Bool
  | [] => true
  | row :: rows => !tight t row && match t.insert row with
    | none => true
    | some (t, _) => noneTight t rows

end Pomelo.Spec
