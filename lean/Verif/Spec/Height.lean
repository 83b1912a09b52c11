import Verif.Spec.Parse
/-!
# How high the stack of a bottom-up parser gets

A tree is built from left to right: while a subtree is built, the subtrees to its left take one
entry each. A whole input also needs the bottom entry; its last reduction adds nothing.
-/

namespace Pomelo.Spec

variable {V : Type}

mutual
/-- The entries that building a tree adds at most -/
def Tree.need : Tree V → Nat
  | .tok _ => 1
  | .absent => 1
  | .present t => t.need
  | .rule _ kids => max 1 (Tree.needs kids)
def Tree.needs : List (Tree V) → Nat
  | [] => 0
  | t :: ts => max t.need (1 + Tree.needs ts)
end

/-- The height that the stack has at most while the input with this tree is read -/
def Tree.height : Tree V → Nat
  | .rule _ kids => 1 + Tree.needs kids
  | _ => 1

/-- The size of the stack: the last `%stack_size`, or 100; 0 is no limit -/
def stackSizeOf (ds : List Decl) : Nat :=
  (ds.reverse.findSome? fun | .stackSize n _ => some n | _ => none).getD 100

/-- The stack is large enough for the tree. -/
def HasRoom (ds : List Decl) (T : Tree V) : Prop := stackSizeOf ds = 0 ∨ T.height ≤ stackSizeOf ds

instance (ds : List Decl) (T : Tree V) : Decidable (HasRoom ds T) := inferInstanceAs (Decidable (_ ∨ _))

end Pomelo.Spec
