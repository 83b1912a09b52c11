import Verif.Spec.Parse
/-!
# Runs with syntax errors

Derivation trees in which `error` may stand for a part of the input, the moves of a parser that recovers from
errors, and what its result then is. As in `Verif/Spec/Parse.lean` nothing here mentions states, tables or
numbered symbols.
-/

namespace Pomelo.Spec

/-- A derivation tree with leaves `error`: the token at which the error was found, the tokens expected there, and
the value of `%syntax_error` -/
inductive RTree (V : Type) where
  | tok (k : Tok V)
  | error (k : Tok V) (expected : List Nat) (v : V)
  | absent
  | present (t : RTree V)
  | rule (n : Nat) (kids : List (RTree V))

/-- The trees fit the elements of a right-hand side; like `Fits`, and an `error` leaf fits the symbol `error`. -/
inductive RFits {V : Type} (ds : List Decl) (names : List SymName) : List (RTree V) → List RhsElem → Prop
  | nil : RFits ds names [] []
  | tok {k i j e ts es} : names[k.major]? = some (.ident i) → TakenFor ds i j → Matches ds e j →
      RFits ds names ts es → RFits ds names (.tok k :: ts) (e :: es)
  | error {k ex v al ts es} : RFits ds names ts es → RFits ds names (.error k ex v :: ts) (⟨[.error], false, al⟩ :: es)
  | absent {i al ts es} : RFits ds names ts es → RFits ds names (.absent :: ts) (⟨[i], true, al⟩ :: es)
  | present {t i al ts es} : RFits ds names [t] [⟨[i], false, false⟩] → RFits ds names ts es →
      RFits ds names (.present t :: ts) (⟨[i], true, al⟩ :: es)
  | rule {n u kids al ts es} : (rulesOf ds)[n]? = some u → RFits ds names kids u.rhs →
      RFits ds names ts es → RFits ds names (.rule n kids :: ts) (⟨[u.lhs], false, al⟩ :: es)

/-- A derivation tree of the start symbol -/
def IsRTree {V : Type} (ds : List Decl) (names : List SymName) (t : RTree V) : Prop :=
  ∃ s, startOf ds = some s ∧ RFits ds names [t] [⟨[s], false, false⟩]

/-- A tree for the symbol `error`: a leaf, or a written rule for `error` -/
def IsErr {V : Type} (ds : List Decl) (t : RTree V) : Prop :=
  (∃ k ex v, t = .error k ex v) ∨ ∃ n kids u, t = .rule n kids ∧ (rulesOf ds)[n]? = some u ∧ u.lhs = .error

/-- Reading a token, reducing by a written rule, running `%syntax_error`, throwing a token away -/
inductive RMove (V : Type) where
  | read (major : Nat)
  | rule (n : Nat)
  | report (tok : Option (Tok V)) (expected : List Nat)
  | drop (major : Nat)

variable {V X E : Type}

/-- The moves recorded in the log of a parser (newest first), oldest first; `n` is the number of written rules -/
def rmovesOf (n : Nat) (log : List (Event V)) : List (RMove V) :=
  (log.reverse).filterMap fun
    | .shift m => some (.read m)
    | .reduce r _ => if r < n then some (.rule r) else none
    | .syntaxError tok ex => some (.report tok ex)
    | .discard m => some (.drop m)
    | _ => none

/-- A parse with recovery, on a row of trees and their values: the input so far, the trees, the extra argument and
the moves. `er` says whether the parser recovers with the symbol `error`; without it tokens are skipped. -/
inductive Recovery (ds : List Decl) (sem : Sem V X E) (er : Bool) (x0 : X) :
    List (Tok V) → List (RTree V × V) → X → List (RMove V) → Prop
  | start : Recovery ds sem er x0 [] [] x0 []
  /-- a token of the input becomes a tree -/
  | read {toks F x ms} (k : Tok V) : Recovery ds sem er x0 toks F x ms →
      Recovery ds sem er x0 (toks ++ [k]) (F ++ [(.tok k, k.val)]) x (ms ++ [.read k.major])
  /-- the last trees are put together by a rule, whose block runs -/
  | rule {toks F K x ms n u v x'} : Recovery ds sem er x0 toks (F ++ K) x ms → (rulesOf ds)[n]? = some u → K.length = u.rhs.length →
      ruleValue ds sem u (K.map (·.2)) x = (.ok v, x') →
      Recovery ds sem er x0 toks (F ++ [(.rule n (K.map (·.1)), v)]) x' (ms ++ [.rule n])
  | absent {toks F x ms} : Recovery ds sem er x0 toks F x ms → Recovery ds sem er x0 toks (F ++ [(.absent, sem.none)]) x ms
  | present {toks F T v x ms} : Recovery ds sem er x0 toks (F ++ [(T, v)]) x ms →
      Recovery ds sem er x0 toks (F ++ [(.present T, sem.some v)]) x ms
  /-- an error at the token `k` is reported, the last trees and `k` are replaced by `error` -/
  | replace {toks F K x ms k ex v x'} : er = true → Recovery ds sem er x0 toks (F ++ K) x ms → sem.syntaxError (some k) ex x = (.ok v, x') →
      Recovery ds sem er x0 (toks ++ [k]) (F ++ [(.error k ex v, v)]) x' (ms ++ [.report (some k) ex, .drop k.major])
  /-- an error at the token `k` is not reported, the trees after the last `error` and `k` are thrown away -/
  | absorb {toks F T K x ms k} : er = true → Recovery ds sem er x0 toks (F ++ [T] ++ K) x ms → IsErr ds T.1 →
      Recovery ds sem er x0 (toks ++ [k]) (F ++ [T]) x (ms ++ [.drop k.major])
  /-- without `error`: an error at the token `k` is reported and `k` skipped -/
  | report {toks F x ms k ex v x'} : er = false → Recovery ds sem er x0 toks F x ms → sem.syntaxError (some k) ex x = (.ok v, x') →
      Recovery ds sem er x0 (toks ++ [k]) F x' (ms ++ [.report (some k) ex, .drop k.major])
  /-- without `error`: `k` is skipped -/
  | skip {toks F x ms} (k : Tok V) : er = false → Recovery ds sem er x0 toks F x ms →
      Recovery ds sem er x0 (toks ++ [k]) F x (ms ++ [.drop k.major])

/-! ## What is left of the input -/

/-- A leaf of a tree: a token of the input, or `error` with the token at which the error was found -/
inductive Leaf (V : Type) where
  | tok (k : Tok V)
  | error (k : Tok V)

mutual
/-- The leaves of a tree from left to right -/
def RTree.leaves : RTree V → List (Leaf V)
  | .tok k => [.tok k]
  | .error k _ _ => [.error k]
  | .absent => []
  | .present t => t.leaves
  | .rule _ kids => RTree.leavess kids
def RTree.leavess : List (RTree V) → List (Leaf V)
  | [] => []
  | t :: ts => t.leaves ++ RTree.leavess ts
end

mutual
/-- Tokens, written rules and errors of a tree in postorder -/
def RTree.post : RTree V → List (RMove V)
  | .tok k => [.read k.major]
  | .error k ex _ => [.report (some k) ex, .drop k.major]
  | .absent => []
  | .present t => t.post
  | .rule n kids => RTree.posts kids ++ [.rule n]
def RTree.posts : List (RTree V) → List (RMove V)
  | [] => []
  | t :: ts => t.post ++ RTree.posts ts
end

/-- The leaves are the input in which some parts have been replaced by `error`; each part contains the token at
which the error was found. -/
inductive Repairs : List (Tok V) → List (Leaf V) → Prop
  | nil : Repairs [] []
  | keep {ts ls k} : Repairs ts ls → Repairs (ts ++ [k]) (ls ++ [.tok k])
  | cut {ts ls d k} : Repairs ts ls → k ∈ d → Repairs (ts ++ d) (ls ++ [.error k])

mutual
/-- The tree as a derivation tree, if there is no `error` in it -/
def RTree.plain? : RTree V → Option (Tree V)
  | .tok k => some (.tok k)
  | .error _ _ _ => none
  | .absent => some .absent
  | .present t => t.plain?.map .present
  | .rule n kids => (RTree.plains? kids).map (.rule n)
def RTree.plains? : List (RTree V) → Option (List (Tree V))
  | [] => some []
  | t :: ts => t.plain?.bind fun t => (RTree.plains? ts).map (t :: ·)
end

mutual
/-- Value of a tree if the results of the blocks do not depend on the extra argument (`x` stands for any) -/
def RTree.value (ds : List Decl) (sem : Sem V X E) (x : X) : RTree V → Except E V
  | .tok k => .ok k.val
  | .error _ _ v => .ok v
  | .absent => .ok sem.none
  | .present t => (t.value ds sem x).map sem.some
  | .rule n kids =>
    match RTree.values ds sem x kids, (rulesOf ds)[n]? with
    | .ok vs, some u => (ruleValue ds sem u vs x).1
    | .ok _, none => .ok sem.unit
    | .error e, _ => .error e
def RTree.values (ds : List Decl) (sem : Sem V X E) (x : X) : List (RTree V) → Except E (List V)
  | [] => .ok []
  | t :: ts =>
    match t.value ds sem x, RTree.values ds sem x ts with
    | .ok v, .ok vs => .ok (v :: vs)
    | .error e, _ => .error e
    | _, .error e => .error e
end

/-- The results of the blocks of rules do not depend on the extra argument. -/
def PureBlocks (sem : Sem V X E) : Prop := ∀ n vs x y, (sem.user n vs x).1 = (sem.user n vs y).1

/-- The declaration names the symbol `error`. -/
def namesError : Decl → Bool
  | .type _ id _ => id == .error
  | .startSymbol id => id == .error
  | .rule lhs rhs _ _ => lhs == .error || rhs.any (fun e => e.toks == [.error])
  | _ => false

end Pomelo.Spec
