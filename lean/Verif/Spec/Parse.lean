import Verif.Model.Runtime
import Verif.Spec.Decls
/-!
# Derivation trees over the written rules, and their values

Nothing here mentions states, tables or numbered symbols: only the declarations, the names of the
tokens and the meaning of the user's blocks.
-/

namespace Pomelo.Spec

/-- A derivation tree: a token of the input, an absent or present optional symbol, or a written
rule (by its position) with a tree for every element of its right-hand side -/
inductive Tree (V : Type) where
  | tok (k : Tok V)
  | absent
  | present (t : Tree V)
  | rule (n : Nat) (kids : List (Tree V))

/-- What an input token may be taken for: itself, a fallback, the wildcard -/
inductive TakenFor (ds : List Decl) : Ident → Ident → Prop
  | self {i} : TakenFor ds i i
  | fallback {i f j} : fallbackOf ds i = some f → TakenFor ds f j → TakenFor ds i j
  | wildcard {i w} : wildcardOf ds = some w → TakenFor ds i w

/-- An element of a right-hand side matches the token `j`: it is the token, a class of which it is
a member, or a compound of which it is a member. (A `?` after a compound has no effect.) -/
def Matches (ds : List Decl) (e : RhsElem) (j : Ident) : Prop :=
  match e.toks with
  | [i] => e.optional = false ∧ if isClass ds i then j ∈ classMembers ds i else j = i
  | toks => j ∈ toks

/-- The trees fit the elements of a right-hand side, one each. `names` are the names of the tokens
by number. -/
inductive Fits {V : Type} (ds : List Decl) (names : List SymName) : List (Tree V) → List RhsElem → Prop
  | nil : Fits ds names [] []
  | tok {k i j e ts es} : names[k.major]? = some (.ident i) → TakenFor ds i j → Matches ds e j →
      Fits ds names ts es → Fits ds names (.tok k :: ts) (e :: es)
  | absent {i al ts es} : Fits ds names ts es → Fits ds names (.absent :: ts) (⟨[i], true, al⟩ :: es)
  | present {t i al ts es} : Fits ds names [t] [⟨[i], false, false⟩] → Fits ds names ts es →
      Fits ds names (.present t :: ts) (⟨[i], true, al⟩ :: es)
  | rule {n u kids al ts es} : (rulesOf ds)[n]? = some u → Fits ds names kids u.rhs →
      Fits ds names ts es → Fits ds names (.rule n kids :: ts) (⟨[u.lhs], false, al⟩ :: es)

/-- A derivation tree of the start symbol -/
def IsTree {V : Type} (ds : List Decl) (names : List SymName) (t : Tree V) : Prop :=
  ∃ s, startOf ds = some s ∧ Fits ds names [t] [⟨[s], false, false⟩]

variable {V X E : Type}

mutual
/-- The tokens of a tree from left to right -/
def Tree.yield : Tree V → List (Tok V)
  | .tok k => [k]
  | .absent => []
  | .present t => t.yield
  | .rule _ kids => Tree.yields kids
def Tree.yields : List (Tree V) → List (Tok V)
  | [] => []
  | t :: ts => t.yield ++ Tree.yields ts
end

/-- Reading a token, or reducing by a written rule -/
inductive Move where
  | read (major : Nat)
  | rule (n : Nat)
  deriving DecidableEq, Repr

mutual
/-- Tokens and written rules of a tree in postorder -/
def Tree.post : Tree V → List Move
  | .tok k => [.read k.major]
  | .absent => []
  | .present t => t.post
  | .rule n kids => Tree.posts kids ++ [.rule n]
def Tree.posts : List (Tree V) → List Move
  | [] => []
  | t :: ts => t.post ++ Tree.posts ts
end

/-- A type of its own: `%type` or, for a token that is not a class, `%extra_token` -/
def typedSym (ds : List Decl) (i : Ident) : Bool :=
  (typeOf ds i).isSome || (i.isTerminal && !isClass ds i && (extraTokenOf ds).isSome)

/-- Elements with a type: optional symbols (`Option<..>`) and typed symbols -/
def typedElem (ds : List Decl) (e : RhsElem) : Bool :=
  match e.toks with
  | [i] => e.optional || typedSym ds i
  | _ => false

/-- The values at the marked positions -/
def select : List Bool → List V → List V
  | true :: bs, v :: vs => v :: select bs vs
  | false :: bs, _ :: vs => select bs vs
  | _, _ => []

/-- What a rule does with the values of its right-hand side: the block gets those with an alias;
without a block a typed left side takes the value of the typed element, an untyped one `()`. -/
def ruleValue (ds : List Decl) (sem : Sem V X E) (u : URule) (vs : List V) (x : X) : Except E V × X :=
  match u.code with
  | some n => sem.user n (select (u.rhs.map (·.alias)) vs) x
  | none => (.ok (if typedSym ds u.lhs then (select (u.rhs.map (typedElem ds)) vs).headD sem.unit else sem.unit), x)

mutual
/-- Value of a tree: bottom-up, from left to right, threading the extra argument, stopping at the
first `Err` -/
def Tree.value (ds : List Decl) (sem : Sem V X E) : Tree V → X → Except E V × X
  | .tok k, x => (.ok k.val, x)
  | .absent, x => (.ok sem.none, x)
  | .present t, x =>
    match t.value ds sem x with
    | (.error e, x) => (.error e, x)
    | (.ok v, x) => (.ok (sem.some v), x)
  | .rule n kids, x =>
    match Tree.values ds sem kids x with
    | (.error e, x) => (.error e, x)
    | (.ok vs, x) =>
      match (rulesOf ds)[n]? with
      | some u => ruleValue ds sem u vs x
      | none => (.ok sem.unit, x)
def Tree.values (ds : List Decl) (sem : Sem V X E) : List (Tree V) → X → Except E (List V) × X
  | [], x => (.ok [], x)
  | t :: ts, x =>
    match t.value ds sem x with
    | (.error e, x) => (.error e, x)
    | (.ok v, x) =>
      match Tree.values ds sem ts x with
      | (.error e, x) => (.error e, x)
      | (.ok vs, x) => (.ok (v :: vs), x)
end

/-- The parser returns the value of the start symbol if that has a type, else `()`. -/
def rootValue (ds : List Decl) (sem : Sem V X E) (v : V) : V :=
  if ((startOf ds).bind (typeOf ds)).isSome || (defaultTypeOf ds).isSome then v else sem.unit

/-- The moves recorded in the log of a parser (newest first), oldest first; `n` is the number of
written rules, the other reductions build optional symbols -/
def movesOf (n : Nat) (log : List (Event V)) : List Move :=
  (log.reverse).filterMap fun
    | .shift m => some (.read m)
    | .reduce r _ => if r < n then some (.rule r) else none
    | _ => none

end Pomelo.Spec
