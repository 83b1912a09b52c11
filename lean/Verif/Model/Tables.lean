import Verif.Model.Actions
/-!
# Generation of the tables

`ActTab::insert_action_set` (mod.rs:342-481) and the parts of `generate_source`
(mod.rs:2083-2962) that compute something: data type numbers, the packed action table, the
fallback table, the checks of `translate_code`.
-/

namespace Pomelo

/-- `struct LookaheadAction` (mod.rs:298-301) -/
structure LaAct where
  la : Nat
  act : Nat
  deriving DecidableEq, Repr, Inhabited

/-- `struct ActTab` (mod.rs:325-327) -/
abbrev ActTab := List (Option LaAct)

/-- `a_action.get(k)` flattened, `k` computed as a signed integer (mod.rs:372-386, 420) -/
def ActTab.at (t : ActTab) (k : Int) : Option LaAct :=
  if k < 0 then none else (t.getD k.toNat none)

/-- Number of table entries that a row with offset `ofs` would see: the cells `j` whose
look-ahead is `j - ofs` (mod.rs:391-400, 424-431) -/
def ActTab.seen (t : ActTab) (ofs : Int) : Nat :=
  (t.zipIdx.filter (fun (c, j) => match c with
    | none => false
    | some a => (a.la : Int) == (j : Int) - ofs)).length

/-- A match at cell `i` (mod.rs:358-404): all actions of the row are already there and no other
entry is visible. -/
def ActTab.matchAt (t : ActTab) (row : List LaAct) (i : Nat) : Bool :=
  match row with
  | [] => false
  | m :: _ =>
    t.at i == some m &&
    row.all (fun a => t.at (i - m.la + a.la) == some a) &&
    t.seen (i - m.la) == row.length

/-- A hole at cell `i` (mod.rs:417-433) -/
def ActTab.holeAt (t : ActTab) (row : List LaAct) (i : Nat) : Bool :=
  match row with
  | [] => false
  | m :: _ =>
    row.all (fun a => t.at (i - m.la + a.la) == none) && t.seen (i - m.la) == 0

/-- One store of the final loop (mod.rs:448-454) -/
def ActTab.put (t : ActTab) (k : Nat) (a : LaAct) : ActTab :=
  (if t.length ≤ k then t ++ List.replicate (k + 1 - t.length) none else t).set k (some a)

/-- `insert_action_set` (mod.rs:342-481).  `none` is a panic (empty row; a negative cell index,
which as `usize` exceeds any possible length).  `jla.lookahead - min_lookahead` never underflows
since rows are sorted. -/
def ActTab.insert (t : ActTab) (row : List LaAct) : Option (ActTab × Int) :=
  match row with
  | [] => none
  | m :: _ =>
    let maxLa := (row.getLast?.getD m).la
    let i := match (List.range t.length).reverse.find? (t.matchAt row) with
      | some i => i
      | none => match (List.range (t.length + maxLa)).find? (t.holeAt row) with
        | some i => i
        | none => t.length
    let res : Int := (i : Int) - m.la
    if row.all (fun a => 0 ≤ (a.la : Int) + res) then
      some (row.foldl (fun t a => t.put ((a.la : Int) + res).toNat a) t, res)
    else none

/-- `struct AxSet` (mod.rs:271-275) -/
structure Ax where
  pos : Nat        -- position of the state in `states`
  isTkn : Bool
  n : Nat
  deriving DecidableEq, Repr, Inhabited

/-- mod.rs:2265-2281 -/
def axSets (sts : List RState) : List Ax :=
  (sortBy (fun a b => a.n < b.n)
    (sts.zipIdx.flatMap (fun (s, i) => [⟨i, true, s.nTkn⟩, ⟨i, false, s.nNt⟩]))).reverse

/-- The row of a state (mod.rs:2301-2311, 2318-2332) -/
def Grammar.row (g : Grammar) (sts : List RState) (isTkn : Bool) (acts : List Action) : List LaAct :=
  acts.filterMap (fun a =>
    let index := (g.sym a.la).index
    if isTkn then
      if index ≥ g.numTerminals then none
      else (computeAction sts.length g.rules.length (stateNum sts) a.detail).map (⟨index, ·⟩)
    else
      if index < g.numTerminals then none
      else if index = g.defaultIndex then none
      else (computeAction sts.length g.rules.length (stateNum sts) a.detail).map (⟨index, ·⟩))

/-- The table and the offsets of the rows placed so far, keyed by state position -/
structure Packed where
  tab : ActTab := []
  tkn : List (Nat × Int) := []
  nt : List (Nat × Int) := []
  deriving DecidableEq, Repr, Inhabited

/-- One iteration of the loop over `ax` (mod.rs:2294-2339) -/
def Grammar.packOne (g : Grammar) (sts : List RState) (p : Packed) (a : Ax) : Option Packed :=
  if a.n = 0 then some p
  else
    match p.tab.insert (g.row sts a.isTkn (sts.getD a.pos default).actions) with
    | none => none
    | some (tab, ofs) =>
      if a.isTkn then some { p with tab := tab, tkn := (a.pos, ofs) :: p.tkn }
      else some { p with tab := tab, nt := (a.pos, ofs) :: p.nt }

/-- mod.rs:2292-2339 -/
def Grammar.pack (g : Grammar) (sts : List RState) : Option Packed :=
  (axSets sts).foldlM (g.packOne sts) {}

/-- Smallest offset, at most 0 (`min_tkn_ofst`, `min_nt_ofst`, mod.rs:2283-2286, 2315, 2336) -/
def minOfst (l : List (Nat × Int)) : Int := l.foldl (fun m p => min p.2 m) 0

/-- Largest offset, at least 0 (`max_tkn_ofst`, `max_nt_ofst`) -/
def maxOfst (l : List (Nat × Int)) : Int := l.foldl (fun m p => max p.2 m) 0

/-- `yy_shift_ofst` / `yy_reduce_ofst` (mod.rs:2457-2498): the entries up to the last state with a
row; `none` if there is no row at all (`unwrap` on `None`). -/
def ofstTable (nstates : Nat) (l : List (Nat × Int)) : Option (List Int) :=
  match (List.range nstates).reverse.find? (fun i => (l.lookup i).isSome) with
  | none => none
  | some n => some ((List.range (n + 1)).map (fun i => (l.lookup i).getD (minOfst l - 1)))

/-! ## Data types -/

/-- Type of a symbol for the stack (mod.rs:2148-2160) -/
def Grammar.finalType (g : Grammar) (s : SymbolId) : Except GErr (Option Ty) :=
  let b := g.sym s
  let dt : Except GErr (Option Ty) := match b.kind with
    | .multiTerminal =>
      match b.subs with
      | [] => .error .panic                                  -- `first().unwrap()`
      | f :: _ => if f = s then .error .panic                -- already mutably borrowed
                  else .ok (g.sym f).dataType
    | _ => .ok b.dataType
  dt.map (fun t => t.or g.defaultType)

/-- The loop that fills `dt_num` (mod.rs:2136-2168); `types` is the list of types numbered from
1 in order of first use. -/
def Grammar.assignTypes (g : Grammar) (types : List Ty) : List SymbolId → Except GErr (Grammar × List Ty)
  | [] => .ok (g, types)
  | s :: ss =>
    if g.wildcard = some s then g.assignTypes types ss
    else
      match g.finalType s with
      | .error e => .error e
      | .ok none => (g.modifySym s (fun b => { b with dataType := none, dtNum := 0 })).assignTypes types ss
      | .ok (some t) =>
        let types := if types.contains t then types else types ++ [t]
        (g.modifySym s (fun b => { b with dataType := some t, dtNum := types.idxOf t + 1 })).assignTypes types ss

/-- `yy_fallback` (mod.rs:2511-2540) -/
def Grammar.fallbackTable (g : Grammar) : Except GErr (List Nat) :=
  let mx := match (List.range g.symbols.length).reverse.find?
      (fun i => ((g.sym (g.symbols.getD i 0)).fallback).isSome) with
    | some x => x + 1
    | none => 0
  (g.symbols.take mx).mapM (fun p =>
    match (g.sym p).fallback with
    | none => .ok 0
    | some fb =>
      if (g.sym fb).dtNum = 0 ∨ (g.sym fb).dtNum = (g.sym p).dtNum then .ok (g.sym fb).index
      else .error .fallbackType)

/-- What `translate_code` (mod.rs:2964-3022) emits for a rule: for each RHS symbol the tag that is
matched if it has an alias, the code, the tag of the result. -/
structure RuleCode where
  pats : List (Option Nat)
  code : Option Code
  lhsDt : Nat
  deriving DecidableEq, Repr, Inhabited

/-- Checks and result of `translate_code` (mod.rs:2964-3022) -/
def Grammar.translateCode (g : Grammar) (r : Rule) : Except GErr RuleCode :=
  if r.rhs.any (fun s => s.alias && (g.sym s.sym).kind = .multiTerminal &&
      ((g.sym s.sym).subs.drop 1).any (fun o => (g.sym o).dtNum ≠ (g.sym s.sym).dtNum))
  then .error .compoundType
  else if r.rhs.any (fun s => s.alias && g.wildcard = some s.sym) then .error .wildcardAlias
  else .ok
    { pats := r.rhs.map (fun s => if s.alias then some (g.sym s.sym).dtNum else none)
      code := r.code
      lhsDt := (g.sym r.lhs).dtNum }

/-- Everything the generated parser consults at run time (the `static` and `const` items of
`generate_source`, mod.rs:2099-2555, the token conversion functions and the rule code). -/
structure Tables where
  nState : Nat                 -- YYNSTATE
  nRule : Nat                  -- YYNRULE
  errorSymbol : Nat            -- YYERRORSYMBOL
  wildcard : Nat               -- YYWILDCARD
  noCode : Nat                 -- YYNOCODE
  stackLimit : Nat             -- YYSTACKLIMIT
  action : List Nat            -- YY_ACTION
  lookahead : List Nat         -- YY_LOOKAHEAD
  shiftUseDflt : Int           -- YY_SHIFT_USE_DFLT
  shiftOfst : List Int         -- YY_SHIFT_OFST; YY_SHIFT_COUNT is its length - 1
  reduceUseDflt : Int          -- YY_REDUCE_USE_DFLT
  reduceOfst : List Int        -- YY_REDUCE_OFST; YY_REDUCE_COUNT is its length - 1
  dflt : List Nat              -- YY_DEFAULT
  fallback : List Nat          -- YY_FALLBACK
  ruleInfo : List Nat          -- YY_RULE_INFO
  numTerminals : Nat           -- length of YY_TOKEN_NAMES
  tokenNames : List SymName    -- YY_TOKEN_NAMES and the variants of `Token`, by index
  tokenDt : List Nat           -- tag of each token (0 for untyped), position 0 unused
  errorDt : Nat                -- tag of the error symbol
  rootDt : Option Nat          -- tag expected by the accept code, `none` if it ignores the value
  ruleCode : List RuleCode
  deriving DecidableEq, Repr, Inhabited

/-- The item that the macro takes for `%parser` if there is none: the parameters of `Token` without their defaults, as
`split_for_impl` gives them (mod.rs:2181-2187) -/
def Skeleton.defaultParser (tok : Skeleton) : Skeleton := { params := tok.params.map fun p => { p with dflt := none } }

/-- The checks of the items of `%token` and `%parser` (mod.rs:2170-2199) -/
def Grammar.checkItems (g : Grammar) : Except GErr Unit :=
  let tok := g.tokenEnum.getD {}
  if tok.fields ≠ 0 then .error .tokenNotEmpty
  else
    let par := g.parserStruct.getD tok.defaultParser
    if par.fields ≠ 0 then .error .parserNotEmpty
    else if tok.params.any (fun p => !par.params.contains p) then .error .paramMissing
    else .ok ()

/-- `generate_source` (mod.rs:2083-2962).  The order of the checks is that of the code. -/
def Grammar.generate (g : Grammar) (sts : List RState) : Except GErr Tables :=
  if (match g.wildcard with | some w => (g.sym w).dataType.isSome | none => false) then
    .error .wildcardTyped
  else
    match g.assignTypes [] g.symbols with
    | .error e => .error e
    | .ok (g, types) =>
      match g.checkItems with
      | .error e => .error e
      | .ok () =>
      match g.pack sts with
      | none => .error .panic
      | some p =>
        match ofstTable sts.length p.tkn, ofstTable sts.length p.nt with
        | some sh, some rd =>
          match g.fallbackTable with
          | .error e => .error e
          | .ok fallback =>
            match g.rules.mapM g.translateCode with
            | .error e => .error e
            | .ok ruleCode =>
              let root := ((g.sym (g.start.getD 0)).dataType).getD .unit
              .ok
                { nState := sts.length
                  nRule := g.rules.length
                  errorSymbol := if (g.sym g.errorSymbol).useCnt > 1 then (g.sym g.errorSymbol).index else 0
                  wildcard := match g.wildcard with | some w => (g.sym w).index | none => 0
                  noCode := g.symbols.length
                  stackLimit := g.stackLimit
                  action := p.tab.map (fun c => match c with
                    | none => sts.length + g.rules.length + 2
                    | some a => a.act)
                  lookahead := p.tab.map (fun c => match c with
                    | none => g.defaultIndex
                    | some a => a.la)
                  shiftUseDflt := minOfst p.tkn - 1
                  shiftOfst := sh
                  reduceUseDflt := minOfst p.nt - 1
                  reduceOfst := rd
                  dflt := sts.map (·.dflt)
                  fallback := fallback
                  ruleInfo := g.rules.map (fun r => (g.sym r.lhs).index)
                  numTerminals := g.numTerminals
                  tokenNames := (g.symbols.take g.numTerminals).map (fun s => (g.sym s).name)
                  tokenDt := (g.symbols.take g.numTerminals).map (fun s => (g.sym s).dtNum)
                  errorDt := (g.sym g.errorSymbol).dtNum
                  rootDt := if types.contains root then some (types.idxOf root + 1) else none
                  ruleCode := ruleCode }
        | _, _ => .error .panic

/-- The LR(0) part of `build` (mod.rs:575-581): grammar and states with their follow sets -/
def Grammar.automaton (g : Grammar) (ord : List (SymbolId × SymbolId) → List (SymbolId × SymbolId)) :
    Except GErr (Grammar × List LState) := do
  let g := (g.prepare ord).findRulePrecedences
  let g ← g.normalizeRules
  let g ← g.findFirstSets
  let (g, sts) ← g.findStates
  let sts ← findFollowSets g.syms.length (findLinks sts)
  return (g, sts)

/-- `build` (mod.rs:574-597).  Note that the error for unreducible rules comes before the one for
conflicts. -/
def Grammar.build (g : Grammar) (ord : List (SymbolId × SymbolId) → List (SymbolId × SymbolId)) :
    Except GErr Tables := do
  let (g, sts) ← g.automaton ord
  let (acts, nconflict) ← g.findActions sts
  if nconflict > 0 then throw .conflicts
  let acts ← g.compressTables acts
  g.generate (g.resortStates acts)

/-- The macro on the declarations (lib.rs: `new_from_decls` followed by `build`) -/
def compile (ord : List (SymbolId × SymbolId) → List (SymbolId × SymbolId)) (decls : List Decl) :
    Except GErr Tables := do
  let g ← newFromDecls decls
  g.build ord

end Pomelo
