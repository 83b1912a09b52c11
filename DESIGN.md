# Formal model of pomelo (Lean 4)

The subject is the procedural macro `pomelo!` (`/repo/pomelo-impl`), a port of the Lemon LALR(1)
parser generator, and the parser it emits.  The properties are in `properties.jsonl`, their status
and the exact theorem names in `MANIFEST.json`, the mutation log in `seeded/LOG.jsonl`.

## 1. Trusted base

* The kernel of Lean 4.33.0 and the Mathlib modules imported.
* Axioms: only `propext`, `Classical.choice` and `Quot.sound`.  `AXIOMS.txt` lists the axioms of
  every theorem named in the manifest, as printed by `#print axioms` (rewritten by `tools/axioms.py`).
  No `sorry`, no `native_decide`, no `bv_decide`, no own axiom.  Concrete grammars are evaluated by
  `decide +kernel`, that is by the kernel.
* The reading of the Rust source.  Each definition under `Verif/Model` cites the lines of `/repo`
  that it follows.  Nothing was compiled or run, so the agreement of model and code rests on that
  reading, on the tests in `Verif/Tests.lean` (the expected values of the crate's own test files),
  and on the theorems being about observable behaviour.
* The definitions of `Verif/Spec`, which say what the theorems mean.

## 2. What is modelled

The path from the list of declarations to the run of the emitted parser, as total computable
functions.  Line numbers are those of `pomelo-impl/src/parser/mod.rs`.

| Lean module | Rust code |
|---|---|
| `Model/Basic` | `decl.rs`; `Symbol`, `Rule`, `Precedence` (21-100) |
| `Model/Syntax` | `impl Parse for Decl`, `Decls`, `pomelo_impl` (lib.rs:18-305), on tokens of which each is what `syn` reads in one call |
| `Model/Decl` | `symbol_new`, `symbol_find` (1686-1739), `parse_one_decl` (1753-2050), `create_rule` (2052-2081), `new_from_decls` (521-570) |
| `Model/Prepare` | `prepare` (599-683), `find_rule_precedences` (694-723), `normalize_rules` (731-756) |
| `Model/First` | `find_first_sets` (763-846) |
| `Model/States` | `find_states` (852-890), `get_state`, `build_shifts` (895-1014), `find_links` (1017-1036), `find_follow_sets` (1043-1075), `configlist_closure` (1588-1652), `add_config` (1654-1674) |
| `Model/Actions` | `precedence_cmp` (30-39), `ActionDetail::cmp`, `action_cmp` (163-218), `find_actions` (1079-1166), `resolve_conflict` (1181-1220), `compress_tables` (1231-1375), `resort_states` (1381-1413), `compute_action` (1419-1429) |
| `Model/Tables` | `ActTab::insert_action_set` (342-481); the computing part of `generate_source` (2083-2962): type numbers, rows, offsets, defaults, fallback table, rule table, the checks of the `%token` and `%parser` items (2170-2199); the checks of `translate_code` (2964-3022); `build` (574-597) |
| `Model/Sort` | the comparisons handed to `sort_by` with their three outcomes (136-146, 162-218, 607-618, 1747-1751, 2280) |
| `Model/Borrow` | `VecRef` (vecref.rs:22-27) and the borrows of the passes that hold one while they take another: 798-841, 903-907, 1029-1035, 1124-1143, 1371-1373, 2138-2168; every other use of `get_mut` (read one by one) is alone in its arena |
| `Model/Emit` | types in the text that `translate_code` emits for a rule (2222-2232, 2909-2925, 2964-3022) |
| `Model/Report` | `report_output` line by line, when it is made (584-590, 1431-1567) |
| `Model/Ints` | `minimum_signed_type`, `minimum_unsigned_type` (484-502) and their uses |
| `Model/Api` | the parts of `generate_source` that say what the emitted module offers: `enum Token` (2341-2400), the functions of `%extra_token` (2402-2424), the signatures of `Parser` (2558-2640, 2890-2903) |
| `Model/Runtime` | the Rust text emitted by `generate_source` (2563-2957) and `translate_code`: `parse`, `end_of_input`, the loop, both lookups, shift, reduce, accept, error handling, recovery, `expected`, token conversions |

How things are represented:

* Loops without a syntactic bound carry explicit fuel.  Fuel that runs out is an error value of its own
  (`GErr.fuel`), not a default result, and C21 proves that it never appears.  The loops along fallbacks,
  which may really fail to end, give `GErr.hang`.  The loop of the emitted parser returns `none` when the fuel
  runs out; theorems about calls hold for every fuel for which the call returns.
* Panics of the macro are `GErr.panic`, panics of the parser `Res.panic` with the reason.  Indexing in the
  model (`getD`) is guarded where the code would panic; C07 and C45 are about these values.
* `HashMap`/`HashSet` iteration order: the map of optional symbols is iterated in an arbitrary order, the
  parameter `ord` (any permutation, `OrdOk`).  The sets of terminals are ordered in the code (`BTreeSet`).
* User blocks are arbitrary functions (`Sem`) of the values and the extra argument, with `Result`.
* The parser carries a ghost log of events (`trace`) which does not influence the run (C78).
* Spans are dropped; an error is a constructor of `GErr`.

Simplifications, each of them noted at its definition:

* `Ident`: the class of the first character and a number, `error` singled out.
* Types: `()`, names, `Option<T>`, pairs; equality of types is equality of terms, as `syn`'s is.
* Blocks are numbers, alias patterns only present or absent (documented to be irrefutable).
* Arena indices, positions and `index` of rules are one number; `slice::sort_by` is a stable insertion
  sort by the question whether the outcome is `Less` (C54: no other stable sort has another result).
* Integers of the generator are unbounded.
* An item of `%token` or `%parser` (`Skeleton`) is the number of its variants or fields and its generic parameters, each a
  number for its text and one for its default.

* Tokens of the macro input (`Lexeme`): a type, an item, an attribute, a bracketed group is one token; the keywords of the
  directives have fixed numbers as identifiers; an error of `syn` is `none`.

Not modelled: the inside of `syn` (its types, patterns, blocks), where clauses and the use of generics in the emitted
text, attributes other than their presence, `%include`, visibility, layout of the report, texts of messages, the Rust compiler on the emitted text, panics and
divergence inside user blocks, a rule block that leaves `yy_reduce` early with `return` or names the generated local variables (`quote!` gives them the
hygiene of the call site), memory and the depth of the macro's own recursion.

## 3. Specification side (`Verif/Spec`)

Written without the helpers of the model, on the declarations or on plain context-free grammars:

* `Cfg`, `Sentence`, `Forms`: derivations, trees, yields, sentential forms.
* `Decls`: what a list of declarations declares (rules, precedence, fallback, start, single use).
* `Parse`, `Take`: derivation trees over the declared rules whose leaves are the tokens of the input, each
  token standing for itself, a fallback, the wildcard or a class; their value under the user's blocks.
* `Lr1`: canonical LR(1) items by derivations, viable prefixes; LALR(1) by union over prefixes with the same items.
* `Conflict`, `Prec`, `Shape`: shift/reduce and reduce/reduce conflicts, winners, nested operators.
* `Rows`, `Tidy`, `Pack`: lookup in uncompressed rows; the decidable conditions `apart`, `flat`.
* `Run`, `Calls`: reachable parser states, call histories.
* `Cycles`: symbols that derive themselves, hidden left recursion.
* `Exchange`: declarations in another order, grammars that differ in the numbers of symbols only.
* `Shuffled`: declarations in another order in which rules have changed places, too.
* `Timing`: the moves up to a token, and moves of two parsers that are the same but for numbers.
* `Added`: more rules.
* `Carried`: images of values, and user code that works on images as other code does on originals.
* `Outer`: directives about the text around the parser, and when they are in order.
* `Plain`: declarations without types, aliases and blocks; tables without tags and code; moves of a run.
* `Limit`: limits with more room, runs that are cut short.
* `Repeat`: rules that are written twice.
* `Memory`: parsers with the same fields, and calls with the same outcome.
* `Expand`: compounds and classes written out, one rule per choice of members.
* `Reading`: which declarations are at fault after which others, and the error of each.
* `Causes`: what each error of the macro says about the declarations.
* `Syntax`: how each declaration is written in tokens.
* `Recovery`: trees with `error`, the moves of a parser that recovers, what is left of the input.
* `Expected`: the tokens that may come after given ones; the tokens that begin a sentence.
* `Operators`: grammars of expressions, derivation trees that agree with the precedences.
* `Api`: the tokens in the order of first mention, values of `Token`, the part of a token that `%extra_token` adds, the types in the signatures.
* `Linear`: the number of reductions in a log, the parsers after `n` calls.
* `Sort`: total orders as `sort_by` asks for, the result of a stable sort.
* `Height`: the height of a derivation tree, i.e. of the stack while it is built, and the declared size of the stack.
* `Alike`: two parsers and two outcomes that differ in the numbers of rules and states only.
* `Choice`: a token stronger than a rule, a token that must not be used because of a tie.
* `Rename`: other names for symbols and types and other blocks, in declarations, tables, interface and report.
* `Unread`: tokens that no rule reads; inputs, runs and user code with other tokens.
* `Padded`: the number of rules, lists of declarations that begin with tokens that are not used, and tokens that may be put in front for this.
* `Tokens`: the tokens of two parsers that have the same names, and the number of a token in the other parser.
* `Borrow`: what it means that the passes have no conflict of borrows.
* `Blocks`: the text of a rule as a function of the declarations, what makes it free of type errors.
* `Report`: what a report should say about the state of a prefix, reasons for its remarks.
* `Typing`, `Ints`, `Order`, `Macro`: stack variants, integer ranges, reordering of rules, conditions on classes.

## 4. Disagreements between the code and the properties

Each has a proved witness (a theorem `.._false..`), and the property is kept as a `def Cnn_statement` beside
the strongest `_partial` theorem found.

| Finding | Where | Theorems |
|---|---|---|
| The packed table may overlap: the search for a place ends one cell early (`0..len+max_lookahead`, 417) and then appends at `len` unchecked.  `s ::= a; a ::= A; a ::= ;` panics, `s ::= A B; s ::= B A;` takes `A B A` | 405-437 | `C12_false`, `C13_false`, `C13_tight`, `C01_false`, `C03_false`, `C05_false`, `C07_false` |
| `%fallback A A` is accepted and makes later walks endless | 1878-1896 | `C23_false`, `C21_false`, `C21_false_decl`, `C21_false_forever` |
| A default reduce chosen from the wildcard is used for tokens with fallbacks | 1231-1375 | `C24_false` |
| The wildcard hides default reductions: where a rule is the default action of a state and the wildcard is reduced by another rule, or is shifted though it has a fallback, every token is treated as the wildcard.  `s ::= a T; s ::= b Any Any; a ::= X; b ::= X; %wildcard Any;` refuses its sentence `X T` | 1280-1368, 2818-2828 | `C03_wildcard_false`, `C03_wildcard_fallback` |
| `%default_type` gives a type to a class that begins with the wildcard, but not to the wildcard: `s ::= K(x)` panics on the wildcard itself | 2136-2168 | `C03_wildcard_typed` |
| Equal `%left`/`%right` rules in a reduce/reduce conflict are settled silently | 30-39, 1200-1211 | `C15_false` |
| A `%nonassoc` tie leaves both `Error` and `Reduce` for the token; if the reduce is exempt from compression because of a fallback or a wildcard, the reduce is what ends up in the row | 1192-1195, 1248-1283 | `C14_false`, `C16_false`, `C22_false` |
| Conflicts among equal nonassoc rules beaten by a third are not reported | 1129-1146 | `C18_missed` |
| A class among the members of a class: `resort_states` takes every action on a symbol with an index above `{default}` for the default action of the state.  The shift of the inner class is such an action, so the state shifts every token that is not in its row (with the number of the state before renumbering), even the end of input, and loses its default reduction.  `%token_class C1 A B; %token_class C0 C1 C; s ::= C0 D; s ::= C0 E;` accepts `D D` | 1391-1397 | `C01_nested`, `C03_nested`, `C07_nested` |
| An untyped start symbol where `()` is a type: the accept code panics | 2922-2938 | `C36_false`, `C03_false_root`, `C51_false` |
| Aliases on untyped fallback targets or classes: `impossible pattern` at run time | 2513-2540, 2982-2992 | `C35_false`, `C35_false_class` |
| A class whose first member is a class declared later has no type | 2146-2157 | `C42_false` |
| Offset tables: the type is chosen for the largest offset only, negative ones may not fit | 2467, 2489 | `C37_false` |
| `%syntax_error` may be reported again while recovering | 2722-2789 | `C30_false` |
| Untyped `%stack_size` and attribute-only `%type` may be repeated | 1780-1805, 1957-1964 | `C28_false`, `C28_false_type` |
| `A|B?`: the `?` of a compound is ignored | 1984-2032 | `C26_false` |
| Precedence on an empty rule: the parser reduces forever at a constant depth (`%left T; %left P; s ::= a T; a ::= a f; a ::= X; f ::= [P];`) | 1100-1230 | `C06_false` |
| With `%stack_size 0`, a symbol that derives nothing: empty rules are reduced forever on an erroneous token | 2640-2720 | `C06_false_void` |
| A rule with `A|B` has the precedence of the first member that has one, for all members: with `%nonassoc Eq; %left Plus;` the rule `e ::= e Eq|Plus e` refuses `n Plus n Eq n` | 694-720 | `C25_false` |
| `%stack_size 5; %stack_size 6 T;` is accepted, the reverse refused; the same for `%type` with attributes only | 1798-1805, 1958-1967 | `C38_false`, `C38_false_type` |
| `%fallback A A; %fallback A B;` makes the macro loop forever, the reverse order is read | 1878-1896 | `C38_false_self` |
| `%token enum Token<T = i32> {}` without `%parser` is refused, though the default parser is documented to have the generic parameters of `%token` (the copy drops their defaults and is then compared with them; what `split_for_impl` does is taken from the documentation of `syn`) | 2181-2199 | `C47_default_param` |
| Of several `%type` of one symbol, each replaces the attributes: `%type #[x] A; %type A T;` loses `#[x]` | 1804 | `C52_false` |
| `end_of_input` gives the pair (start symbol, extra), `src/lib.rs:98` says (extra, start symbol) (`src/lib.rs:670` agrees with the code); `%extra_argument ();` is as if it were absent | 2558-2640 | `C52_documented` |
| `%extra_token` cannot be used together with `%wildcard` (every token gets a type, the wildcard must have none); not documented | 2103-2107 | `C52_wildcard` |
| For a `%nonassoc` tie the report has an unmarked `reduce` beside `error`, though the parser refuses the token.  The numbers of states in it are those before `resort_states`, not those of the emitted parser | 584-594, 1192-1195, 1431-1567 | `C55_tie` |
| `ActionDetail::cmp` is no total order (a dropped or deleted action is equal to all that are less than it), against the contract of `sort_by`, in every grammar where a shift beats a reduce; the present `sort_by` does not notice, as it only asks for `Less` | 162-192, 1371 | `C54_false` |
| `%default_type` is applied after blocks and optional symbols have been made: with it, a rule without block whose left side has no type of its own is emitted as `let yyres: T = { }`, and `A?` has the type `Option<()>` while its rule says `Some(_A)` with `_A: T`; neither text compiles | 652-682, 731-756, 2146-2160 | `C57_false` |
| The type of `C?` for a class `C` is `Option<()>`, whatever the type of its tokens, as classes have their types later; the text does not compile if they have a type | 657-663, 2146-2157 | `C57_false` |
| A rule without block forwards a value of another type than that of its left side, against the comment above `normalize_rules`; the text does not compile | 725-756 | `C57_false` |
| With three candidates the outcome depends on the order of the rules: if a weaker rule ties with a `%nonassoc` token the token becomes an error, and a stronger rule that comes later is not taken; in the other order of the two rules it is | 1122-1147, 1181-1220 | `C58_false` |
| Which error the macro reports may change from build to build: with `s ::= A? X; s ::= B? X; s ::= C A? Y;` it is "conflicts" with one order of the map and "cannot be reduced" with the other | 259, 547, 655 | `C59_false` |
| What a parser accepts depends on the order of rules, even without precedences: `%type A; s ::= C; s ::= B A;` accepts `B` alone, `%type A; s ::= B A; s ::= C;` does not | 342-400 | `C69_false` |
| Which block is run before a syntax error is noticed depends on the order of two `%type` directives: ties between default reductions go by the numbers of the tokens | 1285-1324 | `C70_error_false` |
| The list of expected tokens depends on the order of two `%type` directives, for the same reason | 1285-1324, 2733 | `C71_false` |
| An added rule may take an input away: `%type A; s ::= C; s ::= B A;` accepts `B` alone, with `s ::= B C;` added it does not | 342-400 | `C72_false` |
| Leaving out a rule may make the macro refuse declarations without any ambiguity, because more states are made one (no fault: so it is with LALR(1)): `s ::= A x A; s ::= B x B; s ::= A y B; s ::= B y A; x ::= E; y ::= E; s ::= A E C;` without its last rule | 895-925 | `C72_removed` |
| A token is taken although no sentence begins so: the parser of `s ::= A B; s ::= B A;` takes `A B A` without an error | 342-400 | `C68_false` |
| What a parser accepts depends on the order of directives: `%left A; s ::= C; s ::= B A;` accepts `B` alone (C01), with the first two exchanged it does not | 342-400 | `C67_false` |
| Whether the macro accepts depends on the order of `%token_class` directives: each class takes the type that its first member has by then, so `%token_class J A; %token_class K J A; %type A T; s ::= K(x);` is accepted, and with the first two exchanged it is not | 2138-2168, 2981-2990 | `C65_false_class` |
| The bottom entry counts: with `%stack_size n` only `n - 1` symbols fit, so `%stack_size 1` reads no token at all ("a stack of the requested size", docs 593) | 2864 | `C60_partial` with `Tree.height` |
| `%token_class A;` (no member), `%token_class A A B;` and some conflicting classes panic the macro | 2153, 170-174 | `C45_false`, `C45_false_self`, `C45_false_twice`, `C61_false_sort`, `C61_false_types` |
| Without `error` the parser skips tokens after a syntax error, the documentation says it fails at once; `%type error` alone changes this.  When no place for `error` is found, `%parse_fail` runs without `%syntax_error` | 2240, 2740-2789, src/lib.rs:800-813 | `C49_documented`, `C49_typed` |
| The list of expected tokens is made after default reductions: in `s ::= e Semi; e ::= t; t ::= Num; t ::= t Star Num;` after `Num Num` it lacks `Star`.  With `%nonassoc` it may have all tokens but the refused one, though only that one may follow | 1231-1375, 2661-2692, 2728-2735 | `C50_false`, `C50_false_nonassoc` |
| A rule without block, precedence and `;` swallows the left-hand side of the next rule, which is then refused; the comment has the `;` as optional.  `number ::= Integer(A); { A }` of the documentation is refused | lib.rs:251-296, src/lib.rs:735 | `C48_comment`, `C48_documented` |

Further remarks: with `%extra_token` a `%wildcard` is always refused, because every token gets a type;
`%default_type` is applied after `normalize_rules`;
the documentation names a token class with a lowercase letter (`%token_class number ...`), which is refused (C46); it
calls a `%nonassoc` clash a run-time error, which holds only for tokens without a fallback.

## 5. How each property is proved

* **C01, C02, C44** (`Props/Parse`): invariant of the stack: its states follow the LR(0) transitions and its
  values are those of derivation trees with the consumed input as yield; induction over the calls.
* **C03, C04** (`Props/Complete`): induction on derivation trees over the item sets; the lookup always finds
  the intended action because there is no other one; unambiguity is determinism of the machine.  With a wildcard
  (`Props/Wildcard`) a shift is always found; a reduce that became the default is found unless the wildcard keeps an action of its
  own in the row, which `WildAlone` excludes.
* **C05** (`Props/Prefix`): the states on the stack spell a viable prefix, whose items are justified back to the start symbol.
* **C06** (`Props/Stops`): reductions between two tokens are well-founded: the stack spells a viable prefix, whose
  length is bounded by the symbols not yet vanished (or by the limit), and reductions decrease a lexicographic rank.
* **C07, C08, C09, C35, C36, C42** (`Props/Safe`): stack invariant with symbols and variant tags; every panic is excluded.
* **C10, C11, C29-C34** (`Props/Runtime`): invariants of the emitted loop alone, for arbitrary tables.
* **C12, C20, C22-C24, C43** (`Props/Tables`): the lookup in the emitted tables against the uncompressed rows.
* **C13** (`Props/Pack`): one insertion into the packed table.
* **C14, C15** (`Props/Prec`), **C16** (`Props/Shape`): the pairwise resolution as an outcome per token, lifted to trees.
* **C17, C27, C28, C41** (`Props/Decls`): induction over the declarations.
* **C18** (`Props/Lalr`), **C19** (`Props/Sets`): the fixpoints equal inductive definitions by derivations.
* **C21, C45** (`Props/Ends`): measures for the fuel; every error value traced to its cause.
* **C25** (`Props/Expand`): trees of the declarations and of their expansion are turned into each other, with the same
  tokens and values; C01 and C03 carry this over to the parsers, whose tokens may have other numbers.
* **C38** (`Props/Exchange`): by C46 acceptance is a condition on each declaration, on each pair and on the graph of
  fallbacks (`admitted_orderly`), none of which sees the exchange; the symbols of the grammar are the names written.
* **C46** (`Props/Reading`): one lemma per directive, saying when and how `parse_one_decl` fails in terms of the
  declarations before it only (what the grammar under construction holds is known from C28); the fault is unique.
* **C47** (`Props/Causes`): one step of the macro after the other (`Proofs/Stages`, `Early`, `Yields`, `GenCauses`), each
  error traced back to the declarations through the link of `Proofs/Bridge`; a lost reduction was removed by
  another action on the same token.
* **C48** (`Props/Syntax`): each function of the parser on the text of something and a rest gives it and the rest, and back.
* **C49** (`Props/Recovery`): the invariant of C01 with trees that may contain `error`, kept by `recover` and `onError`; the
  run as a sequence of rewritings of a row of trees (`Spec.Recovery`), from which leaves, values and order follow by induction.
* **C26, C40** (`Props/Code`), **C37** (`Props/Ints`), **C39** (`Props/Order`): the passes directly; C39 by a
  permutation of the rules.
* **C50** (`Props/Expected`): if a state refuses a token it has no default and, without `%nonassoc`, every action of it is a shift
  or a reduction kept for the sake of a fallback that shifts (`Proofs/Expected`); the log tells the state (`Proofs/Report`).  The
  converse is C03 for the sentence, whose call takes the same reductions to the same state.
* **C51** (`Props/Operators`, `Props/OpSound`).  Existence: an arbitrary tree is brought into the form that agrees with the
  precedences by hanging an operator below the right edge of its left operand or taking it out, by induction over the number of
  rules (`Proofs/OpNormal`); that any operator and any rule are related one way or the other comes from the absence of conflicts in
  an accepted grammar (`operators_total`).  Acceptance: in a state with a finished rule and a shift the precedences say who wins;
  a tree agrees with the precedences exactly if every one of its nodes and tokens is what wins (`Proofs/Wins`), and the
  parser follows it (`C51_respects_partial`).  Uniqueness: runs in which the winner is taken are determined by the input
  (`Proofs/WinsUnique`), no table is involved.  Soundness: the moves of an accepted run are driven by its tree; at each node on the right edge
  a reduction was preferred to a shift, which `C14_losers` turns into the order of the precedences.  Not covered: fallbacks
  and wildcards, and operators of which the parser cannot tell which rule they belong to (the same token both as postfix and as infix).
* **C52** (`Props/Api`, `Proofs/Mention`, `Proofs/Api`).  The names of the table of symbols are the mentioned names without
  repetitions (`idents_decls`); sorting by kind and the later phases keep the tokens in this order (`BridgeP.terminals`).
  Types as in C36; with `%extra_token` the wildcard is excluded by C47, and a pair is never equal to its first component, so
  the comparison of types that selects the pattern is right.  `C52_false` for attributes.
* **C53** (`Props/Linear`, `Proofs/Linear`, `Proofs/NoLoop`).  The symbols of the stack are divided into a part that no longer
  vanishes and a vanishing end, whose length is bounded by C06's argument on hidden left recursion or by the stack limit.  The
  potential (`pot`) is dominated by the length of the first part, then by the possible growth of the end, then by the rank of the
  top symbol in the order of unit derivations; each reduction lowers it (`red_pot`) and each shift raises it by at most a
  constant, also during error recovery.  Without conflicts and void symbols the conditions on cycles and hidden left
  recursion hold by themselves: vanishing symbols can be built by reductions (`build`), so either would be an infinite sequence
  of reductions, which C06 excludes (`Run.noLoop`).  `C53_false` by the grammar of `C06_false`.
* **C54** (`Props/Sort`, `Proofs/Sort`).  `Less` is a strict weak order for each comparison, and two stable sorts of one list
  have the same first element, hence are equal.  Three-way, four of the comparisons are lexicographic; that of actions is so
  before conflicts are resolved.  `C54_rows` ties the sort to the list of rows the packing goes through.  `C54_false` by evaluation of one grammar.
* **C55** (`Props/Report`, `Proofs/StateReport`).  `Fate` says what may become of an action of the sorted list and because of which
  other one; every step of the resolution keeps it.  With C18's lemmas on prefixes and states the reasons are put in terms of the
  grammar.  Each comparison of two actions that are as they were found changes one of them and leaves one, hence one unmarked
  shift or reduction for each symbol.  The number of marks grows with the number of conflicts.
* **C56, C57** (`Props/Blocks`, `Proofs/Blocks`).  The field of the variant that `tagOf` numbers is the type it was made for; with the facts of
  C42 about tags and `written`/`opt_rules` about rules the text of every rule is an explicit function of the declarations.  C57 is then
  a calculation with that function, in both directions; its four witnesses are evaluated.
* **C58** (`Props/Choice`, `Proofs/Choice`).  "Gives way" is a strict total order on the rules of a conflict-free group, so there is one best rule;
  `resolveFrom` on a sorted group is followed step by step: the shift stays, is dropped by the first rule it does not beat, or becomes an error there.
* **C59** (`Props/Deterministic`, `Proofs/Frame`, `Twin*`, `Sim`).  The two runs of the macro are compared stage by stage.  `Twin` holds the renumbering of
  the rules and of the states (two LALR(1) automata of renumbered grammars are isomorphic, with the same look-aheads); `TwinActs` and `TwinComp` carry it
  through the actions, the resolution of conflicts and the default reductions, where the sort by rule number must not matter: in a state
  without conflicts at most one rule of the optional symbols is complete with one look-ahead.  `TwinGen` shows that the second run cannot stop where the first one went on.  `Sim` is a simulation between
  parsers of such tables, and `TwinRun` an instance of it; rows that do not collide make the lookups functions of the actions.
* **C60** (`Props/Height`, `Proofs/Height`, `Goes`, `Parse`).  `Made.follow` carries whether the stack has room for the trees still to be built: every push
  succeeds or fails by the height alone, and the kids of a node are built above its left siblings.  For accepted inputs the invariant of C02 carries it.
* **C61** (`Props/Borrow`, `Proofs/Borrow`).  Traces of borrows that give back what they take compose.  The passes are free of conflicts because the members of
  classes are tokens, a back link goes to the same rule with the dot one place further left, and after the resolution no token of a state has two shifts.  For the first sort: two shifts of
  which one leads back are neighbours in the sorted list, so that no sort gets by without comparing them.  `C61_passes`: the trace for the FIRST sets has every pass.
* **C62** (`Props/Rename`, `Proofs/Rename`, `Proofs/Rename2`).  Every function of the generator commutes with a renaming of the grammar; names are compared for
  equality in `symbol_new`, types in the numbering of types and in `%extra_token`, and nowhere else.
* **C63** (`Props/Unread`, `Proofs/Unread`, `Proofs/Twins`).  A token that no rule reads is in no FIRST set and in no lookahead set, so no row of any state has an
  action for it; the packed table has an entry for a token only where some row put one, hence the lookup fails in every state, overlapping rows or not, and the
  fallback is looked up.  The runtime is then shown to commute with a replacement of tokens that no lookup and no variant can tell apart.
* **C64** (`Props/Padded`, `Proofs/Padded`).  `insert_action_set` appends a row at the end without looking at what is there; an analysis of the search before it
  shows that the only cells that can be seen from there belong to a row for a single symbol number `n`, when the last `n` cells of the table are labelled with the end
  of input.  Rows for the end of input alone hold one of the reductions, and two with the same reduction share a cell, so there are at most as many as rules; if the
  tokens with these numbers are in no row (C63), nothing overlaps.  The invariant of the loop over the rows says this of the table built so far.  The grammars of
  `C12_false` are repaired in this way (`C64ex`); 128 and more such tokens run into C37.
* **C65** (`Props/Accept`, `Proofs/Embed*`, `Proofs/AnonOnce`).  `Embed g g'` says that the symbols of `g` have counterparts in `g'` with the same properties, of which
  the order is kept only where the code needs it (the members of classes, and the rules), and that the rules correspond.  First sets, closures, states, links,
  follow sets and actions then correspond, whatever their order; conflicts are found in one grammar if and only if they are found in the other
  (`Embed.findActions`).  Two lists of declarations that say the same (`LikeDecls`) give such grammars (`embedOf`): named symbols correspond by name, optional ones by the
  symbol they are made of, and anonymous classes by their place, since each occurs once (`AnonOnce`).  Everything that stops the macro after the actions depends only
  on what the declarations say (`like_compile`).  The exchanges keep what the declarations say (C38).
* **C66** (`Props/Pads`).  Tokens in front change nothing of what the declarations say, and `like_compile` does not need that the symbols of one grammar are all in the
  other.  With C64.
* **C67** (`Props/SameInputs`, `Proofs/EmbedRun`, `EmbedDrive`, `EmbedAccept`).  An accepted input has a tree which the automaton reads action by action (`Drive`, C01).  The corresponding
  tree of the other grammar has the corresponding actions, since those of corresponding states correspond (C65) and no conflict is left; so the other
  automaton reads it (`drive_transfer`), and the other parser accepts it with the same value (C03's driving of the parser by a tree).  The order of the optional
  symbols that corresponds to the one of the first run may not be the one of the second run: C59 goes from there to any other.  The tokens are found by name (`renumber`, C52).
  With at most one optional symbol there is only one order (`apartAll_of`), with enough new tokens in front the order is not asked (`apartAll_padded`).
* **C68** (`Props/Notice`).  No error reported: the tokens begin a sentence by C05 (`C05_sentence_partial`), because a call fails only with an error reported, a full stack or a
  failing block (`feed_err`).  Tokens that begin a sentence: the run on the sentence reports nothing (C03), and the log after the tokens is the first part of the log of that
  run (`runAll_feed`).  The values of the remaining tokens of the sentence are replaced by ones that the types allow (`fitting`).
  For another order of the directives the trees are the same but for the numbers of the tokens (`isTree_move`).
* **C69** (`Props/RuleOrder`).  The two grammars correspond by a relation between their symbols and a bijection between the numbers of their rules (`Shuf` in `Proofs/Shuffle`, made from
  the declarations in `Proofs/ShuffleDecl`).  Viable prefixes, and what can be read or reduced after them, correspond; so the one has a conflict where the other has one, and
  without settled conflicts the macro goes through (`Proofs/ShuffleGen`, by the causes of C61).  An accepted input has a tree (C01), the tree has one of the other grammar
  beside it with the same yield, height and value (`fits_shuffle`), and by C60 the other parser accepts its yield.
* **C70** (`Props/Timing`, `Proofs/Timing`).  A call that takes its token logs some reductions and then the token, so what is logged after a part of the tokens is what the whole log has up to
  the last of them; C44 says what the whole log is.  For two orders of the declarations the trees have the same postorder (`fits_shuffle`, C04).  For the extra argument the user
  code is replaced by one that remembers all former values (`remembering`; `Sees` is the simulation).  By C69 both parsers end with the same list of values, and as both have run
  the same number of blocks after a part of the tokens, the last value at that point is the same.
* **C71** (`Props/ErrorOrder`).  The two halves of C50 say that the list of a parser that reports at once is determined by the declarations as a set of names; trees of one
  order of the declarations are those of the other with other numbers (`isTree_move`).
* **C72** (`Props/Added`).  A tree of the smaller grammar is one of the larger with other numbers and the same value (`fits_shuffle`, for declarations that say the same of symbols and have
  all rules, `SaysMore`); C60 for both tables.
* **C73** (`Props/Carried`).  Every function of the runtime commutes with taking images of values, one lemma for each (`Proofs/Carried`).  That only the kinds of tokens matter follows by
  carrying two programs to one whose values are all `()`.
* **C74** (`Props/Outer`).  Every pass of the macro commutes with replacing what the outer directives leave in the grammar (`Grammar.dress`, `Proofs/Outer`); only reading the declarations
  and the check of the items look at it.
* **C75** (`Props/Plain`).  Every pass from the declarations to the packed tables commutes with forgetting types, aliases and blocks (`Grammar.skel`, `Proofs/Skel`), so the
  tables without tags and code are a function of `plain ds` (`compile_skel`).  The runs are compared in `Proofs/Moves`.  That
  nothing else is refused without types is `C75_plain` (`Proofs/PlainOk`, by the reasons of C47 and because no token has a tag).  `%type` still names its symbol: naming `error` makes
  the parser recover and naming a token early changes the numbers of tokens (`C75_named`).
* **C76** (`Props/Limit`).  A simulation, function by function (`Proofs/Limit`): only `yy_shift` looks at the limit, and where it overflows with the one limit and not with the other
  the second run goes on from the same parser; that a run only adds to its log is known from C71.  By C74 the tables of the two lists differ in the limit only.
* **C77** (`Props/Repeat`).  Items and look-aheads of the two rules go together (`repeat_ahead`).  By `Run.left_iff` (C58) each of the two is left somewhere and gives way to nothing there,
  but one of them gives way to the other wherever both are complete.  Compounds get a new symbol each time they are written: at the first place where the symbols differ a token is read in
  two ways, which no accepted grammar allows (`Run.one_shift`).
* **C78** (`Props/Memory`).  Every function of the runtime commutes with putting more at the old end of the log (`Proofs/Memory`, `shift_after` to `finish_after`).  Holds for any tables,
  not only for those of accepted grammars.  With an error symbol the error count is not read either (`C78_error`, `Proofs/Count`), which is why nothing is muted there.

## 6. Tools

* `tools/mkmanifest.py` writes `MANIFEST.json`; `tools/axioms.py` writes `AXIOMS.txt`.
* `tools/mutate.py` makes edits in a scratch copy, builds it and records what fails.
