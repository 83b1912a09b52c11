{"id": "C01", "title": "Soundness of acceptance", "statement": "If a fresh Parser is given t1..tn through parse(), every call returns Ok(()) without the %syntax_error block running, and end_of_input() returns Ok, then the start symbol derives t1..tn by the rules written in the macro (a token standing for itself, for a member of a |-compound or %token_class, or for its %fallback/%wildcard replacement).", "quantifier": "every declaration list for which the macro succeeds, every token sequence of every length, every user block", "why_tests_cant": "infinitely many grammars and inputs; the generated tables are packed, so a wrong cell shows only on the one (state, token) pair that hits it", "anchors": ["pomelo-impl/src/parser/mod.rs: generate_source (yy_parse_token_2, yy_find_shift_action_2, yy_reduce)", "pomelo-impl/src/parser/mod.rs: ActTab::insert_action_set", "pomelo-impl/src/parser/mod.rs: compress_tables", "pomelo-impl/src/parser/mod.rs: find_states"]}
{"id": "C02", "title": "Value of an accepted parse", "statement": "When end_of_input() returns Ok, the value (and the extra argument) is exactly what one gets by evaluating the rule blocks of a derivation tree of the input bottom-up and left to right, each block once, each alias bound to the value of its own symbol.", "quantifier": "every grammar, token sequence with values, and semantics of the rule blocks", "why_tests_cant": "needs every tree shape and every interleaving of reductions with tokens", "anchors": ["pomelo-impl/src/parser/mod.rs: translate_code", "pomelo-impl/src/parser/mod.rs: generate_source (yy_reduce)"]}
{"id": "C03", "title": "Completeness", "statement": "If the macro succeeds and no conflict had to be settled by precedence (and no %wildcard is declared), every token sequence derivable from the start symbol is accepted: all parse() calls and end_of_input() return Ok with the value of the derivation tree, unless a user block returns Err or the stack limit is hit.", "quantifier": "every conflict-free grammar, every derivation tree of every size", "why_tests_cant": "the set of sentences is infinite; needs the LALR(1) lookahead sets to be large enough in every state", "anchors": ["pomelo-impl/src/parser/mod.rs: find_first_sets", "pomelo-impl/src/parser/mod.rs: configlist_closure", "pomelo-impl/src/parser/mod.rs: find_follow_sets", "pomelo-impl/src/parser/mod.rs: find_actions", "pomelo-impl/src/parser/mod.rs: compress_tables"]}
{"id": "C04", "title": "Unambiguity of accepted grammars", "statement": "If the macro succeeds without using precedence (and without %wildcard), no token sequence has two different derivation trees.", "quantifier": "every accepted grammar, every pair of derivation trees", "why_tests_cant": "ambiguity is undecidable in general; only a proof about conflict detection covers all grammars", "anchors": ["pomelo-impl/src/parser/mod.rs: find_actions", "pomelo-impl/src/parser/mod.rs: resolve_conflict"]}
{"id": "C05", "title": "Viable prefix: errors are found before the offending token is consumed", "statement": "As long as parse() has returned Ok without a syntax error, the tokens consumed so far are a prefix of a sentential form of the grammar (of a sentence if every nonterminal derives some token string).", "quantifier": "every grammar the macro accepts, every token history", "why_tests_cant": "default reductions and packed tables postpone errors; only an invariant over all histories shows a bad token is never shifted", "anchors": ["pomelo-impl/src/parser/mod.rs: compress_tables", "pomelo-impl/src/parser/mod.rs: generate_source (yy_parse_token_2)"]}
{"id": "C06", "title": "Every parse call terminates", "statement": "parse() and end_of_input() always return, they never reduce forever.", "quantifier": "every accepted grammar, every reachable parser state, every token", "why_tests_cant": "non-termination cannot be observed by a test, and depends on cycles of empty reductions in the automaton", "anchors": ["pomelo-impl/src/parser/mod.rs: generate_source (yy_parse_token_2 loop)", "pomelo-impl/src/parser/mod.rs: resolve_conflict"]}
{"id": "C07", "title": "No internal panic", "statement": "Starting from new(), calling parse() until it fails or end_of_input() consumes the parser never trips an internal assert!, unwrap or unreachable! of the generated code.", "quantifier": "every accepted grammar, every token history", "why_tests_cant": "needs an invariant tying every reachable stack to the tables", "anchors": ["pomelo-impl/src/parser/mod.rs: generate_source (yy_find_reduce_action asserts, yy_reduce assert, pop().unwrap(), YYStatus::unwrap)"]}
{"id": "C08", "title": "Failure latch", "statement": "Once parse() has returned Err, any further parse()/end_of_input() on that parser panics with 'Cannot call parse after failure'; before any Err it never does.", "quantifier": "every call history", "why_tests_cant": "all histories, including errors from any block", "anchors": ["pomelo-impl/src/parser/mod.rs: generate_source (yy_parse_token)"]}
{"id": "C09", "title": "Only end_of_input can accept", "statement": "No sequence of parse() calls reaches the accepted state; end_of_input() returns Ok only together with a root value.", "quantifier": "every accepted grammar, every token history", "why_tests_cant": "the start rule must be reducible on end-of-input only, in every state, also through default actions, fallbacks and wildcards", "anchors": ["pomelo-impl/src/parser/mod.rs: find_states (lhs_start, fws.insert(0))", "pomelo-impl/src/parser/mod.rs: compress_tables (lhs_start)", "pomelo-impl/src/parser/mod.rs: generate_source (end_of_input_priv)"]}
{"id": "C10", "title": "Stack limit", "statement": "With %stack_size n, n>0, the stack never holds more than n entries; a push that would exceed n instead makes the call return Err of the %stack_overflow block, and that block runs in no other case.", "quantifier": "every grammar, limit n, and history", "why_tests_cant": "unbounded histories", "anchors": ["pomelo-impl/src/parser/mod.rs: generate_source (yy_shift)"]}
{"id": "C11", "title": "Unlimited stack", "statement": "With %stack_size 0 the %stack_overflow block never runs.", "quantifier": "every grammar and history", "why_tests_cant": "unbounded stack depths", "anchors": ["pomelo-impl/src/parser/mod.rs: generate_source (yy_shift, YYSTACKLIMIT)"]}
{"id": "C12", "title": "Packed tables answer like the unpacked action lists", "statement": "For every state and token the lookup through YY_SHIFT_OFST/YY_LOOKAHEAD/YY_ACTION/YY_DEFAULT returns the action computed for that state and token if there is one, otherwise the state's default; same for nonterminals through YY_REDUCE_OFST.", "quantifier": "every grammar, every (state, symbol) pair", "why_tests_cant": "quadratically many pairs per grammar and unboundedly many grammars; collisions depend on placement order", "anchors": ["pomelo-impl/src/parser/mod.rs: ActTab::insert_action_set", "pomelo-impl/src/parser/mod.rs: generate_source (tables)", "pomelo-impl/src/parser/mod.rs: yy_find_shift_action_2"]}
{"id": "C13", "title": "Rows never overlap in the packed table", "statement": "Placing the row of one state in the packed action table never changes or extends what is looked up for another state.", "quantifier": "every sequence of rows inserted", "why_tests_cant": "depends on every earlier insertion", "anchors": ["pomelo-impl/src/parser/mod.rs: ActTab::insert_action_set"]}
{"id": "C14", "title": "Shift/reduce conflicts follow the documented precedence rules", "statement": "Token precedence higher than rule precedence: shift; lower: reduce; equal: right-associative shifts, left-associative reduces, nonassoc is a syntax error on that token; if either has no precedence the macro reports a conflict.", "quantifier": "every grammar, state and lookahead with a shift/reduce conflict", "why_tests_cant": "conflicts interact when three or more actions share a lookahead", "anchors": ["pomelo-impl/src/parser/mod.rs: precedence_cmp", "pomelo-impl/src/parser/mod.rs: resolve_conflict", "pomelo-impl/src/parser/mod.rs: find_actions"]}
{"id": "C15", "title": "Reduce/reduce conflicts follow the documented rules", "statement": "If both rules have precedences and these differ, the higher one wins silently; otherwise (a precedence is missing, or they are equal) a conflict is reported.", "quantifier": "every grammar, state and lookahead with a reduce/reduce conflict", "why_tests_cant": "all pairs of rules and orders", "anchors": ["pomelo-impl/src/parser/mod.rs: precedence_cmp", "pomelo-impl/src/parser/mod.rs: resolve_conflict"]}
{"id": "C16", "title": "Operator precedence shapes the accepted trees", "statement": "In the derivation tree of any accepted input, a rule N ::= .. N never appears as the left operand of a rule N ::= N t .. when t binds tighter than (or equal and right-associative with, or is nonassoc with) the first rule, and a rule N ::= N t .. never appears as the right operand of N ::= .. N when t binds looser (or equal and left-associative, or nonassoc).", "quantifier": "every grammar with such rules, every accepted input of every length", "why_tests_cant": "expressions of unbounded size and any mix of operators", "anchors": ["pomelo-impl/src/parser/mod.rs: resolve_conflict", "pomelo-impl/src/parser/mod.rs: find_rule_precedences", "pomelo-impl/src/parser/mod.rs: configlist_closure"]}
{"id": "C17", "title": "Rule precedence", "statement": "The precedence of a rule is that of the symbol in [..] if given, else that of the leftmost right-hand-side token (or compound member) that has one, else none.", "quantifier": "every rule of every grammar", "why_tests_cant": "all shapes of right-hand sides", "anchors": ["pomelo-impl/src/parser/mod.rs: find_rule_precedences"]}
{"id": "C18", "title": "Conflicts are reported exactly when the grammar has an unresolved LALR(1) conflict", "statement": "The reduce lookaheads used by the macro are exactly the LALR(1) lookaheads: t is a lookahead of a complete item in a state iff some viable prefix leading to that state has the LR(1)-valid item with t. Hence the macro rejects with 'Parsing conflicts' iff the LALR(1) automaton has a conflict that precedence does not settle.", "quantifier": "every grammar, state, item and token", "why_tests_cant": "over-approximation would reject good grammars, under-approximation would accept bad ones; both need a fixpoint argument", "anchors": ["pomelo-impl/src/parser/mod.rs: find_first_sets", "pomelo-impl/src/parser/mod.rs: configlist_closure", "pomelo-impl/src/parser/mod.rs: find_links", "pomelo-impl/src/parser/mod.rs: find_follow_sets", "pomelo-impl/src/parser/mod.rs: find_actions"]}
{"id": "C19", "title": "Nullable and FIRST sets are exact", "statement": "The macro regards a nonterminal as possibly empty iff it derives the empty token string, and a token as a possible first token iff some token-prefixed form is derivable.", "quantifier": "every grammar", "why_tests_cant": "fixpoints over arbitrary grammars", "anchors": ["pomelo-impl/src/parser/mod.rs: find_first_sets"]}
{"id": "C20", "title": "Unreducible rules are rejected", "statement": "The macro succeeds only if every rule has some state and lookahead in which it is reduced; otherwise it stops with an error.", "quantifier": "every grammar", "why_tests_cant": "all grammars", "anchors": ["pomelo-impl/src/parser/mod.rs: find_actions (can_reduce)"]}
{"id": "C21", "title": "The macro terminates", "statement": "pomelo! terminates for every declaration list: nullable/FIRST/follow fixpoints, closure, the state construction and the fallback walks all end.", "quantifier": "every declaration list", "why_tests_cant": "non-termination cannot be tested", "anchors": ["pomelo-impl/src/parser/mod.rs: find_first_sets", "pomelo-impl/src/parser/mod.rs: get_state/build_shifts", "pomelo-impl/src/parser/mod.rs: configlist_closure", "pomelo-impl/src/parser/mod.rs: find_follow_sets", "pomelo-impl/src/parser/mod.rs: parse_one_decl (Fallback)", "pomelo-impl/src/parser/mod.rs: compress_tables"]}
{"id": "C22", "title": "Fallback is used only when the token itself has no action", "statement": "If a token has an action of its own in the current state, declaring %fallback does not change what is done with it; otherwise its fallback (and then the fallback's fallback, ...) is tried before the wildcard and before reporting an error.", "quantifier": "every grammar with %fallback, every state and token", "why_tests_cant": "interacts with default-reduction compression in every state", "anchors": ["pomelo-impl/src/parser/mod.rs: compress_tables (ignored_actions)", "pomelo-impl/src/parser/mod.rs: yy_find_shift_action_2"]}
{"id": "C23", "title": "Fallback loops are rejected", "statement": "The macro rejects any set of %fallback directives under which following fallbacks from some token never ends.", "quantifier": "every sequence of %fallback directives", "why_tests_cant": "unbounded chains", "anchors": ["pomelo-impl/src/parser/mod.rs: parse_one_decl (Decl::Fallback)"]}
{"id": "C24", "title": "Wildcard is a last resort and never matches end of input", "statement": "The wildcard's action is used only for a token that has neither an action of its own nor through its fallbacks in that state; end_of_input is never treated as the wildcard.", "quantifier": "every grammar with %wildcard, every state and token", "why_tests_cant": "interacts with default reductions in every state", "anchors": ["pomelo-impl/src/parser/mod.rs: yy_find_shift_action_2", "pomelo-impl/src/parser/mod.rs: compress_tables (uses_wildcard)"]}
{"id": "C25", "title": "Compound tokens and token classes", "statement": "x ::= .. A|B .. and %token_class accept exactly what the expansion into one alternative per member accepts.", "quantifier": "every grammar without nested classes, every input", "why_tests_cant": "all grammars and inputs", "anchors": ["pomelo-impl/src/parser/mod.rs: parse_one_decl (TokenClass, Rule)", "pomelo-impl/src/parser/mod.rs: build_shifts", "pomelo-impl/src/parser/mod.rs: find_first_sets", "pomelo-impl/src/parser/mod.rs: configlist_closure"]}
{"id": "C26", "title": "Optional symbols", "statement": "s? on a right-hand side derives either the empty string (value None) or s (value Some of its value), and nothing else.", "quantifier": "every grammar, every use of ?", "why_tests_cant": "all grammars and inputs", "anchors": ["pomelo-impl/src/parser/mod.rs: parse_one_decl (optional)", "pomelo-impl/src/parser/mod.rs: prepare (optional_tokens)"]}
{"id": "C27", "title": "Start symbol", "statement": "The start symbol is the one of %start_symbol, else the left side of the first rule; a grammar using it on a right-hand side is rejected.", "quantifier": "every declaration list", "why_tests_cant": "all declaration lists", "anchors": ["pomelo-impl/src/parser/mod.rs: prepare", "pomelo-impl/src/parser/mod.rs: find_states", "pomelo-impl/src/parser/mod.rs: parse_one_decl (StartSymbol)"]}
{"id": "C28", "title": "Single-use directives", "statement": "A second %default_type, %extra_argument, %error, %start_symbol, %wildcard, %token, %parser, %extra_token, %syntax_error, %parse_fail, %stack_overflow or %stack_size, a second %type of a symbol, a second precedence or fallback of a token is an error, wherever it occurs.", "quantifier": "every declaration list", "why_tests_cant": "all positions and interleavings", "anchors": ["pomelo-impl/src/parser/mod.rs: parse_one_decl"]}
{"id": "C29", "title": "%syntax_error is muted until three tokens are shifted", "statement": "In a grammar without the error symbol, after %syntax_error has run (and returned Ok) it is not run again before at least three tokens have been shifted since the last syntax error.", "quantifier": "every grammar, every history", "why_tests_cant": "all histories", "anchors": ["pomelo-impl/src/parser/mod.rs: generate_source (error_count)"]}
{"id": "C30", "title": "Muting with the error symbol", "statement": "In a grammar with the error symbol, %syntax_error is not run again until at least three new tokens have been shifted.", "quantifier": "every grammar using error, every history", "why_tests_cant": "all histories", "anchors": ["pomelo-impl/src/parser/mod.rs: generate_source (yy_parse_token_2, YYERRORSYMBOL branch)"]}
{"id": "C31", "title": "Error-symbol recovery", "statement": "On a syntax error on a token in a grammar with the error symbol, the parser pops to the nearest stack entry that is the error symbol or whose state can shift error; in the latter case %syntax_error runs once and its value is pushed as the error symbol; the token is discarded; if there is no such entry %parse_fail runs and the call returns Err.", "quantifier": "every grammar, every reachable stack, every token", "why_tests_cant": "all stacks", "anchors": ["pomelo-impl/src/parser/mod.rs: generate_source (yy_parse_token_2, YYERRORSYMBOL branch)"]}
{"id": "C32", "title": "Errors at end of input", "statement": "A syntax error detected in end_of_input() runs %parse_fail exactly once, never %syntax_error, and returns its value as Err.", "quantifier": "every grammar and history", "why_tests_cant": "all histories", "anchors": ["pomelo-impl/src/parser/mod.rs: generate_source (yy_parse_token_2, yymajor == 0)"]}
{"id": "C33", "title": "Expected tokens", "statement": "The iterator given to %syntax_error yields, in increasing token order, without repetition and without end-of-input, exactly the tokens whose action in the failing state is not an error; it therefore includes every token that could have been consumed there.", "quantifier": "every grammar, state and iteration length", "why_tests_cant": "all states of all grammars", "anchors": ["pomelo-impl/src/parser/mod.rs: generate_source (ExpectedTokens::next)"]}
{"id": "C34", "title": "The extra argument belongs to the user", "statement": "The extra value is passed unchanged from new() through all calls and returned by end_of_input(); it changes only by running user blocks, in order.", "quantifier": "every grammar and history", "why_tests_cant": "all histories", "anchors": ["pomelo-impl/src/parser/mod.rs: generate_source (extra)"]}
{"id": "C35", "title": "Values on the stack have the type the rule expects", "statement": "When a rule block runs, every aliased symbol's stack entry holds the enum variant the generated pattern expects, so 'impossible pattern' is unreachable.", "quantifier": "every accepted grammar, every history", "why_tests_cant": "needs an invariant over all stacks", "anchors": ["pomelo-impl/src/parser/mod.rs: translate_code", "pomelo-impl/src/parser/mod.rs: generate_source (dt_num, yy_fallback type check)"]}
{"id": "C36", "title": "Accepting never hits 'unexpected root type'", "statement": "When the start rule is reduced at end of input the generated code stores the root value and returns Ok.", "quantifier": "every accepted grammar and sentence", "why_tests_cant": "depends on the set of types in the grammar", "anchors": ["pomelo-impl/src/parser/mod.rs: generate_source (accept_code, types.get(yyroottype))"]}
{"id": "C37", "title": "Table entries fit their integer types", "statement": "Every literal written into YY_LOOKAHEAD, YY_DEFAULT, YY_RULE_INFO, YY_SHIFT_OFST and YY_REDUCE_OFST is in range of the element type chosen for that table.", "quantifier": "every accepted grammar", "why_tests_cant": "depends on sizes well beyond test grammars", "anchors": ["pomelo-impl/src/parser/mod.rs: minimum_signed_type", "pomelo-impl/src/parser/mod.rs: minimum_unsigned_type", "pomelo-impl/src/parser/mod.rs: generate_source"]}
{"id": "C38", "title": "Order of directives does not matter", "statement": "Exchanging two adjacent directives, other than two precedence directives or two rules, does not change whether the declarations are accepted nor the declared grammar (rules, start symbol, precedences, fallbacks, classes, types), up to symbol numbering.", "quantifier": "every declaration list, every adjacent pair", "why_tests_cant": "all permutations", "anchors": ["pomelo-impl/src/parser/mod.rs: parse_one_decl", "pomelo-impl/src/parser/mod.rs: new_from_decls"]}
{"id": "C39", "title": "Optional-symbol bookkeeping order is irrelevant", "statement": "The rules generated for optional symbols are produced from a hash map in unspecified order; the set of rules and the language do not depend on that order.", "quantifier": "every iteration order of the map", "why_tests_cant": "randomised per build", "anchors": ["pomelo-impl/src/parser/mod.rs: prepare (optional_tokens)"]}
{"id": "C40", "title": "Auto-forwarding rules", "statement": "A rule without code whose left side is typed forwards the value of its unique typed right-hand symbol if no alias is used; in any other case the macro reports an error.", "quantifier": "every rule", "why_tests_cant": "all rules", "anchors": ["pomelo-impl/src/parser/mod.rs: normalize_rules"]}
{"id": "C41", "title": "Error blocks see the original token", "statement": "The token passed to %syntax_error and %stack_overflow is the token given to parse(), with its value (None for a nonterminal push).", "quantifier": "every token type and value", "why_tests_cant": "all values", "anchors": ["pomelo-impl/src/parser/mod.rs: generate_source (token_value, token_build)"]}
{"id": "C42", "title": "Token and nonterminal types map to distinct enum variants", "statement": "Two symbols get the same stack variant iff they have the same effective type (after %default_type, %extra_token and class rules).", "quantifier": "every declaration list", "why_tests_cant": "all type assignments", "anchors": ["pomelo-impl/src/parser/mod.rs: generate_source (types, dt_num)"]}
{"id": "C43", "title": "Action codes are unambiguous", "statement": "Shift targets, reductions, error and accept are encoded as disjoint ranges of integers, so the run-time comparisons with YYNSTATE and YYNRULE recover exactly the intended action.", "quantifier": "every grammar", "why_tests_cant": "all table sizes", "anchors": ["pomelo-impl/src/parser/mod.rs: compute_action", "pomelo-impl/src/parser/mod.rs: generate_source"]}
{"id": "C44", "title": "Reductions and shifts follow the rightmost derivation in reverse", "statement": "The sequence of rule blocks run on an accepted input is exactly the postorder sequence of the rules of its derivation tree, and every token is shifted exactly once, in order.", "quantifier": "every accepted grammar and input", "why_tests_cant": "all histories", "anchors": ["pomelo-impl/src/parser/mod.rs: generate_source (yy_parse_token_2)"]}
{"id": "C45", "title": "The macro does not panic", "statement": "pomelo! returns a parser or a compile error with a span for every syntactically correct declaration list; it never panics (index out of range, unwrap of None, RefCell borrowed twice).", "quantifier": "every declaration list", "why_tests_cant": "all declaration lists; the panicking borrows depend on the shape of the automaton", "anchors": ["pomelo-impl/src/parser/mod.rs: parse_one_decl (TokenClass)", "pomelo-impl/src/parser/mod.rs: find_actions (action_cmp)", "pomelo-impl/src/parser/mod.rs: compress_tables", "pomelo-impl/src/parser/mod.rs: generate_source"]}
{"id": "C46", "title": "Declarations are refused exactly when, and for the reason, stated", "statement": "Reading a declaration list ends in an error exactly when some declaration is at fault after those before it (a directive given twice, a second type or precedence or fallback for a symbol, a loop of fallbacks, a terminal where a nonterminal is needed or the reverse, ...), and the error reported is that of the first declaration at fault; a list without such a declaration is refused only for having no rules.", "quantifier": "every declaration list", "why_tests_cant": "all declaration lists and every pair of an earlier and a later directive; walks along fallbacks may be arbitrarily long", "anchors": ["pomelo-impl/src/parser/mod.rs: parse_one_decl", "pomelo-impl/src/parser/mod.rs: new_from_decls"]}
{"id": "C47", "title": "Every error of the macro has its reason", "statement": "When pomelo! stops with an error, what the message says is true of the declarations: a rule of a typed symbol without a block is said to lack code only if it has an alias or not exactly one typed element; the start symbol is on a right-hand side; a nonterminal reached from the start symbol has no rules; a rule gives way to another action wherever its right-hand side is complete; some token after some prefix has two actions that precedences do not settle; the wildcard has a type, or its value is used; the enum of %token has variants or the struct of %parser has fields; a generic parameter of %token is not one of the parser; a token falls back on one of another type; an element whose value is used stands for tokens of different types. Conversely a list to which one of these applies (conflicts and lost rules apart, see C18) is not accepted, and the three errors about rules are reported exactly when they apply, in this order.", "quantifier": "every declaration list (for the two errors about types: with no token class in a token class), every iteration order of the map of optional symbols", "why_tests_cant": "all declaration lists and all combinations of several errors; reachability, conflicts and lost rules depend on the whole automaton", "anchors": ["pomelo-impl/src/parser/mod.rs: normalize_rules", "pomelo-impl/src/parser/mod.rs: find_states", "pomelo-impl/src/parser/mod.rs: get_state", "pomelo-impl/src/parser/mod.rs: find_actions", "pomelo-impl/src/parser/mod.rs: generate_source", "pomelo-impl/src/parser/mod.rs: translate_code"]}
{"id": "C48", "title": "The text of the declarations is read as written", "statement": "A token sequence is accepted by the syntax of pomelo! exactly if it is a sequence of directives and rules in their documented form: directives with their operands and `;` (optional after a block), rules `id ::= elements [[precedence]]` ended by `;`, by a block, by the precedence, by the end of the input or by a following directive; elements `A|B|C` with an optional `?` and alias. The declarations obtained are those written, no text has two readings, and every declaration list whose elements name symbols has a text.", "quantifier": "every token sequence, every declaration list", "why_tests_cant": "all token sequences, including malformed ones and every combination of optional parts", "anchors": ["pomelo-impl/src/lib.rs: impl Parse for Decl", "pomelo-impl/src/lib.rs: impl Parse for Decls", "pomelo-impl/src/lib.rs: pomelo_impl"]}
{"id": "C49", "title": "What is accepted after syntax errors", "statement": "When parse() and end_of_input() return Ok although there were syntax errors, the result is the value of a derivation tree of the start symbol in which `error` may stand for a part of the input. The leaves of the tree are the input with some contiguous parts replaced by `error`, each part containing the token at which the error was found; in a grammar that does not name `error` they are the tokens read, a subsequence of the input. The extra argument and the order of reading, reducing, running %syntax_error and throwing tokens away are those of building this tree from left to right. Before the end, whatever is kept begins a sentential form. A grammar recovers with `error` exactly if a %type, the %start_symbol or a rule names it.", "quantifier": "every accepted declaration list whose packed rows do not overlap and without classes of classes, every user code, every input and every sequence of errors in it", "why_tests_cant": "all inputs with any number of errors anywhere, together with all grammars and all results of %syntax_error", "anchors": ["pomelo-impl/src/parser/mod.rs: generate_source (yy_parse_token_2, yy_syntax_error, yy_pop_parser_stack)", "pomelo-impl/src/parser/mod.rs: symbol_new (use_cnt)", "src/lib.rs: Error Processing"]}
{"id": "C50", "title": "Tokens reported as expected may come next", "statement": "The list of expected tokens given to %syntax_error has the tokens that may follow those already taken: every token of the list continues them to the beginning of a sentence, and every token that does so is in the list. With each token of the list comes a Token value exactly if the token has no type.", "quantifier": "every accepted declaration list without precedence, every user code, every input up to its first syntax error", "why_tests_cant": "all grammars, all inputs and all sentences that begin with them", "anchors": ["pomelo-impl/src/parser/mod.rs: generate_source (ExpectedTokens, yy_parse_token_2)", "pomelo-impl/src/parser/mod.rs: compress_tables", "src/lib.rs: Error Processing"]}
{"id": "C51", "title": "Expressions are read as the precedences say", "statement": "In a grammar of expressions over one nonterminal whose operators can be told apart (prefix, infix, postfix, ternary, brackets; token classes as operators), every sentence has exactly one derivation tree that agrees with the declared precedences and associativities: an operator binds looser than every rule whose right operand ends just before it, and the operators at the left edge of a right operand bind tighter than the rule. The parser accepts the sentence with the value of that tree. Whatever it accepts without a syntax error has such a tree, also with %nonassoc.", "quantifier": "every accepted declaration list of that form, every user code, every sentence of any length and nesting", "why_tests_cant": "all grammars of operators, all precedence tables and all expressions", "anchors": ["pomelo-impl/src/parser/mod.rs: resolve_conflict, precedence_cmp", "pomelo-impl/src/parser/mod.rs: find_rule_precedences", "src/lib.rs: Precedence Rules"]}
{"id": "C52", "title": "The interface of the emitted parser follows from the declarations", "statement": "Token has exactly one variant for each token named in the declarations (classes are none), in the order of first mention, with the declared attributes and the field that %type, %extra_token and %wildcard give it; parse passes a token on under the number of its variant. With %extra_token E every token has a value of type E, which into_extra and extra return and which is the only thing extra_mut changes. new has a parameter, the three functions of the extra argument exist and end_of_input gives a pair exactly if there is an extra argument; the other types of the signatures are those of the start symbol, of %error and of error.", "quantifier": "every accepted declaration list, every value of Token", "why_tests_cant": "all orders and repetitions of declarations, all combinations of types with %extra_token", "anchors": ["pomelo-impl/src/parser/mod.rs: generate_source (token enum, extra token functions, Parser impl)", "src/lib.rs: The %extra_token directive", "src/lib.rs: The %extra_argument directive"]}
{"id": "C53", "title": "A parser works in linear time", "statement": "For every generated parser there is a constant C such that after n calls of parse, whatever the tokens and the user code and also with syntax errors, at most C*(n+1) reductions have been made, the stack holds at most C*(n+1) entries, and a further call of parse or end_of_input comes back after at most C*(n+1) rounds of its loop.", "quantifier": "every accepted declaration list, every user code, every sequence of calls", "why_tests_cant": "the bound is about all inputs of all lengths, and the constant must not depend on them", "anchors": ["pomelo-impl/src/parser/mod.rs: generate_source (parse_token, reduce, shift, error recovery)"]}
{"id": "C54", "title": "Every sort of the macro is by a total order and has a determined result", "statement": "Each comparison that the macro hands to sort_by (symbols, configurations, actions before and after the choice of defaults, states, rows of the table) is a total order on the elements sorted, as sort_by requires; hence the order of symbols, items, actions, states and rows does not depend on the sorting algorithm of the standard library.", "quantifier": "every declaration list, every list that is sorted, every stable sorting algorithm", "why_tests_cant": "sort_by may treat short and long lists differently, and may panic or reorder from one version to the next if the comparison is inconsistent", "anchors": ["pomelo-impl/src/parser/mod.rs: ActionDetail::cmp, action_cmp, config_cmp, state_resort_cmp, prepare, generate_source"]}
{"id": "C55", "title": "The report of the states describes the automaton", "statement": "The report printed for %verbose, or put in the error message, has exactly one block for each LR(0) state; the block lists exactly the items of the state, every shift and goto with its target and every reduction with exactly its LALR(1) lookaheads, and the accepting action in the first state only. A line is called a conflict or dropped by precedence only for the reason that precedences and associativities give, and of all the shifts and reductions on one symbol exactly one is without a remark. The report is an error exactly if it has a line marked as a conflict, the macro fails because of conflicts exactly then, and a successful macro prints a report exactly if %verbose is given. The table of symbols gives each symbol its number.", "quantifier": "every declaration list, every prefix of symbols, every symbol, every rule", "why_tests_cant": "the report is the only means to understand a conflict; a missing or wrong line shows in particular states of particular grammars and no test reads reports", "anchors": ["pomelo-impl/src/parser/mod.rs: report_output, build, find_actions, resolve_conflict"]}
{"id": "C56", "title": "A block is used at the declared types", "statement": "In the emitted text, the result of a rule and the variant built from it have the type declared for the left side (or () if it has none), and the variable of an aliased element has exactly the type that the declarations give to the element: the type of the token or nonterminal with %extra_token and %default_type, of the first member of a class, or Option of the type of an optional symbol. An element without alias has no variable, unless the macro forwards its value.", "quantifier": "every declaration list accepted by the macro, every rule, every element", "why_tests_cant": "a wrong type shows as a compilation error of the emitted text for particular combinations of declarations, or not at all if types coincide", "anchors": ["pomelo-impl/src/parser/mod.rs: translate_code, generate_source (types, YYMinorType)"]}
{"id": "C57", "title": "The blocks that the macro writes have the types of their rules", "statement": "Every block that the macro supplies itself - the forwarding block of a rule without code, the missing block of a rule whose left side has no type, the two blocks of an optional symbol - has the type of the result of its rule, so the emitted text has type errors only in blocks of the author.", "quantifier": "every declaration list accepted by the macro, every rule", "why_tests_cant": "depends on combinations of %default_type, classes, optional symbols and forwarding, each of which is tested only alone", "anchors": ["pomelo-impl/src/parser/mod.rs: prepare (optional_tokens), normalize_rules, generate_source (default_type), translate_code"]}
{"id": "C58", "title": "The strongest of any number of candidates is taken", "statement": "If in a state a token can be shifted and any number of rules are complete before it, and the precedences settle every pair, then the action on the token is the candidate that gives way to no other: the shift if the token is stronger than every complete rule, otherwise the rule that no other rule beats; the token is an error exactly if it ties with that rule and is non-associative.", "quantifier": "every accepted declaration list, every prefix of symbols, every token, every number of candidates", "why_tests_cant": "three-way conflicts need particular combinations of rules, precedences and order of rules", "anchors": ["pomelo-impl/src/parser/mod.rs: find_actions, resolve_conflict"]}
{"id": "C59", "title": "The macro is deterministic", "statement": "The generator walks a HashMap of the optional symbols, whose order changes from build to build. With every order the macro has the same outcome: the same error, or tables whose parsers do the same in every call, with the same values, errors, log and panics, up to the numbers of the states and of the rules the macro adds.", "quantifier": "every declaration list, every two iteration orders, every semantics, every history of calls, every input", "why_tests_cant": "a test sees one order per build, and cannot choose it", "anchors": ["pomelo-impl/src/parser/mod.rs: Grammar::build, optional_tokens (259, 547, 655)", "pomelo-impl/src/parser/mod.rs: find_states, find_actions, compress_tables, resort_states, generate_source"]}
{"id": "C60", "title": "How large the stack must be", "statement": "With a limited stack (%stack_size, 100 by default, 0 for no limit) the tokens of a derivation tree whose blocks succeed are accepted exactly if the limit is at least the height of the tree, where building a subtree needs one entry for each of its left siblings, and the bottom entry counts; otherwise the stack overflows. So a list written with left recursion needs a constant stack, with right recursion one entry per element.", "quantifier": "every grammar without unsettled conflicts, every derivation tree, every size of the stack, every semantics", "why_tests_cant": "the height is a maximum over the whole run, for trees of any size; a test tries some inputs with some limits", "anchors": ["pomelo-impl/src/parser/mod.rs: yy_shift (2861-2876), yy_reduce", "pomelo-impl/src/parser/mod.rs: parse_one_decl, Decl::StackSize (1957-1963)", "src/lib.rs: The %stack_size directive (589-600)"]}
{"id": "C61", "title": "No conflict of borrows in the generator", "statement": "The generator keeps symbols, rules, states, configurations and actions in RefCells and borrows them while others are borrowed. No pass ever asks for a mutable borrow of a cell that is borrowed, or for any borrow of a cell that is mutably borrowed, so the macro never stops with BorrowError or BorrowMutError.", "quantifier": "every declaration list, every iteration order of the optional symbols, every choice of the comparisons made by the sorts", "why_tests_cant": "the conflict is between two cells that happen to be the same, which depends on the grammar: a rule that mentions its own left side, a link of a configuration, a state that is its own successor", "anchors": ["pomelo-impl/src/parser/vecref.rs: get, get_mut (22-27)", "pomelo-impl/src/parser/mod.rs: find_first_sets (798-841), get_state (903-907), find_links (1029-1035), find_actions (1123-1147), compress_tables (1371-1373), generate_source (2138-2168)"]}
{"id": "C62", "title": "Names do not matter", "statement": "If tokens, nonterminals (other than error) and types are given other names, different ones for different names and of the same kind, and blocks are replaced by others, then the macro stops with the same error or makes the same tables up to the names of the tokens; the emitted interface, rules and report differ in the names only, and the parsers behave alike in every call.", "quantifier": "every declaration list, every renaming, every iteration order of the optional symbols, every user code, every input", "why_tests_cant": "a renaming may change a sort order, a hash or a collision with a generated name in some grammar no test uses", "anchors": ["pomelo-impl/src/parser/mod.rs: Symbol::name (83), symbol_new (1686-1730), symbol_find (1731-1739), generate_source (2136-2168, 2346-2380)"]}
{"id": "C63", "title": "A token that no rule uses behaves exactly like its fallback", "statement": "If no rule mentions a token (by name or through a class) and the token has a %fallback of the same type, then replacing any occurrences of it in an input by the fallback changes nothing: the same blocks run with the same arguments in the same order, the same calls fail with the same expected tokens, the same value is returned. Only the token that %syntax_error and %stack_overflow are shown differs.", "quantifier": "every accepted grammar, every user code, every input, every set of replaced tokens", "why_tests_cant": "the packed table could hold, at the place of the unused token, an entry of another state; a test sees only the states it visits", "anchors": ["pomelo-impl/src/parser/mod.rs: insert_action_set (342-400), yy_find_shift_action (2798-2845)", "/repo/src/lib.rs: %fallback"]}
{"id": "C64", "title": "Unused tokens in front keep the rows of the packed table apart", "statement": "The generated parser has one rule per written rule and two per optional symbol. If the tokens that the declarations name first, as many as there are rules, are used by no rule, then no state finds in the packed action table an entry that belongs to another state; so the parser acts on a token exactly as its state says.", "quantifier": "every accepted grammar, every iteration order of the hash map of optional symbols, every state and symbol", "why_tests_cant": "whether rows overlap depends on the numbers of all tokens and on the order in which all rows are placed; a test sees the lookups of a few inputs", "anchors": ["pomelo-impl/src/parser/mod.rs: insert_action_set (342-400), the loop over ax (2292-2339)"]}
{"id": "C65", "title": "The order of directives does not decide whether the macro accepts", "statement": "Exchanging two adjacent declarations, unless both are precedence directives or both are rules, does not change whether the macro makes a parser. The numbers of the symbols, the sorted configurations and actions and the tables may all be different.", "quantifier": "every list of declarations, every exchange, every iteration order of the hash map of optional symbols in either run", "why_tests_cant": "the passes compare numbers of symbols and stop or go on by them; only some grammar in some order would show a conflict missed or invented because of the numbering", "anchors": ["pomelo-impl/src/parser/mod.rs: symbol_new (1686-1730), find_first_sets (763-846), find_states (852-1010), find_actions (1079-1175), resolve_conflict (1181-1228)"]}
{"id": "C66", "title": "Unused tokens may be declared in front, and enough of them make the parser right", "statement": "Naming tokens before a grammar (%type P1; %type P2; ...) does not change whether the macro accepts it. If they are new and at least as many as the parser has rules, then the rows of the packed table are apart: the parser accepts only sentences of the grammar, accepts all of them unless a block fails or the stack overflows, and does not panic.", "quantifier": "every list of declarations, every list of tokens in front, every iteration order of the hash map of optional symbols, every semantics and input", "why_tests_cant": "the new tokens change the numbers of all symbols and so every pass; that nothing but the tables changes is a statement about all grammars", "anchors": ["pomelo-impl/src/parser/mod.rs: insert_action_set (342-400), symbol_new (1686-1730), find_actions (1079-1175)"]}
{"id": "C67", "title": "The order of directives does not change what the parser accepts", "statement": "If declarations are exchanged as in C65, then the parser made from the new list accepts the same inputs (the tokens being known by their names) with the same result, the same final extra value and so the same effects of the blocks. The same holds if new tokens are named in front.", "quantifier": "every list of declarations, every exchange, every iteration order of the hash map of optional symbols in either run, every semantics, every input", "why_tests_cant": "the tokens, states and rules after the exchange have other numbers and the packed table another layout, so that each order is another program; a test compares two of them on a few inputs", "anchors": ["pomelo-impl/src/parser/mod.rs: prepare (599-683), resort_states (1344-1400), insert_action_set (342-400), generated parse loop"]}
{"id": "C68", "title": "An error is noticed at the first token that cannot be there", "statement": "For a grammar without fallbacks, wildcard and settled conflicts whose symbols all derive something, and blocks that do not fail: as long as the stack does not overflow, a syntax error has been reported after some tokens if and only if no sentence of the grammar begins with them. So an error is neither reported early nor late, and two orders of the directives report it at the same token.", "quantifier": "every such list of declarations, every iteration order of the hash map of optional symbols, every semantics with blocks that do not fail, every list of tokens", "why_tests_cant": "a test takes a few wrong inputs for a few grammars; that nothing that may still become a sentence is refused, and nothing else is taken, is about all sentences of all grammars", "anchors": ["pomelo-impl/src/parser/mod.rs: insert_action_set (342-400), compress_tables (1231-1340), generated parse loop and yy_find_shift_action"]}
{"id": "C69", "title": "The order of rules does not matter", "statement": "For declarations without precedences: if rules (and other declarations, as in C65) are exchanged and the start symbol stays the same, then the macro accepts the new list if and only if it accepts the old one, and the parsers made from them accept the same inputs (the tokens being known by their names) with the same result and the same final extra value.", "quantifier": "every list of declarations without precedences, every sequence of exchanges, every iteration order of the hash map of optional symbols in either run, every semantics, every input", "why_tests_cant": "the macro goes by the numbers of the rules when it sorts configurations and states, settles conflicts and chooses default reductions, so that each order of the rules is another program; a test compares two of them on a few inputs", "anchors": ["pomelo-impl/src/parser/mod.rs: new_from_decls, prepare (599-683), find_states, find_actions, compress_tables (1231-1340), insert_action_set (342-400), generated parse loop"]}
{"id": "C70", "title": "When blocks are run", "statement": "A block is run when the token after its rule is given to the parser, neither earlier nor later: as soon as the beginning of an input that will be accepted has been read, just those rules have been reduced that come before its last token in the postorder of the derivation tree. Hence after each token of an accepted input the blocks that have been run and the extra argument do not depend on the order of rules and directives. (After a syntax error they may.)", "quantifier": "every list of declarations, every iteration order of the hash map, every semantics, every accepted input and each beginning of it; for the second part every sequence of exchanges of declarations", "why_tests_cant": "whether a reduction waits for the next token depends on default reductions, of which each grammar and each order of declarations has others; a test looks at the extra argument at a few points of a few inputs", "anchors": ["pomelo-impl/src/parser/mod.rs: compress_tables (1231-1340), generated parse loop (2709-2791), yy_reduce (2940-2957)"]}
{"id": "C71", "title": "What is reported at an error", "statement": "For every order of the rules and directives the parser reports the first syntax error at the same token and with the same list of expected tokens, which has exactly the tokens that may come there.", "quantifier": "every list of declarations, every sequence of exchanges of declarations, every iteration order of the hash map, every semantics, every sequence of tokens that is the beginning of a sentence and every next token", "why_tests_cant": "the list is that of the state after default reductions, which differ from grammar to grammar and between orders of declarations; a test compares a few lists for one order", "anchors": ["pomelo-impl/src/parser/mod.rs: compress_tables (1231-1340), ExpectedTokens (2663-2707, 2733), yy_syntax_error (2891-2904)"]}
{"id": "C72", "title": "Adding rules keeps what was accepted", "statement": "If rules are added to the declarations, anywhere and with the same start symbol, and the macro accepts both lists of declarations, then every input that was accepted still is, with the same value and the same extra argument, though tokens, rules and states may have other numbers; and no error is noticed earlier than before.", "quantifier": "every list of declarations, every way to add rules, every iteration order of the hash map, every semantics, every accepted input", "why_tests_cant": "each added rule changes the automaton, the default reductions and the packing of the tables as a whole; a test suite compares a few inputs of one grammar and one extension", "anchors": ["pomelo-impl/src/parser/mod.rs: find_states (852-890), get_state (895-930), find_actions (1079-1229), compress_tables (1231-1375), resort_states (1381-1413), generate_source (2083-2957)"]}
{"id": "C73", "title": "Values do not steer the parser", "statement": "The generated parser hands values, the extra argument and errors on without looking at them: if the user's code does with the images of values what other code does with the values, then parsing the images gives the image of the whole result - value, extra argument, error, stack and log.  So which rules are reduced, what is shifted or discarded, when %syntax_error is called and with which list, and how the parse ends depend on the kinds of the tokens alone, as long as no block fails.", "quantifier": "all tables, all types of values, extra arguments and errors, all code of the user, all inputs, also those that end in an error or a panic", "why_tests_cant": "a test has particular values of particular types; the claim is about all maps between all types", "anchors": ["pomelo-impl/src/parser/mod.rs:2555-2960"]}
{"id": "C74", "title": "The text around the parser does not change the parser", "statement": "%module, %include, %verbose, %syntax_error, %parse_fail, %stack_overflow, %extra_argument, %error, %token and %parser have no influence on the tables, and %stack_size only on the limit of the stack: the declarations without them give the same error or the same tables.  The declarations are accepted exactly if they are without them, no such directive is repeated, and the items of %token and %parser fit.", "quantifier": "every list of declarations, every iteration order of the hash map", "why_tests_cant": "tests use a few combinations of the directives with a few grammars", "anchors": ["pomelo-impl/src/parser/mod.rs:1753-1790", "pomelo-impl/src/parser/mod.rs:1826-1860", "pomelo-impl/src/parser/mod.rs:2083-2200"]}
{"id": "C75", "title": "Types and blocks do not change the automaton", "statement": "The types given by %type, %default_type and %extra_token, the aliases and blocks of rules and the outer directives have no influence on the states, the packed actions, the default actions, the gotos, the numbers of symbols, the fallbacks and the lengths of rules. A list that is accepted is accepted without all this too. Two lists of declarations that agree without all this, and that are both accepted, give the same tables up to the tags of types and the code of rules. With the same limit of the stack their parsers make the same shifts, reductions and recoveries and end in the same way on inputs with the same kinds of tokens, whatever values they carry, unless a block fails or a value of a wrong type is met.", "quantifier": "all pairs of lists of declarations, all orders of the hash map, all inputs, all blocks that do not fail", "why_tests_cant": "A test compares two grammars with a few types; the statement is about every way of giving types and blocks and every input.", "anchors": ["pomelo-impl/src/parser/mod.rs:298-560", "pomelo-impl/src/parser/mod.rs:1233-1330", "pomelo-impl/src/parser/mod.rs:1340-2260"]}
{"id": "C76", "title": "The limit of the stack decides only when to give up", "statement": "Let two lists of declarations differ in outer directives only, and let the second leave more room on the stack (a larger %stack_size, or none). On every input the two parsers do exactly the same and end with the same result and the same extra argument, or the first one runs the block of %stack_overflow as the last thing it does, and everything that it has done before the second one does too, in the same order. So whatever is accepted with a limit is accepted with the same value with a larger limit and without one.", "quantifier": "all grammars, all pairs of limits, all inputs, all user blocks, failing or not, with and without syntax errors", "why_tests_cant": "Overflow depends on the grammar, the limit and the input together, and may happen in a shift, a reduction or a recovery.", "anchors": ["pomelo-impl/src/parser/mod.rs:2861-2874", "pomelo-impl/src/parser/mod.rs:2940-2957", "pomelo-impl/src/parser/mod.rs:2754-2764"]}
{"id": "C77", "title": "No rule is written twice", "statement": "If two rules have the same left-hand side and the same right-hand side, up to aliases, the macro refuses the declarations, whatever the blocks, the precedence marks and the other declarations are. The rules of an accepted grammar are therefore known by their two sides, also those that the macro adds for optional symbols.", "quantifier": "all declarations, all iteration orders of the table of optional symbols", "why_tests_cant": "Precedences of the rules and of the tokens, compounds and optional symbols all take part in whether a conflict is reported, and any of them could let the second rule win somewhere and the first one somewhere else.", "anchors": ["pomelo-impl/src/parser/mod.rs:1079-1166", "pomelo-impl/src/parser/mod.rs:1181-1220"]}
{"id": "C78", "title": "Nothing but the fields of the parser is remembered", "statement": "Two parsers with the same stack, the same error count, the same status and the same extra argument give the same results for the same calls, end with the same fields, and run the same blocks in the same order, however they were reached. The log of the model is not read by anything. In a grammar with the error symbol the error count does not matter either.", "quantifier": "all tables, all blocks, all pairs of parsers that agree on the fields, all tokens and continuations", "why_tests_cant": "A hidden dependence on the history would show only for particular pairs of histories that lead to the same fields.", "anchors": ["pomelo-impl/src/parser/mod.rs:2563-2568", "pomelo-impl/src/parser/mod.rs:2636-2657", "pomelo-impl/src/parser/mod.rs:2692-2790", "pomelo-impl/src/parser/mod.rs:2861-2957"]}
