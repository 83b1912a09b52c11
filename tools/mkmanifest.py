#!/usr/bin/env python3
"""Writes MANIFEST.json from the table below."""
import json, os
claims = [
 ("C01", "partial", ["Pomelo.C01_partial", "Pomelo.C01_noReport_partial", "Pomelo.C01_false", "Pomelo.C01_nested"],
  "False of the code: rows of the packed action table may overlap (negation proved with a grammar whose parser accepts a non-sentence), and a class within a class makes a shift the default of a state (C01_nested, a non-sentence accepted though no rows overlap). Proved whenever the rows are apart and classes are flat."),
 ("C02", "partial", ["Pomelo.C02_partial"], "As C01; runs in which no token was thrown away by error recovery. For the others see C49."),
 ("C03", "partial", ["Pomelo.C03_partial", "Pomelo.C03_noAssoc_partial", "Pomelo.C03_false", "Pomelo.C03_false_root", "Pomelo.C03_nested", "Pomelo.C03_wildcard_partial", "Pomelo.C03_wildcard_false", "Pomelo.C03_wildcard_fallback", "Pomelo.C03_wildcard_typed"],
  "False of the code: s ::= a; a ::= A; a ::= ; panics on the empty sentence because rows of the action table collide, and an untyped start symbol panics where () is a type, and classes of classes lose sentences (negations proved). Proved, with value, effects and log, for every tree of every conflict-free grammar with apart rows, flat classes and rootOk; with a wildcard under WildAlone and wildUnbound, each of which is shown to be needed."),
 ("C04", "proved", ["Pomelo.C04", "Pomelo.C04_noAssoc"], "Every accepted grammar without settled conflicts, also with fallbacks and classes; trees in which tokens stand for themselves."),
 ("C05", "partial", ["Pomelo.C05_partial", "Pomelo.C05_sentence_partial", "Pomelo.C05_noReport_partial", "Pomelo.C05_false"],
  "False of the code: the parser of s ::= A B; s ::= B A takes A B A without an error because rows of the action table collide (negation proved). Proved, for sentential forms and for sentences, whenever the rows are apart and classes are flat."),
 ("C06", "partial", ["Pomelo.C06_partial", "Pomelo.C06_noClash_partial", "Pomelo.C06_false", "Pomelo.C06_false_void"],
  "False of the code: precedence on an empty rule makes the parser reduce forever at a constant stack depth, and without a stack limit a symbol that derives nothing makes it push forever (negations proved with grammars). Proved when rows are apart, classes flat and no token is its own fallback: if no symbol derives itself and there is a stack limit or no hidden left recursion; or if there is no conflict and every symbol can begin with a token or vanish."),
 ("C07", "partial", ["Pomelo.C07_partial", "Pomelo.C07_false", "Pomelo.C07_nested"],
  "False of the code: `s ::= a; a ::= A;` panics on the empty input because two rows of the packed table overlap (negation proved). Proved for all call histories and user code under decidable conditions on the declarations, each of which excludes a defect shown by C12_false, C07_nested, C23_false, C35_false, C36_false."),
 ("C08", "proved", ["Pomelo.C08_latch_parse", "Pomelo.C08_latch_end", "Pomelo.C08_before"], "Every accepted grammar, call history and user code."),
 ("C09", "proved", ["Pomelo.C09_parse", "Pomelo.C09_end"], "Every accepted grammar, call history and user code."),
 ("C10", "proved", ["Pomelo.C10_bound", "Pomelo.C10_overflow"], "Arbitrary tables and user code."),
 ("C11", "proved", ["Pomelo.C11_unlimited"], "Arbitrary tables and user code."),
 ("C12", "partial", ["Pomelo.C12_partial", "Pomelo.C12_false"],
  "False of the code when rows of the packed table collide (negation proved with a grammar); proved for every grammar whose rows are apart."),
 ("C13", "partial", ["Pomelo.C13_partial", "Pomelo.C13_found", "Pomelo.C13_tight", "Pomelo.C13_false"],
  "False of the code: a row with a single entry may be placed over cells that are taken (negation proved). What is inserted is always found again; nothing else is found in a row unless the insertion was of that one kind, and C13_tight shows that each such insertion does collide."),
 ("C14", "partial", ["Pomelo.C14_losers", "Pomelo.C14_partial", "Pomelo.C14_false"],
  "False of the code: a nonassoc token with a fallback is reduced (negation proved). What loses is never done (any number of rules); the exact lookup for one rule, apart tables and no competing wildcard."),
 ("C15", "partial", ["Pomelo.C15_losers", "Pomelo.C15_partial", "Pomelo.C15_false"],
  "False of the code: equal %left or %right precedence is settled silently (negation proved); the rest is proved."),
 ("C16", "partial", ["Pomelo.C16_partial", "Pomelo.C16_false", "Pomelo.tree_unique"],
  "False of the code: a wildcard or a fallback lets a nonassoc operator nest (negation proved). Proved for the tree of every accepted run for operators without fallback, grammars without wildcard and apart tables."),
 ("C17", "proved", ["Pomelo.C17_rule_precedence"], "Against a definition by declarations (Spec.rulePrec)."),
 ("C18", "partial", ["Pomelo.C18_states", "Pomelo.C18_lookaheads", "Pomelo.C18_lr1", "Pomelo.C18_reported", "Pomelo.C18_unreported_partial", "Pomelo.C18_exact_partial", "Pomelo.C18_missed"],
  "Lookaheads are exactly the LALR(1) ones, and a reported conflict is a real one. The converse is false of the code (equal non-associative rules beaten by a third one): negation proved, exact without %nonassoc."),
 ("C19", "proved", ["Pomelo.C19_nullable", "Pomelo.C19_first", "Pomelo.C19_rest"], "Every list of declarations for which the automaton is built; against context-free derivations."),
 ("C20", "proved", ["Pomelo.C20_reduced", "Pomelo.C20_compiles"], "Every list of declarations, before the choice of defaults."),
 ("C21", "partial", ["Pomelo.C21_partial", "Pomelo.C21_false", "Pomelo.C21_false_decl", "Pomelo.C21_false_forever"],
  "False of the code: `%fallback B B; s ::= A; s ::= B;` loops for ever (negation proved, and that the walk fails at every bound). Every other loop ends for every list of declarations; the walks along fallbacks end if no token is its own fallback."),
 ("C22", "partial", ["Pomelo.C22_partial", "Pomelo.C22_false"],
  "False of the code: a fallback turns the error of a nonassoc token into a reduce (negation proved); proved for tokens whose own action is not that error."),
 ("C23", "partial", ["Pomelo.C23_partial", "Pomelo.C23_false"], "False of the code: %fallback A A is accepted (negation proved); every other loop is rejected."),
 ("C24", "partial", ["Pomelo.C24_own_partial", "Pomelo.C24_wildcard", "Pomelo.C24_end", "Pomelo.C24_false"],
  "False of the code: a wildcard reduce chosen as default is used for other tokens with fallbacks (negation proved); the rest is proved."),
 ("C25", "partial", ["Pomelo.C25_trees", "Pomelo.C25_partial", "Pomelo.C25_values_partial", "Pomelo.C25_false"],
  "False of the code as stated: a rule with a compound has the precedence of its first member for all members, so e ::= e Eq|Plus e is not the two rules (negation proved). The written grammar and its expansion have the same sentences and values (C25_trees); the two generated parsers accept the same inputs with the same values where C01 and C03 are known for both (no settled conflict, no fallback or wildcard, no colliding rows)."),
 ("C26", "partial", ["Pomelo.C26_partial", "Pomelo.C26_values", "Pomelo.C26_false"],
  "False of the code: a ? after a compound of tokens (A|B?) has no effect (negation proved). Proved for single symbols, with the values; C01 to C04 are about the same optional symbols in trees."),
 ("C27", "proved", ["Pomelo.C27_start", "Pomelo.C27_not_on_rhs"], "Every list of declarations."),
 ("C28", "partial", ["Pomelo.C28_single_use_partial", "Pomelo.C28_false", "Pomelo.C28_false_type"],
  "False of the code: an untyped %stack_size or an attribute-only %type may be repeated; negation proved, all other cases proved."),
 ("C29", "proved", ["Pomelo.C29_muted"], "Arbitrary tables without error symbol."),
 ("C30", "partial", ["Pomelo.C30_separated_partial", "Pomelo.C30_false"],
  "False of the code: negation proved (error1.rs); the weaker separation property is proved."),
 ("C31", "proved", ["Pomelo.C31_recovery"], "Arbitrary tables with error symbol."),
 ("C32", "proved", ["Pomelo.C32_end_error", "Pomelo.C32_end_events"], "Arbitrary tables."),
 ("C33", "proved", ["Pomelo.C33_expected", "Pomelo.C33_includes_consumable"], "Arbitrary tables."),
 ("C34", "proved", ["Pomelo.C34_extra_parse", "Pomelo.C34_extra_end", "Pomelo.C34_extra_untouched"], "Arbitrary tables and user code."),
 ("C35", "partial", ["Pomelo.C35_partial", "Pomelo.C35_false", "Pomelo.C35_false_class"],
  "False of the code: an alias on an untyped fallback target, or on an untyped class with the wildcard, panics with 'impossible pattern' (negations proved). Proved when no such alias is written (aliasOk)."),
 ("C36", "partial", ["Pomelo.C36_partial", "Pomelo.C36_false"],
  "False of the code: an untyped start symbol in a grammar where () is a type panics on acceptance (negation proved). Proved otherwise (rootOk)."),
 ("C37", "partial", ["Pomelo.C37_tables", "Pomelo.C37_partial", "Pomelo.C37_small_partial", "Pomelo.C37_false"],
  "False of the code: the type of an offset table is chosen for the largest offset only, so with 128 unused tokens YY_REDUCE_OFST is an i8 array with the entry -130 (negation proved). All other tables fit, and so do the offsets when there are at most 128 symbols or large offsets."),
 ("C38", "partial", ["Pomelo.C38_partial", "Pomelo.C38_swap_partial", "Pomelo.C38_false", "Pomelo.C38_false_type", "Pomelo.C38_false_self", "Pomelo.C38_false_class"],
  "False of the code as stated: `%stack_size` and `%type` without a type may be followed but not preceded by one with a type, a token that is its own fallback makes a later directive hang, and the members of a class are kept in order (negations proved). For all other exchanges, and any sequence of them, both directions are proved."),
 ("C39", "proved", ["Pomelo.C39", "Pomelo.C39_conflicts", "Pomelo.C39_names", "Pomelo.C39_accepts_partial"],
  "Two orders of the map give the same symbols and a permutation of the rules, hence the same derivations and the same unsettled conflicts. C39_accepts_partial carries this over to the two parsers."),
 ("C40", "proved", ["Pomelo.C40_refused", "Pomelo.C40_forwards", "Pomelo.C40_unit"], "Every list of declarations; the reductions on any stack and with any user code."),
 ("C41", "proved", ["Pomelo.C41_original_token", "Pomelo.C41_end"], "Every compiled grammar and user code."),
 ("C42", "partial", ["Pomelo.C42_partial", "Pomelo.C42_false"], "False of the code for a class whose first member is a class declared later (negation proved). Proved for all tokens, rules, elements of rules and the error value when classes are flat."),
 ("C43", "proved", ["Pomelo.C43"], "Every accepted grammar, every action of every state."),
 ("C44", "partial", ["Pomelo.C44_partial"], "As C02; runs with errors in C49."),
 ("C45", "partial", ["Pomelo.C45_partial", "Pomelo.C45_plain", "Pomelo.C45_false", "Pomelo.C45_false_self", "Pomelo.C45_false_twice"],
  "False of the code: an empty token class, one beginning with itself, and some conflicting classes make the macro panic (negations proved). These are the only reasons, and grammars without classes and compounds never panic."),
 ("C46", "proved", ["Pomelo.C46_refused", "Pomelo.C46_read"],
  "Every declaration list and every error, both ways. A loop of fallbacks that the code would walk forever is the error value `hang`."),
 ("C47", "proved", ["Pomelo.C47_cause", "Pomelo.C47_rules", "Pomelo.C47_sure", "Pomelo.C47_default_param"],
  "Every error value, every declaration list; the two errors about types for lists without classes of classes. A generic parameter of %token with a default is refused when there is no %parser, against the documentation (witness proved)."),
 ("C48", "proved", ["Pomelo.C48_read", "Pomelo.C48_unique", "Pomelo.C48_written", "Pomelo.C48_cause", "Pomelo.C48_comment", "Pomelo.C48_documented"],
  "Both ways, over tokens as syn reads them. The comment in lib.rs and one example of the documentation disagree with the code (witnesses proved)."),
 ("C49", "partial", ["Pomelo.C49_partial", "Pomelo.C49_repairs_partial", "Pomelo.C49_skips_partial", "Pomelo.C49_prefix_partial", "Pomelo.C49_false", "Pomelo.C49_documented", "Pomelo.C49_typed"],
  "False where rows of the packed table overlap (negation proved); otherwise proved for flat classes. The part about the leaves excludes rules with `error` on the left. The documentation is wrong about grammars without `error` and about the order of %syntax_error and recovery (witnesses proved)."),
 ("C50", "partial", ["Pomelo.C50_sound_partial", "Pomelo.C50_complete_partial", "Pomelo.C50_complete_first_partial", "Pomelo.C50_token", "Pomelo.C50_false", "Pomelo.C50_false_nonassoc"],
  "False of the code: default reductions made before the error is noticed drop tokens from the list, and with %nonassoc the list may have tokens that cannot follow (negations proved). Without %nonassoc every token of the list may follow; a token that may follow is in the list if its own call begins with the same reductions."),
 ("C51", "partial", ["Pomelo.C51_partial", "Pomelo.C51_respects_partial", "Pomelo.C51_exists", "Pomelo.C51_unique", "Pomelo.C51_sound_partial", "Pomelo.C51_refused_partial", "Pomelo.C51_false"],
  "Existence and uniqueness of the tree proved in full for grammars without %nonassoc. False where the start symbol is untyped and () is a type (negation proved); otherwise proved for flat classes, rows of the packed table that do not overlap and no wildcard. Soundness, also with %nonassoc, further needs that there are no fallbacks."),
 ("C52", "partial", ["Pomelo.C52_partial", "Pomelo.C52_extra", "Pomelo.C52_signatures", "Pomelo.C52_wildcard", "Pomelo.C52_false", "Pomelo.C52_documented"],
  "Variants, functions of %extra_token and signatures are the ones the declarations ask for, except that only the attributes of the last %type of a token are kept (witness proved). Two sentences of the documentation are not met (witnesses proved)."),
 ("C53", "partial", ["Pomelo.C53_partial", "Pomelo.C53_noClash_partial", "Pomelo.C53_false"],
  "One constant per table bounds reductions, stack height and rounds of the loop in n calls, for all user code and inputs with or without errors. Needs: no symbol derives itself and (stack limit or no hidden left recursion), or no conflicts and no void symbols; no colliding rows, no classes of classes, no self-fallback. False in general (witness proved)."),
 ("C54", "partial", ["Pomelo.C54_partial", "Pomelo.C54_determined", "Pomelo.C54_rows", "Pomelo.C54_false"],
  "False of the code for the second sort of the actions, whose comparison is not antisymmetric (witness proved); all other comparisons are total orders. As long as sort_by asks only for Less, as it does, every sort has a single stable result."),
 ("C55", "proved", ["Pomelo.C55", "Pomelo.C55_when", "Pomelo.C55_tie"],
  "The report is modelled as a list of lines; columns and line ends are not. C55_tie records that an unmarked reduce beside an unmarked error is not what the parser does."),
 ("C56", "partial", ["Pomelo.C56_partial", "Pomelo.C56_text", "Pomelo.C56_false"],
  "Without classes of classes. C56_text gives the whole text of the rules as a function of the declarations. C56_false: the variable of a class of classes has type () although its tokens have data."),
 ("C57", "partial", ["Pomelo.C57_partial", "Pomelo.C57_exact", "Pomelo.C57_false"],
  "False as it stands: four witnesses in C57_false (%default_type with a missing block, %default_type with an optional symbol, an optional class, forwarding between different types). C57_exact gives the exact condition on the declarations; C57_partial a simple sufficient one."),
 ("C58", "partial", ["Pomelo.C58_exact", "Pomelo.C58_partial", "Pomelo.C58_untied_partial", "Pomelo.C58_false"],
  "False as it stands: a weaker rule that ties with a %nonassoc token makes the token an error if it comes before the strongest rule (C58_false). C58_exact says exactly what a state does on a token; C58_partial gives the lookups in the tables (rows apart); C58_untied_partial is the statement without ties."),
 ("C59", "partial", ["Pomelo.C59_success", "Pomelo.C59_partial", "Pomelo.C59_accepts_partial", "Pomelo.C59_false"],
  "False for the error: which of two errors is reported depends on the order (C59_false). Whether the macro succeeds does not (C59_success, no conditions). C59_partial: the parsers of two orders do the same, call by call, provided rows do not collide and there are no fallbacks of a token to itself nor classes of classes."),
 ("C60", "partial", ["Pomelo.C60_size", "Pomelo.C60_partial", "Pomelo.C60_noAssoc_partial", "Pomelo.C60_wildcard_partial", "Pomelo.C60_operators_partial", "Pomelo.C60_accepted_partial", "Pomelo.C60_false"],
  "False where C03 is: colliding rows make the parser panic on a sentence (C60_false). C60_partial: exact under the conditions of C03_partial; C60_operators_partial for trees that agree with the precedences; C60_accepted_partial for every accepted input, with fallbacks and wildcards. C60_size: the limit is the declared one."),
 ("C61", "partial", ["Pomelo.C61_partial", "Pomelo.C61_sort", "Pomelo.C61_types", "Pomelo.C61_complete", "Pomelo.C61_passes", "Pomelo.C61_false", "Pomelo.C61_false_sort", "Pomelo.C61_false_types"],
  "False in two places: the first sort of the actions (C61_false_sort) and the numbering of the types (C61_false_types). C61_partial: all other passes. C61_sort, C61_types: exactly when these two conflict. C61_complete: if the macro of the model does not panic there is no conflict anywhere."),
 ("C62", "proved", ["Pomelo.C62_tables", "Pomelo.C62_text", "Pomelo.C62_parser", "Pomelo.C62_distinct"],
  "No conditions but that different names stay different (needed: C62_distinct); nothing is asked of the blocks."),
 ("C63", "proved", ["Pomelo.C63_unread", "Pomelo.C63_call", "Pomelo.C63_seen", "Pomelo.C63_action"],
  "No conditions but those of the statement, not even that rows of the packed table are apart; both conditions are needed (C63ex.types, C63ex.readA)."),
 ("C64", "proved", ["Pomelo.C64_rows", "Pomelo.C64_count", "Pomelo.C64", "Pomelo.C64_sound", "Pomelo.C64_complete", "Pomelo.C64_safe"],
  "C64_rows and C64_count have no further conditions.  C64 and the others are C12, C01, C03 and C07 for such lists of declarations, without the condition that the rows of the tables are apart; the other conditions of these (no class in a class, and so on) remain."),
 ("C65", "partial", ["Pomelo.C65_partial", "Pomelo.C65_swap_partial", "Pomelo.C65_false", "Pomelo.C65_false_class"],
  "The full statement C65_statement is false in the code (C65_false: two %stack_size directives, C65_false_class: a class that is a member of a class).  C65_partial proves it for declarations without classes in classes and without tokens that are their own fallback, and for exchanges other than those that orderMatters names (two %token_class of one class, two %stack_size or %type of one symbol of which one has no type)."),
 ("C66", "partial", ["Pomelo.C66_partial", "Pomelo.C66_cure_partial", "Pomelo.C66_sound_partial", "Pomelo.C66_complete_partial", "Pomelo.C66_safe_partial"],
  "Missing: classes in classes and tokens that are their own fallback (C66_partial); for completeness also precedence directives, wildcards and an untyped start symbol beside the type () as in C03.  New tokens exist for every list of declarations (exists_pads).  With more than 127 tokens in the grammar C37 applies."),
 ("C67", "partial", ["Pomelo.C67_partial", "Pomelo.C67_iff_partial", "Pomelo.C67_front_partial", "Pomelo.C67_cure_partial", "Pomelo.C67_false"],
  "The full statement C67_statement is false in the code (C67_false: the rows of the packed table overlap in one order and not in the other).  Proved where the rows are apart, which tokens in front ensure (C67_cure_partial), without a wildcard, without classes in classes and tokens that are their own fallback, with typed start symbol if () occurs, and for inputs of tokens without fallback.  Missing: inputs with fallback tokens, wildcards, and what happens with inputs that are not accepted."),
 ("C68", "partial", ["Pomelo.C68_partial", "Pomelo.C68_next_partial", "Pomelo.C68_order_partial", "Pomelo.C68_false"],
  "The full statement C68_statement is false in the code (C68_false: rows of the packed table that overlap take a token that cannot be there).  Proved where the rows are apart, without classes in classes, with typed start symbol if () occurs; instead of no precedence directives only that no conflict was settled.  C68_order_partial: the parsers for two orders of the directives report at the same token.  Missing: fallbacks, wildcards and settled conflicts."),
 ("C69", "partial", ["Pomelo.C69_success_partial", "Pomelo.C69_noClash_partial", "Pomelo.C69_partial", "Pomelo.C69_iff_partial", "Pomelo.C69_cure_partial", "Pomelo.C69_notice_partial", "Pomelo.C69_false"],
  "The full statement C69_statement is false in the code (C69_false: %type A; s ::= C; s ::= B A; accepts B alone, with the two rules exchanged it does not, because rows of the packed table overlap).  Proved: the macro accepts the one if and only if it accepts the other (C69_success_partial; C69_noClash_partial with precedences if no conflict was settled); where the rows are apart the parsers accept the same inputs with the same results (C69_partial, C69_iff_partial), which enough new tokens in front make sure of (C69_cure_partial); errors are noticed at the same token (C69_notice_partial).  Missing: classes of classes, tokens that are their own fallback, elements without a token, inputs with tokens that have fallbacks, wildcards, () in the types with an untyped start symbol."),
 ("C70", "partial", ["Pomelo.C70_partial", "Pomelo.C70_begins_partial", "Pomelo.C70_order_partial", "Pomelo.C70_false", "Pomelo.C70_error_false"],
  "The full statement C70_statement is false in the code where rows of the packed table overlap (C70_false).  C70_partial: where the rows are apart and classes are flat, with precedences, fallbacks and wildcards.  C70_begins_partial: for each beginning of a sentence, if no conflict was settled, blocks do not fail and the stack has room.  C70_order_partial: the extra argument after each token of an accepted input does not depend on the order of declarations, under the conditions of C69_partial.  C70_error_false: after a syntax error it does depend on it, even on the order of two %type directives, since ties between default reductions go by the numbers of the tokens."),
 ("C71", "partial", ["Pomelo.C71_partial", "Pomelo.C71_exact_partial", "Pomelo.C69_notice_partial", "Pomelo.C71_false"],
  "The full statement C71_statement is false in the code, even where no rows overlap: the list is made after default reductions, and which rule is the default may depend on the order of two %type directives (C71_false).  C69_notice_partial: the error is noticed at the same token.  C71_exact_partial: if there is no reduction between the last token taken and the report, the list has exactly the tokens that may come.  C71_partial: hence two parsers that report at once give the same tokens.  Missing: declared precedences, fallbacks and wildcards; overlapping rows, classes of classes, a () in the types, symbols without sentences."),
 ("C72", "partial", ["Pomelo.C72_partial", "Pomelo.C72_notice_partial", "Pomelo.C72_false", "Pomelo.C72_fallback", "Pomelo.C72_removed", "Pomelo.C72_prec"],
  "The full statement C72_statement is false in the code where rows of the packed table overlap (C72_false).  C72_partial: where the rows of both tables are apart, classes are flat, no conflict is settled in the larger grammar, there is no wildcard and the tokens of the input have no fallbacks.  C72_fallback and C72_prec: with fallbacks, and with precedences, an added rule may take an input away, as must be expected.  C72_notice_partial: no error is noticed earlier, without fallbacks and precedences, if every symbol has sentences."),
 ("C73", "proved", ["Pomelo.C73", "Pomelo.C73_parse", "Pomelo.C73_end", "Pomelo.C73_decides", "Pomelo.C73_accepts", "Pomelo.C73_failing"],
  "For the model of the runtime in Model/Runtime, whose values are of one type with a tag.  C73_failing: blocks that fail do steer the parser, so C73_decides needs that none does; C73 itself does not."),
 ("C74", "proved", ["Pomelo.C74", "Pomelo.C74_iff", "Pomelo.C74_same", "Pomelo.C74_refused"],
  "About the tables; the interface of the parser does depend on these directives (C52)."),
 ("C75", "proved", ["Pomelo.C75", "Pomelo.C75_moves", "Pomelo.C75_accepts", "Pomelo.C75_plain", "Pomelo.C75_named"],
  "The symbols that %type names do count (C75_named)."),
 ("C76", "proved", ["Pomelo.C76", "Pomelo.C76_accepts", "Pomelo.C76_less"],
  "How much room an input needs is C60."),
 ("C77", "proved", ["Pomelo.C77", "Pomelo.C77_known", "Pomelo.C77_numbered"],
  "Which error is given is C47."),
 ("C78", "proved", ["Pomelo.C78", "Pomelo.C78_end", "Pomelo.C78_continue", "Pomelo.C78_error", "Pomelo.C78_error_end"],
  "Blocks are functions of their arguments and the extra argument; blocks that read other state are not modelled."),
]
here = os.path.dirname(os.path.abspath(__file__))
with open(os.path.join(here, "..", "MANIFEST.json"), "w") as f:
    json.dump({"claims": [dict(property=a, status=b, theorems=c, note=d) for a, b, c, d in claims]}, f, indent=1)
    f.write("\n")
