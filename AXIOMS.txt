C01 Pomelo.C01_partial depends on axioms: [propext, Classical.choice, Quot.sound]
C01 Pomelo.C01_noReport_partial depends on axioms: [propext, Classical.choice, Quot.sound]
C01 Pomelo.C01_false depends on axioms: [propext, Quot.sound]
C01 Pomelo.C01_nested depends on axioms: [propext, Quot.sound]
C02 Pomelo.C02_partial depends on axioms: [propext, Classical.choice, Quot.sound]
C03 Pomelo.C03_partial depends on axioms: [propext, Classical.choice, Quot.sound]
C03 Pomelo.C03_noAssoc_partial depends on axioms: [propext, Classical.choice, Quot.sound]
C03 Pomelo.C03_false depends on axioms: [propext, Classical.choice, Quot.sound]
C03 Pomelo.C03_false_root depends on axioms: [propext, Classical.choice, Quot.sound]
C03 Pomelo.C03_nested depends on axioms: [propext, Classical.choice, Quot.sound]
C03 Pomelo.C03_wildcard_partial depends on axioms: [propext, Classical.choice, Quot.sound]
C03 Pomelo.C03_wildcard_false depends on axioms: [propext, Classical.choice, Quot.sound]
C03 Pomelo.C03_wildcard_fallback depends on axioms: [propext, Classical.choice, Quot.sound]
C03 Pomelo.C03_wildcard_typed depends on axioms: [propext, Classical.choice, Quot.sound]
C04 Pomelo.C04 depends on axioms: [propext, Classical.choice, Quot.sound]
C04 Pomelo.C04_noAssoc depends on axioms: [propext, Classical.choice, Quot.sound]
C05 Pomelo.C05_partial depends on axioms: [propext, Classical.choice, Quot.sound]
C05 Pomelo.C05_sentence_partial depends on axioms: [propext, Classical.choice, Quot.sound]
C05 Pomelo.C05_noReport_partial depends on axioms: [propext, Classical.choice, Quot.sound]
C05 Pomelo.C05_false depends on axioms: [propext, Quot.sound]
C06 Pomelo.C06_partial depends on axioms: [propext, Classical.choice, Quot.sound]
C06 Pomelo.C06_noClash_partial depends on axioms: [propext, Classical.choice, Quot.sound]
C06 Pomelo.C06_false depends on axioms: [propext, Quot.sound]
C06 Pomelo.C06_false_void depends on axioms: [propext, Classical.choice, Quot.sound]
C07 Pomelo.C07_partial depends on axioms: [propext, Classical.choice, Quot.sound]
C07 Pomelo.C07_false depends on axioms: [propext]
C07 Pomelo.C07_nested depends on axioms: [propext, Quot.sound]
C08 Pomelo.C08_latch_parse depends on axioms: [propext, Quot.sound]
C08 Pomelo.C08_latch_end depends on axioms: [propext, Quot.sound]
C08 Pomelo.C08_before depends on axioms: [propext, Classical.choice, Quot.sound]
C09 Pomelo.C09_parse depends on axioms: [propext, Classical.choice, Quot.sound]
C09 Pomelo.C09_end depends on axioms: [propext, Classical.choice, Quot.sound]
C10 Pomelo.C10_bound depends on axioms: [propext, Classical.choice, Quot.sound]
C10 Pomelo.C10_overflow depends on axioms: [propext, Classical.choice, Quot.sound]
C11 Pomelo.C11_unlimited depends on axioms: [propext, Classical.choice, Quot.sound]
C12 Pomelo.C12_partial depends on axioms: [propext, Classical.choice, Quot.sound]
C12 Pomelo.C12_false depends on axioms: [propext, Quot.sound]
C13 Pomelo.C13_partial depends on axioms: [propext, Classical.choice, Quot.sound]
C13 Pomelo.C13_found depends on axioms: [propext, Classical.choice, Quot.sound]
C13 Pomelo.C13_tight depends on axioms: [propext, Classical.choice, Quot.sound]
C13 Pomelo.C13_false depends on axioms: [propext, Quot.sound]
C14 Pomelo.C14_losers depends on axioms: [propext, Classical.choice, Quot.sound]
C14 Pomelo.C14_partial depends on axioms: [propext, Classical.choice, Quot.sound]
C14 Pomelo.C14_false depends on axioms: [propext, Classical.choice, Quot.sound]
C15 Pomelo.C15_losers depends on axioms: [propext, Classical.choice, Quot.sound]
C15 Pomelo.C15_partial depends on axioms: [propext, Classical.choice, Quot.sound]
C15 Pomelo.C15_false depends on axioms: [propext, Classical.choice, Quot.sound]
C16 Pomelo.C16_partial depends on axioms: [propext, Classical.choice, Quot.sound]
C16 Pomelo.C16_false depends on axioms: [propext, Quot.sound]
C16 Pomelo.tree_unique depends on axioms: [propext]
C17 Pomelo.C17_rule_precedence depends on axioms: [propext, Classical.choice, Quot.sound]
C18 Pomelo.C18_states depends on axioms: [propext, Classical.choice, Quot.sound]
C18 Pomelo.C18_lookaheads depends on axioms: [propext, Classical.choice, Quot.sound]
C18 Pomelo.C18_lr1 depends on axioms: [propext]
C18 Pomelo.C18_reported depends on axioms: [propext, Classical.choice, Quot.sound]
C18 Pomelo.C18_unreported_partial depends on axioms: [propext, Classical.choice, Quot.sound]
C18 Pomelo.C18_exact_partial depends on axioms: [propext, Classical.choice, Quot.sound]
C18 Pomelo.C18_missed depends on axioms: [propext, Classical.choice, Quot.sound]
C19 Pomelo.C19_nullable depends on axioms: [propext, Classical.choice, Quot.sound]
C19 Pomelo.C19_first depends on axioms: [propext, Classical.choice, Quot.sound]
C19 Pomelo.C19_rest depends on axioms: [propext, Classical.choice, Quot.sound]
C20 Pomelo.C20_reduced depends on axioms: [propext, Classical.choice, Quot.sound]
C20 Pomelo.C20_compiles depends on axioms: [propext, Classical.choice, Quot.sound]
C21 Pomelo.C21_partial depends on axioms: [propext, Classical.choice, Quot.sound]
C21 Pomelo.C21_false depends on axioms: [propext]
C21 Pomelo.C21_false_decl depends on axioms: [propext]
C21 Pomelo.C21_false_forever depends on axioms: [propext, Quot.sound]
C22 Pomelo.C22_partial depends on axioms: [propext, Classical.choice, Quot.sound]
C22 Pomelo.C22_false depends on axioms: [propext, Quot.sound]
C23 Pomelo.C23_partial depends on axioms: [propext, Classical.choice, Quot.sound]
C23 Pomelo.C23_false depends on axioms: [propext]
C24 Pomelo.C24_own_partial depends on axioms: [propext, Classical.choice, Quot.sound]
C24 Pomelo.C24_wildcard depends on axioms: [propext, Classical.choice, Quot.sound]
C24 Pomelo.C24_end depends on axioms: [propext, Classical.choice, Quot.sound]
C24 Pomelo.C24_false depends on axioms: [propext, Quot.sound]
C25 Pomelo.C25_trees depends on axioms: [propext, Classical.choice, Quot.sound]
C25 Pomelo.C25_partial depends on axioms: [propext, Classical.choice, Quot.sound]
C25 Pomelo.C25_values_partial depends on axioms: [propext, Classical.choice, Quot.sound]
C25 Pomelo.C25_false depends on axioms: [propext, Classical.choice, Quot.sound]
C26 Pomelo.C26_partial depends on axioms: [propext, Classical.choice, Quot.sound]
C26 Pomelo.C26_values depends on axioms: [propext, Classical.choice, Quot.sound]
C26 Pomelo.C26_false depends on axioms: [propext, Classical.choice, Quot.sound]
C27 Pomelo.C27_start depends on axioms: [propext, Classical.choice, Quot.sound]
C27 Pomelo.C27_not_on_rhs depends on axioms: [propext, Classical.choice, Quot.sound]
C28 Pomelo.C28_single_use_partial depends on axioms: [propext, Classical.choice, Quot.sound]
C28 Pomelo.C28_false depends on axioms: [propext]
C28 Pomelo.C28_false_type depends on axioms: [propext]
C29 Pomelo.C29_muted depends on axioms: [propext, Classical.choice, Quot.sound]
C30 Pomelo.C30_separated_partial depends on axioms: [propext, Classical.choice, Quot.sound]
C30 Pomelo.C30_false depends on axioms: [propext, Quot.sound]
C31 Pomelo.C31_recovery depends on axioms: [propext, Classical.choice, Quot.sound]
C32 Pomelo.C32_end_error depends on axioms: [propext, Classical.choice, Quot.sound]
C32 Pomelo.C32_end_events depends on axioms: [propext, Classical.choice, Quot.sound]
C33 Pomelo.C33_expected depends on axioms: [propext, Classical.choice, Quot.sound]
C33 Pomelo.C33_includes_consumable depends on axioms: [propext, Classical.choice, Quot.sound]
C34 Pomelo.C34_extra_parse depends on axioms: [propext, Classical.choice, Quot.sound]
C34 Pomelo.C34_extra_end depends on axioms: [propext, Classical.choice, Quot.sound]
C34 Pomelo.C34_extra_untouched depends on axioms: [propext, Classical.choice, Quot.sound]
C35 Pomelo.C35_partial depends on axioms: [propext, Classical.choice, Quot.sound]
C35 Pomelo.C35_false depends on axioms: [propext, Quot.sound]
C35 Pomelo.C35_false_class depends on axioms: [propext, Quot.sound]
C36 Pomelo.C36_partial depends on axioms: [propext, Classical.choice, Quot.sound]
C36 Pomelo.C36_false depends on axioms: [propext, Quot.sound]
C37 Pomelo.C37_tables depends on axioms: [propext, Classical.choice, Quot.sound]
C37 Pomelo.C37_partial depends on axioms: [propext, Classical.choice, Quot.sound]
C37 Pomelo.C37_small_partial depends on axioms: [propext, Classical.choice, Quot.sound]
C37 Pomelo.C37_false depends on axioms: [propext, Classical.choice, Quot.sound]
C38 Pomelo.C38_partial depends on axioms: [propext, Classical.choice, Quot.sound]
C38 Pomelo.C38_swap_partial depends on axioms: [propext, Classical.choice, Quot.sound]
C38 Pomelo.C38_false depends on axioms: [propext]
C38 Pomelo.C38_false_type depends on axioms: [propext]
C38 Pomelo.C38_false_self depends on axioms: [propext]
C38 Pomelo.C38_false_class depends on axioms: [propext]
C39 Pomelo.C39 depends on axioms: [propext, Classical.choice, Quot.sound]
C39 Pomelo.C39_conflicts depends on axioms: [propext, Classical.choice, Quot.sound]
C39 Pomelo.C39_names depends on axioms: [propext, Classical.choice, Quot.sound]
C39 Pomelo.C39_accepts_partial depends on axioms: [propext, Classical.choice, Quot.sound]
C40 Pomelo.C40_refused depends on axioms: [propext, Classical.choice, Quot.sound]
C40 Pomelo.C40_forwards depends on axioms: [propext, Classical.choice, Quot.sound]
C40 Pomelo.C40_unit depends on axioms: [propext, Classical.choice, Quot.sound]
C41 Pomelo.C41_original_token depends on axioms: [propext, Classical.choice, Quot.sound]
C41 Pomelo.C41_end depends on axioms: [propext, Classical.choice, Quot.sound]
C42 Pomelo.C42_partial depends on axioms: [propext, Classical.choice, Quot.sound]
C42 Pomelo.C42_false depends on axioms: [propext]
C43 Pomelo.C43 depends on axioms: [propext, Classical.choice, Quot.sound]
C44 Pomelo.C44_partial depends on axioms: [propext, Classical.choice, Quot.sound]
C45 Pomelo.C45_partial depends on axioms: [propext, Classical.choice, Quot.sound]
C45 Pomelo.C45_plain depends on axioms: [propext, Classical.choice, Quot.sound]
C45 Pomelo.C45_false depends on axioms: [propext]
C45 Pomelo.C45_false_self depends on axioms: [propext]
C45 Pomelo.C45_false_twice depends on axioms: [propext]
C46 Pomelo.C46_refused depends on axioms: [propext, Classical.choice, Quot.sound]
C46 Pomelo.C46_read depends on axioms: [propext, Classical.choice, Quot.sound]
C47 Pomelo.C47_cause depends on axioms: [propext, Classical.choice, Quot.sound]
C47 Pomelo.C47_rules depends on axioms: [propext, Classical.choice, Quot.sound]
C47 Pomelo.C47_sure depends on axioms: [propext, Classical.choice, Quot.sound]
C47 Pomelo.C47_default_param depends on axioms: [propext, Classical.choice, Quot.sound]
C48 Pomelo.C48_read depends on axioms: [propext, Quot.sound]
C48 Pomelo.C48_unique depends on axioms: [propext, Quot.sound]
C48 Pomelo.C48_written depends on axioms: [propext, Quot.sound]
C48 Pomelo.C48_cause depends on axioms: [propext, Classical.choice, Quot.sound]
C48 Pomelo.C48_comment depends on axioms: [propext, Quot.sound]
C48 Pomelo.C48_documented depends on axioms: [propext]
C49 Pomelo.C49_partial depends on axioms: [propext, Classical.choice, Quot.sound]
C49 Pomelo.C49_repairs_partial depends on axioms: [propext, Classical.choice, Quot.sound]
C49 Pomelo.C49_skips_partial depends on axioms: [propext, Classical.choice, Quot.sound]
C49 Pomelo.C49_prefix_partial depends on axioms: [propext, Classical.choice, Quot.sound]
C49 Pomelo.C49_false depends on axioms: [propext, Quot.sound]
C49 Pomelo.C49_documented depends on axioms: [propext, Quot.sound]
C49 Pomelo.C49_typed depends on axioms: [propext]
C50 Pomelo.C50_sound_partial depends on axioms: [propext, Classical.choice, Quot.sound]
C50 Pomelo.C50_complete_partial depends on axioms: [propext, Classical.choice, Quot.sound]
C50 Pomelo.C50_complete_first_partial depends on axioms: [propext, Classical.choice, Quot.sound]
C50 Pomelo.C50_token depends on axioms: [propext, Classical.choice, Quot.sound]
C50 Pomelo.C50_false depends on axioms: [propext, Classical.choice, Quot.sound]
C50 Pomelo.C50_false_nonassoc depends on axioms: [propext, Classical.choice, Quot.sound]
C51 Pomelo.C51_partial depends on axioms: [propext, Classical.choice, Quot.sound]
C51 Pomelo.C51_respects_partial depends on axioms: [propext, Classical.choice, Quot.sound]
C51 Pomelo.C51_exists depends on axioms: [propext, Classical.choice, Quot.sound]
C51 Pomelo.C51_unique depends on axioms: [propext, Classical.choice, Quot.sound]
C51 Pomelo.C51_sound_partial depends on axioms: [propext, Classical.choice, Quot.sound]
C51 Pomelo.C51_refused_partial depends on axioms: [propext, Classical.choice, Quot.sound]
C51 Pomelo.C51_false depends on axioms: [propext, Classical.choice, Quot.sound]
C52 Pomelo.C52_partial depends on axioms: [propext, Classical.choice, Quot.sound]
C52 Pomelo.C52_extra depends on axioms: [propext, Classical.choice, Quot.sound]
C52 Pomelo.C52_signatures depends on axioms: [propext, Classical.choice, Quot.sound]
C52 Pomelo.C52_wildcard depends on axioms: [propext, Classical.choice, Quot.sound]
C52 Pomelo.C52_false depends on axioms: [propext, Classical.choice, Quot.sound]
C52 Pomelo.C52_documented depends on axioms: [propext, Classical.choice, Quot.sound]
C53 Pomelo.C53_partial depends on axioms: [propext, Classical.choice, Quot.sound]
C53 Pomelo.C53_noClash_partial depends on axioms: [propext, Classical.choice, Quot.sound]
C53 Pomelo.C53_false depends on axioms: [propext, Quot.sound]
C54 Pomelo.C54_partial depends on axioms: [propext, Classical.choice, Quot.sound]
C54 Pomelo.C54_determined depends on axioms: [propext, Classical.choice, Quot.sound]
C54 Pomelo.C54_rows depends on axioms: [propext, Classical.choice, Quot.sound]
C54 Pomelo.C54_false depends on axioms: [propext, Quot.sound]
C55 Pomelo.C55 depends on axioms: [propext, Classical.choice, Quot.sound]
C55 Pomelo.C55_when depends on axioms: [propext, Classical.choice, Quot.sound]
C55 Pomelo.C55_tie depends on axioms: [propext]
C56 Pomelo.C56_partial depends on axioms: [propext, Classical.choice, Quot.sound]
C56 Pomelo.C56_text depends on axioms: [propext, Classical.choice, Quot.sound]
C56 Pomelo.C56_false depends on axioms: [propext]
C57 Pomelo.C57_partial depends on axioms: [propext, Classical.choice, Quot.sound]
C57 Pomelo.C57_exact depends on axioms: [propext, Classical.choice, Quot.sound]
C57 Pomelo.C57_false depends on axioms: [propext, Quot.sound]
C58 Pomelo.C58_exact depends on axioms: [propext, Classical.choice, Quot.sound]
C58 Pomelo.C58_partial depends on axioms: [propext, Classical.choice, Quot.sound]
C58 Pomelo.C58_untied_partial depends on axioms: [propext, Classical.choice, Quot.sound]
C58 Pomelo.C58_false depends on axioms: [propext, Classical.choice, Quot.sound]
C59 Pomelo.C59_success depends on axioms: [propext, Classical.choice, Quot.sound]
C59 Pomelo.C59_partial depends on axioms: [propext, Classical.choice, Quot.sound]
C59 Pomelo.C59_accepts_partial depends on axioms: [propext, Classical.choice, Quot.sound]
C59 Pomelo.C59_false depends on axioms: [propext]
C60 Pomelo.C60_size depends on axioms: [propext, Classical.choice, Quot.sound]
C60 Pomelo.C60_partial depends on axioms: [propext, Classical.choice, Quot.sound]
C60 Pomelo.C60_noAssoc_partial depends on axioms: [propext, Classical.choice, Quot.sound]
C60 Pomelo.C60_wildcard_partial depends on axioms: [propext, Classical.choice, Quot.sound]
C60 Pomelo.C60_operators_partial depends on axioms: [propext, Classical.choice, Quot.sound]
C60 Pomelo.C60_accepted_partial depends on axioms: [propext, Classical.choice, Quot.sound]
C60 Pomelo.C60_false depends on axioms: [propext, Classical.choice, Quot.sound]
C61 Pomelo.C61_partial depends on axioms: [propext, Classical.choice, Quot.sound]
C61 Pomelo.C61_sort depends on axioms: [propext, Classical.choice, Quot.sound]
C61 Pomelo.C61_types depends on axioms: [propext, Quot.sound]
C61 Pomelo.C61_complete depends on axioms: [propext, Classical.choice, Quot.sound]
C61 Pomelo.C61_passes depends on axioms: [propext, Quot.sound]
C61 Pomelo.C61_false depends on axioms: [propext, Quot.sound]
C61 Pomelo.C61_false_sort depends on axioms: [propext, Quot.sound]
C61 Pomelo.C61_false_types depends on axioms: [propext, Quot.sound]
C62 Pomelo.C62_tables depends on axioms: [propext, Classical.choice, Quot.sound]
C62 Pomelo.C62_text depends on axioms: [propext, Classical.choice, Quot.sound]
C62 Pomelo.C62_parser depends on axioms: [propext, Classical.choice, Quot.sound]
C62 Pomelo.C62_distinct depends on axioms: [propext]
C63 Pomelo.C63_unread depends on axioms: [propext, Classical.choice, Quot.sound]
C63 Pomelo.C63_call depends on axioms: [propext, Classical.choice, Quot.sound]
C63 Pomelo.C63_seen depends on axioms: [propext, Classical.choice, Quot.sound]
C63 Pomelo.C63_action depends on axioms: [propext, Classical.choice, Quot.sound]
C64 Pomelo.C64_rows depends on axioms: [propext, Classical.choice, Quot.sound]
C64 Pomelo.C64_count depends on axioms: [propext, Classical.choice, Quot.sound]
C64 Pomelo.C64 depends on axioms: [propext, Classical.choice, Quot.sound]
C64 Pomelo.C64_sound depends on axioms: [propext, Classical.choice, Quot.sound]
C64 Pomelo.C64_complete depends on axioms: [propext, Classical.choice, Quot.sound]
C64 Pomelo.C64_safe depends on axioms: [propext, Classical.choice, Quot.sound]
C65 Pomelo.C65_partial depends on axioms: [propext, Classical.choice, Quot.sound]
C65 Pomelo.C65_swap_partial depends on axioms: [propext, Classical.choice, Quot.sound]
C65 Pomelo.C65_false depends on axioms: [propext, Quot.sound]
C65 Pomelo.C65_false_class depends on axioms: [propext]
C66 Pomelo.C66_partial depends on axioms: [propext, Classical.choice, Quot.sound]
C66 Pomelo.C66_cure_partial depends on axioms: [propext, Classical.choice, Quot.sound]
C66 Pomelo.C66_sound_partial depends on axioms: [propext, Classical.choice, Quot.sound]
C66 Pomelo.C66_complete_partial depends on axioms: [propext, Classical.choice, Quot.sound]
C66 Pomelo.C66_safe_partial depends on axioms: [propext, Classical.choice, Quot.sound]
C67 Pomelo.C67_partial depends on axioms: [propext, Classical.choice, Quot.sound]
C67 Pomelo.C67_iff_partial depends on axioms: [propext, Classical.choice, Quot.sound]
C67 Pomelo.C67_front_partial depends on axioms: [propext, Classical.choice, Quot.sound]
C67 Pomelo.C67_cure_partial depends on axioms: [propext, Classical.choice, Quot.sound]
C67 Pomelo.C67_false depends on axioms: [propext, Classical.choice, Quot.sound]
C68 Pomelo.C68_partial depends on axioms: [propext, Classical.choice, Quot.sound]
C68 Pomelo.C68_next_partial depends on axioms: [propext, Classical.choice, Quot.sound]
C68 Pomelo.C68_order_partial depends on axioms: [propext, Classical.choice, Quot.sound]
C68 Pomelo.C68_false depends on axioms: [propext, Quot.sound]
C69 Pomelo.C69_success_partial depends on axioms: [propext, Classical.choice, Quot.sound]
C69 Pomelo.C69_noClash_partial depends on axioms: [propext, Classical.choice, Quot.sound]
C69 Pomelo.C69_partial depends on axioms: [propext, Classical.choice, Quot.sound]
C69 Pomelo.C69_iff_partial depends on axioms: [propext, Classical.choice, Quot.sound]
C69 Pomelo.C69_cure_partial depends on axioms: [propext, Classical.choice, Quot.sound]
C69 Pomelo.C69_notice_partial depends on axioms: [propext, Classical.choice, Quot.sound]
C69 Pomelo.C69_false depends on axioms: [propext, Classical.choice, Quot.sound]
C70 Pomelo.C70_partial depends on axioms: [propext, Classical.choice, Quot.sound]
C70 Pomelo.C70_begins_partial depends on axioms: [propext, Classical.choice, Quot.sound]
C70 Pomelo.C70_order_partial depends on axioms: [propext, Classical.choice, Quot.sound]
C70 Pomelo.C70_false depends on axioms: [propext, Quot.sound]
C70 Pomelo.C70_error_false depends on axioms: [propext, Classical.choice, Quot.sound]
C71 Pomelo.C71_partial depends on axioms: [propext, Classical.choice, Quot.sound]
C71 Pomelo.C71_exact_partial depends on axioms: [propext, Classical.choice, Quot.sound]
C71 Pomelo.C69_notice_partial depends on axioms: [propext, Classical.choice, Quot.sound]
C71 Pomelo.C71_false depends on axioms: [propext, Classical.choice, Quot.sound]
C72 Pomelo.C72_partial depends on axioms: [propext, Classical.choice, Quot.sound]
C72 Pomelo.C72_notice_partial depends on axioms: [propext, Classical.choice, Quot.sound]
C72 Pomelo.C72_false depends on axioms: [propext, Classical.choice, Quot.sound]
C72 Pomelo.C72_fallback depends on axioms: [propext, Classical.choice, Quot.sound]
C72 Pomelo.C72_removed depends on axioms: [propext]
C72 Pomelo.C72_prec depends on axioms: [propext, Classical.choice, Quot.sound]
C73 Pomelo.C73 depends on axioms: [propext, Quot.sound]
C73 Pomelo.C73_parse depends on axioms: [propext, Quot.sound]
C73 Pomelo.C73_end depends on axioms: [propext, Quot.sound]
C73 Pomelo.C73_decides depends on axioms: [propext, Quot.sound]
C73 Pomelo.C73_accepts depends on axioms: [propext, Quot.sound]
C73 Pomelo.C73_failing depends on axioms: [propext]
C74 Pomelo.C74 depends on axioms: [propext, Quot.sound]
C74 Pomelo.C74_iff depends on axioms: [propext, Quot.sound]
C74 Pomelo.C74_same depends on axioms: [propext, Quot.sound]
C74 Pomelo.C74_refused depends on axioms: [propext, Quot.sound]
C75 Pomelo.C75 depends on axioms: [propext, Classical.choice, Quot.sound]
C75 Pomelo.C75_moves depends on axioms: [propext, Classical.choice, Quot.sound]
C75 Pomelo.C75_accepts depends on axioms: [propext, Classical.choice, Quot.sound]
C75 Pomelo.C75_plain depends on axioms: [propext, Classical.choice, Quot.sound]
C75 Pomelo.C75_named depends on axioms: [propext]
C76 Pomelo.C76 depends on axioms: [propext, Classical.choice, Quot.sound]
C76 Pomelo.C76_accepts depends on axioms: [propext, Classical.choice, Quot.sound]
C76 Pomelo.C76_less depends on axioms: [propext, Classical.choice, Quot.sound]
C77 Pomelo.C77 depends on axioms: [propext, Classical.choice, Quot.sound]
C77 Pomelo.C77_known depends on axioms: [propext, Classical.choice, Quot.sound]
C77 Pomelo.C77_numbered depends on axioms: [propext, Classical.choice, Quot.sound]
C78 Pomelo.C78 depends on axioms: [propext]
C78 Pomelo.C78_end depends on axioms: [propext]
C78 Pomelo.C78_continue depends on axioms: [propext]
C78 Pomelo.C78_error depends on axioms: [propext, Quot.sound]
C78 Pomelo.C78_error_end depends on axioms: [propext, Quot.sound]
