# Axioms each property theorem depends on

Output of `#print axioms`, collected by `axioms.py`.

| Theorem | Axioms |
|---|---|
| `C01_refinement` | propext, Classical.choice, Quot.sound |
| `C01_library` | propext, Classical.choice, Quot.sound |
| `C02_equality` | propext, Classical.choice, Quot.sound |
| `C02_library` | propext, Classical.choice, Quot.sound |
| `C03_stable` | propext, Classical.choice, Quot.sound |
| `C03_continue` | propext, Classical.choice, Quot.sound |
| `C03_library` | propext, Classical.choice, Quot.sound |
| `C04_lifetime` | propext, Classical.choice, Quot.sound |
| `C04_empty` | propext, Classical.choice, Quot.sound |
| `C04_library` | propext, Classical.choice, Quot.sound |
| `C05_no_ub` | propext, Classical.choice, Quot.sound |
| `C05_live` | propext, Classical.choice, Quot.sound |
| `C06_sharing` | propext, Classical.choice, Quot.sound |
| `C06_unique` | propext, Classical.choice, Quot.sound |
| `C07_reachable` | propext, Classical.choice, Quot.sound |
| `C07_empty` | propext, Classical.choice, Quot.sound |
| `C07_counts` | propext, Classical.choice, Quot.sound |
| `C08_owner` | propext, Classical.choice, Quot.sound |
| `C08_exclusive` | propext, Classical.choice, Quot.sound |
| `C08_writes` | propext, Classical.choice, Quot.sound |
| `C09_deleter_needed` | propext |
| `C09_lock_needed` | propext |
| `C09_single_thread` | propext, Classical.choice, Quot.sound |
| `C10_never_removed` | propext, Classical.choice, Quot.sound |
| `C10_library` | propext, Classical.choice, Quot.sound |
| `C11_concurrent` | propext, Classical.choice, Quot.sound |
| `C11_concurrent_pass` | propext, Classical.choice, Quot.sound |
| `C11_concurrent_none` | propext, Classical.choice, Quot.sound |
| `C11_lazy_refcounted` | propext, Classical.choice, Quot.sound |
| `C11_lazy_no_tracking` | propext, Classical.choice, Quot.sound |
| `C11_nothing_else` | propext, Classical.choice, Quot.sound |
| `C11_library` | propext, Classical.choice, Quot.sound |
| `C12_strong_guarantee` | propext, Classical.choice, Quot.sound |
| `C12_not_swallowed` | propext, Quot.sound |
| `C12_nothrow` | propext, Classical.choice, Quot.sound |
| `C12_library` | propext, Classical.choice, Quot.sound |
| `C13_balanced` | propext, Classical.choice, Quot.sound |
| `C13_library` | propext, Classical.choice, Quot.sound |
| `C14_sufficient` | propext, Classical.choice, Quot.sound |
| `C14_necessary` | propext, Classical.choice, Quot.sound |
| `C15_library` | propext, Classical.choice, Quot.sound |
| `C15_copy` | propext, Classical.choice, Quot.sound |
| `C15_assign` | propext, Classical.choice, Quot.sound |
| `C15_self_assign` | propext, Classical.choice, Quot.sound |
| `C16_library` | propext, Classical.choice, Quot.sound |
| `C16_swap` | propext, Classical.choice, Quot.sound |
| `C17_values_partial` | propext, Quot.sound |
| `C17_values_iff` | propext, Quot.sound |
| `C17_calls` | propext, Quot.sound |
| `C17_same_partial` | propext, Classical.choice, Quot.sound |
| `C17_same_default_partial` | propext, Classical.choice, Quot.sound |
| `C17_order` | propext, Quot.sound |
| `C17_total` | propext, Classical.choice, Quot.sound |
| `C17_violated` | propext, Classical.choice, Quot.sound |
| `C18_library` | propext, Classical.choice, Quot.sound |
| `C18_hash` | propext, Classical.choice, Quot.sound |
| `C19_write` | propext |
| `C19_extract` | propext, Classical.choice, Quot.sound |
| `C19_exact` | propext, Classical.choice, Quot.sound |
| `C20_round_trip` | propext, Classical.choice, Quot.sound |
| `C20_exact` | propext, Classical.choice, Quot.sound |
| `C21_once` | propext, Classical.choice, Quot.sound |
| `C21_index` | propext, Classical.choice, Quot.sound |
| `C22_safe` | propext, Classical.choice, Quot.sound |
| `C22_program` | propext, Classical.choice, Quot.sound |
| `C22_reject` | propext |
| `C23_exemplar` | propext, Classical.choice, Quot.sound |
| `C23_record` | propext, Classical.choice, Quot.sound |
| `C24_violated` | propext |
| `C24_wrong` | propext, Classical.choice, Quot.sound |
| `C24_clean_partial` | propext, Classical.choice, Quot.sound |
| `C24_iff` | propext, Classical.choice, Quot.sound |
| `C24_loaded` | propext, Classical.choice, Quot.sound |
| `C25_no_ub` | propext, Classical.choice, Quot.sound |
| `C25_live` | propext, Classical.choice, Quot.sound |
| `C25_counts` | propext, Classical.choice, Quot.sound |
| `C25_sharing` | propext, Classical.choice, Quot.sound |
| `C25_exclusive` | propext, Classical.choice, Quot.sound |
| `C25_tracking` | propext, Classical.choice, Quot.sound |
| `C25_counts_agree` | propext, Classical.choice, Quot.sound |
| `C26_keep` | propext, Classical.choice, Quot.sound |
| `C26_only_collector` | propext, Classical.choice, Quot.sound |
| `C26_reclaim` | propext, Classical.choice, Quot.sound |
| `C27_hidden` | propext, Classical.choice, Quot.sound |
| `C27_throw` | propext, Classical.choice, Quot.sound |
| `C27_no_object` | propext, Quot.sound |
| `C27_repair` | propext, Classical.choice, Quot.sound |
| `C27_collected` | propext, Classical.choice, Quot.sound |
| `C28_no_ub` | propext, Quot.sound |
| `C28_members` | propext, Quot.sound |
| `C28_order` | propext, Classical.choice, Quot.sound |
| `C28_gone` | propext, Quot.sound |
| `C28_notified` | propext, Classical.choice, Quot.sound |
| `C28_joined` | propext, Quot.sound |
| `C28_progress` | propext, Quot.sound |
| `C28_terminates` | propext, Quot.sound |
| `C28_lock` | propext, Quot.sound |
| `C28_wakeup` | propext, Quot.sound |
| `C28_no_new_pass` | propext, Quot.sound |
| `C28_order_needed` | propext |
| `C29_violated` | propext, Classical.choice, Quot.sound |
| `C29_modules_iff` | propext, Classical.choice, Quot.sound |
| `C29_modules_follow` | propext, Classical.choice, Quot.sound |
| `C29_safe_partial` | propext, Quot.sound |
| `C29_idempotent` | propext, Quot.sound |
| `C29_preceded_partial` | propext, Classical.choice, Quot.sound |
| `C29_threads` | propext, Quot.sound |
| `C30_order` | propext, Quot.sound |
| `C30_iff` | propext, Classical.choice, Quot.sound |
| `C30_safe` | propext, Classical.choice, Quot.sound |
| `C30_hazard` | propext, Classical.choice, Quot.sound |
| `C30_nested_hazard` | propext, Quot.sound |
| `C31_static` | propext, Classical.choice, Quot.sound |
| `C31_shared` | propext, Classical.choice, Quot.sound |
| `C31_equality` | propext, Classical.choice, Quot.sound |
| `C31_uninitialised` | propext, Classical.choice, Quot.sound |
| `C32_resolves` | propext, Quot.sound |
| `C32_order` | propext, Classical.choice, Quot.sound |
| `C32_unmatched` | propext, Quot.sound |
| `C32_duplicate_partial` | propext, Quot.sound |
| `C32_duplicate_ignored` | none |
| `C32_ambiguous` | none |
| `C33_isolated` | propext, Classical.choice, Quot.sound |
| `C33_noninterference` | propext, Classical.choice, Quot.sound |
| `C33_separate` | propext, Classical.choice, Quot.sound |
| `C34_hashed` | propext, Classical.choice, Quot.sound |
| `C34_found_iff` | propext, Classical.choice, Quot.sound |
| `C34_incompatible` | propext, Classical.choice, Quot.sound |
| `C35_ordered` | propext, Classical.choice, Quot.sound |
| `C35_not_strict` | propext, Quot.sound |
| `C36_interchangeable` | propext, Classical.choice, Quot.sound |
| `C36_same_throws` | propext, Classical.choice, Quot.sound |
| `C36_no_faults` | propext, Classical.choice, Quot.sound |
| `C36_library` | propext, Classical.choice, Quot.sound |
| `C36_list_update` | propext, Quot.sound |
| `C37_cascade` | propext, Classical.choice, Quot.sound |
| `C38_no_deadlock` | propext, Classical.choice, Quot.sound |
| `C38_no_set` | propext, Classical.choice, Quot.sound |
| `C38_waits` | propext |
| `C38_cyclic` | propext |
| `C38_needed` | propext, Classical.choice, Quot.sound |
| `C38_exact` | propext, Classical.choice, Quot.sound |
| `C39_reentrant` | propext, Classical.choice, Quot.sound |
| `C40_deadlock` | propext, Quot.sound |
| `C40_deadlock_any` | propext, Classical.choice, Quot.sound |
| `C40_deadlock_two` | propext, Quot.sound |
| `C40_no_deadlock_partial` | propext, Classical.choice, Quot.sound |
| `C40_needed` | propext, Classical.choice, Quot.sound |
| `C40_mixed` | propext, Classical.choice, Quot.sound |
| `C40_ring` | propext, Classical.choice, Quot.sound |
| `C40_not_all_partial` | propext, Classical.choice, Quot.sound |
| `C40_exact` | propext, Classical.choice, Quot.sound |
| `C40_untracked_partial` | propext, Classical.choice, Quot.sound |
| `C41_paths` | propext |
| `C41_nested` | propext, Quot.sound |
| `C42_values_partial` | propext, Classical.choice, Quot.sound |
| `C42_once_partial` | propext, Classical.choice, Quot.sound |
| `C42_later_partial` | propext, Classical.choice, Quot.sound |
| `C42_total` | propext, Classical.choice, Quot.sound |
| `C42_violated` | propext |
| `C43_sequential` | propext, Classical.choice, Quot.sound |
| `C43_parallel` | propext, Classical.choice, Quot.sound |
| `C43_finishes` | propext, Classical.choice, Quot.sound |
| `C43_chunks` | propext, Classical.choice, Quot.sound |
| `C43_boundaries` | propext, Classical.choice, Quot.sound |
| `C43_letters` | propext |
| `C44_scan` | propext, Classical.choice, Quot.sound |
| `C44_faithful_partial` | propext, Classical.choice, Quot.sound |
| `C44_any_document_partial` | propext, Classical.choice, Quot.sound |
| `C44_balanced` | propext, Quot.sound |
| `C44_blanks` | propext, Classical.choice, Quot.sound |
| `C44_defined` | propext, Classical.choice, Quot.sound |
| `C44_defined_exact` | propext, Classical.choice, Quot.sound |
| `C44_violated` | propext, Classical.choice, Quot.sound |
| `C45_safe` | propext, Classical.choice, Quot.sound |
| `C45_parse` | propext, Classical.choice, Quot.sound |
| `C45_print_partial` | propext, Classical.choice, Quot.sound |
| `C45_reparse_partial` | propext, Classical.choice, Quot.sound |
| `C45_shared` | propext, Classical.choice, Quot.sound |
| `C45_exact` | propext, Classical.choice, Quot.sound |
| `C45_texts` | propext, Classical.choice, Quot.sound |
| `C45_violated` | propext, Classical.choice, Quot.sound |
| `C46_reentrant` | propext, Classical.choice, Quot.sound |
| `C46_own_key` | propext, Quot.sound |
| `C47_refines` | propext, Classical.choice, Quot.sound |
| `C47_shared` | propext, Classical.choice, Quot.sound |
| `C47_exact` | propext, Classical.choice, Quot.sound |
| `C47_empty` | propext, Classical.choice, Quot.sound |
| `C47_counts` | propext, Classical.choice, Quot.sound |
| `C48_concurrent_default` | propext |
| `C48_concurrent_variant` | propext, Classical.choice, Quot.sound |
| `C48_concurrent_pass` | propext, Classical.choice, Quot.sound |
| `C48_concurrent_failed` | propext, Classical.choice, Quot.sound |
| `C48_concurrent_untouched` | propext |
| `C48_library` | propext, Classical.choice, Quot.sound |
| `C48_default` | propext |
| `C48_variant_refcounted` | propext, Classical.choice, Quot.sound |
| `C48_variant_no_tracking` | propext, Classical.choice, Quot.sound |
| `C48_variant_failed` | propext, Classical.choice, Quot.sound |
| `C48_untouched` | propext |
| `C49_same_execution` | propext |
| `C49_race_free` | propext, Classical.choice, Quot.sound |
| `C49_identities` | propext, Classical.choice, Quot.sound |
| `C49_published` | propext, Classical.choice, Quot.sound |
| `C49_destroyed_last` | propext, Classical.choice, Quot.sound |
| `C49_readers_unordered` | propext, Quot.sound |
| `C49_decrement_orders_needed` | propext, Quot.sound |
| `C49_lock_needed` | propext, Quot.sound |
| `C50_same_execution` | propext, Quot.sound |
| `C50_race_free` | propext, Classical.choice, Quot.sound |
| `C50_synchronization` | propext, Quot.sound |
| `C50_identities` | propext, Classical.choice, Quot.sound |
| `C50_published` | propext, Classical.choice, Quot.sound |
| `C50_destroyed_last` | propext, Classical.choice, Quot.sound |
| `C50_no_stale_zero` | propext, Classical.choice, Quot.sound |
| `C50_readers_unordered` | propext, Quot.sound |
| `C50_orders_needed` | propext, Quot.sound |
| `C51_ordered_partial` | propext, Quot.sound |
| `C51_started_partial` | propext, Quot.sound |
| `C51_ordered_late_partial` | propext, Classical.choice, Quot.sound |
| `C51_recipe_partial` | propext, Classical.choice, Quot.sound |
| `C51_violated` | propext, Quot.sound |
| `C51_same_value` | propext, Quot.sound |
| `C51_needed` | propext, Quot.sound |
| `C51_constructed` | propext, Quot.sound |
| `C51_untouched` | propext, Classical.choice, Quot.sound |
| `C52_copy` | propext, Classical.choice, Quot.sound |
| `C52_value` | propext, Classical.choice, Quot.sound |
| `C52_forward` | propext, Classical.choice, Quot.sound |
| `C52_list` | propext, Classical.choice, Quot.sound |
| `C52_limit` | propext, Classical.choice, Quot.sound |
| `C52_derived` | propext, Classical.choice, Quot.sound |
| `C52_assign_value` | propext, Classical.choice, Quot.sound |
| `C52_assign_converted` | propext, Classical.choice, Quot.sound |
| `C52_assign_list` | propext, Quot.sound |
| `C52_assign_ambiguous` | propext, Classical.choice, Quot.sound |
| `C52_tables` | propext, Quot.sound |
| `C52_documented` | propext, Classical.choice, Quot.sound |
| `C53_replay` | propext, Classical.choice, Quot.sound |
| `C53_make` | propext, Classical.choice, Quot.sound |
| `C53_make_live` | propext, Classical.choice, Quot.sound |
| `C53_destroy` | propext, Classical.choice, Quot.sound |
| `C53_assign` | propext, Classical.choice, Quot.sound |
| `C53_assign_value` | propext, Classical.choice, Quot.sound |
| `C53_quiet` | propext, Classical.choice, Quot.sound |
| `C53_throw` | propext, Classical.choice, Quot.sound |
| `C53_kept` | propext, Classical.choice, Quot.sound |
| `C53_balance` | propext, Classical.choice, Quot.sound |
| `C53_tokens` | propext, Classical.choice, Quot.sound |
| `C53_main` | propext, Classical.choice, Quot.sound |
| `C54_opaque` | propext, Quot.sound |
| `C54_detect` | propext, Quot.sound |
| `C54_transparent` | propext, Quot.sound |
| `C54_guard_needed` | propext, Quot.sound |
| `C54_forms` | propext, Quot.sound |
| `C54_assoc` | propext, Quot.sound |
| `C54_holders` | propext, Quot.sound |
| `C54_hashed` | propext, Classical.choice, Quot.sound |
| `C54_set` | propext, Classical.choice, Quot.sound |
| `C54_concurrent` | propext, Classical.choice, Quot.sound |
| `C54_verbatim` | propext |
| `C54_entries` | propext, Quot.sound |
| `C54_handles` | propext, Quot.sound |
| `C54_unopened` | propext, Quot.sound |
| `C54_nested_type` | propext, Quot.sound |
| `C54_value_types` | propext, Classical.choice, Quot.sound |
| `C54_derived` | propext, Quot.sound |
| `C55_steps` | propext, Classical.choice, Quot.sound |
| `C55_executions` | propext, Classical.choice, Quot.sound |
| `C55_meaning` | propext, Classical.choice, Quot.sound |
| `C55_share` | propext, Classical.choice, Quot.sound |
| `C55_vanish` | propext |
| `C55_lock_needed` | propext, Classical.choice, Quot.sound |
| `C56_no_ub` | propext, Classical.choice, Quot.sound |
| `C56_refers` | propext, Classical.choice, Quot.sound |
| `C56_sharing` | propext, Classical.choice, Quot.sound |
| `C56_unique` | propext, Classical.choice, Quot.sound |
| `C56_lasting` | propext, Classical.choice, Quot.sound |
| `C56_quiet` | propext, Classical.choice, Quot.sound |
| `C56_once` | propext, Classical.choice, Quot.sound |
| `C56_no_deadlock` | propext, Classical.choice, Quot.sound |
| `C56_cyclic` | propext |
| `C56_needed` | propext, Classical.choice, Quot.sound |
| `C56_exact` | propext, Classical.choice, Quot.sound |
| `C56_reentrant` | propext, Classical.choice, Quot.sound |
| `C56_same_execution` | propext |
| `C56_race_free` | propext, Classical.choice, Quot.sound |
| `C56_identities` | propext, Classical.choice, Quot.sound |
| `C56_published` | propext, Classical.choice, Quot.sound |
| `C56_lock_needed` | propext, Quot.sound |
| `C56_steps` | propext, Classical.choice, Quot.sound |
| `C56_executions` | propext, Classical.choice, Quot.sound |
| `C56_meaning` | propext |
| `C56_share` | propext |
| `C57_steps` | propext, Classical.choice, Quot.sound |
| `C57_executions` | propext, Classical.choice, Quot.sound |
| `C57_meaning` | propext, Classical.choice, Quot.sound |
| `C57_alone` | propext, Classical.choice, Quot.sound |
| `C57_share` | propext, Classical.choice, Quot.sound |
| `C57_resume` | propext, Classical.choice, Quot.sound |
| `C57_vanish` | propext |
| `C57_constant` | propext, Classical.choice, Quot.sound |
| `C58_work` | propext, Classical.choice, Quot.sound |
| `C58_returns` | propext, Classical.choice, Quot.sound |
| `C58_plain_work` | propext, Quot.sound |
| `C58_plain_returns` | propext, Classical.choice, Quot.sound |
| `C58_factory_work` | propext, Classical.choice, Quot.sound |
| `C58_factory_returns` | propext, Classical.choice, Quot.sound |
| `C59_steps` | propext, Classical.choice, Quot.sound |
| `C59_executions` | propext, Classical.choice, Quot.sound |
| `C59_reads` | propext, Quot.sound |
| `C59_plain_steps` | propext, Classical.choice, Quot.sound |
| `C59_plain_executions` | propext, Classical.choice, Quot.sound |
| `C59_lingering_steps` | propext, Classical.choice, Quot.sound |
| `C59_lingering_executions` | propext, Classical.choice, Quot.sound |
| `C60_create_refcounted` | propext, Classical.choice, Quot.sound |
| `C60_create_no_tracking` | propext, Classical.choice, Quot.sound |
| `C60_failed` | propext, Classical.choice, Quot.sound |
| `C60_no_other` | propext, Classical.choice, Quot.sound |
| `C60_balance_plain` | propext, Classical.choice, Quot.sound |
| `C60_balance_variant` | propext, Classical.choice, Quot.sound |
| `C60_balance_product` | propext, Classical.choice, Quot.sound |
| `C60_program` | propext, Classical.choice, Quot.sound |
| `C60_no_copies` | propext, Classical.choice, Quot.sound |
| `C60_moving_factories` | propext, Classical.choice, Quot.sound |
| `C60_copying_factories` | propext, Classical.choice, Quot.sound |
| `C61_main` | propext, Classical.choice, Quot.sound |
| `C61_elements` | propext, Classical.choice, Quot.sound |
| `C62_lossless` | propext, Classical.choice, Quot.sound |
| `C62_archive` | propext, Classical.choice, Quot.sound |
| `C62_once` | propext, Classical.choice, Quot.sound |
| `C62_safe` | propext, Classical.choice, Quot.sound |
| `C62_tokens` | propext, Classical.choice, Quot.sound |
| `C63_basic` | propext, Classical.choice, Quot.sound |
| `C63_with_assign` | propext, Classical.choice, Quot.sound |
| `C63_comparison` | propext, Classical.choice, Quot.sound |
| `C63_plain` | propext, Classical.choice, Quot.sound |
| `C63_variant` | propext, Classical.choice, Quot.sound |
| `C63_product` | propext, Classical.choice, Quot.sound |
| `C64_transparent` | propext, Classical.choice, Quot.sound |
| `C64_calm` | propext, Classical.choice, Quot.sound |
| `C64_configurations` | propext, Classical.choice, Quot.sound |
| `C64_plain` | propext, Classical.choice, Quot.sound |
| `C65_prints` | propext, Classical.choice, Quot.sound |
| `C66_refcounted` | propext, Classical.choice, Quot.sound |
| `C66_no_tracking` | propext, Classical.choice, Quot.sound |
| `C66_perf` | propext, Classical.choice, Quot.sound |
| `C67_save` | propext, Classical.choice, Quot.sound |
| `C67_load` | propext, Classical.choice, Quot.sound |
| `C67_transfer` | propext, Classical.choice, Quot.sound |
| `C67_round_trip` | propext, Classical.choice, Quot.sound |
| `C67_plain` | propext, Classical.choice, Quot.sound |
| `C67_key_value` | propext, Classical.choice, Quot.sound |
| `C68_no_ub` | propext, Quot.sound |
| `C68_one` | propext, Quot.sound |
| `C68_failed` | propext, Quot.sound |
| `C68_kept` | propext, Quot.sound |
| `C68_progress` | propext, Classical.choice, Quot.sound |
| `C68_bounded` | propext, Quot.sound |
| `C68_retry` | propext, Quot.sound |
| `C69_refines` | propext, Classical.choice, Quot.sound |
| `C69_equality` | propext, Classical.choice, Quot.sound |
| `C69_create` | propext, Classical.choice, Quot.sound |
| `C69_strong` | propext, Classical.choice, Quot.sound |
| `C69_once` | propext, Classical.choice, Quot.sound |
| `C69_collect` | propext, Classical.choice, Quot.sound |
| `C69_pass` | propext, Classical.choice, Quot.sound |
| `C69_empty` | propext, Classical.choice, Quot.sound |
| `C69_takeover` | propext, Classical.choice, Quot.sound |
| `C70_runs` | propext, Classical.choice, Quot.sound |
| `C70_rely` | propext, Classical.choice, Quot.sound |
| `C70_plain` | propext, Classical.choice, Quot.sound |
| `C70_same` | propext, Classical.choice, Quot.sound |
| `C71_basic` | propext, Classical.choice, Quot.sound |
| `C71_with_assign` | propext, Classical.choice, Quot.sound |
| `C71_comparison` | propext, Classical.choice, Quot.sound |
| `C71_comparison_two` | propext, Classical.choice, Quot.sound |
| `C71_throwing` | propext, Classical.choice, Quot.sound |
| `C71_all` | propext, Classical.choice, Quot.sound |
| `C72_saving` | propext, Classical.choice, Quot.sound |
| `C72_loading` | propext, Classical.choice, Quot.sound |
| `C72_transfer` | propext, Classical.choice, Quot.sound |
| `C72_round_trip` | propext, Classical.choice, Quot.sound |
| `C72_test` | propext, Classical.choice, Quot.sound |
| `C73_list` | propext, Classical.choice, Quot.sound |
| `C73_empty` | propext, Classical.choice, Quot.sound |
| `C73_elements` | propext, Classical.choice, Quot.sound |
| `C73_parentheses` | propext, Classical.choice, Quot.sound |
| `C73_several` | propext, Quot.sound |
| `C73_assign_one` | propext, Classical.choice, Quot.sound |
| `C73_assign` | propext, Classical.choice, Quot.sound |
| `C74_counted` | propext, Classical.choice, Quot.sound |
| `C75_violated` | propext, Classical.choice, Quot.sound |
| `C75_spec` | propext |
| `C75_runs_partial` | propext, Classical.choice, Quot.sound |
| `C75_no_tracking` | propext, Classical.choice, Quot.sound |
| `C75_get_key` | propext, Classical.choice, Quot.sound |
| `C75_others` | propext, Classical.choice, Quot.sound |
| `C75_concurrent_partial` | propext, Classical.choice, Quot.sound |
| `C75_concurrent_no_tracking` | propext, Classical.choice, Quot.sound |
| `C76_refines` | propext, Classical.choice, Quot.sound |
| `C76_equality` | propext, Classical.choice, Quot.sound |
| `C76_stable` | propext, Classical.choice, Quot.sound |
| `C76_alive` | propext, Classical.choice, Quot.sound |
| `C76_cache` | propext, Classical.choice, Quot.sound |
| `C76_prompt` | propext, Classical.choice, Quot.sound |
| `C76_refcounted` | propext, Classical.choice, Quot.sound |
| `C76_helper` | propext, Classical.choice, Quot.sound |
| `C76_sound` | propext, Classical.choice, Quot.sound |
| `C76_unsound` | propext, Classical.choice, Quot.sound |
| `C77_defined` | propext, Classical.choice, Quot.sound |
| `C77_plain` | propext, Classical.choice, Quot.sound |
| `C77_fuel` | propext, Classical.choice, Quot.sound |
| `C77_order` | propext, Classical.choice, Quot.sound |
| `C77_static` | propext, Classical.choice, Quot.sound |
| `C77_recursive` | propext, Classical.choice, Quot.sound |
| `C77_hazard` | propext, Classical.choice, Quot.sound |
| `C78_defined_partial` | propext, Classical.choice, Quot.sound |
| `C78_recursive` | propext, Classical.choice, Quot.sound |
| `C78_violated` | propext, Classical.choice, Quot.sound |
| `C78_late` | propext, Classical.choice, Quot.sound |
| `C78_order` | propext, Quot.sound |
| `C79_violated` | propext, Quot.sound |
| `C79_only_race_partial` | propext, Classical.choice, Quot.sound |
| `C79_untracked_partial` | propext, Classical.choice, Quot.sound |
| `C79_sound_partial` | propext, Classical.choice, Quot.sound |
| `C80_quota` | propext, Classical.choice, Quot.sound |
| `C80_refines` | propext, Classical.choice, Quot.sound |
| `C80_unchanged` | propext, Classical.choice, Quot.sound |
| `C80_left` | propext, Classical.choice, Quot.sound |
| `C80_found` | propext, Classical.choice, Quot.sound |
| `C80_cleaned` | propext, Classical.choice, Quot.sound |
| `C80_matters` | propext |
| `C81_once` | propext, Classical.choice, Quot.sound |
| `C81_same` | propext, Classical.choice, Quot.sound |
| `C81_safe` | propext, Classical.choice, Quot.sound |
| `C81_exact` | propext, Classical.choice, Quot.sound |
| `C81_destroy` | propext, Classical.choice, Quot.sound |
| `C81_untracked` | propext, Classical.choice, Quot.sound |
