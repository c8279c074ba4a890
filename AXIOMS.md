# Axioms of the theorems

Generated by `tools/gen_axioms.py` from `#print axioms`. Names are in the namespace `Normalize`.

## none (4 theorems)

`Subtype.C32_returns_member`, `Coll.C35_construction_partial`, `AutoJson.C77_never_deletes`, `Props.C103_pickle_partial`

## propext (78 theorems)

`C11_add_valid`, `C14_comp_violated`, `C14_comp_partial`, `Slots.C23_readonly_raises`, `Slots.C24_read_set`, `Slots.C25_rejected_unchanged`, `Slots.C30_read_unset`, `Slots.C30_check_failure`, `Slots.C30_violated`, `Slots.C31_pickle`, `Slots.C31_reads`, `Subtype.C32_isinstance`, `Subtype.C32_nested`, `Subtype.C32_member`, `Subtype.C32_raises`, `Subtype.C32_idempotent`, `Coll.C34_construction`, `Coll.C34_extend_self_violated`, `Coll.C35_step`, `Coll.C35_history`, `Coll.C35_violated`, `Ident.C36_other_kinds`, `Ident.C36_other_kinds_dict`, `Diff.C44_ws_joined`, `Empty.C58_slice`, `Empty.C58_any`, `Empty.C58_assign`, `Empty.C59_once`, `Empty.C69_slice_violated`, `AutoJson.C77_no_effect`, `AutoJson.C77_missing`, `AutoJson.C78_nc_keys`, `Reflect.C86_records`, `Json.C91_says`, `Json.C91_distinct`, `GenericThreads.C99_violated`, `GenericThreads.C99_other_type_violated`, `LazyThreads.C100_violated`, `LazyThreads.C100_read_only_violated`, `LazyThreads.C100_assignment_violated`, `LazyThreads.C100_delete_violated`, `Props.C103_separate`, `Props.C103_dict`, `Props.C103_construct`, `Props.C103_pickle_violated`, `Props.C103_blind`, `Props.C103_json_partial`, `JsonThreads.C104_race`, `JsonThreads.C104_violated`, `JsonThreads.C104_types_violated`, `EmptyThreads.C105_single_violated`, `JsonMem.C107_unchanged_violated`, `Observe.C109`, `Observe.C109_stores`, `Observe.C109_shown_violated`, `Observe.C109_later_violated`, `Observe.C109_results_violated`, `Slots.C110_violated`, `Slots.C110_accepted_violated`, `Sig.C111_default_violated`, `Sig.C111_default_kwonly_violated`, `Sig.C111_compare_violated`, `SelObj.C132_violated`, `SelObj.C132_hash_violated`, `SelObj.C132_dict`, `SelObj.C132_compare_violated`, `DiffLive.C133_violated`, `Empty.C135_violated`, `CollSet.C139_partial`, `CollSet.C139_same`, `CollSet.C139_v1_same`, `CollSet.C139_violated`, `CollSet.C139_refused`, `SoftGet.C143_value_partial`, `SoftGet.C143_error_partial`, `SoftGet.C143_partial`, `SoftGet.C143_again_partial`, `SoftGet.C143_violated`

## propext, Quot.sound (134 theorems)

`C11_violated`, `C12_monoid`, `C12_slice_split`, `C12_startswith`, `C12_startswith_comp`, `Slots.C21_type_safe`, `Slots.C22_required_stays_set`, `Slots.C23_readonly_constant`, `Slots.C24_read_unset`, `Slots.C24_evaluated_once`, `Slots.C24_not_at_construction`, `Slots.C26_init_dict`, `Ident.C27_record_eq`, `Ident.C27_ne`, `Ident.C27_extraneous`, `Slots.C30_assign_none_partial`, `Slots.C30_assign_none_required`, `Coll.C33_list`, `Coll.C33_list_results`, `Coll.C33_dict`, `Coll.C34_uncoercible`, `Coll.C34_violated`, `Coll.C34_violated_pop`, `Coll.C34_violated_index`, `Coll.C34_insert`, `Py.C34_slice_zero`, `Coll.C35_keys_unique`, `Coll.C35_mapping`, `Coll.C35_construction_seq`, `Coll.C35_uncoercible`, `Ident.C36_dict`, `Ident.C36_plain_list`, `Ident.C36_plain_dict`, `Generic.C37_unique`, `Generic.C37_class`, `Generic.C37_clash`, `Generic.C37_module_names_kept`, `Diff.C44_ws_keeps_words`, `Diff.C44_ws_same_words`, `Diff.C44_ws_idempotent`, `Diff.C44_text_idempotent`, `Json.C50_partial`, `Json.C50_value`, `Json.C50_invisible`, `Json.C50_violated`, `Json.C52_is_json`, `Json.C52_total`, `Visit.C55_visit`, `Visit.C55_restored`, `Visit.C55_slot`, `Empty.C58_item`, `Empty.C58_call`, `Empty.C58_chain`, `Empty.C58_kept`, `Empty.C58_single`, `Empty.C58_placeholder`, `Empty.C58_history`, `Empty.C58_aux`, `Empty.C59_all`, `Empty.C59_order`, `Empty.C59_lazy`, `Visit.C67`, `Visit.C68_partial`, `Visit.C68_violated`, `Empty.C69_violated`, `Empty.C69_call_violated`, `Empty.C69_getattr_violated`, `AutoJson.C78_declared_wins`, `Reflect.C85_same`, `CollProp.C88_kind_partial`, `CollProp.C88_items_partial`, `CollProp.C88_isa`, `CollProp.C88_items_violated`, `CollProp.C88_kind_violated`, `Mem.C95_deepcopy`, `GenericThreads.C99_ends`, `GenericThreads.C99_made`, `GenericThreads.C99_alone`, `LazyThreads.C100_partial`, `LazyThreads.C100_admitted`, `LazyThreads.C100_evaluations`, `LazyThreads.C100_ends`, `LazyThreads.C100_errors`, `LazyThreads.C100_set`, `LazyThreads.C100_read_only`, `LazyThreads.C100_alone`, `Props.C102_keyword`, `Props.C102_subclass`, `Props.C102_catch`, `Props.C102_except`, `Props.C103_list`, `Props.C103_diff`, `Props.C103_diff_reports`, `Props.C103_eq_violated`, `Props.C103_equal_but_differ`, `Props.C103_add_violated`, `Props.C103_json_violated`, `Props.C103_eq_partial`, `Props.C103_pickle_generic`, `JsonThreads.C104_partial`, `JsonThreads.C104_warm`, `JsonThreads.C104_alone`, `JsonThreads.C104_leaves`, `EmptyThreads.C105_types`, `EmptyThreads.C105_raises`, `EmptyThreads.C105_single_partial`, `EmptyThreads.C105_kept`, `JsonMem.C107_ends_violated`, `Observe.C109_shown_partial`, `Observe.C109_later_partial`, `Sig.C111_class_gets_record`, `Sig.C111_clean_up_violated`, `Sig.C111_json_partial`, `Observe.C123_attr`, `Observe.C124`, `SelObj.C132_shared`, `SelObj.C132_compare_partial`, `VisitGen.C134_partial`, `VisitGen.C134_prompt`, `VisitGen.C134_violated`, `VisitGen.C134_list_violated`, `VisitGen.C134_filter_violated`, `Empty.C135_tuple`, `Json.C138_written`, `CollSet.C139_safe`, `CollSet.C139_v1`, `CollSet.C139_v1_stored`, `DuckThreads.C141_partial`, `DuckThreads.C141_violated`, `CompleteMfs.C142_class_partial`, `CompleteMfs.C142_same_partial`, `CompleteMfs.C142_violated`, `SoftGet.C143_empty_partial`, `SoftGet.C143_lazy_partial`

## propext, Classical.choice, Quot.sound (447 theorems)

`C01_lt_true_iff`, `C01_lt_error_iff`, `C01_lt_irrefl`, `C01_lt_trans`, `C01_trichotomy`, `C01_lt_asymm`, `C01_prefix_and_index`, `C01_derived`, `C02_roundtrip_iff`, `C02_violated`, `C02_roundtrip_partial`, `C02_path_injective`, `C03_get_append`, `C03_get_nil`, `C04_put_get`, `C05_put_frame`, `C06_wildcard_masks`, `C06_wildcard_all_fail`, `C06_wildcard_other_exc`, `C07_violated`, `C07_get_or_none`, `C07_never_raises_partial`, `C08_failed_put`, `C09_post_is_put`, `C09_out_of_order`, `C09_post_found_partial`, `Demo.C09_violated_lemma`, `C09_violated`, `C10_delete_gone`, `C10_delete_frame`, `C10_delete_index`, `C10_failed_delete`, `C10_delete_unset`, `C11_init_partial`, `C13_contains`, `C13_contains_comp`, `C14_getitem_residual`, `C14_getitem_none`, `C14_contains_iff_complete`, `C15_iter_rebuild`, `C16_raises_iff`, `C16_order_irrelevant`, `C16_union`, `C17_violated`, `C17_roundtrip_partial`, `C18_kept_partial`, `C18_only_partial`, `C18_violated`, `C19_missing_unchanged`, `C19_deleted_partial`, `C19_succeeds_partial`, `C19_violated`, `C19_half_done`, `C20_patch_partial`, `C20_unreadable_unchanged`, `C20_violated`, `Slots.C21_assign`, `Slots.C26_construct_iff`, `Slots.C26_slots`, `Slots.C26_order_irrelevant`, `Slots.C26_missing_required`, `Ident.C27_refl`, `Ident.C27_symm`, `Ident.C27_trans`, `Ident.C28_equal_ids_partial`, `Ident.C28_violated`, `Ident.C28_violated_by_declared_type`, `Ident.C29_determined`, `Ident.C29_order`, `Ident.C29_exact_partial`, `Ident.C29_violated`, `Slots.C30_assign_other`, `Coll.C34_partial`, `Coll.C34_history_partial`, `Py.C34_slice_positions`, `Py.C34_slice_order`, `Py.C34_slice_get`, `Py.C34_slice_del`, `Py.C34_slice_set`, `Py.C34_slice_set_step`, `Ident.C36_list`, `Ident.C36_refl_symm`, `Generic.C37_pickle`, `Generic.C37_pickle_other_process`, `Generic.C37_subclass_lost`, `Diff.C38_self`, `Diff.C38_unchanged_only`, `Diff.C38_nothing`, `Diff.C38_default`, `Diff.C39_iff`, `Diff.C39_sound`, `Diff.C39_record`, `Diff.C39_default`, `Diff.C40_mirror`, `Diff.C40_default`, `Diff.C40_duck_type_asymmetric`, `Diff.C41_violated`, `Diff.C41_partial`, `Diff.C41_recurse`, `Diff.C42_simple`, `Diff.C42_simple_iff`, `Diff.C42_records`, `Diff.C43_points`, `Diff.C43_get`, `Diff.C43_default`, `Diff.C44_val_idempotent`, `Diff.C44_empty_slots`, `Diff.C44_empty_text`, `Diff.C45_violated`, `Diff.C45_partial`, `Diff.C45_outside_partial`, `Diff.C45_outside_violated`, `Diff.C45_members_partial`, `Diff.C46_violated`, `Diff.C46_violated_items`, `Diff.C46_partial`, `Diff.C47_pairs`, `Diff.C47_default`, `Diff.C47_shares`, `Json.C48_partial`, `Json.C48_collections_partial`, `Json.C48_violated`, `Json.C49_kept`, `Json.C49_written`, `Json.C49_partial`, `Json.C49_violated`, `Json.C49_plain_rejects`, `Json.C50_hidden_in`, `Json.Auto.C51_round_trip`, `Json.Auto.C51_no_clash`, `Json.Auto.C51_object`, `Json.Auto.C51_condition`, `Json.C52_int`, `Visit.C53_partial`, `Visit.C53_violated`, `Visit.C53_violated_empty`, `Visit.C53_violated_union`, `Visit.C53_violated_classes`, `Visit.C54_shows`, `Visit.C54`, `Visit.C55_cast_partial`, `Visit.C55_cast_nolist_partial`, `Visit.C55_cast_violated`, `ClassMeta.C56_union`, `ClassMeta.C56_unique`, `ClassMeta.C56_clash`, `ClassMeta.C56_ok`, `ClassMeta.C56_reserved`, `ClassMeta.C56_pk`, `ClassMeta.C56_eager`, `ClassMeta.C56_sorted`, `ClassMeta.C56_others`, `Traits.C57_traits`, `Traits.C57_provides`, `Traits.C57_safe`, `Traits.C57_args`, `Traits.C57_exact_partial`, `Traits.C57_history_partial`, `Traits.C57_again`, `Traits.C57_accepts`, `Traits.C57_terminates`, `Traits.C57_violated`, `Traits.C57_history_violated`, `Empty.C58_attr`, `C60_post_sorted`, `C61_wildcard_put`, `C61_wildcard_put_stops`, `C62_wildcard_delete`, `C62_wildcard_delete_stops`, `C62_clear`, `Diff.C63_slot`, `Diff.C63_items`, `Json.C64`, `Json.C64_constructor`, `Json.C64_keywords`, `Json.C65`, `Json.C65_constructor`, `Visit.C66`, `Visit.C68_cast_partial`, `Visit.C68_cast_violated`, `Empty.C69_partial`, `ClassMeta.C70_partial`, `ClassMeta.C70_violated`, `ClassMeta.C70_shadow_violated`, `ClassMeta.C71_partial`, `ClassMeta.C71_distinct_partial`, `ClassMeta.C71_violated`, `ClassMeta.C72`, `Traits.C73_property_partial`, `Traits.C73_partial`, `Traits.C73_violated`, `Traits.C74_partial`, `Traits.C74_call_partial`, `Traits.C74_violated`, `Traits.C75`, `AutoJson.C76_partial`, `AutoJson.C76_records_partial`, `AutoJson.C76_refused`, `AutoJson.C76_other_items`, `AutoJson.C76_declared_partial`, `AutoJson.C76_violated`, `AutoJson.C77_violated`, `AutoJson.C77_violated_silently`, `AutoJson.C78_partial`, `AutoJson.C78_lost`, `AutoJson.C78_declared_partial`, `AutoJson.C78_keys`, `AutoJson.C78_violated`, `Types.C79`, `Types.C80_dateutil_partial`, `Types.C80_fallback_partial`, `Types.C80_never_another`, `Types.C80_violated`, `Types.C81`, `Types.C81_kept`, `Types.C81_dates`, `Types.C81_refused`, `Types.C82_partial`, `Types.C82_reads`, `Types.C82_violated`, `Types.C83`, `Types.C84_partial`, `Types.C84_never`, `Types.C84_none`, `Types.C84_violated`, `Reflect.C85_partial`, `Reflect.C85_violated`, `Reflect.C85_recursion`, `Reflect.C86_violated`, `Reflect.C86_partial`, `Reflect.C86_mentions_partial`, `PropInit.C87_exact`, `PropInit.C87_raises`, `PropInit.C87_accepted`, `PropInit.C87_partial`, `PropInit.C87_violated`, `PropInit.C87_v1`, `PropInit.C87_coll`, `PropInit.C87_list`, `PropInit.C87_dict`, `Diff.C89`, `Diff.C89_one_sided`, `Diff.C89_one_entry`, `Diff.C89_default`, `Diff.C89_diff`, `Diff.C90_partial`, `Diff.C90_nested_partial`, `Diff.C90_default_partial`, `Diff.C90_violated`, `Json.C91_reads`, `Json.C91`, `Json.C91_text`, `Json.C91_diff`, `Json.C91_refused`, `Diff.C92_partial`, `Diff.C92_violated`, `Diff.C92_raises`, `Diff.C92_info`, `Mem.C93`, `Mem.C93_post`, `Mem.C93_delete`, `Mem.C93_one`, `Mem.C93_delete_one`, `Mem.C93_value_violated`, `Mem.C94_get`, `Mem.C94_live`, `Mem.C94`, `Mem.C94_independent`, `Mem.C95_copy`, `Mem.C95_violated`, `Mem.C95_partial`, `Mem.C95_delete`, `Mem.C96_get`, `Mem.C96_put`, `Mem.C96_delete`, `Mem.C96`, `Mem.C96_shared_violated`, `Repr.C97_partial`, `Repr.C97_distinct`, `Repr.C97_none`, `Repr.C97_string`, `Repr.C97_default_violated`, `Repr.C97_violated`, `Repr.C97_own_violated`, `Repr.C97_json_dict_violated`, `Repr.C98_fs`, `Repr.C98_mfs`, `Repr.C98_fs_distinct`, `GenericThreads.C99_pickle_violated`, `GenericThreads.C99_partial`, `GenericThreads.C99_no_error`, `GenericThreads.C99_settled`, `GenericThreads.C99_first`, `GenericThreads.C99_pickle`, `Props.C101_partial`, `Props.C101_identity`, `Props.C101_empty`, `Props.C101_string`, `Props.C101_violated`, `Props.C101_union_violated`, `Props.C101_diff`, `Props.C102_partial`, `Props.C102_broken`, `Props.C102_violated`, `Props.C102_format`, `Props.C102_created`, `Props.C102_missing_keyword`, `Props.C102_missing_positional`, `Props.C102_attribute_partial`, `Props.C102_attribute_violated`, `Props.C102_text_lost`, `Props.C102_copy_partial`, `Props.C102_copy_fails`, `Props.C102_copy_violated`, `Props.C103_compare_violated`, `Props.C103_add_partial`, `Props.C103_required`, `JsonThreads.C104_ends`, `EmptyThreads.C105_ends`, `TraitThreads.C106_traits`, `TraitThreads.C106_kept`, `TraitThreads.C106_race`, `TraitThreads.C106_violated`, `TraitThreads.C106_two_types`, `TraitThreads.C106_single_violated`, `TraitThreads.C106_clash_violated`, `TraitThreads.C106_after_partial`, `TraitThreads.C106_partial`, `TraitThreads.C106_alone`, `TraitThreads.C106_ends`, `JsonMem.C107`, `JsonMem.C107_separate`, `JsonMem.C107_same`, `JsonMem.C107_again`, `JsonInMem.C108`, `JsonInMem.C108_partial`, `JsonInMem.C108_apart_partial`, `JsonInMem.C108_same`, `JsonInMem.C108_violated`, `JsonInMem.C108_apart_violated`, `Slots.C110_partial`, `Sig.C111_default_partial`, `Sig.C111_compare_partial`, `Sig.C111_json_violated`, `Sig.C111_extraneous_violated`, `Diff.C112_violated`, `Diff.C112_partial`, `Diff.C113_violated`, `Diff.C113_partial`, `Diff.C113_rule`, `Diff.C113_records_violated`, `Props.C114_partial`, `Props.C114_violated`, `Props.C114_subclass_violated`, `Props.C114_items_violated`, `Props.C115_partial`, `Props.C115_text`, `Props.C115_key`, `Props.C115_prints_violated`, `Props.C115_prints_partial`, `Props.C115_plain`, `Props.C115_list`, `Props.C115_violated`, `Diff.C116_symm`, `Diff.C116_partial`, `Diff.C116_typed`, `Diff.C116_violated`, `Diff.C116_types_violated`, `Diff.C116_default_violated`, `Diff.C117_partial`, `Diff.C117_flat`, `Diff.C117_violated`, `Diff.C118_partial`, `Diff.C118_violated`, `Diff.C119_partial`, `Diff.C119_violated`, `Diff.C119_wild_violated`, `Diff.C120_partial`, `Diff.C120_tuple`, `Diff.C120_violated`, `Diff.C120_mixed`, `Diff.C120_mixed_violated`, `Visit.C121_place`, `Visit.C121_accepted`, `Visit.C121_partial`, `Visit.C121_violated`, `Visit.C122_partial`, `Visit.C122_other`, `Visit.C122_slots`, `Visit.C122_slots_other`, `Visit.C122_violated`, `Observe.C123`, `Traits.C125_missing`, `Traits.C125_two_partial`, `Traits.C125_errors`, `Traits.C125_violated`, `Repr.C126_partial`, `Repr.C126_tuple`, `Repr.C126_one_member`, `Repr.C126_violated`, `Ident.C127_empty`, `Ident.C127_partial`, `Ident.C127_wildcard`, `Ident.C127_violated`, `Ident.C127_names_violated`, `Ident.C128_rule`, `Ident.C128_partial`, `Ident.C128_disjoint`, `Ident.C128_violated`, `Diff.C129_partial`, `Diff.C129_violated`, `Diff.C130_iff`, `Diff.C130_sound`, `Diff.C130_partial`, `Diff.C130_flat`, `Diff.C130_violated`, `Diff.C130_violated_key`, `Diff.C131_partial`, `Diff.C131_violated`, `Diff.C131_visit_partial`, `SelObj.C132_partial`, `DiffLive.C133_partial`, `DiffLive.C133_distinct`, `DiffLive.C133_diff_partial`, `Empty.C135_partial`, `Types.C136_partial`, `Types.C136_fraction`, `Types.C136_refused`, `Types.C136_text`, `Types.C136_number`, `Types.C136_violated`, `C137_violated`, `C137_patch_violated`, `C137_iter`, `C137_delete_partial`, `C137_delete_returns_partial`, `C137_patch_partial`, `C137_get_partial`, `Json.C138_partial`, `Json.C138_refused`, `Json.C138_key_error`, `Json.C138_violated`, `Mem.C140_partial`, `Mem.C140_same`, `Mem.C140_violated`, `DuckThreads.C141_found_partial`, `DuckThreads.C141_raises`
