'ZJ.C01_parse_true_iff' depends on axioms: [propext, Classical.choice, Quot.sound]
'ZJ.C01_parseFast_true_iff' depends on axioms: [propext, Classical.choice, Quot.sound]
'ZJ.C01_parse_false_iff' depends on axioms: [propext, Classical.choice, Quot.sound]
'ZJ.C01_parseFast_false_iff' depends on axioms: [propext, Classical.choice, Quot.sound]
'ZJ.C01_program' depends on axioms: [propext, Classical.choice, Quot.sound]
'ZJ.C02_parse_document' depends on axioms: [propext, Classical.choice, Quot.sound]
'ZJ.C02_parseFast_document' depends on axioms: [propext, Classical.choice, Quot.sound]
'ZJ.C02_shown_unique' depends on axioms: [propext]
'ZJ.C02_parse_frame' depends on axioms: [propext, Classical.choice, Quot.sound]
'ZJ.C03_terminates' depends on axioms: [propext, Classical.choice, Quot.sound]
'ZJ.C03_any_depth' depends on axioms: [propext, Classical.choice, Quot.sound]
'ZJ.C04_parse_failed' depends on axioms: [propext, Classical.choice, Quot.sound]
'ZJ.C04_parseFast_failed' depends on axioms: [propext, Classical.choice, Quot.sound]
'ZJ.C04_parseLen_failed' depends on axioms: [propext, Classical.choice, Quot.sound]
'ZJ.C05_exact' depends on axioms: [propext, Classical.choice, Quot.sound]
'ZJ.C05_parseLen_exact' depends on axioms: [propext, Classical.choice, Quot.sound]
'ZJ.C05_parse_exact' depends on axioms: [propext, Classical.choice, Quot.sound]
'ZJ.C05_false' depends on axioms: [propext, Quot.sound]
'ZJ.C05_false_nested' depends on axioms: [propext, Quot.sound]
'ZJ.C05_partial' depends on axioms: [propext, Classical.choice, Quot.sound]
'ZJ.C06_false' depends on axioms: [propext, Classical.choice, Quot.sound]
'ZJ.C06_partial' depends on axioms: [propext, Classical.choice, Quot.sound]
'ZJ.C06_nul' depends on axioms: [propext, Classical.choice, Quot.sound]
'ZJ.C06_reads_only' depends on axioms: [propext, Quot.sound]
'ZJ.C06_document' depends on axioms: [propext, Classical.choice, Quot.sound]
'ZJ.C07_parse_stringify' depends on axioms: [propext, Classical.choice, Quot.sound]
'ZJ.C07_parseFast_stringify' depends on axioms: [propext, Classical.choice, Quot.sound]
'ZJ.C08_stringify_parse' depends on axioms: [propext, Classical.choice, Quot.sound]
'ZJ.C08_stringify_parseFast' depends on axioms: [propext, Classical.choice, Quot.sound]
'ZJ.C08_idempotent' depends on axioms: [propext, Classical.choice, Quot.sound]
'ZJ.C08_strip_sublist' depends on axioms: [propext, Quot.sound]
'ZJ.C08_program' depends on axioms: [propext, Classical.choice, Quot.sound]
'ZJ.C09_stringify' depends on axioms: [propext, Classical.choice, Quot.sound]
'ZJ.C09_stringify_empty' depends on axioms: [propext]
'ZJ.C09_result' depends on axioms: [propext, Classical.choice, Quot.sound]
'ZJ.C09_canonical' depends on axioms: [propext, Classical.choice, Quot.sound]
'ZJ.C10_parseFast_follows' depends on axioms: [propext, Classical.choice, Quot.sound]
'ZJ.C10_parseFast_freed' depends on axioms: [propext, Classical.choice, Quot.sound]
'ZJ.C10_setStrFast_follows' depends on axioms: [propext, Classical.choice, Quot.sound]
'ZJ.C10_setNumStrFast_follows' depends on axioms: [propext, Classical.choice, Quot.sound]
'ZJ.C10_setLenFast_follows' depends on axioms: [propext, Quot.sound]
'ZJ.C10_setKeyFast_follows' depends on axioms: [propext]
'ZJ.C10_parse_owns' depends on axioms: [propext, Classical.choice, Quot.sound]
'ZJ.C10_parseLen_owns' depends on axioms: [propext, Classical.choice, Quot.sound]
'ZJ.C10_parseFast_borrows' depends on axioms: [propext, Quot.sound]
'ZJ.C10_set_owns' depends on axioms: [propext, Classical.choice, Quot.sound]
'ZJ.C10_setKey_owns' depends on axioms: [propext, Classical.choice, Quot.sound]
'ZJ.C10_setFast_borrows' depends on axioms: [propext]
'ZJ.C11_str' depends on axioms: [propext, Classical.choice, Quot.sound]
'ZJ.C11_key' depends on axioms: [propext, Classical.choice, Quot.sound]
'ZJ.C11_through_text' depends on axioms: [propext, Classical.choice, Quot.sound]
'ZJ.C12_setStrEscape' depends on axioms: [propext, Classical.choice, Quot.sound]
'ZJ.C12_setKeyEscape' depends on axioms: [propext, Classical.choice, Quot.sound]
'ZJ.C12_size' depends on axioms: [propext, Classical.choice, Quot.sound]
'ZJ.C13_getUnEscapeStr' depends on axioms: [propext, Classical.choice, Quot.sound]
'ZJ.C13_total' depends on axioms: [propext, Classical.choice]
'ZJ.C13_getUnEscapeKey' depends on axioms: [propext, Classical.choice, Quot.sound]
'ZJ.C13_member_key' depends on axioms: [propext, Classical.choice, Quot.sound]
'ZJ.C14_getUnEscapeStr' depends on axioms: [propext, Classical.choice, Quot.sound]
'ZJ.C14_getUnEscapeKey' depends on axioms: [propext, Classical.choice, Quot.sound]
'ZJ.C14_reads_only' depends on axioms: [propext, Classical.choice, Quot.sound]
'ZJ.C14_tight' does not depend on any axioms
'ZJ.C14_needs_valid' depends on axioms: [propext]
'ZJ.C14_invalid_loops' depends on axioms: [propext]
'ZJ.C15_setKey_partial' depends on axioms: [propext, Classical.choice, Quot.sound]
'ZJ.C15_refused' depends on axioms: [propext, Classical.choice, Quot.sound]
'ZJ.C15_agree_partial' depends on axioms: [propext, Classical.choice, Quot.sound]
'ZJ.C15_false' depends on axioms: [propext, Quot.sound]
'ZJ.C15_setStr' depends on axioms: [propext, Classical.choice, Quot.sound]
'ZJ.C15_setStrFast' depends on axioms: [propext, Classical.choice, Quot.sound]
'ZJ.C15_partial' depends on axioms: [propext, Classical.choice, Quot.sound]
'ZJ.C16_setNumStr' depends on axioms: [propext, Classical.choice, Quot.sound]
'ZJ.C16_setNumStrFast' depends on axioms: [propext, Classical.choice, Quot.sound]
'ZJ.C16_true_iff' depends on axioms: [propext, Classical.choice, Quot.sound]
'ZJ.C17_setKeyLen' depends on axioms: [propext, Classical.choice, Quot.sound]
'ZJ.C17_key_nul' depends on axioms: [propext, Classical.choice, Quot.sound]
'ZJ.C17_key_agree' depends on axioms: [propext, Classical.choice, Quot.sound]
'ZJ.C17_setStrLen' depends on axioms: [propext, Classical.choice, Quot.sound]
'ZJ.C17_setNumStrLen' depends on axioms: [propext, Classical.choice, Quot.sound]
'ZJ.C17_nul' depends on axioms: [propext, Classical.choice, Quot.sound]
'ZJ.C17_agree' depends on axioms: [propext, Classical.choice, Quot.sound]
'ZJ.C18_key' depends on axioms: [propext, Classical.choice, Quot.sound]
'ZJ.C18_rejected' depends on axioms: [propext, Classical.choice, Quot.sound]
'ZJ.C18_documents' depends on axioms: [propext, Quot.sound]
'ZJ.C19_set' depends on axioms: [propext, Classical.choice, Quot.sound]
'ZJ.C19_get' depends on axioms: [propext, Classical.choice, Quot.sound]
'ZJ.C19_key' depends on axioms: [propext, Quot.sound]
'ZJ.C19_place' depends on axioms: [propext, Classical.choice, Quot.sound]
'ZJ.C19_element' depends on axioms: [propext, Classical.choice, Quot.sound]
'ZJ.C19_text' depends on axioms: [propext, Classical.choice, Quot.sound]
'ZJ.C19_textLen' depends on axioms: [propext, Classical.choice, Quot.sound]
'ZJ.C20_inspect' depends on axioms: [propext, Quot.sound]
'ZJ.C20_getStr' depends on axioms: [propext, Classical.choice, Quot.sound]
'ZJ.C20_getNumStr' depends on axioms: [propext, Classical.choice, Quot.sound]
'ZJ.C20_wrong_type' depends on axioms: [propext, Quot.sound]
'ZJ.C20_empty' depends on axioms: [propext]
'ZJ.C21_int' depends on axioms: [propext, Classical.choice, Quot.sound]
'ZJ.C21_long' depends on axioms: [propext, Classical.choice, Quot.sound]
'ZJ.C21_longLong' depends on axioms: [propext, Classical.choice, Quot.sound]
'ZJ.C21_through_text' depends on axioms: [propext, Classical.choice, Quot.sound]
'ZJ.C22_getInt' depends on axioms: [propext, Classical.choice, Quot.sound]
'ZJ.C22_getLong' depends on axioms: [propext, Classical.choice, Quot.sound]
'ZJ.C22_getDouble' depends on axioms: [propext, Classical.choice, Quot.sound]
'ZJ.C22_parse' depends on axioms: [propext, Classical.choice, Quot.sound]
'ZJ.C22_parseFast' depends on axioms: [propext, Classical.choice, Quot.sound]
'ZJ.C22_false' depends on axioms: [propext, Quot.sound]
'ZJ.C22_false_tail' depends on axioms: [propext, Quot.sound]
'ZJ.C22_partial' depends on axioms: [propext, Classical.choice, Quot.sound]
'ZJ.C22_getInt_exact' depends on axioms: [propext, Classical.choice, Quot.sound]
'ZJ.C22_getLong_exact' depends on axioms: [propext, Classical.choice, Quot.sound]
'ZJ.C22_getDouble_exact' depends on axioms: [propext, Classical.choice, Quot.sound]
'ZJ.C22_false_stored' depends on axioms: [propext, Classical.choice, Quot.sound]
'ZJ.C23_iff' depends on axioms: [propext, Classical.choice, Quot.sound]
'ZJ.C23_finite' depends on axioms: [propext, Classical.choice, Quot.sound]
'ZJ.C23_through_text' depends on axioms: [propext, Classical.choice, Quot.sound]
'ZJ.C23_legit' depends on axioms: [propext, Classical.choice, Quot.sound]
'ZJ.C23_false_locale' depends on axioms: [propext, Classical.choice, Quot.sound]
'ZJ.C23_false' depends on axioms: [propext, Classical.choice, Quot.sound]
'ZJ.C23_false_nan' depends on axioms: [propext, Classical.choice, Quot.sound]
'ZJ.C23_partial' depends on axioms: [propext, Classical.choice, Quot.sound]
'ZJ.C24_sizeOf' depends on axioms: [propext, Quot.sound]
'ZJ.C25_children' depends on axioms: [propext, Quot.sound]
'ZJ.C26_arrayGet' depends on axioms: [propext, Quot.sound]
'ZJ.C27_objGet' depends on axioms: [propext, Quot.sound]
'ZJ.C27_objGetLen' depends on axioms: [propext, Classical.choice, Quot.sound]
'ZJ.C27_agree' depends on axioms: [propext, Classical.choice, Quot.sound]
'ZJ.C28_copy' depends on axioms: [propext, Classical.choice, Quot.sound]
'ZJ.C28_empty' depends on axioms: [propext, Quot.sound]
'ZJ.C29_arrayAdd' depends on axioms: [propext, Classical.choice, Quot.sound]
'ZJ.C29_objAdd' depends on axioms: [propext, Classical.choice, Quot.sound]
'ZJ.C29_refused' depends on axioms: [propext, Classical.choice, Quot.sound]
'ZJ.C30_false_obj' depends on axioms: [propext, Quot.sound]
'ZJ.C30_false_obj_program' depends on axioms: [propext, Quot.sound]
'ZJ.C30_arrayAddFast_partial' depends on axioms: [propext, Quot.sound]
'ZJ.C30_objAddFast_partial' depends on axioms: [propext, Quot.sound]
'ZJ.C30_false' depends on axioms: [propext, Quot.sound]
'ZJ.C30_false_program' depends on axioms: [propext, Quot.sound]
'ZJ.C31_false_obj' depends on axioms: [propext, Classical.choice, Quot.sound]
'ZJ.C31_false_middle_all' depends on axioms: [propext, Quot.sound]
'ZJ.C31_move_partial' depends on axioms: [propext, Quot.sound]
'ZJ.C31_root' depends on axioms: [propext]
'ZJ.C31_first' depends on axioms: [propext, Quot.sound]
'ZJ.C31_false' depends on axioms: [propext, Classical.choice, Quot.sound]
'ZJ.C31_false_program' depends on axioms: [propext, Quot.sound]
'ZJ.C31_false_middle' depends on axioms: [propext, Quot.sound]
'ZJ.C32_false_array' depends on axioms: [propext, Classical.choice, Quot.sound]
'ZJ.C32_false_object' depends on axioms: [propext, Classical.choice, Quot.sound]
'ZJ.C32_arrayDel_partial' depends on axioms: [propext, Quot.sound]
'ZJ.C32_objDel_partial' depends on axioms: [propext, Quot.sound]
'ZJ.C32_missing' depends on axioms: [propext, Quot.sound]
'ZJ.C32_false' depends on axioms: [propext, Quot.sound]
'ZJ.C32_false_middle' depends on axioms: [propext, Quot.sound]
'ZJ.C33_false_all' depends on axioms: [propext, Classical.choice, Quot.sound]
'ZJ.C33_setFast' depends on axioms: [propext, Classical.choice, Quot.sound]
'ZJ.C33_setFast_empty' depends on axioms: [propext, Quot.sound]
'ZJ.C33_set_partial' depends on axioms: [propext, Classical.choice, Quot.sound]
'ZJ.C33_set_empty' depends on axioms: [propext, Classical.choice, Quot.sound]
'ZJ.C33_refused' depends on axioms: [propext, Quot.sound]
'ZJ.C33_false' depends on axioms: [propext, Quot.sound]
'ZJ.C33_false_source' depends on axioms: [propext, Quot.sound]
'ZJ.C34_history_partial' depends on axioms: [propext, Classical.choice, Quot.sound]
'ZJ.C34_answers' depends on axioms: [propext, Classical.choice, Quot.sound]
'ZJ.C34_false_ub' depends on axioms: [propext, Quot.sound]
'ZJ.C34_false_answer' depends on axioms: [propext, Quot.sound]
'ZJ.C34_plain_partial' depends on axioms: [propext, Classical.choice, Quot.sound]
'ZJ.C35_false' depends on axioms: [propext, Classical.choice, Quot.sound]
'ZJ.C35_false_print' depends on axioms: [propext, Quot.sound]
'ZJ.C35_partial' depends on axioms: [propext, Classical.choice, Quot.sound]
'ZJ.C35_history_partial' depends on axioms: [propext, Classical.choice, Quot.sound]
'ZJ.C36_false' depends on axioms: [propext, Quot.sound]
'ZJ.C36_partial' depends on axioms: [propext, Classical.choice, Quot.sound]
'ZJ.Alloc.C37_disjoint_partial' depends on axioms: [propext, Classical.choice, Quot.sound]
'ZJ.Alloc.C37_contents' depends on axioms: [propext, Classical.choice, Quot.sound]
'ZJ.Alloc.C37_false' depends on axioms: [propext, Quot.sound]
'ZJ.Alloc.C38_balanced' depends on axioms: [propext, Classical.choice, Quot.sound]
'ZJ.Alloc.C38_pair' depends on axioms: [propext, Classical.choice, Quot.sound]
'ZJ.Alloc.C39_serves_partial' depends on axioms: [propext, Classical.choice, Quot.sound]
'ZJ.Alloc.C39_exact' depends on axioms: [propext, Classical.choice, Quot.sound]
'ZJ.Alloc.C39_false_loop' depends on axioms: [propext, Classical.choice, Quot.sound]
'ZJ.Alloc.C39_false_sum' depends on axioms: [propext, Classical.choice, Quot.sound]
'ZJ.Alloc.C39_false_wrap' depends on axioms: [propext, Classical.choice, Quot.sound]
'ZJ.Alloc.C40_proportional' depends on axioms: [propext, Classical.choice, Quot.sound]
'ZJ.Alloc.C40_default' depends on axioms: [propext, Quot.sound]
'ZJ.Alloc.C41_exact_partial' depends on axioms: [propext, Classical.choice, Quot.sound]
'ZJ.Alloc.C41_false' depends on axioms: [propext, Classical.choice, Quot.sound]
'ZJ.Alloc.C41_growth_agrees' depends on axioms: [propext, Quot.sound]
'ZJ.C42_false' depends on axioms: [propext]
'ZJ.C42_false_program' depends on axioms: [propext]
'ZJ.C42_partial' depends on axioms: [propext, Classical.choice, Quot.sound]
'ZJ.C43_setKey' depends on axioms: [propext, Classical.choice, Quot.sound]
'ZJ.C43_setKeyLen' depends on axioms: [propext, Classical.choice, Quot.sound]
'ZJ.C43_refused' depends on axioms: [propext, Classical.choice, Quot.sound]
'ZJ.C43_where' depends on axioms: [propext, Quot.sound]
'ZJ.C43_get' depends on axioms: [propext, Quot.sound]
'ZJ.C43_member' depends on axioms: [propext, Classical.choice, Quot.sound]
'ZJ.C43_kids' depends on axioms: [propext, Quot.sound]
'ZJ.C44_false' depends on axioms: [propext, Classical.choice, Quot.sound]
'ZJ.C44_partial' depends on axioms: [propext, Classical.choice, Quot.sound]
'ZJ.C44_history_partial' depends on axioms: [propext, Classical.choice, Quot.sound]
'ZJ.Alloc.C45_false' depends on axioms: [propext]
'ZJ.Alloc.C45_false_alloc' depends on axioms: [propext, Classical.choice, Quot.sound]
'ZJ.Alloc.C45_failstop_partial' depends on axioms: [propext, Classical.choice, Quot.sound]
'ZJ.Alloc.C45_contents_partial' depends on axioms: [propext, Classical.choice, Quot.sound]
'ZJ.Alloc.C45_client_partial' depends on axioms: [propext, Classical.choice, Quot.sound]
'ZJ.Alloc.C46_aligned_partial' depends on axioms: [propext, Classical.choice, Quot.sound]
'ZJ.Alloc.C46_false' depends on axioms: [propext, Classical.choice, Quot.sound]
'ZJ.C47_local_partial' depends on axioms: [propext, Classical.choice, Quot.sound]
'ZJ.C47_false' depends on axioms: [propext, Quot.sound]
'ZJ.Alloc.C48_own_memory_partial' depends on axioms: [propext, Classical.choice, Quot.sound]
'ZJ.C49_no_wrap_partial' depends on axioms: [propext, Classical.choice, Quot.sound]
'ZJ.C50_copies' depends on axioms: [propext, Quot.sound]
'ZJ.C50_fast' depends on axioms: [propext, Classical.choice, Quot.sound]
'ZJ.C51_utf8' depends on axioms: [propext, Classical.choice, Quot.sound]
'ZJ.C51_escapes' depends on axioms: [propext, Classical.choice, Quot.sound]
'ZJ.C51_unchecked' depends on axioms: [propext, Quot.sound]
'ZJ.C52_independent_partial' depends on axioms: [propext, Classical.choice, Quot.sound]
'ZJ.C52_false' depends on axioms: [propext, Classical.choice, Quot.sound]
'ZJ.C53_abstract' depends on axioms: [propext, Classical.choice, Quot.sound]
'ZJ.C53_answers' depends on axioms: [propext, Classical.choice, Quot.sound]
'ZJ.C54_same' depends on axioms: [propext, Quot.sound]
'ZJ.C54_allowed' depends on axioms: [propext, Classical.choice, Quot.sound]
'ZJ.C54_newValue' depends on axioms: [propext]
'ZJ.C55_calls' depends on axioms: [propext, Classical.choice, Quot.sound]
'ZJ.C55_print' depends on axioms: [propext, Classical.choice, Quot.sound]
'ZJ.C55_copy' depends on axioms: [propext, Classical.choice, Quot.sound]
'ZJ.C55_edit' depends on axioms: [propext, Classical.choice, Quot.sound]
'ZJ.C55_textOut' depends on axioms: [propext, Classical.choice, Quot.sound]
'ZJ.C55_program' depends on axioms: [propext, Classical.choice, Quot.sound]
'ZJ.C56_getAndSet' depends on axioms: [propext, Classical.choice, Quot.sound]
'ZJ.C56_prints' depends on axioms: [propext, Classical.choice, Quot.sound]
'ZJ.C56_partial' depends on axioms: [propext, Classical.choice, Quot.sound]
'ZJ.C56_iff' depends on axioms: [propext, Classical.choice, Quot.sound]
'ZJ.C56_false' depends on axioms: [propext, Classical.choice, Quot.sound]
'ZJ.C56_rejects' depends on axioms: [propext, Classical.choice, Quot.sound]
'ZJ.C56_allocators_false' depends on axioms: [propext, Quot.sound]
'ZJ.C57_settings_partial' depends on axioms: [propext, Classical.choice, Quot.sound]
'ZJ.C57_room' depends on axioms: [propext, Quot.sound]
'ZJ.C57_room_default' depends on axioms: [propext, Quot.sound]
'ZJ.C57_false_delta' depends on axioms: [propext, Classical.choice, Quot.sound]
'ZJ.C57_false_chunk' depends on axioms: [propext, Classical.choice, Quot.sound]
'ZJ.C57_false_char' depends on axioms: [propext, Quot.sound]
'ZJ.C57_false_text' depends on axioms: [propext, Quot.sound]
'ZJ.C58_parse' depends on axioms: [propext, Classical.choice, Quot.sound]
'ZJ.C58_parseLen' depends on axioms: [propext, Classical.choice, Quot.sound]
'ZJ.C58_parseFast' depends on axioms: [propext, Classical.choice, Quot.sound]
'ZJ.C58_parse_returns' depends on axioms: [propext, Classical.choice, Quot.sound]
'ZJ.C59_print' depends on axioms: [propext, Classical.choice, Quot.sound]
'ZJ.C59_print_returns' depends on axioms: [propext, Classical.choice, Quot.sound]
'ZJ.C59_any' depends on axioms: [propext, Classical.choice, Quot.sound]
'ZJ.C60_calls' depends on axioms: [propext, Classical.choice, Quot.sound]
'ZJ.C60_copy' depends on axioms: [propext, Classical.choice, Quot.sound]
'ZJ.C60_objGet' depends on axioms: [propext, Quot.sound]
'ZJ.C60_objGetLen' depends on axioms: [propext, Quot.sound]
'ZJ.C60_objDel' depends on axioms: [propext, Quot.sound]
'ZJ.C60_lookup_other' depends on axioms: [propext, Quot.sound]
'ZJ.C60_setFast' depends on axioms: [propext, Quot.sound]
'ZJ.C60_set' depends on axioms: [propext, Classical.choice, Quot.sound]
'ZJ.C60_getLong' depends on axioms: [propext, Classical.choice, Quot.sound]
'ZJ.C60_getDouble' depends on axioms: [propext, Classical.choice, Quot.sound]
'ZJ.C61_threads_partial' depends on axioms: [propext, Classical.choice, Quot.sound]
'ZJ.C61_no_races_partial' depends on axioms: [propext, Classical.choice, Quot.sound]
'ZJ.C61_false' depends on axioms: [propext, Classical.choice, Quot.sound]
'ZJ.C62_false' depends on axioms: [propext, Quot.sound]
'ZJ.C62_false_any' depends on axioms: [propext, Classical.choice, Quot.sound]
'ZJ.C62_quiet_partial' depends on axioms: [propext, Classical.choice, Quot.sound]
'ZJ.Alloc.C63_bounded_partial' depends on axioms: [propext, Classical.choice, Quot.sound]
'ZJ.Alloc.C63_given_back_partial' depends on axioms: [propext, Classical.choice, Quot.sound]
'ZJ.Alloc.C63_program_partial' depends on axioms: [propext, Classical.choice, Quot.sound]
'ZJ.Alloc.C63_parse_partial' depends on axioms: [propext, Classical.choice, Quot.sound]
'ZJ.C64_get' depends on axioms: [propext, Classical.choice, Quot.sound]
'ZJ.C64_add' depends on axioms: [propext, Classical.choice, Quot.sound]
'ZJ.C64_add_partial' depends on axioms: [propext, Classical.choice, Quot.sound]
'ZJ.C64_add_false' depends on axioms: [propext, Classical.choice, Quot.sound]
'ZJ.C64_del' depends on axioms: [propext, Classical.choice, Quot.sound]
'ZJ.C64_del_partial' depends on axioms: [propext, Classical.choice, Quot.sound]
'ZJ.C64_del_absent' depends on axioms: [propext, Classical.choice, Quot.sound]
'ZJ.C64_del_false' depends on axioms: [propext, Classical.choice, Quot.sound]
'ZJ.C64_add_false_program' depends on axioms: [propext, Quot.sound]
'ZJ.C64_del_false_program' depends on axioms: [propext, Quot.sound]
'ZJ.C64_replace_false' depends on axioms: [propext, Quot.sound]
'ZJ.C64_names_false' depends on axioms: [propext, Quot.sound]
'ZJ.C65_getDouble' depends on axioms: [propext, Classical.choice, Quot.sound]
'ZJ.C65_parse' depends on axioms: [propext, Classical.choice, Quot.sound]
'ZJ.C65_exact' depends on axioms: [propext, Classical.choice, Quot.sound]
'ZJ.C65_int' depends on axioms: [propext, Classical.choice, Quot.sound]
'ZJ.C65_setLong' depends on axioms: [propext, Classical.choice, Quot.sound]
'ZJ.C65_locale' depends on axioms: [propext, Classical.choice, Quot.sound]
'ZJ.C65_false_locale' depends on axioms: [propext, Classical.choice, Quot.sound]
'ZJ.C66_partial' depends on axioms: [propext, Classical.choice, Quot.sound]
'ZJ.C66_false' depends on axioms: [propext, Quot.sound]
'ZJ.C66_setDouble_partial' depends on axioms: [propext, Classical.choice, Quot.sound]
'ZJ.C66_false_double' depends on axioms: [propext, Classical.choice, Quot.sound]
'ZJ.C66_exact' depends on axioms: [propext, Classical.choice, Quot.sound]
'ZJ.Alloc.C67_enough_partial' depends on axioms: [propext, Classical.choice, Quot.sound]
'ZJ.Alloc.C67_parse_partial' depends on axioms: [propext, Classical.choice, Quot.sound]
'ZJ.Alloc.C68_counters' depends on axioms: [propext, Classical.choice, Quot.sound]
'ZJ.Alloc.C68_leak_check_partial' depends on axioms: [propext, Classical.choice, Quot.sound]
'ZJ.C69_goTo' depends on axioms: [propext, Classical.choice, Quot.sound]
'ZJ.C69_set' depends on axioms: [propext, Classical.choice, Quot.sound]
'ZJ.C69_writeAt' depends on axioms: [propext, Classical.choice, Quot.sound]
'ZJ.C69_writeAt_nowhere' depends on axioms: [propext, Classical.choice, Quot.sound]
'ZJ.C69_program' depends on axioms: [propext, Classical.choice, Quot.sound]
'ZJ.C70_sweep_partial' depends on axioms: [propext, Quot.sound]
'ZJ.C70_for' depends on axioms: [propext, Quot.sound]
'ZJ.C70_program_partial' depends on axioms: [propext, Classical.choice, Quot.sound]
'ZJ.C70_false' depends on axioms: [propext, Quot.sound]
'ZJ.C70_false_for' depends on axioms: [propext, Quot.sound]
'ZJ.Beta.C71_accepts' depends on axioms: [propext, Classical.choice, Quot.sound]
'ZJ.Beta.C71_rejects' depends on axioms: [propext, Classical.choice, Quot.sound]
'ZJ.Beta.C71_document' depends on axioms: [propext, Classical.choice, Quot.sound]
'ZJ.Beta.C71_failed' depends on axioms: [propext, Classical.choice, Quot.sound]
'ZJ.Beta.C71_len_ignored' depends on axioms: [propext, Classical.choice, Quot.sound]
'ZJ.Beta.C71_false_len' depends on axioms: [propext, Quot.sound]
'ZJ.Beta.C71_false_own' depends on axioms: [propext, Quot.sound]
'ZJ.Beta.C72_stale' depends on axioms: [propext, Quot.sound]
'ZJ.Beta.C72_get_partial' depends on axioms: [propext, Classical.choice, Quot.sound]
'ZJ.Beta.C72_parse_partial' depends on axioms: [propext, Classical.choice, Quot.sound]
'ZJ.Beta.C72_set_partial' depends on axioms: [propext, Classical.choice, Quot.sound]
'ZJ.Beta.C72_false' depends on axioms: [propext, Quot.sound]
'ZJ.Beta.C72_false_union' depends on axioms: [propext, Quot.sound]
'ZJ.Beta.C72_edit_keeps' depends on axioms: [propext]
'ZJ.Beta.C72_set_forgets' depends on axioms: [propext]
'ZJ.Beta.C72_setFast_forgets' depends on axioms: [propext]
'ZJ.Beta.C72_add_forgets' depends on axioms: [propext]
'ZJ.Beta.C72_assign_partial' depends on axioms: [propext, Classical.choice, Quot.sound]
'ZJ.Beta.C72_assignFast_partial' depends on axioms: [propext, Classical.choice, Quot.sound]
'ZJ.Beta.C72_call_partial' depends on axioms: [propext, Classical.choice, Quot.sound]
'ZJ.Beta.C72_session_partial' depends on axioms: [propext, Classical.choice, Quot.sound]
'ZJ.Beta.C72_program_partial' depends on axioms: [propext, Classical.choice, Quot.sound]
'ZJ.Beta.C72_walk_partial' depends on axioms: [propext, Classical.choice, Quot.sound]
'ZJ.Beta.C72_getNum_partial' depends on axioms: [propext, Classical.choice, Quot.sound]
'ZJ.C73_trailing' depends on axioms: [propext, Classical.choice, Quot.sound]
'ZJ.C73_truncated' depends on axioms: [propext, Classical.choice, Quot.sound]
'ZJ.C73_parse' depends on axioms: [propext, Classical.choice, Quot.sound]
'ZJ.C73_parseFast' depends on axioms: [propext, Classical.choice, Quot.sound]
'ZJ.C73_parse_trailing' depends on axioms: [propext, Classical.choice, Quot.sound]
'ZJ.C73_parseLen' depends on axioms: [propext, Classical.choice, Quot.sound]
'ZJ.C73_numbers' depends on axioms: [propext, Classical.choice, Quot.sound]
'ZJ.C74_visit' depends on axioms: [propext, Classical.choice, Quot.sound]
'ZJ.C74_index' depends on axioms: [propext, Classical.choice, Quot.sound]
'ZJ.Beta.C75_objGet' depends on axioms: [propext, Quot.sound]
'ZJ.Beta.C75_objGetLen' depends on axioms: [propext, Quot.sound]
'ZJ.Beta.C75_arrayGet' depends on axioms: [propext, Quot.sound]
'ZJ.Beta.C75_begin' depends on axioms: [propext]
'ZJ.Beta.C75_next' depends on axioms: [propext]
'ZJ.Beta.C75_type' depends on axioms: [propext]
'ZJ.Beta.C75_size' depends on axioms: [propext]
'ZJ.Beta.C75_move' depends on axioms: [propext]
'ZJ.Beta.C75_arrayDel' depends on axioms: [propext, Quot.sound]
'ZJ.Beta.C75_objDel' depends on axioms: [propext, Quot.sound]
'ZJ.Beta.C75_arrayAddFast' depends on axioms: [propext, Quot.sound]
'ZJ.Beta.C75_objAddFast' depends on axioms: [propext, Quot.sound]
'ZJ.Beta.C75_copy' depends on axioms: [propext]
'ZJ.Beta.C75_arrayAdd' depends on axioms: [propext, Quot.sound]
'ZJ.Beta.C75_objAdd' depends on axioms: [propext, Quot.sound]
'ZJ.Beta.C75_copy_empty' does not depend on any axioms
'ZJ.Beta.C75_setNull' depends on axioms: [propext]
'ZJ.Beta.C75_setBool' depends on axioms: [propext]
'ZJ.Beta.C75_setArray' depends on axioms: [propext]
'ZJ.Beta.C75_setObj' depends on axioms: [propext]
'ZJ.Beta.C75_setNumStr' depends on axioms: [propext]
'ZJ.Beta.C75_setNumStrFast' depends on axioms: [propext]
'ZJ.Beta.C75_setStr' depends on axioms: [propext]
'ZJ.Beta.C75_setStrFast' depends on axioms: [propext]
'ZJ.Beta.C75_setKey' depends on axioms: [propext]
'ZJ.Beta.C75_setKeyFast' depends on axioms: [propext]
'ZJ.Beta.C75_setNumStrLenFast' depends on axioms: [propext]
'ZJ.Beta.C75_setNumStrLen' depends on axioms: [propext]
'ZJ.Beta.C75_setStrLenFast' depends on axioms: [propext]
'ZJ.Beta.C75_setStrLen' depends on axioms: [propext]
'ZJ.Beta.C75_setKeyLenFast' depends on axioms: [propext]
'ZJ.Beta.C75_setKeyLen' depends on axioms: [propext]
'ZJ.Beta.C75_call' depends on axioms: [propext, Quot.sound]
'ZJ.Beta.C75_client' depends on axioms: [propext, Quot.sound]
'ZJ.Beta.C75_transfer' depends on axioms: [propext, Quot.sound]
'ZJ.Beta.C76_setFast_partial' depends on axioms: [propext, Quot.sound]
'ZJ.Beta.C76_set_partial' depends on axioms: [propext, Quot.sound]
'ZJ.Beta.C76_false_setFast' depends on axioms: [propext, Classical.choice, Quot.sound]
'ZJ.Beta.C76_false_set' depends on axioms: [propext, Classical.choice, Quot.sound]
'ZJ.Beta.C76_false' depends on axioms: [propext, Quot.sound]
'ZJ.Beta.C76_false_fast' depends on axioms: [propext, Quot.sound]
'ZJ.C77_step' depends on axioms: [propext, Classical.choice, Quot.sound]
'ZJ.C77_requests' depends on axioms: [propext, Classical.choice, Quot.sound]
'ZJ.C77_program' depends on axioms: [propext, Classical.choice, Quot.sound]
'ZJ.C78_numStr' depends on axioms: [propext, Classical.choice, Quot.sound]
'ZJ.C78_atof_exact' depends on axioms: [propext, Classical.choice, Quot.sound]
'ZJ.C78_atoi_exact' depends on axioms: [propext, Classical.choice, Quot.sound]
'ZJ.C78_fast' depends on axioms: [propext, Classical.choice, Quot.sound]
'ZJ.C78_partial' depends on axioms: [propext, Classical.choice, Quot.sound]
'ZJ.C78_false_stored' depends on axioms: [propext, Classical.choice, Quot.sound]
'ZJ.C78_false' depends on axioms: [propext, Classical.choice, Quot.sound]
'ZJ.C78_false_cases' depends on axioms: [propext, Quot.sound]
'ZJ.C79_build' depends on axioms: [propext, Classical.choice, Quot.sound]
'ZJ.C79_elems' depends on axioms: [propext, Classical.choice, Quot.sound]
'ZJ.C79_members' depends on axioms: [propext, Classical.choice, Quot.sound]
'ZJ.C79_others' depends on axioms: [propext, Quot.sound]
'ZJ.C79_program' depends on axioms: [propext, Classical.choice, Quot.sound]
'ZJ.C79_every' depends on axioms: [propext, Classical.choice, Quot.sound]
'ZJ.C80_steps' depends on axioms: [propext, Classical.choice, Quot.sound]
'ZJ.C80_build' depends on axioms: [propext, Classical.choice, Quot.sound]
'ZJ.C81_copy' depends on axioms: [propext, Classical.choice, Quot.sound]
'ZJ.C81_prints' depends on axioms: [propext, Classical.choice, Quot.sound]
'ZJ.C81_partial' depends on axioms: [propext, Classical.choice, Quot.sound]
'ZJ.C81_iff' depends on axioms: [propext, Classical.choice, Quot.sound]
'ZJ.C81_false' depends on axioms: [propext, Classical.choice, Quot.sound]
'ZJ.C81_rejects' depends on axioms: [propext, Classical.choice, Quot.sound]
'ZJ.C81_again_false' depends on axioms: [propext, Classical.choice, Quot.sound]
'ZJ.C81_again_sample' depends on axioms: [propext, Quot.sound]
'ZJ.C81_prints_any' depends on axioms: [propext, Classical.choice, Quot.sound]
'ZJ.C81_prints_quiet' depends on axioms: [propext, Classical.choice, Quot.sound]
'ZJ.C81_again_partial' depends on axioms: [propext, Classical.choice, Quot.sound]
'ZJ.C81_again_all_false' depends on axioms: [propext, Classical.choice, Quot.sound]
'ZJ.C81_again_between_false' depends on axioms: [propext, Classical.choice, Quot.sound]
'ZJ.C81_runs' depends on axioms: [propext, Classical.choice, Quot.sound]
'ZJ.C81_again_iff' depends on axioms: [propext, Classical.choice, Quot.sound]
'ZJ.C81_accepts_iff' depends on axioms: [propext, Classical.choice, Quot.sound]
