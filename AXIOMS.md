# Axioms of each theorem

Generated by `tools/axioms.py` from `#print axioms`.

## no axioms

* C09: `Verif.Index.C09_default_base`
* C106: `Verif.Processor.C106_trigger_refuted`
* C115: `Verif.Registry.C115_failed_refuted`
* C12: `Verif.Index.C12_subnormal_refuted`
* C147: `Verif.Chunk.C147_large_refuted`
* C157: `Verif.ArrowWriter.C157_empty_refuted`
* C162: `Verif.Output.C162_throws_refuted`
* C180: `Verif.Combinator.C180_guard_refuted`
* C191: `Verif.Notify.C191_once`
* C29: `Verif.RangeMap.C29_erase_range_refuted`
* C35: `Verif.Scheduler.C35_forgotten`
* C36: `Verif.Ingest.C36_empty_slice_refuted`, `Verif.Ingest.C36_full_stays_active_refuted`
* C38: `Verif.Exporter.C38_large_extract_refuted`, `Verif.Exporter.C38_wraps_refuted`, `Verif.Exporter.C38_shutdown_loses_refuted`
* C40: `Verif.Supervisor.C40_protocol_needed`
* C60: `Verif.Escape.C60_escape_refuted`
* C71: `Verif.Reader.C71_glued_refuted`
* C75: `Verif.Reader.Csv.C75_short_line_refuted`, `Verif.Reader.Csv.C75_abort_refuted`, `Verif.Reader.Csv.C75_long_line_refuted`, `Verif.Reader.Csv.C75_size_refuted`

## `propext`

* C10: `Verif.Index.C10_skipped_refuted`, `Verif.Index.C10_range_operand_refuted`, `Verif.Index.C10_base_overflow_refuted`
* C106: `Verif.Processor.C106_query_refuted`, `Verif.Processor.C106_taste_refuted`
* C107: `Verif.Csv.C107_string`
* C11: `Verif.Index.C11_time_sign_refuted`, `Verif.Index.C11_time_notEqual_refuted`, `Verif.Index.C11_real_notEqual_refuted`, `Verif.Index.C11_nan_refuted`, `Verif.Index.C11_small_base_refuted`
* C122: `Verif.Blocking.C122_route_refuted`
* C139: `Verif.Client.C139_cleanup`, `Verif.Client.C139_ends`, `Verif.Client.C139_late_refuted`
* C144: `Verif.Broker.C144_set_refuted`
* C147: `Verif.Chunk.C147_empty_refuted`
* C148: `Verif.Chunk.C148_mmap_partial`, `Verif.Chunk.C148_empty_refuted`
* C156: `Verif.Options.C156_zero_refuted`
* C16: `Verif.Index.HashIndex.C16_unseen_refuted`, `Verif.Index.HashIndex.C16_exhausted_refuted`
* C160: `Verif.VectorMap.C160_unnamed_refuted`
* C165: `Verif.Project.C165_container_refuted`, `Verif.Project.C165_size_refuted`
* C17: `Verif.Index.C17_gap_refuted`
* C176: `Verif.Arena.C176_elements_refuted`
* C179: `Verif.ZeekFiles.C179_directory`
* C180: `Verif.Combinator.C180_skip_refuted`
* C181: `Verif.Combinator.C181_forever_refuted`
* C182: `Verif.Combinator.Text.C182_overwritten_refuted`, `Verif.Combinator.Text.C182_residue_refuted`, `Verif.Combinator.Text.C182_garbage_refuted`
* C183: `Verif.Grammar.C183_meaning_partial`, `Verif.Grammar.C183_unique`
* C185: `Verif.Printer.C185_residue_refuted`, `Verif.Printer.C185_lookahead_refuted`
* C186: `Verif.Commands.C186_export_refuted`
* C187: `Verif.Commands.C187_import_refuted`
* C188: `Verif.Commands.C188_interrupt`, `Verif.Commands.C188_interrupt_refuted`
* C189: `Verif.Digest.C189_huge`, `Verif.Digest.C189_one_refuted`
* C191: `Verif.Notify.C191_long`, `Verif.Notify.C191_error`, `Verif.Notify.C191_socket_refuted`
* C192: `Verif.Notify.C192_wrapped_refuted`
* C20: `Verif.Synopsis.C20_buffered_null_refuted`
* C24: `Verif.Data.C24_negate_involution`, `Verif.Data.C24_flip_involution`
* C26: `Verif.Taxonomy.C26_resolve_concepts_sound`, `Verif.Taxonomy.C26_model_recursive_refuted`, `Verif.Taxonomy.C26_model_empty_refuted`
* C32: `Verif.Cache.C32_lru_capacity_zero_refuted`, `Verif.Cache.C32_cache_evict`, `Verif.Cache.C32_flat_size_zero_refuted`
* C33: `Verif.Save.C33_stale_tmp_refuted`
* C39: `Verif.Exporter.C39_overlap_refuted`, `Verif.Exporter.C39_overlap_default_refuted`, `Verif.Exporter.C39_taste_zero_refuted`
* C41: `Verif.ArchiveActor.C41_order_refuted`, `Verif.ArchiveActor.C41_cancelled_order_refuted`, `Verif.ArchiveActor.C41_untailored_done_refuted`
* C42: `Verif.DiskMonitor.C42_step_refuted`, `Verif.DiskMonitor.C42_parallel_refuted`
* C46: `Verif.Escape.C46_byte_refuted`, `Verif.Escape.C46_byte_extra_refuted`, `Verif.Escape.C46_double_refuted`, `Verif.Escape.C46_unescape_safe`, `Verif.Escape.C46_json_safe_partial`, `Verif.Escape.C46_json_unsafe_refuted`
* C47: `Verif.Msgpack.C47_short_binary_refuted`, `Verif.Msgpack.C47_short_binary_element_refuted`, `Verif.Msgpack.C47_time_2038_refuted`, `Verif.Msgpack.C47_time_negative_refuted`, `Verif.Msgpack.C47_map_refuted`
* C49: `Verif.Types.C49_empty_record_refuted`, `Verif.Types.C49_num_leaves_refuted`
* C51: `Verif.Record.C51_flatten_refuted`, `Verif.Record.C51_merge_refuted`, `Verif.Record.C51_make_record_refuted`
* C52: `Verif.Transform.C52_offset_refuted`, `Verif.Transform.C52_twice_refuted`
* C58: `Verif.Base64.C58_decode_unpadded_refuted`
* C61: `Verif.Escape.C61_replace_empty_refuted`
* C62: `Verif.Types.C62_at_offset`, `Verif.Types.C62_resolve_key_prefix_refuted`, `Verif.Types.C62_resolve_key_ub_refuted`, `Verif.Types.C62_separator_refuted`
* C63: `Verif.Types.C63_remove_path_refuted`
* C65: `Verif.Transform.C65_delete_missing`
* C66: `Verif.Taxonomy.C66_negation_refuted`, `Verif.Taxonomy.C66_model_field_refuted`, `Verif.Taxonomy.C66_expression`, `Verif.Taxonomy.C66_negated_error_refuted`, `Verif.Taxonomy.C66_pruning_refuted`
* C72: `Verif.Reader.C72_glued_refuted`
* C73: `Verif.Reader.C73_zero_refuted`
* C74: `Verif.Reader.C74_idle_refuted`, `Verif.Reader.C74_capacity_refuted`
* C77: `Verif.CommunityId.C77_dual`
* C93: `Verif.Explorer.C93_failed_refuted`
* C98: `Verif.SchemaText.C98_operand_refuted`, `Verif.SchemaText.C98_attributes_refuted`

## `Quot.sound`, `propext`

* C04: `Verif.Bitmap.C04_all_refuted`, `Verif.Bitmap.C04_is_subset_refuted`, `Verif.Bitmap.C04_select_last_refuted`
* C06: `Verif.Bitmap.C06_null_refuted`
* C10: `Verif.Index.C10_singleton_partial`
* C101: `Verif.ArrowSlice.C101_inner_alias_refuted`, `Verif.ArrowSlice.C101_rest_refuted`, `Verif.ArrowSlice.C101_short_record_refuted`, `Verif.ArrowSlice.C101_long_record_refuted`
* C102: `Verif.Partition.C102_order`
* C105: `Verif.Processor.C105_total_partial`, `Verif.Processor.C105_ends_partial`, `Verif.Processor.C105_lost_refuted`, `Verif.Processor.C105_taste_refuted`
* C106: `Verif.Processor.C106_timer_partial`, `Verif.Processor.C106_cycles_partial`, `Verif.Processor.C106_answers`
* C109: `Verif.Shutdown.C109_nograce_refuted`
* C115: `Verif.Registry.C115_file`
* C123: `Verif.Blocking.C123_starved_refuted`
* C129: `Verif.Uuid.C129_print`
* C13: `Verif.Index.StringIndex.C13_ff_refuted`, `Verif.Index.StringIndex.C13_max_size_refuted`, `Verif.Index.StringIndex.C13_long_refuted`
* C139: `Verif.Client.C139_status_partial`
* C14: `Verif.Index.C14_zero_prefix_refuted`, `Verif.Index.C14_subnet_zero_refuted`, `Verif.Index.C14_subnet_family_refuted`
* C147: `Verif.Chunk.C147_roundtrip_partial`, `Verif.Chunk.C147_null`, `Verif.Chunk.C147_injective`, `Verif.Chunk.C147_sound`, `Verif.Chunk.C147_truncated_refuted`
* C148: `Verif.Chunk.C148_sound`, `Verif.Chunk.C148_all_or_nothing`, `Verif.Chunk.C148_shrunk`, `Verif.Chunk.C148_mixed_refuted`
* C15: `Verif.Index.ListIndex.C15_not_ni_refuted`, `Verif.Index.ListIndex.C15_long_refuted`
* C154: `Verif.Options.C154_disabled`
* C155: `Verif.Options.C155_options_partial`
* C156: `Verif.Options.C156_listen`, `Verif.Options.C156_file`, `Verif.Options.C156_reads_partial`
* C157: `Verif.ArrowWriter.C157_read_partial`, `Verif.ArrowWriter.C157_all_partial`, `Verif.ArrowWriter.C157_end_refuted`
* C159: `Verif.VectorMap.C159_find`, `Verif.VectorMap.C159_reports`, `Verif.VectorMap.C159_order`, `Verif.VectorMap.C159_equal`
* C162: `Verif.Output.C162_whole`, `Verif.Output.C162_command`, `Verif.Output.C162_files`
* C163: `Verif.Signals.C163_lost_refuted`
* C165: `Verif.Project.C165_rows_partial`
* C167: `Verif.Arith.C167_pow`
* C17: `Verif.Index.C17_evaluate_refuted`
* C176: `Verif.Arena.C176_wrap_refuted`
* C177: `Verif.HashAppend.C177_equal`, `Verif.HashAppend.C177_total`, `Verif.HashAppend.C177_different`, `Verif.HashAppend.C177_row`
* C178: `Verif.HashAppend.C178_unordered_partial`, `Verif.HashAppend.C178_unordered_refuted`, `Verif.HashAppend.C178_types_refuted`
* C179: `Verif.ZeekFiles.C179_output_partial`
* C18: `Verif.Synopsis.C18_not_equal_refuted`, `Verif.Synopsis.C18_not_in_refuted`
* C182: `Verif.Combinator.Text.C182_text_partial`, `Verif.Combinator.Text.C182_character_partial`, `Verif.Combinator.Text.C182_unused_partial`
* C184: `Verif.Grammar.C184_ends_partial`, `Verif.Grammar.C184_left_recursion_refuted`
* C186: `Verif.Commands.C186_explore`, `Verif.Commands.C186_pivot`, `Verif.Commands.C186_export_partial`, `Verif.Commands.C186_import_partial`
* C187: `Verif.Commands.C187_explore`, `Verif.Commands.C187_pivot`, `Verif.Commands.C187_export`, `Verif.Commands.C187_import_partial`, `Verif.Commands.C187_cause`
* C188: `Verif.Commands.C188_explore`, `Verif.Commands.C188_export`, `Verif.Commands.C188_import_partial`
* C189: `Verif.Digest.C189_default`
* C19: `Verif.Synopsis.C19_no_false_negative`, `Verif.Synopsis.C19_exact`
* C190: `Verif.Digest.C190_floor2`
* C191: `Verif.Notify.C191_ready_partial`, `Verif.Notify.C191_abstract_refuted`
* C192: `Verif.Notify.C192_only`
* C20: `Verif.Synopsis.C20_no_false_negatives`, `Verif.Synopsis.C20_defined`, `Verif.Synopsis.C20_add_result`, `Verif.Synopsis.C20_shrink`
* C22: `Verif.Expr.C22_nil_refuted`
* C23: `Verif.Expr.C23_fixpoint_partial`
* C24: `Verif.Data.C24_negate`, `Verif.Data.C24_negate_view`, `Verif.Data.C24_flip_partial`, `Verif.Data.C24_flip_view`
* C25: `Verif.Expr.C25_prune`, `Verif.Expr.C25_count`
* C26: `Verif.Taxonomy.C26_resolve_concepts_refuted`, `Verif.Taxonomy.C26_target_fields_partial`, `Verif.Taxonomy.C26_target_fields_refuted`, `Verif.Taxonomy.C26_model_leaves_partial`
* C30: `Verif.Archive.C30_interleaved_refuted`, `Verif.Archive.C30_failed_write_refuted`, `Verif.Archive.C30_no_capacity_refuted`, `Verif.Archive.C30_session_erase_refuted`
* C31: `Verif.Archive.C31_overlap_refuted`, `Verif.Archive.C31_resurrected_refuted`
* C32: `Verif.Cache.C32_lru_moved_key_refuted`
* C34: `Verif.Importer.C34_rows_assigned`, `Verif.Importer.C34_torn_write_refuted`, `Verif.Importer.C34_lost_write_refuted`
* C35: `Verif.Scheduler.C35_at_most_n`, `Verif.Scheduler.C35_workers`, `Verif.Scheduler.C35_taste_zero_refuted`
* C37: `Verif.Evaluator.C37_positions`
* C41: `Verif.ArchiveActor.C41_at_most_once`, `Verif.ArchiveActor.C41_assertions`, `Verif.ArchiveActor.C41_all_answered`, `Verif.ArchiveActor.C41_terminates`
* C42: `Verif.DiskMonitor.C42_starts_above_high`
* C43: `Verif.LocalStore.C43_after_stream_refuted`, `Verif.LocalStore.C43_tailor_refuted`, `Verif.LocalStore.C43_meta_refuted`, `Verif.LocalStore.C43_erased_answers_refuted`, `Verif.LocalStore.C43_erase_lost_refuted`
* C45: `Verif.Base64.C45_round_trip`, `Verif.Base64.C45_length`, `Verif.Base64.C45_alphabet`
* C46: `Verif.Escape.C46_json`, `Verif.Escape.C46_percent`, `Verif.Escape.C46_byte_all`, `Verif.Escape.C46_byte_partial`, `Verif.Escape.C46_double_partial`
* C48: `Verif.Address.C48_invalid_length`
* C49: `Verif.Types.C49_flatten_leaves`, `Verif.Types.C49_flat`, `Verif.Types.C49_idempotent`, `Verif.Types.C49_flat_size`, `Verif.Types.C49_offset_from_index_partial`, `Verif.Types.C49_num_leaves_partial`
* C50: `Verif.SetOps.C50_sorted_set_ext`
* C51: `Verif.Record.C51_merge_src_partial`, `Verif.Record.C51_merge_dst_partial`, `Verif.Record.C51_make_record_fails`
* C52: `Verif.Transform.C52_other_types`, `Verif.Transform.C52_rows`, `Verif.Transform.C52_offset_partial`, `Verif.Transform.C52_composition_partial`
* C53: `Verif.Schema.C53_valid`, `Verif.Schema.C53_find`, `Verif.Schema.C53_add`, `Verif.Schema.C53_combine`
* C54: `Verif.Data.C54_view_agrees_partial`, `Verif.Data.C54_view_match_refuted`, `Verif.Data.C54_view_pattern_equality_refuted`, `Verif.Data.C54_view_container_order_refuted`
* C55: `Verif.Bitmap.C55_wah_equality_refuted`, `Verif.Bitmap.C55_null_equality_refuted`
* C58: `Verif.Base64.C58_decode_safe_partial`
* C59: `Verif.Escape.C59_json`
* C60: `Verif.Escape.C60_split_include`, `Verif.Escape.C60_split_join`, `Verif.Escape.C60_split_max`, `Verif.Escape.C60_split_parts`, `Verif.Escape.C60_escape_partial`
* C62: `Verif.Types.C62_resolve_offset`, `Verif.Types.C62_resolve_key_sound_partial`, `Verif.Types.C62_find_suffix`, `Verif.Types.C62_at_key`, `Verif.Types.C62_flat_field_at_partial`, `Verif.Types.C62_flat_field_at_refuted`
* C64: `Verif.Types.C64_merge_leaves`, `Verif.Types.C64_merge_fails`, `Verif.Types.C64_prefer_right`, `Verif.Types.C64_prefer_left`, `Verif.Types.C64_unique`, `Verif.Types.C64_attributes`, `Verif.Types.C64_assign_refuted`
* C65: `Verif.Transform.C65_replace_type_refuted`
* C66: `Verif.Taxonomy.C66_concept_partial`, `Verif.Taxonomy.C66_model_length`, `Verif.Taxonomy.C66_pruning_sound`
* C67: `Verif.Recovery.C67_active_refuted`, `Verif.Recovery.C67_orphan_refuted`, `Verif.Recovery.C67_failed_save_refuted`, `Verif.Recovery.C67_counts_refuted`, `Verif.Recovery.C67_unconfirmed_refuted`, `Verif.Recovery.C67_twice_refuted`, `Verif.Recovery.C67_unlink_refuted`
* C68: `Verif.MsgpackSlice.C68_accepted`, `Verif.MsgpackSlice.C68_mixed_list_refuted`, `Verif.MsgpackSlice.C68_lost_element_refuted`, `Verif.MsgpackSlice.C68_mixed_map_refuted`, `Verif.MsgpackSlice.C68_null_type_refuted`, `Verif.MsgpackSlice.C68_record_list_refuted`, `Verif.MsgpackSlice.C68_record_shift_refuted`, `Verif.MsgpackSlice.C68_map_refuted`
* C69: `Verif.DataText.C69_smallest_refuted`
* C72: `Verif.Reader.C72_limit_refuted`
* C73: `Verif.Reader.C73_limit_refuted`, `Verif.Reader.C73_exit_refuted`
* C78: `Verif.Pcap.C78_ipv6_refuted`, `Verif.Pcap.C78_snaplen_refuted`, `Verif.Pcap.C78_short_tcp_refuted`, `Verif.Pcap.C78_empty_refuted`, `Verif.Pcap.C78_vlan_refuted`, `Verif.Pcap.C78_payload_refuted`, `Verif.Pcap.C78_malformed_refuted`
* C79: `Verif.Pcap.C79_completes_partial`, `Verif.Pcap.C79_limit_partial`, `Verif.Pcap.C79_skip`, `Verif.Pcap.C79_full_refuted`, `Verif.Pcap.C79_clock_refuted`, `Verif.Pcap.C79_growth_refuted`, `Verif.Pcap.C79_hang_refuted`
* C80: `Verif.QueryText.C80_only`, `Verif.QueryText.C80_meaning`
* C81: `Verif.Sigma.C81_accepted`, `Verif.Sigma.C81_search`, `Verif.Sigma.C81_value_partial`
* C88: `Verif.Json.C88_lookup`
* C91: `Verif.Explorer.C91_duplicate_refuted`, `Verif.Explorer.C91_again_refuted`, `Verif.Explorer.C91_zero_refuted`
* C92: `Verif.Explorer.C92_none`
* C93: `Verif.Explorer.C93_ends_partial`
* C94: `Verif.Sink.C94_below`, `Verif.Sink.C94_prefix`, `Verif.Sink.C94_error`
* C98: `Verif.SchemaText.C98_cycle_refuted`, `Verif.SchemaText.C98_unique`, `Verif.SchemaText.C98_rejects_partial`

## `Classical.choice`, `Quot.sound`, `propext`

* C01: `Verif.Bitmap.C01_ewah_faithful`, `Verif.Bitmap.C01_ewah_runs_wellformed`, `Verif.Bitmap.C01_counter_partial`, `Verif.Bitmap.C01_flip_refuted`
* C02: `Verif.Bitmap.C02_ewah_equality`
* C03: `Verif.Bitmap.C03_algebra`, `Verif.Bitmap.C03_equality`, `Verif.Bitmap.C03_nary_and`, `Verif.Bitmap.C03_nary_or`, `Verif.Bitmap.C03_nary_xor`, `Verif.Bitmap.C03_binary_nor`
* C04: `Verif.Bitmap.C04_index`, `Verif.Bitmap.C04_rank`, `Verif.Bitmap.C04_select`, `Verif.Bitmap.C04_frame`, `Verif.Bitmap.C04_any`, `Verif.Bitmap.C04_all_partial`, `Verif.Bitmap.C04_is_subset_partial`, `Verif.Bitmap.C04_select_last_partial`, `Verif.Bitmap.C04_select_range`, `Verif.Bitmap.C04_each`, `Verif.Bitmap.C04_select_many`
* C05: `Verif.Bitmap.C05_wah_faithful`
* C06: `Verif.Bitmap.C06_null_partial`, `Verif.Bitmap.C06_null_exact_partial`
* C07: `Verif.Bitmap.C07_make_ids`
* C08: `Verif.Bitmap.C08_select_with`, `Verif.Bitmap.C08_visits_exactly`
* C09: `Verif.Index.C09_decompose_compose`, `Verif.Index.C09_compose_decompose`
* C10: `Verif.Index.C10_equality_partial`, `Verif.Index.C10_range_partial`, `Verif.Index.C10_bitslice_partial`, `Verif.Index.C10_multilevel_range_partial`, `Verif.Index.C10_multilevel_equality_partial`, `Verif.Index.C10_range_rows`
* C100: `Verif.SchemaText.C100_text_partial`, `Verif.SchemaText.C100_transfer_partial`, `Verif.SchemaText.C100_order_refuted`, `Verif.SchemaText.C100_empty_refuted`, `Verif.SchemaText.C100_lost_refuted`, `Verif.SchemaText.C100_alias_refuted`, `Verif.SchemaText.C100_attributes_refuted`
* C101: `Verif.ArrowSlice.C101_read_partial`, `Verif.ArrowSlice.C101_column_partial`, `Verif.ArrowSlice.C101_alias_refuted`, `Verif.ArrowSlice.C101_rejected`
* C102: `Verif.Partition.C102_indexes_found_partial`, `Verif.Partition.C102_indexes_exact_partial`, `Verif.Partition.C102_null_refuted`, `Verif.Partition.C102_found_partial`, `Verif.Partition.C102_only_partial`, `Verif.Partition.C102_prefix_refuted`, `Verif.Partition.C102_prefix_extra_refuted`, `Verif.Partition.C102_error_refuted`, `Verif.Partition.C102_failure_refuted`, `Verif.Partition.C102_skip_refuted`, `Verif.Partition.C102_negation_refuted`
* C103: `Verif.Partition.C103_indexes_partial`, `Verif.Partition.C103_partition_partial`, `Verif.Partition.C103_answer_partial`, `Verif.Partition.C103_disjunction_refuted`
* C104: `Verif.Partition.C104_erased_partial`, `Verif.Partition.C104_exact_partial`, `Verif.Partition.C104_later_partial`, `Verif.Partition.C104_time_refuted`, `Verif.Partition.C104_negation_refuted`
* C105: `Verif.Processor.C105_events_partial`, `Verif.Processor.C105_estimate_partial`, `Verif.Processor.C105_estimate_refuted`
* C107: `Verif.Csv.C107_table_partial`, `Verif.Csv.C107_header_refuted`, `Verif.Csv.C107_list_refuted`, `Verif.Csv.C107_pattern_refuted`, `Verif.Csv.C107_map_refuted`, `Verif.Csv.C107_real_refuted`
* C108: `Verif.Shutdown.C108_order`, `Verif.Shutdown.C108_stages`, `Verif.Shutdown.C108_grace`, `Verif.Shutdown.C108_who`, `Verif.Shutdown.C108_stopped`, `Verif.Shutdown.C108_died`
* C109: `Verif.Shutdown.C109_ends_partial`, `Verif.Shutdown.C109_together`
* C11: `Verif.Index.C11_integer`, `Verif.Index.C11_count`, `Verif.Index.C11_bool`, `Verif.Index.C11_time_partial`, `Verif.Index.C11_real_partial`
* C110: `Verif.Config.C110_read_order_partial`, `Verif.Config.C110_value_partial`, `Verif.Config.C110_cli_partial`, `Verif.Config.C110_files_used`, `Verif.Config.C110_bare`, `Verif.Config.C110_plugins_partial`, `Verif.Config.C110_plugin_dirs_partial`, `Verif.Config.C110_user_refuted`, `Verif.Config.C110_plugins_refuted`, `Verif.Config.C110_dotted_refuted`
* C111: `Verif.Plugins.C111_only`, `Verif.Plugins.C111_named`, `Verif.Plugins.C111_all_partial`, `Verif.Plugins.C111_once`, `Verif.Plugins.C111_registry`, `Verif.Plugins.C111_sorted_partial`, `Verif.Plugins.C111_all_refuted`, `Verif.Plugins.C111_static_refuted`
* C112: `Verif.Pivot.C112_shared_partial`, `Verif.Pivot.C112_sound`, `Verif.Pivot.C112_once`, `Verif.Pivot.C112_text_partial`, `Verif.Pivot.C112_two_fields_refuted`, `Verif.Pivot.C112_column_refuted`, `Verif.Pivot.C112_record_refuted`, `Verif.Pivot.C112_lost_refuted`
* C113: `Verif.Pivot.C113_not_early`, `Verif.Pivot.C113_ends_partial`, `Verif.Pivot.C113_failed_refuted`
* C114: `Verif.Registry.C114_accepts`, `Verif.Registry.C114_atomic`, `Verif.Registry.C114_fields`, `Verif.Registry.C114_concepts_sound`, `Verif.Registry.C114_concepts_partial`, `Verif.Registry.C114_models`, `Verif.Registry.C114_concepts_refuted`, `Verif.Registry.C114_order_refuted`
* C115: `Verif.Registry.C115_layouts_partial`, `Verif.Registry.C115_concept_partial`, `Verif.Registry.C115_crash_refuted`
* C116: `Verif.NodeStart.C116_one_partial`, `Verif.NodeStart.C116_refused_partial`, `Verif.NodeStart.C116_start_partial`, `Verif.NodeStart.C116_stale_refuted`, `Verif.NodeStart.C116_race_refuted`, `Verif.NodeStart.C116_empty_refuted`, `Verif.NodeStart.C116_reused_refuted`
* C117: `Verif.NodeStart.C117_same_partial`, `Verif.NodeStart.C117_kept`, `Verif.NodeStart.C117_new_partial`, `Verif.NodeStart.C117_reasons`, `Verif.NodeStart.C117_newline_refuted`, `Verif.NodeStart.C117_crash_refuted`
* C118: `Verif.Node.C118_distinct`, `Verif.Node.C118_registered_partial`, `Verif.Node.C118_label_refuted`, `Verif.Node.C118_race_refuted`, `Verif.Node.C118_singleton_partial`, `Verif.Node.C118_second_refuted`, `Verif.Node.C118_given_refuted`, `Verif.Node.C118_put_refuted`, `Verif.Node.C118_lookup_partial`, `Verif.Node.C118_lookup_refuted`, `Verif.Node.C118_exit_refuted`
* C119: `Verif.Node.C119_alive`, `Verif.Node.C119_kept`, `Verif.Node.C119_fault_partial`, `Verif.Node.C119_kill_refuted`, `Verif.Node.C119_twice_refuted`, `Verif.Node.C119_core`, `Verif.Node.C119_only`, `Verif.Node.C119_core_refuted`
* C12: `Verif.Index.C12_integer`, `Verif.Index.C12_double_partial`
* C120: `Verif.TransformConfig.C120_config`, `Verif.TransformConfig.C120_triggers_partial`, `Verif.TransformConfig.C120_steps_partial`, `Verif.TransformConfig.C120_misspelt_refuted`, `Verif.TransformConfig.C120_unused_refuted`
* C121: `Verif.TransformConfig.C121_import_partial`, `Verif.TransformConfig.C121_export_partial`, `Verif.TransformConfig.C121_node_partial`, `Verif.TransformConfig.C121_twice_refuted`
* C122: `Verif.Blocking.C122_indexed_partial`, `Verif.Blocking.C122_partition_refuted`, `Verif.Blocking.C122_store_refuted`
* C123: `Verif.Blocking.C123_ends`
* C124: `Verif.SynopsisStore.C124_extract_refuted`, `Verif.SynopsisStore.C124_reload_partial`, `Verif.SynopsisStore.C124_candidates_partial`, `Verif.SynopsisStore.C124_rate_refuted`, `Verif.SynopsisStore.C124_name_refuted`
* C125: `Verif.SynopsisStore.C125_written_partial`, `Verif.SynopsisStore.C125_rate_refuted`, `Verif.SynopsisStore.C125_alias_refuted`
* C126: `Verif.SynopsisStore.C126_active_partial`, `Verif.SynopsisStore.C126_found_partial`
* C127: `Verif.Syslog.C127_offset_partial`, `Verif.Syslog.C127_rfc_partial`, `Verif.Syslog.C127_fraction_partial`, `Verif.Syslog.C127_nil_data_refuted`, `Verif.Syslog.C127_no_parameters_refuted`, `Verif.Syslog.C127_control_refuted`, `Verif.Syslog.C127_mark_refuted`, `Verif.Syslog.C127_fraction_refuted`
* C128: `Verif.Syslog.C128_line_partial`, `Verif.Syslog.C128_data_refuted`
* C129: `Verif.Uuid.C129_read`, `Verif.Uuid.C129_round`, `Verif.Uuid.C129_distinct`, `Verif.Uuid.C129_digits_refuted`, `Verif.Uuid.C129_braces_refuted`
* C13: `Verif.Index.StringIndex.C13_string_partial`, `Verif.Index.StringIndex.C13_equal_complete`
* C130: `Verif.Uuid.C130_random`
* C131: `Verif.Uuid.C131_candidates_partial`, `Verif.Uuid.C131_stray_refuted`
* C132: `Verif.Accountant.C132_rows`, `Verif.Accountant.C132_prompt_partial`, `Verif.Accountant.C132_exit`, `Verif.Accountant.C132_exit_refuted`, `Verif.Accountant.C132_shrink_refuted`
* C133: `Verif.Accountant.C133_file_partial`, `Verif.Accountant.C133_stream_partial`, `Verif.Accountant.C133_datagram_partial`, `Verif.Accountant.C133_path_refuted`, `Verif.Accountant.C133_disable_refuted`
* C134: `Verif.Accountant.C134_options_partial`, `Verif.Accountant.C134_defaults`, `Verif.Accountant.C134_real_time_refuted`, `Verif.Accountant.C134_invalid_refuted`
* C135: `Verif.Client.C135_read_partial`, `Verif.Client.C135_only`, `Verif.Client.C135_number_refuted`
* C136: `Verif.Client.C136_same`, `Verif.Client.C136_reach_partial`, `Verif.Client.C136_default`, `Verif.Client.C136_protocol_refuted`
* C137: `Verif.Client.C137_query`, `Verif.Client.C137_pivot_partial`, `Verif.Client.C137_pivot_refuted`, `Verif.Client.C137_undefined_refuted`
* C138: `Verif.Client.C138_get_partial`, `Verif.Client.C138_invalid`, `Verif.Client.C138_large_refuted`
* C14: `Verif.Index.C14_address_partial`, `Verif.Index.C14_subnet_partial`
* C140: `Verif.Infer.C140_import_partial`, `Verif.Infer.C140_own_partial`, `Verif.Infer.C140_lines_refuted`, `Verif.Infer.C140_lost_refuted`
* C141: `Verif.Infer.C141_text_partial`, `Verif.Infer.C141_unread_refuted`
* C142: `Verif.Infer.C142_types_partial`, `Verif.Infer.C142_word_refuted`
* C143: `Verif.Broker.C143_row_partial`, `Verif.Broker.C143_only_partial`, `Verif.Broker.C143_truncated`, `Verif.Broker.C143_negative_size_refuted`, `Verif.Broker.C143_subnet_refuted`, `Verif.Broker.C143_time_refuted`
* C144: `Verif.Broker.C144_layout_partial`, `Verif.Broker.C144_rejected`, `Verif.Broker.C144_values`, `Verif.Broker.C144_func_refuted`
* C145: `Verif.Broker.C145_rows_partial`, `Verif.Broker.C145_slices`, `Verif.Broker.C145_error_refuted`, `Verif.Broker.C145_events_refuted`, `Verif.Broker.C145_columns_refuted`
* C146: `Verif.Chunk.C146_read`, `Verif.Chunk.C146_order`, `Verif.Chunk.C146_not_early`, `Verif.Chunk.C146_complete`, `Verif.Chunk.C146_deletion`, `Verif.Chunk.C146_enabled`, `Verif.Chunk.C146_ends`
* C148: `Verif.Chunk.C148_whole`
* C149: `Verif.Chunk.C149_counts`, `Verif.Chunk.C149_bytes_partial`, `Verif.Chunk.C149_bytes_refuted`
* C15: `Verif.Index.ListIndex.C15_list_partial`, `Verif.Index.ListIndex.C15_list_of_addresses_partial`
* C150: `Verif.TestGen.C150_exact`, `Verif.TestGen.C150_slices`, `Verif.TestGen.C150_turns`, `Verif.TestGen.C150_names`, `Verif.TestGen.C150_names_refuted`, `Verif.TestGen.C150_again_refuted`
* C151: `Verif.TestGen.C151_columns_partial`, `Verif.TestGen.C151_subnet_refuted`, `Verif.TestGen.C151_list_refuted`
* C152: `Verif.TestGen.C152_exact`, `Verif.TestGen.C152_null`, `Verif.TestGen.C152_digits_refuted`, `Verif.TestGen.C152_read`, `Verif.TestGen.C152_refused`, `Verif.TestGen.C152_bounds_refuted`, `Verif.TestGen.C152_hidden_refuted`, `Verif.TestGen.C152_builtin_refuted`
* C153: `Verif.Options.C153_reads`, `Verif.Options.C153_sound`, `Verif.Options.C153_fits_partial`, `Verif.Options.C153_overflow_refuted`
* C154: `Verif.Options.C154_started`, `Verif.Options.C154_refuted`, `Verif.Options.C154_valid`
* C155: `Verif.Options.C155_refuted`
* C156: `Verif.Options.C156_protocol_refuted`
* C158: `Verif.VectorMap.C158_find`, `Verif.VectorMap.C158_reports`, `Verif.VectorMap.C158_order`
* C16: `Verif.Index.HashIndex.C16_equal_partial`, `Verif.Index.HashIndex.C16_in_partial`, `Verif.Index.HashIndex.C16_append`, `Verif.Index.HashIndex.C16_reload`
* C160: `Verif.VectorMap.C160_equal_partial`, `Verif.VectorMap.C160_equal_refuted`
* C161: `Verif.Output.C161_prefix`, `Verif.Output.C161_flush`, `Verif.Output.C161_all`, `Verif.Output.C161_reported_refuted`, `Verif.Output.C161_interrupted_refuted`
* C162: `Verif.Output.C162_sound`, `Verif.Output.C162_command_refuted`
* C163: `Verif.Signals.C163_genuine`, `Verif.Signals.C163_once`, `Verif.Signals.C163_delivered_partial`
* C164: `Verif.Crc.C164_standard`, `Verif.Crc.C164_pieces`, `Verif.Crc.C164_burst`, `Verif.Crc.C164_byte`
* C165: `Verif.Project.C165_find_partial`, `Verif.Project.C165_invalid`
* C166: `Verif.Arith.C166_narrow`
* C167: `Verif.Arith.C167_ilog`
* C168: `Verif.Select.C168_layout_partial`, `Verif.Select.C168_single_partial`, `Verif.Select.C168_dotted_refuted`, `Verif.Select.C168_trailing_refuted`, `Verif.Select.C168_stale_refuted`
* C169: `Verif.Select.C169_once`, `Verif.Select.C169_reported`, `Verif.Select.C169_genuine`, `Verif.Select.C169_repeated_refuted`
* C17: `Verif.Index.C17_nil`, `Verif.Index.C17_not_nil_partial`, `Verif.Index.C17_value`, `Verif.Index.C17_list`
* C170: `Verif.Dir.C170_listing`, `Verif.Dir.C170_limit`, `Verif.Dir.C170_order`, `Verif.Dir.C170_unreadable_refuted`, `Verif.Dir.C170_directory_refuted`
* C171: `Verif.Uri.C171_only`, `Verif.Uri.C171_key_refuted`, `Verif.Uri.C171_roundtrip_partial`, `Verif.Uri.C171_host_refuted`, `Verif.Uri.C171_fragment_refuted`, `Verif.Uri.C171_path_refuted`, `Verif.Uri.C171_empty_refuted`, `Verif.Uri.C171_unreadable_refuted`, `Verif.Uri.C171_port_refuted`
* C172: `Verif.SynopsisStore.C172_honoured`, `Verif.SynopsisStore.C172_otherwise`, `Verif.SynopsisStore.C172_wrap_refuted`
* C173: `Verif.SynopsisStore.C173_skipped_partial`, `Verif.SynopsisStore.C173_kept`, `Verif.SynopsisStore.C173_string_refuted`
* C174: `Verif.Http.C174_only`, `Verif.Http.C174_read_partial`, `Verif.Http.C174_header`, `Verif.Http.C174_rejected_refuted`
* C175: `Verif.Http.C175_message_partial`, `Verif.Http.C175_headers_refuted`, `Verif.Http.C175_split_refuted`
* C176: `Verif.Arena.C176_blocks_partial`, `Verif.Arena.C176_returned`, `Verif.Arena.C176_reused`, `Verif.Arena.C176_reset`
* C179: `Verif.ZeekFiles.C179_files_partial`, `Verif.ZeekFiles.C179_layouts_refuted`, `Verif.ZeekFiles.C179_open_refuted`, `Verif.ZeekFiles.C179_glued_refuted`
* C18: `Verif.Synopsis.C18_no_false_negative_partial`, `Verif.Synopsis.C18_range_exact`
* C180: `Verif.Combinator.C180_result_partial`
* C181: `Verif.Combinator.C181_ends_partial`
* C184: `Verif.Grammar.C184_query`, `Verif.Grammar.C184_sigma`, `Verif.Grammar.C184_data`, `Verif.Grammar.C184_type_refuted`
* C185: `Verif.Printer.C185_succeeds`, `Verif.Printer.C185_text_partial`, `Verif.Printer.C185_list_partial`
* C189: `Verif.Digest.C189_enough_partial`
* C190: `Verif.Digest.C190_ispow2`, `Verif.Digest.C190_ceil2`, `Verif.Digest.C190_log2p1`
* C192: `Verif.Notify.C192_recognized`
* C193: `Verif.Logging.C193_console_partial`, `Verif.Logging.C193_file_partial`, `Verif.Logging.C193_trace_refuted`, `Verif.Logging.C193_starts`, `Verif.Logging.C193_client`
* C20: `Verif.Synopsis.C20_position`, `Verif.Synopsis.C20_synopsis_partial`, `Verif.Synopsis.C20_buffered_exact`, `Verif.Synopsis.C20_shrink_capacity`, `Verif.Synopsis.C20_pattern_refuted`
* C21: `Verif.MetaIndex.C21_candidates_partial`, `Verif.MetaIndex.C21_lookup_partial`, `Verif.MetaIndex.C21_candidates_known`, `Verif.MetaIndex.C21_terminates`, `Verif.MetaIndex.C21_pruner_refuted`, `Verif.MetaIndex.C21_field_negation_refuted`, `Verif.MetaIndex.C21_glob_refuted`, `Verif.MetaIndex.C21_nil_refuted`, `Verif.MetaIndex.C21_nan_refuted`
* C22: `Verif.Expr.C22_normalize_partial`, `Verif.Expr.C22_negation_free_partial`, `Verif.Expr.C22_misaligned_match_refuted`, `Verif.Expr.C22_several_fields_refuted`
* C23: `Verif.Expr.C23_normal_form`, `Verif.Expr.C23_idempotent_refuted`
* C24: `Verif.Data.C24_flip_match_refuted`
* C25: `Verif.Expr.C25_tailor`, `Verif.Expr.C25_no_loss_partial`, `Verif.Expr.C25_exact_partial`, `Verif.Expr.C25_disjunction_refuted`, `Verif.Expr.C25_preserve_ids_refuted`, `Verif.Expr.C25_unresolved_refuted`, `Verif.Expr.C25_match_refuted`
* C26: `Verif.Taxonomy.C26_resolve_concepts_partial`
* C27: `Verif.Slice.C27_select`, `Verif.Slice.C27_select_ascending`
* C28: `Verif.Slice.C28_truncate`, `Verif.Slice.C28_split`
* C29: `Verif.RangeMap.C29_steps_partial`, `Verif.RangeMap.C29_intervals_partial`, `Verif.RangeMap.C29_find_partial`
* C30: `Verif.Archive.C30_history_partial`, `Verif.Archive.C30_swapped_refuted`, `Verif.Archive.C30_session_partial`
* C31: `Verif.Archive.C31_reopen_partial`
* C32: `Verif.Cache.C32_lru_cache_partial`, `Verif.Cache.C32_lru_bounded_partial`, `Verif.Cache.C32_lru_recency_partial`, `Verif.Cache.C32_lru_hit_partial`, `Verif.Cache.C32_cache_partial`, `Verif.Cache.C32_cache_bounded_partial`, `Verif.Cache.C32_flat_partial`
* C33: `Verif.Save.C33_atomic_partial`
* C34: `Verif.Importer.C34_unique_ids_partial`, `Verif.Importer.C34_start_succeeds_partial`
* C35: `Verif.Scheduler.C35_at_most_once`, `Verif.Scheduler.C35_exactly_once_partial`, `Verif.Scheduler.C35_answered`
* C36: `Verif.Ingest.C36_no_loss`, `Verif.Ingest.C36_capacity_partial`, `Verif.Ingest.C36_capacity_nonempty_partial`, `Verif.Ingest.C36_full`, `Verif.Ingest.C36_exit`, `Verif.Ingest.C36_statistics`
* C37: `Verif.Evaluator.C37_order_independent_partial`, `Verif.Evaluator.C37_not_before`, `Verif.Evaluator.C37_negation_refuted`
* C38: `Verif.Exporter.C38_order`, `Verif.Exporter.C38_eager`, `Verif.Exporter.C38_at_most_requested`, `Verif.Exporter.C38_exact_partial`
* C39: `Verif.Exporter.C39_exporter_partial`, `Verif.Exporter.C39_processor`, `Verif.Exporter.C39_processor_progress`
* C40: `Verif.Supervisor.C40_done_once`, `Verif.Supervisor.C40_idle_between`, `Verif.Supervisor.C40_done_count`
* C41: `Verif.ArchiveActor.C41_order_partial`
* C42: `Verif.DiskMonitor.C42_oldest_first`, `Verif.DiskMonitor.C42_checked`, `Verif.DiskMonitor.C42_stops_partial`
* C43: `Verif.LocalStore.C43_active_partial`, `Verif.LocalStore.C43_persisted`, `Verif.LocalStore.C43_passive`, `Verif.LocalStore.C43_deferred`, `Verif.LocalStore.C43_handover`
* C44: `Verif.Varbyte.C44_varbyte_roundtrip`, `Verif.Varbyte.C44_varbyte_size`, `Verif.Varbyte.C44_varbyte_bounded`, `Verif.Varbyte.C44_varbyte_prefix_free`
* C47: `Verif.Msgpack.C47_scalar_partial`, `Verif.Msgpack.C47_round_trip_partial`, `Verif.Msgpack.C47_sequence_partial`
* C48: `Verif.Address.C48_contains_address`, `Verif.Address.C48_contains_subnet`, `Verif.Address.C48_extensional`, `Verif.Address.C48_length_network`, `Verif.Address.C48_idempotent`
* C49: `Verif.Types.C49_flat_index_at`, `Verif.Types.C49_each_partial`, `Verif.Types.C49_inverse_partial`
* C50: `Verif.SetOps.C50_intersect`, `Verif.SetOps.C50_inplace_intersect`, `Verif.SetOps.C50_unify`, `Verif.SetOps.C50_inplace_unify`
* C51: `Verif.Record.C51_flatten_partial`, `Verif.Record.C51_flatten_first_partial`, `Verif.Record.C51_flatten_typed_partial`, `Verif.Record.C51_flatten_data_partial`, `Verif.Record.C51_merge_only_partial`, `Verif.Record.C51_make_record_partial`
* C53: `Verif.Schema.C53_merge_fails`, `Verif.Schema.C53_merge`
* C55: `Verif.Bitmap.C55_wah_equality_partial`, `Verif.Bitmap.C55_null_equality_partial`
* C56: `Verif.Index.C56_enumeration`
* C57: `Verif.Slice.C57_filter`, `Verif.Slice.C57_count`, `Verif.Slice.C57_evaluate`
* C59: `Verif.Escape.C59_percent`, `Verif.Escape.C59_byte`
* C61: `Verif.Escape.C61_replace_all_partial`
* C62: `Verif.Types.C62_resolve_key_partial`
* C63: `Verif.Types.C63_remove_offset`, `Verif.Types.C63_remove_path_partial`
* C65: `Verif.Transform.C65_delete_partial`, `Verif.Transform.C65_delete_record_refuted`, `Verif.Transform.C65_replace_partial`, `Verif.Transform.C65_hash_partial`
* C66: `Verif.Taxonomy.C66_model_named_partial`, `Verif.Taxonomy.C66_model_unnamed_partial`, `Verif.Taxonomy.C66_pruning_partial`
* C67: `Verif.Recovery.C67_kept`, `Verif.Recovery.C67_crash_partial`, `Verif.Recovery.C67_on_disk_partial`, `Verif.Recovery.C67_erased_partial`, `Verif.Recovery.C67_erased_unknown_partial`, `Verif.Recovery.C67_counts_partial`
* C68: `Verif.MsgpackSlice.C68_read_partial`, `Verif.MsgpackSlice.C68_rejected`
* C69: `Verif.DataText.C69_print_parse_partial`, `Verif.DataText.C69_injective_partial`, `Verif.DataText.C69_backslash_refuted`, `Verif.DataText.C69_backslash_quote_refuted`, `Verif.DataText.C69_backslash_list_refuted`, `Verif.DataText.C69_newline_refuted`, `Verif.DataText.C69_same_text_refuted`, `Verif.DataText.C69_slash_refuted`, `Verif.DataText.C69_escaped_slash_refuted`, `Verif.DataText.C69_days_refuted`, `Verif.DataText.C69_unnamed_refuted`, `Verif.DataText.C69_name_refuted`, `Verif.DataText.C69_enum_refuted`
* C70: `Verif.DataText.C70_count_partial`, `Verif.DataText.C70_integer_partial`, `Verif.DataText.C70_long_rejected`, `Verif.DataText.C70_subnet_partial`, `Verif.DataText.C70_wrap_refuted`, `Verif.DataText.C70_suffix_refuted`, `Verif.DataText.C70_prefix_refuted`, `Verif.DataText.C70_all_refuted`, `Verif.DataText.C70_negative_part_refuted`, `Verif.DataText.C70_fraction_refuted`, `Verif.DataText.C70_long_signed_rejected`, `Verif.DataText.C70_zeros_refuted`
* C71: `Verif.Reader.C71_lines_partial`, `Verif.Reader.C71_prefix_partial`, `Verif.Reader.C71_file`, `Verif.Reader.C71_lf`
* C72: `Verif.Reader.C72_json_complete_partial`, `Verif.Reader.C72_syslog_complete_partial`, `Verif.Reader.C72_json_always_partial`, `Verif.Reader.C72_syslog_always_partial`, `Verif.Reader.C72_json_flush_partial`, `Verif.Reader.C72_syslog_flush_partial`, `Verif.Reader.C72_returns_partial`, `Verif.Reader.C72_json_limit_partial`
* C73: `Verif.Reader.C73_always_partial`, `Verif.Reader.C73_complete_partial`, `Verif.Reader.C73_limit_partial`, `Verif.Reader.C73_overshoot_partial`, `Verif.Reader.C73_no_abort_partial`
* C74: `Verif.Reader.C74_datagrams_partial`
* C75: `Verif.Reader.Csv.C75_rows_partial`
* C76: `Verif.Sha1.C76_sha1`, `Verif.Sha1.C76_chunks`
* C77: `Verif.CommunityId.C77_spec`, `Verif.CommunityId.C77_spec_hex`, `Verif.CommunityId.C77_opposite`, `Verif.CommunityId.C77_distinct_partial`, `Verif.CommunityId.C77_family_refuted`
* C78: `Verif.Pcap.C78_fields_partial`
* C79: `Verif.Pcap.C79_cutoff_partial`
* C80: `Verif.QueryText.C80_roundtrip_partial`, `Verif.QueryText.C80_double_negation_refuted`, `Verif.QueryText.C80_empty_refuted`, `Verif.QueryText.C80_leading_blank_refuted`
* C81: `Verif.Sigma.C81_startswith_refuted`, `Verif.Sigma.C81_contains_wildcard_refuted`, `Verif.Sigma.C81_escape_refuted`, `Verif.Sigma.C81_escaped_wildcard_refuted`, `Verif.Sigma.C81_case_refuted`
* C82: `Verif.Sigma.C82_only`, `Verif.Sigma.C82_condition_partial`, `Verif.Sigma.C82_rule_partial`, `Verif.Sigma.C82_pattern`, `Verif.Sigma.C82_not_refuted`, `Verif.Sigma.C82_wildcard_refuted`, `Verif.Sigma.C82_paren_refuted`, `Verif.Sigma.C82_anchor_refuted`, `Verif.Sigma.C82_unknown_refuted`
* C83: `Verif.Calendar.C83_calendar`, `Verif.Calendar.C83_from_days`, `Verif.Calendar.C83_to_days`, `Verif.Calendar.C83_printed`, `Verif.Calendar.C83_read_date`
* C84: `Verif.Calendar.C84_read_zone`, `Verif.Calendar.C84_whole_seconds_partial`, `Verif.Calendar.C84_nearby_partial`, `Verif.Calendar.C84_subsecond_refuted`, `Verif.Calendar.C84_before_1900_refuted`, `Verif.Calendar.C84_roll_over_refuted`, `Verif.Calendar.C84_unix_partial`
* C85: `Verif.Number.C85_text_partial`, `Verif.Number.C85_whole_text`, `Verif.Number.C85_whole_reads_partial`, `Verif.Number.C85_carry_refuted`, `Verif.Number.C85_large_refuted`, `Verif.Number.C85_lossy_refuted`
* C86: `Verif.Number.C86_text_partial`, `Verif.Number.C86_unit`, `Verif.Number.C86_whole`, `Verif.Number.C86_carry_refuted`, `Verif.Number.C86_read_refuted`, `Verif.Number.C86_lossy_refuted`, `Verif.Number.C86_least_refuted`
* C87: `Verif.Json.C87_line`, `Verif.Json.C87_slice`, `Verif.Json.C87_json_partial`, `Verif.Json.C87_flat_partial`, `Verif.Json.C87_real_refuted`, `Verif.Json.C87_key_refuted`, `Verif.Json.C87_utf8_refuted`, `Verif.Json.C87_enum_refuted`, `Verif.Json.C87_duration_refuted`
* C88: `Verif.Json.C88_too_large`, `Verif.Json.C88_numbers_partial`, `Verif.Json.C88_word_refuted`, `Verif.Json.C88_row_partial`, `Verif.Json.C88_other`, `Verif.Json.C88_count_refuted`, `Verif.Json.C88_big_refuted`, `Verif.Json.C88_alias_refuted`, `Verif.Json.C88_record_refuted`, `Verif.Json.C88_shadow_refuted`
* C89: `Verif.Json.C89_roundtrip_partial`, `Verif.Json.C89_pattern_refuted`, `Verif.Json.C89_enum_refuted`, `Verif.Json.C89_real_refuted`, `Verif.Json.C89_big_refuted`, `Verif.Json.C89_alias_refuted`
* C90: `Verif.Json.C90_single`, `Verif.Json.C90_select`, `Verif.Json.C90_nested_refuted`, `Verif.Json.C90_export_refuted`, `Verif.Json.C90_missing_refuted`
* C91: `Verif.Explorer.C91_once_partial`, `Verif.Explorer.C91_limit`, `Verif.Explorer.C91_complete`
* C92: `Verif.Explorer.C92_context_partial`, `Verif.Explorer.C92_self_refuted`, `Verif.Explorer.C92_two_stamps_refuted`, `Verif.Explorer.C92_old_refuted`, `Verif.Explorer.C92_each_partial`, `Verif.Explorer.C92_column_refuted`
* C93: `Verif.Explorer.C93_not_early`
* C94: `Verif.Sink.C94_written`, `Verif.Sink.C94_limit`
* C95: `Verif.Zeek.C95_names`, `Verif.Zeek.C95_export_partial`, `Verif.Zeek.C95_enum_refuted`, `Verif.Zeek.C95_unknown_partial`, `Verif.Zeek.C95_junk_refuted`
* C96: `Verif.Zeek.C96_slices`, `Verif.Zeek.C96_logs_partial`, `Verif.Zeek.C96_error`, `Verif.Zeek.C96_header_error`, `Verif.Zeek.C96_backslash_refuted`, `Verif.Zeek.C96_pattern_refuted`, `Verif.Zeek.C96_pattern_abort_refuted`, `Verif.Zeek.C96_element_refuted`, `Verif.Zeek.C96_empty_refuted`, `Verif.Zeek.C96_number_refuted`, `Verif.Zeek.C96_time_refuted`
* C97: `Verif.Zeek.C97_rows_partial`, `Verif.Zeek.C97_header_partial`, `Verif.Zeek.C97_header_refuted`, `Verif.Zeek.C97_open_refuted`, `Verif.Zeek.C97_string_refuted`, `Verif.Zeek.C97_empty_refuted`, `Verif.Zeek.C97_hash_refuted`, `Verif.Zeek.C97_element_refuted`, `Verif.Zeek.C97_carry_refuted`, `Verif.Zeek.C97_nothing_refuted`, `Verif.Zeek.C97_pattern_refuted`
* C98: `Verif.SchemaText.C98_directories`, `Verif.SchemaText.C98_meaning`, `Verif.SchemaText.C98_order`, `Verif.SchemaText.C98_terminates`, `Verif.SchemaText.C98_errors_partial`
* C99: `Verif.SchemaText.C99_only`, `Verif.SchemaText.C99_symbols`, `Verif.SchemaText.C99_duplicate`, `Verif.SchemaText.C99_schema`, `Verif.SchemaText.C99_ends`, `Verif.SchemaText.C99_overflow_refuted`
