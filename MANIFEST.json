{
 "claims": [
  {
   "property": "C01",
   "status": "partial",
   "theorems": [
    "Verif.Bitmap.C01_ewah_faithful",
    "Verif.Bitmap.C01_ewah_runs_wellformed",
    "Verif.Bitmap.C01_counter_partial",
    "Verif.Bitmap.C01_flip_refuted"
   ],
   "note": "C01_ewah_faithful, C01_ewah_runs_wellformed: EWAH, all histories, with an unbounded counter in the loop of flip. C01_counter_partial: the same with the counter of 32 bits that the code has, for histories of up to 2^36 bits. C01_flip_refuted: for bitmaps with more than 2^32 blocks, which appends lead to, flip never ends."
  },
  {
   "property": "C02",
   "status": "proved",
   "theorems": [
    "Verif.Bitmap.C02_ewah_equality"
   ],
   "note": "Proved; also for bitmaps produced by the algebra (C03_equality). Histories with flip: see C01 on bitmaps with more than 2^32 blocks."
  },
  {
   "property": "C03",
   "status": "proved",
   "theorems": [
    "Verif.Bitmap.C03_algebra",
    "Verif.Bitmap.C03_equality",
    "Verif.Bitmap.C03_nary_and",
    "Verif.Bitmap.C03_nary_or",
    "Verif.Bitmap.C03_nary_xor",
    "Verif.Bitmap.C03_binary_nor"
   ],
   "note": "Proved for arbitrary nestings of the operations and for the n-ary versions under every priority-queue order."
  },
  {
   "property": "C04",
   "status": "partial",
   "theorems": [
    "Verif.Bitmap.C04_index",
    "Verif.Bitmap.C04_rank",
    "Verif.Bitmap.C04_select",
    "Verif.Bitmap.C04_frame",
    "Verif.Bitmap.C04_any",
    "Verif.Bitmap.C04_all_partial",
    "Verif.Bitmap.C04_all_refuted",
    "Verif.Bitmap.C04_is_subset_partial",
    "Verif.Bitmap.C04_is_subset_refuted",
    "Verif.Bitmap.C04_select_last_partial",
    "Verif.Bitmap.C04_select_last_refuted",
    "Verif.Bitmap.C04_select_range",
    "Verif.Bitmap.C04_each",
    "Verif.Bitmap.C04_select_many"
   ],
   "note": "rank, select, frame, any, operator[], iteration and jumping iteration proved for both bit values; all<> refuted for the empty bitmap, is_subset refuted for two empty bitmaps, select<false>(bm, npos) refuted."
  },
  {
   "property": "C05",
   "status": "proved",
   "theorems": [
    "Verif.Bitmap.C05_wah_faithful"
   ],
   "note": ""
  },
  {
   "property": "C06",
   "status": "partial",
   "theorems": [
    "Verif.Bitmap.C06_null_partial",
    "Verif.Bitmap.C06_null_exact_partial",
    "Verif.Bitmap.C06_null_refuted"
   ],
   "note": "Iteration over a null_bitmap is wrong when the last complete word is homogeneous and the bits after it differ (scan tests a single bit with mask(partial)); proved exact otherwise, and exact for all complete words."
  },
  {
   "property": "C07",
   "status": "proved",
   "theorems": [
    "Verif.Bitmap.C07_make_ids"
   ],
   "note": "Proved for all non-empty ranges, with min_size padding."
  },
  {
   "property": "C08",
   "status": "proved",
   "theorems": [
    "Verif.Bitmap.C08_select_with",
    "Verif.Bitmap.C08_visits_exactly"
   ],
   "note": "Proved, including early termination when the callback fails."
  },
  {
   "property": "C09",
   "status": "proved",
   "theorems": [
    "Verif.Index.C09_decompose_compose",
    "Verif.Index.C09_compose_decompose",
    "Verif.Index.C09_default_base"
   ],
   "note": "Proved for every well-defined base of any length."
  },
  {
   "property": "C10",
   "status": "partial",
   "theorems": [
    "Verif.Index.C10_equality_partial",
    "Verif.Index.C10_range_partial",
    "Verif.Index.C10_bitslice_partial",
    "Verif.Index.C10_singleton_partial",
    "Verif.Index.C10_multilevel_range_partial",
    "Verif.Index.C10_multilevel_equality_partial",
    "Verif.Index.C10_range_rows",
    "Verif.Index.C10_skipped_refuted",
    "Verif.Index.C10_range_operand_refuted",
    "Verif.Index.C10_base_overflow_refuted"
   ],
   "note": "Proved for equality, range, bitslice, singleton and multi-level coders over every history of encode, skip and append. Skipped rows are proved to read as the value 0 for range coders (refuted as 'never match'); operands outside the coder's domain are refuted separately."
  },
  {
   "property": "C11",
   "status": "partial",
   "theorems": [
    "Verif.Index.C11_integer",
    "Verif.Index.C11_count",
    "Verif.Index.C11_bool",
    "Verif.Index.C11_time_partial",
    "Verif.Index.C11_time_sign_refuted",
    "Verif.Index.C11_time_notEqual_refuted",
    "Verif.Index.C11_real_partial",
    "Verif.Index.C11_real_notEqual_refuted",
    "Verif.Index.C11_nan_refuted",
    "Verif.Index.C11_small_base_refuted"
   ],
   "note": "Integers, counts and booleans proved exact for every base that covers the domain; times, durations and reals proved lossless except for != (refuted), negative times (refuted: unsigned division in the binner), NaN (refuted) and bases too small for the domain (refuted)."
  },
  {
   "property": "C12",
   "status": "partial",
   "theorems": [
    "Verif.Index.C12_integer",
    "Verif.Index.C12_double_partial",
    "Verif.Index.C12_subnormal_refuted"
   ],
   "note": "Integers proved. Doubles proved up to subnormals of equal exponent, which share a key (refuted)."
  },
  {
   "property": "C13",
   "status": "partial",
   "theorems": [
    "Verif.Index.StringIndex.C13_string_partial",
    "Verif.Index.StringIndex.C13_equal_complete",
    "Verif.Index.StringIndex.C13_ff_refuted",
    "Verif.Index.StringIndex.C13_max_size_refuted",
    "Verif.Index.StringIndex.C13_long_refuted"
   ],
   "note": "Proved for maximal lengths not divisible by ten, strings and operands within the maximum and operands without byte 0xff; each excluded case is refuted. == never loses a row for any strings."
  },
  {
   "property": "C14",
   "status": "partial",
   "theorems": [
    "Verif.Index.C14_address_partial",
    "Verif.Index.C14_zero_prefix_refuted",
    "Verif.Index.C14_subnet_partial",
    "Verif.Index.C14_subnet_zero_refuted",
    "Verif.Index.C14_subnet_family_refuted"
   ],
   "note": "Addresses proved for ==, != and in/not_in of networks with a non-zero prefix; x/0 is refuted (error). Subnets proved row by row where the operand and the row are of one family and no /0 is involved; the excluded cases are refuted."
  },
  {
   "property": "C15",
   "status": "partial",
   "theorems": [
    "Verif.Index.ListIndex.C15_list_partial",
    "Verif.Index.ListIndex.C15_list_of_addresses_partial",
    "Verif.Index.ListIndex.C15_not_ni_refuted",
    "Verif.Index.ListIndex.C15_long_refuted"
   ],
   "note": "Proved for every element index with an exact ==, lists within the maximal size; not_ni loses trailing empty lists and over-long lists lose elements (refuted)."
  },
  {
   "property": "C16",
   "status": "partial",
   "theorems": [
    "Verif.Index.HashIndex.C16_equal_partial",
    "Verif.Index.HashIndex.C16_in_partial",
    "Verif.Index.HashIndex.C16_append",
    "Verif.Index.HashIndex.C16_reload",
    "Verif.Index.HashIndex.C16_unseen_refuted",
    "Verif.Index.HashIndex.C16_exhausted_refuted"
   ],
   "note": "Proved for every hash function and every history of appends (rows = appends that succeeded), including reloading from disk; operands that do not occur may collide and appends fail after 32 collisions (both refuted with witnesses, both characterised by theorems)."
  },
  {
   "property": "C17",
   "status": "partial",
   "theorems": [
    "Verif.Index.C17_nil",
    "Verif.Index.C17_not_nil_partial",
    "Verif.Index.C17_value",
    "Verif.Index.C17_list",
    "Verif.Index.C17_gap_refuted",
    "Verif.Index.C17_evaluate_refuted"
   ],
   "note": "== null and comparisons with values and lists proved for every concrete index; != null returns gap rows (refuted); the answer differs from evaluating the row for nulls with <, not_in and in [null] (refuted)."
  },
  {
   "property": "C18",
   "status": "partial",
   "theorems": [
    "Verif.Synopsis.C18_no_false_negative_partial",
    "Verif.Synopsis.C18_range_exact",
    "Verif.Synopsis.C18_not_equal_refuted",
    "Verif.Synopsis.C18_not_in_refuted"
   ],
   "note": "Proved for every operator except != and !in, which are refuted; order comparisons proved exact."
  },
  {
   "property": "C19",
   "status": "proved",
   "theorems": [
    "Verif.Synopsis.C19_no_false_negative",
    "Verif.Synopsis.C19_exact"
   ],
   "note": "Proved for all operators and operands; exact for == and != with booleans."
  },
  {
   "property": "C20",
   "status": "partial",
   "theorems": [
    "Verif.Synopsis.C20_no_false_negatives",
    "Verif.Synopsis.C20_position",
    "Verif.Synopsis.C20_defined",
    "Verif.Synopsis.C20_add_result",
    "Verif.Synopsis.C20_synopsis_partial",
    "Verif.Synopsis.C20_buffered_exact",
    "Verif.Synopsis.C20_shrink",
    "Verif.Synopsis.C20_shrink_capacity",
    "Verif.Synopsis.C20_pattern_refuted",
    "Verif.Synopsis.C20_buffered_null_refuted"
   ],
   "note": "Bloom filter: no false negatives, well-definedness, positions inside the filter and the result of add proved for every hasher, size and policy. Synopsis proved except for ==/pattern (refuted); buffered synopsis with a nil literal refuted (undefined behaviour). Floating-point filter sizing is not modelled."
  },
  {
   "property": "C21",
   "status": "partial",
   "theorems": [
    "Verif.MetaIndex.C21_candidates_partial",
    "Verif.MetaIndex.C21_lookup_partial",
    "Verif.MetaIndex.C21_candidates_known",
    "Verif.MetaIndex.C21_terminates",
    "Verif.MetaIndex.C21_pruner_refuted",
    "Verif.MetaIndex.C21_field_negation_refuted",
    "Verif.MetaIndex.C21_glob_refuted",
    "Verif.MetaIndex.C21_nil_refuted",
    "Verif.MetaIndex.C21_nan_refuted"
   ],
   "note": "Proved end to end (pruning, lookup, partition synopses built slice by slice, concrete synopses) under hypotheses that exclude five refuted cases: repeated strings in disjunctions, negated #field, glob extractors, comparisons satisfied by nil, NaN literals (non-termination)."
  },
  {
   "property": "C22",
   "status": "partial",
   "theorems": [
    "Verif.Expr.C22_normalize_partial",
    "Verif.Expr.C22_negation_free_partial",
    "Verif.Expr.C22_nil_refuted",
    "Verif.Expr.C22_misaligned_match_refuted",
    "Verif.Expr.C22_several_fields_refuted"
   ],
   "note": "Proved when no nil node occurs, ~ predicates are aligned and every extractor stands for one value; refuted in each of these three cases."
  },
  {
   "property": "C23",
   "status": "partial",
   "theorems": [
    "Verif.Expr.C23_normal_form",
    "Verif.Expr.C23_fixpoint_partial",
    "Verif.Expr.C23_idempotent_refuted"
   ],
   "note": "Normal form proved; idempotence proved for flat expressions and refuted for deep nesting (one pass flattens one level)."
  },
  {
   "property": "C24",
   "status": "partial",
   "theorems": [
    "Verif.Data.C24_negate",
    "Verif.Data.C24_negate_view",
    "Verif.Data.C24_negate_involution",
    "Verif.Data.C24_flip_involution",
    "Verif.Data.C24_flip_partial",
    "Verif.Data.C24_flip_view",
    "Verif.Data.C24_flip_match_refuted"
   ],
   "note": "Negation and involutions proved for all data, for owned data and views; flip proved except for ~ and !~, where it is refuted."
  },
  {
   "property": "C25",
   "status": "partial",
   "theorems": [
    "Verif.Expr.C25_tailor",
    "Verif.Expr.C25_prune",
    "Verif.Expr.C25_count",
    "Verif.Expr.C25_no_loss_partial",
    "Verif.Expr.C25_exact_partial",
    "Verif.Expr.C25_disjunction_refuted",
    "Verif.Expr.C25_preserve_ids_refuted",
    "Verif.Expr.C25_unresolved_refuted",
    "Verif.Expr.C25_match_refuted"
   ],
   "note": "Tailoring, pruning and counting proved exact. No loss and exactness of the store's check proved when metadata predicates are conjuncts; refuted for disjunctions with metadata, preserve_ids with metadata only, unresolved fields and patterns."
  },
  {
   "property": "C26",
   "status": "partial",
   "theorems": [
    "Verif.Taxonomy.C26_resolve_concepts_partial",
    "Verif.Taxonomy.C26_resolve_concepts_sound",
    "Verif.Taxonomy.C26_resolve_concepts_refuted",
    "Verif.Taxonomy.C26_target_fields_partial",
    "Verif.Taxonomy.C26_target_fields_refuted",
    "Verif.Taxonomy.C26_model_leaves_partial",
    "Verif.Taxonomy.C26_model_recursive_refuted",
    "Verif.Taxonomy.C26_model_empty_refuted"
   ],
   "note": "resolve_concepts exact for every graph with fewer than 100 concepts, sound always; longer chains lose fields (refuted). In predicates, exact when nested references add nothing to the log, otherwise undefined behavior (refuted). Model leaves for non-recursive, non-empty models; recursive models loop, empty ones read past the end (refuted)."
  },
  {
   "property": "C27",
   "status": "proved",
   "theorems": [
    "Verif.Slice.C27_select",
    "Verif.Slice.C27_select_ascending"
   ],
   "note": "Proved for all slices with at least one row and all ID sets. select on a slice without rows is not covered (make_ids of an empty range is undefined)."
  },
  {
   "property": "C28",
   "status": "proved",
   "theorems": [
    "Verif.Slice.C28_truncate",
    "Verif.Slice.C28_split"
   ],
   "note": "Proved for slices with and without IDs. truncate to zero rows violates the function's assertion."
  },
  {
   "property": "C29",
   "status": "partial",
   "theorems": [
    "Verif.RangeMap.C29_steps_partial",
    "Verif.RangeMap.C29_intervals_partial",
    "Verif.RangeMap.C29_find_partial",
    "Verif.RangeMap.C29_erase_range_refuted"
   ],
   "note": "Proved for every history of insert, inject, erase(point), erase_value and those erase(l, r) calls in which no interval shares exactly one endpoint with [l, r) while reaching beyond it; refuted for the other erase(l, r) calls, which leave empty intervals that still answer lookups. Only unit tests call erase(l, r)."
  },
  {
   "property": "C30",
   "status": "partial",
   "theorems": [
    "Verif.Archive.C30_history_partial",
    "Verif.Archive.C30_interleaved_refuted",
    "Verif.Archive.C30_swapped_refuted",
    "Verif.Archive.C30_failed_write_refuted",
    "Verif.Archive.C30_no_capacity_refuted",
    "Verif.Archive.C30_session_partial",
    "Verif.Archive.C30_session_erase_refuted"
   ],
   "note": "Refinement to a list of events, for all histories of put/flush/erase/get/release, all segment boundaries and all positive cache capacities, and for sessions with interleaved calls, if slices come with ascending IDs and writes succeed. Refuted for interleaved ID ranges (events returned twice), unordered slices in a builder, failed writes, cache capacity zero, and erase during a session."
  },
  {
   "property": "C31",
   "status": "partial",
   "theorems": [
    "Verif.Archive.C31_reopen_partial",
    "Verif.Archive.C31_overlap_refuted",
    "Verif.Archive.C31_resurrected_refuted"
   ],
   "note": "Restart proved for every history and every order of the files if no erased file awaits deletion. Refuted when a crash hits between an erasure and the deletion of its file: overlapping IDs (store cannot be opened) or resurrected events."
  },
  {
   "property": "C32",
   "status": "partial",
   "theorems": [
    "Verif.Cache.C32_lru_cache_partial",
    "Verif.Cache.C32_lru_bounded_partial",
    "Verif.Cache.C32_lru_recency_partial",
    "Verif.Cache.C32_lru_hit_partial",
    "Verif.Cache.C32_lru_capacity_zero_refuted",
    "Verif.Cache.C32_lru_moved_key_refuted",
    "Verif.Cache.C32_cache_partial",
    "Verif.Cache.C32_cache_bounded_partial",
    "Verif.Cache.C32_cache_evict",
    "Verif.Cache.C32_flat_partial",
    "Verif.Cache.C32_flat_size_zero_refuted"
   ],
   "note": "Refinement of a recency list for all histories, all positive capacities and both policies. lru_cache and flat_lru_cache refuted for capacity zero; lru_cache refuted for key types that moving changes (put uses a moved-from key). cache::operator[] is not modelled (ill-typed for present keys)."
  },
  {
   "property": "C33",
   "status": "partial",
   "theorems": [
    "Verif.Save.C33_atomic_partial",
    "Verif.Save.C33_stale_tmp_refuted"
   ],
   "note": "Proved for every content, every split into write calls and every crash point if a temporary file left by an earlier crash is not longer than the new content. Refuted otherwise: the temporary is opened without truncation, so that the target ends with the tail of the old temporary. File-system model: operations take effect in order (no reordering by the page cache; the code calls no fsync)."
  },
  {
   "property": "C34",
   "status": "partial",
   "theorems": [
    "Verif.Importer.C34_unique_ids_partial",
    "Verif.Importer.C34_start_succeeds_partial",
    "Verif.Importer.C34_rows_assigned",
    "Verif.Importer.C34_torn_write_refuted",
    "Verif.Importer.C34_lost_write_refuted"
   ],
   "note": "Proved for all histories in which state-file writes take effect. Refuted for torn and for failed writes of the state file."
  },
  {
   "property": "C35",
   "status": "partial",
   "theorems": [
    "Verif.Scheduler.C35_at_most_once",
    "Verif.Scheduler.C35_at_most_n",
    "Verif.Scheduler.C35_forgotten",
    "Verif.Scheduler.C35_exactly_once_partial",
    "Verif.Scheduler.C35_answered",
    "Verif.Scheduler.C35_workers",
    "Verif.Scheduler.C35_taste_zero_refuted"
   ],
   "note": "Index and meta index with messages in every delivery order. At most once, at most n, and forgetting hold unconditionally. Partial: exactly once is proved for queries that are not dropped by a request for zero partitions and for partitions that are not erased; with taste_partitions = 0 the index drops its own query and the client is not told (C35_taste_zero_refuted)."
  },
  {
   "property": "C36",
   "status": "partial",
   "theorems": [
    "Verif.Ingest.C36_no_loss",
    "Verif.Ingest.C36_capacity_partial",
    "Verif.Ingest.C36_capacity_nonempty_partial",
    "Verif.Ingest.C36_full",
    "Verif.Ingest.C36_exit",
    "Verif.Ingest.C36_statistics",
    "Verif.Ingest.C36_empty_slice_refuted",
    "Verif.Ingest.C36_full_stays_active_refuted"
   ],
   "note": "Stream stage, decommissioning, exit and statistics. No loss and order, fullness and statistics hold for all streams. Partial: the capacity bound in its literal form needs streams without empty slices (C36_empty_slice_refuted), and a full partition is decommissioned only when the next slice with rows arrives or on exit (C36_full_stays_active_refuted). Failure to create a store is not modelled."
  },
  {
   "property": "C37",
   "status": "partial",
   "theorems": [
    "Verif.Evaluator.C37_order_independent_partial",
    "Verif.Evaluator.C37_not_before",
    "Verif.Evaluator.C37_negation_refuted",
    "Verif.Evaluator.C37_positions"
   ],
   "note": "The evaluator actor and the resolution of predicates to positions are modelled. Proved for every order of replies, including errors, of normalized expressions (without negation): exactly one result, exactly at the last reply, with exactly the IDs that satisfy the expression. Partial: with a negation the result depends on the order (C37_negation_refuted)."
  },
  {
   "property": "C38",
   "status": "partial",
   "theorems": [
    "Verif.Exporter.C38_order",
    "Verif.Exporter.C38_eager",
    "Verif.Exporter.C38_at_most_requested",
    "Verif.Exporter.C38_exact_partial",
    "Verif.Exporter.C38_large_extract_refuted",
    "Verif.Exporter.C38_wraps_refuted",
    "Verif.Exporter.C38_shutdown_loses_refuted"
   ],
   "note": "Exporter handlers with 64-bit arithmetic of the requested number. Order, no duplication, no loss while running, eagerness and the upper bound hold for all schedules. Partial: exactly the requested number is shipped for totals below 2^63 without extract-all; extract of a huge number asks for fewer (C38_large_extract_refuted), extract after extract-all wraps (C38_wraps_refuted), and shutdown discards events the client has not asked for yet (C38_shutdown_loses_refuted). Transformations of shipped slices are not modelled."
  },
  {
   "property": "C39",
   "status": "partial",
   "theorems": [
    "Verif.Exporter.C39_exporter_partial",
    "Verif.Exporter.C39_overlap_refuted",
    "Verif.Exporter.C39_overlap_default_refuted",
    "Verif.Exporter.C39_processor",
    "Verif.Exporter.C39_processor_progress",
    "Verif.Exporter.C39_taste_zero_refuted"
   ],
   "note": "Exporter and query processor composed with an abstraction of the index for one query (what C35 and C40 prove about it; not derived in Lean from those models; partitions that fail to load are left out). Query processor: proved for a positive taste, with progress; with taste 0 it never finishes (C39_taste_zero_refuted). Exporter partial: for clients that extract before the response or while nothing is under way; otherwise it stops early (C39_overlap_refuted, C39_overlap_default_refuted)."
  },
  {
   "property": "C40",
   "status": "proved",
   "theorems": [
    "Verif.Supervisor.C40_done_once",
    "Verif.Supervisor.C40_idle_between",
    "Verif.Supervisor.C40_done_count",
    "Verif.Supervisor.C40_protocol_needed"
   ],
   "note": "The supervisor actor is modelled message by message. Proved for all sequences of batches and all orders of results and errors, under the hypothesis that the master sends a batch only to a supervisor that has offered itself; without it a client is not told (C40_protocol_needed). That the index keeps to this is C35_workers, a theorem about the index model; the two models are not composed in Lean."
  },
  {
   "property": "C41",
   "status": "partial",
   "theorems": [
    "Verif.ArchiveActor.C41_at_most_once",
    "Verif.ArchiveActor.C41_assertions",
    "Verif.ArchiveActor.C41_all_answered",
    "Verif.ArchiveActor.C41_terminates",
    "Verif.ArchiveActor.C41_order_partial",
    "Verif.ArchiveActor.C41_order_refuted",
    "Verif.ArchiveActor.C41_cancelled_order_refuted",
    "Verif.ArchiveActor.C41_untailored_done_refuted"
   ],
   "note": "Request queue of the archive actor, with lookups that yield arbitrary finite lists of slices and errors. At most once, exactly once when quiescent, the assertions, and termination hold for every interleaving. Assumption about CAF, which is not in the repository: delivering a promise again has no effect. Partial, on order: proved within a query that is not cancelled; false between queries (C41_order_refuted), after a client went down (C41_cancelled_order_refuted), and later requests of an untailored query are answered with done (C41_untailored_done_refuted). The results sent to sinks are not modelled."
  },
  {
   "property": "C42",
   "status": "partial",
   "theorems": [
    "Verif.DiskMonitor.C42_starts_above_high",
    "Verif.DiskMonitor.C42_oldest_first",
    "Verif.DiskMonitor.C42_checked",
    "Verif.DiskMonitor.C42_stops_partial",
    "Verif.DiskMonitor.C42_step_refuted",
    "Verif.DiskMonitor.C42_parallel_refuted"
   ],
   "note": "Disk monitor with the directory, the index and all messages under way. Starting only above the high-water mark, oldest first, and that every step is preceded by a check hold for all histories. Partial, on stopping: proved for a step size of one without a second purge starting meanwhile; false for larger steps (C42_step_refuted) and because the purging flag is reset after the first step (C42_parallel_refuted). Files that cannot be examined and the scan binary are not modelled."
  },
  {
   "property": "C43",
   "status": "partial",
   "theorems": [
    "Verif.LocalStore.C43_active_partial",
    "Verif.LocalStore.C43_persisted",
    "Verif.LocalStore.C43_passive",
    "Verif.LocalStore.C43_deferred",
    "Verif.LocalStore.C43_handover",
    "Verif.LocalStore.C43_after_stream_refuted",
    "Verif.LocalStore.C43_tailor_refuted",
    "Verif.LocalStore.C43_meta_refuted",
    "Verif.LocalStore.C43_erased_answers_refuted",
    "Verif.LocalStore.C43_erase_lost_refuted"
   ],
   "note": "Active and passive stores with handle_lookup, segment::erase, and all interleavings with messages to itself and file system responses. Active stores answer exactly until the stream ends (C43_active_partial), what is written at its end is exactly the contents (C43_persisted), passive stores answer from all events of the file at any time after loading (C43_passive, C43_handover) and answer earlier queries then (C43_deferred). Partial: an active store returns nothing after the stream ended (C43_after_stream_refuted), one untailorable layout yields an error (C43_tailor_refuted), metadata-only queries preserving IDs return nothing (C43_meta_refuted). Erasing from passive stores does not work (C43_erased_answers_refuted, C43_erase_lost_refuted). Slices are assumed non-empty, of one layout, with ascending IDs; a row check stands for the tailored expression; CAF's treatment of invalid handles and promises is an assumption."
  },
  {
   "property": "C44",
   "status": "proved",
   "theorems": [
    "Verif.Varbyte.C44_varbyte_roundtrip",
    "Verif.Varbyte.C44_varbyte_size",
    "Verif.Varbyte.C44_varbyte_bounded",
    "Verif.Varbyte.C44_varbyte_prefix_free"
   ],
   "note": ""
  },
  {
   "property": "C45",
   "status": "proved",
   "theorems": [
    "Verif.Base64.C45_round_trip",
    "Verif.Base64.C45_length",
    "Verif.Base64.C45_alphabet"
   ],
   "note": "Round trip, encoded length and alphabet, for all byte strings."
  },
  {
   "property": "C46",
   "status": "partial",
   "theorems": [
    "Verif.Escape.C46_json",
    "Verif.Escape.C46_percent",
    "Verif.Escape.C46_byte_all",
    "Verif.Escape.C46_byte_partial",
    "Verif.Escape.C46_byte_refuted",
    "Verif.Escape.C46_byte_extra_refuted",
    "Verif.Escape.C46_double_partial",
    "Verif.Escape.C46_double_refuted",
    "Verif.Escape.C46_unescape_safe",
    "Verif.Escape.C46_json_safe_partial",
    "Verif.Escape.C46_json_unsafe_refuted"
   ],
   "note": "Round trip proved for JSON, percent and byte_escape_all for all strings; safety of byte, percent and double unescaping for all inputs. byte_escape refuted for strings with a backslash, double_escape for strings with other characters, json_unescape reads outside its input for a string that ends in a truncated unicode escape."
  },
  {
   "property": "C47",
   "status": "partial",
   "theorems": [
    "Verif.Msgpack.C47_scalar_partial",
    "Verif.Msgpack.C47_round_trip_partial",
    "Verif.Msgpack.C47_sequence_partial",
    "Verif.Msgpack.C47_short_binary_refuted",
    "Verif.Msgpack.C47_short_binary_element_refuted",
    "Verif.Msgpack.C47_time_2038_refuted",
    "Verif.Msgpack.C47_time_negative_refuted",
    "Verif.Msgpack.C47_map_refuted"
   ],
   "note": "put, visit and overlay::next, at any nesting depth. Refuted: skipping binary data below 256 bytes, whole-second time stamps in 2038-2106, fractional times before 1970, validated maps of 8-15 entries."
  },
  {
   "property": "C48",
   "status": "proved",
   "theorems": [
    "Verif.Address.C48_contains_address",
    "Verif.Address.C48_contains_subnet",
    "Verif.Address.C48_extensional",
    "Verif.Address.C48_length_network",
    "Verif.Address.C48_idempotent",
    "Verif.Address.C48_invalid_length"
   ],
   "note": "Proved for all addresses, lengths and pairs of subnets. With assertions enabled, contains on a v6 /0 subnet aborts (compare asserts k > 0); the model follows release builds."
  },
  {
   "property": "C49",
   "status": "partial",
   "theorems": [
    "Verif.Types.C49_flatten_leaves",
    "Verif.Types.C49_flat",
    "Verif.Types.C49_idempotent",
    "Verif.Types.C49_flat_size",
    "Verif.Types.C49_flat_index_at",
    "Verif.Types.C49_each_partial",
    "Verif.Types.C49_offset_from_index_partial",
    "Verif.Types.C49_inverse_partial",
    "Verif.Types.C49_empty_record_refuted",
    "Verif.Types.C49_num_leaves_partial",
    "Verif.Types.C49_num_leaves_refuted"
   ],
   "note": "flatten, flat_size, flat_index_at for all record types; each, offset_from_index and the inverse for types without empty nested records (with them: undefined behavior, refuted). num_leaves disagrees with flatten on aliases of records (refuted)."
  },
  {
   "property": "C50",
   "status": "proved",
   "theorems": [
    "Verif.SetOps.C50_intersect",
    "Verif.SetOps.C50_inplace_intersect",
    "Verif.SetOps.C50_unify",
    "Verif.SetOps.C50_inplace_unify",
    "Verif.SetOps.C50_sorted_set_ext"
   ],
   "note": ""
  },
  {
   "property": "C51",
   "status": "partial",
   "theorems": [
    "Verif.Record.C51_flatten_partial",
    "Verif.Record.C51_flatten_first_partial",
    "Verif.Record.C51_flatten_refuted",
    "Verif.Record.C51_flatten_typed_partial",
    "Verif.Record.C51_flatten_data_partial",
    "Verif.Record.C51_merge_src_partial",
    "Verif.Record.C51_merge_dst_partial",
    "Verif.Record.C51_merge_only_partial",
    "Verif.Record.C51_merge_refuted",
    "Verif.Record.C51_make_record_partial",
    "Verif.Record.C51_make_record_fails",
    "Verif.Record.C51_make_record_refuted"
   ],
   "note": "Holds for records with fewer than 100 nested records in total; refuted beyond, because the recursion budget is also spent on siblings. make_record included."
  },
  {
   "property": "C52",
   "status": "partial",
   "theorems": [
    "Verif.Transform.C52_other_types",
    "Verif.Transform.C52_rows",
    "Verif.Transform.C52_offset_partial",
    "Verif.Transform.C52_offset_refuted",
    "Verif.Transform.C52_composition_partial",
    "Verif.Transform.C52_twice_refuted"
   ],
   "note": "Rows and unmatched types unconditional; IDs and composition except for transforms without steps (which lose the offset, refuted) and repeated event types (applied twice, refuted)."
  },
  {
   "property": "C53",
   "status": "proved",
   "theorems": [
    "Verif.Schema.C53_valid",
    "Verif.Schema.C53_find",
    "Verif.Schema.C53_add",
    "Verif.Schema.C53_merge_fails",
    "Verif.Schema.C53_merge",
    "Verif.Schema.C53_combine"
   ],
   "note": "For every schema reachable by add, merge and combine."
  },
  {
   "property": "C54",
   "status": "partial",
   "theorems": [
    "Verif.Data.C54_view_agrees_partial",
    "Verif.Data.C54_view_match_refuted",
    "Verif.Data.C54_view_pattern_equality_refuted",
    "Verif.Data.C54_view_container_order_refuted"
   ],
   "note": "Proved outside three families of comparisons (patterns with ~, pattern equality, ordering of containers); each is refuted."
  },
  {
   "property": "C55",
   "status": "partial",
   "theorems": [
    "Verif.Bitmap.C55_wah_equality_partial",
    "Verif.Bitmap.C55_wah_equality_refuted",
    "Verif.Bitmap.C55_null_equality_partial",
    "Verif.Bitmap.C55_null_equality_refuted"
   ],
   "note": "WAH: equal implies same bits; the converse is refuted (126 ones in one or two calls). Null: same bits imply equal; the converse is refuted when the size is a multiple of 64 (lsb_mask(0) hides the last block)."
  },
  {
   "property": "C56",
   "status": "proved",
   "theorems": [
    "Verif.Index.C56_enumeration"
   ],
   "note": "Proved for all histories and operands."
  },
  {
   "property": "C57",
   "status": "proved",
   "theorems": [
    "Verif.Slice.C57_filter",
    "Verif.Slice.C57_count",
    "Verif.Slice.C57_evaluate"
   ],
   "note": "Proved. A filtered slice has no IDs unless all rows are kept; empty hints mean no restriction; count_matching requires valid IDs."
  },
  {
   "property": "C58",
   "status": "partial",
   "theorems": [
    "Verif.Base64.C58_decode_safe_partial",
    "Verif.Base64.C58_decode_unpadded_refuted"
   ],
   "note": "Safe for all padded inputs (length a multiple of four). Refuted for others: decode writes past the buffer."
  },
  {
   "property": "C59",
   "status": "proved",
   "theorems": [
    "Verif.Escape.C59_json",
    "Verif.Escape.C59_percent",
    "Verif.Escape.C59_byte"
   ],
   "note": "JSON grammar, URI characters and printable characters, for all byte strings."
  },
  {
   "property": "C60",
   "status": "partial",
   "theorems": [
    "Verif.Escape.C60_split_include",
    "Verif.Escape.C60_split_join",
    "Verif.Escape.C60_split_max",
    "Verif.Escape.C60_split_parts",
    "Verif.Escape.C60_escape_partial",
    "Verif.Escape.C60_escape_refuted"
   ],
   "note": "All five parts for all strings; the escape part refuted for an escape string at the very start of the string."
  },
  {
   "property": "C61",
   "status": "partial",
   "theorems": [
    "Verif.Escape.C61_replace_all_partial",
    "Verif.Escape.C61_replace_empty_refuted"
   ],
   "note": "Proved for every non-empty search string; refuted (endless loop) for the empty one."
  },
  {
   "property": "C62",
   "status": "partial",
   "theorems": [
    "Verif.Types.C62_at_offset",
    "Verif.Types.C62_resolve_offset",
    "Verif.Types.C62_resolve_key_partial",
    "Verif.Types.C62_resolve_key_prefix_refuted",
    "Verif.Types.C62_resolve_key_ub_refuted",
    "Verif.Types.C62_resolve_key_sound_partial",
    "Verif.Types.C62_separator_refuted",
    "Verif.Types.C62_find_suffix",
    "Verif.Types.C62_at_key",
    "Verif.Types.C62_flat_field_at_partial",
    "Verif.Types.C62_flat_field_at_refuted"
   ],
   "note": "at(offset), resolve(offset), find_suffix and at(key) for all record types. resolve(key) is proved for names of which none is a prefix of a sibling's; for others it misses fields or reads past the key (refuted), and it accepts any byte for the dot (refuted). flat_field_at is proved up to a trailing dot."
  },
  {
   "property": "C63",
   "status": "partial",
   "theorems": [
    "Verif.Types.C63_remove_offset",
    "Verif.Types.C63_remove_path_partial",
    "Verif.Types.C63_remove_path_refuted"
   ],
   "note": "By offset for all record types; by path for types where no sibling on the path is named like the next component (refuted otherwise)."
  },
  {
   "property": "C64",
   "status": "partial",
   "theorems": [
    "Verif.Types.C64_merge_leaves",
    "Verif.Types.C64_merge_fails",
    "Verif.Types.C64_prefer_right",
    "Verif.Types.C64_prefer_left",
    "Verif.Types.C64_unique",
    "Verif.Types.C64_attributes",
    "Verif.Types.C64_assign_refuted"
   ],
   "note": "merge: leaves for all record types, failure for unique sibling names; priority_merge for both policies; assign has no effect (refuted)."
  },
  {
   "property": "C65",
   "status": "partial",
   "theorems": [
    "Verif.Transform.C65_delete_partial",
    "Verif.Transform.C65_delete_missing",
    "Verif.Transform.C65_delete_record_refuted",
    "Verif.Transform.C65_replace_partial",
    "Verif.Transform.C65_replace_type_refuted",
    "Verif.Transform.C65_hash_partial"
   ],
   "note": "For leaf fields in layouts whose sibling names are no prefixes of each other. Deleting a record field is undefined behavior, and replace keeps the old type in the layout (refuted)."
  },
  {
   "property": "C66",
   "status": "partial",
   "theorems": [
    "Verif.Taxonomy.C66_concept_partial",
    "Verif.Taxonomy.C66_negation_refuted",
    "Verif.Taxonomy.C66_model_named_partial",
    "Verif.Taxonomy.C66_model_unnamed_partial",
    "Verif.Taxonomy.C66_model_length",
    "Verif.Taxonomy.C66_model_field_refuted",
    "Verif.Taxonomy.C66_expression",
    "Verif.Taxonomy.C66_negated_error_refuted",
    "Verif.Taxonomy.C66_pruning_sound",
    "Verif.Taxonomy.C66_pruning_partial",
    "Verif.Taxonomy.C66_pruning_refuted"
   ],
   "note": "Concepts and named/unnamed models for leaves that are concepts with fields; negated operators on concepts are disjunctions (refuted), non-concept leaves keep the whole predicate (refuted), errors below negation are unchecked (refuted), pruning with nested layout names (refuted)."
  },
  {
   "property": "C67",
   "status": "partial",
   "theorems": [
    "Verif.Recovery.C67_kept",
    "Verif.Recovery.C67_crash_partial",
    "Verif.Recovery.C67_on_disk_partial",
    "Verif.Recovery.C67_erased_partial",
    "Verif.Recovery.C67_erased_unknown_partial",
    "Verif.Recovery.C67_counts_partial",
    "Verif.Recovery.C67_active_refuted",
    "Verif.Recovery.C67_orphan_refuted",
    "Verif.Recovery.C67_failed_save_refuted",
    "Verif.Recovery.C67_counts_refuted",
    "Verif.Recovery.C67_unconfirmed_refuted",
    "Verif.Recovery.C67_twice_refuted",
    "Verif.Recovery.C67_unlink_refuted"
   ],
   "note": "The full property is false (C67_*_refuted): a crash loses the events of the partition being filled (they remain in the archive), a partition written but not yet in index.bin, or whose index.bin write failed, is never found again, counts are wrong after a crash, erasing an unconfirmed partition leaves the index knowing a missing file, two erase requests for one partition dereference a null chunk, and a failed removal is acknowledged. Proved for all histories with crashes and failures: C67_kept; with the stated hypotheses: C67_crash_partial (no failed index.bin write), C67_on_disk_partial (only confirmed partitions erased), C67_erased_partial, C67_erased_unknown_partial (no failed removal), C67_counts_partial (no crash or failure; any number of clean restarts). Assumes atomic writes (C33), FIFO delivery from the index to the file system actor, fresh uuids; synopsis files left out."
  },
  {
   "property": "C68",
   "status": "partial",
   "theorems": [
    "Verif.MsgpackSlice.C68_read_partial",
    "Verif.MsgpackSlice.C68_accepted",
    "Verif.MsgpackSlice.C68_rejected",
    "Verif.MsgpackSlice.C68_mixed_list_refuted",
    "Verif.MsgpackSlice.C68_lost_element_refuted",
    "Verif.MsgpackSlice.C68_mixed_map_refuted",
    "Verif.MsgpackSlice.C68_null_type_refuted",
    "Verif.MsgpackSlice.C68_record_list_refuted",
    "Verif.MsgpackSlice.C68_record_shift_refuted",
    "Verif.MsgpackSlice.C68_map_refuted"
   ],
   "note": "C68_read_partial covers all rows whose values are of the column types in all their parts (nulls allowed), with numbers in range, strings and lists shorter than 2^32, maps shorter than 2^31 and, with assertions, no maps of 8-15 or 32768-65535 entries. C68_accepted shows that for types without parts these are all accepted values. The code accepts more than it can return: type_check looks only at the first element of lists and maps, treats a record as a list and lets everything pass for the null type; the refutations give a concrete accepted value that is lost, shifts its neighbours or ends the process. The layout is the list of the types of its leaves (C49/C62 relate it to records); reals are their eight bytes; the FlatBuffers table is not modelled; without assertions VAST_ASSERT is a no-op."
  },
  {
   "property": "C69",
   "status": "partial",
   "theorems": [
    "Verif.DataText.C69_print_parse_partial",
    "Verif.DataText.C69_injective_partial",
    "Verif.DataText.C69_smallest_refuted",
    "Verif.DataText.C69_backslash_refuted",
    "Verif.DataText.C69_backslash_quote_refuted",
    "Verif.DataText.C69_backslash_list_refuted",
    "Verif.DataText.C69_newline_refuted",
    "Verif.DataText.C69_same_text_refuted",
    "Verif.DataText.C69_slash_refuted",
    "Verif.DataText.C69_escaped_slash_refuted",
    "Verif.DataText.C69_days_refuted",
    "Verif.DataText.C69_unnamed_refuted",
    "Verif.DataText.C69_name_refuted",
    "Verif.DataText.C69_enum_refuted"
   ],
   "note": "Proved, for every floating-point semantics and clock, for nulls, Booleans, integers above the smallest, counts, strings of printable ASCII with an even number of backslashes before quotes and at the end, patterns without slashes, control characters and an odd number of backslashes at the end, IPv4 addresses, IPv6 addresses that do not begin with decimal digits and a d, subnets of such addresses, and all lists, maps and records (with distinct identifiers as names) of these, to every depth. Floating-point numbers, durations and times are in C84, C85 and C86, where they do not all come back. False (refuted) for the smallest integer, backslashes, control and non-ASCII characters, slashes in patterns, addresses like 5d::1, records without field names, other field names, and enumerations. inet_ntop and inet_pton of the C library are modelled after glibc."
  },
  {
   "property": "C70",
   "status": "partial",
   "theorems": [
    "Verif.DataText.C70_count_partial",
    "Verif.DataText.C70_integer_partial",
    "Verif.DataText.C70_long_rejected",
    "Verif.DataText.C70_subnet_partial",
    "Verif.DataText.C70_wrap_refuted",
    "Verif.DataText.C70_suffix_refuted",
    "Verif.DataText.C70_prefix_refuted",
    "Verif.DataText.C70_all_refuted",
    "Verif.DataText.C70_negative_part_refuted",
    "Verif.DataText.C70_fraction_refuted",
    "Verif.DataText.C70_long_signed_rejected",
    "Verif.DataText.C70_zeros_refuted"
   ],
   "note": "Proved for counts of up to 20 digits and signed integers of up to 19 digits with every suffix if the product is in range, for rejection of unsigned numbers of more than 20 digits, and for subnets with a prefix in range. C70_long_signed_rejected: signed numbers of more than 19 digits are rejected, even if they begin with zeros (C70_zeros_refuted). What durations denote is in C86. False (refuted) for counts that wrap, suffixes that wrap, prefixes that wrap or are too long for IPv4, durations with a negative component or more than 20 digits."
  },
  {
   "property": "C71",
   "status": "partial",
   "theorems": [
    "Verif.Reader.C71_lines_partial",
    "Verif.Reader.C71_prefix_partial",
    "Verif.Reader.C71_file",
    "Verif.Reader.C71_lf",
    "Verif.Reader.C71_glued_refuted"
   ],
   "note": "C71_lines_partial and C71_prefix_partial hold for every input in which no stall falls right behind a carriage return that ends a line by itself (CrOk); C71_file (no stalls) and C71_lf (no carriage returns) are instances without that hypothesis. C71_glued_refuted: with such a stall the line is not delivered and the next one is glued to it."
  },
  {
   "property": "C72",
   "status": "partial",
   "theorems": [
    "Verif.Reader.C72_json_complete_partial",
    "Verif.Reader.C72_syslog_complete_partial",
    "Verif.Reader.C72_json_always_partial",
    "Verif.Reader.C72_syslog_always_partial",
    "Verif.Reader.C72_json_flush_partial",
    "Verif.Reader.C72_syslog_flush_partial",
    "Verif.Reader.C72_returns_partial",
    "Verif.Reader.C72_json_limit_partial",
    "Verif.Reader.C72_limit_refuted",
    "Verif.Reader.C72_glued_refuted"
   ],
   "note": "Model of the loop of the JSON and syslog readers with multi_layout_reader; the parser of a line is a parameter (event, invalid or fatal). Hypotheses: CrOk as in C71, positive slice size. The limit holds on top of the events that earlier calls had buffered (C72_json_limit_partial); C72_limit_refuted shows that otherwise a call delivers more than asked for; C72_glued_refuted is the effect of C71's gap."
  },
  {
   "property": "C73",
   "status": "partial",
   "theorems": [
    "Verif.Reader.C73_always_partial",
    "Verif.Reader.C73_complete_partial",
    "Verif.Reader.C73_limit_partial",
    "Verif.Reader.C73_overshoot_partial",
    "Verif.Reader.C73_no_abort_partial",
    "Verif.Reader.C73_limit_refuted",
    "Verif.Reader.C73_exit_refuted",
    "Verif.Reader.C73_zero_refuted"
   ],
   "note": "Model of the source actor with the JSON reader. The import filter is a predicate on rows (vast::filter itself is modelled in component Slice). C73_limit_partial needs an input that never stalls; C73_overshoot_partial bounds the excess otherwise and C73_limit_refuted exhibits it. C73_complete_partial excludes exit messages: C73_exit_refuted shows buffered events being dropped. C73_zero_refuted: a limit of 0 fails an assertion. Simplification: capacity requests of the stream are arbitrary numbers chosen by the schedule."
  },
  {
   "property": "C74",
   "status": "partial",
   "theorems": [
    "Verif.Reader.C74_datagrams_partial",
    "Verif.Reader.C74_idle_refuted",
    "Verif.Reader.C74_capacity_refuted"
   ],
   "note": "Model of the datagram handler with the JSON reader. C74_datagrams_partial: datagrams that find no capacity are counted and dropped, all others are forwarded; capacity, if any, large enough for the datagram and a clock that does not expire meanwhile. C74_idle_refuted: after a pause longer than the batch timeout all events of a datagram but the first are lost. C74_capacity_refuted: a datagram with more events than capacity times slice size is cut off."
  },
  {
   "property": "C75",
   "status": "partial",
   "theorems": [
    "Verif.Reader.Csv.C75_rows_partial",
    "Verif.Reader.Csv.C75_short_line_refuted",
    "Verif.Reader.Csv.C75_abort_refuted",
    "Verif.Reader.Csv.C75_long_line_refuted",
    "Verif.Reader.Csv.C75_size_refuted"
   ],
   "note": "Model of read_impl of the CSV reader behind the header, with the row counting of the default (Arrow) builder; column parsers are parameters. C75_rows_partial: every line is accepted, or refused before any of its cells was stored, and CrOk as in C71. C75_short_line_refuted, C75_abort_refuted, C75_long_line_refuted and C75_size_refuted: otherwise later rows shift, the builder's assertion fails, a refused line is delivered as an event, and slices exceed the requested size."
  },
  {
   "property": "C76",
   "status": "proved",
   "theorems": [
    "Verif.Sha1.C76_sha1",
    "Verif.Sha1.C76_chunks"
   ],
   "note": "Model of the incremental hasher with its block buffer; the specification is FIPS 180-4 on byte lists, written separately. No bound on the length: beyond 2^61 bytes, where FIPS 180-4 is silent, the length field of model and specification is the length modulo 2^64 bits."
  },
  {
   "property": "C77",
   "status": "partial",
   "theorems": [
    "Verif.CommunityId.C77_spec",
    "Verif.CommunityId.C77_spec_hex",
    "Verif.CommunityId.C77_opposite",
    "Verif.CommunityId.C77_dual",
    "Verif.CommunityId.C77_distinct_partial",
    "Verif.CommunityId.C77_family_refuted"
   ],
   "note": "C77_spec(_hex): the ID is the encoded SHA-1 of the message the specification prescribes, for all flows. C77_distinct_partial: both addresses of each flow are of the same family and the flows are not ICMP; then equal IDs mean the same or the reverse flow, or two different messages with equal SHA-1. C77_family_refuted: with mixed families two different connections have the same ID by construction."
  },
  {
   "property": "C78",
   "status": "partial",
   "theorems": [
    "Verif.Pcap.C78_fields_partial",
    "Verif.Pcap.C78_ipv6_refuted",
    "Verif.Pcap.C78_snaplen_refuted",
    "Verif.Pcap.C78_short_tcp_refuted",
    "Verif.Pcap.C78_empty_refuted",
    "Verif.Pcap.C78_vlan_refuted",
    "Verif.Pcap.C78_payload_refuted",
    "Verif.Pcap.C78_malformed_refuted"
   ],
   "note": "C78_fields_partial: IPv4, complete capture, complete headers, up to two VLAN tags; the payload is everything behind the transport header up to the end of the frame, so Ethernet padding counts. The refutations: IPv6 addresses are cut to four bytes; truncated captures, short TCP headers and short tagged frames are read beyond their end; a missing transport header fails an assertion; the payload of a short UDP datagram wraps; a malformed frame ends the import and drops the events in the builder. Assertions are taken as enabled. Not modelled: opening the device, batch timeouts, statistics."
  },
  {
   "property": "C79",
   "status": "partial",
   "theorems": [
    "Verif.Pcap.C79_completes_partial",
    "Verif.Pcap.C79_limit_partial",
    "Verif.Pcap.C79_skip",
    "Verif.Pcap.C79_cutoff_partial",
    "Verif.Pcap.C79_full_refuted",
    "Verif.Pcap.C79_clock_refuted",
    "Verif.Pcap.C79_growth_refuted",
    "Verif.Pcap.C79_hang_refuted"
   ],
   "note": "C79_cutoff_partial: the flows fit into the table, timestamps do not go back, packets of the flow follow within the maximum age. C79_limit_partial: positive cutoff. C79_completes_partial: positive table size. C79_skip: without hypotheses. The refutations show each hypothesis to be needed. Simplification: keys of the hash table are compared structurally (port equality in the code treats the unknown protocol as a wildcard)."
  },
  {
   "property": "C80",
   "status": "partial",
   "theorems": [
    "Verif.QueryText.C80_only",
    "Verif.QueryText.C80_meaning",
    "Verif.QueryText.C80_roundtrip_partial",
    "Verif.QueryText.C80_double_negation_refuted",
    "Verif.QueryText.C80_empty_refuted",
    "Verif.QueryText.C80_leading_blank_refuted"
   ],
   "note": "C80_meaning: for all syntax trees with any whitespace, over any parser of operands that reads each operand where it stands (Readable). C80_only: nothing else is accepted; every accepted query is a text of the grammar and has the grammar's truth value, over any parser of operands that consumes a prefix. C80_roundtrip_partial: connectives have two operands or more, no negation directly under a negation. The refutations: printed double negations and empty connectives cannot be read; blanks in front of a query are refused. The text of predicates and data is an abstract operand here (data values: C72)."
  },
  {
   "property": "C81",
   "status": "partial",
   "theorems": [
    "Verif.Sigma.C81_accepted",
    "Verif.Sigma.C81_search",
    "Verif.Sigma.C81_value_partial",
    "Verif.Sigma.C81_startswith_refuted",
    "Verif.Sigma.C81_contains_wildcard_refuted",
    "Verif.Sigma.C81_escape_refuted",
    "Verif.Sigma.C81_escaped_wildcard_refuted",
    "Verif.Sigma.C81_case_refuted"
   ],
   "note": "C81_accepted and C81_search are unrestricted on the structure; the truth of predicates is a parameter. C81_value_partial: text values without special characters, no modifier or contains. The refutations: startswith and endswith are treated as contains; wildcards drop contains; regular expression characters are not escaped, escaped wildcards become bare; comparison regards case. Matching of regular expressions is abstract. Simplification: keys are split into field and modifiers beforehand; values are text or other scalars."
  },
  {
   "property": "C82",
   "status": "partial",
   "theorems": [
    "Verif.Sigma.C82_only",
    "Verif.Sigma.C82_condition_partial",
    "Verif.Sigma.C82_rule_partial",
    "Verif.Sigma.C82_pattern",
    "Verif.Sigma.C82_not_refuted",
    "Verif.Sigma.C82_wildcard_refuted",
    "Verif.Sigma.C82_paren_refuted",
    "Verif.Sigma.C82_anchor_refuted",
    "Verif.Sigma.C82_unknown_refuted"
   ],
   "note": "C82_condition_partial and C82_rule_partial: identifiers without blanks or parentheses, not all, 1, nor beginning with not, nor a prefix of them; blanks before and/or. C82_pattern: a pattern up to the next blank when no identifier is a prefix of what follows. C82_only: every accepted condition is built by the grammar from the operands listed in `Accepted`, and means what follows. The refutations: identifiers beginning with not; a wildcard behind the full name of an identifier; patterns swallow a closing parenthesis; patterns are not anchored; unknown identifiers match every event."
  },
  {
   "property": "C83",
   "status": "proved",
   "theorems": [
    "Verif.Calendar.C83_calendar",
    "Verif.Calendar.C83_from_days",
    "Verif.Calendar.C83_to_days",
    "Verif.Calendar.C83_printed",
    "Verif.Calendar.C83_read_date"
   ],
   "note": "Days since 1970 are counted by an inductive relation that steps from date to date (Spec.lean); C83_calendar shows it is a bijection. C83_from_days covers the years 0 to 65535, C83_printed all 64-bit points in time. C83_read_date: years 1900 to 9999, as far as 64 bits reach. std::log10 in the zero padding is taken to be exact."
  },
  {
   "property": "C84",
   "status": "partial",
   "theorems": [
    "Verif.Calendar.C84_read_zone",
    "Verif.Calendar.C84_whole_seconds_partial",
    "Verif.Calendar.C84_nearby_partial",
    "Verif.Calendar.C84_subsecond_refuted",
    "Verif.Calendar.C84_before_1900_refuted",
    "Verif.Calendar.C84_roll_over_refuted",
    "Verif.Calendar.C84_unix_partial"
   ],
   "note": "IEEE rounding to nearest-even is defined on rationals (Double.lean), without limits on exponents. C84_read_zone: whole seconds, years 1900 to 2261, exact. C84_whole_seconds_partial: from 1900 on. C84_nearby_partial: with fractions of a second the result is exact or one nanosecond less. C84_subsecond_refuted: 1970-01-01T00:00:01.001 comes back as ...00.999999 plus 1 s, one nanosecond short. C84_before_1900_refuted: no text of a point in time before 1900 is read. C84_roll_over_refuted: 2021-02-30 is read as 2021-03-02. C84_unix_partial: whole seconds before the year 2116."
  },
  {
   "property": "C85",
   "status": "partial",
   "theorems": [
    "Verif.Number.C85_text_partial",
    "Verif.Number.C85_whole_text",
    "Verif.Number.C85_whole_reads_partial",
    "Verif.Number.C85_carry_refuted",
    "Verif.Number.C85_large_refuted",
    "Verif.Number.C85_lossy_refuted"
   ],
   "note": "The arithmetic on double is rational arithmetic with rounding to nearest-even, without limits on exponents (Calendar/Double.lean). C85_text_partial excludes fractions above 1 - 10^-D: C85_carry_refuted shows that the carry into the whole part is lost there (2 - 2^-40 is printed as 1.1). C85_whole_text: all integers below 2^64. C85_whole_reads_partial: integers below 2^53 read back exactly. C85_lossy_refuted: a third does not read back. C85_large_refuted: from 2^64 on and for NaN and infinities the conversion to an unsigned integer is undefined behaviour."
  },
  {
   "property": "C86",
   "status": "partial",
   "theorems": [
    "Verif.Number.C86_text_partial",
    "Verif.Number.C86_unit",
    "Verif.Number.C86_whole",
    "Verif.Number.C86_carry_refuted",
    "Verif.Number.C86_read_refuted",
    "Verif.Number.C86_lossy_refuted",
    "Verif.Number.C86_least_refuted"
   ],
   "note": "C86_text_partial covers every duration but the least whose part below a whole unit is at most 99 hundredths of it; C86_unit shows that a unit always exists. C86_whole: whole numbers of units, exact round trip. C86_carry_refuted: from 998 thousandths on the carry is lost; C86_read_refuted: 1.999 s are printed as 1.1s and read back as 1.1 s. C86_lossy_refuted: 1.001 s and 1.002 s have the same text. C86_least_refuted: abs of the least duration overflows."
  },
  {
   "property": "C87",
   "status": "partial",
   "theorems": [
    "Verif.Json.C87_line",
    "Verif.Json.C87_slice",
    "Verif.Json.C87_json_partial",
    "Verif.Json.C87_flat_partial",
    "Verif.Json.C87_real_refuted",
    "Verif.Json.C87_key_refuted",
    "Verif.Json.C87_utf8_refuted",
    "Verif.Json.C87_enum_refuted",
    "Verif.Json.C87_duration_refuted"
   ],
   "note": "The grammar of JSON (Json/Grammar.lean) is RFC 8259 as inductive relations, apart from the model. C87_line and C87_slice have no hypotheses. C87_json_partial and C87_flat_partial ask for UTF-8 strings and names, maps with string keys, durations other than the least, enumerations at the top with an index in range, and reals that are whole or further than half a millionth from a whole number; each exclusion has a _refuted witness (C87_real_refuted, C87_key_refuted, C87_utf8_refuted, C87_enum_refuted, C87_duration_refuted). Reals are shown with six decimals. There is no negative zero in the model."
  },
  {
   "property": "C88",
   "status": "partial",
   "theorems": [
    "Verif.Json.C88_too_large",
    "Verif.Json.C88_numbers_partial",
    "Verif.Json.C88_word_refuted",
    "Verif.Json.C88_lookup",
    "Verif.Json.C88_row_partial",
    "Verif.Json.C88_other",
    "Verif.Json.C88_count_refuted",
    "Verif.Json.C88_big_refuted",
    "Verif.Json.C88_alias_refuted",
    "Verif.Json.C88_record_refuted",
    "Verif.Json.C88_shadow_refuted"
   ],
   "note": "simdjson is not part of the repository: its model reads every text of the grammar (ParseLemmas: document_reads), distinguishes signed, unsigned and double numbers and refuses integers beyond 64 bits. C88_lookup: the place of a value is unique. C88_row_partial: per column, for the values that have a meaning (Means) or are of another kind (Foreign); it asks that numbers fit and that columns with records in lists have proper values. Means covers strings with whole numbers (decimal, for counts also hexadecimal), integers and booleans for strings; not strings with fractions. Foreign covers strings with a character that no number has, for integers, counts and reals. C88_numbers_partial: numbers with fractions for durations and points in time (2 microseconds) and for strings. C88_too_large: a number that does not fit, anywhere, makes no row. C88_word_refuted: the string \"1.5\" is cut to 1 in a column of integers or counts without a report. C88_count_refuted: -1 in a column of counts becomes 2^64-1. C88_big_refuted: a large integer makes the line be skipped. C88_alias_refuted: types with another name take no values. C88_record_refuted: a record in a list without all fields in order ends the import. C88_shadow_refuted: {\"a\":1,\"a.b\":2} has no a.b."
  },
  {
   "property": "C89",
   "status": "partial",
   "theorems": [
    "Verif.Json.C89_roundtrip_partial",
    "Verif.Json.C89_pattern_refuted",
    "Verif.Json.C89_enum_refuted",
    "Verif.Json.C89_real_refuted",
    "Verif.Json.C89_big_refuted",
    "Verif.Json.C89_alias_refuted"
   ],
   "note": "C89_roundtrip_partial covers both options for names, with durations as text: booleans, integers and counts of 64 bits, reals that are doubles nearest to a multiple of 10^-6 below 10^9, whole-unit durations, whole-second times from 1900 on, UTF-8 strings, addresses, subnets, enumerations at the top, lists, string-keyed maps and records in lists; names distinct at each level, without dots. C89_pattern_refuted, C89_enum_refuted, C89_real_refuted, C89_big_refuted, C89_alias_refuted: what is lost otherwise."
  },
  {
   "property": "C90",
   "status": "partial",
   "theorems": [
    "Verif.Json.C90_single",
    "Verif.Json.C90_select",
    "Verif.Json.C90_nested_refuted",
    "Verif.Json.C90_export_refuted",
    "Verif.Json.C90_missing_refuted"
   ],
   "note": "C90_single and C90_select have no hypotheses beyond the distinction of the two cases and determine the choice. As to the intent that an exported object finds its type: C90_nested_refuted, C90_export_refuted, C90_missing_refuted show that records, maps and absent fields prevent it, because the cache has the names at the top only. Equal names: the first type wins."
  },
  {
   "property": "C91",
   "status": "partial",
   "theorems": [
    "Verif.Explorer.C91_once_partial",
    "Verif.Explorer.C91_limit",
    "Verif.Explorer.C91_complete",
    "Verif.Explorer.C91_duplicate_refuted",
    "Verif.Explorer.C91_again_refuted",
    "Verif.Explorer.C91_zero_refuted"
   ],
   "note": "C91_once_partial: the delivered events are the first of those that arrive with each ID, in order, up to the limit, if every slice starts at an ID that is at least its number of rows or shares no event with an earlier one. C91_limit and C91_complete have no such hypothesis. All ask for slices with rows. C91_duplicate_refuted: the code compares the end of the unseen IDs with the number of rows instead of their number, so that the first slices of the archive are delivered twice. C91_again_refuted: so for slices that start a little later. C91_zero_refuted: with limit 0, documented as no limit, nothing is delivered. Slices by their first ID and rows; the bitmap of IDs is that of C01-C05."
  },
  {
   "property": "C92",
   "status": "partial",
   "theorems": [
    "Verif.Explorer.C92_context_partial",
    "Verif.Explorer.C92_self_refuted",
    "Verif.Explorer.C92_two_stamps_refuted",
    "Verif.Explorer.C92_old_refuted",
    "Verif.Explorer.C92_each_partial",
    "Verif.Explorer.C92_column_refuted",
    "Verif.Explorer.C92_none"
   ],
   "note": "C92_context_partial: the query, after its text has been parsed by the exporter, matches exactly the events in the box with the same value, for events with exactly one timestamp, bounds from 1900 on, and values whose text is read as the same value (C69, C84, C86); the bounds may be one nanosecond early unless they are whole seconds. C92_self_refuted: so an event may lack in its own context. C92_two_stamps_refuted: an event with two timestamps outside the box matches. C92_old_refuted: no context for a box that begins before 1900. C92_each_partial: one query per event, in order, if the first timestamp is at the top and no other column before ends with its name; C92_column_refuted: otherwise none. That the exporter evaluates a predicate for any of the matching columns is C25; conjunctions in text are C80."
  },
  {
   "property": "C93",
   "status": "partial",
   "theorems": [
    "Verif.Explorer.C93_not_early",
    "Verif.Explorer.C93_ends_partial",
    "Verif.Explorer.C93_failed_refuted"
   ],
   "note": "C93_not_early for every course of events in which a query ends after it was asked for and the first query delivers nothing after its final status. C93_ends_partial asks that the last thing is not that a query could not be started: C93_failed_refuted shows that the explorer does not end then."
  },
  {
   "property": "C94",
   "status": "proved",
   "theorems": [
    "Verif.Sink.C94_below",
    "Verif.Sink.C94_written",
    "Verif.Sink.C94_limit",
    "Verif.Sink.C94_prefix",
    "Verif.Sink.C94_error"
   ],
   "note": "C94_written, C94_prefix, C94_limit, C94_error, C94_below for all histories. Limits are below 2^64. The transformation is a parameter (its result for each slice); truncate is C28. What a failing writer has written of the slice is not modelled; neither is the time of flushes beyond the flag that the interval is over, nor flushing by the destructor of a stream after a request to end."
  },
  {
   "property": "C95",
   "status": "partial",
   "theorems": [
    "Verif.Zeek.C95_names",
    "Verif.Zeek.C95_export_partial",
    "Verif.Zeek.C95_enum_refuted",
    "Verif.Zeek.C95_unknown_partial",
    "Verif.Zeek.C95_junk_refuted"
   ],
   "note": "C95_names: every name that Zeek has, at any depth. C95_export_partial: types without enumerations and maps; C95_enum_refuted: those two are exported under names that are not understood. C95_unknown_partial: names that do not begin like a container; C95_junk_refuted: after `vector`, `set` and `table` any text up to the first bracket and behind the last one is accepted. Of a table, the name of the values' type is not there in logs."
  },
  {
   "property": "C96",
   "status": "partial",
   "theorems": [
    "Verif.Zeek.C96_slices",
    "Verif.Zeek.C96_logs_partial",
    "Verif.Zeek.C96_error",
    "Verif.Zeek.C96_header_error",
    "Verif.Zeek.C96_backslash_refuted",
    "Verif.Zeek.C96_pattern_refuted",
    "Verif.Zeek.C96_pattern_abort_refuted",
    "Verif.Zeek.C96_element_refuted",
    "Verif.Zeek.C96_empty_refuted",
    "Verif.Zeek.C96_number_refuted",
    "Verif.Zeek.C96_time_refuted"
   ],
   "note": "C96_logs_partial: all sequences of logs with columns of every type but pattern (which can only be unset), fields that are not empty, reals below 2^52, times and durations below 2^32 seconds with at most 15 digits of fraction, up to the precision given in the specification, and addresses and subnets in the form VAST itself prints. Interruptions (end of a call, timeouts) are items between the lines. C96_slices and C96_error for all inputs and for texts that are no Boolean, count, port or fraction. C96_header_error: header lines that are not as they must be end reading. The refutations: an escaped backslash at the end empties a string; patterns end the import or fail an assertion; unset elements of lists; an empty last field; counts from 2^64 on; nanoseconds. Not modelled: attributes of the layout, the proto/Zeek schema that replaces the type of a congruent layout."
  },
  {
   "property": "C97",
   "status": "partial",
   "theorems": [
    "Verif.Zeek.C97_rows_partial",
    "Verif.Zeek.C97_header_partial",
    "Verif.Zeek.C97_header_refuted",
    "Verif.Zeek.C97_open_refuted",
    "Verif.Zeek.C97_string_refuted",
    "Verif.Zeek.C97_empty_refuted",
    "Verif.Zeek.C97_hash_refuted",
    "Verif.Zeek.C97_element_refuted",
    "Verif.Zeek.C97_carry_refuted",
    "Verif.Zeek.C97_nothing_refuted",
    "Verif.Zeek.C97_pattern_refuted"
   ],
   "note": "C97_rows_partial is about the rows: they are read again behind a header with the same columns as Zeek writes it; values are restricted as in Spec.Writable, each restriction has a refutation. C97_header_partial: all lines of the header but the first are those of a Zeek log. C97_header_refuted: for every layout and all rows, the whole exported log cannot be imported: the separator is written raw where the reader expects an escape, takes the separator to be empty and fails an assertion. C97_open_refuted: with time stamps disabled, the reader also misses a line. Which file rows go to is C179."
  },
  {
   "property": "C98",
   "status": "partial",
   "theorems": [
    "Verif.SchemaText.C98_cycle_refuted",
    "Verif.SchemaText.C98_operand_refuted",
    "Verif.SchemaText.C98_attributes_refuted",
    "Verif.SchemaText.C98_directories",
    "Verif.SchemaText.C98_meaning",
    "Verif.SchemaText.C98_unique",
    "Verif.SchemaText.C98_order",
    "Verif.SchemaText.C98_rejects_partial",
    "Verif.SchemaText.C98_terminates",
    "Verif.SchemaText.C98_errors_partial"
   ],
   "note": "C98_meaning, C98_order, C98_terminates, C98_directories for all sets of definitions, which may contain containers, records and expressions. C98_rejects_partial: definitions without meaning are refused, unless a circle has a name that an earlier directory defines too (C98_cycle_refuted: then the result depends on the order). C98_errors_partial: definitions without expressions never fail an assertion; C98_operand_refuted: an operand that is not a record does. C98_attributes_refuted: the attributes of an expression are lost. The files themselves are in C99."
  },
  {
   "property": "C99",
   "status": "partial",
   "theorems": [
    "Verif.SchemaText.C99_only",
    "Verif.SchemaText.C99_symbols",
    "Verif.SchemaText.C99_duplicate",
    "Verif.SchemaText.C99_schema",
    "Verif.SchemaText.C99_ends",
    "Verif.SchemaText.C99_overflow_refuted"
   ],
   "note": "The grammar of texts is given by inductive relations (SchemaText/TextSpec.lean), independently of the parser; C99_symbols, C99_duplicate and C99_schema (together with C98) hold for all its texts, and C99_ends for all texts. Restrictions of the grammar: attributes follow after white space, and so do comments after a type; definitions are separated by white space; the attributes of a type have distinct keys. C99_overflow_refuted: malformed texts are not always refused; where a type is missing, the recursion of the parser for operands has no end. C99_only: every accepted text is in the wider grammar of SchemaText/WideSpec.lean, without these restrictions, and is read as its definitions say."
  },
  {
   "property": "C100",
   "status": "partial",
   "theorems": [
    "Verif.SchemaText.C100_text_partial",
    "Verif.SchemaText.C100_transfer_partial",
    "Verif.SchemaText.C100_order_refuted",
    "Verif.SchemaText.C100_empty_refuted",
    "Verif.SchemaText.C100_lost_refuted",
    "Verif.SchemaText.C100_alias_refuted",
    "Verif.SchemaText.C100_attributes_refuted"
   ],
   "note": "C100_text_partial, C100_transfer_partial: all schemas whose types have distinct identifiers as names, whose fields and labels are identifiers, whose records and enumerations are not empty, whose attribute values need no quotes, whose named types within others are those of the schema, and whose aliases have named values and no attributes; the types arrive in another order. The refutations: the order; the empty schema; names and values that are not quoted lose the whole schema; aliases; attributes."
  },
  {
   "property": "C101",
   "status": "partial",
   "theorems": [
    "Verif.ArrowSlice.C101_read_partial",
    "Verif.ArrowSlice.C101_column_partial",
    "Verif.ArrowSlice.C101_alias_refuted",
    "Verif.ArrowSlice.C101_inner_alias_refuted",
    "Verif.ArrowSlice.C101_rest_refuted",
    "Verif.ArrowSlice.C101_short_record_refuted",
    "Verif.ArrowSlice.C101_long_record_refuted",
    "Verif.ArrowSlice.C101_rejected"
   ],
   "note": "C101_read_partial: all layouts without an alias within a type, for accesses with the type of the column; C101_column_partial: all layouts without aliases, for accesses without a type and for indexes; C101_rejected: types without parts. The values have the types of the columns (Spec.HasType), and names of fields are distinct. C101_alias_refuted: a column whose type is an alias is null for transform steps, which write these nulls to the new slice; append_column_to_index, which only tests call, adds nothing of it. C101_inner_alias_refuted: lists and records of aliases hold nulls for every reader. C101_rest_refuted: a refused container leaves elements behind that become the next row. C101_short_record_refuted, C101_long_record_refuted: records with another number of fields lead to accesses outside of arrays. Limits of Arrow arrays (2^31 elements) are not modelled."
  },
  {
   "property": "C102",
   "status": "partial",
   "theorems": [
    "Verif.Partition.C102_indexes_found_partial",
    "Verif.Partition.C102_indexes_exact_partial",
    "Verif.Partition.C102_null_refuted",
    "Verif.Partition.C102_found_partial",
    "Verif.Partition.C102_only_partial",
    "Verif.Partition.C102_prefix_refuted",
    "Verif.Partition.C102_prefix_extra_refuted",
    "Verif.Partition.C102_error_refuted",
    "Verif.Partition.C102_failure_refuted",
    "Verif.Partition.C102_skip_refuted",
    "Verif.Partition.C102_negation_refuted",
    "Verif.Partition.C102_order"
   ],
   "note": "C102_found_partial: all partitions with indexes that find all their matching values (Spec.Complete), no skip columns, names of layouts without a dot-prefix overlap where #field is used; C102_only_partial: additionally exact indexes, and negated comparisons that select at most one column. C102_order: slices in the wrong order violate an assertion. The refutations are the cases left out: #field matches layouts by prefix (C102_prefix_refuted, C102_prefix_extra_refuted), a resolution error yields no hits (C102_error_refuted), a failing index loses events silently (C102_failure_refuted), skip columns are not found (C102_skip_refuted), a negated comparison over several columns yields extra hits (C102_negation_refuted). With the value indexes of the code (bool, integer, count, duration, time, string, address, subnet; histories of C01-C11 components): C102_indexes_found_partial and C102_indexes_exact_partial, for events whose columns hold data of their type or null and comparisons these indexes support (Spec.Suited); the second one excludes times and durations, whose indexes lose precision. C102_null_refuted: null satisfies `bytes < 1` by evaluation but the index does not report it."
  },
  {
   "property": "C103",
   "status": "partial",
   "theorems": [
    "Verif.Partition.C103_indexes_partial",
    "Verif.Partition.C103_partition_partial",
    "Verif.Partition.C103_answer_partial",
    "Verif.Partition.C103_disjunction_refuted"
   ],
   "note": "C103_partition_partial: one partition; C103_answer_partial: all partitions, from the catalog lookup (C21) over the hits (C102) to the extraction by the store (C25). Every predicate on metadata stands at the top level of a conjunction, no :timestamp, indexes find all their matching values (Spec.Indexed), nulls do not satisfy the comparisons and the operators are supported by the synopses. C103_disjunction_refuted: a predicate on metadata within a disjunction. The partitions asked may be more than the candidates of the catalog, as the active partition always is. C103_indexes_partial: one partition with the value indexes of the code."
  },
  {
   "property": "C104",
   "status": "partial",
   "theorems": [
    "Verif.Partition.C104_erased_partial",
    "Verif.Partition.C104_exact_partial",
    "Verif.Partition.C104_later_partial",
    "Verif.Partition.C104_time_refuted",
    "Verif.Partition.C104_negation_refuted"
   ],
   "note": "C104_erased_partial: nothing that satisfies the query is left; C104_exact_partial: exactly the rest is left, without times and durations and with negated comparisons over one column; C104_later_partial: later queries return exactly what is left. All for events and comparisons in the sense of Spec.Suited (see C102). C104_time_refuted: `ts < 1.5s` deletes an event at 1.7 s, since the time index rounds to seconds and the store does not check candidates; C104_negation_refuted: `:count != 7` deletes an event with a count that is 7."
  },
  {
   "property": "C105",
   "status": "partial",
   "theorems": [
    "Verif.Processor.C105_total_partial",
    "Verif.Processor.C105_ends_partial",
    "Verif.Processor.C105_lost_refuted",
    "Verif.Processor.C105_taste_refuted",
    "Verif.Processor.C105_events_partial",
    "Verif.Processor.C105_estimate_partial",
    "Verif.Processor.C105_estimate_refuted"
   ],
   "note": "C105_total_partial, C105_ends_partial: the counter against the index, for every execution and at least one partition per request; the result is the sum over the partitions that can be loaded. C105_events_partial: composed with C103, the result is the number of matching events, under the hypotheses of C103_answer_partial. C105_estimate_partial: an estimate is never too low, under Spec.Suited and with distinct IDs. C105_lost_refuted: partitions that cannot be loaded are left out silently; C105_taste_refuted: with max-taste-partitions 0 no execution ever ends; C105_estimate_refuted: an estimate that is too high. The order of messages between the index, the query supervisor and the counter is an assumption of the model (see Processor/Model.lean)."
  },
  {
   "property": "C106",
   "status": "partial",
   "theorems": [
    "Verif.Processor.C106_timer_partial",
    "Verif.Processor.C106_cycles_partial",
    "Verif.Processor.C106_answers",
    "Verif.Processor.C106_trigger_refuted",
    "Verif.Processor.C106_query_refuted",
    "Verif.Processor.C106_taste_refuted"
   ],
   "note": "C106_timer_partial: in every execution without triggers there is exactly one timer or the eraser waits for the index; C106_cycles_partial: any number of cycles over any numbers of partitions. Both for a valid query and at least one partition per request. C106_trigger_refuted: a trigger by hand can end aging for good; C106_query_refuted: a query that parses but cannot be normalized is accepted and never run; C106_taste_refuted: with max-taste-partitions 0 the first cycle with a candidate never ends. C106_answers is complete."
  },
  {
   "property": "C107",
   "status": "partial",
   "theorems": [
    "Verif.Csv.C107_table_partial",
    "Verif.Csv.C107_string",
    "Verif.Csv.C107_header_refuted",
    "Verif.Csv.C107_list_refuted",
    "Verif.Csv.C107_pattern_refuted",
    "Verif.Csv.C107_map_refuted",
    "Verif.Csv.C107_real_refuted"
   ],
   "note": "C107_table_partial: for names without quotes, commas and line feeds and cells that are scalars or lists of scalars (patterns without special characters), the export succeeds and a reader that knows only commas, line feeds and double quotes finds exactly the expected rows. C107_string: the quoted text determines the string. Refuted: C107_header_refuted (the header is repeated only when the name of the layout changes, not its columns), C107_list_refuted ([] is like [\"\"], [null] is like null), C107_pattern_refuted (patterns are not quoted), C107_map_refuted (a map ends the export; within a list it silently ends the list), C107_real_refuted (six digits). Bars in strings are doubled, so a reader of plain RFC 4180 gets them twice; the theorem uses a reader that halves them."
  },
  {
   "property": "C108",
   "status": "proved",
   "theorems": [
    "Verif.Shutdown.C108_order",
    "Verif.Shutdown.C108_stages",
    "Verif.Shutdown.C108_grace",
    "Verif.Shutdown.C108_who",
    "Verif.Shutdown.C108_stopped",
    "Verif.Shutdown.C108_died"
   ],
   "note": "C108_order, C108_stages, C108_grace, C108_who, C108_stopped, C108_died: for every execution of the exit handler with its two terminators, their mailboxes, monitors and timers, from a registry with unique labels and actors (a map, and an assertion of the registry). Core components are those registered under the labels importer, index and archive. A hard kill of the node itself is not modelled. An example shows that after a timeout the core is told to terminate while an auxiliary component is alive."
  },
  {
   "property": "C109",
   "status": "partial",
   "theorems": [
    "Verif.Shutdown.C109_ends_partial",
    "Verif.Shutdown.C109_together",
    "Verif.Shutdown.C109_nograce_refuted"
   ],
   "note": "C109_ends_partial: at most three steps per component and 21 more; when nothing more can be done the node has ended, provided there is a grace period or all components that are told to terminate do so; no assertion fails. C109_nograce_refuted: with a grace period of zero there is neither a kill nor a timeout, so one component blocks the shutdown for good. C109_together is complete."
  },
  {
   "property": "C110",
   "status": "partial",
   "theorems": [
    "Verif.Config.C110_read_order_partial",
    "Verif.Config.C110_value_partial",
    "Verif.Config.C110_cli_partial",
    "Verif.Config.C110_files_used",
    "Verif.Config.C110_bare",
    "Verif.Config.C110_plugins_partial",
    "Verif.Config.C110_plugin_dirs_partial",
    "Verif.Config.C110_user_refuted",
    "Verif.Config.C110_plugins_refuted",
    "Verif.Config.C110_dotted_refuted"
   ],
   "note": "C110_value_partial: for an option and files in which keys have no dots, no other option is a part of it, it is a list everywhere or nowhere, there are less than 100 sections in all files together, and not both the user's and the system's file have it. C110_read_order_partial is the same without the last hypothesis and says what is taken then. C110_cli_partial (values that are not lists, at most 101 components), C110_plugins_partial. C110_files_used and C110_bare are without such hypotheses. Refuted: C110_user_refuted (the system's file overrides the user's), C110_plugins_refuted (a file overrides --plugins), C110_dotted_refuted. CAF's parser for the command line, caf::put and the YAML parser are parameters or assumed. C110_plugin_dirs_partial: the directories of the command line, then those of the environment, if no file has any."
  },
  {
   "property": "C111",
   "status": "partial",
   "theorems": [
    "Verif.Plugins.C111_only",
    "Verif.Plugins.C111_named",
    "Verif.Plugins.C111_all_partial",
    "Verif.Plugins.C111_once",
    "Verif.Plugins.C111_registry",
    "Verif.Plugins.C111_sorted_partial",
    "Verif.Plugins.C111_all_refuted",
    "Verif.Plugins.C111_static_refuted"
   ],
   "note": "C111_only, C111_named, C111_once, C111_registry are complete. C111_all_partial: `all` with regular files only in the directories; C111_all_refuted: a subdirectory ends the listing, so that plugins after it are left out silently. C111_sorted_partial: unless there is nothing requested and bundled. C111_static_refuted: naming a plugin that is linked in is an error. The dynamic linker and the file system are parameters."
  },
  {
   "property": "C112",
   "status": "partial",
   "theorems": [
    "Verif.Pivot.C112_shared_partial",
    "Verif.Pivot.C112_sound",
    "Verif.Pivot.C112_once",
    "Verif.Pivot.C112_text_partial",
    "Verif.Pivot.C112_two_fields_refuted",
    "Verif.Pivot.C112_column_refuted",
    "Verif.Pivot.C112_record_refuted",
    "Verif.Pivot.C112_lost_refuted"
   ],
   "note": "C112_sound and C112_once are complete. C112_shared_partial: all types of the results have the same link field, and no other field's name ends with that of the link field, which is not a record; nothing comes after the final status. C112_two_fields_refuted, C112_column_refuted, C112_record_refuted: without these conditions events are missed, wrong values are asked for, or an assertion fails. C112_lost_refuted: values of a query that could not be started are not asked for again. C112_text_partial: the text of the values is read back (strings as in C69)."
  },
  {
   "property": "C113",
   "status": "partial",
   "theorems": [
    "Verif.Pivot.C113_not_early",
    "Verif.Pivot.C113_ends_partial",
    "Verif.Pivot.C113_failed_refuted"
   ],
   "note": "C113_not_early is complete for every possible course of events. C113_ends_partial: unless the last thing that happens is that an exporter cannot be started; C113_failed_refuted: then the pivoter never ends."
  },
  {
   "property": "C114",
   "status": "partial",
   "theorems": [
    "Verif.Registry.C114_accepts",
    "Verif.Registry.C114_atomic",
    "Verif.Registry.C114_fields",
    "Verif.Registry.C114_concepts_sound",
    "Verif.Registry.C114_concepts_partial",
    "Verif.Registry.C114_models",
    "Verif.Registry.C114_concepts_refuted",
    "Verif.Registry.C114_order_refuted"
   ],
   "note": "C114_accepts, C114_atomic, C114_fields, C114_concepts_sound and C114_models are complete for all files. C114_concepts_partial: a concept contains the concepts its definitions name unless a field has the same name; C114_concepts_refuted, C114_order_refuted: then it is dropped, depending on the order of files. Descriptions are left out, and reading YAML is not modelled."
  },
  {
   "property": "C115",
   "status": "partial",
   "theorems": [
    "Verif.Registry.C115_layouts_partial",
    "Verif.Registry.C115_concept_partial",
    "Verif.Registry.C115_crash_refuted",
    "Verif.Registry.C115_failed_refuted",
    "Verif.Registry.C115_file"
   ],
   "note": "C115_layouts_partial: exact if there is no crash and saving and loading succeed; C115_crash_refuted: the registry is only saved at its end, so after a crash a query for a concept misses stored events; C115_failed_refuted: the same if saving fails. C115_concept_partial: the consequence for queries (see also C66). C115_file: what was saved survives. CAF's binary serialization is assumed to be read back."
  },
  {
   "property": "C116",
   "status": "partial",
   "theorems": [
    "Verif.NodeStart.C116_one_partial",
    "Verif.NodeStart.C116_refused_partial",
    "Verif.NodeStart.C116_start_partial",
    "Verif.NodeStart.C116_stale_refuted",
    "Verif.NodeStart.C116_race_refuted",
    "Verif.NodeStart.C116_empty_refuted",
    "Verif.NodeStart.C116_reused_refuted"
   ],
   "note": "C116_one_partial, C116_refused_partial: for every interleaving of processes, crashes and failures in which no process looks at the file while another one is acquiring it, and all process numbers have as many digits. C116_stale_refuted: the file is not truncated, so after a crash a shorter number leaves digits of the old one behind, and a second node starts; C116_race_refuted: two starts at the same time both succeed. C116_start_partial: a start succeeds if the file is absent or has the number of a dead process; C116_empty_refuted, C116_reused_refuted: an empty file after a crash, or a reused number, prevents all starts."
  },
  {
   "property": "C117",
   "status": "partial",
   "theorems": [
    "Verif.NodeStart.C117_same_partial",
    "Verif.NodeStart.C117_kept",
    "Verif.NodeStart.C117_new_partial",
    "Verif.NodeStart.C117_reasons",
    "Verif.NodeStart.C117_newline_refuted",
    "Verif.NodeStart.C117_crash_refuted"
   ],
   "note": "C117_kept and C117_reasons are complete. C117_same_partial: version files with a newline; C117_newline_refuted: without one there is undefined behavior. C117_new_partial: nothing goes wrong at the first start; C117_crash_refuted: a crash while the file is written prevents all later starts."
  },
  {
   "property": "C118",
   "status": "partial",
   "theorems": [
    "Verif.Node.C118_distinct",
    "Verif.Node.C118_registered_partial",
    "Verif.Node.C118_label_refuted",
    "Verif.Node.C118_race_refuted",
    "Verif.Node.C118_singleton_partial",
    "Verif.Node.C118_second_refuted",
    "Verif.Node.C118_given_refuted",
    "Verif.Node.C118_put_refuted",
    "Verif.Node.C118_lookup_partial",
    "Verif.Node.C118_lookup_refuted",
    "Verif.Node.C118_exit_refuted"
   ],
   "note": "C118_distinct is complete: labels and actors are unique in the registry (what C108 assumes). C118_registered_partial: if users do not give labels of the form type-number, every component is registered except for second singletons and queries with a label from a user; C118_label_refuted, C118_race_refuted and C118_second_refuted show components that are started but not registered. C118_singleton_partial: without labels for singletons and without registration from elsewhere; C118_given_refuted, C118_put_refuted. C118_lookup_partial: if no user calls a component like a singleton; C118_lookup_refuted. C118_exit_refuted: a query that waits is started after the shutdown has begun."
  },
  {
   "property": "C119",
   "status": "partial",
   "theorems": [
    "Verif.Node.C119_alive",
    "Verif.Node.C119_kept",
    "Verif.Node.C119_fault_partial",
    "Verif.Node.C119_kill_refuted",
    "Verif.Node.C119_twice_refuted",
    "Verif.Node.C119_core",
    "Verif.Node.C119_only",
    "Verif.Node.C119_core_refuted"
   ],
   "note": "C119_alive, C119_kept, C119_core and C119_only are complete. C119_fault_partial: no assertion fails if no component is killed while its DOWN message is in the mailbox and none is registered twice; C119_kill_refuted, C119_twice_refuted. C119_core_refuted: killing the index leaves the node running without one."
  },
  {
   "property": "C120",
   "status": "partial",
   "theorems": [
    "Verif.TransformConfig.C120_config",
    "Verif.TransformConfig.C120_triggers_partial",
    "Verif.TransformConfig.C120_steps_partial",
    "Verif.TransformConfig.C120_misspelt_refuted",
    "Verif.TransformConfig.C120_unused_refuted"
   ],
   "note": "C120_config is complete for configurations of the form of vast-transforms.yaml, with an equivalence. C120_triggers_partial: for any values, an ill-formed trigger is refused. C120_steps_partial: for any values, a transform that is made has all of its steps in order. C120_misspelt_refuted: triggers that are not a list are ignored; C120_unused_refuted: unknown transforms of other locations are not noticed."
  },
  {
   "property": "C121",
   "status": "partial",
   "theorems": [
    "Verif.TransformConfig.C121_import_partial",
    "Verif.TransformConfig.C121_export_partial",
    "Verif.TransformConfig.C121_node_partial",
    "Verif.TransformConfig.C121_twice_refuted"
   ],
   "note": "C121_import_partial, C121_export_partial: for transforms with steps, event types named once per trigger, and steps that keep the type and the number of events (see C52 for these). C121_twice_refuted: events from a source inside the node run through the server's transforms twice. C121_node_partial: they stay as they are if no transform is configured for them."
  },
  {
   "property": "C122",
   "status": "partial",
   "theorems": [
    "Verif.Blocking.C122_indexed_partial",
    "Verif.Blocking.C122_route_refuted",
    "Verif.Blocking.C122_partition_refuted",
    "Verif.Blocking.C122_store_refuted"
   ],
   "note": "C122_indexed_partial: the indexers have all events, if the index had got all of them when it handled the subscription, and if all are in the partition that is active at the end. C122_route_refuted, C122_partition_refuted, C122_store_refuted: without the first, without the second, and for the store, schedules in which the client gets its answer too early. One client that blocks is modelled; other clients may import."
  },
  {
   "property": "C123",
   "status": "partial",
   "theorems": [
    "Verif.Blocking.C123_ends",
    "Verif.Blocking.C123_starved_refuted"
   ],
   "note": "C123_ends: without new batches, there are at most 10 effective steps per batch and 6 more, and in a state in which nothing can happen the client has its answer. C123_starved_refuted: while others import it may wait for any length."
  },
  {
   "property": "C124",
   "status": "partial",
   "theorems": [
    "Verif.SynopsisStore.C124_extract_refuted",
    "Verif.SynopsisStore.C124_reload_partial",
    "Verif.SynopsisStore.C124_candidates_partial",
    "Verif.SynopsisStore.C124_rate_refuted",
    "Verif.SynopsisStore.C124_name_refuted"
   ],
   "note": "C124_reload_partial, C124_candidates_partial: for columns with names and rates with at most six digits after the point (the default is 0.01); the number of hash functions has 32 bits, and there are less than 2^63 values. C124_rate_refuted: the rate 10^-7 becomes zero in the file, and reading it is undefined. C124_name_refuted: a column without a name is lost. The floating-point functions that size a filter, and the hash function, are parameters of the model. C124_extract_refuted: an entry that cannot be read ends the separate file early, without an error."
  },
  {
   "property": "C125",
   "status": "partial",
   "theorems": [
    "Verif.SynopsisStore.C125_written_partial",
    "Verif.SynopsisStore.C125_rate_refuted",
    "Verif.SynopsisStore.C125_alias_refuted"
   ],
   "note": "C125_written_partial: if the rates are such that a filter can be made for every power of two. C125_rate_refuted: with any rate above one, no partition with a column of strings can be written. C125_alias_refuted: columns whose type is an alias of bool, string or address violate an assertion."
  },
  {
   "property": "C126",
   "status": "partial",
   "theorems": [
    "Verif.SynopsisStore.C126_active_partial",
    "Verif.SynopsisStore.C126_found_partial"
   ],
   "note": "C126_found_partial: under the hypotheses of C124, for all operators but != and !in and for all operands but patterns, for which it is false already before writing (C18_not_equal_refuted, C20_pattern_refuted). C126_active_partial: the same before the synopses are shrunk and written, without the hypotheses of C124."
  },
  {
   "property": "C127",
   "status": "partial",
   "theorems": [
    "Verif.Syslog.C127_offset_partial",
    "Verif.Syslog.C127_rfc_partial",
    "Verif.Syslog.C127_fraction_partial",
    "Verif.Syslog.C127_nil_data_refuted",
    "Verif.Syslog.C127_no_parameters_refuted",
    "Verif.Syslog.C127_control_refuted",
    "Verif.Syslog.C127_mark_refuted",
    "Verif.Syslog.C127_fraction_refuted"
   ],
   "note": "C127_rfc_partial: exact for times of whole seconds, in Universal Time or with an offset, from 1900 to 2261; C127_fraction_partial: with one to six digits of a fraction, in Universal Time, up to one nanosecond less. C127_offset_partial: the same with any offset, up to one nanosecond more or less. All: if there are no structured data then there is a text, elements have parameters, their values have no control characters, and something follows a byte order mark. C127_nil_data_refuted, C127_no_parameters_refuted, C127_control_refuted: without these, a valid message is taken for unknown; C127_mark_refuted: a lone byte order mark becomes the text; C127_fraction_refuted: the nanosecond. Not proved: fractions with an offset."
  },
  {
   "property": "C128",
   "status": "partial",
   "theorems": [
    "Verif.Syslog.C128_line_partial",
    "Verif.Syslog.C128_data_refuted"
   ],
   "note": "C128_line_partial: for all lines and environments; the text of the time is in the line, and is - exactly if the event has no time (which time it is: C127, C83). C128_data_refuted: the structured data are read but dropped, so messages that differ become the same event."
  },
  {
   "property": "C129",
   "status": "partial",
   "theorems": [
    "Verif.Uuid.C129_print",
    "Verif.Uuid.C129_read",
    "Verif.Uuid.C129_round",
    "Verif.Uuid.C129_distinct",
    "Verif.Uuid.C129_digits_refuted",
    "Verif.Uuid.C129_braces_refuted"
   ],
   "note": "C129_print, C129_read, C129_round, C129_distinct: for all UUIDs. C129_digits_refuted: thirty-two characters that are no digits are accepted. C129_braces_refuted: a text in braces is rejected, but accepted if its last character is not a brace."
  },
  {
   "property": "C130",
   "status": "proved",
   "theorems": [
    "Verif.Uuid.C130_random"
   ],
   "note": "C130_random, for the two numbers that the generator draws; their distribution is not modelled."
  },
  {
   "property": "C131",
   "status": "partial",
   "theorems": [
    "Verif.Uuid.C131_candidates_partial",
    "Verif.Uuid.C131_stray_refuted"
   ],
   "note": "C131_candidates_partial: if the directory has nothing but index.bin, synopses and partitions. C131_stray_refuted: a file with another name of thirty-two characters is taken for a partition."
  },
  {
   "property": "C132",
   "status": "partial",
   "theorems": [
    "Verif.Accountant.C132_rows",
    "Verif.Accountant.C132_prompt_partial",
    "Verif.Accountant.C132_exit",
    "Verif.Accountant.C132_exit_refuted",
    "Verif.Accountant.C132_shrink_refuted"
   ],
   "note": "C132_rows: nothing is lost, duplicated or reordered, for all histories. C132_prompt_partial: if the slice size never changes and is not zero, fewer rows than that wait. C132_exit, C132_exit_refuted: at an exit the last slice is finished, but what the importer has not asked for is lost. C132_shrink_refuted: after a change to a smaller slice size rows may wait forever. The arithmetic of doubles is a parameter."
  },
  {
   "property": "C133",
   "status": "partial",
   "theorems": [
    "Verif.Accountant.C133_file_partial",
    "Verif.Accountant.C133_stream_partial",
    "Verif.Accountant.C133_datagram_partial",
    "Verif.Accountant.C133_path_refuted",
    "Verif.Accountant.C133_disable_refuted"
   ],
   "note": "C133_file_partial, C133_stream_partial, C133_datagram_partial: unless the path or the type of an enabled sink changes or a datagram socket is disabled. C133_path_refuted, C133_disable_refuted: otherwise the old sink is used. The text of a line is not modelled; that of JSON is in C46. Failing writes are not modelled, except to files that cannot be opened."
  },
  {
   "property": "C134",
   "status": "partial",
   "theorems": [
    "Verif.Accountant.C134_options_partial",
    "Verif.Accountant.C134_defaults",
    "Verif.Accountant.C134_real_time_refuted",
    "Verif.Accountant.C134_invalid_refuted"
   ],
   "note": "C134_options_partial, C134_defaults: for all options but one. C134_real_time_refuted: file-sink.real-time has no effect. C134_invalid_refuted: invalid values are ignored, and the type of the socket is then indeterminate."
  },
  {
   "property": "C135",
   "status": "partial",
   "theorems": [
    "Verif.Client.C135_read_partial",
    "Verif.Client.C135_only",
    "Verif.Client.C135_number_refuted"
   ],
   "note": "C135_read_partial: for numbers of 16 bits. C135_only: for all texts. C135_number_refuted: other numbers wrap."
  },
  {
   "property": "C136",
   "status": "partial",
   "theorems": [
    "Verif.Client.C136_same",
    "Verif.Client.C136_reach_partial",
    "Verif.Client.C136_default",
    "Verif.Client.C136_protocol_refuted"
   ],
   "note": "C136_same: for all values of the option. C136_reach_partial, C136_default: for TCP. C136_protocol_refuted: with another protocol the node listens and clients fail. Port 0, for which the system chooses one, is not modelled."
  },
  {
   "property": "C137",
   "status": "partial",
   "theorems": [
    "Verif.Client.C137_query",
    "Verif.Client.C137_pivot_partial",
    "Verif.Client.C137_pivot_refuted",
    "Verif.Client.C137_undefined_refuted"
   ],
   "note": "C137_query: for commands that take a query and nothing else. C137_pivot_partial, C137_pivot_refuted, C137_undefined_refuted: vast pivot takes a query from its arguments only, and without arguments its behaviour is undefined."
  },
  {
   "property": "C138",
   "status": "partial",
   "theorems": [
    "Verif.Client.C138_get_partial",
    "Verif.Client.C138_invalid",
    "Verif.Client.C138_large_refuted"
   ],
   "note": "C138_get_partial, C138_invalid: for numbers of 64 bits, given that the archive answers. C138_large_refuted: larger numbers of twenty digits wrap."
  },
  {
   "property": "C139",
   "status": "partial",
   "theorems": [
    "Verif.Client.C139_status_partial",
    "Verif.Client.C139_cleanup",
    "Verif.Client.C139_ends",
    "Verif.Client.C139_late_refuted"
   ],
   "note": "C139_status_partial: for the messages seen before the end. C139_cleanup, C139_ends: for all sequences. C139_late_refuted: a sink that fails after the exporter is done is not noticed."
  },
  {
   "property": "C140",
   "status": "partial",
   "theorems": [
    "Verif.Infer.C140_import_partial",
    "Verif.Infer.C140_own_partial",
    "Verif.Infer.C140_lines_refuted",
    "Verif.Infer.C140_lost_refuted"
   ],
   "note": "C140_import_partial, C140_own_partial: for the first line, if it is not longer than the buffer and alone or followed by \\r\\n, distinct names without dots, lists of one shape and the texts of Alike. C140_lines_refuted: no schema for several lines that end in \\n. C140_lost_refuted: a list of different things, an empty object and names that differ by a dot lose values."
  },
  {
   "property": "C141",
   "status": "partial",
   "theorems": [
    "Verif.Infer.C141_text_partial",
    "Verif.Infer.C141_unread_refuted"
   ],
   "note": "C141_text_partial: for events without nulls, empty lists or empty objects and with names that schemas allow. C141_unread_refuted: the text of other events is rejected."
  },
  {
   "property": "C142",
   "status": "partial",
   "theorems": [
    "Verif.Infer.C142_types_partial",
    "Verif.Infer.C142_word_refuted"
   ],
   "note": "C142_types_partial: for the texts of Kind. C142_word_refuted: 2021-02 is a time, and 7 d a duration."
  },
  {
   "property": "C143",
   "status": "partial",
   "theorems": [
    "Verif.Broker.C143_row_partial",
    "Verif.Broker.C143_only_partial",
    "Verif.Broker.C143_truncated",
    "Verif.Broker.C143_negative_size_refuted",
    "Verif.Broker.C143_subnet_refuted",
    "Verif.Broker.C143_time_refuted"
   ],
   "note": "C143_row_partial: for rows in the format, with times up to 285 years around 1970 and subnets with a length that their family has; times are within the precision of a double. C143_only_partial: what is accepted is in the format, but also such subnets and times. C143_truncated is complete. C143_negative_size_refuted: a negative size throws; C143_subnet_refuted: a length of 33 gives ::/0; C143_time_refuted: a NaN is undefined behaviour."
  },
  {
   "property": "C144",
   "status": "partial",
   "theorems": [
    "Verif.Broker.C144_layout_partial",
    "Verif.Broker.C144_rejected",
    "Verif.Broker.C144_values",
    "Verif.Broker.C144_func_refuted",
    "Verif.Broker.C144_set_refuted"
   ],
   "note": "C144_layout_partial: for fields with the twelve plain types and lists of these. C144_rejected and C144_values are complete. C144_func_refuted: values of func and file are read, but columns are refused; C144_set_refuted: sets and vectors get the same type."
  },
  {
   "property": "C145",
   "status": "partial",
   "theorems": [
    "Verif.Broker.C145_rows_partial",
    "Verif.Broker.C145_slices",
    "Verif.Broker.C145_error_refuted",
    "Verif.Broker.C145_events_refuted",
    "Verif.Broker.C145_columns_refuted"
   ],
   "note": "C145_rows_partial: if rows have the columns of the last announcement of their stream and columns have types (Orderly), and messages have less than 4 GB. C145_slices: for any messages. C145_error_refuted: the messages behind an unknown type are lost; C145_events_refuted: a batch exceeds the number of events; C145_columns_refuted: a row with too few columns fails an assertion."
  },
  {
   "property": "C146",
   "status": "proved",
   "theorems": [
    "Verif.Chunk.C146_read",
    "Verif.Chunk.C146_order",
    "Verif.Chunk.C146_not_early",
    "Verif.Chunk.C146_complete",
    "Verif.Chunk.C146_deletion",
    "Verif.Chunk.C146_enabled",
    "Verif.Chunk.C146_ends"
   ],
   "note": "References are counted atomically (caf::ref_counted is trusted); deletion steps do not throw (the code requires noexcept) and are added by one thread at a time. Slicing asserts that it begins within the chunk, see C146_enabled."
  },
  {
   "property": "C147",
   "status": "partial",
   "theorems": [
    "Verif.Chunk.C147_roundtrip_partial",
    "Verif.Chunk.C147_null",
    "Verif.Chunk.C147_injective",
    "Verif.Chunk.C147_sound",
    "Verif.Chunk.C147_empty_refuted",
    "Verif.Chunk.C147_truncated_refuted",
    "Verif.Chunk.C147_large_refuted"
   ],
   "note": "C147_roundtrip_partial: for chunks that are not empty and below 4 GB. C147_null, C147_injective and C147_sound are complete. C147_empty_refuted: an empty chunk arrives as none; C147_truncated_refuted: every message that is cut off within the bytes arrives as none, without an error; C147_large_refuted: larger chunks throw."
  },
  {
   "property": "C148",
   "status": "partial",
   "theorems": [
    "Verif.Chunk.C148_whole",
    "Verif.Chunk.C148_sound",
    "Verif.Chunk.C148_all_or_nothing",
    "Verif.Chunk.C148_shrunk",
    "Verif.Chunk.C148_mmap_partial",
    "Verif.Chunk.C148_empty_refuted",
    "Verif.Chunk.C148_mixed_refuted"
   ],
   "note": "C148_whole, C148_sound, C148_all_or_nothing and C148_shrunk are complete; calls that were interrupted do not appear. C148_mmap_partial: for files that are not empty. C148_empty_refuted: an empty file can be read but not mapped; C148_mixed_refuted: a file that changes meanwhile can give a mixture."
  },
  {
   "property": "C149",
   "status": "partial",
   "theorems": [
    "Verif.Chunk.C149_counts",
    "Verif.Chunk.C149_bytes_partial",
    "Verif.Chunk.C149_bytes_refuted"
   ],
   "note": "C149_counts is complete. C149_bytes_partial: the bytes are those that were moved plus one per successful request; C149_bytes_refuted: so the number is wrong as soon as there was one."
  },
  {
   "property": "C150",
   "status": "partial",
   "theorems": [
    "Verif.TestGen.C150_exact",
    "Verif.TestGen.C150_slices",
    "Verif.TestGen.C150_turns",
    "Verif.TestGen.C150_names",
    "Verif.TestGen.C150_names_refuted",
    "Verif.TestGen.C150_again_refuted"
   ],
   "note": "C150_exact (which includes that no assertion fails and no distribution is missing), C150_slices, C150_turns and C150_names are complete for calls with positive numbers, which `read` requires. C150_names_refuted: `test.a.` is taken for a test layout; C150_again_refuted: a call after the end makes the last events again. Adding rows to the builder is taken to succeed; what random numbers are drawn is left open."
  },
  {
   "property": "C151",
   "status": "partial",
   "theorems": [
    "Verif.TestGen.C151_columns_partial",
    "Verif.TestGen.C151_subnet_refuted",
    "Verif.TestGen.C151_list_refuted"
   ],
   "note": "C151_columns_partial: for layouts in which only columns that are filled from samples have a distribution. C151_subnet_refuted, C151_list_refuted: a distribution of a subnet, a list or the like is not used, and the next column gets it."
  },
  {
   "property": "C152",
   "status": "partial",
   "theorems": [
    "Verif.TestGen.C152_exact",
    "Verif.TestGen.C152_null",
    "Verif.TestGen.C152_digits_refuted",
    "Verif.TestGen.C152_read",
    "Verif.TestGen.C152_refused",
    "Verif.TestGen.C152_bounds_refuted",
    "Verif.TestGen.C152_hidden_refuted",
    "Verif.TestGen.C152_builtin_refuted"
   ],
   "note": "C152_exact and C152_null say exactly which attributes are accepted and what they mean, for all attributes; C152_read and C152_refused are consequences. C152_digits_refuted: the 21st digit of a number is taken for its first decimal place. C152_bounds_refuted: uniform(10,0) is accepted; C152_hidden_refuted: an attribute without a value hides a later one; C152_builtin_refuted: the built-in schema draws its counts from pareto(0,1), whose samples are infinite."
  },
  {
   "property": "C153",
   "status": "partial",
   "theorems": [
    "Verif.Options.C153_reads",
    "Verif.Options.C153_sound",
    "Verif.Options.C153_fits_partial",
    "Verif.Options.C153_overflow_refuted"
   ],
   "note": "C153_reads (value modulo 2^64) and C153_sound (nothing else is accepted) are complete for all texts; C153_fits_partial is the claim for products below 2^64. C153_overflow_refuted: 16EiB is read as 0."
  },
  {
   "property": "C154",
   "status": "partial",
   "theorems": [
    "Verif.Options.C154_started",
    "Verif.Options.C154_disabled",
    "Verif.Options.C154_refuted",
    "Verif.Options.C154_valid"
   ],
   "note": "C154_started is an equivalence for all options and C154_valid connects it with the disk monitor's own requirement (C42); C154_disabled covers a missing budget. C154_refuted: a budget of 16EiB silently disables the monitor, a low-water mark alone is an error, intervals of zero or less are accepted, a step of another type is ignored."
  },
  {
   "property": "C155",
   "status": "partial",
   "theorems": [
    "Verif.Options.C155_options_partial",
    "Verif.Options.C155_refuted"
   ],
   "note": "C155_options_partial is an equivalence for options that are texts, for any parser of durations. C155_refuted: a field that is no text is accepted and ignored, so that there is no constraint; negative times are accepted beside another constraint."
  },
  {
   "property": "C156",
   "status": "partial",
   "theorems": [
    "Verif.Options.C156_listen",
    "Verif.Options.C156_file",
    "Verif.Options.C156_protocol_refuted",
    "Verif.Options.C156_reads_partial",
    "Verif.Options.C156_zero_refuted"
   ],
   "note": "C156_listen and C156_file are complete for all options. C156_reads_partial requires that the product of credit and slice size fits into 64 bits, or that slices are unlimited, and that not all events were read. C156_protocol_refuted: an endpoint without protocol is refused; C156_zero_refuted: `-n 0` and a batch size of 2^63 fail an assertion. The readers and the stream are not part of this."
  },
  {
   "property": "C157",
   "status": "partial",
   "theorems": [
    "Verif.ArrowWriter.C157_read_partial",
    "Verif.ArrowWriter.C157_all_partial",
    "Verif.ArrowWriter.C157_end_refuted",
    "Verif.ArrowWriter.C157_empty_refuted"
   ],
   "note": "C157_read_partial (for every pattern of failures) and C157_all_partial are for slices with at least one column; a failed operation is taken to leave nothing in the output, and Arrow's encoding itself is trusted. C157_end_refuted: the last stream is never ended; C157_empty_refuted: a slice without columns dereferences a null pointer."
  },
  {
   "property": "C158",
   "status": "proved",
   "theorems": [
    "Verif.VectorMap.C158_find",
    "Verif.VectorMap.C158_reports",
    "Verif.VectorMap.C158_order"
   ],
   "note": "Complete, for any type of keys and values and any history (sets are maps to the unit type). The values of moved-from elements are arbitrary."
  },
  {
   "property": "C159",
   "status": "proved",
   "theorems": [
    "Verif.VectorMap.C159_find",
    "Verif.VectorMap.C159_reports",
    "Verif.VectorMap.C159_order",
    "Verif.VectorMap.C159_equal"
   ],
   "note": "Complete, for any strict total order."
  },
  {
   "property": "C160",
   "status": "partial",
   "theorems": [
    "Verif.VectorMap.C160_equal_partial",
    "Verif.VectorMap.C160_equal_refuted",
    "Verif.VectorMap.C160_unnamed_refuted"
   ],
   "note": "C160_equal_partial characterizes equality of stable maps: same contents and same order of insertion. C160_equal_refuted: the same contents inserted in another order are not equal; C160_unnamed_refuted: a record of unnamed fields has its key several times, and erasing it leaves entries that were moved from."
  },
  {
   "property": "C161",
   "status": "partial",
   "theorems": [
    "Verif.Output.C161_prefix",
    "Verif.Output.C161_flush",
    "Verif.Output.C161_all",
    "Verif.Output.C161_reported_refuted",
    "Verif.Output.C161_interrupted_refuted"
   ],
   "note": "C161_prefix, C161_flush and C161_all hold for every behaviour of write(2). The claim as a whole is partial: C161_reported_refuted (the number of processed events counts events that never arrived, and no error is reported) and C161_interrupted_refuted (after one short write nothing else is written)."
  },
  {
   "property": "C162",
   "status": "partial",
   "theorems": [
    "Verif.Output.C162_whole",
    "Verif.Output.C162_command",
    "Verif.Output.C162_sound",
    "Verif.Output.C162_command_refuted",
    "Verif.Output.C162_files",
    "Verif.Output.C162_throws_refuted"
   ],
   "note": "C162_whole, C162_command and C162_sound cover commands (numbers of up to 20 digits below 2^64 in C162_command; sound for all outputs), C162_files traversals without failure whose sum fits into 64 bits. C162_command_refuted: no output is undefined behaviour, a failing exit status is ignored, the output of plain `du` is refused; C162_throws_refuted: a failing traversal throws."
  },
  {
   "property": "C163",
   "status": "partial",
   "theorems": [
    "Verif.Signals.C163_genuine",
    "Verif.Signals.C163_once",
    "Verif.Signals.C163_delivered_partial",
    "Verif.Signals.C163_lost_refuted"
   ],
   "note": "C163_genuine and C163_once hold for every interleaving. C163_delivered_partial requires that the monitor makes no step between the two writes of a handler; C163_lost_refuted shows that otherwise a request to terminate is never passed on. Memory is sequentially consistent, as the code asks for."
  },
  {
   "property": "C164",
   "status": "proved",
   "theorems": [
    "Verif.Crc.C164_standard",
    "Verif.Crc.C164_pieces",
    "Verif.Crc.C164_burst",
    "Verif.Crc.C164_byte"
   ],
   "note": "Complete for calls of less than 2^31 bytes each (the code asserts this). The specification is the bitwise division by the CRC-32 polynomial; the table is compared with it in all 256 entries, exhaustively."
  },
  {
   "property": "C165",
   "status": "partial",
   "theorems": [
    "Verif.Project.C165_find_partial",
    "Verif.Project.C165_rows_partial",
    "Verif.Project.C165_invalid",
    "Verif.Project.C165_container_refuted",
    "Verif.Project.C165_size_refuted"
   ],
   "note": "C165_find_partial requires a layout without empty records (for which C49 shows that the enumeration fails) and covers the types that are checked; C165_rows_partial requires that values are of the type of their column. C165_container_refuted: asking for a list in a text column is not noticed and throws out of a noexcept function; C165_size_refuted: the size of an invalid view is the number of rows although iterating gives none."
  },
  {
   "property": "C166",
   "status": "proved",
   "theorems": [
    "Verif.Arith.C166_narrow"
   ],
   "note": "Complete for all integral types, of any positive width. The throwing of the error is modelled as `none`."
  },
  {
   "property": "C167",
   "status": "proved",
   "theorems": [
    "Verif.Arith.C167_pow",
    "Verif.Arith.C167_ilog"
   ],
   "note": "Complete. The exponent of the power is any natural number."
  },
  {
   "property": "C168",
   "status": "partial",
   "theorems": [
    "Verif.Select.C168_layout_partial",
    "Verif.Select.C168_single_partial",
    "Verif.Select.C168_dotted_refuted",
    "Verif.Select.C168_trailing_refuted",
    "Verif.Select.C168_stale_refuted"
   ],
   "note": "C168_layout_partial holds for every history of schemas and events, if no name of a type ends in a dot; C168_single_partial for one schema with distinct names. C168_dotted_refuted: types with a dot in their name are not found; C168_trailing_refuted: a name that ends in a dot takes the place of the one without; C168_stale_refuted: layouts that the new schema does not have stay in use."
  },
  {
   "property": "C169",
   "status": "partial",
   "theorems": [
    "Verif.Select.C169_once",
    "Verif.Select.C169_reported",
    "Verif.Select.C169_genuine",
    "Verif.Select.C169_repeated_refuted"
   ],
   "note": "C169_once, C169_reported and C169_genuine hold for every history. C169_repeated_refuted: a value that is not a text is reported each time, and a type that is reported once is not reported again after the schema changed."
  },
  {
   "property": "C170",
   "status": "partial",
   "theorems": [
    "Verif.Dir.C170_listing",
    "Verif.Dir.C170_limit",
    "Verif.Dir.C170_order",
    "Verif.Dir.C170_unreadable_refuted",
    "Verif.Dir.C170_directory_refuted"
   ],
   "note": "C170_listing, C170_limit and C170_order hold for all trees whose directories can be read and whose siblings have distinct names. C170_unreadable_refuted: an unreadable directory below throws an exception; C170_directory_refuted: directories are listed among the files. Changes during the listing are not modelled; symbolic links count as files."
  },
  {
   "property": "C171",
   "status": "partial",
   "theorems": [
    "Verif.Uri.C171_only",
    "Verif.Uri.C171_key_refuted",
    "Verif.Uri.C171_roundtrip_partial",
    "Verif.Uri.C171_host_refuted",
    "Verif.Uri.C171_fragment_refuted",
    "Verif.Uri.C171_path_refuted",
    "Verif.Uri.C171_empty_refuted",
    "Verif.Uri.C171_unreadable_refuted",
    "Verif.Uri.C171_port_refuted"
   ],
   "note": "C171_roundtrip_partial: for all URIs of Spec.Readable, which have a path, no characters in the scheme, host, path and fragment that would need an escape, and any bytes in the keys and values of the query, which must not be empty. The refutations: the host and the fragment are escaped when written but not unescaped when read (C171_host_refuted, C171_fragment_refuted); the path is the other way round (C171_path_refuted); no path and a path beginning with an empty segment (C171_empty_refuted); empty values, and ports after nothing (C171_unreadable_refuted); ports of more than 16 bits wrap (C171_port_refuted). C171_only: nothing else is read; every accepted text is a scheme, host, port, path, query and fragment of Spec.Text, with their meanings. C171_key_refuted: the key of a parameter swallows those before it that have no value."
  },
  {
   "property": "C172",
   "status": "partial",
   "theorems": [
    "Verif.SynopsisStore.C172_honoured",
    "Verif.SynopsisStore.C172_otherwise",
    "Verif.SynopsisStore.C172_wrap_refuted"
   ],
   "note": "C172_honoured, C172_otherwise: exactly the texts of Spec.Says, which count up to 20 digits modulo 2^64, in the first attribute of the name with a value; for columns of strings and addresses that are not aliases. C172_otherwise is about options that set a capacity and buffering, as the active partition does. C172_wrap_refuted: 18446744073709551617 is taken for 1, and a blank makes the text have no effect, without an error."
  },
  {
   "property": "C173",
   "status": "partial",
   "theorems": [
    "Verif.SynopsisStore.C173_skipped_partial",
    "Verif.SynopsisStore.C173_kept",
    "Verif.SynopsisStore.C173_string_refuted"
   ],
   "note": "C173_skipped_partial: for all columns but strings (aliases of strings included). C173_kept: other columns of Booleans and times have one. C173_string_refuted: strings share one synopsis for each type, and types are the same here if they differ in attributes; the mark of the first column decides for all of them."
  },
  {
   "property": "C174",
   "status": "partial",
   "theorems": [
    "Verif.Http.C174_only",
    "Verif.Http.C174_read_partial",
    "Verif.Http.C174_header",
    "Verif.Http.C174_rejected_refuted"
   ],
   "note": "C174_only: every accepted text is a request of Spec.RequestText with a URI of C171_only. C174_read_partial: all of those requests are read if the URI is one of C171_roundtrip_partial and written by the printer. C174_header: lookup. C174_rejected_refuted: a header or a query parameter without a value and a body with line ends are rejected. The version is the literal, not the double made of it."
  },
  {
   "property": "C175",
   "status": "partial",
   "theorems": [
    "Verif.Http.C175_message_partial",
    "Verif.Http.C175_headers_refuted",
    "Verif.Http.C175_split_refuted"
   ],
   "note": "C175_message_partial: for responses with at least one header and without carriage returns in the protocol, status and headers; the text of the version is a parameter. message_unique: a message is read in one way only. C175_headers_refuted: without headers, the body gets a line end in front. C175_split_refuted: line ends in a value add headers."
  },
  {
   "property": "C176",
   "status": "partial",
   "theorems": [
    "Verif.Arena.C176_blocks_partial",
    "Verif.Arena.C176_returned",
    "Verif.Arena.C176_reused",
    "Verif.Arena.C176_reset",
    "Verif.Arena.C176_wrap_refuted",
    "Verif.Arena.C176_elements_refuted"
   ],
   "note": "C176_blocks_partial, C176_returned, C176_reused, C176_reset: histories in which no request needs more than 64 bits when rounded up, each block is returned once with its size, and reset is called with no block of the arena in use; operator new returns memory that nobody owns. C176_wrap_refuted, C176_elements_refuted: a request of almost 2^64 bytes, or whose size in bytes is 2^64, succeeds without reserving anything."
  },
  {
   "property": "C177",
   "status": "proved",
   "theorems": [
    "Verif.HashAppend.C177_equal",
    "Verif.HashAppend.C177_total",
    "Verif.HashAppend.C177_different",
    "Verif.HashAppend.C177_row"
   ],
   "note": "C177_equal, C177_total, C177_different, C177_row. Real numbers count as equal if they have the same bits or both are zeros. Tuples, C arrays, pointers and vectors of Booleans are not modelled, nor is the inspection of variants by the actor framework; no container has 2^64 elements. The layout of pairs is that of the usual ABI, on a machine that stores the lowest byte first."
  },
  {
   "property": "C178",
   "status": "partial",
   "theorems": [
    "Verif.HashAppend.C178_unordered_partial",
    "Verif.HashAppend.C178_unordered_refuted",
    "Verif.HashAppend.C178_types_refuted"
   ],
   "note": "C178_unordered_partial: the bytes are equal exactly if the elements come in the same order. C178_unordered_refuted: equal sets with different orders. C178_types_refuted: a text and a list of characters."
  },
  {
   "property": "C179",
   "status": "partial",
   "theorems": [
    "Verif.ZeekFiles.C179_output_partial",
    "Verif.ZeekFiles.C179_files_partial",
    "Verif.ZeekFiles.C179_directory",
    "Verif.ZeekFiles.C179_layouts_refuted",
    "Verif.ZeekFiles.C179_open_refuted",
    "Verif.ZeekFiles.C179_glued_refuted"
   ],
   "note": "C179_output_partial: on the standard output, with at most the last slice failing. C179_files_partial: in a directory, if names determine layouts, files can be opened and at most the last slice fails. C179_directory: without a directory every call fails and nothing is written. C179_layouts_refuted: a second layout with the same name is written behind the header of the first. C179_open_refuted: if a file cannot be opened, writing succeeds and nothing is written; only flushing reports it. C179_glued_refuted: the beginning of a row that could not be printed is put in front of the next row. The text of rows and headers is that of C97; the line at the end of a log, names of layouts that contain slashes and full disks are not modelled."
  },
  {
   "property": "C180",
   "status": "partial",
   "theorems": [
    "Verif.Combinator.C180_result_partial",
    "Verif.Combinator.C180_guard_refuted",
    "Verif.Combinator.C180_skip_refuted"
   ],
   "note": "C180_result_partial: for parsers without skip whose loops, options, differences and sequence choices are not directly about guards (Spec.proper); the specification determines the answer. C180_guard_refuted: a guard that rejects has consumed what it rejects. C180_skip_refuted: as many characters as are left cannot be skipped. What a guard sees is given by the text consumed; attributes are not modelled, and neither are rules, that is recursive grammars. The parsers that are modelled elsewhere have models of their own."
  },
  {
   "property": "C181",
   "status": "partial",
   "theorems": [
    "Verif.Combinator.C181_ends_partial",
    "Verif.Combinator.C181_forever_refuted"
   ],
   "note": "C181_ends_partial: if every loop is about a parser that consumes something when it succeeds (Spec.bounded, a check of the expression), in at most as many iterations as there are characters, plus one. C181_forever_refuted: a loop about an option never ends. Recursive grammars are not modelled."
  },
  {
   "property": "C182",
   "status": "partial",
   "theorems": [
    "Verif.Combinator.Text.C182_text_partial",
    "Verif.Combinator.Text.C182_character_partial",
    "Verif.Combinator.Text.C182_unused_partial",
    "Verif.Combinator.Text.C182_overwritten_refuted",
    "Verif.Combinator.Text.C182_residue_refuted",
    "Verif.Combinator.Text.C182_garbage_refuted"
   ],
   "note": "C182_text_partial, C182_character_partial, C182_unused_partial: for parsers in which nothing that replaces text (a choice, a text) comes after something kept, alternatives have the same type, and what is optional stores nothing before it fails (Spec.proper, a check of the expression). C182_overwritten_refuted: otherwise what came before is lost. C182_residue_refuted: an option that fails leaves what it stored. C182_garbage_refuted: in a loop over a choice with an ignored alternative, every ignored element adds an uninitialised character. Attributes other than characters and texts (tuples, variants, vectors of texts) have no type in the model; that parsing ends is C181."
  },
  {
   "property": "C183",
   "status": "partial",
   "theorems": [
    "Verif.Grammar.C183_meaning_partial",
    "Verif.Grammar.C183_unique"
   ],
   "note": "C183_meaning_partial: an answer after finitely many calls exactly if there is a derivation in the natural semantics of parsing expression grammars; C183_unique: there is at most one. For grammars without guards and skip; attributes are not modelled. Parsers without rules may be any functions from texts to rests, and do not move if they fail. That rules outlive references to them is assumed."
  },
  {
   "property": "C184",
   "status": "partial",
   "theorems": [
    "Verif.Grammar.C184_ends_partial",
    "Verif.Grammar.C184_query",
    "Verif.Grammar.C184_sigma",
    "Verif.Grammar.C184_data",
    "Verif.Grammar.C184_left_recursion_refuted",
    "Verif.Grammar.C184_type_refuted"
   ],
   "note": "C184_ends_partial: if calls before anything is consumed go down in some order of the rules, and loops are about parsers that consume something (Spec.WellFormed). C184_query, C184_data, C184_sigma: so for these three grammars of VAST, whatever texts the parsers of predicates, scalars, names and searches accept, provided that they do not lengthen the text. C184_left_recursion_refuted: a rule that begins with itself never ends. C184_type_refuted: the grammar of types is such a grammar; parsing a type does not end if the text is empty or begins with a character that is in no name."
  },
  {
   "property": "C185",
   "status": "partial",
   "theorems": [
    "Verif.Printer.C185_succeeds",
    "Verif.Printer.C185_text_partial",
    "Verif.Printer.C185_list_partial",
    "Verif.Printer.C185_residue_refuted",
    "Verif.Printer.C185_lookahead_refuted"
   ],
   "note": "C185_succeeds: for all printers, success is that the value has a text (Spec.text, a function of the expression and the value). C185_text_partial, C185_list_partial: and the text is what is written, for printers in which nothing that fails before an alternative has written, and look-ahead is about printers that write nothing (Spec.proper, a check of the expression). C185_residue_refuted, C185_lookahead_refuted: otherwise leftovers stay in the output. The types of values are those of Lean; sequences of more than two values are nested pairs, and choices between equal types are left out. Printers of numbers, addresses and so on have models of their own."
  },
  {
   "property": "C186",
   "status": "partial",
   "theorems": [
    "Verif.Commands.C186_explore",
    "Verif.Commands.C186_pivot",
    "Verif.Commands.C186_export_partial",
    "Verif.Commands.C186_export_refuted",
    "Verif.Commands.C186_import_partial"
   ],
   "note": "C186_explore, C186_pivot: for all failing steps and messages. C186_export_partial: if the node answers the question for its accountant; C186_export_refuted: otherwise the exporter is left in the node. C186_import_partial: hypothesis that no flush comes before the source is down (nobody is asked to send one earlier). Exporters and explorers also count as settled when the node is down. That an actor that is told to stop does so is not part of this."
  },
  {
   "property": "C187",
   "status": "partial",
   "theorems": [
    "Verif.Commands.C187_explore",
    "Verif.Commands.C187_pivot",
    "Verif.Commands.C187_export",
    "Verif.Commands.C187_import_partial",
    "Verif.Commands.C187_import_refuted",
    "Verif.Commands.C187_cause"
   ],
   "note": "C187_explore, C187_pivot, C187_export: success means that no step failed, no timeout passed, and no actor that the command saw go down had an error. C187_import_partial: without the reason of the source; C187_import_refuted: a source that died of an error is a success. C187_cause: every error returned has a cause, for all four commands."
  },
  {
   "property": "C188",
   "status": "partial",
   "theorems": [
    "Verif.Commands.C188_explore",
    "Verif.Commands.C188_export",
    "Verif.Commands.C188_import_partial",
    "Verif.Commands.C188_interrupt",
    "Verif.Commands.C188_interrupt_refuted"
   ],
   "note": "C188_explore (also pivot), C188_export, C188_import_partial: the messages that end a command, under the hypothesis that DOWN messages come only from actors that the command knows of (others are a failed assertion). C188_interrupt: signals tell the actors of export and import to stop. C188_interrupt_refuted: a blocking import whose source is down ignores signals."
  },
  {
   "property": "C189",
   "status": "partial",
   "theorems": [
    "Verif.Digest.C189_enough_partial",
    "Verif.Digest.C189_huge",
    "Verif.Digest.C189_one_refuted",
    "Verif.Digest.C189_default"
   ],
   "note": "C189_enough_partial: for cardinalities from 2 on; the width is enough, or 8 bytes, and one byte less is not enough. C189_huge: negative numbers. C189_default: without a cardinality. C189_one_refuted: in partitions for one event (or none) there is no index, and the indexer terminates. That enough means as many digests as pairs of values is from the comment in the code."
  },
  {
   "property": "C190",
   "status": "proved",
   "theorems": [
    "Verif.Digest.C190_ispow2",
    "Verif.Digest.C190_floor2",
    "Verif.Digest.C190_ceil2",
    "Verif.Digest.C190_log2p1"
   ],
   "note": "For int64_t, the type that is used; values are non-negative and below 2^63. __builtin_clzl is modelled by what it returns. In ceil2, the shift that overflows is an outcome of its own."
  },
  {
   "property": "C191",
   "status": "partial",
   "theorems": [
    "Verif.Notify.C191_ready_partial",
    "Verif.Notify.C191_abstract_refuted",
    "Verif.Notify.C191_long",
    "Verif.Notify.C191_once",
    "Verif.Notify.C191_error",
    "Verif.Notify.C191_socket_refuted"
   ],
   "note": "C191_ready_partial: for paths of up to 107 bytes. C191_abstract_refuted: abstract sockets are never reached, since the leading @ is not replaced by NUL. C191_long: longer ones are an error, and nothing is sent. C191_once: the variable is removed, a second call does nothing. C191_error: an error exactly if there is a variable and nothing was sent. C191_socket_refuted: the socket is not closed. What the kernel makes of an address is part of the model (unix(7))."
  },
  {
   "property": "C192",
   "status": "partial",
   "theorems": [
    "Verif.Notify.C192_recognized",
    "Verif.Notify.C192_only",
    "Verif.Notify.C192_wrapped_refuted"
   ],
   "note": "C192_recognized: the decimal texts of the numbers are recognized. C192_only: whatever is recognized are digits that stand for these numbers modulo 2^64. C192_wrapped_refuted: so other devices are, if their number does not fit into 64 bits (the system has none such)."
  },
  {
   "property": "C193",
   "status": "partial",
   "theorems": [
    "Verif.Logging.C193_console_partial",
    "Verif.Logging.C193_file_partial",
    "Verif.Logging.C193_trace_refuted",
    "Verif.Logging.C193_starts",
    "Verif.Logging.C193_client"
   ],
   "note": "C193_console_partial, C193_file_partial: exactly the messages up to the verbosity, in exactly the file that is specified. Missing: messages for tracing with the verbosity debug, which are logged, too (C193_trace_refuted). C193_starts: refused exactly if a text names no level. C193_client: no file for clients without an option. Errors when files and directories are created, rotation and formats are not modelled."
  }
 ]
}