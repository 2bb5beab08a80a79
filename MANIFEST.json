{
 "claims": [
  {
   "property": "C01",
   "status": "partial",
   "theorems": [
    "TFT.mean_var_schedule_independent",
    "TFT.sparse_mean_var_schedule_independent_partial",
    "TFT.sparse_mean_var_wrong"
   ],
   "note": "Proved in full for dense batches and for reduce_instance_dims=True (NaN/inf values are ignored as documented). For elementwise statistics of SparseTensors the code violates the property when a NaN/inf value is present (proved by witness); proved without such values."
  },
  {
   "property": "C02",
   "status": "partial",
   "theorems": [
    "TFT.sum_schedule_independent",
    "TFT.size_schedule_independent",
    "TFT.count_per_key_schedule_independent",
    "TFT.per_key_is_analysis",
    "TFT.split_ok_iff",
    "TFT.merge_outputs_spec",
    "TFT.merge_outputs_too_few",
    "TFT.np_add_ok_iff",
    "TFT.np_merge_ok_iff",
    "TFT.TypedSum.integer_sum_is_exact",
    "TFT.TypedSum.sum_of_64_bits_is_total_modulo",
    "TFT.TypedSum.size_is_exact",
    "TFT.TypedSum.sum_accepts_iff",
    "TFT.TypedSum.narrow_sum_depends_on_batches"
   ],
   "note": "size and count_per_key: complete. sum: complete in exact arithmetic and for integers of 64 bits (modulo 2^64); for smaller integers proved if no batch overflows the type of the column. Otherwise the claim is false of the code: a batch is summed in the small type before it is widened (narrow_sum_depends_on_batches). No batch at all for a tensor of unknown static shape is excluded. count_per_key: all runs of both CombinePerKey stages; per_key_is_analysis reduces every per-key analyzer to the ordinary one."
  },
  {
   "property": "C03",
   "status": "partial",
   "theorems": [
    "TFT.float_min_max_partial",
    "TFT.float_elementwise_min_max",
    "TFT.sparse_float_min_max",
    "TFT.int_min_max_partial",
    "TFT.int_elementwise_min_max_partial",
    "TFT.uint_min_max_partial",
    "TFT.uint_elementwise_min_max",
    "TFT.float_max_wrong",
    "TFT.int_max_wrong",
    "TFT.int_min_wrong",
    "TFT.uint8_max_wrong",
    "TFT.int16_min_max_partial",
    "TFT.int16_elementwise_min_max_partial",
    "TFT.int16_max_wrong"
   ],
   "note": "The code violates the property when a batch reduction equals the combiner's default value (witnesses *_wrong). Proved for all other data, and without restriction for elementwise float, sparse float and elementwise uint."
  },
  {
   "property": "C04",
   "status": "proved",
   "theorems": [
    "TFT.covariance_schedule_independent"
   ],
   "note": "exact arithmetic"
  },
  {
   "property": "C05",
   "status": "proved",
   "theorems": [
    "TFT.weighted_mean_schedule_independent"
   ],
   "note": "exact arithmetic; weights not negative"
  },
  {
   "property": "C06",
   "status": "proved",
   "theorems": [
    "TFT.l_moments_schedule_independent",
    "TFT.batch_l_moment",
    "TFT.l_params_spec"
   ],
   "note": "exact arithmetic; batches with at least one value per column; also: each batch L-moment is the average contrast over all selections"
  },
  {
   "property": "C07",
   "status": "proved",
   "theorems": [
    "TFT.packed_equals_separate",
    "TFT.ValidPackedRun.own",
    "TFT.extract_keys_spec"
   ],
   "note": "any packed run's output for every label equals the output of that combiner run alone on the schedule projected from the packed run, which is itself a valid run"
  },
  {
   "property": "C08",
   "status": "proved",
   "theorems": [
    "TFT.cached_view_is_execution",
    "TFT.cached_analysis_is_analysis",
    "TFT.mean_var_with_cache",
    "TFT.cached_run_effects",
    "TFT.cached_datasets_not_read",
    "TFT.cache_after_run"
   ],
   "note": "every history of runs and deletions of cache entries; the coder must round-trip (C27); cache entry keys are taken as given (hash collisions not modelled)"
  },
  {
   "property": "C09",
   "status": "proved",
   "theorems": [
    "TFT.Vocab.vocabulary_contents"
   ],
   "note": "all data, thresholds, top_k accepted by the API, all divisions and runs; tokens that a text file cannot hold are dropped as documented; fp sums are exact"
  },
  {
   "property": "C10",
   "status": "proved",
   "theorems": [
    "TFT.Vocab.reserved_tokens_first"
   ],
   "note": "also with labels, coverage and shuffling; the placeholder of an otherwise empty vocabulary is kept with top_k and dropped without (both covered by the statement)"
  },
  {
   "property": "C100",
   "status": "proved",
   "theorems": [
    "TFT.OutputCache.output_cache_holds_what_is_written",
    "TFT.OutputCache.output_cache_is_made_iff",
    "TFT.OutputCache.metadata_are_of_own_data",
    "TFT.Graph.Optimize.output_cache_of_a_run",
    "TFT.Graph.Optimize.written_reads"
   ],
   "note": "For all dicts of entries to be written. Joined with the model of C60 in output_cache_of_a_run, under the assumptions of C60; datasets with all their entries in the input cache need not be read. Building the pipeline for a node is a function here that can fail; the packing of combiners between the two steps (C64) is not included."
  },
  {
   "property": "C101",
   "status": "proved",
   "theorems": [
    "TFT.ApiUse.outermost_calls_are_counted"
   ],
   "note": "For functions traced by one thread in one graph: calls in functions that TensorFlow traces in graphs of their own are not modelled."
  },
  {
   "property": "C11",
   "status": "proved",
   "theorems": [
    "TFT.Vocab.vocabulary_never_empty",
    "TFT.Lookup.empty_vocabulary_line"
   ],
   "note": "every parameter setting"
  },
  {
   "property": "C12",
   "status": "partial",
   "theorems": [
    "TFT.Vocab.reported_size_partial",
    "TFT.Vocab.reported_size_ne_overlap",
    "TFT.Vocab.reported_size_ne_empty"
   ],
   "note": "The code violates the property when a reserved token is in the vocabulary or when the vocabulary is empty and tokens are reserved (witnesses); proved otherwise."
  },
  {
   "property": "C13",
   "status": "partial",
   "theorems": [
    "TFT.Vocab.coverage_contents_partial",
    "TFT.Vocab.coverage_placeholder"
   ],
   "note": "The code violates the property when top_k is given and no token reaches the standard threshold: the placeholder is written beside real tokens (witness); proved otherwise."
  },
  {
   "property": "C14",
   "status": "proved",
   "theorems": [
    "TFT.Lookup.lookup_ids",
    "TFT.Lookup.reserved_space_lost"
   ],
   "note": "both file formats, with and without frequencies; the vocabulary tokens must be storable in the format (no newlines in text files, no spaces in text files with frequencies; the analysis drops or reformats others, but reserved tokens are not reformatted: witness reserved_space_lost). String tensors only."
  },
  {
   "property": "C15",
   "status": "proved",
   "theorems": [
    "TFT.Vocab.shuffle_permutes",
    "TFT.Vocab.shuffle_order"
   ],
   "note": "fingerprint function injective on tokens (no SHA-1 collision)"
  },
  {
   "property": "C16",
   "status": "proved",
   "theorems": [
    "TFT.Vocab.fast_path_eq_sort_path"
   ],
   "note": "with and without labels"
  },
  {
   "property": "C17",
   "status": "partial",
   "theorems": [
    "TFT.Buckets.apply_buckets_spec",
    "TFT.Buckets.apply_buckets_monotone",
    "TFT.Buckets.apply_buckets_column_wrong",
    "TFT.Buckets.apply_buckets_typed_exact",
    "TFT.Buckets.apply_buckets_typed_rounded",
    "TFT.Buckets.apply_buckets_small_integers",
    "TFT.Buckets.large_integer_wrong_bucket",
    "TFT.Buckets.negative_value_wrong_bucket",
    "TFT.Buckets.truncated_boundary_wrong_bucket"
   ],
   "note": "Proved for boundaries given as one row (what quantiles returns), for every pair of types of x and boundaries whose common type holds the values; compared as floats, a boundary counts if it is at most x or equal to it after rounding. Not true of the code, and shown so: boundaries given as a column publish a wrong domain; integers that float32 cannot hold, negative values with unsigned boundaries, and integers with float16 boundaries can get a bucket above their own."
  },
  {
   "property": "C18",
   "status": "partial",
   "theorems": [
    "TFT.Buckets.interpolate_spec",
    "TFT.Buckets.interpolate_range",
    "TFT.Buckets.interpolate_monotone",
    "TFT.Buckets.interpolate_finite_boundaries",
    "TFT.Buckets.interpolate_no_boundary",
    "TFT.Buckets.interpolate_single",
    "TFT.Buckets.interpolate_nan",
    "TFT.Buckets.interpolate_repeated"
   ],
   "note": "Range and monotonicity for all finite boundaries in order; 0, i/(n-1) and 1 at the boundaries if they increase strictly; infinite and NaN boundaries do not count. Witnesses: a NaN with a single boundary is mapped to 1 instead of 0.5; with repeated boundaries a value at the lowest boundary is not mapped to 0."
  },
  {
   "property": "C19",
   "status": "partial",
   "theorems": [
    "TFT.Buckets.bucketize_per_key_own_boundaries_partial",
    "TFT.Buckets.per_key_two_buckets_wrong",
    "TFT.Buckets.per_key_two_buckets_exact",
    "TFT.Buckets.strictRow_spec",
    "TFT.Buckets.strictRow_gaps",
    "TFT.Buckets.strictRow_id"
   ],
   "note": "Proved for three or more buckets. The code violates the property for num_buckets=2 (witness). Boundaries closer than the row's epsilon are moved apart first."
  },
  {
   "property": "C20",
   "status": "partial",
   "theorems": [
    "TFT.Buckets.per_key_in_domain_partial",
    "TFT.Buckets.per_key_out_of_domain"
   ],
   "note": "Proved for keys seen in the analysis; unseen keys give -1, outside the published domain (witness)."
  },
  {
   "property": "C21",
   "status": "proved",
   "theorems": [
    "TFT.Scaling.scale_by_min_max_spec",
    "TFT.Scaling.scale_by_min_max_range_error"
   ],
   "note": "from the data through every run of the analysis to the scaled values; finite data, exact arithmetic"
  },
  {
   "property": "C22",
   "status": "proved",
   "theorems": [
    "TFT.Scaling.z_score_spec",
    "TFT.Scaling.z_score_constant_not_unscaled"
   ],
   "note": "from the data through every run of the analysis to the scaled values; exact arithmetic; dense batches. The documentation says that constant columns are returned unscaled, but the mean is subtracted (second theorem)."
  },
  {
   "property": "C23",
   "status": "partial",
   "theorems": [
    "TFT.TfIdf.tfidf_spec_partial",
    "TFT.TfIdf.term_frequencies_sum_to_one",
    "TFT.TfIdf.docTerms_in_range",
    "TFT.TfIdf.document_frequency_analysis",
    "TFT.TfIdf.corpus_size_analysis",
    "TFT.TfIdf.tfidf_fails_for_vocab_size_one"
   ],
   "note": "Full statement for every run of both analyses and every batch, for vocab_size >= 2. For vocab_size = 1 the code fails on every batch (tf.squeeze makes the idf vector a scalar), proved as tfidf_fails_for_vocab_size_one. Without smoothing terms absent from the analysis data divide by zero, as documented."
  },
  {
   "property": "C24",
   "status": "proved",
   "theorems": [
    "TFT.Sparse.ngrams_spec",
    "TFT.Sparse.ngrams_rejects",
    "TFT.Sparse.bag_of_words_spec"
   ],
   "note": "For every sparse tensor whose entries come row by row (TensorFlow's canonical order), every range and separator."
  },
  {
   "property": "C25",
   "status": "proved",
   "theorems": [
    "TFT.Sparse.deduplicate_sparse_spec",
    "TFT.Sparse.deduplicate_dense_spec",
    "TFT.Sparse.deduplicate_vector_spec",
    "TFT.Sparse.firstOccurrences_spec",
    "TFT.Sparse.bag_of_words_spec"
   ],
   "note": "All input kinds; rank-1 sparse tensors, which are returned unchanged, are not modelled."
  },
  {
   "property": "C26",
   "status": "proved",
   "theorems": [
    "TFT.Sparse.segment_indices_spec",
    "TFT.Sparse.segment_indices_rejects",
    "TFT.Sparse.word_count_sparse_spec",
    "TFT.Sparse.word_count_ragged_spec",
    "TFT.Sparse.left_align_spec"
   ],
   "note": "Includes gaps, empty rows and unordered input for left-align."
  },
  {
   "property": "C27",
   "status": "proved",
   "theorems": [
    "TFT.Coders.kv_round_trip",
    "TFT.Coders.kv_too_long",
    "TFT.Coders.kv_injective",
    "TFT.Coders.decode_kv_iff",
    "TFT.Coders.per_key_round_trip",
    "TFT.Coders.per_key_encodes",
    "TFT.Coders.vocabulary_round_trip",
    "TFT.Coders.dumpsText_injective"
   ],
   "note": "All byte strings. Python's json is a parameter with the law loads(dumps(x)) = x; dumpsText_injective shows that the JSON text of nested lists of numbers determines the value if the text of a number does. Quantile sketches are encoded by an external library and not modelled."
  },
  {
   "property": "C28",
   "status": "proved",
   "theorems": [
    "TFT.CacheFs.read_returns_last_write",
    "TFT.CacheFs.store_read_returns_last_write",
    "TFT.CacheFs.store_projects",
    "TFT.CacheFs.read_exact"
   ],
   "note": "Any sequence of complete writes, any number of shards, any interleaving of the sinks. Beam's file sink and source are modelled, the metadata file is not."
  },
  {
   "property": "C29",
   "status": "partial",
   "theorems": [
    "TFT.CacheFs.read_after_crash_partial",
    "TFT.CacheFs.write_after_crash_partial",
    "TFT.CacheFs.write_after_any_crash_partial",
    "TFT.CacheFs.crash_in_manifest_reads_nothing",
    "TFT.CacheFs.read_exact",
    "TFT.CacheFs.crash_loses_value",
    "TFT.CacheFs.crash_reads_partial_value",
    "TFT.CacheFs.lost_manifest_mixes_data"
   ],
   "note": "False as stated, proved by three concrete histories: the manifest is replaced before the data is written, so a crash in between makes the read raise and loses the earlier value; a crash between two renames makes it return some of the shards; a crash between deletion and rewriting of the manifest lets a later write reuse indices, and a read then mixes old and new records. Proved: reads after crashes return nothing else than (shards of) the last write of the key as long as the manifest was not being replaced; with a constant number of shards a complete write is always read back."
  },
  {
   "property": "C30",
   "status": "partial",
   "theorems": [
    "TFT.Keys.accepted_keys",
    "TFT.Keys.accepts_allowed",
    "TFT.Keys.non_cacheable_key",
    "TFT.Keys.accepted_paths_injective",
    "TFT.Keys.accepted_path_in_base",
    "TFT.Keys.new_key_no_special",
    "TFT.Keys.accepted_directory_name_partial",
    "TFT.Keys.accepts_dot_names",
    "TFT.Keys.accepts_trailing_newline",
    "TFT.Keys.names_collide",
    "TFT.Keys.cached_unless_said"
   ],
   "note": "Different accepted keys never share a directory: proved for all strings. Accepted keys are directory names except '.' and '..', which are accepted (accepts_dot_names)."
  },
  {
   "property": "C31",
   "status": "proved",
   "theorems": [
    "TFT.Graph.traverse_spec",
    "TFT.Graph.traverse_exactly_once",
    "TFT.Graph.traverse_rejects_cycles",
    "TFT.Graph.traverse_outcome",
    "TFT.Graph.traverse_validates",
    "TFT.Graph.valueNode_ok_iff"
   ],
   "note": "Any finite operation graph, cyclic or not, any visitor (also stateful and failing ones), any list of requests to one traverser."
  },
  {
   "property": "C32",
   "status": "proved",
   "theorems": [
    "TFT.Graph.Ready.analyze_exact",
    "TFT.Graph.Ready.analyze_history_independent",
    "TFT.Graph.Ready.analyze_outcome",
    "TFT.Graph.Ready.analyze_terminates",
    "TFT.Graph.Ready.analyze_first_query_exact",
    "TFT.Graph.Ready.func_results_ok",
    "TFT.Graph.Ready.func_result_ready_iff",
    "TFT.Graph.Ready.initializable_ready",
    "TFT.Graph.Ready.analyze_not_exact_with_cycles"
   ],
   "note": "Any finite acyclic graph and any history of queries; with tf.function bodies (func_results_ok) and tables. Termination, and exactness of the first query, also for cyclic graphs; later queries on cyclic graphs can be wrong (analyze_not_exact_with_cycles)."
  },
  {
   "property": "C33",
   "status": "proved",
   "theorems": [
    "TFT.Graph.Ready.retrieve_sources_exact",
    "TFT.Graph.Ready.retrieve_sources_terminates",
    "TFT.Graph.Ready.retrieve_sources_ends",
    "TFT.Graph.Ready.dependent_inputs_exact"
   ],
   "note": "retrieve_sources for every graph and every order in which the set is popped; get_dependent_inputs for acyclic graphs."
  },
  {
   "property": "C34",
   "status": "proved",
   "theorems": [
    "TFT.Graph.Phases.phases_spec",
    "TFT.Graph.Phases.ready_visitor_exact",
    "TFT.Graph.Phases.phases_diverge_on_cycle"
   ],
   "note": "Any finite set of analyzers with acyclic dependencies. How readiness of a value node follows from its tensors is ready_visitor_exact, how readiness of a tensor follows from pending replacements is C32 (initializable_ready)."
  },
  {
   "property": "C35",
   "status": "proved",
   "theorems": [
    "TFT.BeamContext.nested_contexts",
    "TFT.BeamContext.block_restores",
    "TFT.BeamContext.outside_blocks",
    "TFT.BeamContext.threads_independent",
    "TFT.BeamContext.enter_needs_thread_state"
   ],
   "note": "All programs of nested blocks, raised and caught exceptions; any interleaving of threads."
  },
  {
   "property": "C36",
   "status": "proved",
   "theorems": [
    "TFT.Batch.slices_concat",
    "TFT.Batch.slices_small",
    "TFT.Batch.slices_shape"
   ],
   "note": "Every batch and every size function; termination is the well-founded recursion on the number of rows."
  },
  {
   "property": "C37",
   "status": "proved",
   "theorems": [
    "TFT.Batch.varlen_accepts_iff",
    "TFT.Batch.varlen_rejects_width"
   ],
   "note": "Every list of integer index pairs."
  },
  {
   "property": "C38",
   "status": "partial",
   "theorems": [
    "TFT.Publish.crash_state",
    "TFT.Publish.finished_published",
    "TFT.Publish.progress",
    "TFT.Publish.runs_end",
    "TFT.Publish.run_completes",
    "TFT.Publish.retry_loses_metadata",
    "TFT.Publish.crash_then_retry_fails",
    "TFT.Publish.crash_mixes_versions"
   ],
   "note": "Proved: the state at every crash point, that runs end and publish the new outputs, and that a new run of the pipeline completes after any crashes. False: retrying only the publishing step after it has moved the metadata deletes them and fails (crash_then_retry_fails). Since rmtree is not atomic a crash may also leave some of the old files."
  },
  {
   "property": "C39",
   "status": "partial",
   "theorems": [
    "TFT.ExampleCoder.encode_history_independent_partial",
    "TFT.ExampleCoder.encode_spec",
    "TFT.ExampleCoder.shared_name_depends_on_history"
   ],
   "note": "Proved for all histories of calls, failed ones included, if the handlers write features of different names; with a shared name the claim is false (proved)."
  },
  {
   "property": "C40",
   "status": "proved",
   "theorems": [
    "TFT.Histogram.histogram_exact",
    "TFT.Histogram.bins_partition",
    "TFT.Histogram.linspace_sorted",
    "TFT.Histogram.numbered_boundaries",
    "TFT.Histogram.histogram_one_boundary"
   ],
   "note": "Exact arithmetic. The docstring example shows one count more than there are bins."
  },
  {
   "property": "C41",
   "status": "proved",
   "theorems": [
    "TFT.Numeric.min_diff_bounds",
    "TFT.Numeric.min_diff_monotone",
    "TFT.Numeric.min_diff_ends",
    "TFT.Numeric.min_diff_line"
   ],
   "note": "Exact arithmetic."
  },
  {
   "property": "C42",
   "status": "proved",
   "theorems": [
    "TFT.Numeric.pmf_is_hypergeometric",
    "TFT.Numeric.pmf_is_distribution",
    "TFT.Numeric.partial_emi_exact"
   ],
   "note": "Exact real arithmetic, integer weights."
  },
  {
   "property": "C43",
   "status": "proved",
   "theorems": [
    "TFT.Numeric.search_inside",
    "TFT.Numeric.search_width",
    "TFT.Numeric.search_signs",
    "TFT.Numeric.search_root",
    "TFT.Numeric.search_strict_root",
    "TFT.Numeric.high_error_may_be_zero"
   ],
   "note": "The docstring says the error at the upper end stays positive; it may become zero (high_error_may_be_zero)."
  },
  {
   "property": "C44",
   "status": "proved",
   "theorems": [
    "TFT.Batch.convert_rows",
    "TFT.Batch.convert_accepts_iff",
    "TFT.Batch.attach_accepts_iff",
    "TFT.Batch.check_passthrough_iff"
   ],
   "note": "Every converter of the transformed tensors, every passthrough column of null or one-element values, every size limit. The conversion of tensors to Arrow arrays is a parameter."
  },
  {
   "property": "C45",
   "status": "partial",
   "theorems": [
    "TFT.FeatureSpec.conversion_succeeds_iff",
    "TFT.FeatureSpec.feature_spec_round_trip_partial",
    "TFT.FeatureSpec.shared_column_lost",
    "TFT.FeatureSpec.row_splits_not_recovered",
    "TFT.FeatureSpec.ragged_value_key",
    "TFT.FeatureSpec.schema_domains_exact"
   ],
   "note": "Exact acceptance condition and round trip up to list form, value key and row split type, for specs whose columns are not shared; a shared column loses a member (proved). The schema reader of the external library is modelled from its documentation."
  },
  {
   "property": "C46",
   "status": "partial",
   "theorems": [
    "TFT.GraphContext.queries_partial",
    "TFT.GraphContext.queries_exact",
    "TFT.GraphContext.enter_iff",
    "TFT.GraphContext.none_after_scope_fails"
   ],
   "note": "False as documented: after a scope was closed on a thread the queries raise AttributeError instead of returning None (none_after_scope_fails). queries_exact says what they return for every history."
  },
  {
   "property": "C47",
   "status": "partial",
   "theorems": [
    "TFT.PyFunc.load_v1_same_functions",
    "TFT.PyFunc.load_v2_same_functions",
    "TFT.PyFunc.unsaved_function_fails",
    "TFT.PyFunc.insert_owned",
    "TFT.PyFunc.load_same_process_owned",
    "TFT.PyFunc.history_owned",
    "TFT.PyFunc.second_generation_wrong_function",
    "TFT.PyFunc.tf2_unsaved_function_accepted",
    "TFT.PyFunc.no_collection_not_checked",
    "TFT.PyFunc.library_not_remapped"
   ],
   "note": "Proved for every graph whose functions are those of the process that saved it, loaded in any process, and for any number of generations within one process. Not true, and shown so: a second generation through another process can call the wrong function; nodes in functions of the graph are not remapped; without a saved collection, and in TF2 on a token collision, an unsaved function is not an error."
  },
  {
   "property": "C48",
   "status": "partial",
   "theorems": [
    "TFT.Scaling.map_per_key_spec",
    "TFT.Scaling.scale_per_key_spec",
    "TFT.Scaling.z_score_per_key_spec",
    "TFT.Scaling.per_key_file_partial",
    "TFT.Scaling.per_key_file_space_wrong",
    "TFT.Scaling.per_key_file_space_error",
    "TFT.Scaling.per_key_empty_error"
   ],
   "note": "Proved for in-memory statistics and non-empty vocabularies, and for key files without spaces and newlines in keys. Witnesses: keys with spaces in key files get the wrong statistics or make initialization fail; an empty analysis dataset makes per-key scaling fail."
  },
  {
   "property": "C49",
   "status": "partial",
   "theorems": [
    "TFT.Reduce.sum_over_batches",
    "TFT.Reduce.cooccurrences_exact",
    "TFT.Reduce.multi_label_exact",
    "TFT.Reduce.reduced_batch_unweighted",
    "TFT.Reduce.reduced_batch_weighted",
    "TFT.Reduce.weighted_counts_exact",
    "TFT.Reduce.unweighted_counts_exact",
    "TFT.Reduce.reduction_is_batch_pairs",
    "TFT.Reduce.sum_labeled_weights_exact",
    "TFT.Reduce.weights_length_mismatch",
    "TFT.Reduce.labels_mismatch",
    "TFT.Reduce.weighted_matrix_fails",
    "TFT.Reduce.elementwise_labels_fail",
    "TFT.Reduce.label_below_minus_one_misattributed"
   ],
   "note": "Proved for dense, sparse and ragged (any depth) tokens, with and without weights, one or several labels of at least -1. Not true, and shown so: labels below -1 are counted for another token; weights or labels of the shape of a matrix of tokens, which the documentation allows, are rejected."
  },
  {
   "property": "C50",
   "status": "partial",
   "theorems": [
    "TFT.DeepCopy.deep_copy_same_data",
    "TFT.DeepCopy.boundary_fails",
    "TFT.DeepCopy.two_outputs_lose_data",
    "TFT.DeepCopy.diamond_reads_original",
    "TFT.DeepCopy.later_output_fails",
    "TFT.DeepCopy.cut_iff"
   ],
   "note": "Proved for every pipeline graph in which each transform upstream has one output that is used, with any transforms as parameters. Not true, and shown so: with two used outputs of one transform the copy either fails or reads a PCollection nothing computes; a PCollection at a boundary cannot be copied; the list is not sorted by dependency for a diamond, where the copy reads an original (the data is still the same)."
  },
  {
   "property": "C51",
   "status": "proved",
   "theorems": [
    "TFT.Lookup.compute_and_apply_vocabulary_ids",
    "TFT.Lookup.formatInput_injective",
    "TFT.Lookup.format_collision"
   ],
   "note": "without labels, coverage, reserved tokens and shuffling; with store_frequency in text files the strings are compared after replacing spaces by __SPACE__ (which can identify two strings: format_collision)"
  },
  {
   "property": "C52",
   "status": "proved",
   "theorems": [
    "TFT.GraphContext.named_object_reused",
    "TFT.GraphContext.new_object_tracked",
    "TFT.GraphContext.unnamed_objects_kept",
    "TFT.GraphContext.attribute_name_returns_attribute",
    "TFT.GraphContext.duplicate_name_not_rejected",
    "TFT.GraphContext.outside_rejected"
   ],
   "note": "The first call is proved to make the object only for names that modules do not have as attributes; for others the attribute is returned (attribute_name_returns_attribute)."
  },
  {
   "property": "C53",
   "status": "proved",
   "theorems": [
    "TFT.GraphContext.annotations_exact",
    "TFT.GraphContext.scoped_keys_collide"
   ],
   "note": "Keys are known by their base names."
  },
  {
   "property": "C54",
   "status": "proved",
   "theorems": [
    "TFT.Publish.copy_exact",
    "TFT.Publish.copy_metadata_dir"
   ],
   "note": ""
  },
  {
   "property": "C55",
   "status": "partial",
   "theorems": [
    "TFT.Numeric.tukey_params_valid_partial",
    "TFT.Numeric.tukey_params_light",
    "TFT.Numeric.search_stops",
    "TFT.Numeric.tukey_params_nearly_valid",
    "TFT.Numeric.tukey_params_negative_in_window",
    "TFT.Numeric.gaussian_bounds",
    "TFT.Numeric.initialH_gaussian"
   ],
   "note": "Proved for every kurtosis of at least that of the normal distribution (exact value) and for every kurtosis below the literal 0.1226017 of the code; the literal is the exact value cut to seven digits, and for the kurtosis values in between (a window of 2e-8) the claim is false: the search starts with a negative parameter and can return it (tukey_params_negative_in_window). For all values, the window included, the parameters are less than 1, above -1e-7 and in order up to 1e-7."
  },
  {
   "property": "C56",
   "status": "partial",
   "theorems": [
    "TFT.Numeric.mutual_information_value",
    "TFT.Numeric.mutual_information_nonneg",
    "TFT.Numeric.independent_token_zero_partial",
    "TFT.Numeric.rare_label_mi_positive",
    "TFT.Numeric.regularized_mi_negative",
    "TFT.Numeric.single_label_mi_negative",
    "TFT.Numeric.regularized_mutual_information_value",
    "TFT.Numeric.adjusted_mutual_information_value"
   ],
   "note": "All parts proved in exact arithmetic; independence is proved for label shares within the clip of 1e-6. With one label or with min_diff_from_avg the value can be negative (proved). Outside the clip it is not true of the code: for a token independent of a label with less than a millionth of the weight the value is positive (rare_label_mi_positive)."
  },
  {
   "property": "C57",
   "status": "proved",
   "theorems": [
    "TFT.Vocab.labelled_vocabulary_contents",
    "TFT.Vocab.params_accept_iff"
   ],
   "note": "Informativeness as exact rational numbers."
  },
  {
   "property": "C58",
   "status": "partial",
   "theorems": [
    "TFT.Inform.informativeness_exact",
    "TFT.Inform.informativeness_value",
    "TFT.Inform.sentinel_token_is_lost",
    "TFT.Inform.weights_need_as_many_tokens",
    "TFT.Inform.weights_go_to_other_instances"
   ],
   "note": "Exact arithmetic, one label per row. Without weights, for sets of tokens per row in every representation; with positive weights, for one token per row in a vector, a sparse or a ragged tensor; other batches with weights are refused (weights_need_as_many_tokens) unless the tokens happen to be as many as the rows, where the code gives tokens the weights of other rows (weights_go_to_other_instances). A token equal to the reserved sentinel is lost and its rows are counted twice (sentinel_token_is_lost)."
  },
  {
   "property": "C59",
   "status": "partial",
   "theorems": [
    "TFT.Graph.CachePath.same_computation_same_path",
    "TFT.Graph.CachePath.first_phase_tensors_have_paths",
    "TFT.Graph.CachePath.same_operation_same_entry_key",
    "TFT.Graph.CachePath.entry_key_exists",
    "TFT.Graph.CachePath.operation_description",
    "TFT.Graph.CachePath.same_path_same_computation_partial",
    "TFT.Graph.CachePath.same_entry_key_same_operation_partial",
    "TFT.Graph.CachePath.path_ignores_op_type",
    "TFT.Graph.CachePath.stale_cache_is_used"
   ],
   "note": "The same computation always has the same key. Equal keys mean equal labels, tensor paths and operation descriptions, and equal paths mean the same computation for graphs of the same shape without functions, except for the types of TensorFlow operations, which are not part of the key: a cache of sum(abs(x)) is used for sum(square(x)) (shown)."
  },
  {
   "property": "C60",
   "status": "proved",
   "theorems": [
    "TFT.Graph.Optimize.optimized_graph_computes_the_same",
    "TFT.Graph.Optimize.without_cache_the_graph_is_unchanged",
    "TFT.Graph.Optimize.only_required_datasets_matter",
    "TFT.Graph.Optimize.fully_cached_datasets_are_not_required",
    "TFT.Graph.Optimize.written_entries",
    "TFT.Graph.Optimize.analysis_after_any_history",
    "TFT.Graph.Optimize.entry_keys_are_those_of_cacheable_operations",
    "TFT.Graph.Optimize.cacheable_ptransform_analyzer",
    "TFT.Graph.Optimize.partitionable_with_several_outputs_fails",
    "TFT.Graph.Optimize.two_preferring_inputs_become_one",
    "TFT.Graph.Optimize.labels_are_unique"
   ],
   "note": "For graphs of the shape that build makes, under the documented contract of is_partitionable; for CacheablePTransformAnalyzer the contract is derived from its documented laws. With two or more outputs such an analyzer always fails (shown)."
  },
  {
   "property": "C61",
   "status": "partial",
   "theorems": [
    "TFT.Csv.row_round_trip",
    "TFT.Csv.rows_are_distinguished",
    "TFT.Csv.line_round_trip_partial",
    "TFT.Csv.acceptable_instances_are_encoded",
    "TFT.Csv.fixed_length_is_checked",
    "TFT.Csv.construction_is_checked",
    "TFT.Csv.encode_ignores_history_partial",
    "TFT.Csv.extra_values_are_dropped",
    "TFT.Csv.uncovered_column_reads_None",
    "TFT.Csv.zero_is_dropped",
    "TFT.Csv.failed_encode_spoils_the_next"
   ],
   "note": "Proved for every instance, with all values shown for multivalent columns and the first value for the others. Not true, and shown so: further values of a column that is not multivalent are dropped without an error, a column outside the schema reads None, the value 0 in a NumPy array is written as no value, and after a text that UTF-8 cannot express the coder rejects everything."
  },
  {
   "property": "C62",
   "status": "partial",
   "theorems": [
    "TFT.SchemaInference.graph_schema_describes_outputs_partial",
    "TFT.SchemaInference.function_schema_describes_outputs_partial",
    "TFT.SchemaInference.calls_accepted_iff",
    "TFT.SchemaInference.shared_values_lose_domain",
    "TFT.SchemaInference.dollar_names_clash"
   ],
   "note": "Proved for outputs whose names have no $ and, with tf.functions, whose values are in different tensors. Without these conditions the code violates the property (both shown): of two outputs that are the same tensor only the last gets its domain and annotations, and an output named like a column of another one is lost or makes the inference fail."
  },
  {
   "property": "C63",
   "status": "partial",
   "theorems": [
    "TFT.VocabAccess.vocabulary_file_found_partial",
    "TFT.VocabAccess.vocabulary_read_back_partial",
    "TFT.VocabAccess.vocabulary_size_found_partial",
    "TFT.VocabAccess.unknown_names_are_not_found",
    "TFT.VocabAccess.annotated_asset_found",
    "TFT.VocabAccess.size_inside",
    "TFT.VocabAccess.num_buckets_exact",
    "TFT.VocabAccess.publish_ok",
    "TFT.VocabAccess.sanitize_idempotent",
    "TFT.VocabAccess.sanitized_names_are_safe",
    "TFT.VocabAccess.spaces_around_names_are_ignored",
    "TFT.VocabAccess.found_files_exist",
    "TFT.VocabAccess.lines_are_the_file",
    "TFT.VocabAccess.slashed_name_takes_over",
    "TFT.VocabAccess.reserved_token_with_newline"
   ],
   "note": "Proved when no other vocabulary or annotated asset has the name as the last component of its own, and, for text vocabularies, no entry has a line break. Without these conditions the code violates the property (both shown)."
  },
  {
   "property": "C64",
   "status": "partial",
   "theorems": [
    "TFT.Graph.Packing.packing_keeps_results_partial",
    "TFT.Graph.Packing.packing_keeps_analyses_partial",
    "TFT.Graph.Packing.beam_lawful",
    "TFT.Graph.Packing.packed_labels_are_unique",
    "TFT.Graph.Packing.one_packed_merge",
    "TFT.Graph.Packing.Cases.reserved_tokens_are_lost"
   ],
   "note": "Proved for graphs with several phases, and for graphs with one phase whose analyzers have at most two operations with one input each between the combine and the tensor binding. Not true otherwise, and shown so: approximate_vocabulary with reserved_tokens beside another analyzer loses the reserved tokens."
  },
  {
   "property": "C65",
   "status": "partial",
   "theorems": [
    "TFT.TfIdf.document_frequency_spec_partial",
    "TFT.TfIdf.document_frequency_fails_for_vocab_size_one",
    "TFT.TfIdf.global_document_frequency",
    "TFT.TfIdf.idf_spec",
    "TFT.TfIdf.idf_for_vocab_size_zero",
    "TFT.TfIdf.rarer_terms_weigh_more"
   ],
   "note": "Proved for every vocabulary size of at least 2 (idf: 1). For a vocabulary of size one document_frequency fails, shown by the second theorem."
  },
  {
   "property": "C66",
   "status": "partial",
   "theorems": [
    "TFT.Analyze.analysis_computes_the_meaning",
    "TFT.Analyze.successful_analysis_found_the_results",
    "TFT.Analyze.used_traces_are_checked",
    "TFT.Analyze.swapped_analyzers_go_unnoticed"
   ],
   "note": "Proved for all graphs and datasets when every trace gives each tensor and analyzer the same name (deterministic order, or explicit names in any order). The last part of the property is not true of the code: traces are compared only by names and source inputs, so two analyzers of the same input that are traced in another order exchange their results (shown by the last theorem)."
  },
  {
   "property": "C67",
   "status": "partial",
   "theorems": [
    "TFT.Serving.made_up_inputs_have_no_influence",
    "TFT.Serving.accepted_if_made_up_inputs_are",
    "TFT.Serving.pruned_application_returns_the_computable_outputs",
    "TFT.Serving.finalize_accepts_the_computable_outputs",
    "TFT.Serving.finalized_application_returns_the_request",
    "TFT.Serving.transformed_v1_iff",
    "TFT.Serving.transformed_v2_iff",
    "TFT.Serving.transform_is_the_same_in_v1_and_v2",
    "TFT.Serving.missing_shape_fits",
    "TFT.Serving.missing_sparse_is_well_formed",
    "TFT.Serving.missing_ragged_is_well_formed",
    "TFT.Serving.made_up_input_fails_the_batch",
    "TFT.Serving.unknown_exclude_outputs",
    "TFT.Serving.static_zero_is_replaced"
   ],
   "note": "The values of all returned outputs are proved for every function and subset of inputs. Not true of the code, and shown so by the last three theorems: with TF2 behaviour the whole function runs, so an operation that fails on a made-up value fails the batch even though its output is dropped; unknown excluded outputs are rejected with TF1 behaviour only; a static batch dimension of 0 is replaced by the batch size."
  },
  {
   "property": "C68",
   "status": "proved",
   "theorems": [
    "TFT.Analyze.analyze_columns_exact",
    "TFT.Analyze.transform_columns_exact",
    "TFT.Analyze.other_columns_do_not_matter",
    "TFT.Analyze.listed_analyze_columns_matter",
    "TFT.Analyze.listed_transform_columns_matter"
   ],
   "note": "With TF2 behaviour columns on which control dependencies of outputs depend (such as assertions) are listed as well; the first theorem says so."
  },
  {
   "property": "C69",
   "status": "proved",
   "theorems": [
    "TFT.pca_maximizes_variance",
    "TFT.pca_of_nothing",
    "TFT.pca_wide",
    "TFT.eigh_exists",
    "TFT.argsort_exists"
   ],
   "note": "Over the reals. np.linalg.eigh and np.argsort are any functions with their documented properties; that such functions exist is proved. pca_wide: with output_dim larger than the number of columns the result does not have the declared shape."
  },
  {
   "property": "C70",
   "status": "partial",
   "theorems": [
    "TFT.Histogram.density_exact",
    "TFT.Histogram.density_integrates_to_one",
    "TFT.Histogram.one_bin",
    "TFT.Histogram.outliers_have_the_density_of_the_last_bin",
    "TFT.Histogram.mass_exact",
    "TFT.Histogram.density_of_nothing",
    "TFT.Histogram.mass_of_nothing_fails",
    "TFT.Histogram.density_of_unequal_bins",
    "TFT.Histogram.density_shape_partial",
    "TFT.Histogram.density_shape_kept_iff",
    "TFT.Histogram.density_rejects_columns",
    "TFT.Histogram.density_shape_changes"
   ],
   "note": "Values are exact for all data. Not true of the code, and shown so: inputs of rank three and more are returned with another shape; after an analysis of no data the density is NaN, and the categorical estimate fails. Boundaries that are not equidistant give wrong densities, as documented. Values outside the boundaries count for the border bins."
  },
  {
   "property": "C71",
   "status": "partial",
   "theorems": [
    "TFT.Numeric.lambert_w_accurate",
    "TFT.Numeric.lambert_exists",
    "TFT.Numeric.inverse_tukey_accurate",
    "TFT.Numeric.tukey_inverse_exists",
    "TFT.Numeric.inverse_tukey_order",
    "TFT.Numeric.fit_has_the_moments_of_the_data_partial",
    "TFT.Numeric.scale_to_gaussian_inverts_the_fit_partial",
    "TFT.Numeric.fit_has_the_mean_of_the_data",
    "TFT.Numeric.scale_to_gaussian_inverts_every_fit",
    "TFT.Numeric.no_long_tail_is_rescaled",
    "TFT.Numeric.scale_to_gaussian_inverts",
    "TFT.Numeric.light_side_is_rescaled",
    "TFT.Numeric.light_tails_give_z_scores",
    "TFT.Numeric.nothing_leaves_values",
    "TFT.Numeric.constant_data_fit",
    "TFT.Numeric.inverse_tukey_not_monotone",
    "TFT.Numeric.small_value_error",
    "TFT.Numeric.documented_function_is_not_inverted"
   ],
   "note": "Over the reals; the values to which the search for hl and hr aims (the L-skewness and L-kurtosis of the distribution) are any functions, as in C55. Not true of the code, and shown so: order is broken by a relative 6e-8 where the approximation for small values ends, the error is not below 1e-14 as a comment says, and the function in the docstring lacks a factor of one half. For an L-kurtosis in the window of C55 the L-scale of the fitted distribution is not proved; its mean and the inversion are proved for all data, with an error of at most 6e-8 + 5e-8 u^2 relative."
  },
  {
   "property": "C72",
   "status": "partial",
   "theorems": [
    "TFT.Quantiles.quantiles_are_approximate",
    "TFT.Quantiles.quantiles_of_nothing",
    "TFT.Quantiles.bucketize_balanced",
    "TFT.Quantiles.bucketize_rejects",
    "TFT.Quantiles.bucketize_rejects_composite",
    "TFT.Quantiles.elementwise_weights_of_the_shape_of_x_fail",
    "TFT.Quantiles.exact_contract"
   ],
   "note": "Relative to the contract of the quantile sketch of tfx_bsl (Spec.Contract), which exact_contract shows can be met. Holds for all data and schedules. Not true of the code, and shown so: with elementwise, weights of the shape of x, as bucketize documents them, make the analysis fail if an instance has more than one value."
  },
  {
   "property": "C73",
   "status": "partial",
   "theorems": [
    "TFT.Quantiles.bucketize_per_key_balanced_partial",
    "TFT.Quantiles.bucketize_per_key_rejects",
    "TFT.Buckets.per_key_two_buckets_wrong"
   ],
   "note": "Relative to the contract of the quantile sketch. For three or more buckets; the code is wrong for two (per_key_two_buckets_wrong) and fails for one."
  },
  {
   "property": "C74",
   "status": "partial",
   "theorems": [
    "TFT.Scaling.scale_by_min_max_per_key_spec",
    "TFT.Scaling.scale_to_z_score_per_key_spec_partial",
    "TFT.Scaling.exists_runs",
    "TFT.Scaling.scale_per_key_rejects_range",
    "TFT.Scaling.elementwise_composite_rejected",
    "TFT.Scaling.mismatched_keys_rejected",
    "TFT.Scaling.high_rank_never_scaled",
    "TFT.Scaling.high_rank_batch_sizes",
    "TFT.Scaling.high_rank_keys_out_of_range",
    "TFT.Scaling.HighRankCase.high_rank_wrong_values"
   ],
   "note": "Exact arithmetic. min-max: complete. z-score: for instances of rank 0 and 1, or elementwise; for instances of higher rank that are not scaled elementwise the property is false of the code, which sums over axis 1 only and then looks statistics up along the wrong axis: the last four theorems. The variant that keeps the statistics in a file (key_vocabulary_filename) is C48."
  },
  {
   "property": "C75",
   "status": "partial",
   "theorems": [
    "TFT.TransformData.exclude_outputs_metadata_partial",
    "TFT.TransformData.transformed_features_are_described_partial",
    "TFT.TransformData.metadata_of_datasets",
    "TFT.TransformData.encoders_fit_partial",
    "TFT.TransformData.encode_accepts_iff",
    "TFT.TransformData.transform_accepts",
    "TFT.TransformData.encoder_of_shared_metadata_is_wrong",
    "TFT.TransformData.encode_after_read_fails"
   ],
   "note": "For feature specs under the conditions of C45. Not true of the code, and shown so: two TransformDataset steps in different formats with the same transform function and no exclude_outputs make the first dataset be encoded in the format of the second; data transformed with a transform function that was read from disk cannot be encoded."
  },
  {
   "property": "C76",
   "status": "partial",
   "theorems": [
    "TFT.MetadataIo.metadata_is_read_whole",
    "TFT.MetadataIo.other_files_unchanged",
    "TFT.MetadataIo.write_can_finish",
    "TFT.MetadataIo.schema_file_before_legacy",
    "TFT.MetadataIo.nothing_to_read",
    "TFT.MetadataIo.legacy_file_is_read",
    "TFT.MetadataIo.legacy_defaults_are_refused",
    "TFT.MetadataIo.legacy_unknown_is_refused",
    "TFT.MetadataIo.direct_write_is_not_atomic",
    "TFT.MetadataIo.asset_map_of_earlier_run_stays"
   ],
   "note": "Relative to a text format that parses what it prints. For file systems with an atomic move; without one the claim is false (direct_write_is_not_atomic). Legacy files with default values cannot be read at all (legacy_defaults_are_refused)."
  },
  {
   "property": "C77",
   "status": "proved",
   "theorems": [
    "TFT.Worker.batches_get_their_function",
    "TFT.Worker.batches_are_transformed_as_alone",
    "TFT.Worker.alone_is_expected",
    "TFT.Worker.alone_accepts",
    "TFT.Worker.instances_share_the_function",
    "TFT.Worker.one_function_per_step",
    "TFT.Worker.loaded_only_when_needed",
    "TFT.Worker.batches_can_be_processed",
    "TFT.Worker.functions_can_be_released",
    "TFT.Worker.a_schedule",
    "TFT.Worker.steps_with_one_key_are_mixed",
    "TFT.Worker.another_function_is_refused",
    "TFT.Worker.passthrough_replaces_an_output"
   ],
   "note": "Relative to the semantics of apache_beam.utils.shared (a table of weak references with one lock per entry) and to keys of steps being different, which uuids provide. alone_accepts is for TensorFlow calls that prune what is not requested (strict = false); C67 has the other case. A passed-through column replaces an output of the same name (passthrough_replaces_an_output)."
  },
  {
   "property": "C78",
   "status": "partial",
   "theorems": [
    "TFT.FeatureSpec.sequence_specs_are_the_union",
    "TFT.FeatureSpec.sequence_domains_are_of_sources",
    "TFT.FeatureSpec.sequence_domains_are_found",
    "TFT.FeatureSpec.sequence_domain_is_the_sources_partial",
    "TFT.FeatureSpec.sequence_schema_accepted_iff",
    "TFT.FeatureSpec.plain_schema_is_read_as_before",
    "TFT.FeatureSpec.parser_is_for_sequences_only",
    "TFT.FeatureSpec.queries_are_read",
    "TFT.FeatureSpec.same_name_takes_the_other_domain",
    "TFT.FeatureSpec.domain_of_another_feature",
    "TFT.FeatureSpec.context_tensor_is_hidden"
   ],
   "note": "For column names that do not occur at several places with different domains. Not true of the code for the others, and shown so: a context feature is returned with the domain of a sequence feature of the same name, and a feature without domain with that of another one (same_name_takes_the_other_domain, domain_of_another_feature). The parser configuration (tfx_bsl) is a parameter."
  },
  {
   "property": "C79",
   "status": "proved",
   "theorems": [
    "TFT.OutputWrapper.training_and_serving_agree",
    "TFT.OutputWrapper.related_inputs_give_related_outputs",
    "TFT.OutputWrapper.rows_are_transformed_as_in_other_batches",
    "TFT.OutputWrapper.outputs_come_from_given_inputs"
   ],
   "note": "Values of outputs that are obtained; which applications succeed is the subject of C67, C77 and C80. Rows are those of single component tensors; for the components of sparse and ragged tensors use the general theorem with a relation. Operations are functions of their arguments."
  },
  {
   "property": "C80",
   "status": "partial",
   "theorems": [
    "TFT.OutputWrapper.earlier_calls_have_no_influence_partial",
    "TFT.OutputWrapper.returned_outputs",
    "TFT.OutputWrapper.graph_use_spoils_eager_use"
   ],
   "note": "False when an object that was used in a TF1 graph is used with eager execution (graph_use_spoils_eager_use); proved for all other histories, except those where a graph is default during an eager call and used as a graph later."
  },
  {
   "property": "C81",
   "status": "proved",
   "theorems": [
    "TFT.WholeRun.every_row_is_transformed_with_the_results",
    "TFT.WholeRun.batches_do_not_matter",
    "TFT.WholeRun.equal_rows_become_equal_instances",
    "TFT.WholeRun.results_are_unique",
    "TFT.WholeRun.constants_are_analyzed_once_per_batch"
   ],
   "note": "Each input of an analyzer and each output must be computed from some column. The last theorem shows that this condition is needed: a value without a batch dimension is analyzed once per batch, so that the result depends on the batches."
  },
  {
   "property": "C82",
   "status": "partial",
   "theorems": [
    "TFT.Coders.accumulators_survive_the_cache",
    "TFT.Coders.decode_encode_arrays",
    "TFT.Coders.reductions_of_cached_accumulators",
    "TFT.Coders.covariance_of_cached_accumulators",
    "TFT.Coders.mean_and_variance_of_cached_accumulators_partial",
    "TFT.Coders.mean_and_variance_of_arrays_through_the_cache",
    "TFT.Coders.mean_and_variance_of_vectors_through_the_cache",
    "TFT.Coders.cached_empty_dataset_breaks_mean"
   ],
   "note": "Accumulators must not have a dimension 0 before their last dimension. The full claim is false: an empty dataset's accumulator of rank 2 loses a dimension in the cache, and merging it raises an error (cached_empty_dataset_breaks_mean). Proved for known shapes of any rank and for vectors of unknown length. numpy dtypes are not modelled; numbers are rational numbers or NaN."
  },
  {
   "property": "C83",
   "status": "partial",
   "theorems": [
    "TFT.Construct.implementation_is_the_last_registered",
    "TFT.Construct.registration_outcome",
    "TFT.Construct.registration_order_does_not_matter",
    "TFT.Construct.pipeline_is_built_from_the_registered_implementations",
    "TFT.Construct.pipeline_is_built_iff",
    "TFT.Construct.missing_implementation_is_rejected",
    "TFT.Construct.duplicate_registrations_are_not_rejected",
    "TFT.Construct.string_tags_are_never_found",
    "TFT.Construct.functions_are_rejected"
   ],
   "note": "Proved for all graphs, histories of registrations and implementations. Not true of the code, and shown so: a second implementation for the same class and environment replaces the first without an error, implementations registered with strings as tags, as documented, are never used, and functions, which the documentation allows, are refused. Beam is a parameter that refuses a label used before."
  },
  {
   "property": "C84",
   "status": "partial",
   "theorems": [
    "TFT.CustomAnalyzer.ptransform_analyzer_succeeds_iff",
    "TFT.CustomAnalyzer.outputs_are_as_declared",
    "TFT.CustomAnalyzer.plain_analyzer_gives_what_the_ptransform_returns",
    "TFT.CustomAnalyzer.wrong_number_of_results_fails",
    "TFT.CustomAnalyzer.cacheable_analyzer_with_one_output",
    "TFT.CustomAnalyzer.cacheable_analyzer_with_several_outputs_fails",
    "TFT.CustomAnalyzer.outputs_are_assets_partial",
    "TFT.CustomAnalyzer.none_items_make_assets",
    "TFT.CustomAnalyzer.asset_without_content_fails",
    "TFT.CustomAnalyzer.outputs_are_known_or_awaited",
    "TFT.CustomAnalyzer.outputs_are_awaited_in_tensorflow_1",
    "TFT.CustomAnalyzer.assets_have_files",
    "TFT.CustomAnalyzer.other_outputs_leave_no_assets",
    "TFT.CustomAnalyzer.tracing_succeeds",
    "TFT.Graph.Optimize.cacheable_ptransform_analyzer"
   ],
   "note": "The code violates two parts: a CacheablePTransformAnalyzer with several outputs always fails (proved), and items None of output_asset_default_values make their outputs assets (proved). The rest is proved for every analyzer. Labels, name scopes and the conversion of values to tensors are not modelled"
  },
  {
   "property": "C85",
   "status": "partial",
   "theorems": [
    "TFT.TypeSpecs.type_specs_are_batches",
    "TFT.TypeSpecs.converter_expects_the_outputs_partial",
    "TFT.TypeSpecs.graph_converter_expects_the_outputs_partial",
    "TFT.TypeSpecs.function_converter_expects_the_outputs_partial",
    "TFT.TypeSpecs.ragged_outputs_partial",
    "TFT.TypeSpecs.ordinary_ragged_outputs",
    "TFT.TypeSpecs.other_ragged_outputs",
    "TFT.TypeSpecs.sparse_outputs_of_one_dimension",
    "TFT.TypeSpecs.converter_of_any_schema",
    "TFT.TypeSpecs.placeholders_of_feature_specs",
    "TFT.TypeSpecs.placeholders_of_type_specs",
    "TFT.TypeSpecs.mixed_specs_fail",
    "TFT.TypeSpecs.placeholder_names_are_valid",
    "TFT.TypeSpecs.placeholder_names"
   ],
   "note": "The claim is false of ragged outputs with row splits of type int32, with ragged dimensions of one given row length or with values of unknown size, and of sparse outputs of one dimension (shown). Proved for all others. The converter itself belongs to another library; proved is what it is given. An output annotated with a shape is expected with that shape."
  },
  {
   "property": "C86",
   "status": "partial",
   "theorems": [
    "TFT.Scaling.scale_by_min_max_of_tensors_partial",
    "TFT.Scaling.scale_to_z_score_of_tensors_partial",
    "TFT.Scaling.scale_to_0_1_of_tensors_partial",
    "TFT.Scaling.elementwise_ragged_refused",
    "TFT.Scaling.scale_tensor_range_refused",
    "TFT.Scaling.other_widths_fail",
    "TFT.Scaling.z_score_of_two_widths_fails",
    "TFT.Scaling.min_max_of_two_widths_fails",
    "TFT.Scaling.wider_batches_use_the_first_position"
   ],
   "note": "Fails for elementwise scaling of sparse tensors without a fixed width, and is refused for ragged ones (the other theorems). In min-max scaling values are finite; in elementwise z-scores of sparse tensors too (C01 fails there otherwise)."
  },
  {
   "property": "C87",
   "status": "partial",
   "theorems": [
    "TFT.SavedLoad.written_transform_applied_partial",
    "TFT.SavedLoad.legacy_transform_applied_partial",
    "TFT.SavedLoad.legacy_signature_partial",
    "TFT.SavedLoad.variables_restored_partial",
    "TFT.SavedLoad.unexpected_input_refused",
    "TFT.SavedLoad.wrong_kind_refused",
    "TFT.SavedLoad.trainable_refused",
    "TFT.SavedLoad.empty_refused",
    "TFT.SavedLoad.untagged_refused",
    "TFT.SavedLoad.renamed_on_load",
    "TFT.SavedLoad.lost_on_load",
    "TFT.SavedLoad.legacy_dense_shape_refused",
    "TFT.SavedLoad.missing_signature_accepted",
    "TFT.SavedLoad.empty_part_refused",
    "TFT.SavedLoad.same_name_refused"
   ],
   "note": "Fails for features whose names end like the components in old signatures, for sparse features called dense_shape in old models, for SavedModels without the signature, and for variables with names like those of parts (the last six theorems)."
  },
  {
   "property": "C88",
   "status": "partial",
   "theorems": [
    "TFT.SerializeExample.serialize_example_partial",
    "TFT.SerializeExample.other_types_refused",
    "TFT.SerializeExample.no_features_refused",
    "TFT.SerializeExample.different_batches_refused",
    "TFT.SerializeExample.gaps_are_wrong",
    "TFT.SerializeExample.empty_batch_refused"
   ],
   "note": "A reader of the wire format, written separately, finds in every Example exactly the features of the instance, for non-empty batches of dense tensors of any shape and sparse ones whose instances have their values at the beginning. The full claim fails: the documentation says that indices within an instance are ignored, but an instance with a gap is written with default values instead of its own (gaps_are_wrong, for every value), and an empty batch is refused (empty_batch_refused). The 2 GiB limit of messages is not modelled."
  },
  {
   "property": "C89",
   "status": "partial",
   "theorems": [
    "TFT.Pretrained.apply_saved_model_partial",
    "TFT.Pretrained.apply_function_partial",
    "TFT.Pretrained.unneeded_input_refused",
    "TFT.Pretrained.other_inputs_refused",
    "TFT.Pretrained.single_input_refused",
    "TFT.Pretrained.unknown_output_refused",
    "TFT.Pretrained.unknown_tags_refused",
    "TFT.Pretrained.ambiguous_signature_refused",
    "TFT.Pretrained.unknown_signature_refused",
    "TFT.Pretrained.tables_refused",
    "TFT.Pretrained.no_variables_refused",
    "TFT.Pretrained.missing_variable_refused",
    "TFT.Pretrained.unrestored_variable_refused",
    "TFT.Pretrained.overlapping_scopes_refused",
    "TFT.Pretrained.function_unneeded_input_refused",
    "TFT.Pretrained.second_output_refused",
    "TFT.Pretrained.asset_of_another_place",
    "TFT.Pretrained.repeated_input_wrong",
    "TFT.Pretrained.repeated_input_unfed",
    "TFT.Pretrained.names_without_case_refused"
   ],
   "note": "Holds for models without asset files and for tensors that are first outputs of operations with different names, if every input is needed. Fails otherwise: asset files are read from the place where the model was written, a tensor given twice to a function is taken for another one, and inputs that are not needed, second outputs and names that differ in case only are refused (the other theorems)."
  },
  {
   "property": "C90",
   "status": "partial",
   "theorems": [
    "TFT.VocabTables.tf1_analysis_uses_complete_vocabularies",
    "TFT.VocabTables.tf2_analysis_uses_complete_vocabularies_partial",
    "TFT.VocabTables.tf1_successful_analysis_used_complete_vocabularies",
    "TFT.VocabTables.tf2_successful_analysis_used_complete_vocabularies_partial",
    "TFT.VocabTables.tf2_string_path_refused_after_vocabulary",
    "TFT.VocabTables.size_of_temporary_vocabulary_analyzed",
    "TFT.VocabTables.string_path_depends_on_order",
    "TFT.VocabTables.num_buckets_of_ids",
    "TFT.VocabTables.range_of_ids",
    "TFT.VocabTables.num_buckets_of_buckets",
    "TFT.VocabTables.num_buckets_refused"
   ],
   "note": "complete with TF1 behaviour. With TF2 behaviour false in two cases, with theorems: an analyzer applied to the number of buckets, and to nothing else of the vocabulary, gets that of the temporary vocabulary (size_of_temporary_vocabulary_analyzed), and a file given by a string is refused after any vocabulary (tf2_string_path_refused_after_vocabulary). Sharing of operations, and files whose path is computed in the preprocessing function, are not modelled."
  },
  {
   "property": "C91",
   "status": "partial",
   "theorems": [
    "TFT.InPlace.analyze_in_place_result",
    "TFT.InPlace.analyze_in_place_agrees_with_analysis",
    "TFT.InPlace.analyzers_refused",
    "TFT.InPlace.tf1_refused_writes_nothing_partial",
    "TFT.InPlace.tf2_refused_leaves_transform_fn",
    "TFT.InPlace.metadata_is_written_last",
    "TFT.InPlace.Cases.tf2_leaves_temporary_values",
    "TFT.InPlace.Cases.tf2_dies_over_older_output"
   ],
   "note": "False with TF2 behaviour for what a refused call writes: a transform function with temporary values is left, in place of an older one (tf2_refused_leaves_transform_fn, Cases.tf2_leaves_temporary_values), and for a call that dies over an older output (Cases.tf2_dies_over_older_output). The SavedModel appears at once in the model."
  },
  {
   "property": "C92",
   "status": "partial",
   "theorems": [
    "TFT.ApproxVocab.approximate_vocabulary_estimates",
    "TFT.ApproxVocab.approximate_vocabulary_reserved",
    "TFT.ApproxVocab.frequent_tokens_are_listed",
    "TFT.ApproxVocab.few_tokens_are_exact",
    "TFT.ApproxVocab.runs_agree",
    "TFT.ApproxVocab.approximate_vocabulary_rejects",
    "TFT.ApproxVocab.default_top_k_fails",
    "TFT.ApproxVocab.default_names_are_swapped",
    "TFT.ApproxVocab.MisraGries.misra_gries_contract"
   ],
   "note": "Proved relative to a contract for the sketch of tfx_bsl, which is not in the repository; misra_gries_contract proves that the algorithm of the cited papers meets it. False for compute_and_apply_approximate_vocabulary without top_k (default_top_k_fails): the documented full vocabulary is a TypeError. Counts are exact numbers, in the code they are float32."
  },
  {
   "property": "C93",
   "status": "proved",
   "theorems": [
    "TFT.Densify.densify_places",
    "TFT.Densify.densify_succeeds_iff",
    "TFT.Densify.densify_rejects",
    "TFT.Densify.hash_strings_buckets",
    "TFT.Densify.hash_strings_rejects"
   ],
   "note": "SparseToDense and the string hashes are TensorFlow operations: the former is modelled by its documented behaviour, the latter are parameters."
  },
  {
   "property": "C94",
   "status": "partial",
   "theorems": [
    "TFT.Numeric.shape_is_the_l_skewness_and_l_kurtosis",
    "TFT.Numeric.symmetric_data_are_fitted_exactly",
    "TFT.Numeric.mirrored_data_get_mirrored_parameters",
    "TFT.Numeric.shape_skewness_lt_right",
    "TFT.Numeric.shape_mirror",
    "TFT.Numeric.initialH_sideFourth",
    "TFT.Numeric.search_misses_the_parameters",
    "TFT.Numeric.fit_misses_the_distribution"
   ],
   "note": "Over the reals. The formulas are proved to be the L-skewness and L-kurtosis of the distribution for all valid parameters; symmetric data are fitted exactly; mirrored data get mirrored parameters. For skewed data the property is not true of the code, and shown so for the parameters 1/4 and 7/8. The accuracy of the search for skewed data where it does find the parameters is not proved."
  },
  {
   "property": "C95",
   "status": "partial",
   "theorems": [
    "TFT.Checks.every_batch_is_checked",
    "TFT.Checks.only_what_is_requested_is_checked",
    "TFT.Checks.every_phase_is_checked",
    "TFT.Checks.phases_check_what_is_meant_partial",
    "TFT.Checks.annotations_are_not_checked",
    "TFT.Checks.analyze_columns",
    "TFT.Checks.transform_columns",
    "TFT.Checks.transform_columns_suffice",
    "TFT.Checks.analyze_columns_suffice",
    "TFT.Checks.computable_iff",
    "TFT.Checks.made_up_values_do_not_show",
    "TFT.Checks.v1_ignores_checks",
    "TFT.Checks.v2_makes_the_check",
    "TFT.Checks.checks_are_made_on_made_up_values",
    "TFT.Checks.a_check_of_a_result_fails_the_analysis",
    "TFT.Checks.no_outputs_no_checks"
   ],
   "note": "Proved for TF2 behaviour and checks that do not depend on results of analyzers. Not true of the code, and shown so: with TF1 behaviour checks on which no requested output depends are not made; a check of the result of an analyzer is made with a temporary value while the analysis runs and can fail it; checks of columns that are not given are made on made-up values; a function without outputs makes no checks. Relative to TensorFlow's automatic control dependencies as documented."
  },
  {
   "property": "C96",
   "status": "partial",
   "theorems": [
    "TFT.Reserved.first_given_tokens_are_used",
    "TFT.Reserved.vocabularies_are_independent",
    "TFT.Reserved.reserved_tokens_are_own",
    "TFT.Reserved.unknown_tokens_are_refused",
    "TFT.Reserved.text_becomes_numbers",
    "TFT.Reserved.same_name_takes_other_tokens"
   ],
   "note": "Proved for vocabularies with different names and tokens given as lists, and for every sequence of calls whose tokens are used. The claim fails when two vocabularies have the same name in different formats (same_name_takes_other_tokens) and for a text in place of a list (text_becomes_numbers)."
  },
  {
   "property": "C97",
   "status": "partial",
   "theorems": [
    "TFT.TypedScaling.z_scores_of_rounded",
    "TFT.TypedScaling.integer_z_scores_exact",
    "TFT.TypedScaling.scaling_of_rounded",
    "TFT.TypedScaling.close_large_integers_get_z_score_0",
    "TFT.TypedScaling.close_large_integers_are_scaled_alike"
   ],
   "note": "Proved for dense columns without keys, with exact arithmetic after the cast; overflow of float16 is not modelled. Large integers that are close to each other lose all information: close_large_integers_get_z_score_0, close_large_integers_are_scaled_alike."
  },
  {
   "property": "C98",
   "status": "partial",
   "theorems": [
    "TFT.Graph.Optimize.counters_are_exact",
    "TFT.Graph.Optimize.bytes_from_cache_are_not_read_partial",
    "TFT.Graph.Optimize.several_phases_count_nothing",
    "TFT.Graph.Optimize.counted_although_read"
   ],
   "note": "The counters are proved exact. That counted datasets are not read is proved for datasets that are to be cached and analyses that get at the data only through cacheable outputs; it is false of the code if an analyzer without a cache reads the dataset, and shown so (counted_although_read). For analyses with a cache and at least one dataset, under the assumptions of C60."
  },
  {
   "property": "C99",
   "status": "partial",
   "theorems": [
    "TFT.Keys.keys_of_caches_are_checked",
    "TFT.Keys.own_cache_is_accepted_partial",
    "TFT.Keys.unchecked_keys_have_own_directories",
    "TFT.Keys.data_keys_are_not_checked",
    "TFT.Keys.own_cache_is_refused"
   ],
   "note": "The check is made on the keys of the input cache, not of the datasets (data_keys_are_not_checked), so a run with a key that is not acceptable succeeds and is refused when it is repeated with its own cache (own_cache_is_refused). Proved: acceptable keys are accepted again with any of their caches; different keys have different directories even without the check."
  }
 ]
}