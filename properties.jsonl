{"id": "C01", "title": "mean and var do not depend on how the data was batched, sharded or merged", "statement": "tft.mean and tft.var over a dataset of finite numbers return the population mean and population variance of the whole dataset (in exact arithmetic), whatever batches Beam makes, in whatever order they are added to accumulators, and whatever tree of accumulator merges the runner performs.", "quantifier": "every non-empty dataset, every partition of it into batches (including empty ones), every finite tree of create/add_input/merge calls", "why_tests_cant": "the runner picks the merge tree; the number of trees is unbounded and the combine formula has swap and zero-count branches", "anchors": ["tensorflow_transform/analyzers.py:WeightedMeanAndVarCombiner", "tensorflow_transform/analyzers.py:_mean_and_var", "tensorflow_transform/tf_utils.py:reduce_batch_count_mean_and_var"]}
{"id": "C02", "title": "sum, size and counts do not depend on the schedule", "statement": "tft.sum, tft.size, tft.count_per_key return the total over the whole dataset for every batching and merge tree.", "quantifier": "every dataset, every partition into batches, every merge tree", "why_tests_cant": "unbounded schedules; the combiner skips accumulators it believes to be empty and this must never drop data", "anchors": ["tensorflow_transform/analyzers.py:NumPyCombiner", "tensorflow_transform/analyzers.py:sum", "tensorflow_transform/analyzers.py:size", "tensorflow_transform/analyzers.py:count_per_key"]}
{"id": "C03", "title": "min and max return the true extremes for every schedule", "statement": "tft.min and tft.max return the smallest and largest value of the whole dataset for every batching and merge tree.", "quantifier": "every non-empty dataset of representable values, every partition into batches, every merge tree", "why_tests_cant": "whether a batch is dropped depends on its contents and on which accumulator call it goes through, so a test that happens to use one batch passes", "anchors": ["tensorflow_transform/analyzers.py:NumPyCombiner", "tensorflow_transform/analyzers.py:_min_and_max", "tensorflow_transform/tf_utils.py:reduce_batch_minus_min_and_max"]}
{"id": "C04", "title": "covariance does not depend on the schedule", "statement": "tft.covariance returns E[x x^T] - E[x] E[x]^T of the whole dataset for every batching and merge tree, and the zero matrix for an empty dataset.", "quantifier": "every dataset of vectors of one dimension, every partition into batches, every merge tree", "why_tests_cant": "unbounded schedules", "anchors": ["tensorflow_transform/analyzers.py:CovarianceCombiner", "tensorflow_transform/analyzers.py:covariance"]}
{"id": "C05", "title": "weighted mean statistics do not depend on the schedule", "statement": "The weighted-mean accumulators used for vocabularies with labels and weights merge to (total count, weighted mean, mean weight) of all rows for every merge tree.", "quantifier": "every finite family of weighted rows with positive total weight, every merge tree", "why_tests_cant": "unbounded merge trees; the merge formula divides by products that can vanish", "anchors": ["tensorflow_transform/analyzers.py:WeightedMeanAndVarCombiner", "tensorflow_transform/beam/analyzer_impls.py:_WeightedMeanCombineFn"]}
{"id": "C06", "title": "L-moment accumulators merge to count-weighted averages", "statement": "The L-moment analyzers (tft.tukey_location and friends) merge batch L-moments into the average of batch L-moments weighted by their numbers of terms, independent of the merge tree.", "quantifier": "every family of batches, every merge tree", "why_tests_cant": "unbounded merge trees", "anchors": ["tensorflow_transform/analyzers.py:_LMomentsCombiner"]}
{"id": "C07", "title": "packing combiners does not change results", "statement": "Analyzers combined together in one packed combine give each analyzer exactly the accumulator and output it would have got on its own, for every schedule.", "quantifier": "every list of combiners, every schedule of add_input/merge/compact/extract", "why_tests_cant": "the optimisation is applied depending on graph shape; equality must hold for all accumulators", "anchors": ["tensorflow_transform/beam/analyzer_impls.py:_PackedCombinerWrapper", "tensorflow_transform/beam/analyzer_impls.py:_CombinerWrapper", "tensorflow_transform/beam/combiner_packing_util.py"]}
{"id": "C08", "title": "analysis with cache equals analysis without cache", "statement": "AnalyzeDatasetWithCache over datasets D1..Dn, with any subset of the per-dataset accumulators read from a cache written by an earlier run over the same data, gives the same analyzer output as analysing all the data from scratch.", "quantifier": "every number of datasets, every subset served from cache, every combiner whose merge is a commutative monoid action, every merge tree", "why_tests_cant": "subsets x schedules are unbounded", "anchors": ["tensorflow_transform/beam/analysis_graph_builder.py:_OptimizeVisitor", "tensorflow_transform/beam/analyzer_impls.py:_EncodeCacheImpl", "tensorflow_transform/beam/analyzer_impls.py:_DecodeCacheImpl"]}
{"id": "C09", "title": "vocabulary contents: frequency threshold and top_k", "statement": "tft.vocabulary without labels writes exactly the tokens (except, in text files, empty ones and ones with line breaks) whose total frequency over the whole dataset is at least frequency_threshold, limited to the top_k most frequent (ties: reverse lexicographic), in order of decreasing frequency then reverse lexicographic; the result does not depend on how the data was sharded.", "quantifier": "every multiset of tokens, every threshold, every top_k, every sharding and merge order", "why_tests_cant": "ties, thresholds and shard layouts interact; unbounded inputs", "anchors": ["tensorflow_transform/analyzers.py:vocabulary", "tensorflow_transform/beam/analyzer_impls.py:_VocabularyPruneImpl", "tensorflow_transform/beam/analyzer_impls.py:_ApplyThresholdsAndTopK", "tensorflow_transform/beam/analyzer_impls.py:_OrderElementsFn"]}
{"id": "C10", "title": "reserved tokens come first, in the given order, and are never repeated", "statement": "With reserved_tokens the vocabulary file starts with exactly those tokens in order, followed by the remaining tokens in their usual order; a reserved token that also occurs in the data is not repeated.", "quantifier": "every list of reserved tokens and every vocabulary", "why_tests_cant": "overlaps between reserved tokens and data are arbitrary", "anchors": ["tensorflow_transform/beam/analyzer_impls.py:_OrderElementsFn"]}
{"id": "C11", "title": "a vocabulary file is never empty", "statement": "Whatever the data and filters, the written vocabulary has at least one line (a dummy entry when there would be none), so lookup tables can always be initialised.", "quantifier": "every dataset including the empty one, every filter setting, every reserved list", "why_tests_cant": "the empty case can be reached through any combination of filters", "anchors": ["tensorflow_transform/beam/analyzer_impls.py:maybe_add_empty_vocabulary_dummy", "tensorflow_transform/beam/analyzer_impls.py:_OrderElementsFn", "tensorflow_transform/analyzers.py:get_empy_vocabulary_dummy_value"]}
{"id": "C12", "title": "the reported vocabulary size equals the number of lines in the file", "statement": "The size that tft annotates for a vocabulary (get_vocabulary_size_by_name, vocabulary_size_by_name) equals the number of entries in the written vocabulary file.", "quantifier": "every dataset, every filter setting, every reserved token list", "why_tests_cant": "the size is computed on a separate path from the file; agreement must hold for every overlap of reserved tokens and data", "anchors": ["tensorflow_transform/analyzers.py:_vocabulary_analyzer_nodes", "tensorflow_transform/beam/analyzer_impls.py:_VocabularyCountImpl", "tensorflow_transform/beam/analyzer_impls.py:_OrderElementsFn"]}
{"id": "C13", "title": "coverage vocabulary keeps the standard vocabulary and adds the top tokens per key", "statement": "With coverage_top_k / key_fn the written vocabulary contains every token selected by top_k/frequency_threshold and, for each key, the coverage_top_k best tokens of that key meeting coverage_frequency_threshold, and nothing else, each once.", "quantifier": "every token multiset, every key function, every parameter", "why_tests_cant": "key functions are arbitrary user code", "anchors": ["tensorflow_transform/beam/analyzer_impls.py:_VocabularyPruneImpl"]}
{"id": "C14", "title": "vocabulary lookup ids are consecutive, distinct, and inside the published domain", "statement": "Applying a vocabulary with n entries maps the i-th entry to i, distinct in-vocabulary tokens to distinct ids, out-of-vocabulary tokens to default_value or, with num_oov_buckets, into [n, n+num_oov_buckets); every output lies in the [min,max] domain published in the output schema.", "quantifier": "every vocabulary without repeated entries, every token, every default value and number of OOV buckets, every hash function", "why_tests_cant": "hash and vocabulary are arbitrary", "anchors": ["tensorflow_transform/mappers.py:apply_vocabulary", "tensorflow_transform/mappers.py:_apply_vocabulary_internal", "tensorflow_transform/mappers.py:get_num_buckets_for_transformed_feature"]}
{"id": "C15", "title": "fingerprint shuffle only permutes the vocabulary", "statement": "With fingerprint_shuffle the vocabulary file has the same entries as without it, in an order that depends only on the entries (not on the order they were collected).", "quantifier": "every vocabulary, every fingerprint function, every collection order", "why_tests_cant": "collection order is decided by the runner", "anchors": ["tensorflow_transform/beam/analyzer_impls.py:_VocabularyOrderAndWriteImpl"]}
{"id": "C16", "title": "the sorted-input fast path writes the same file as the sorting path", "statement": "When top_k is given, the ordering stage skips sorting because the input is already sorted; the file is the same as if it had sorted.", "quantifier": "every token multiset and parameter setting that takes the fast path", "why_tests_cant": "unbounded inputs; correctness depends on an ordering contract between two stages", "anchors": ["tensorflow_transform/analyzers.py:_vocabulary_analyzer_nodes", "tensorflow_transform/beam/analyzer_impls.py:_OrderElementsFn", "tensorflow_transform/beam/analyzer_impls.py:_ApplyThresholdsAndTopK"]}
{"id": "C17", "title": "apply_buckets assigns the bucket whose boundaries enclose the value", "statement": "apply_buckets maps x to the number of boundaries that are <= x: bucket i means boundaries[i-1] <= x < boundaries[i]; results lie in [0, number of boundaries], are monotone in x, and agree with the domain published in the schema.", "quantifier": "every sorted list of boundaries and every value", "why_tests_cant": "unbounded boundaries and values, boundary equality cases", "anchors": ["tensorflow_transform/mappers.py:apply_buckets", "tensorflow_transform/tf_utils.py:assign_buckets"]}
{"id": "C18", "title": "apply_buckets_with_interpolation is a monotone map into [0,1]", "statement": "apply_buckets_with_interpolation maps every finite value into [0,1], maps values at or below the lowest boundary to 0 and at or above the highest to 1, maps boundary i to i/(n-1), and is monotone.", "quantifier": "every strictly increasing list of boundaries and every finite value", "why_tests_cant": "unbounded", "anchors": ["tensorflow_transform/mappers.py:apply_buckets_with_interpolation"]}
{"id": "C19", "title": "bucketize_per_key buckets each value by its own key's boundaries", "statement": "For a value x with key k the bucket returned by bucketize_per_key is the number of key k's quantile boundaries that are <= x, independent of the other keys; a key not seen in analysis gives -1.", "quantifier": "every number of keys, every boundary matrix, every value", "why_tests_cant": "the implementation joins all keys' boundaries onto one axis; interference between keys shows only for some key positions and bucket counts", "anchors": ["tensorflow_transform/beam/analyzer_impls.py:_join_boundary_rows", "tensorflow_transform/mappers.py:_apply_buckets_with_keys", "tensorflow_transform/mappers.py:bucketize_per_key"]}
{"id": "C20", "title": "per-key bucketization stays in its published domain", "statement": "Every value produced by bucketize_per_key lies in the [min,max] IntDomain attached to the output feature.", "quantifier": "every input value and key", "why_tests_cant": "only unseen keys expose it", "anchors": ["tensorflow_transform/mappers.py:_apply_buckets_with_keys"]}
{"id": "C21", "title": "scale_by_min_max stays in range", "statement": "scale_by_min_max (and scale_to_0_1) maps every analysed value into [output_min, output_max], the dataset minimum to output_min and maximum to output_max when they differ, preserves order, and maps a constant column strictly inside the range.", "quantifier": "every dataset, every value, every output range with output_min < output_max", "why_tests_cant": "unbounded values", "anchors": ["tensorflow_transform/mappers.py:scale_by_min_max", "tensorflow_transform/mappers.py:_scale_by_min_max_internal"]}
{"id": "C22", "title": "scale_to_z_score gives mean 0 and variance 1", "statement": "scale_to_z_score output over the analysed dataset has mean 0 and, if the data are not constant, variance 1; a constant column becomes 0.", "quantifier": "every non-empty dataset", "why_tests_cant": "unbounded", "anchors": ["tensorflow_transform/mappers.py:scale_to_z_score", "tensorflow_transform/mappers.py:_scale_to_z_score_internal"]}
{"id": "C23", "title": "tfidf weights are term frequency times inverse document frequency", "statement": "tft.tfidf returns for each document each distinct term once with weight (occurrences/document length) * idf(term), idf computed from the number of documents that contain the term; the term frequencies of a non-empty document sum to 1; terms outside the vocabulary range are wrapped into it.", "quantifier": "every batch of documents, every vocabulary size", "why_tests_cant": "unbounded documents", "anchors": ["tensorflow_transform/mappers.py:tfidf", "tensorflow_transform/mappers.py:_to_term_frequency", "tensorflow_transform/mappers.py:_to_tfidf", "tensorflow_transform/mappers.py:_count_docs_with_term", "tensorflow_transform/tf_utils.py:document_frequency_to_idf"]}
{"id": "C24", "title": "ngrams returns exactly the n-grams of each row", "statement": "tft.ngrams returns, for each row, all contiguous token runs of each requested length joined by the separator, ordered by start position and then length, never crossing rows.", "quantifier": "every batch of token rows, every ngram_range, every separator", "why_tests_cant": "row lengths, empty rows and ranges longer than rows interact", "anchors": ["tensorflow_transform/mappers.py:ngrams"]}
{"id": "C25", "title": "bag_of_words and deduplicate_tensor_per_row keep first occurrences", "statement": "deduplicate_tensor_per_row returns each row's distinct values once, in order of first occurrence, and never mixes rows.", "quantifier": "every batch of rows", "why_tests_cant": "unbounded", "anchors": ["tensorflow_transform/mappers.py:deduplicate_tensor_per_row", "tensorflow_transform/mappers.py:bag_of_words"]}
{"id": "C26", "title": "segment_indices, word_count and left-align", "statement": "segment_indices numbers the elements of each segment 0,1,2,...; word_count returns each row's number of tokens; sparse_tensor_left_align keeps each row's values in order and puts them in columns 0..n-1.", "quantifier": "every non-decreasing list of segment ids (with gaps), every sparse batch", "why_tests_cant": "gaps and empty rows", "anchors": ["tensorflow_transform/mappers.py:segment_indices", "tensorflow_transform/mappers.py:word_count", "tensorflow_transform/mappers.py:sparse_tensor_left_align"]}
{"id": "C27", "title": "cache coders round-trip", "statement": "decode_cache(encode_cache(x)) = x for the key/value, per-key and vocabulary accumulator coders.", "quantifier": "every key and value byte string, every accumulator", "why_tests_cant": "unbounded byte strings, length prefix boundaries", "anchors": ["tensorflow_transform/analyzer_nodes.py:_BaseKVCoder", "tensorflow_transform/analyzer_nodes.py:_CombinerPerKeyAccumulatorCoder", "tensorflow_transform/analyzer_nodes.py:_VocabularyAccumulatorCoder"]}
{"id": "C28", "title": "reading the analysis cache returns what was last written", "statement": "After any sequence of completed WriteAnalysisCacheToFS calls to a directory, ReadAnalysisCacheFromFS returns, for each dataset and cache key, the value of the last write of that key, and entries of other keys are never lost or overwritten.", "quantifier": "every history of writes", "why_tests_cant": "histories are unbounded; correctness hangs on index allocation in a manifest", "anchors": ["tensorflow_transform/beam/analyzer_cache.py:WriteAnalysisCacheToFS", "tensorflow_transform/beam/analyzer_cache.py:ReadAnalysisCacheFromFS", "tensorflow_transform/beam/analyzer_cache.py:_ManifestFile"]}
{"id": "C29", "title": "a crash while writing the cache never makes a later read return mixed data", "statement": "If the process stops at any point of a cache write, a later read returns for each key either an earlier complete value or nothing; and a later write followed by a read returns only the newly written data.", "quantifier": "every crash point of every write in every history", "why_tests_cant": "crash points cannot be enumerated by unit tests", "anchors": ["tensorflow_transform/beam/analyzer_cache.py:_ManifestFile.write", "tensorflow_transform/beam/analyzer_cache.py:WriteAnalysisCacheToFS._write_cache"]}
{"id": "C30", "title": "distinct dataset keys use distinct cache directories", "statement": "validate_dataset_keys accepts only keys that are valid directory names; two different accepted keys never share a cache directory.", "quantifier": "every pair of accepted dataset keys", "why_tests_cant": "all strings", "anchors": ["tensorflow_transform/beam/analyzer_cache.py:validate_dataset_keys", "tensorflow_transform/beam/analyzer_cache.py:_make_valid_cache_component", "tensorflow_transform/beam/analyzer_cache.py:_get_dataset_cache_path"]}
{"id": "C31", "title": "graph traversal evaluates every operation exactly once, after its inputs", "statement": "Traversing an analysis graph evaluates each operation that the requested value depends on exactly once, after all its inputs, gives every consumer the value the operation produced, and reports an error (rather than looping) when the graph has a cycle.", "quantifier": "every finite graph, every visitor, every sequence of requests to one traverser", "why_tests_cant": "graphs with sharing are unbounded", "anchors": ["tensorflow_transform/nodes.py:Traverser"]}
{"id": "C32", "title": "a tensor is reported ready exactly when everything it depends on is ready", "statement": "For a graph without cycles, the readiness analysis reports a tensor as ready iff every source it depends on is ready, and its dependent-sources set is exactly the set of sources reachable from it, whatever was asked before.", "quantifier": "every acyclic graph, every query history", "why_tests_cant": "memoised iterative DFS; unbounded graphs", "anchors": ["tensorflow_transform/graph_tools.py:_GraphAnalyzer.analyze_tensor", "tensorflow_transform/graph_tools.py:InitializableGraphAnalyzer"]}
{"id": "C33", "title": "retrieve_sources finds exactly the sources reachable backwards", "statement": "retrieve_sources / get_dependent_inputs return exactly the inputs that the requested outputs depend on, and terminate on every graph.", "quantifier": "every graph, including cyclic ones", "why_tests_cant": "unbounded graphs", "anchors": ["tensorflow_transform/graph_tools.py:retrieve_sources", "tensorflow_transform/graph_tools.py:get_dependent_inputs"]}
{"id": "C34", "title": "analysis phases evaluate every analyzer after its inputs", "statement": "The phase loop of analysis assigns every analyzer to a phase strictly later than the phases of the analyzers it depends on, finishes in at most as many phases as there are analyzers, and leaves no analyzer unevaluated.", "quantifier": "every set of analyzers with acyclic dependencies", "why_tests_cant": "unbounded dependency graphs", "anchors": ["tensorflow_transform/beam/analysis_graph_builder.py:build", "tensorflow_transform/beam/analysis_graph_builder.py:_ReadyVisitor"]}
{"id": "C35", "title": "nested Contexts inherit unset options and restore on exit", "statement": "Inside nested tft_beam.Context blocks each option has the value set by the innermost enclosing block that set it; after a block exits (normally or by exception) all options are what they were before.", "quantifier": "every nesting of blocks on one thread", "why_tests_cant": "nesting depth unbounded", "anchors": ["tensorflow_transform/beam/context.py:Context"]}
{"id": "C36", "title": "slicing large batches loses nothing", "statement": "Splitting an oversized transformed record batch yields consecutive pieces whose concatenation is the original batch; every piece is within the size limit or has a single row; splitting always terminates.", "quantifier": "every batch, every size function", "why_tests_cant": "recursion depth unbounded", "anchors": ["tensorflow_transform/beam/impl.py:_maybe_slice_large_record_batch"]}
{"id": "C37", "title": "varlen sparse validation accepts exactly left-aligned ragged batches", "statement": "Outputting a SparseTensor as a var-length feature is accepted iff its indices enumerate, row by row in order, columns 0..n-1 of each row; otherwise ValueError.", "quantifier": "every list of index pairs", "why_tests_cant": "unbounded; many ways to be malformed", "anchors": ["tensorflow_transform/impl_helper.py:validate_varlen_sparse_value"]}
{"id": "C38", "title": "publishing a transform function survives crashes and retries", "statement": "WriteTransformFn publishes metadata and SavedModel so that after completion both are the new ones; at every crash point each is the old, the new, or absent, never a mixture; retrying after a crash completes the publication.", "quantifier": "every initial directory state and every crash point, every number of retries", "why_tests_cant": "crash points", "anchors": ["tensorflow_transform/beam/tft_beam_io/transform_fn_io.py:WriteTransformFn"]}
{"id": "C39", "title": "encoding an instance does not depend on previously encoded instances", "statement": "ExampleProtoCoder.encode(instance) depends only on the schema and the instance, not on what the coder encoded (or failed to encode) before, although the coder reuses one Example object.", "quantifier": "every history of encode calls, including failing ones", "why_tests_cant": "histories unbounded", "anchors": ["tensorflow_transform/coders/example_proto_coder.py:ExampleProtoCoder"]}
{"id": "C40", "title": "histogram counts every value once in its bucket", "statement": "tft.histogram returns, for each bucket, the number of values in it; counts are in bucket order whatever order the key counts come out in, buckets without values get 0, and the counts add up to the number of values.", "quantifier": "every dataset, every boundary list, every order of per-key counts", "why_tests_cant": "order is decided by the runner", "anchors": ["tensorflow_transform/analyzers.py:histogram", "tensorflow_transform/tf_utils.py:reorder_histogram"]}
{"id": "C41", "title": "recommended min_diff_from_avg is monotone and bounded", "statement": "calculate_recommended_min_diff_from_avg returns an integer in [2,25], non-decreasing in the dataset size, 2 for small and 25 for at least a million rows.", "quantifier": "every dataset size", "why_tests_cant": "all integers", "anchors": ["tensorflow_transform/analyzers.py:calculate_recommended_min_diff_from_avg"]}
{"id": "C42", "title": "expected mutual information uses a true probability distribution", "statement": "The hypergeometric probabilities summed in the expected mutual information are non-negative, equal to the textbook formula, and add up to 1.", "quantifier": "every n and marginals x,y <= n", "why_tests_cant": "all naturals", "anchors": ["tensorflow_transform/info_theory.py:_hypergeometric_pmf", "tensorflow_transform/info_theory.py:calculate_partial_expected_mutual_information"]}
{"id": "C43", "title": "gaussianization parameter search keeps its bracket", "statement": "The bisection used by scale_to_gaussian keeps a bracket inside the given interval, halves it each step, and if the error function is monotone with a root in the interval the root stays in the bracket.", "quantifier": "every monotone error function, every interval", "why_tests_cant": "all functions", "anchors": ["tensorflow_transform/gaussianization.py:_binary_search"]}
{"id": "C44", "title": "passthrough data is attached unchanged or rejected", "statement": "Passthrough columns are output with the transformed rows when their length matches, kept as a single value when all values are equal (or there is one), and rejected otherwise; they never change the transformed columns.", "quantifier": "every batch size and passthrough column", "why_tests_cant": "lengths and value patterns", "anchors": ["tensorflow_transform/beam/impl.py:_convert_to_record_batch"]}
{"id": "C45", "title": "feature spec to schema conversion is faithful", "statement": "schema_from_feature_spec followed by the reverse reading recovers every fixed-length, var-length, sparse and ragged spec with its dtype, shape and domain; unsupported dtypes and defaults are rejected.", "quantifier": "every feature spec dict", "why_tests_cant": "unbounded dicts", "anchors": ["tensorflow_transform/tf_metadata/schema_utils.py:schema_from_feature_spec", "tensorflow_transform/tf_metadata/schema_utils.py:schema_as_feature_spec"]}
{"id": "C46", "title": "graph context queries outside a scope return None", "statement": "TFGraphContext.get_module_to_export / get_evaluated_replacements return the values of the active scope and None when no scope is active, whatever scopes were opened and closed before on the thread.", "quantifier": "every history of enter/exit on a thread", "why_tests_cant": "histories", "anchors": ["tensorflow_transform/graph_context.py:TFGraphContext"]}
{"id": "C47", "title": "py_func tokens are remapped consistently on load", "statement": "After loading a saved transform every py_func node calls the same Python function it called when saved; a node whose function was not saved is an error.", "quantifier": "every graph and function collection", "why_tests_cant": "token collisions", "anchors": ["tensorflow_transform/py_func/pyfunc_helper.py:register_pyfuncs_from_saved_transform"]}
{"id": "C48", "title": "per-key statistics are looked up for the right key", "statement": "Per-key scaling uses the statistics of the instance's own key; keys not seen in analysis use the documented default.", "quantifier": "every key vocabulary and every key", "why_tests_cant": "all vocabularies", "anchors": ["tensorflow_transform/tf_utils.py:lookup_key", "tensorflow_transform/tf_utils.py:map_per_key_reductions", "tensorflow_transform/beam/analyzer_impls.py:_merge_outputs_by_key", "tensorflow_transform/tf_utils.py:apply_per_key_vocabulary"]}
{"id": "C49", "title": "batch reductions before vocabulary/count lose nothing", "statement": "Pre-aggregating a batch into unique tokens with counts (or weights, or label cooccurrences) and then summing over batches gives the same totals as counting tokens one by one.", "quantifier": "every batch and every batching", "why_tests_cant": "unbounded", "anchors": ["tensorflow_transform/tf_utils.py:reduce_batch_weighted_counts", "tensorflow_transform/tf_utils.py:reduce_batch_weighted_cooccurrences", "tensorflow_transform/beam/analyzer_impls.py:sum_labeled_weights"]}
{"id": "C50", "title": "deep copy clones exactly the upstream of the last materialization boundary, in dependency order", "statement": "deep_copy re-applies every transform between the input and the materialization boundary exactly once, producers before consumers, so the copy computes the same data.", "quantifier": "every pipeline graph", "why_tests_cant": "unbounded graphs", "anchors": ["tensorflow_transform/beam/deep_copy.py:deep_copy"]}
{"id": "C51", "title": "compute_and_apply_vocabulary integerizes every string by its rank", "statement": "compute_and_apply_vocabulary maps every string to its rank among the tokens selected by frequency_threshold and top_k over the whole analyzed data (most frequent first, ties in decreasing lexicographic order), independently of batching, sharding and merge order, and strings that were not selected to the default value or an OOV bucket.", "quantifier": "every dataset, every division into datasets and batches, every Beam run, every string", "why_tests_cant": "the runner chooses batches, bundles and merge trees", "anchors": ["tensorflow_transform/mappers.py:compute_and_apply_vocabulary", "tensorflow_transform/analyzers.py:vocabulary", "tensorflow_transform/beam/analyzer_impls.py:_VocabularyOrderAndWriteImpl"]}
{"id": "C52", "title": "an object tracked under a name is made once", "statement": "Within one module, make_and_track_object called with a name returns in every tracing of the preprocessing_fn the object that the first call made, and calls the factory only that first time; without a name each call makes and tracks a new object.", "quantifier": "every history of tracings, scopes and calls", "why_tests_cant": "the number of tracings and calls is unbounded", "anchors": ["tensorflow_transform/annotators.py:make_and_track_object", "tensorflow_transform/annotators.py:ObjectTracker", "tensorflow_transform/graph_context.py:TFGraphContext"]}
{"id": "C53", "title": "the last asset annotation of a key wins", "statement": "After any sequence of annotate_asset and clear calls, the asset annotations of the graph map every annotated key to the file name given last for it since the last clear, and no other key.", "quantifier": "every history of annotations", "why_tests_cant": "histories unbounded", "anchors": ["tensorflow_transform/annotators.py:annotate_asset", "tensorflow_transform/annotators.py:get_asset_annotations"]}
{"id": "C54", "title": "the published SavedModel is a copy of the computed one", "statement": "WriteTransformFn copies exactly the files of the SavedModel directory, at the same relative paths and with the same content, except those below a .tft_metadata directory.", "quantifier": "every directory tree", "why_tests_cant": "trees of unbounded depth", "anchors": ["tensorflow_transform/beam/tft_beam_io/transform_fn_io.py:_copy_tree"]}
{"id": "C55", "title": "the parameters scale_to_gaussian searches for are valid", "statement": "Whatever skewness and kurtosis the data has, compute_tukey_hh_params (the search behind scale_to_gaussian) terminates with tail parameters between 0 and 1 (1 excluded), the larger one on the side the skewness points to, and returns the normal distribution's parameters (0, 0) for tails lighter than normal.", "quantifier": "all real skewness and kurtosis, all results of the inner error functions", "why_tests_cant": "real inputs", "anchors": ["tensorflow_transform/gaussianization.py:compute_tukey_hh_params", "tensorflow_transform/gaussianization.py:_binary_search"]}
{"id": "C56", "title": "mutual information is not negative and is zero under independence", "statement": "For a set-valued token column with a label, the unadjusted mutual information used to rank the vocabulary equals the documented sum over labels, is not negative when at least two labels occur and no regularization is asked for, and is zero for a token that occurs in every row or independently of the label.", "quantifier": "every dataset of labelled, positively weighted rows, every token", "why_tests_cant": "real-valued sums over unbounded datasets", "anchors": ["tensorflow_transform/beam/analyzer_impls.py:_calculate_mutual_information_for_feature_value", "tensorflow_transform/info_theory.py:calculate_partial_mutual_information"]}
{"id": "C57", "title": "A labelled vocabulary lists the most informative tokens that reach the threshold", "statement": "With labels, the thresholds of tft.vocabulary are thresholds on the informativeness of a token, not on its frequency. The vocabulary lists exactly the tokens whose informativeness reaches the threshold and that are among the top_k most informative ones (ties broken by the token), most informative first. The parameters are accepted if and only if top_k and coverage_top_k are positive, the thresholds are not negative and key_fn is given exactly when a coverage parameter is.", "quantifier": "All vocabularies of tokens with any informativeness and frequencies, all top_k and thresholds, all ways Beam batches the elements.", "why_tests_cant": "Tests use a few tokens whose informativeness and frequency rank in the same way; a mix-up of the two or of the threshold and the cut only shows on others.", "anchors": ["tensorflow_transform/analyzers.py:vocabulary", "tensorflow_transform/beam/analyzer_impls.py:_VocabularyPruneImpl", "tensorflow_transform/beam/analyzer_impls.py:_VocabularyOrderAndWriteImpl"]}
{"id": "C58", "title": "Informativeness of a token is that of the whole data", "statement": "For tft.vocabulary with labels (and weights), the informativeness and frequency of each token depend only on the rows of the whole data: the label and weight of each row and whether it has the token. They do not depend on how the rows are divided into datasets and batches, on whether tokens are dense, sparse or ragged, or on the order in which Beam combines. Every token that occurs and can be written is given exactly once.", "quantifier": "All data, all divisions into datasets and batches, all representations of the batches, all orders of combination, all filters of tokens.", "why_tests_cant": "The number of divisions and orders is unbounded; tests use one or two batches in the direct runner.", "anchors": ["tensorflow_transform/tf_utils.py:reduce_batch_weighted_cooccurrences", "tensorflow_transform/beam/analyzer_impls.py:_MutualInformationTransformAccumulate", "tensorflow_transform/beam/analyzer_impls.py:_MutualInformationTransformMerge", "tensorflow_transform/beam/analyzer_impls.py:_WeightedMeanCombineFn", "tensorflow_transform/beam/analyzer_impls.py:_extract_sentinels"]}
{"id": "C59", "title": "A cache entry is found by the same computation, and only by the same computation", "statement": "With a cache, an analyzer's entry for a dataset is found by its cache entry key. Tracing the same preprocessing_fn again (node names, order of attributes and what has already been computed may differ) gives the same keys, so the cache is used; tensors that are ready before any analyzer ran always have a key. Two analyzers with the same key are the same analyzer, with the same parameters and label, applied to the same computation on the same input features, so a cache never gives the result of another computation.", "quantifier": "All TensorFlow graphs (without cycles), all attributes, input names, analyzers and parameters, all histories of queries, every hash function without collisions on the strings that occur.", "why_tests_cant": "The pairs of programs whose keys could collide or differ are unbounded; tests compare a few fixed programs.", "anchors": ["tensorflow_transform/graph_tools.py:describe_path_as_analyzer_cache_hash", "tensorflow_transform/graph_tools.py:_serialize_op_attr", "tensorflow_transform/beam/analysis_graph_builder.py:_OptimizeVisitor._make_next_hashed_path", "tensorflow_transform/beam/analyzer_cache.py:make_cache_entry_key"]}
{"id": "C60", "title": "Using a cache never changes the result of an analysis graph", "statement": "For every analysis graph and every cache filled by earlier runs (on any datasets, in any order, interrupted or with entries removed), the graph that is run with the cache computes what the graph without a cache computes on all the data. What is written is, for every dataset that is to be cached and every cacheable step, what that step computes on that dataset alone. Without a cache the graph is unchanged. The datasets that get_analysis_dataset_keys names are the only ones whose data matters, and a dataset with all its entries in the cache is not named; get_analysis_cache_entry_keys gives exactly the keys of the cacheable steps. In particular a CacheablePTransformAnalyzer that satisfies its documented laws gives extract(merge(make(inputs))).", "quantifier": "All analysis graphs, dataset lists, data, caches and histories of runs, all operations that satisfy the documented contract of is_partitionable.", "why_tests_cant": "Graphs, datasets and histories are unbounded; tests compare a few fixed graphs with and without a cache.", "anchors": ["tensorflow_transform/beam/analysis_graph_builder.py:_OptimizeVisitor", "tensorflow_transform/beam/analysis_graph_builder.py:get_analysis_dataset_keys", "tensorflow_transform/beam/analysis_graph_builder.py:get_analysis_cache_entry_keys", "tensorflow_transform/nodes.py:OperationDef.is_partitionable", "tensorflow_transform/experimental/analyzers.py:CacheablePTransformAnalyzer"]}
{"id": "C61", "title": "a CSV line reads back as the instance it was made from", "statement": "Every line returned by CsvCoder.encode, read by a standard CSV reader with the same delimiter, has exactly one field per column in the order of column_names, whatever delimiters, quotes and line breaks the values contain; the field of a column shows its value, and the field of a multivalent column, read with the secondary delimiter, shows all its values in order. Instances with acceptable values are encoded; wrong numbers of values, missing columns and a missing secondary delimiter are errors. A line does not depend on the instances encoded before.", "quantifier": "all schemas, column orders, delimiters, instances, texts and sequences of encode calls", "why_tests_cant": "the texts and their nesting are unbounded and the failures need particular characters or histories", "anchors": ["tensorflow_transform/coders/csv_coder.py:CsvCoder", "tensorflow_transform/coders/csv_coder.py:_FixedLenFeatureHandler", "tensorflow_transform/coders/csv_coder.py:_VarLenFeatureHandler"]}
{"id": "C62", "title": "The published schema describes the transformed outputs", "statement": "For every set of outputs returned by preprocessing_fn and every sequence of tft annotations made in it, the schema inferred for the transformed data, read back as a feature spec, has exactly the outputs: fixed length with the sizes of a dense tensor, variable length for a rank-two sparse one, sparse with one index column per dimension (and the annotated sizes) for others and for those annotated as sparse, ragged with one partition per dimension. An output has an integer domain exactly if a range was recorded for its values, namely the last one; its annotations are, in order, on the column with its values and on no other; the global annotations are those of the user. Inference succeeds for exactly the outputs that the documentation allows, before and after the analyzers are evaluated, in graph mode and with tf.functions.", "quantifier": "all finite sets of outputs of any kind, rank, shape and type, all sequences of overrides and annotations, with and without evaluation, both implementations", "why_tests_cant": "tests check a few schemas; the columns of different outputs, the two maps from tensors to keys and the order of annotations interact for arbitrary names, ranks and sequences of calls", "anchors": ["tensorflow_transform/schema_inference.py:infer_feature_schema", "tensorflow_transform/schema_inference.py:infer_feature_schema_v2", "tensorflow_transform/schema_inference.py:_infer_feature_schema_common", "tensorflow_transform/schema_inference.py:_feature_spec_from_batched_tensors", "tensorflow_transform/schema_inference.py:_override_sparse_feature_annotated_shapes", "tensorflow_transform/schema_inference.py:set_tensor_schema_override", "tensorflow_transform/schema_inference.py:annotate", "tensorflow_transform/experimental/annotators.py:annotate_sparse_output_shape"]}
{"id": "C63", "title": "A vocabulary is found under its name", "statement": "After WriteTransformFn, TFTransformOutput.vocabulary_file_by_name, vocabulary_by_name and vocabulary_size_by_name, called with the vocab_filename given to tft.vocabulary (or with the default name), find the file of exactly this vocabulary, its entries in order and their number, in both file formats; names that were never used are not found; keys of tft.annotate_asset find the annotated file; get_vocabulary_size_by_name inside of preprocessing_fn gives the size of the vocabulary of that name; num_buckets_for_transformed_feature is the number of values of the domain.", "quantifier": "all sequences of vocabularies and asset annotations, all names of any characters, all entries, both file formats", "why_tests_cant": "Names are arbitrary texts that are sanitized, cut at slashes and looked up in two places; tests use a few plain names and one vocabulary at a time.", "anchors": ["tensorflow_transform/output_wrapper.py:vocabulary_file_by_name", "tensorflow_transform/output_wrapper.py:vocabulary_size_by_name", "tensorflow_transform/output_wrapper.py:vocabulary_by_name", "tensorflow_transform/output_wrapper.py:num_buckets_for_transformed_feature", "tensorflow_transform/analyzers.py:sanitized_vocab_filename", "tensorflow_transform/analyzers.py:register_vocab", "tensorflow_transform/experimental/annotators.py:get_vocabulary_size_by_name"]}
{"id": "C64", "title": "Packing combiners does not change results", "statement": "Before the analysis runs, the analyzers that read the same data are merged into packed combines. For every preprocessing_fn, the saved model and the cache entries computed by the packed graph are those the original graph would compute; packing succeeds whenever the original graph runs, its stage names stay unique, and after packing of merges there is a single packed merge.", "quantifier": "every graph of accumulates, merges, post-processing operations, tensor bindings and cache nodes, any number of phases, any combiners, every schedule of calls", "why_tests_cant": "The graph is rewritten by three visitors that depend on the order of traversal and on labels; tests cover a few expected dot graphs and a few analyzers, not all graphs of analyzers.", "anchors": ["tensorflow_transform/beam/combiner_packing_util.py:perform_combiner_packing_optimization", "tensorflow_transform/beam/combiner_packing_util.py:_PackAccumulateCombineVisitor", "tensorflow_transform/beam/combiner_packing_util.py:_PackMergeCombineVisitor", "tensorflow_transform/beam/combiner_packing_util.py:_RemoveRedundantPackedMergeCombineVisitor", "tensorflow_transform/experimental/analyzers.py:approximate_vocabulary"]}
{"id": "C65", "title": "document_frequency and idf count the documents of the whole corpus", "statement": "tft.experimental.document_frequency replaces every term of a sparse batch by the number of documents of the whole analysis data that contain it, and idf by log((corpus+1)/(df+1)) or log(corpus/df), plus the baseline if asked for; indices and shape are unchanged, repeated terms of a document count once, and rarer terms never weigh less.", "quantifier": "all sparse batches of integer terms, vocabulary sizes, schedules of the analysis, options smooth and add_baseline, and batches to transform", "why_tests_cant": "Counts of a whole corpus over all batchings and shardings; deduplication inside batches goes through an arithmetic encoding of (document, term) pairs that tests try on a few sizes.", "anchors": ["tensorflow_transform/experimental/mappers.py:document_frequency", "tensorflow_transform/experimental/mappers.py:idf", "tensorflow_transform/experimental/mappers.py:_to_term_document_one_hot", "tensorflow_transform/experimental/mappers.py:_to_global_document_frequency", "tensorflow_transform/tf_utils.py:document_frequency_to_idf"]}
{"id": "C66", "title": "Analysis computes the meaning of the preprocessing function", "statement": "For a preprocessing_fn whose operations and analyzers are functions of their inputs, AnalyzeDataset succeeds exactly if every analyzer has a result on the dataset (each computed from tensors in which earlier analyzers have their full-dataset results), and the transform function it returns then computes, for every batch of any dataset, the outputs of the preprocessing_fn with each analyzer replaced by its own result. Temporary values of analyzers not yet evaluated never influence anything, in whatever order batches arrive in each phase, and although the preprocessing_fn is traced again for every phase. If a repeated trace does not correspond to the first one, the analysis fails.", "quantifier": "every graph of operations and analyzers (any number of phases), every dataset, batch and order of batches in each phase, every family of repeated traces", "why_tests_cant": "A test runs a few preprocessing functions of one or two phases and traces them identically; the claim needs all dependency structures and all retraces.", "anchors": ["tensorflow_transform/beam/analysis_graph_builder.py:build", "tensorflow_transform/analyzer_nodes.py:bind_future_as_tensor", "tensorflow_transform/impl_helper.py:get_traced_transform_fn", "tensorflow_transform/impl_helper.py:trace_and_write_v2_saved_model", "tensorflow_transform/graph_tools.py:get_analyzers_fingerprint", "tensorflow_transform/beam/impl.py:AnalyzeDataset"]}
{"id": "C67", "title": "Missing inputs only cost the outputs that need them", "statement": "A saved transform function applied to some of its inputs (transform_raw_features, TransformFeaturesLayer, TransformDataset on data without e.g. the label) returns exactly the outputs that are computed from the given inputs, each with the value it would have whatever the missing inputs were. A request for particular outputs is accepted exactly if these are computed from the announced inputs. TransformDataset gives the same results with TF1 and TF2 behaviour. The values made up for missing inputs are well-formed tensors of the input's type and of the size of the batch.", "quantifier": "all functions (graphs of operations over dense, sparse and ragged inputs), all subsets of inputs, all batches, requested and excluded outputs", "why_tests_cant": "Which outputs depend on which inputs varies over all graphs and subsets; tests drop one input of a few graphs.", "anchors": ["tensorflow_transform/saved/saved_transform_io_v2.py:SavedModelLoader", "tensorflow_transform/tf2_utils.py:supply_missing_inputs", "tensorflow_transform/tf2_utils.py:supply_missing_tensor", "tensorflow_transform/output_wrapper.py:transform_raw_features", "tensorflow_transform/beam/impl.py:_RunMetaGraphDoFn"]}
{"id": "C68", "title": "The listed input columns are the ones that matter", "statement": "get_analyze_input_columns and get_transform_input_columns list exactly the columns that some analyzer, respectively some output, is computed from. Columns that are not listed do not matter: a dataset that has the same values in the columns listed for the analysis is analyzed with the same result even if the other columns are absent, and batches that agree in the columns listed for the transformation are transformed alike. Columns that are listed do matter: for some meaning of the operations, changing the column changes what an analyzer is given, or an output.", "quantifier": "every traced graph, dataset and batch, every column", "why_tests_cant": "The claim compares whole datasets that differ in arbitrary columns, over all dependency structures; tests compare the lists for a few graphs.", "anchors": ["tensorflow_transform/inspect_preprocessing_fn.py:get_analyze_input_columns", "tensorflow_transform/inspect_preprocessing_fn.py:get_transform_input_columns", "tensorflow_transform/graph_tools.py:get_dependent_inputs", "tensorflow_transform/graph_tools.py:SourcedTensorsVisitor"]}
{"id": "C69", "title": "PCA finds the directions of most variance", "statement": "For every dataset that is not empty and output_dim of at most the number of columns, tft.pca returns output_dim orthonormal vectors in the order of decreasing variance of the data along them; the data is not correlated along different vectors, and for every j no j orthonormal vectors have a larger sum of variances than the first j returned ones. This does not depend on how the dataset is split into batches and accumulators. For an empty dataset the first basis vectors are returned.", "quantifier": "all datasets, dimensions, schedules of combining, and all orthonormal families", "why_tests_cant": "Maximality is a claim about a continuum of alternatives for every dataset; tests compare with numpy on a few matrices.", "anchors": ["tensorflow_transform/analyzers.py:PCACombiner", "tensorflow_transform/analyzers.py:pca", "tensorflow_transform/analyzers.py:CovarianceCombiner"]}
{"id": "C70", "title": "Estimated densities are those of the data", "statement": "estimated_probability_density returns for a value x, with boundaries of equal distance, the share of the values of the dataset in the bin of x divided by the width of the bin, so that the densities integrate to one over the bins; for a categorical feature it returns the share of values equal to x, and 0 for a value that does not occur. The result has the shape of the input. The order of the data and its distribution over workers have no influence.", "quantifier": "for all datasets, ways in which they are split and merged, boundaries and values", "why_tests_cant": "The result depends on the whole dataset and on how it was merged; tests compare a few values for one dataset.", "anchors": ["tensorflow_transform/mappers.py:estimated_probability_density", "tensorflow_transform/analyzers.py:histogram", "tensorflow_transform/tf_utils.py:lookup_key", "tensorflow_transform/tf_utils.py:assign_buckets"]}
{"id": "C71", "title": "Gaussianization inverts the fitted distribution", "statement": "scale_to_gaussian fits a Tukey HH distribution (a Gaussian with tails lengthened by factors hl and hr) that has the mean and the L-scale of the data, and maps each value to the value of the standard Gaussian from which it comes: the function with which the Gaussian is transformed is inverted up to the documented error, order is kept, and where no tail is long the result is the z-score. Constant columns give finite results.", "quantifier": "for all L-moments of data, all parameters hl and hr between 0 and 1, and all real values", "why_tests_cant": "The inverse is the limit of an iteration, whose error must be bounded for every positive number; tests compare a few values with those of another implementation.", "anchors": ["tensorflow_transform/gaussianization.py:lambert_w", "tensorflow_transform/gaussianization.py:inverse_tukey_hh", "tensorflow_transform/gaussianization.py:tukey_hh_l_mean_and_scale", "tensorflow_transform/analyzers.py:_LMomentsCombiner.extract_output", "tensorflow_transform/mappers.py:_scale_to_gaussian_internal"]}
{"id": "C72", "title": "bucketize divides the data into approximately equal parts", "statement": "For any dataset, any split into batches and any order in which partial results are combined, tft.quantiles returns num_buckets - 1 boundaries per feature in the documented shape (zeros if there is no data), and tft.bucketize maps every value to a bucket below num_buckets so that buckets grow with the value, NaN gets the last one, and the weight of the values in each bucket differs from 1/num_buckets of the total weight by at most twice the error tolerance and the weight of the heaviest single value. NaN values and values with NaN weights do not count. With elementwise every position of an instance has its own buckets. The tolerance is 0.01, or 1/num_buckets for more than 100 buckets, unless given. Weights as documented are accepted.", "quantifier": "all datasets, batch splits and combine schedules, numbers of buckets, tolerances, weights and shapes; any quantile sketch that keeps its documented contract", "why_tests_cant": "the guarantee is about every dataset and every way the runner combines the sketches; tests check a few fixed distributions with one runner", "anchors": ["tensorflow_transform/analyzers.py:QuantilesCombiner", "tensorflow_transform/analyzers.py:quantiles", "tensorflow_transform/mappers.py:bucketize", "tensorflow_transform/mappers.py:apply_buckets"]}
{"id": "C73", "title": "bucketize_per_key divides the values of every key into approximately equal parts", "statement": "For any dataset with keys, any split into batches and any order in which the partial results of every key are combined, tft.bucketize_per_key maps every value of a key that occurs to a bucket below num_buckets so that buckets grow with the value, and the weight of the key's values in each bucket differs from 1/num_buckets of the key's total weight by at most twice the error tolerance and the weight of a few close values; other keys do not matter, and keys that do not occur get -1.", "quantifier": "all keyed datasets, batch splits and per-key combine schedules, numbers of buckets, tolerances and weights; any quantile sketch that keeps its documented contract", "why_tests_cant": "the guarantee ranges over all data of all keys and all schedules; the joint scaling of the keys' boundaries could disturb any of them", "anchors": ["tensorflow_transform/analyzers.py:_quantiles_per_key", "tensorflow_transform/mappers.py:bucketize_per_key", "tensorflow_transform/mappers.py:_apply_buckets_with_keys", "tensorflow_transform/beam/analyzer_impls.py:_join_boundary_rows"]}
{"id": "C74", "title": "Per-key scaling uses each key's own data, for dense, sparse and ragged tensors", "statement": "scale_by_min_max_per_key and scale_to_z_score_per_key (statistics in memory) return a tensor of the layout of x in which every value is changed by a function that depends only on its key (and, elementwise, its position). For a key with data, the function maps the key's own minimum and maximum to output_min and output_max in increasing order (or into the range when they are equal), respectively gives the key's own finite values mean 0 and variance 1 (or 0 when they are constant). Keys without data get the sigmoid, respectively no change. Keys may be given per instance or per value of a sparse or ragged x; keys that do not fit x are rejected.", "quantifier": "all datasets, batches and instances, dense, sparse and ragged layouts, key assignments, per-key combination schedules, and later batches with seen and unseen keys", "why_tests_cant": "the statistics of one key could be disturbed by any other key, batch boundary, order of combination or layout; tests fix a few small tensors", "anchors": ["tensorflow_transform/mappers.py:scale_by_min_max_per_key", "tensorflow_transform/mappers.py:scale_to_z_score_per_key", "tensorflow_transform/analyzers.py:_min_and_max_per_key", "tensorflow_transform/analyzers.py:_mean_and_var_per_key", "tensorflow_transform/tf_utils.py:reduce_batch_minus_min_and_max_per_key", "tensorflow_transform/tf_utils.py:reduce_batch_count_mean_and_var_per_key", "tensorflow_transform/tf_utils.py:_validate_and_get_dense_value_key_inputs", "tensorflow_transform/tf_utils.py:map_per_key_reductions"]}
{"id": "C75", "title": "Transformed data and the metadata returned with them agree", "statement": "The metadata that TransformDataset returns describe exactly the features of the data that it returns: with exclude_outputs, the features that are not excluded, each with the spec and the domain it has in the transform function's metadata. Transforming does not change the metadata of the transform function or of other transformed datasets, and EncodeTransformedDataset encodes each dataset in the format (instance dicts or record batches) that it was produced in.", "quantifier": "All feature specs and domains that can be converted, all sets of excluded outputs, all batches, with and without TF2 behaviour; all sequences of TransformDataset and EncodeTransformedDataset steps on any number of transform functions.", "why_tests_cant": "Tests transform one dataset once with one exclusion; pipelines that share one transform function between datasets, in any order and number, cannot be enumerated.", "anchors": ["tensorflow_transform/beam/impl.py:TransformDataset", "tensorflow_transform/beam/impl.py:EncodeTransformedDataset", "tensorflow_transform/beam/impl.py:_remove_columns_from_metadata", "tensorflow_transform/beam/tft_beam_io/beam_metadata_io.py:BeamDatasetMetadata", "tensorflow_transform/tf_metadata/dataset_metadata.py:DatasetMetadata"]}
{"id": "C76", "title": "Metadata on disk are read whole and as written", "statement": "Reading metadata from a directory returns exactly the schema that was last written there, whatever legacy files lie beside it. At every moment of any number of concurrent writes, and whichever of them crash or fail, a reader sees the metadata from before or the complete metadata of one of the writes, never a mixture; other files do not change and finished writes leave no temporary files. A directory with only a legacy JSON schema is read as the feature spec and the integer domains that the file describes; files with unknown domains or parsing options are refused.", "quantifier": "All schemas, directories, numbers of concurrent calls, interleavings, sizes of the pieces written and crash points; all JSON documents that describe a list of features.", "why_tests_cant": "Crash points and interleavings of writers, and the layouts of JSON documents, are unbounded; tests write once and read once.", "anchors": ["tensorflow_transform/tf_metadata/metadata_io.py:read_metadata", "tensorflow_transform/tf_metadata/metadata_io.py:write_metadata", "tensorflow_transform/tf_metadata/metadata_io.py:_parse_schema_json", "tensorflow_transform/tf_metadata/metadata_io.py:_column_schema_from_json", "tensorflow_transform/tf_metadata/metadata_io.py:_domain_from_json", "tensorflow_transform/beam/tft_beam_io/beam_metadata_io.py:WriteMetadata"]}
{"id": "C77", "title": "Every batch is transformed by the function of its step, whatever else the worker does", "statement": "Each batch that is given to a step that applies a transform function (a phase of the analysis, TransformDataset) gives what it would give in a fresh process that loads the function and handles only this batch: the outputs that are not excluded, with their values for this batch, and the columns that are passed through. This holds for any number of steps, threads and DoFn instances in a process that share loaded functions, and whatever was loaded, dropped, cleared, collected or failed before. A step that is given another function for a later batch refuses the batch instead of using the wrong function. A process has at most one loaded function per step, does not load one again while it is in use, can always process the next batch, and can release all functions that are no longer used.", "quantifier": "All pipelines, transform functions, batches, numbers of DoFn instances, interleavings of setup, process, teardown, clearing and garbage collection, and failures to load.", "why_tests_cant": "The sharing of loaded functions between threads depends on the interleaving and on when objects are collected; a test runs one schedule.", "anchors": ["tensorflow_transform/beam/impl.py:_RunMetaGraphDoFn", "tensorflow_transform/beam/impl.py:_ApplySavedModelImpl", "tensorflow_transform/beam/impl.py:TransformDataset", "tensorflow_transform/beam/impl.py:_clear_shared_state_after_barrier"]}
{"id": "C78", "title": "Schemas of sequence examples are read as the union of their features, each with its own domain", "statement": "For a schema with struct features, schema_as_feature_spec returns the specs of all context and sequence features under their names, and as the domain of a tensor the domain of the feature, at any depth of the schema, from which the tensor takes its values; tensors whose feature has no domain get none. The schema is refused exactly if no parser configuration can be made from it or a spec is of an unknown kind. Schemas without struct features are read as before.", "quantifier": "All schemas, depths of nesting, numbers of features, string domains and parser configurations.", "why_tests_cant": "Nesting is unbounded, and names may occur at several depths; tests read a few fixed schemas.", "anchors": ["tensorflow_transform/tf_metadata/schema_utils.py:schema_as_feature_spec", "tensorflow_transform/tf_metadata/schema_utils.py:_sequence_schema_as_feature_spec", "tensorflow_transform/tf_metadata/schema_utils.py:_get_source_feature_domains"]}
{"id": "C79", "title": "Training and serving see the same features", "statement": "Wherever a saved transform function is applied to data - in TransformDataset or AnalyzeAndTransformDataset on any worker at any point of a schedule, or in a program by TFTransformOutput.transform_raw_features or the TransformFeaturesLayer after any other calls, with a SavedModel of TF1 or TF2, in a graph, in a tf.function or eagerly - an output that is obtained has the same value whenever the inputs that both applications were given are the same, even if one of them lacks other inputs such as the label. If operations act on rows, a row of an output is the same in every batch that contains the same input row. Outputs are computed from given inputs only.", "quantifier": "all saved functions, pairs of applications in pipelines and programs, schedules, histories of calls, contexts, sets of given inputs, batches, relations between values that operations keep", "why_tests_cant": "Tests compare a pipeline and a served model on a few examples; the claim is about every function, every set of missing inputs and every mixture of implementations", "anchors": ["tensorflow_transform/output_wrapper.py:TFTransformOutput.transform_raw_features", "tensorflow_transform/output_wrapper.py:TransformFeaturesLayer", "tensorflow_transform/saved/saved_transform_io_v2.py:SavedModelLoader", "tensorflow_transform/saved/saved_transform_io.py:partially_apply_saved_transform_internal", "tensorflow_transform/beam/impl.py:_RunMetaGraphDoFn"]}
{"id": "C80", "title": "A TFTransformOutput can be used again and again", "statement": "What transform_raw_features or the layer of transform_features_layer returns for given inputs depends on these inputs and on the context of the call only, not on the calls made before on the same object, and no call is refused because of earlier ones. With drop_unused_features, with the layer, and with a TF2 SavedModel, the returned outputs are exactly those whose inputs are all given; without it a TF1 SavedModel returns all outputs.", "quantifier": "all functions, SavedModels of TF1 or TF2, histories of calls, contexts (graph, tf.function, eager), given inputs", "why_tests_cant": "Histories of calls in different graphs are unbounded, and tests use a fresh object in one context", "anchors": ["tensorflow_transform/output_wrapper.py:TFTransformOutput.transform_features_layer", "tensorflow_transform/output_wrapper.py:TransformFeaturesLayer._saved_model_loader", "tensorflow_transform/output_wrapper.py:TransformFeaturesLayer.call"]}
{"id": "C81", "title": "Every row is transformed with the results of the whole dataset", "statement": "AnalyzeAndTransformDataset outputs exactly one instance per row of the dataset. The instance is what the preprocessing_fn computes from that row alone together with the results of its analyzers, and each result is the analyzer applied to the values of its inputs for all rows of the dataset. In particular it does not matter how the rows are ordered or cut into batches in each of the passes over the data: another run, with other batches, succeeds as well and outputs the same instances up to their order, and equal rows become equal instances. This holds for a preprocessing_fn whose operations treat the rows of a batch separately, and whose analyzers are functions of the bag of rows.", "quantifier": "all traced preprocessing_fns (graphs of tensors, any number of analyzers depending on each other), datasets, orders of rows and cuts into non-empty batches for every pass, later traces that differ in order, and values of the placeholders of unknown results", "why_tests_cant": "A test runs with a handful of rows and the batch size of one runner; each pass of a production pipeline cuts the data differently, and a result that depends on the cut, or is computed in the wrong phase, shows only as a slightly different number", "anchors": ["tensorflow_transform/beam/impl.py:AnalyzeAndTransformDataset.expand", "tensorflow_transform/beam/impl.py:AnalyzeDataset", "tensorflow_transform/beam/impl.py:TransformDataset", "tensorflow_transform/beam/impl.py:_convert_to_record_batch", "tensorflow_transform/beam/analysis_graph_builder.py:build"]}
{"id": "C82", "title": "Accumulators read from the cache are merged as if they had just been computed", "statement": "When some of the per-dataset accumulators of sum, size, min, max, covariance, mean or var come from an analyzer cache, the merged result is the one that is computed from the accumulators themselves, and mean and var are the population mean and variance of the data of all datasets, for tensors of any rank.", "quantifier": "all accumulators made of arrays of any shape, all choices of which of them come from the cache, all batches of data, all schedules of accumulation and merging", "why_tests_cant": "The cache stores nested lists, and what numpy makes of nested lists depends on the shapes of all arrays in the accumulator; tests round-trip a few shapes and do not merge what they read under other schedules.", "anchors": ["tensorflow_transform/analyzer_nodes.py:JsonNumpyCacheCoder", "tensorflow_transform/analyzers.py:NumPyCombiner", "tensorflow_transform/analyzers.py:WeightedMeanAndVarCombiner", "tensorflow_transform/analyzers.py:CovarianceCombiner", "tensorflow_transform/analyzers.py:_pad_arrays_to_match", "tensorflow_transform/beam/analyzer_impls.py:_CombinerWrapper"]}
{"id": "C83", "title": "The Beam pipeline consists of the registered implementations, one stage per analyzer operation", "statement": "When a pipeline is built for an analysis graph, every operation that the requested results depend on becomes exactly one stage, after the stages of its inputs and under a label of its own. The stage is the implementation that was registered for the class of the operation and the environment (TF1 compatible or TF2 only), otherwise the general one, and it reads what the stages of its inputs produced. The build fails if an implementation is missing or does not give as many PCollections as the operation has outputs, and succeeds otherwise. The order in which implementations are registered does not matter; a second implementation for the same class and environment is rejected; implementations can be registered as documented.", "quantifier": "all analysis graphs (cyclic ones too), all histories of registrations, all implementations (failing ones too), both environments and all lists of requested values", "why_tests_cant": "Tests run the graphs of some preprocessing functions with the implementations of the package. A user who registers implementations of their own, in modules imported in some order, relies on the claim for graphs and registrations that no test has.", "anchors": ["tensorflow_transform/beam/common.py:register_ptransform", "tensorflow_transform/beam/common.py:_PtransformWrapper", "tensorflow_transform/beam/common.py:ConstructBeamPipelineVisitor", "tensorflow_transform/nodes.py:Traverser"]}
{"id": "C84", "title": "Analyzers that users write become one tensor per declared output, with the value their PTransform computed", "statement": "tft.experimental.ptransform_analyzer raises exactly if the numbers of dtypes, shapes and default asset contents differ or an input is not a Tensor; otherwise it gives one tensor per declared output, in order, with the declared dtype and shape, whose value is what the PTransform returned for it from the values of all inputs; a CacheablePTransformAnalyzer works like that for any number of outputs, its outputs being extract(merge(make(data))); an output is an asset path exactly if its default content is not None. Whenever preprocessing_fn is traced, outputs known from earlier phases are those values and the others are awaited, each with its own future; every asset that is awaited has a file with its default content", "quantifier": "every PTransform and CacheablePTransformAnalyzer, every number of inputs and outputs, every collection of default contents, every set of outputs known from earlier phases", "why_tests_cant": "tests use a few analyzers with one or two outputs; the combinations of cacheable, several outputs, optional asset contents and phases are unbounded", "anchors": ["tensorflow_transform/experimental/analyzers.py:ptransform_analyzer", "tensorflow_transform/experimental/analyzers.py:CacheablePTransformAnalyzer", "tensorflow_transform/analyzer_nodes.py:bind_future_as_tensor", "tensorflow_transform/analyzer_nodes.py:PTransform", "tensorflow_transform/beam/analyzer_impls.py:_PTransformImpl"]}
{"id": "C85", "title": "Specs stand for the tensors that they describe", "statement": "The placeholders with which a preprocessing_fn is traced in TensorFlow 1, and the types by which transformed data is converted to record batches, are the types of batches of the tensors that the specs or the schema describe: same kind, dtype, sizes, ragged dimensions and type of row splits. Once all analyzers have been evaluated, the converter made from the published schema expects every output of preprocessing_fn with the type the output has, and nothing else, and writes exactly the generic sparse outputs with their indices. A dict that mixes type specs and feature specs, or has an unsupported dtype, is refused. Any feature name gives a placeholder name that TensorFlow accepts.", "quantifier": "all dicts of feature specs and type specs, all schemas with and without sequences, all outputs of preprocessing_fn of any rank with all annotations, all feature names", "why_tests_cant": "ranks, partitions and feature names are unbounded, and a wrong ragged rank or size only shows for tensors of that rank; tests convert a few of them", "anchors": ["tensorflow_transform/impl_helper.py:get_type_specs_from_feature_specs", "tensorflow_transform/impl_helper.py:make_tensor_to_arrow_converter", "tensorflow_transform/impl_helper.py:batched_placeholders_from_specs", "tensorflow_transform/impl_helper.py:_sanitize_scope_name", "tensorflow_transform/schema_inference.py:_ragged_feature_spec_from_batched_tensor"]}
{"id": "C86", "title": "Scaled tensors keep their layout, and every value is scaled with the statistics of the whole dataset at its position", "statement": "For scale_by_min_max, scale_to_0_1 and scale_to_z_score without a key, on dense tensors of any rank, sparse tensors and ragged tensors: the analysis succeeds however the dataset is split and combined, the scaled tensor has the same shape, indices and row splits as the input, and each value is scaled with the minimum and maximum (or mean and variance) of all values of the dataset, or with elementwise=True of the values at the same position of the instances.", "quantifier": "all kinds and shapes of tensors, all datasets and ways to split and combine them, all batches transformed, all output ranges", "why_tests_cant": "tests scale a few small tensors; which statistic meets which value depends on every shape, index and batch size", "anchors": ["tensorflow_transform/mappers.py:scale_by_min_max", "tensorflow_transform/mappers.py:scale_to_0_1", "tensorflow_transform/mappers.py:scale_to_z_score", "tensorflow_transform/mappers.py:_scale_by_min_max_internal", "tensorflow_transform/mappers.py:_scale_to_z_score_internal", "tensorflow_transform/mappers.py:_make_composite_tensor_wrapper_if_composite", "tensorflow_transform/analyzers.py:_min_and_max", "tensorflow_transform/analyzers.py:_mean_and_var", "tensorflow_transform/tf_utils.py:reduce_batch_minus_min_and_max", "tensorflow_transform/tf_utils.py:reduce_batch_count_mean_and_var"]}
{"id": "C87", "title": "A transform function is loaded as it was written", "statement": "A transform function that was written as a TensorFlow 1 SavedModel can be loaded into any graph: its outputs and the inputs that are not given appear under their names and with their kinds (dense, sparse, composite), the outputs are computed from the given tensors, the fed inputs and the paths of the assets as in the graph that was written, the tensors that were in the graph keep their values, and every variable is restored under its own name, partitioned variables with their parts in order. Models of older versions, whose signatures list the components of tensors separately, are loaded in the same way whatever the order of the entries. Inputs that the function does not have, tensors of the wrong kind, trainable variables and SavedModels without the tag of transform functions are refused.", "quantifier": "all graphs, features, names, given inputs and replaced tensors, all graphs to load into, all orders of signature entries and variables", "why_tests_cant": "tests load a few small models; names, orders of protobuf maps and variables and the graph that is loaded into are arbitrary", "anchors": ["tensorflow_transform/saved/saved_transform_io.py:write_saved_transform_from_session", "tensorflow_transform/saved/saved_transform_io.py:_update_legacy_signature", "tensorflow_transform/saved/saved_transform_io.py:_load_transform_saved_model", "tensorflow_transform/saved/saved_transform_io.py:_expand_input_map", "tensorflow_transform/saved/saved_transform_io.py:_partially_apply_saved_transform_impl", "tensorflow_transform/saved/saved_model_loader.py:choose_meta_graph_def_and_raise"]}
{"id": "C88", "title": "A batch serialized as Example protos contains every instance's features", "statement": "serialize_example turns a batch of dense and sparse tensors into one serialized Example per instance. Whatever the values, a reader of the protobuf wire format finds in the i-th Example exactly the named features, each with the list type of its dtype and with the values of the i-th instance in their order and nothing else: dense instances flattened, sparse instances with their values whatever their indices. A batch without instances gives no Examples. Values of other types, no features and features with different numbers of instances are refused.", "quantifier": "every dictionary of features of strings, floats and integers, every batch size, every shape, every content of the tensors and every order of the features", "why_tests_cant": "The bytes depend on the lengths and the bits of all values, on the order of the names and on how many values each instance has; varints, packed lists and empty lists have boundary cases at many sizes. Tests compare a few batches.", "anchors": ["tensorflow_transform/tf_utils.py:serialize_example", "tensorflow_transform/tf_utils.py:_serialize_feature", "tensorflow_transform/tf_utils.py:_encode_proto"]}
{"id": "C89", "title": "A pretrained model computes in a preprocessing function what it computes on its own", "statement": "Applying a SavedModel, or a function with a checkpoint, to tensors of a preprocessing function gives the outputs that were asked for, in their order; in every run each of them has the value that the model computes on its own from the values of these tensors, with the variables of the SavedModel or checkpoint and with the files of the SavedModel. Only the variables selected by the scopes are restored. Other tensors keep their values, and tables of the model are initialized with those of the graph. Wrong tags, signatures, inputs and outputs are refused.", "quantifier": "all graphs of models and preprocessing functions, signatures, inputs (dictionaries and single tensors), requested outputs, variables, checkpoints, scopes and feeds", "why_tests_cant": "models, signatures and checkpoints are arbitrary; tests apply a few small models to one placeholder", "anchors": ["tensorflow_transform/pretrained_models.py:apply_saved_model", "tensorflow_transform/pretrained_models.py:apply_function_with_checkpoint", "tensorflow_transform/pretrained_models.py:_get_variables_to_restore"]}
{"id": "C90", "title": "Lookups and numbers of buckets are those of the complete vocabulary", "statement": "The ids that apply_vocabulary and compute_and_apply_vocabulary give, and the number of buckets that get_num_buckets_for_transformed_feature gives for them, are those of the complete vocabulary wherever they are used: in outputs and in the inputs of other analyzers, with TF1 and with TF2 behaviour, in whatever number of phases the analyzers are evaluated. Files given by strings may be used next to vocabularies. An unannotated tensor has no number of buckets.", "quantifier": "all preprocessing functions (expressions of any depth with any number of analyzers, vocabularies and lookups), all datasets in any order of batches per phase, all operations, analyzers and tables", "why_tests_cant": "Vocabulary files do not exist while the function is traced, and a temporary file takes their place; whether a temporary value reaches a result depends on the phases, that is on how analyzers use each other's results.", "anchors": ["tensorflow_transform/tf_utils.py:construct_and_lookup_table", "tensorflow_transform/tf_utils.py:_get_asset_analyzer_output_and_control_dependency", "tensorflow_transform/tf_utils.py:_lookup_table", "tensorflow_transform/mappers.py:_apply_vocabulary_internal", "tensorflow_transform/mappers.py:get_num_buckets_for_transformed_feature", "tensorflow_transform/schema_inference.py:get_tensor_schema_override", "tensorflow_transform/analyzer_nodes.py:_bind_future_as_tensor_v2"]}
{"id": "C91", "title": "analyze_in_place gives what an analysis would give", "statement": "For a preprocessing function without analyzers, analyze_in_place writes a transform function that computes the function's outputs, the same as that of AnalyzeDataset on any dataset, and its metadata, with TF1 and with TF2 behaviour. A function with analyzers is refused, no metadata is written, and nothing else is. A call that dies leaves metadata only next to the function it belongs to.", "quantifier": "all preprocessing functions (traces of any size and depth), all operations, all batches that the function is then applied to, all datasets that it is compared on, every point between the writes, and directories with and without an older output", "why_tests_cant": "analyze_in_place never sees data, so that whether its function agrees with that of an analysis, for whatever dataset, is not something a run shows; what is left in the directory depends on where a call ends.", "anchors": ["tensorflow_transform/impl_helper.py:analyze_in_place", "tensorflow_transform/impl_helper.py:_assert_no_analyzers_in_graph", "tensorflow_transform/impl_helper.py:_trace_and_write_transform_fn", "tensorflow_transform/impl_helper.py:_trace_and_get_metadata", "tensorflow_transform/tf_metadata/metadata_io.py:write_metadata"]}
{"id": "C92", "title": "approximate_vocabulary is as accurate as documented", "statement": "For any dataset, any division into datasets and batches and any order in which the partial results are combined, tft.experimental.approximate_vocabulary writes a vocabulary of at most top_k tokens of the data, each at most once, ordered by decreasing frequency and then reverse lexicographically, whose frequencies are lower bounds of the true ones and off by at most (m - m') / (top_k + 1), where m is the total frequency of the data and m' that of the vocabulary. In particular every token with more than one part in top_k + 1 of the total is listed, two analyses of the same data differ by no more than that share, and if there are at most top_k different tokens the result is exactly that of tft.vocabulary. Tokens that a text file cannot hold do not count; reserved tokens come first; without any token the file holds the placeholder. A top_k that is not positive or too large, an unknown file format and values that are neither strings nor integers are rejected. compute_and_apply_approximate_vocabulary without top_k uses the full vocabulary.", "quantifier": "all tokens and non-negative weights, numbers of counters, divisions into datasets and batches (also empty ones), schedules of the combiner, reserved tokens, file formats and dtypes", "why_tests_cant": "the error bound has to hold for every stream and every tree of merges of partial sketches; the tests use a handful of tokens in one batch, where nothing is approximate, and never leave out top_k", "anchors": ["tensorflow_transform/experimental/analyzers.py:approximate_vocabulary", "tensorflow_transform/experimental/analyzers.py:_VocabularyCombiner", "tensorflow_transform/experimental/analyzers.py:_get_approximate_vocabulary_analyzer_inputs", "tensorflow_transform/experimental/analyzers.py:_get_approx_vocab_filename", "tensorflow_transform/experimental/mappers.py:compute_and_apply_approximate_vocabulary", "tensorflow_transform/beam/analyzer_impls.py:_VocabularyOrderAndWriteImpl"]}
{"id": "C93", "title": "Densified and hashed tensors keep every value in its place", "statement": "The result of tft.sparse_tensor_to_dense_with_shape has the requested shape, with the size of the sparse tensor in every dimension where none is requested; it holds every listed value at its index and the default everywhere else. The call succeeds exactly if the requested shape has the rank of the tensor and no negative size, every index is inside it and the indices are in row-major order without repetition; so a value that does not fit makes the call fail and is never dropped or moved. The result of tft.hash_strings has the layout of its input (dense, sparse or ragged of any rank) and for each string a bucket between 0 and hash_buckets-1 that depends on the string and the key only. Inputs of another type, fewer than one bucket and keys that are not two numbers are rejected.", "quantifier": "every sparse tensor of every rank and size, requested shape, default value; every tensor of strings, number of buckets, key and hash function", "why_tests_cant": "Tests densify and hash a few small tensors. They cannot show for every rank, shape and set of indices that no value is lost, moved or overwritten.", "anchors": ["tensorflow_transform/mappers.py:sparse_tensor_to_dense_with_shape", "tensorflow_transform/mappers.py:hash_strings", "tensorflow_transform/mappers.py:_make_composite_tensor_wrapper_if_composite", "tensorflow_transform/tf_utils.py:get_values"]}
{"id": "C94", "title": "scale_to_gaussian fits the shape of the data", "statement": "If the L-skewness and L-kurtosis of the data are those of a Tukey HH distribution with parameters hl and hr between 0 and 1 (0 included), scale_to_gaussian estimates these parameters: the fitted distribution has the L-skewness and L-kurtosis of the data, symmetric data get equal parameters, and data mirrored at zero get the parameters exchanged.", "quantifier": "all parameters hl and hr, all L-skewness and L-kurtosis values", "why_tests_cant": "The closed formulas are integrals and the search is a nested bisection over two real parameters; tests compare a handful of parameter pairs with a loose tolerance, and the pairs for which the search goes wrong are among those they do not try.", "anchors": ["tensorflow_transform/gaussianization.py:_tukey_hh_l_skewness_and_kurtosis", "tensorflow_transform/gaussianization.py:compute_tukey_hh_params", "tensorflow_transform/gaussianization.py:_binary_search", "tensorflow_transform/mappers.py:scale_to_gaussian", "tensorflow_transform/analyzers.py:_LMomentsCombiner"]}
{"id": "C95", "title": "Checks in a preprocessing function are made on every batch, with the values they are meant for", "statement": "If a preprocessing function contains a check (tf.debugging.assert_* or another operation whose result nothing uses), then every batch that is analyzed or transformed is checked, whichever outputs are requested and whether or not an output depends on the check; a batch for which all checks hold is not refused; the columns that checks read are among the columns listed by get_analyze_input_columns and get_transform_input_columns; computing the schema does not make checks on made-up data.", "quantifier": "All graphs of operations with inputs and control inputs, all checks, batches, requested outputs, results of analyzers and phases.", "why_tests_cant": "A test has one function with one check; that a check is never dropped, and never made with a value that stands for something not yet known, is a statement about every graph and every phase of the analysis.", "anchors": ["tensorflow_transform/tf2_utils.py:strip_and_get_tensors_and_control_dependencies", "tensorflow_transform/saved/saved_transform_io_v2.py:optimize_concrete_function", "tensorflow_transform/saved/saved_transform_io_v2.py:_get_output_to_inputs_map", "tensorflow_transform/impl_helper.py:get_traced_transform_fn", "tensorflow_transform/inspect_preprocessing_fn.py:get_analyze_input_columns", "tensorflow_transform/inspect_preprocessing_fn.py:get_transform_input_columns", "tensorflow_transform/schema_inference.py:get_traced_metadata_fn", "tensorflow_transform/analyzer_nodes.py:_get_temporary_analyzer_output"]}
{"id": "C96", "title": "Vocabularies get their own reserved tokens", "statement": "In a preprocessing_fn with any number of vocabularies (tft.vocabulary, tft.compute_and_apply_vocabulary and their approximate relatives), the file of each starts with the reserved_tokens of its own call, in their order, followed by the other entries of its own data; a vocabulary without reserved tokens is not affected by the others; the files are those that each call would produce alone. Reserved tokens whose value is only known after the analysis are refused.", "quantifier": "all sequences of calls, all file names, scopes and formats, all reserved tokens given as lists, texts or tensors, all data and batches", "why_tests_cant": "The tokens go through one collection of the graph that is searched by name, so a call can pick up the tokens of another; tests have one vocabulary with reserved tokens.", "anchors": ["tensorflow_transform/tf_utils.py:register_vocabulary_reserved_tokens", "tensorflow_transform/tf_utils.py:fetch_vocabulary_reserved_tokens", "tensorflow_transform/analyzers.py:_vocabulary_analyzer_nodes", "tensorflow_transform/experimental/analyzers.py:_approximate_vocabulary_analyzer_nodes", "tensorflow_transform/beam/analyzer_impls.py:_ExtractVocabularyReservedTokensImpl"]}
{"id": "C97", "title": "Scaling of columns of integers", "statement": "tft.mean, tft.var, tft.scale_to_z_score, tft.scale_by_min_max and tft.scale_to_0_1 of a column of integers (or of floats of another type than the result) never reverse the order of two values. For integers of at most 24 binary digits (53 with output_dtype=tf.float64 where it is offered) the statistics are exact and different values stay different; for larger ones the results are those of the values rounded to the type of the result.", "quantifier": "all numeric types, all values, all batches and schedules of combining, all ways of rounding that keep the order and the numbers that need no rounding", "why_tests_cant": "Columns are cast before they are analyzed; tests use small integers, for which the cast changes nothing.", "anchors": ["tensorflow_transform/analyzers.py:_mean_and_var", "tensorflow_transform/analyzers.py:_FLOAT_OUTPUT_DTYPE_MAP", "tensorflow_transform/mappers.py:_scale_to_z_score_internal", "tensorflow_transform/mappers.py:_scale_by_min_max_internal"]}
{"id": "C98", "title": "The counters of the use of the cache are right", "statement": "After an analysis with one phase and a cache, the counter cache_entries_encoded is the number of entries that the analysis writes, cache_entries_decoded is the number of entries that it reads instead of computing them, and analysis_input_bytes_from_cache is the sum of the sizes of the datasets that are not read because the cache has all that is needed of them. With several phases nothing is counted.", "quantifier": "all analysis graphs, caches, sets of datasets, sizes and histories of earlier runs", "why_tests_cant": "Which entries are there depends on all earlier runs and on all analyzers; tests look at the counters of a few fixed pipelines.", "anchors": ["tensorflow_transform/beam/analysis_graph_builder.py:_OptimizeVisitor.get_detached_sideeffect_leafs", "tensorflow_transform/beam/analysis_graph_builder.py:_OptimizeVisitor._apply_operation_on_fine_grained_view", "tensorflow_transform/beam/analyzer_impls.py:_InstrumentDatasetCacheImpl", "tensorflow_transform/analyzer_nodes.py:InstrumentDatasetCache"]}
{"id": "C99", "title": "datasets of an analysis with a cache have keys that later runs accept", "statement": "AnalyzeDatasetWithCache checks the keys of its datasets: it refuses keys that are not made of letters, digits, '.', '-' and '_'. So a run that succeeded accepts, when it is repeated, the cache that it wrote, and no two datasets share a cache directory.", "quantifier": "All sets of keys of datasets and of input caches, with and without an input cache.", "why_tests_cant": "Tests use a few well-formed keys, mostly in a first run or with caches of well-formed keys; which dict is checked shows only for keys that are not accepted.", "anchors": ["tensorflow_transform/beam/impl.py:AnalyzeDatasetWithCache.expand", "tensorflow_transform/beam/analyzer_cache.py:validate_dataset_keys", "tensorflow_transform/beam/analyzer_cache.py:DatasetKey"]}
{"id": "C100", "title": "the output cache of an analysis holds exactly what was computed for it, with the metadata of its dataset", "statement": "An analysis with a cache returns a cache that has, for each dataset and each cache entry key for which an entry is to be written, the encoded result for that dataset, nothing else, and the metadata made from the data of that same dataset. It returns such a cache whenever all datasets of which something is to be written are read in this run. Without an input cache it returns none.", "quantifier": "All dicts of entries to be written, all datasets with some that are not read, and all outcomes of building the nodes.", "why_tests_cant": "Tests look at a few datasets and analyzers; regrouping of a dict by two keys and the pairing with metadata must be right for all of them, and for datasets without data.", "anchors": ["tensorflow_transform/beam/analysis_graph_builder.py:_format_output_cache", "tensorflow_transform/beam/impl.py:_make_output_cache", "tensorflow_transform/beam/impl.py:_AnalyzeDatasetCommon.expand"]}
{"id": "C101", "title": "The metrics of the use of the API count the calls that a preprocessing function makes", "statement": "The metric tft_analyzer_<name> or tft_mapper_<name> of an analysis is the number of calls of that analyzer or mapper that the preprocessing function makes, including calls that fail with an exception that is caught, without the calls that analyzers and mappers make themselves. It does not depend on functions traced before, also if these failed.", "quantifier": "All preprocessing functions, as trees of nested calls of any depth with exceptions and handlers at any place.", "why_tests_cant": "Tests make a few calls that succeed; a context that is not left, or left too early by a nested call, shows only for some nestings and exceptions.", "anchors": ["tensorflow_transform/common.py:log_api_use", "tensorflow_transform/common.py:logging_context", "tensorflow_transform/beam/impl.py:_InstrumentAPI"]}
