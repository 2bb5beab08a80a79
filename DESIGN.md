# Formal model of tensorflow/transform in Lean 4

This directory holds `properties.jsonl` (the properties, in English), a Lean 4
model of the code in `/repo` under `lean/Verif/`, theorems about it, and
`MANIFEST.json`, which maps properties to theorems.

## Layout

Each area of the code has its own folder under `lean/Verif/`:

* `Model.lean`: the functions of `/repo`, branch by branch. Every definition
  has a comment with the file and lines it models, and its simplifications.
* `Spec.lean`: what the English property talks about, written without using the
  model (population mean, list of rows, relation "is reachable", ...).
* `Lemmas.lean`: helper lemmas.
* `Props.lean`: the property theorems, in terms of model and spec only, each
  followed by an `example` which shows that its hypotheses can be met.

Python exceptions are values (`Except`/`Option`). Loops are folds or structural
recursion. Things outside the repo (Beam runner, TensorFlow ops, hash
functions, user callbacks) are parameters, or are modelled by the contract the
code relies on; this is stated at each definition and collected below.

## Trusted base

* Lean 4.33.0's kernel. `vcheck` replays every constant through it.
* Axioms: only `propext`, `Classical.choice`, `Quot.sound`. No `sorry`, no axioms
  of our own, no `native_decide`/`bv_decide`.
* The reading of `/repo` by hand: the model is tied to the code only by the
  cited lines. The code is not run.
* Numbers: floating point is modelled by exact arithmetic in `ℚ`, `ℝ` or an
  arbitrary (linearly ordered) field. Rounding, overflow and signed zeros are
  not modelled, except where a definition says so (NaN and infinities in
  min/max, machine integers in min).
* Beam: a `CombinePerKey/CombineGlobally` may run any finite tree of
  `create_accumulator`, `add_input`, `merge_accumulators`, `compact` calls that
  together see every input element once. `GroupByKey`, `Distinct`, `Flatten`,
  `Top` follow their documented multiset meaning.
* TensorFlow ops: `tf.unique_with_counts`, `segment_sum`, `searchsorted`,
  `gather`, lookup tables, follow their documented meaning.
* Schedules are all finite. Real parallelism in one accumulator is not modelled:
  Beam guarantees that accumulators are not shared.

## Plan per property

| id | modelled | proof |
|----|----------|-------|
| C01 | `WeightedMeanAndVarCombiner` (create, add_input, merge, `_combine_mean_and_var_accumulators` with nan_to_num, swap, zero branch, padding for vectors), batch statistics | schedule tree with induction; invariant acc = (n, mean, var) of the batches seen; `field_simp`/`ring` |
| C02 | `NumPyCombiner` with `np.sum`, default-skipping, `size`, `count_per_key`; sums of integers of 8 to 64 bits that wrap around (`Combine/TypedSum`) | induction over schedule tree; violated for small integers: witness for every small type |
| C03 | `NumPyCombiner` with `np.max`, default sub-accumulator; machine ints for `-min` | violated: concrete witness; `_partial` under "no batch looks like the default" |
| C04 | `CovarianceCombiner` | induction over schedule tree |
| C05 | weighted branch of the same combiner | induction, positive weights |
| C06 | `_LMomentsCombiner` | induction |
| C07 | `_PackedCombinerWrapper`, `_CombinerWrapper` | componentwise simulation |
| C08 | per-dataset accumulate / cache encode-decode / merge | schedule independence + coder round trip |
| C09–C11, C13, C15, C16 | vocabulary accumulate / merge / prune / order / write | multiset counting, sort uniqueness |
| C12 | size path against file path | violated when reserved tokens overlap or vocabulary empty: witness; `_partial` |
| C14 | lookup table with OOV hashing, schema override | list index lemmas |
| C17–C20 | `assign_buckets` (with its casts), interpolation, `_join_boundary_rows`, `_apply_buckets_with_keys` | ordered field reasoning. C19 violated for 2 buckets, C20 for unseen keys: witnesses, `_partial` |
| C21, C22 | scaling mappers | ordered field / reals |
| C23 | tfidf: vocabulary counts, document frequencies, both analyses, lookup of the batch | list counting; both analyses composed with the combiner schedule |
| C24–C26 | ngrams, dedupe, segment_indices, left_align, word_count | list induction |
| C27 | struct-pack style coders at byte level | list append lemmas |
| C28, C29 | cache directory state machine: manifest and shards | refinement to a map; crash prefixes. C29 violated: three histories |
| C30 | string replace chain, key regex | list-of-char induction |
| C31 | `Traverser` with explicit stack and cache | recursion on fuel with a proof that the fuel is enough |
| C32, C33 | graph analysis DFS with memo, worklist | reachability |
| C34 | phase loop | measure, invariant over rounds |
| C35, C46, C52, C53 | context stacks, object tracker, asset annotations | op-sequence induction |
| C36, C37, C44 | slicing, index checks, passthrough logic | recursion, iff, cases |
| C38, C54 | file-system steps with crash after any step, retries; tree copy | invariant over arbitrary contents; retry violated: witness |
| C39 | coder with reused Example and its references | history induction against a spec without state |
| C40 | histogram | counting |
| C41 | formula over ℚ with floor | monotonicity |
| C42 | hypergeometric recurrence over ℝ | Vandermonde, Gamma at integers |
| C43, C55 | bisection, parameter search | loop invariants; the two-parameter start is an explicit algebraic expression |
| C45 | schema conversion and reading | round trip over arbitrary specs; external reader modelled from its documentation |
| C47 | token remap over any number of save/load generations | map lemmas, history induction |
| C48 | per-key lookup, in memory and from key files | list index; composed with the per-key analysis |
| C49 | batch reductions: dense, sparse, ragged, weights, labels | counting |
| C50 | deep copy: search, clone, labels | invariant over the search queue; denotation of the copied graph equals the original |
| C51 | vocabulary analysis composed with the lookup table | composition of C09, C14 |
| C56 | `_calculate_mutual_information_for_feature_value` over ℝ | Gibbs' inequality, with the clip; adjusted value from C42 |
| C57 | labelled vocabulary: parameters, selection, order | sort uniqueness |
| C58 | label reduction, accumulators, merge, mutual information, end to end | composition of C05, C49, C56 |
| C59 | path hashes of tensors, operation hashes, cache entry keys; hash a parameter | bisimulation and induction over the graph with collision freedom on the hashed strings; the operation type is not hashed, shown by a witness |
| C60 | the cache optimization as a graph rewrite: views per dataset, decode or encode, flatten; denotation of graphs before and after | traversal invariant relating each view to the value on each dataset; contract of `is_partitionable` as hypothesis, discharged for `CacheablePTransformAnalyzer` from its documented laws |
| C61 | the CSV coder with its two buffers; `csv.writer` and `StringIO` from their documentation; a CSV reader as specification | reader inverts writer, by induction on fields and characters; loop invariant over the handlers; buffer empty after every call that did not fail in `as_bytes` |
| C62 | collections of overrides and annotations, specs of outputs, annotated shapes, feature protos by name, both maps from tensors to keys | columns of different outputs are distinct (names without `$`); the loops over sparse and ragged features keep exactly the value columns; read back with the theorems of C39 |
| C63 | `sanitized_vocab_filename`, file names and keys of vocabularies, the asset map, files, and all functions that look a vocabulary up by name | sanitized names have no dot and no slash, so the two candidates of the glob are different files; sanitizing is idempotent; the asset map is that of C44; lines of a file written with line feeds are the entries |
| C64 | the whole rewriting of `combiner_packing_util.py` on graphs (nodes, labels, traversal with memo, three visitors, rebuilding of bindings, cache nodes), and the meaning of graphs over any packed combines that satisfy C07 | the packed graph is the image of the graph under a map of nodes that replaces candidates by extractions; evaluation is preserved by induction on nodes; the input list of the saved model is a permutation of the mapped one; `beam_lawful` shows that the packed combines of `Combine/Packed` satisfy what is assumed |
| C65 | `document_frequency`, `idf` with the flat encoding of (document, term) pairs, and their analyses | the encoding is injective for terms in range; the reduced one-hot sum equals that of tfidf (C23), whose analysis is reused |
| C66 | tracing, phases, SavedModels with results bound by name, and validation of repeated traces, over any operations and analyzers | an assignment of results is specified as a fixed point; invariant of the loop over phases: what is bound agrees with the results, and what is fetched depends on bound results only; progress because analyzers are created in order of dependence; a witness for exchanged results |
| C67 | a function as trees of operations over components of inputs; its application to some inputs in TF1 and TF2, `finalize`, `TransformDataset`, and the made-up tensors | values over an arbitrary completion of the given inputs; evaluation only looks at the sources of an output (induction over trees); flattened arguments meet their placeholders (induction over the inputs); a witness for a made-up value that fails the batch |
| C68 | `get_analyze_input_columns`, `get_transform_input_columns` on the graphs of C66 | evaluation only looks at the inputs of a tensor (induction over trees), composed with C66 for whole analyses; conversely the free meaning of operations, in which every input is visible in the result |
| C69 | `PCACombiner` on top of the covariance accumulator; `eigh` and `argsort` any functions with their documented properties | the accumulated matrix is the covariance of the data (C04), its quadratic form the variance in a direction; Parseval and Bessel for the eigenvectors, then the inequality of Ky Fan by comparing weighted sums |
| C70 | `estimated_probability_density` on top of the model of `histogram` (C40) | counts are exact by C40 and the per-key analysis; the bin of a value is found by `assignBuckets`; sums of shares are one |
| C71 | `lambert_w`, `inverse_tukey_hh`, `tukey_hh_l_mean_and_scale`, the output of the L-moments combiner and `_scale_to_gaussian_internal` over the reals | Newton's method: after one step the iterate is above the root, then the error squares; the error of the initial value is bounded case by case. The moments of the fitted distribution are integrals over Mathlib's Gaussian measure, computed by integration by parts and Fubini |
| C72 | `QuantilesCombiner`, `quantiles`, `bucketize`; the sketch of tfx_bsl is any object with the contract `Spec.Contract` | the accumulator represents the data seen (invariant over schedules); the weight below a boundary is known up to the tolerance and ties, a bucket is a difference of two |
| C73 | `_quantiles_per_key`, `bucketize_per_key` from the rows to the buckets | per-key analyses are analyses of one key's values (C02), the joined boundaries are the key's own (C19), strictly increasing boundaries are moved by little |
| C74 | `scale_by_min_max_per_key`, `scale_to_z_score_per_key` from the tensors of the batches to the scaled tensors: pairing of values and keys, per-key batch reductions, combiners, lookup, layout of the result | a batch gives each key the reduction of its own values; an analysis of these is an analysis of the data (lifting of schedules), then C03, C01 and C21, C22 for one key |
| C75 | `_remove_columns_from_metadata`; the building of a pipeline of `TransformDataset` and `EncodeTransformedDataset` steps, with the metadata objects on a heap because steps share and change them | the round trip of C45 twice; induction over the steps with an invariant on the heap |
| C76 | `read_metadata`, `write_metadata` as steps on files of any number of calls at the same time, legacy JSON schemas; printing and parsing of protos and JSON are parameters | invariant over all interleavings and crash points; a relation between JSON and the features it describes, then C45 |
| C77 | `_RunMetaGraphDoFn` (`_GraphStateCompatV1`, `_GraphStateV2`, `setup`, `process`, `_handle_batch`, passthrough), `_clear_shared_state_after_barrier`, and the table of `apache_beam.utils.shared`, as a transition system of a process with any number of instances on threads | invariant over all schedules; what one batch alone gives is reduced to C67 |
| C78 | `schema_as_feature_spec`, `_sequence_schema_as_feature_spec`, `_get_source_feature_domains` on trees of features; `CreateTfSequenceExampleParserConfig` (tfx_bsl) is a parameter | induction over the tree; false where a name occurs twice, shown by an instance |
| C79 | `transform_raw_features`, `TransformFeaturesLayer` (`Pipeline/OutputWrapper`) together with the models of workers (C77) and of partial application (C67) | every way of applying a saved function gives an output the value it has for the given inputs; a relation between inputs that operations keep is kept by outputs (structural induction over tensors), with equality and "same row" as instances |
| C80 | the layer and the loaded function that a `TFTransformOutput` keeps between calls | invariant over histories of calls: the kept function was loaded in the context of one of the calls, and the recorded graph is that of this context; false after use in a graph, shown by an instance |
| C81 | `AnalyzeAndTransformDataset.expand` (`Pipeline/WholeRun`) on top of the phased analysis (C66), with values that are columns or have no batch dimension | the specification is about rows only; structural induction over tensors: the value for a batch consists of the values for its rows; results of analyzers on batches are results on the concatenated rows, hence the same for all cuts; then the invariant of C66, generalized to passes that see other batches; uniqueness of results by induction over the order of creation |
| C82 | `JsonNumpyCacheCoder` with numpy arrays, `tolist`, and the rules of `np.array` and `np.array(dtype=object)` for nested lists (`Cache/NumpyCoder`); the merge stages of `NumPyCombiner`, `CovarianceCombiner` and `WeightedMeanAndVarCombiner` on what the coder returns, which are arrays, arrays of lists or lists; `_pad_arrays_to_match`, broadcasting | law of the round trip for all shapes (a shape is cut after its first 0); simulation of combiners over all schedules; the program on arrays refines the columns of C01 (`Cache/MeanVarArraysProps`) |
| C83 | the registry of `beam/common.py` as a function of class and tag, every use of the decorator as an event of a history; `ConstructBeamPipelineVisitor` as a visitor for the traverser of C31; implementations are arbitrary functions (`Pipeline/Construct`) | induction on the history from its end; instance of the traversal theorems, whose acceptance theorem was weakened to visitors that do not fail on calls that can occur |
| C84 | `ptransform_analyzer` function by function: the operations it adds as trees of value nodes, what they compute for arbitrary PTransforms, and how futures are bound to tensors in TensorFlow 2, with the collections of the graph and the temporary files (`Pipeline/CustomAnalyzer`) | case analysis on the stages; induction on the outputs that are bound; with a cache it is an instance of C60 |
| C85 | `get_type_specs_from_feature_specs`, `make_tensor_to_arrow_converter` and `batched_placeholders_from_specs` branch by branch (`Schema/TypeSpecs`) | induction on partitions and entries; composed with the inferred schemas of C62 |
| C86 | `scale_by_min_max`, `scale_to_0_1` and `scale_to_z_score` from the tensors of the batches to the scaled tensors, dense, sparse and ragged, elementwise or not (`Mappers/TensorScaling`) | the columns of a batch are the values at each position (row-major numbers are injective); C01 and C03 give their statistics; every value meets the statistic of its position |
| C87 | writing the graph of a transform function with its signature, choosing the graph of a SavedModel, conversion of old signatures, import into another graph with given inputs, assets and replaced tensors, and the map of variables to restore (`Saved/Load`) | invariants of the loops over map entries and variables in any order; the imported copies compute the values of a run of the written graph with the given values, by induction on the graph; witnesses for the names that are mistaken |
| C88 | serialization of batches as Example protos down to the bytes (`Coders/SerializeExample`) | an independent reader of the wire format (`Coders/SerializeExampleSpec`); reading inverts writing, by induction on numbers (varints), lists of fields and values; witnesses for instances with gaps and empty batches |
| C89 | pretrained models: SavedModels and functions with checkpoints, with TensorFlow's extraction of subgraphs, freezing of variables, import and unique names (`Saved/Pretrained`) | runs of the model on its own (`Saved/PretrainedSpec`); pruning keeps values, by induction on the graph, and importing by C87's simulation; witnesses for assets and repeated tensors |
| C90 | tables built in traces: tracked temporary assets, control dependencies, tables outside the traced function, the annotation with the number of buckets (`Pipeline/VocabTables`), on top of the phases of C66 | values of expressions under the results of the analyzers; the traces with TF2 behaviour, which depend on the results, are shown to evaluate like one fixed trace, to which C66 applies; witnesses for sizes in analyzers and strings |
| C91 | `analyze_in_place` on top of the traces of C66: check for analyzers, writes of the SavedModel and the metadata, contents of the output directory after every write (`Pipeline/InPlace`) | the trace without analyzers evaluates like the final trace of an analysis; cases of both behaviours; witnesses for what TF2 leaves |
| C92 | `approximate_vocabulary` with its checks, batch reduction, `_VocabularyCombiner`, order and reserved tokens (`Vocab/Approximate`); the sketch of tfx_bsl is any object with the contract `Spec.Contract` | the accumulator has seen data with the tokens and frequencies of the batches (invariant over schedules); heavy tokens and exactness follow from the bound by summing over the tokens; the contract is met by the Misra-Gries algorithm (`Vocab/MisraGries`) |
| C93 | `sparse_tensor_to_dense_with_shape` and `hash_strings` on tensors of any rank (`Mappers/Densify`); `SparseToDense` by its documented behaviour, the hash functions are parameters | induction over the writes: distinct indices inside the shape have distinct row-major positions; acceptance as an equivalence; hashing by cases of the layout |
| C94 | `_tukey_hh_l_skewness_and_kurtosis` over the reals (`Numeric/Shape`), put into the parameter search of C55 | the third and fourth L-moments are integrals over Mathlib's Gaussian measure (quantile function times shifted Legendre polynomial), computed by parts and by Fubini (`Numeric/HigherMoments`); the search by its invariants; the counterexample by rational bounds for arctan and square roots (`Numeric/ShapeFit`) |
| C95 | graphs of operations with inputs and control inputs, TensorFlow's execution and automatic control dependencies, the functions that are written, stripped, listed or applied in part (`Pipeline/Checks`) | execution of an extended graph is that of the graph (induction over positions); the outputs of a traced function succeed exactly if all operations with an effect do; values depend on what is reached; witnesses with one check |
| C96 | the collections in which reserved tokens are registered and searched by name, the evaluation of the tensor, and the order of the entries, for any number of calls (`Vocab/Reserved`) | what is fetched is what the first call of a name registered (induction over the calls); with different names this is the own argument, so the analysis is that of the calls alone; order and filter as in C10; witnesses |
| C97 | the casts before the analyses and in the mappers, with the types of the column and of the result, on top of the models of C01, C21 and C22 (`Mappers/TypedScaling`) | the analysis of the cast batches is that of the mapped column; rounding keeps the order and what needs none (C17); multiples of 128 for the witness |
| C98 | the counters of `_OptimizeVisitor`, `get_detached_sideeffect_leafs` and `_InstrumentDatasetCacheImpl`, on top of the model of C60 (`Graph/Instrument`) | the lists of the pairs of operations and datasets that are decoded and encoded, as an invariant of the loops over calls and datasets; every operation is visited once; a counted dataset is not read, from the theorem on required datasets. False of datasets that an analyzer without a cache reads, and shown so: partial |
| C99 | `AnalyzeDatasetWithCache.expand` on the keys of data and caches, on top of the model of C30 (`Cache/Keys`) | by cases on the check, and the theorem on which keys it accepts. False of the code, and shown so, for keys that are not acceptable: partial |
| C100 | `_format_output_cache`, `_make_output_cache` and `dataset_metrics` on dicts as lists of pairs (`Cache/Output`) | induction over the dict of what is to be written; a lemma on what a lookup gives after an update of a dict of dicts; joined with the theorem on written entries of C60 (`Graph/OutputCacheProps`) |
| C101 | `log_api_use`, `logging_context` and `_InstrumentAPI` on trees of calls with exceptions (`Pipeline/ApiUse`) | the specification lists the calls with their depth; mutual induction over statements, inside and outside of a logging context; the names of metrics of analyzers and mappers differ |

## What is modelled

File by file (line numbers are at the definitions). Paths are below
`/repo/tensorflow_transform`.

| file | modelled | where |
|------|----------|-------|
| `analyzers.py` | `NumPyCombiner`, `WeightedMeanAndVarCombiner`, `_LMomentsCombiner`, `CovarianceCombiner`, padding; `sum`, `size`, `min`/`max`, `mean`/`var`, `count_per_key`, `histogram`; parameters, filters and graph of `vocabulary`; `calculate_recommended_min_diff_from_avg` | `Combine/`, `Vocab/`, `Mappers/Histogram`, `Numeric/MinDiff` |
| `analyzer_nodes.py` | the cache coders | `Cache/Coders` |
| `annotators.py`, `graph_context.py` | whole files, except Keras and TF internals | `Context/Graph` |
| `beam/analysis_graph_builder.py` | `_ReadyVisitor`, phase loop, per-dataset accumulate/cache/merge, hashed paths and entry keys, `_OptimizeVisitor`, required datasets, entry keys | `Graph/Phases`, `Cache/Run`, `Graph/CachePath`, `Graph/Optimize` |
| `beam/analyzer_cache.py` | keys, manifest, reading, writing | `Cache/Fs`, `Cache/Keys` |
| `beam/analyzer_impls.py` | combine wrappers, per-key combines, vocabulary stages, weighted means, mutual information, boundary rows, cache encode/decode | `Combine/`, `Vocab/`, `Mappers/Buckets`, `Numeric/MutualInfo` |
| `beam/combiner_packing_util.py` | all visitors and `perform_combiner_packing_optimization` on graphs; the packed combines themselves. `_is_packed_post_processing_node` without its cache (it matters for chains of more than five operations only) | `Graph/Packing`, `Combine/Packed` |
| `beam/context.py` | whole file | `Context/Beam` |
| `beam/deep_copy.py` | whole file | `Pipeline/DeepCopy` |
| `beam/impl.py` | slicing, passthrough, instance dicts, `_ExtractFromDict` | `Pipeline/Batch`, `Combine/Packed` |
| `beam/tft_beam_io/transform_fn_io.py`, `beam_metadata_io.py` | publication | `Pipeline/Publish` |
| `coders/example_proto_coder.py` | encoding | `Coders/ExampleProto` |
| `coders/csv_coder.py` | whole file, except pickling | `Coders/Csv` |
| `gaussianization.py` | bisection, parameter search | `Numeric/Bisect` (window below the L-kurtosis of a Gaussian: `Numeric/Window`, `Numeric/WindowFit`) |
| `gaussianization.py` | L-skewness and L-kurtosis of a Tukey HH distribution | `Numeric/Shape` |
| `graph_tools.py` | readiness, sources, dependent inputs, path hashes | `Graph/Ready`, `Graph/CachePath` |
| `impl_helper.py` | varlen validation | `Pipeline/Batch` |
| `info_theory.py` | whole file | `Numeric/MutualInfo` |
| `mappers.py` | buckets, interpolation, scaling, tfidf, vocabulary application, ngrams, word count, dedupe, bag of words, left align, segment indices | `Mappers/` |
| `experimental/mappers.py` | `document_frequency`, `idf` | `Mappers/DocFreq` |
| `beam/analysis_graph_builder.py`, `impl_helper.py`, `analyzer_nodes.py`, `beam/impl.py` | the loop over phases of `build` with its evaluation, `_bind_future_as_tensor_v2`, `get_traced_transform_fn`, `_validate_analyzers_fingerprint`, `get_analyzers_fingerprint` (source keys) | `Pipeline/Analyze` |
| `saved/saved_transform_io_v2.py`, `tf2_utils.py`, `beam/impl.py` | `SavedModelLoader._get_feeds`, `_get_fetches`, `_apply_v1_transform_model_in_v2`, `_apply_v2_transform_model`, `finalize`, `_apply_v2_transform_model_finalized`, `supply_missing_tensor`, `supply_missing_inputs`, `_GraphStateCompatV1`, `_GraphStateV2` | `Pipeline/Serving` |
| `mappers.py` | `estimated_probability_density` | `Mappers/Density` |
| `gaussianization.py`, `analyzers.py`, `mappers.py` | `lambert_w`, `inverse_tukey_hh`, `tukey_hh_l_mean_and_scale`, `_LMomentsCombiner.extract_output`, `_scale_to_gaussian_internal` | `Numeric/Gaussianize` |
| `inspect_preprocessing_fn.py`, `graph_tools.py` | `get_analyze_input_columns`, `get_transform_input_columns`, `get_dependent_inputs` (result, see C33 for the traversal) | `Pipeline/Columns` |
| `analyzers.py` | `PCACombiner` | `Combine/Pca` |
| `analyzers.py`, `mappers.py` | `QuantilesCombiner`, `quantiles`, `_quantiles_per_key`, `bucketize`, `bucketize_per_key` | `Combine/Quantiles`, `Combine/PerKeyQuantiles` |
| `mappers.py`, `analyzers.py`, `tf_utils.py` | `scale_by_min_max_per_key`, `scale_to_z_score_per_key` without key file, `_min_and_max_per_key`, `_mean_and_var_per_key`, `reduce_batch_minus_min_and_max_per_key`, `reduce_batch_count_mean_and_var_per_key`, `_validate_and_get_dense_value_key_inputs`, `_make_composite_tensor_wrapper_if_composite` | `Mappers/PerKeyScaling`, `Mappers/PerKeyHighRank` |
| `beam/impl.py`, `tf_metadata/dataset_metadata.py` | `TransformDataset.expand` (metadata only), `EncodeTransformedDataset.expand` (choice of the encoder), `_remove_columns_from_metadata`, `DatasetMetadata.from_feature_spec` | `Pipeline/TransformData` |
| `tf_metadata/metadata_io.py`, `beam/tft_beam_io/beam_metadata_io.py` | `read_metadata`, `write_metadata`, `_parse_schema_json`, `_column_schema_from_json`, `_domain_from_json`, `_dtype_from_json`, `_convert_scalar_or_list`, the asset map of `WriteMetadata`; `atomic_write_string_to_file` of TensorFlow as steps | `Schema/MetadataIo` |
| `beam/impl.py` | `_RunMetaGraphDoFn`, `_clear_shared_state_after_barrier`; `Shared.acquire` of Beam, weak references and garbage collection, `get_field_index` of Arrow and the column check of `TensorAdapter` as they are documented | `Pipeline/Worker` |
| `tf_metadata/schema_utils.py` | `_sequence_schema_as_feature_spec`, `_get_source_feature_domains`; not: `_legacy_schema_from_feature_spec`, which is never called | `Schema/Sequence` |
| `output_wrapper.py` | `TFTransformOutput.transform_features_layer`, `transform_raw_features`, `_transform_raw_features_compat_v1`, `TransformFeaturesLayer.__init__`, `_saved_model_loader`, `call`; whether a loaded function can be called in another context, and that graphs are not imported with eager execution, as TensorFlow does it; not: Keras, variables, `load_transform_graph` | `Pipeline/OutputWrapper` |
| `beam/impl.py` | `AnalyzeAndTransformDataset.expand`; batches made of rows, and the conversion of transformed batches to instances, without passthrough columns; not: operations that mix the rows of a batch | `Pipeline/WholeRun` |
| `analyzer_nodes.py`, `analyzers.py` | `JsonNumpyCacheCoder` on arrays of all shapes; the combiners that use it, on decoded accumulators; `_combine_mean_and_var_accumulators`, `_pad_arrays_to_match` and broadcasting on arrays of all ranks; not: numpy dtypes, and numpy computing with lists where it does not convert them | `Cache/NumpyCoder` |
| `beam/common.py` | `EnvironmentTags`, `_PtransformWrapper`, `register_ptransform`, `ConstructBeamPipelineVisitor`; not: what the implementations do (other modules), iterables of outputs without a length, `IncrementCounter` | `Pipeline/Construct` |
| `experimental/analyzers.py`, `analyzer_nodes.py` | `_apply_analyzer`, `ptransform_analyzer`, `CacheablePTransformAnalyzer`, `PTransform`, `TensorSource`, `bind_future_as_tensor` with the temporary asset files, `wrap_as_tensor`, `_PTransformImpl`; not: labels, name scopes, `PTransformAnalyzer.base_temp_dir` | `Pipeline/CustomAnalyzer` |
| `impl_helper.py` | `batched_placeholders_from_specs` with its helpers, `_sanitize_scope_name`, `get_type_specs_from_feature_specs`, `make_tensor_to_arrow_converter`; not: the converter of `tfx_bsl` | `Schema/TypeSpecs` |
| `mappers.py`, `tf_utils.py`, `analyzers.py` | `scale_by_min_max`, `scale_to_0_1`, `scale_to_z_score` on tensors of all kinds, with the reduction of batches and `tf.broadcast_to`/`tf.gather_nd` for sparse tensors; not: infinite values and NaN in min-max scaling, broadcasting of dense tensors with dimensions of size one | `Mappers/TensorScaling` |
| Loading of TF1 transform functions: saved/saved_model_loader.py `choose_meta_graph_def…` (27–93), saved/saved_transform_io.py `_update_legacy_signature`, `_load_transform_saved_model`, `_expand_input_map`, `_partially_apply_saved_transform_impl`, `write_saved_transform_from_session` (34–481). Not modelled: types and shapes of tensors, collections other than asset paths, the checkpoint reader, operations with several outputs, control dependencies | `Saved/Load` |
| tf_utils.py `_encode_proto`, `_serialize_feature`, `serialize_example` (1807–1918) with the operation `EncodeProto` for the messages of Examples. Not modelled: the 2 GiB limit of messages, static shapes | `Coders/SerializeExample` |
| pretrained_models.py (55–306). Not modelled: types and shapes of tensors, sparse inputs, variables of partitions | `Saved/Pretrained` |
| tf_utils.py (2080–2167), mappers.py (1253–1306, 1310–1371), schema_inference.py (446–510), analyzer_nodes.py (144–153, 251–316), in the phases of `Pipeline/Analyze`. Not modelled: `lookup_fn`, files whose path is a tensor computed by the user | `Pipeline/VocabTables` |
| tf2_utils.py (43–71), saved/saved_transform_io_v2.py (108–124, 224–236, 332–421, 478–503), impl_helper.py (396–422), inspect_preprocessing_fn.py (31–121), schema_inference.py (746–853), analyzer_nodes.py (232–247), for what concerns control dependencies. Operations have one output. Not modelled: graphs inside operations (`If`, `While`, function calls), the order among operations with an effect, captured resources | `Pipeline/Checks` |
| `impl_helper.py` 425–545, 677–759 `analyze_in_place` | `Pipeline/InPlace` |
| `experimental/analyzers.py` 303–618 `approximate_vocabulary`, defaults of `experimental/mappers.py` 38–120. Not modelled here: registration of the vocabulary (C63) and of reserved tokens (C96), `_MisraGriesSketchCoder`, float32 counts | `Vocab/Approximate` |
| tf_utils.py (2290–2308), analyzers.py (2278–2304, 2328–2329), experimental/analyzers.py (494–515), beam/analyzer_impls.py (123–153, 1606–1622). The value of a tensor is a scalar, a vector or more; entries of the data are given (C09–C13, C92). Tensors that a session cannot compute are those marked so | `Vocab/Reserved` |
| analyzers.py (110–122, 960–999), mappers.py (387–391, 439–454, 716–729), for the casts. Finite values without keys; arithmetic after the cast is exact, overflow of float16 is not modelled | `Mappers/TypedScaling` |
| `beam/analysis_graph_builder.py` (177–179, 197–231, 391–416), `beam/analyzer_impls.py` (1477–1525), the counters of the use of the cache. Elements of metadata are the sizes of datasets | `Graph/Instrument` |
| `beam/impl.py` (1406–1420), the check of keys | `Cache/Keys` |
| `beam/analysis_graph_builder.py` (607–616), `beam/impl.py` (1046–1063, 1210–1232), the output cache; without labels and counters | `Cache/Output` |
| `common.py` (26–27, 41–88), `beam/impl.py` (959–1011), counters of the use of the API; one graph, one thread | `Pipeline/ApiUse` |
| `mappers.py` 185–220 `sparse_tensor_to_dense_with_shape`, 1839–1885 `hash_strings`, 2057–2072 `_make_composite_tensor_wrapper_if_composite`; `tf_utils.py` 94–101 `get_values`. Not modelled: operation names, a default of another dtype than the values | `Mappers/Densify` |
| `nodes.py` | nodes and `Traverser` | `Graph/Traverse` |
| `py_func/pyfunc_helper.py`, `saved/*.py` | tokens across saving and loading | `Pipeline/PyFunc` |
| `tf_metadata/schema_utils.py` | both directions | `Schema/FeatureSpec` |
| `schema_inference.py` | inference from outputs and collections, with and without tf.functions; tensor-valued annotated shapes and annotations of sparse tensors as a whole are not | `Schema/Inference` |
| `output_wrapper.py` | `vocabulary_file_by_name`, `vocabulary_by_name`, `vocabulary_size_by_name`, `num_buckets_for_transformed_feature`; also `sanitized_vocab_filename`, `_get_vocab_filename`, `register_vocab`, `get_vocabulary_size_by_name`. Files are lists of characters; compressed files are their records | `Output/VocabAccess` |
| `tf_utils.py` | batch reductions, bucket assignment, key lookup, range wrap, idf, histogram reordering, table files | `Vocab/Reduce`, `Combine/`, `Mappers/` |

## What is not modelled

* Floating point: rounding, overflow, cancellation and signed zeros. Casts
  between dtypes, apart from those of `apply_buckets` (C17, `Mappers/TypedBuckets`).
* The quantile sketch itself (`tfx_bsl.sketches`): C72 and C73 assume its
  contract, `Quantiles.Spec.Contract`. The boundaries are not rounded to float32.
  Likewise the Misra-Gries sketch: C92 assumes `ApproxVocab.Spec.Contract`.
* Hash functions (those of `hash_strings` and fingerprints are parameters).
* Tracing of `preprocessing_fn`, `tf.function`, SavedModel import and export
  apart from py_func tokens, control flow graphs and feeds/fetches.
* Beam: runners, windowing, coders of the runner, resource hints, retries of
  bundles. `AsSingleton` side inputs are errors unless there is one value; that
  they are evaluated lazily is not modelled.
* CSV (C61): Python's `csv` module is modelled as of the versions that quote line
  breaks whatever the line terminator is (3.10 and later patch releases).
* In the optimized graph (C60): metrics nodes and counters
  (`get_detached_sideeffect_leafs`), and sharing of nodes (the result is a tree).
  Operations are deterministic functions of their inputs, possibly failing. The
  data of a dataset key does not change between runs.
* Files: `GFile` opens lazily and buffers; writes are modelled as reaching the
  file when closed. `rename` is atomic, `rmtree` removes the entries one by one
  in any order. Beam's file sinks write temporary shards and rename them.
* The schema reader of `tfx_bsl` is modelled from its documentation and the test
  cases in `/repo`. Protobuf oneofs and the reference semantics of repeated
  fields are modelled where the coder depends on them (C39).
* JSON and pickling are assumed to be faithful, except that the coder theorems
  (C27) prove the byte layout around them.
* `round`, the logarithm and the exponential are exact; `round` is a parameter
  that is monotone and fixes integers.
* NaN is modelled in min/max, mean/var, buckets and weighted means. How NaN goes
  through the mutual information is not: there it is an error.

## Findings

Places where the code does not do what its documentation says. All are proved as
theorems with concrete witnesses unless marked (noted).

* C01: elementwise variance of a SparseTensor with a NaN is wrong.
* C03: a batch whose reduction equals the default of the combiner is dropped:
  `+inf` for float minima, `INT_MAX`/`INT_MIN`, 255 for uint8. (noted) `tft.max`
  of int16 data that is all -32768 is -32767.
* C12: the annotated vocabulary size counts a reserved token twice when it is in
  the data, and does not count the placeholder of an empty vocabulary with
  reserved tokens.
* C13: with `top_k` and no token over the threshold, the placeholder is written
  beside the tokens of the coverage part. (noted) With reserved tokens and no
  other tokens a placeholder is written as well.
* C14: in a text file with frequencies a reserved token with spaces is lost.
* C17: boundaries given as a column publish a wrong maximum. (noted)
* C17: `x` or the boundaries are cast to the type with the larger maximum, which need not hold the other's
  values: an integer above 2^24 is rounded to `float32` and can get the bucket above its own
  (`large_integer_wrong_bucket`), a negative integer wraps if the boundaries are unsigned
  (`negative_value_wrong_bucket`), and `float16` boundaries are truncated for 32-bit integers
  (`truncated_boundary_wrong_bucket`). The docstring says that the common type "can hold the largest of values".
  `num_buckets=1` with computed quantiles raises IndexError.
* C18: with a single boundary NaN is mapped to 1; with repeated boundaries a value
  at the lowest boundary is not mapped to 0.
* C19: `bucketize_per_key` with `num_buckets=2` uses a threshold shifted by the
  position of the key. C20: unseen keys give -1, outside the published domain.
* C22: the documentation says a constant column is left alone; its mean is
  subtracted.
* C23: `tfidf` with `vocab_size=1` always fails. (noted) -1 for an
  out-of-vocabulary term is wrapped onto the last term, as documented.
* C29: a crash loses an earlier value, or leaves some of its shards, or lets a
  later write mix old and new records.
* C30: the dataset keys `.` and `..` and keys with a trailing newline are accepted.
  Keys that differ only in `/` and `-` and a key `uncached_x` beside the
  non-cacheable key `x` collide before validation. (noted) `JsonNumpyCacheCoder`
  turns mixed integer and float accumulators into floats.
* C32: with cycles the result depends on the order of questions. C34: the phase
  loop would not end if an analyzer depended on itself. (noted) After an error in
  a traversal the stack of the traverser is left non-empty.
* C35: a Context constructed on another thread cannot be entered on a thread that
  never constructed one (the with statement raises). C46: after a scope closes the queries raise instead of returning
  None.
* C38: retrying the publication step alone loses the metadata and fails; a crash
  can leave old metadata beside a new model.
* C39: with two handlers of one feature name the encoding depends on earlier
  failures.
* C40: the example in the documentation of `histogram` shows one count too many.
* C42, C56: with one label or with `min_diff_from_avg` the mutual information can
  be negative; for a token independent of a label that has less than a millionth of the weight it is positive
  (`rare_label_mi_positive`). C43: the error at the upper end may be zero, which the
  documentation excludes. C55: from 0.1226017 to the L-kurtosis of a Gaussian
  (0.12260172) the search starts with a negative parameter, and returns it
  (`tukey_params_negative_in_window`); it is above -1e-7 for all data.
* C45: a column shared by two members loses one of them; 32-bit row splits come
  back as 64-bit.
* C47: a second generation through another process can call the wrong function;
  library functions are not remapped; without a collection nothing is checked; in
  TF2 a token collision is accepted.
* C48: keys with spaces get wrong statistics or fail; per-key scaling of an empty
  analysis dataset fails.
* C49: labels below -1 are counted for another token; weights and labels of the
  shape of a matrix of tokens are rejected although documented. (noted) Ragged
  tokens accept too many labels; zero weights give NaN means.
* C50: two used outputs of one transform lose data or fail; a diamond is not sorted
  by dependency; copying at a boundary is a KeyError.
* C51: `a b` and `a__SPACE__b` get one id. (noted) The integer placeholder -1 can be
  a real token.
* C52: a name that is an attribute of the module returns the attribute; duplicate
  names are not rejected. C53: keys that differ only before the last slash collide.
* C58: a token equal to the sentinel is lost and its rows are counted twice. With weights and sparse or ragged tokens only the number of values is compared with the number of weights: if they agree by chance, tokens are counted with the weights of other rows (a TODO in the code asks what the shape should be).
* C59: the type of a TensorFlow operation is not part of the cache key, so a cache
  written for `sum(abs(x))` is used for `sum(square(x))`.
* C61: `CsvCoder.encode` writes only the first value of a column that is not
  multivalent, without an error; a column that the schema does not describe is
  written as `None`; a variable-length feature given as the NumPy array `[0]` is
  written as empty, and one with two values is an error; after a text with a lone
  surrogate the coder rejects every further instance, because the buffer is reset
  only after the conversion to bytes.
* C62: with tf.functions, of two outputs that are the same tensor only the last one
  gets the domain and the annotations in the schema. An output named like a column
  of another one (`x$sparse_values`) makes the inference fail in graph mode, and is
  lost with tf.functions.
* C63: the key of a vocabulary in the asset map is the part of its name after the last
  slash. A vocabulary named `x/b` takes over the name `b` of another vocabulary: the
  entries read under `b` are those of `x/b`, the size is that of `b`.
* C63: a reserved token with a line break is written to a text vocabulary as it is, and
  reads back as two entries, while the annotated size counts it once.
* C63: the default names of approximate vocabularies with and without frequencies are
  swapped (`approx_vocab_` is the one with frequencies).
* C64: when merges are packed (one phase), the operations between a combine and its
  tensor binding are rebuilt with their first input only
  (`combiner_packing_util.py:514-549`). `tft.experimental.approximate_vocabulary` with
  `reserved_tokens` has an operation with two inputs there; beside another analyzer with
  a global combine the reserved tokens vanish from the vocabulary
  (`reserved_tokens_are_lost`).
* C65: `document_frequency` fails for a vocabulary of size one (as `tfidf`, C23).
* C66: repeated traces of the `preprocessing_fn` are compared with the first by the names of
  analyzers and the inputs they depend on; a difference of the analyzers' graphs is only logged. Two
  analyzers of the same input that are traced in another order exchange their results without an
  error.
* C67: with TF2 behaviour a transform function that is applied to some of its inputs runs as a whole on
  made-up values (zeros, empty strings) for the others. An operation that fails on such a value, e.g.
  `tf.strings.to_number` of a missing label, fails the batch although its output would be dropped
  (`made_up_input_fails_the_batch`). `exclude_outputs` with unknown keys is rejected with TF1 behaviour only
  (`unknown_exclude_outputs`). `input_shape[0] or batch_size` takes a static dimension 0 for an unknown one
  (`static_zero_is_replaced`).
* C69: `tft.pca` does not check `output_dim`. If it is larger than the number of columns the result has fewer
  columns than its declared shape (and on an empty dataset columns of zeros).
* C70: the docstring says that the result has the shape of the input; an input of shape [2, 3, 1] gives
  [6, 1, 1], since the values are flattened before dimensions of size one are added
  (`density_shape_changes`).  After an analysis of an empty dataset the categorical estimate fails in
  `tf.gather` (`mass_of_nothing_fails`), and the other is NaN.  Values beyond the outer boundaries get
  the density of the border bins (`outliers_have_the_density_of_the_last_bin`).
* C71: the docstring of `inverse_tukey_hh` says that it inverts `x * exp(h x^2)`; it inverts
  `x * exp(h x^2 / 2)` (`documented_function_is_not_inverted`).  A comment says that the identity for
  small values has an error below 1e-14; it is up to 5e-8 relative (`small_value_error`), and where the
  approximation ends a larger value can get a smaller result (`inverse_tukey_not_monotone`).
* C72: `bucketize` documents that `weights` must have the same shape as `x`; with `elementwise=True` and
  more than one value per instance such weights make the analysis fail, there must be one weight per
  instance (`elementwise_weights_of_the_shape_of_x_fail`). `num_buckets=1` is accepted although the
  docstring says that it is a `ValueError`. (noted) For 50 or more buckets the default tolerance is at
  least half a bucket, so that the guarantee allows empty buckets.
* C73: `bucketize_per_key` with `num_buckets=1` passes the check, then the analysis fails with an
  `IndexError`.
* C74: `scale_to_z_score_per_key` of dense tensors of rank three and more without `elementwise`:
  `reduce_batch_count_mean_and_var_per_key` sums over axis 1 only, so that the statistics of a key are
  a tensor, and `map_per_key_reductions` then gathers along its last axis, which is not that of the
  keys. Every result of such a batch has another shape than `x` or leaves the last instance unscaled
  (`high_rank_never_scaled`); with TF2 behaviour most batch sizes fail (`high_rank_batch_sizes`), and the
  others can give wrong values without an error (`HighRankCase.high_rank_wrong_values`).
* C74: with `key_vocabulary_filename`, a dense key and a sparse or ragged `x`, the raw key is looked up,
  one per instance, while the statistics are used for every value. Read from the code; not modelled.
* C74: the docstrings say that elementwise scaling per key is not implemented; for dense tensors it is.
* C75: the format of a transformed dataset is stored in the metadata object of the analysis
  (impl.py:1691), which all datasets transformed with the same transform function share. With two
  `TransformDataset` steps of different `output_record_batches`, `EncodeTransformedDataset` picks the
  encoder of the last one for both (`encoder_of_shared_metadata_is_wrong`).
* C75: `EncodeTransformedDataset` needs `BeamDatasetMetadata`, which `ReadTransformFn` does not return:
  data transformed with a saved transform function cannot be encoded, an AttributeError
  (`encode_after_read_fails`).
* C75: with `exclude_outputs` (even empty) the metadata pass through a feature spec and lose what it
  does not hold: annotations, and domains other than integer, string and float domains make it raise.
* C76: a legacy JSON schema with a default value for any feature cannot be read: the specs with defaults
  are passed to `schema_from_feature_spec`, which refuses them, and its legacy branch is never taken
  (`legacy_defaults_are_refused`). A `stringDefaultValue` of null is read as no default, an
  `intDefaultValue` of null raises a TypeError.
* C76: on file systems without an atomic move `write_metadata` overwrites in place, and a crash leaves a
  partial schema (`direct_write_is_not_atomic`).
* C76: `WriteMetadata` to a directory with an asset map of an earlier run leaves it there if there are no
  assets now (`asset_map_of_earlier_run_stays`); the map itself is not written atomically.
* C77: a passthrough key may be the name of an output of the preprocessing function. No check forbids it,
  and the column of the input silently replaces the transformed feature (`passthrough_replaces_an_output`).
* C77: in a pipeline with several windows the side input with the transform function can change; the
  `DoFn` then fails with an `AssertionError` for the rest of its life (`another_function_is_refused`).
* C78: domains of sequence examples are looked up by the last name of a path. A context feature and a
  sequence feature with one name get one domain, that of the later feature in the schema, also if the
  domains differ or only one of them has one (schema_utils.py:405-415, 424-434).
* C02: `tft.sum` sums every batch in the type of the column and widens only the
  result. The sum of int8, int16, int32, uint8 or uint16 values wraps around in a
  batch and then depends on the batches: two values 200 of type uint8 have the sum
  144 in one batch and 400 in two. Only sparse unsigned values reduced by position are
  cast first.
* C96: reserved tokens are searched by the name of the vocabulary without the suffix of
  its format. Two vocabularies of one name in two formats have two files, but the second
  gets the reserved tokens of the first (`same_name_takes_other_tokens`).
* C96: `reserved_tokens="ab"`, a text in place of a list of texts, is accepted; the file
  starts with the lines `97` and `98`, and the size counts one (`text_becomes_numbers`).
* C97: columns of `int64` are cast to `float32` before they are analyzed. All values
  between 2^30 and 2^30 + 63 (about a minute of times in seconds) get the z-score 0 and are
  scaled to the same number (`close_large_integers_get_z_score_0`,
  `close_large_integers_are_scaled_alike`). `scale_by_min_max` has no `output_dtype`, and
  rounds columns of `float64` as well.
* C98: `analysis_input_bytes_from_cache` is meant to count the datasets that are not read due to a
  cache hit. It looks only at cacheable analyzers: if an analyzer without a cache reads the dataset,
  its bytes are counted all the same (`counted_although_read`).
* C99: `AnalyzeDatasetWithCache` checks the keys of `dataset[1]`, which is the dict of caches, not
  of data. A dataset with the key `span 1` is analyzed and its cache is written; every later run that
  is given this cache fails (`data_keys_are_not_checked`, `own_cache_is_refused`).
* C95: with TF2 behaviour a check of the result of an analyzer, such as
  `tf.debugging.assert_positive(tft.mean(x))`, is a control dependency of the functions that the first
  phases of an analysis run, where the result is a `PlaceholderWithDefault` that holds zeros
  (analyzer_nodes.py 232–247). It is made with the zeros and can fail an analysis for whose results it
  holds (`a_check_of_a_result_fails_the_analysis`). With TF1 behaviour checks on which no output depends
  are never made (`v1_ignores_checks`), and `get_analyze_input_columns` does not list what they read.
  Control dependencies do not count when the outputs that can be computed from some columns are found
  (saved_transform_io_v2.py 118–122), so checks are made on made-up values
  (`checks_are_made_on_made_up_values`).
* C94: `compute_tukey_hh_params` documents that it computes the parameters of a Tukey HH distribution from its
  L-skewness and L-kurtosis. For skewed distributions it often does not (`search_misses_the_parameters`): if the widest
  difference of the parameters is not enough for the skewness at the initial `h`, that difference becomes a lower bound
  (gaussianization.py 275-276), which is wrong when `h` grows, because then a smaller difference is enough. For the
  parameters (1/4, 7/8) it returns parameters whose difference is above 0.8 instead of 0.625; so `scale_to_gaussian`
  does not make such data Gaussian (`fit_misses_the_distribution`). The formulas themselves are right.
* C92: `compute_and_apply_approximate_vocabulary` documents that without `top_k` (the default) the full vocabulary is
  generated (experimental/mappers.py 42, 59–60), but `approximate_vocabulary` compares it with zero (experimental/analyzers.py
  427): a `TypeError` for every call with the default (`default_top_k_fails`).
* C92: the default names of approximate vocabulary files are swapped (experimental/analyzers.py 322–325): the file with
  frequencies is called `approx_vocab_…`, the one without `approx_vocab_frequency_…` (`default_names_are_swapped`).
* C91: with TF2 behaviour `analyze_in_place` writes the SavedModel before it looks for analyzers (impl_helper.py
  738–747). A function with analyzers is refused, but a transform function in which analyzers have temporary values is
  left in the output directory, in place of an older one (`tf2_refused_leaves_transform_fn`,
  `Cases.tf2_leaves_temporary_values`).
* C90: with TF2 behaviour the size of a vocabulary's table is computed outside the traced function and does not depend
  on the vocabulary's analyzer (tf_utils.py 2159–2167). An analyzer that is applied to the number of buckets only is
  evaluated in the first phase, with the size of the temporary file (`size_of_temporary_vocabulary_analyzed`); with TF1
  behaviour the result is right. Analyzers that also use the ids, as in `tfidf(ids, num_buckets)`, are not affected.
* C90: with TF2 behaviour `apply_vocabulary` refuses the path of a file given as a string if any vocabulary was called
  before it, and accepts it before (`tf2_string_path_refused_after_vocabulary`, `string_path_depends_on_order`).
* C89: `apply_saved_model` copies the graph without the asset files of the SavedModel: a table of the model is filled
  from the path where the model was written, not from its `assets` directory (`asset_of_another_place`), and the
  transform function that is written does not contain the file either.
* C89: an input of a SavedModel that the requested outputs do not need makes `apply_saved_model` fail, since the
  frozen graph no longer has it (`unneeded_input_refused`); so does an argument that the function of
  `apply_function_with_checkpoint` does not use (`function_unneeded_input_refused`).
* C89: `apply_function_with_checkpoint` names its placeholders after the operations of the inputs and feeds them by
  the names of the tensors. A tensor that is given twice is not fed the second time (`repeated_input_unfed`), or with
  another input whose name happens to be the one that the graph made up (`repeated_input_wrong`). Tensors that are
  not the first output of their operation are refused (`second_output_refused`), as are names that differ in case only
  (`names_without_case_refused`), functions without variables (`no_variables_refused`), and variables in two of the
  included scopes (`overlapping_scopes_refused`).
* C88: `serialize_example` says that the indices within a row of a sparse tensor are ignored, but it writes the
  first cells of the dense row: a value in column 1 without one in column 0 is replaced by the default value
  (`gaps_are_wrong`). It refuses empty batches (`empty_batch_refused`), since `tf.reshape(x, [0, -1])` fails.
* C87: a transform function (TF1) with a feature whose name ends in `$dense_tensor` is loaded with that ending
  removed (`renamed_on_load`); names ending in `$indices`, `$values` or `$dense_shape` make the model
  unloadable (`lost_on_load`), because every signature is converted as if it might be an old one.
* C87: in old models, a sparse feature called `dense_shape` is refused: `_update_legacy_signature` tests
  `name == "dense_shape"`, the name of the feature, where the component is meant (`legacy_dense_shape_refused`).
* C87: a SavedModel with the right tag but without the signature is loaded as a function without inputs and
  outputs (`missing_signature_accepted`): reading a missing key of a protobuf map creates an empty entry.
* C87: a variable whose name ends in `/part_` makes a model unloadable, and a variable `x` beside one called
  `x/part_0` gives an error or is not restored, depending on their order (`empty_part_refused`,
  `same_name_refused`).
* C86: elementwise scaling of sparse tensors without a fixed width (`VarLenFeature`) fails for every batch whose
  width is not that of the widest instance of the dataset (`other_widths_fail`, `z_score_of_two_widths_fails`):
  the statistics are broadcast to the dense shape of the batch. `scale_to_gaussian` gathers them by the
  index in the instance instead, which works. `scale_by_min_max` fails already in the analysis
  (`min_max_of_two_widths_fails`).
* C86: if the widest instance of the dataset has one value, wider batches are scaled without an error, but all
  their values with the statistics of the first position (`wider_batches_use_the_first_position`).
* C85: the type expected of a ragged output is not always its type (`other_ragged_outputs`). A dimension of
  unknown size inside the values counts as ragged, a ragged dimension whose rows have one given length does
  not, and row splits of type int32 are expected to be int64, since the schema does not record their type.
* C85: a sparse output of one dimension is accepted and expected to have two dimensions
  (`sparse_outputs_of_one_dimension`).
* C85: `get_type_specs_from_feature_specs` fails for a `SparseFeature` with one integer as its size, which
  `tf.io.SparseFeature` and the placeholders of TensorFlow 1 allow. Schemas always give lists, so transformed
  data is not affected.
* C84: a `CacheablePTransformAnalyzer` with two or more outputs always fails
  (`cacheable_analyzer_with_several_outputs_fails`): all of its stages are given the outputs of the
  analyzer, but a partitionable operation must have one output, and a `PTransform` stage must have one input.
  The documentation allows any number.
* C84: an item `None` of `output_asset_default_values` is documented to say that the output is not an asset.
  It becomes `TemporaryAssetInfo(None, "text")` (analyzers.py:285-288), which makes the output an asset path
  (`none_items_make_assets`), and in TensorFlow 2 `None` is then written to the temporary file, which raises
  (`asset_without_content_fails`).
* C83: "each ptransform_class should be registered only once": the assertions in `add_ptransform` and
  `register_ptransform` (common.py:74, 147) are about generator objects and can never fail. A second
  implementation for the same class and tag replaces the first, so that the order of imports decides
  which one runs (`duplicate_registrations_are_not_rejected`), and tags are not checked.
* C83: `register_ptransform` documents `tags` as "a set of string tags", but the lookup uses the members
  of the enum. An implementation registered with strings is never used (`string_tags_are_never_found`).
  It also documents that a function can be registered, which an assertion refuses
  (`functions_are_rejected`).
* C82: elementwise `mean` and `var` of tensors of rank 3 or more (with the batch dimension) whose first
  instance dimension is unknown: the accumulator of an empty dataset has shape `(0, n)`, is written to the
  cache as `[]` and read back with shape `(0,)`. Merging it with another accumulator raises an error, which
  does not happen without the cache (`cached_empty_dataset_breaks_mean`).
* C81: an analyzer of a value that is not computed from any column (such as a constant) sees this
  value once per batch, so that its result depends on how the rows are cut into batches
  (`constants_are_analyzed_once_per_batch`).
* C80: a `TFTransformOutput` whose `transform_raw_features` was used inside a TF1 graph with a TF2
  SavedModel cannot be used with eager execution afterwards: `_saved_model_loader` loads the function anew
  only in graphs, and returns the one that was loaded into the graph (`graph_use_spoils_eager_use`).
* C60: a `CacheablePTransformAnalyzer` with two or more outputs always fails, with
  or without a cache, because its first stage has as many outputs. An operation
  with two inputs that prefer their per-dataset views would get one mixed input
  (latent: no analyzer has one). (noted) `get_analysis_dataset_keys` looks at the
  result only and not at the cache entries to be written, so a dataset that is
  needed only for a missing entry whose value is not used is not named.
