{"claims": [
{"property": "C01", "status": "proved", "theorems": ["Grain.shardOptions_make_iff", "Grain.evenSplit_partition", "Grain.evenSplit_partition_drop", "Grain.evenSplit_size_drop", "Grain.evenSplit_size", "Grain.evenSplit_bounds", "Grain.noSharding_reads_all"], "note": ""},
{"property": "C02", "status": "partial", "theorems": ["Grain.indexShuffle_terminates", "Grain.indexShuffle_perm_partial", "Grain.indexShuffle_bad_collision", "Grain.indexShuffle_not_perm_65537", "Grain.shuffledIndex_epoch_perm_partial", "Grain.shuffledIndex_empty"], "note": "False of the code when the largest index is 4^j with j>=8; the collision is proved and every other length is covered."},
{"property": "C03", "status": "partial", "theorems": ["Grain.windowShuffle_window_perm_partial", "Grain.windowShuffle_leaves_epoch", "Grain.windowShuffle_stays_in_window", "Grain.windowShuffle_epoch_perm_partial"], "note": "False of the code when the window does not divide the length; proved when it does."},
{"property": "C04", "status": "proved", "theorems": ["Grain.mix_select_total", "Grain.mix_keys_in_order", "Grain.mix_exact_per_period"], "note": ""},
{"property": "C05", "status": "proved", "theorems": ["Grain.mix_bounded_drift"], "note": ""},
{"property": "C06", "status": "partial", "theorems": ["Grain.mix_no_wrap_around", "Grain.mix_length_close", "Grain.mix_computed_length_no_wrap_around_partial", "Grain.mix_length_loses_element", "Grain.mix_length_repeats_element"], "note": "Proved for the exact length, and for the length computed in floating point as long as length * (sum of integer proportions) is below 2^52 for every component; the computed length is the exact one or one less. False beyond that limit (mix_length_repeats_element)."},
{"property": "C07", "status": "proved", "theorems": ["Grain.concat_epoch"], "note": ""},
{"property": "C08", "status": "proved", "theorems": ["Grain.slice_rejects_iff", "Grain.slice_epoch", "Grain.slice_len", "Grain.slice_positions_in_range", "Grain.reindex_epoch", "Grain.reindex_same_epoch", "Grain.reindex_permutes", "Grain.slice_is_reindex", "Grain.reindex_by_dataset", "Grain.reindex_reads_other_epochs"], "note": "Positions outside the dataset given to ds.slice(indices) are read from other epochs, not rejected (reindex_reads_other_epochs)."},
{"property": "C09", "status": "proved", "theorems": ["Grain.strided_slices_recombine"], "note": ""},
{"property": "C10", "status": "proved", "theorems": ["Grain.batch_getitem", "Grain.batch_pushdown", "Grain.batch_groups", "Grain.batch_resumes_exactly", "Grain.batchStream_partition", "Grain.plain_iteration"], "note": ""},
{"property": "C100", "status": "proved", "theorems": ["Grain.interleave_of_stacks_invisible", "Grain.interleave_stacked", "Grain.interleave_of_slices_stacked", "Grain.mp_prefetch_workers_invisible", "Grain.multithread_prefetch_invisible", "Grain.interleave_started_ahead_invisible"], "note": "States are restored into new iterators, as the property says; restores into used interleave iterators lose data (F6, C27). Elements that raise and close are outside (C66, C81). That slicing gives worker i the elements i, i + w, ... is C31 and C53. The states of workers that have not delivered yet are taken to be correct ones; what the code does for pipelines that contain an interleave is C107."},
{"property": "C101", "status": "proved", "theorems": ["Grain.tree_read_ahead", "Grain.mp_prefetch_read_ahead", "Grain.multithread_prefetch_read_ahead"], "note": "For programs of next and get_state (no restores: after a restore the same elements are read again). Zips of datasets of different lengths are left out: after the end such a zip consumes the longer ones at every further next; filters are left out because how much they read depends on the data (their position is part of C97). Window shuffle, rebatch and flat_map are included; packing and repeat are not."},
{"property": "C102", "status": "partial", "theorems": ["Grain.close_ends_every_thread", "Grain.close_returns", "Grain.Stacked.shut", "Grain.close_ends_started_threads", "Grain.close_returns_after_start"], "note": "Every tree of the layers of C95-C104 (Stacked.shut), closed at any moment between two calls, under every schedule, the kill of a worker that does not end within the timeout included (parameter kill of Shut.process): progress until close returns, no infinite schedule, and then no thread and no worker process exists (gone) and nothing can move. The same for a user who also calls start_prefetch (close_ends_started_threads, close_returns_after_start), for trees whose thread-prefetch layers have a buffer of at least one element. Missing: elements that raise; close called from another thread while a call is running (C67, F54); used-up inputs of an interleave are closed by __del__ in the code."},
{"property": "C103", "status": "partial", "theorems": ["Grain.window_shuffle_of_stack_invisible", "Grain.reshuffle_window_stacked", "Grain.first_fit_of_stack_invisible", "Grain.best_fit_of_stack_invisible", "Grain.flat_map_of_stack_invisible_partial", "Grain.close_ends_every_thread"], "note": "Window shuffle, first-fit and best-fit packing and flat_map as layers of the trees of C95 to C102, under every schedule. Partial: flat_map only over streams that do not end (F4), packing of lists of examples that fit, and window shuffles whose seed plus window number stays below 2^32; nothing raises; states are values (F95)."},
{"property": "C104", "status": "partial", "theorems": ["Grain.repeat_of_stack_invisible", "Grain.rebatch_of_stack_invisible_partial", "Grain.close_ends_every_thread"], "note": "Repeat and rebatch as layers of the trees of C95 to C103, under every schedule. Partial: no interleave below a repeat (a stale state of an interleave, C27, breaks the rewind), rebatch without drop_remainder only when the last batch is not exactly full (C19: a state saved at the end brings an empty batch), nothing raises, states are values (F95)."},
{"property": "C105", "status": "proved", "theorems": ["Grain.dataLoader_workers_invisible", "Grain.dataLoader_workers_same_order"], "note": "The states are those of the data loader (next_index of each worker and the turn), converted by get_state/set_state; restores into used iterators included. Assumes that reading and the user functions succeed. dataLoader_workers_invisible says what is seen for every operation; with Filter and Batch the order depends on the number of workers (C41)."},
{"property": "C106", "status": "proved", "theorems": ["Grain.start_prefetch_invisible", "Grain.interleave_started_ahead_invisible", "Grain.dataLoader_start_prefetch_invisible"], "note": "Trees as in C95-C104 whose prefetches reached by start_prefetch have a positive buffer size (with size 0 the property fails: C56's thread_prefetch_size_zero_race; after set_next_index: C49's thread_prefetch_set_index_race). Interleaves may start the prefetching of further datasets at any time (interleave_started_ahead_invisible). Elements that raise are not covered."},
{"property": "C107", "status": "partial", "theorems": ["Grain.mp_interleave_resumes_partial", "Grain.mp_interleave_warm_resumes_partial", "Grain.mp_interleave_start_state_lost", "Grain.mp_interleave_repeat_fails"], "note": "False in the code (F110): with a cycle length above the number of datasets of a worker, a state saved at the start fails in a new iterator, for all datasets (mp_interleave_start_state_lost), and repeat fails in its second epoch (mp_interleave_repeat_fails, concrete). Proved: all states, when every worker has at least cycle_length datasets and start states are interchangeable; without these conditions, all states saved after as many elements as there are workers. Missing: restoring into used objects."},
{"property": "C108", "status": "proved", "theorems": ["Grain.raising_stack_outcomes", "Grain.raising_stack_no_deadlock", "Grain.raising_stack_terminates", "Grain.raising_stack_reads_in_order", "Grain.raising_stack_exact", "Grain.raising_stack_resumes_after_element"], "note": "Stacks of any depth of thread and process prefetches and of map, map_with_index, limit, filter and batch (with functions that may raise) over any source that goes on after an exception. A process prefetch ends with the first exception until set_state. A checkpoint taken right after an exception may repeat it (F91, F92), which the specification allows."},
{"property": "C109", "status": "partial", "theorems": ["Grain.mp_prefetch_raising_outcomes", "Grain.mp_prefetch_raising_checkpoints", "Grain.workers_outcomes_sublist", "Grain.workers_outcomes_up_to_first_raise", "Grain.workers_outcomes_without_raise", "Grain.workers_outcomes_mem_iff", "Grain.mp_prefetch_loses_elements_of_failed_worker", "Grain.mp_prefetch_any_workers_outcomes", "Grain.mp_prefetch_any_workers_checkpoints", "Grain.any_workers_outcomes_perm"], "note": "Exactly which outcomes the user gets is proved for every schedule (mp_prefetch_raising_outcomes, with workersOutcomes a small specification). The full statement is false of the code: after an exception of one worker its later elements go missing while the others go on (F112, mp_prefetch_loses_elements_of_failed_worker; workers_outcomes_mem_iff says which). Datasets are finite. Workers that give any finite lists, as with filter, batch or pack inside them, are covered by mp_prefetch_any_workers_outcomes and mp_prefetch_any_workers_checkpoints."},
{"property": "C11", "status": "proved", "theorems": ["Grain.getitems_eq_map_getitem", "Grain.getitems_eq_of_reads_ok"], "note": ""},
{"property": "C110", "status": "partial", "theorems": ["Grain.multithread_prefetch_raising_outcomes", "Grain.multithread_prefetch_raising_checkpoints", "Grain.threads_outcomes_perm", "Grain.thread_outcomes_in_order", "Grain.threads_outcomes_up_to_first_raise", "Grain.threads_outcomes_without_raise", "Grain.multithread_prefetch_reorders_after_exception"], "note": "Everything but the order after the first exception is proved; that part is false of the code (F113): the interleave asks the thread that raised once more, so later elements come in another order. What order comes is threadsOutcomes, proved for all datasets, threads and schedules. sequential_slice=True is covered only as far as the slices are again every n-th outcome of some list."},
{"property": "C111", "status": "partial", "theorems": ["Grain.interleave_raising_outcomes_partial", "Grain.interleave_raising_checkpoints_partial", "Grain.interleave_outcomes_perm", "Grain.interleave_outcomes_in_order"], "note": "Proved when all datasets are open together (cycle_length at least the number of datasets), for all finite datasets, layers below, schedules and programs. Missing: fewer slots than datasets, endless datasets (without exceptions: C100; one thread: C26, C27). Below a process prefetch the data of that input end with its first exception (F92)."},
{"property": "C112", "status": "proved", "theorems": ["Grain.close_keeps_state", "Grain.interleave_close_keeps_state", "Grain.save_after_close", "Grain.interleave_save_after_close"], "note": "For every sequence of calls before close, every pipeline of C66 and an interleave of such pipelines. mp_prefetch and the buffer of a thread prefetch are not in this model."},
{"property": "C113", "status": "partial", "theorems": ["Grain.set_state_refuses_iff", "Grain.refused_state_reads_for_ever", "Grain.refused_state_raises_for_ever", "Grain.refused_state_moves_iterator", "Grain.refused_negative_state_reads_extra"], "note": "Which states are refused, and where an accepted one leads: proved. That a refused state changes nothing is false of the code (F114, with a concrete run and for all datasets without missing elements). Negative positions: refused_negative_state_reads_extra."},
{"property": "C12", "status": "proved", "theorems": ["Grain.repeat_len", "Grain.repeat_getitem", "Grain.repeat_epoch", "Grain.repeat_resumes_exactly", "Grain.repeat_forever_resumes_exactly", "Grain.repeat_forever_empty_hangs"], "note": "repeat(None) of an empty stream hangs; proved as repeat_forever_empty_hangs."},
{"property": "C13", "status": "proved", "theorems": ["Grain.zip_len_iff", "Grain.zip_len_error", "Grain.zip_getitem", "Grain.zip_resumes_exactly", "Grain.zip_strict_raises"], "note": ""},
{"property": "C14", "status": "proved", "theorems": ["Grain.filter_getitem", "Grain.filter_resumes_exactly", "Grain.filterStream_filter"], "note": "For the default options (no raise threshold, see C45)."},
{"property": "C15", "status": "partial", "theorems": ["Grain.flatMap_getitem", "Grain.flatMap_len", "Grain.flatMap_epoch", "Grain.flatMap_resumes_exactly_partial", "Grain.flatMap_error_repeats_elements"], "note": "If the function raises, the iterator returns earlier outputs again; proved for functions that do not raise."},
{"property": "C16", "status": "proved", "theorems": ["Grain.random_map_draws_fixed", "Grain.random_map_generators_exclusive", "Grain.random_map_reset_possible", "Grain.generators_distinct", "Grain.worker_generator_numbers", "Grain.randomMap_resumes_exactly"], "note": "Philox itself is a parameter; the user function is any function of the generator that keeps its key."},
{"property": "C17", "status": "proved", "theorems": ["Grain.map_resumes_exactly", "Grain.randomMap_resumes_exactly", "Grain.mapWithIndex_resumes_exactly", "Grain.limit_resumes_exactly", "Grain.limitStream_take"], "note": ""},
{"property": "C18", "status": "proved", "theorems": ["Grain.filter_resumes_exactly"], "note": "For the default options (no raise threshold, see C45)."},
{"property": "C19", "status": "partial", "theorems": ["Grain.batch_resumes_exactly", "Grain.rebatch_resumes_exactly_partial", "Grain.rebatch_end_spurious_batch"], "note": "Batch proved. Rebatch is false of the code at the end of the data when the last batch is full and drop_remainder is False."},
{"property": "C20", "status": "partial", "theorems": ["Grain.flatMap_resumes_exactly_partial", "Grain.flatMap_end_restored_into_used", "Grain.flatMap_error_repeats_elements"], "note": "False of the code for end-of-data states restored into used iterators, and after exceptions of the user function."},
{"property": "C21", "status": "proved", "theorems": ["Grain.repeat_resumes_exactly", "Grain.repeat_forever_resumes_exactly", "Grain.repeat_forever_empty_hangs"], "note": ""},
{"property": "C22", "status": "partial", "theorems": ["Grain.cache_resumes_exactly_before_end", "Grain.cache_resumes_exactly_partial", "Grain.cache_restored_into_used_wrong"], "note": "False of the code for restores into used iterators after the end was reached."},
{"property": "C23", "status": "partial", "theorems": ["Grain.reshuffleWindow_spec", "Grain.windowShuffle_resumes_exactly_partial", "Grain.windowStream_windows", "Grain.windowShuffle_seed_overflow"], "note": "Seed + number of windows must be below 2^32 (the code raises otherwise), window lengths 4^j+1, j>=8 are not permuted (C02)."},
{"property": "C24", "status": "proved", "theorems": ["Grain.mix_resumes_exactly", "Grain.mix_resumes_exactly_prefix", "Grain.mix_exact_per_period", "Grain.mix_bounded_drift"], "note": ""},
{"property": "C25", "status": "proved", "theorems": ["Grain.zip_resumes_exactly", "Grain.zip_strict_raises"], "note": ""},
{"property": "C26", "status": "proved", "theorems": ["Grain.interleave_elements", "Grain.interleave_elements_prefix", "Grain.interleave_cycle_one", "Grain.interleave_cycle_all", "Grain.interleave_no_datasets"], "note": "For every positive number of datasets and positive cycle length; with no datasets the code raises IndexError (interleave_no_datasets). Prefetching of upcoming iterators (make_iter_buffer_size, num threads) is performance only and not modelled."},
{"property": "C27", "status": "partial", "theorems": ["Grain.interleave_resumes_exactly_fresh", "Grain.interleave_resumes_exactly_partial", "Grain.interleave_save_after_restore_loses_data", "Grain.repeat_interleave_loses_data", "Grain.repeat_interleave_wrong_elements"], "note": "Full statement false of the code. Proved: all histories with restores into new iterators, and restores into used iterators when no state is saved before the next restart. Missing: saves after a restore into a used iterator (loses data) and repeat over interleave with in-memory states (aliasing); both have witnesses."},
{"property": "C28", "status": "proved", "theorems": ["Grain.prefetch_position_exact", "Grain.prefetch_resumes_exactly", "Grain.prefetch_until_error_partial"], "note": "prefetch_position_exact covers states, indices and changes of settings together, sparse datasets included: state and index are the position in the random access dataset."},
{"property": "C29", "status": "proved", "theorems": ["Grain.thread_prefetch_invisible", "Grain.thread_prefetch_no_deadlock", "Grain.thread_prefetch_terminates", "Grain.thread_prefetch_close_stops", "Grain.thread_prefetch_resumes_exactly", "Grain.thread_prefetch_buffer_bound"], "note": "Transition system of the two threads; all schedules, finite and endless parents, reads that fail. start_prefetch with buffer size 0 is C56."},
{"property": "C30", "status": "partial", "theorems": ["Grain.process_prefetch_exact", "Grain.process_prefetch_no_deadlock", "Grain.process_prefetch_terminates", "Grain.process_prefetch_exact_with_failures", "Grain.process_prefetch_failure_reported_partial", "Grain.process_prefetch_failure_reported_no_restore", "Grain.process_prefetch_close_stops", "Grain.process_prefetch_buffer_bound", "Grain.process_prefetch_failure_not_reported", "Grain.process_prefetch_set_state_error_not_reported", "Grain.process_prefetch_start_failure_not_reported", "Grain.process_prefetch_start_failure_reported"], "note": "Elements after restores: proved for every schedule. Failure reporting is false of the code when a restore is pending (two counterexamples, F13, and for failures at the start of the worker a theorem for all pipelines and schedules, F111); otherwise proved."},
{"property": "C31", "status": "partial", "theorems": ["Grain.mp_independent_of_workers_partial", "Grain.parallel_pipeline_order_partial", "Grain.parallel_one_worker", "Grain.interleave_everyNth", "Grain.mp_sparse_same_elements", "Grain.mp_sparse_order_depends_on_workers", "Grain.mp_map_with_index_depends_on_workers", "Grain.parallel_shared_zip_loses", "Grain.parallel_limit_multiplies", "Grain.parallel_batch_depends_on_workers"], "note": "Pipelines = map, random_map and zip over random access datasets, each dataset object used once, then mp_prefetch or multithread_prefetch with any number of workers; one worker: any pipeline. False (counterexamples) with filtering (order; same multiset proved), map_with_index, limit, batch and dataset objects used twice. The states of workers that have not delivered yet are the subject of C107."},
{"property": "C32", "status": "proved", "theorems": ["Grain.first_fit_packing", "Grain.first_fit_no_loss", "Grain.featHolds_disjoint", "Grain.packing_index_error_after_long_example", "Grain.grouped_rows_ascending"], "note": "all streams of examples that fit; all bins, lengths, alignments, limits, shuffling modes"},
{"property": "C33", "status": "partial", "theorems": ["Grain.best_fit_packing", "Grain.best_fit_packing_partial", "Grain.best_fit_no_loss", "Grain.best_fit_loose_no_loss", "Grain.best_fit_exceeds_max_sequences"], "note": "no loss, no overlap and best row for all examples; max_sequences_per_bin holds only if every example has a token (counterexample F15)"},
{"property": "C34", "status": "proved", "theorems": ["Grain.first_fit_packing", "Grain.best_fit_packing"], "note": "last conjunct of each: ResumesExactly for every history of next/save/restore, over error-free inputs, with every shuffling mode"},
{"property": "C35", "status": "partial", "theorems": ["Grain.cts_content_partial", "Grain.cts_repeats_token", "Grain.cts_repeats_scalar", "Grain.cts_bos_fails", "Grain.cts_bos_in_padding"], "note": "proved for streams that satisfy CtsGood (single feature or features in lock step, or no feature longer than its target); false otherwise: counterexamples with features of different lengths, scalar features, BOS with empty sequences"},
{"property": "C36", "status": "partial", "theorems": ["Grain.cts_resumes_exactly", "Grain.cts_content_partial", "Grain.cts_json_resumes_partial", "Grain.cts_json_loses_element", "Grain.cts_json_loses_row"], "note": "in-memory states: proved for all configurations and inputs; JSON: proved for states with a remainder, false for the others (counterexamples)"},
{"property": "C37", "status": "partial", "theorems": ["Grain.pack_and_batch_partial", "Grain.first_fit_no_loss", "Grain.pack_and_batch_empty", "Grain.pack_and_batch_second_call"], "note": "Proved for all non-empty inputs of a new operation, all batch sizes > 0, length limits and max_sequences_per_bin > 0. False for the empty input (pack_and_batch_empty: AttributeError) and for a second call of the same operation (pack_and_batch_second_call: emits the last batch again)."},
{"property": "C38", "status": "proved", "theorems": ["Grain.elastic_map_shard", "Grain.elastic_map_shard_count", "Grain.elastic_map_history", "Grain.elastic_map_consecutive", "Grain.elastic_map_parts", "Grain.elastic_map_rejects", "Grain.elastic_map_uneven_end"], "note": "Any sequence of restarts with any shard counts and global batch sizes, from the checkpoint of any shard. The end of the data is described exactly (elastic_map_shard_count); there the shards do not stop together (elastic_map_uneven_end, finding F21). Multiprocessing is not part of this model."},
{"property": "C39", "status": "partial", "theorems": ["Grain.elastic_redistribute", "Grain.elastic_owner", "Grain.elastic_hostLen", "Grain.elastic_exactly_once_partial", "Grain.elastic_exactly_once_long_partial", "Grain.elastic_rereads_used_up", "Grain.elastic_rereads_used_up_hosts"], "note": "Redistribution of states is proved in full. Exactly-once reading fails when a checkpoint has a used-up dataset that comes after all datasets its host opens first (elastic_rereads_used_up); proved for all histories of resizes without such checkpoints."},
{"property": "C40", "status": "partial", "theorems": ["Grain.sequential_rejects", "Grain.sequential_entries", "Grain.sequential_shard_reads", "Grain.sequential_exactly_once", "Grain.indexSampler_rejects", "Grain.indexSampler_ok", "Grain.indexSampler_shard_epochs", "Grain.indexSampler_exactly_once_partial", "Grain.indexSampler_loader_sharded", "Grain.indexSampler_uneven_epochs", "Grain.indexSampler_uneven_witness", "Grain.indexSampler_empty_shard"], "note": "SequentialSampler: in full. IndexSampler: every shard goes through its own records epoch by epoch (all cases); exactly once over all shards when the split is even or there is one epoch; with an uneven split and several epochs the property is false (indexSampler_uneven_epochs), an empty shard fails (indexSampler_empty_shard). Shuffled sampler under the shuffle's own hypothesis (C02)."},
{"property": "C41", "status": "partial", "theorems": ["Grain.dataLoader_resumes_exactly", "Grain.dataLoader_worker_independent_partial", "Grain.dataLoader_filter_depends_on_workers", "Grain.dataLoader_batch_depends_on_workers", "Grain.dataLoader_rejects_foreign", "Grain.dataLoader_sequential_exactly_once", "Grain.dataLoader_legacy_resumes_exactly_partial", "Grain.legacy_operation_before_end", "Grain.legacy_map_before_end", "Grain.legacy_operation_stays_ended", "Grain.legacy_operation_error_ends", "Grain.dataLoader_flatMap_resumes_exactly_partial", "Grain.dataLoader_flatMap_depends_on_workers", "Grain.dataLoader_random_map_after_flatMap", "Grain.dataLoader_random_map_after_flatMap_no_rng", "Grain.dataLoader_flatMap_accepts_foreign", "Grain.legacy_operation_error_is_final"], "note": "Round trip of checkpoints for all shards, worker counts, transformations and call sequences: proved. With legacy operations and FlatMap anywhere: proved for states restored into a new iterator, any number of times; false for set_state on an iterator that has ended (witness). Independence of the worker count: proved for maps and random maps, false for Filter, Batch and FlatMap (witnesses). Foreign states are rejected, except with FlatMap (witness). User functions that raise in workers: C109 for mp_prefetch; not covered for the DataLoader's own states. Not covered: user-defined Operation classes. Workers as processes under every schedule: C105."},
{"property": "C42", "status": "proved", "theorems": ["Grain.samplerSize_probed", "Grain.samplerSize_len", "Grain.samplerSize_raises"], "note": "The binary search over [0, sys.maxsize)."},
{"property": "C43", "status": "partial", "theorems": ["Grain.vq_fifo", "Grain.vq_bound", "Grain.vq_put_within_limit", "Grain.vq_no_lost_wakeup", "Grain.vq_comes_to_rest", "Grain.vq_blocked_proceeds", "Grain.mq_fifo", "Grain.mq_blocked_full", "Grain.mq_bound_partial", "Grain.mq_bound_never_raised", "Grain.mq_bound_false", "Grain.mq_unbounded", "Grain.vq_bound_fixed"], "note": "VariableSizeQueue: proved in full (order, bound, no lost wakeup, blocked producers proceed) for all histories of any number of threads. VariableSizeMultiprocessingQueue: order per process and held-back-only-when-full for all histories; the bound is false when the limit is raised while an earlier lower limit is still pending (mq_bound_false, mq_unbounded: no bound at all) and proved for all other histories."},
{"property": "C44", "status": "proved", "theorems": ["Grain.merge_precedence", "Grain.merge_assoc", "Grain.merge_identity", "Grain.options_effective", "Grain.options_independent", "Grain.options_last_wins", "Grain.options_grouping"], "note": "Merging, and the spread of the merged options to every iterator of a pipeline of any shape (context objects modelled with their aliasing). Not covered: the copies made for worker processes."},
{"property": "C45", "status": "partial", "theorems": ["Grain.threshold_exact_partial", "Grain.threshold_error_repeats", "Grain.threshold_zero_disables", "Grain.filter_below_threshold", "Grain.filter_raises_at_threshold", "Grain.filter_threshold_not_checkpointed"], "note": "Exact up to and including the first error, at the level of the checker and of the filter iterator. False beyond: after an error the counters are not reset; the counters are not part of checkpoints; a threshold of 0 disables the check. Ratios are compared exactly; that the float comparison agrees is C69; the suppression of repeated log messages is not modelled."},
{"property": "C46", "status": "proved", "theorems": ["Grain.unflatten_flatten", "Grain.unflatten_as", "Grain.unflatten_as_short", "Grain.map_structure_spec", "Grain.flatten_injective", "Grain.flatten_with_path_spec", "Grain.map_structure_with_path_spec", "Grain.map_structure_two", "Grain.map_structure_up_to_spec", "Grain.map_structure_truncates", "Grain.assert_same_structure_leaf", "Grain.assert_same_structure_one_sided", "Grain.assert_same_structure_named", "Grain.same_structure_keys"], "note": "the pure Python implementations used when JAX is not installed, for all trees of sequences (list, tuple, namedtuple) and mappings (dict, defaultdict); observations: map_structure truncates unequal sequences, assert_same_structure accepts a leaf against anything"},
{"property": "C47", "status": "proved", "theorems": ["Grain.shared_memory_in_one_place", "Grain.shared_memory_all_released", "Grain.shared_memory_deleted_once", "Grain.shared_memory_deleted_finally"], "note": "For runs in which the worker process is not killed from outside; any number of blocks per element, each in one leaf (element_memory_released shows that copy_to_shm gives such entries)."},
{"property": "C48", "status": "proved", "theorems": ["Grain.procFile_injective", "Grain.shardFile_injective", "Grain.shardFile_ne_procFile", "Grain.checkpoint_restores_saved", "Grain.checkpoint_other_count_detected", "Grain.checkpoint_elastic_shards", "Grain.elastic_restore_without_checkpoint", "Grain.reused_directory_restores_old", "Grain.globProcess_iff"], "note": "For all process counts, indices, texts and all orders of the single file writes into an empty directory. Outside of that: a directory that is used again with another process count keeps the old files (reused_directory_restores_old), and an elastic iterator does not notice a missing checkpoint (elastic_restore_without_checkpoint)."},
{"property": "C49", "status": "partial", "theorems": ["Grain.next_index_exact_partial", "Grain.thread_prefetch_next_index_partial", "Grain.thread_prefetch_next_index_terminates", "Grain.process_prefetch_next_index_partial", "Grain.process_prefetch_next_index_terminates", "Grain.next_index_sparse", "Grain.next_index_sparse_map_with_index", "Grain.next_index_drop_remainder", "Grain.next_index_end_of_batches", "Grain.next_index_interleave_end", "Grain.thread_prefetch_set_index_race", "Grain.thread_prefetch_next_index_sparse", "Grain.process_prefetch_next_index_sparse"], "note": "Proved for every history over dense random access datasets under map, random_map, map_with_index, limit and batch in any order, and under thread and process prefetch for every schedule; at the end of the data only when batch sizes divide the number of elements. False in general (F40-F42, F48), shown by counterexamples."},
{"property": "C50", "status": "proved", "theorems": ["Grain.range_rejects_iff", "Grain.range_epoch", "Grain.range_setSlice_again", "Grain.range_worker_slices"], "note": ""},
{"property": "C51", "status": "partial", "theorems": ["Grain.prefetch_until_error_partial", "Grain.read_error_shifts_stream"], "note": "False of the code; the negation is proved, and independence of the buffer size up to the first error."},
{"property": "C52", "status": "proved", "theorems": ["Grain.perEpochSeed_range_inj", "Grain.shuffledIndex_uses_perEpochSeed", "Grain.transformation_seed_range"], "note": ""},
{"property": "C53", "status": "partial", "theorems": ["Grain.pipeline_resumes_exactly", "Grain.Pipe.resumes"], "note": "Proved for all pipelines over the streams on which each single transformation is correct (C19, C20, C22 name the exceptions). Pipelines that contain interleaves: C89; under every schedule of threads and processes: C95-C106."},
{"property": "C54", "status": "partial", "theorems": ["Grain.worker_slices_partition_partial", "Grain.shared_range_kept", "Grain.shared_prefetch_loses", "Grain.shared_source_loses"], "note": "proved for pipelines that use each dataset object once (ranges may be shared); false for an object used twice: it is sliced twice in place"},
{"property": "C55", "status": "partial", "theorems": ["Grain.mix_by_name", "Grain.mix_by_name_partial", "Grain.mix_by_name_order"], "note": "holds with JAX (sorted keys) and, without JAX, for dictionaries with the same key order; false otherwise (mix_by_name_order)"},
{"property": "C56", "status": "partial", "theorems": ["Grain.thread_prefetch_start_invisible_partial", "Grain.thread_prefetch_size_zero_race", "Grain.thread_prefetch_set_index_race"], "note": "Proved for buffer sizes >= 1 and calls other than set_next_index; false for size 0 (witness): start_prefetch starts the producer although prefetching is disabled, and __next__ reads the parent beside it; and false after set_next_index (witness): get_state reads the parent beside the producer. Whole trees of layers are C106."},
{"property": "C57", "status": "partial", "theorems": ["Grain.rebatch_features_partial", "Grain.rebatch_mixes_features"], "note": "proved for elements whose mappings list their keys in the same order (or with JAX); without JAX another key order mixes features (rebatch_mixes_features)"},
{"property": "C58", "status": "partial", "theorems": ["Grain.sequential_slice_partial", "Grain.sequential_slice_repeat", "Grain.sequential_slice_slice", "Grain.sequential_slice_step"], "note": "proved for pipelines of map, filter and shuffle over a source or range (shuffle lengths as in C02); false with repeat or slice, which keep the length of the unsliced dataset"},
{"property": "C59", "status": "partial", "theorems": ["Grain.elastic_above_refines", "Grain.holdsNothing_id", "Grain.holdsNothing_comp", "Grain.holdsNothing_map", "Grain.holdsNothing_filter", "Grain.holdsNothing_batch", "Grain.elastic_map_filter_above_partial", "Grain.elastic_batch_above_partial", "Grain.elastic_flat_map_loses", "Grain.elastic_window_shuffle_loses", "Grain.elastic_map_with_index_restarts"], "note": "False for transformations that hold elements or counters between two results (F39). Proved for map, filter and batch and compositions of them: the job with transformations returns what they make of the results of the job without."},
{"property": "C60", "status": "proved", "theorems": ["Grain.tfrecord_reads_records", "Grain.tfrecord_truncated", "Grain.tfrecord_damage_unnoticed", "Grain.tfrecord_damaged_length_overflow"], "note": "Holds for all files written completely and for all cut files. Damage other than cutting is not noticed (F43; checksums are ignored, a TODO in the code)."},
{"property": "C61", "status": "partial", "theorems": ["Grain.parquet_reads_rows", "Grain.parquet_files_read_rows", "Grain.parquet_no_row_groups", "Grain.parquet_duplicate_columns", "Grain.parquet_no_files"], "note": "Proved for files with at least one row group and distinct column names; several files: checkpoints restored into new iterators. False otherwise (F44)."},
{"property": "C62", "status": "partial", "theorems": ["Grain.make_batch_rows", "Grain.make_batch_sound", "Grain.make_batch_rejects", "Grain.make_batch_features_common", "Grain.make_batch_drops_features"], "note": "Complete for elements with the same features. Without JAX, sequences of different lengths are batched without an error and lose features (make_batch_drops_features, finding F45)."},
{"property": "C63", "status": "proved", "theorems": ["Grain.batch_and_pad_rows", "Grain.batch_and_pad_rejects"], "note": "All structures, shapes, numbers of elements and pad values, for numpy as described by `Numpy.Lawful`."},
{"property": "C64", "status": "partial", "theorems": ["Grain.shm_batch_same_partial", "Grain.shm_batch_wraps", "Grain.shm_batch_refuses_floats", "Grain.shm_batch_refuses_empty"], "note": "Equal for features of one type that are not empty. False for mixed types and for empty features (finding F46)."},
{"property": "C65", "status": "partial", "theorems": ["Grain.element_spec_map", "Grain.element_spec_iter", "Grain.element_spec_interleave", "Grain.element_spec_refused", "Grain.rebatch_element_spec_partial", "Grain.rebatch_element_spec_wrong", "Grain.mix_element_spec_needs_equal", "Grain.element_spec_thread_prefetch", "Grain.element_spec_process_prefetch"], "note": "Proved for every pipeline of the listed transformations except rebatch, for which the code gives a fixed batch size although the last batch may be smaller (F47): proved for drop_remainder=True and for all batches before the last. Prefetching threads and worker processes: for every schedule and all calls. Dictionary keys are compared in order."},
{"property": "C66", "status": "partial", "theorems": ["Grain.close_releases", "Grain.close_idempotent", "Grain.interleave_close_releases_partial", "Grain.interleave_save_after_close_opens", "Grain.interleave_restore_after_close_opens", "Grain.interleave_kept_iterators_stay_open", "Grain.tfRecord_close_does_nothing", "Grain.elastic_close_does_nothing"], "note": "Proved for pipelines of any depth over map datasets with every transformation except interleave; interleave when nothing but next and close is called after the first close and no used up iterators are kept. The code violates it for interleave otherwise, for file sources and for ElasticIterator (F52, F54, F55). Process prefetch is not included (see C102)."},
{"property": "C67", "status": "partial", "theorems": ["Grain.next_raises_when_closed", "Grain.flatMap_yields_after_close", "Grain.rebatch_yields_after_close", "Grain.windowShuffle_yields_after_close", "Grain.cache_yields_after_close", "Grain.limit_stops_after_close", "Grain.repeat_stops_after_close", "Grain.mix_stops_after_close", "Grain.tfRecord_close_does_nothing", "Grain.elastic_close_does_nothing"], "note": "Proved for map datasets, interleave, thread prefetch with a buffer over anything, and map, random_map, map_with_index, filter, batch, zip above these. The code violates it for the other transformations (F53), file sources and ElasticIterator (F52, F54)."},
{"property": "C68", "status": "partial", "theorems": ["Grain.parallel_same_elements_partial", "Grain.parallel_more_workers_than_datasets", "Grain.parallel_user_source_rejected"], "note": "map, filter, flat_map, repeat over one random access dataset; map, filter and flat_map over interleaved datasets (or Parquet files), not less of them than workers. With more workers than interleaved datasets a worker raises IndexError (counterexample F57); repeat over interleaved datasets loses data (C27). parallelIter leaves out that the start state of a worker is computed in the main process: for interleaved datasets see C107 (F110)."},
{"property": "C69", "status": "partial", "theorems": ["Grain.range_source_is_range_partial", "Grain.batch_length_exact", "Grain.flat_map_length_exact", "Grain.filter_ratio_exact", "Grain.filter_ratio_is_checked", "Grain.range_source_rejects_empty", "Grain.range_source_too_short", "Grain.batch_of_endless_raises", "Grain.batch_length_too_short", "Grain.flat_map_length_overflows", "Grain.len_exact"], "note": "Proved with correctly rounded binary64 arithmetic for all numbers up to 2^53 (flat_map: products below 2^62). False for ranges against the direction of their step, which raise AssertionError instead of being empty; beyond 2^53 lengths are rounded, and repeat().batch(1) has no length."},
{"property": "C70", "status": "partial", "theorems": ["Grain.mix_follows_weights_partial", "Grain.mix_equal_weights", "Grain.mix_zero_weight_refused", "Grain.mix_acceptance", "Grain.mix_drifts_from_weights", "Grain.mix_negative_weights_accepted"], "note": "Proved up to an additional deviation of 1/98 of the share, for weights that are floats between 2^-500 and 2^500. The deviation bounded by the number of datasets is false: weights 3 and 7 become 100 and 233."},
{"property": "C71", "status": "proved", "theorems": ["Grain.parallel_returns_in_order", "Grain.parallel_raises_failure", "Grain.parallel_calls_once", "Grain.parallel_finished_is_over", "Grain.parallel_ends", "Grain.parallel_needs_workers", "Grain.parallel_raises_later_failure"], "note": "Transition system of the calling thread and the pool's threads; holds for every schedule. The documentation's 'first exception' is not part of the claim: parallel_raises_later_failure (F63) shows a schedule raising that of a later failure."},
{"property": "C72", "status": "partial", "theorems": ["Grain.checkpoint_test_sound_partial", "Grain.checkpoint_test_accepts", "Grain.checkpoint_test_misses_end", "Grain.checkpoint_test_misses_used"], "note": "Passing implies exact resumption after a crash at any point before the last element; false of the code for the state after the last element and for used iterators (F64, counterexamples proved)."},
{"property": "C73", "status": "partial", "theorems": ["Grain.workers_fit_budget_partial", "Grain.buffers_fit_budget_partial", "Grain.workers_ignore_budget", "Grain.config_exceeds_budget"], "note": "With enough elements sampled, workers and buffers are within their maxima and each fits the budget up to a relative error of 2^-50, and one more would not. False of the code for short datasets and for workers and buffers together (F65)."},
{"property": "C74", "status": "partial", "theorems": ["Grain.wait_ratios_divide_waiting_time_partial", "Grain.shares_sum_to_one", "Grain.waiting_time_lost"], "note": "Missing: a prefetch whose input has not recorded time (false of the code: its part is lost, waiting_time_lost)."},
{"property": "C75", "status": "partial", "theorems": ["Grain.summary_shows_pipeline_partial", "Grain.workers_in_any_order", "Grain.sorted_by_ratio", "Grain.summary_loses_nodes"], "note": "Missing: workers or interleaved datasets behind an input of zip/mix that is not the last (false of the code: summary_loses_nodes)."},
{"property": "C76", "status": "partial", "theorems": ["Grain.report_counts_each_record_once", "Grain.report_catches_up", "Grain.reports_while_busy_partial", "Grain.two_reporters_crash", "Grain.two_reporters_lose_time", "Grain.reports_stop_after_pause"], "note": "One reporting thread: proved for every schedule. Missing because false of the code: interleaved iterators are reported by two threads, and the thread stops for ever after a pause of two minutes."},
{"property": "C77", "status": "partial", "theorems": ["Grain.interleave_parents_eq", "Grain.interleave_counts_all_partial", "Grain.interleave_forgets"], "note": "Missing: slots that have moved on to another dataset (false of the code: interleave_forgets)."},
{"property": "C78", "status": "partial", "theorems": ["Grain.load_epochs", "Grain.load_every_element_once_per_epoch", "Grain.load_batches", "Grain.load_sharded_partial"], "note": "One shard: in full for every transformation, batch size and number of workers (shuffle lengths as in C02). Several shards: missing are several epochs over records that do not divide evenly, and empty shards (false of the code: indexSampler_uneven_epochs, indexSampler_empty_shard)."},
{"property": "C79", "status": "partial", "theorems": ["Grain.default_seed_nearest", "Grain.default_seed_upstream_irrelevant", "Grain.default_seed_last_seed_wins", "Grain.default_seed_distinct_downstream", "Grain.default_seed_refused_iff", "Grain.explicit_seed_unaffected", "Grain.default_seed_chain_injective", "Grain.default_seed_unique_false", "Grain.default_seed_interleave_false"], "note": "Everything except uniqueness across branches is proved. Two transformations on different branches at the same distance from equal seeds get the same seed (F71), and seeds of interleaved datasets are not seen after the interleave (F72). The hash of numpy SeedSequence is a parameter: distinctness is stated for the words it mixes, with its zero padding."},
{"property": "C80", "status": "partial", "theorems": ["Grain.json_round_trip", "Grain.json_truncated_refused", "Grain.state_round_trip", "Grain.pipeline_text_resumes_exactly", "Grain.pipeline_state_dict", "Grain.pipeline_truncated_refused", "Grain.interleave_text_resumes_partial", "Grain.future_states_lost", "Grain.elastic_text_state_false"], "note": "Proved for every pipeline of the transformations modelled in C53, except that interleave is covered for iterators that were not restored elastically: there the property is false (finding F73)."},
{"property": "C81", "status": "proved", "theorems": ["Grain.async_checkpoint"], "note": "For every pipeline of C80 and every schedule of the background work; load is one step, a directory is saved to once."},
{"property": "C82", "status": "partial", "theorems": ["Grain.interleave_filtered_partial", "Grain.interleave_filtered_chained", "Grain.interleave_nothing_filtered", "Grain.interleave_filtered_loses"], "note": "The full statement is false of the code (F74, interleave_filtered_loses). Proved: for every choice of filtered entries no element is duplicated, reordered or invented, and at the end fewer than cycle_length datasets are unfinished (interleave_filtered_partial), so with cycle length 1 nothing is lost (interleave_filtered_chained); with nothing filtered out the iterator is the one of C12, so nothing is lost there either (interleave_nothing_filtered). States of such iterators are not modelled."},
{"property": "C83", "status": "partial", "theorems": ["Grain.element_crosses_partial", "Grain.element_memory_released", "Grain.view_crosses", "Grain.derived_refused", "Grain.shared_twice_discard_raises", "Grain.copy_failure_leaks"], "note": "Proved for elements of any structure whose leaves are anything but arrays, ordinary arrays, or whole arrays in shared memory. False for views of arrays in shared memory (view_crosses: wrong data arrive), arrays derived from them (derived_refused), elements with the same shared array twice (shared_twice_discard_raises) and when shared memory runs out (copy_failure_leaks)."},
{"property": "C84", "status": "partial", "theorems": ["Grain.batch_value_same", "Grain.batches_read_partial", "Grain.batches_leak", "Grain.batch_rows_cross"], "note": "The values of the batches stay the same (batch_value_same). Resources: proved for datasets on which mp_prefetch was not called with two or more workers (batches_read_partial), false otherwise (batches_leak). Other pipelines on the dataset: false (batch_rows_cross). One feature per element; batches of the default batch function."},
{"property": "C85", "status": "partial", "theorems": ["Grain.map_failure_partial", "Grain.mapWithIndex_failure_partial", "Grain.randomMap_failure_partial", "Grain.filter_failure_partial", "Grain.limit_failure_partial", "Grain.repeat_failure_partial", "Grain.flatMap_failure_partial", "Grain.batch_with_failures", "Grain.batch_failure_partial", "Grain.batch_failure_loses", "Grain.rebatch_failure_loses", "Grain.zip_failure_misaligns", "Grain.mix_failure_ends", "Grain.windowShuffle_failure_unshuffled", "Grain.flatMap_checkpoint_after_failure_loses", "Grain.cache_failure_partial", "Grain.cache_failure_repeats", "Grain.thread_prefetch_failure_partial", "Grain.thread_prefetch_failure_repeats", "Grain.first_fit_failure_partial", "Grain.best_fit_failure_partial", "Grain.interleave_elements", "Grain.process_prefetch_failure_ends", "Grain.process_prefetch_failure_repeats"], "note": "holds for map, map_with_index, random_map, filter, limit, repeat, interleave (with exact checkpoints), and for flat_map, cache, thread prefetching and packing (without checkpoints); false of process prefetching, batch, rebatch, zip, mix and window_shuffle, and of checkpoints of flat_map, cache and thread prefetching taken after an exception (F77-F82, F90, F91); process prefetching ends the data at the first failing element (F92); stacks of threads, processes, mp_prefetch, multithread_prefetch and interleaves over raising elements: C108-C111"},
{"property": "C86", "status": "partial", "theorems": ["Grain.map_commutes_iff", "Grain.filter_commutes", "Grain.repeat_commutes", "Grain.random_map_commutes_partial", "Grain.map_with_index_commutes_partial", "Grain.batch_commutes_partial", "Grain.flat_map_commutes_partial", "Grain.zip_commutes_partial", "Grain.mix_commutes_partial", "Grain.random_map_sparse_differs", "Grain.map_with_index_sparse_differs", "Grain.batch_sparse_differs", "Grain.flat_map_fan_out_differs", "Grain.flat_map_none_differs", "Grain.zip_sparse_differs", "Grain.mix_longer_after", "Grain.mix_sparse_differs"], "note": "For filter, repeat and map (iff the function never returns None) all histories of calls agree; for random_map, map_with_index, batch and zip they agree on datasets without filtered elements, and `_differs` theorems show that they do not on others. flat_map: same elements, with exact resumption except at the end of the data (F-row of C21). mix: prefix. User functions that raise are not covered here (C85)."},
{"property": "C87", "status": "proved", "theorems": ["Grain.internal_iff", "Grain.filterTraceback_eq", "Grain.filterTraceback_keeps_user_frames", "Grain.hideFrames_eq", "Grain.exception_arrives", "Grain.exception_untouched", "Grain.simplified_once", "Grain.full_traceback_in_cause", "Grain.wrapped_once", "Grain.worker_traceback_places", "Grain.worker_traceback_sublist", "Grain.worker_traceback_names", "Grain.note_per_thread"], "note": "Which frames Python puts into a traceback is part of the model's assumptions (DESIGN). An exception that passes filtered calls in two threads gets the note twice (note_per_thread, F89). Whether a frame of a worker's traceback can be rebuilt (compile) is a parameter."},
{"property": "C88", "status": "partial", "theorems": ["Grain.apply_append", "Grain.apply_calls", "Grain.apply_resumes_exactly", "Grain.apply_single", "Grain.apply_refuses", "Grain.dataLoader_as_apply", "Grain.apply_two_classes", "Grain.apply_differs_from_loader", "Grain.apply_other_classes", "Grain.none_differs"], "note": "Proved for objects of one class and functions that neither raise nor return None; data loaders with at most one worker, without RandomMap (whose generators differ by design). False for objects of several classes and where functions return None (F93, F94); TfRandomMap and MapWithIndex are accepted by one of the two only."},
{"property": "C89", "status": "partial", "theorems": ["Grain.interleaved_pipeline_resumes_partial", "Grain.Interleaved.exists", "Grain.Interleaved.contents", "Grain.Interleaved.one", "Grain.Interleaved.all", "Grain.flat_map_interleave_wrong_elements", "Grain.window_shuffle_interleave_wrong_elements", "Grain.repeat_interleave_loses_data", "Grain.flat_map_first_restart_partial", "Grain.window_shuffle_first_restart_partial", "Grain.cts_first_restart_partial", "Grain.cts_interleave_wrong_tokens", "Grain.flat_map_state_after_read", "Grain.window_shuffle_state_after_read"], "note": "Proved for interleaves nested to any depth below map, random_map, map_with_index, limit, filter, batch, rebatch, zip, mix and packing, over datasets built with any transformation of C53. flat_map, window_shuffle and concat-then-split keep the state object the interleave writes into: proved for states taken before the first restart, false for states taken after one (witnesses); false for repeat; cache above an interleave is not covered."},
{"property": "C90", "status": "partial", "theorems": ["Grain.thread_prefetch_ahead", "Grain.thread_prefetch_queue_bound", "Grain.thread_prefetch_reads", "Grain.thread_prefetch_ahead_sharp", "Grain.thread_prefetch_zero_unbounded", "Grain.process_prefetch_blocks_bound", "Grain.process_prefetch_reads", "Grain.process_prefetch_reads_sharp", "Grain.map_prefetch_pending", "Grain.map_prefetch_ahead"], "note": "False for a thread prefetching iterator whose buffer size is 0 (F98), so the thread theorems assume a positive size. Process prefetching: blocks of shared memory without crashes of the worker, elements read also with crashes. The total for mp_prefetch with several workers and for interleave is C101."},
{"property": "C91", "status": "partial", "theorems": ["Grain.named_mix_restarts", "Grain.named_mix_no_loss", "Grain.named_mix_weights", "Grain.named_mix_restore_keeps", "Grain.named_mix_used_not_reset", "Grain.named_mix_stays_over"], "note": "Restarts are into new iterators: in a used one a component without a state is not reset (F99), and a mixture that has ended stays over (F100, part of the ideal job). No loss and weights are stated for endless components; named_mix_restarts covers finite and failing ones."},
{"property": "C92", "status": "partial", "theorems": ["Grain.epochs_equal", "Grain.epochs_same_data", "Grain.mix_epochs_differ", "Grain.select_repeat_raises"], "note": "False for a mix (F101) and for selection maps that answer only indices below their length (F102). Window shuffling after repeat: F2. Lengths excepted by C02 (F1) are excluded by ShuffleLen. The experimental batched read in batch is not included."},
{"property": "C93", "status": "partial", "theorems": ["Grain.pipeline_reads", "Grain.filter_reads_exactly", "Grain.limit_reads_no_more", "Grain.cache_restore_reads_all"], "note": "Proved for all pipelines of map, random_map, map_with_index, limit, filter, batch, flat_map, rebatch, packing, repeat, window_shuffle, zip and mix, all histories and all states. False for cache (F103, cache_restore_reads_all). Without a bound for one call of next (they depend on the data): filter (but exactly up to the element returned), flat_map with empty results, rebatch, packing. Missing: concat-then-split, interleave, and prefetching, which reads ahead (C90)."},
{"property": "C94", "status": "partial", "theorems": ["Grain.shared_source_made_iff", "Grain.shared_source_reads_partial", "Grain.shared_source_bytes", "Grain.shared_source_loses_zeros", "Grain.shared_source_cuts_strings", "Grain.shared_source_negative_index"], "note": "False as stated: zeros at the end of bytes and strings are lost (F104), strings outside ASCII can be cut (F105), indices below -len return unrelated values (F106). Proved: exactly which sources can be made; an element read with an index in range (also negative) equals the one given iff it does not end in zeros and fits in the bytes reserved for it; too large an index raises IndexError; the same in every attached process. The inherited ShareableList of CPython 3.11 is modelled byte by byte; assignment to elements is not modelled."},
{"property": "C95", "status": "proved", "theorems": ["Grain.stacked_threads_invisible", "Grain.stacked_threads_no_deadlock", "Grain.stacked_threads_terminate", "Grain.stacked_threads_complete", "Grain.device_put_invisible"], "note": "A layer is a labelled transition system; following a stream (with progress and termination) is preserved by a thread prefetch over any such layer and by map, map_with_index, limit and batch, so it holds for stacks of any height. Elements that raise are the subject of C29 (one layer)."},
{"property": "C96", "status": "proved", "theorems": ["Grain.stacked_read_ahead", "Grain.device_put_read_ahead"], "note": "Over the model of C95, for sources whose state tells their position."},
{"property": "C97", "status": "proved", "theorems": ["Grain.process_prefetch_invisible", "Grain.stacked_threads_invisible", "Grain.stacked_threads_no_deadlock", "Grain.stacked_threads_terminate", "Grain.stacked_threads_complete"], "note": "One worker per process prefetch. Elements that raise, close, index calls and the transfer through shared memory are outside this model (C30 has index calls for one layer, C83 the transfer); several workers are C31. Trees in which a process prefetch is below another are included, although Python refuses to start a process in a worker (daemon=True, process_prefetch.py:472)."},
{"property": "C98", "status": "proved", "theorems": ["Grain.mix_of_stacks_invisible", "Grain.zip_of_stacks_invisible", "Grain.mixSel_eq", "Grain.stacked_threads_invisible", "Grain.stacked_threads_no_deadlock", "Grain.stacked_threads_terminate", "Grain.stacked_threads_complete"], "note": "A layer with several inputs over any layers (multiOver); following a stream with progress and termination is preserved, so the theorems of C95 hold for trees. A strict zip of unequal lengths (ValueError) and elements that raise are outside; the thresholds of filter are C20's. Trees in which a process prefetch is below another are included, although Python refuses to start a process in a worker (daemon=True, process_prefetch.py:472)."},
{"property": "C99", "status": "partial", "theorems": ["Grain.elastic_rejects", "Grain.elastic_map_accepts_iff", "Grain.elastic_accepts_iff", "Grain.elastic_accepts_thread_prefetch", "Grain.elastic_prefetch_loses", "Grain.elastic_parquet_host_dependent"], "note": "False as stated: thread prefetches above the interleave are accepted and lose elements at a resize (F107), and a host that gets exactly one Parquet file raises while the others work (F108). Proved: exactly which chains of transformations over an interleave or Parquet files are accepted on which host; zip, mix, to_iter_dataset and MapDataset filters are rejected anywhere in the graph; a MapDataset is accepted iff it has no filter."}
]}
