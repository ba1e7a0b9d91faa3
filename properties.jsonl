{"id": "C01", "title": "Even split partitions the records across shards", "statement": "For every number of examples n and shard count c>=1, the half-open ranges returned by even_split for shard 0..c-1 are inside [0,n], adjacent and in order. With drop_remainder=False they cover [0,n) exactly, each example belongs to exactly one shard and shard sizes differ by at most one, larger shards first. With drop_remainder=True every shard has exactly n//c examples and only the last n%c examples are dropped.", "quantifier": "all n, all shard counts c>=1, all shard indices, both drop_remainder values", "why_tests_cant": "The identity involves floor division and min over unbounded integers; a test samples a few (n,c).", "anchors": ["grain/_src/core/sharding.py:even_split", "grain/_src/core/sharding.py:ShardOptions"]}
{"id": "C02", "title": "Global shuffle visits every element exactly once per epoch", "statement": "For a dataset of length L, ds.shuffle(seed)[e*L + i] for i in 0..L-1 enumerates the elements of the parent's epoch e, each exactly once, for every epoch e, every seed and every number of cipher rounds; the result depends only on (seed, reseed_each_epoch, epoch, index).", "quantifier": "all lengths below 2^63, all seeds, all epochs, all indices, all round counts", "why_tests_cant": "A permutation of up to 2^63 elements cannot be enumerated; the failing lengths are sparse (4^j+1).", "anchors": ["grain/_src/python/experimental/index_shuffle/index_shuffle.cc:index_shuffle", "grain/_src/python/dataset/transformations/shuffle.py:ShuffleMapDataset"]}
{"id": "C03", "title": "Window shuffle permutes inside each window", "statement": "For MapDataset.window_shuffle(window_size=w) every index is mapped to an index of the same window, distinct indices are mapped to distinct indices, so every epoch contains every element exactly once.", "quantifier": "all dataset lengths, window sizes w>=1, seeds, epochs and indices", "why_tests_cant": "Depends on the arithmetic relation of length and window size for all sizes.", "anchors": ["grain/_src/python/dataset/transformations/shuffle.py:WindowShuffleMapDataset"]}
{"id": "C04", "title": "Mixing consumes each component in order without gaps, in exact proportion", "statement": "In MapDataset.mix with integer proportions w_0..w_{n-1} of sum W, the elements drawn from component i appear in the order 0,1,2,... without gap or repetition, and any W consecutive output positions starting at a multiple of W contain exactly w_i elements of component i.", "quantifier": "all numbers of components, all positive weights, all output positions", "why_tests_cant": "Nested floor arithmetic over unbounded weights and positions.", "anchors": ["grain/_src/python/dataset/transformations/mix.py:_dataset_and_key_of_next_element", "grain/_src/python/dataset/transformations/mix.py:SelectionWithProportionsMap"]}
{"id": "C05", "title": "Mixing keeps every prefix close to the requested proportions", "statement": "After k output elements of a mix the number drawn from component i never exceeds ceil(k*w_i/W) and never is more than (number of components) below k*w_i/W; so the prefix of any length has bounded deviation from the requested proportions.", "quantifier": "all weights, components, prefix lengths", "why_tests_cant": "Bound must hold for every prefix and every weight vector.", "anchors": ["grain/_src/python/dataset/transformations/mix.py:_dataset_and_key_of_next_element"]}
{"id": "C06", "title": "A mixed dataset never repeats a component element within its length", "statement": "The length of MapDataset.mix without repetition is such that, for every index below it, the index requested from component i is below len(component i); so no component wraps round into its second epoch.", "quantifier": "all component lengths, weights and indices below the mixed length", "why_tests_cant": "Rounding argument over unbounded lengths and weights.", "anchors": ["grain/_src/python/dataset/transformations/mix.py:MixedMapDataset", "grain/_src/python/dataset/transformations/mix.py:SelectionWithProportionsMap"]}
{"id": "C07", "title": "Concatenation is list concatenation in every epoch", "statement": "MapDataset.concatenate([d0..dk])[i] for 0<=i<len equals the i-th element of d0++...++dk (components may be empty), and ds[e*len+i] is the corresponding element of the components' epoch e; len is the sum of lengths.", "quantifier": "all lists of component lengths (including empty components), all indices, all epochs", "why_tests_cant": "Binary search over arbitrary length vectors.", "anchors": ["grain/_src/python/dataset/transformations/mix.py:_ConcatSelectionMap", "grain/_src/python/dataset/transformations/mix.py:ConcatenateMapDataset"]}
{"id": "C08", "title": "Dataset slicing is Python sequence slicing", "statement": "ds[start:stop:step] has the length Python's list slicing gives and for every in-range index returns the element list(ds)[start:stop:step] has there, for negative starts, stops and steps and for None bounds; step 0 is rejected. ds.slice(indices) with a sequence (or dataset) of indices returns in every epoch the elements at these positions in the order given.", "quantifier": "all lengths, all start/stop/step including negative, zero and None, all indices", "why_tests_cant": "Combinatorial case split of slice.indices and range length over all integers.", "anchors": ["grain/_src/python/dataset/transformations/slice.py:SliceMapDataset", "grain/_src/python/dataset/dataset.py:MapDataset.slice"]}
{"id": "C09", "title": "Strided worker slices recombine to the original order", "statement": "The slices ds[i::n], i=0..n-1, partition the dataset; reading one element from each slice round robin, skipping exhausted slices, reproduces the original order exactly.", "quantifier": "all datasets, all worker counts n>=1", "why_tests_cant": "Quantifies over every length and worker count including n larger than the dataset.", "anchors": ["grain/_src/python/dataset/transformations/slice.py:SliceMapDataset", "grain/_src/python/dataset/transformations/process_prefetch.py:multiprocess_prefetch", "grain/_src/python/dataset/transformations/interleave.py:InterleaveDatasetIterator"]}
{"id": "C10", "title": "Batching partitions the data", "statement": "For MapDataset.batch(b) of a dataset of length L, concatenating the batches 0..len-1 gives elements 0..L-1 in order (all of them with drop_remainder=False, the first (L//b)*b with drop_remainder=True), every batch but possibly the last has exactly b elements, and batches of later epochs never mix elements of two epochs; an IterDataset.batch does the same on the element stream.", "quantifier": "all lengths, batch sizes b>=1, both drop_remainder values, all epochs", "why_tests_cant": "Ranges over all sizes and epochs.", "anchors": ["grain/_src/python/dataset/transformations/batch.py:BatchMapDataset", "grain/_src/python/dataset/transformations/batch.py:_BatchDatasetIterator"]}
{"id": "C11", "title": "Batched random access agrees with single access", "statement": "For any pipeline of MapDataset transformations and any list of indices, ds._getitems(indices) equals [ds[i] for i in indices], in the same order, including repeated, unordered and out-of-epoch indices.", "quantifier": "all pipelines built from the modelled transformations, all index lists", "why_tests_cant": "Each transformation reimplements _getitems; agreement must hold for every composition and index list.", "anchors": ["grain/_src/python/dataset/dataset.py:MapDataset._getitems", "grain/_src/python/dataset/transformations/mix.py:MixedMapDataset._getitems", "grain/_src/python/dataset/transformations/slice.py", "grain/_src/python/dataset/transformations/batch.py", "grain/_src/python/dataset/transformations/map.py", "grain/_src/python/dataset/transformations/shuffle.py", "grain/_src/python/dataset/transformations/repeat.py", "grain/_src/python/dataset/transformations/zip.py", "grain/_src/python/dataset/transformations/flatmap.py", "grain/_src/python/dataset/transformations/filter.py"]}
{"id": "C12", "title": "Repeat yields whole epochs", "statement": "ds.repeat(n) has length n*len(ds) (capped only by sys.maxsize for infinite repetition) and ds.repeat(n)[e*L+i] is the parent's element i of epoch e when reseed_each_epoch=True and exactly ds[i] when reseed_each_epoch=False; IterDataset.repeat(n) yields the parent's stream n times.", "quantifier": "all lengths, repetition counts, epochs, indices", "why_tests_cant": "Unbounded epochs and lengths.", "anchors": ["grain/_src/python/dataset/transformations/repeat.py:RepeatMapDataset", "grain/_src/python/dataset/transformations/repeat.py:_RepeatDatasetIterator"]}
{"id": "C13", "title": "Zip pairs elements positionally and stops at the shortest or fails in strict mode", "statement": "MapDataset.zip pairs equal indices of parents of equal length, and raises for parents of different lengths; IterDataset.zip yields the pointwise tuples up to the shortest parent, with strict=True a ValueError is raised exactly when the parents' lengths differ.", "quantifier": "all numbers of parents, all parent streams", "why_tests_cant": "The strict check inspects every parent after the first exhausted one; all length combinations matter.", "anchors": ["grain/_src/python/dataset/transformations/zip.py:ZipMapDataset", "grain/_src/python/dataset/transformations/zip.py:_ZipDatasetIterator"]}
{"id": "C14", "title": "Filter keeps exactly the matching elements in order", "statement": "IterDataset.filter yields exactly the subsequence of parent elements satisfying the predicate, in order, each once; MapDataset.filter keeps the indices and returns None exactly where the predicate is false; converting to an IterDataset drops exactly those.", "quantifier": "all predicates and streams", "why_tests_cant": "Universal over predicates and streams.", "anchors": ["grain/_src/python/dataset/transformations/filter.py:_FilterDatasetIterator", "grain/_src/python/dataset/transformations/filter.py:FilterMapDataset", "grain/_src/python/dataset/transformations/prefetch.py:PrefetchDatasetIterator"]}
{"id": "C15", "title": "flat_map yields the concatenation of the fan-outs", "statement": "IterDataset.flat_map yields fan-out lists concatenated in order, with empty fan-outs skipped; MapDataset flat_map of fan-out bound m has length m*len and returns at index i the (i mod m)-th output of parent element i div m or None when there are fewer; more than m outputs is an error.", "quantifier": "all fan-out functions and streams, all indices", "why_tests_cant": "Universal over functions and streams, including empty fan-outs in any position.", "anchors": ["grain/_src/python/dataset/transformations/flatmap.py:FlatMapMapDataset", "grain/_src/python/dataset/transformations/flatmap.py:_FlatMapDatasetIterator"]}
{"id": "C16", "title": "Random maps are a function of seed and global position only", "statement": "The random generator handed to a random_map for the element at position i depends only on (seed, i): it does not depend on access order, thread count, generator reuse, restores or number of workers, and in one run distinct positions below 2^64 get distinct generator states.", "quantifier": "all seeds, positions, access histories, worker counts", "why_tests_cant": "Depends on arbitrary histories of generator checkout and return and on every worker count.", "anchors": ["grain/_src/python/dataset/transformations/map.py:RandomMapMapDataset", "grain/_src/python/dataset/transformations/map.py:RngPool", "grain/_src/python/dataset/transformations/map.py:_RandomMapDatasetIterator"]}
{"id": "C17", "title": "Checkpoints of map-like iterators resume exactly", "statement": "For map, random_map, map_with_index and limit iterators over any correctly checkpointing parent: saving the state at any point and restoring it later, into the same used iterator or a fresh one after a crash, any number of times and in any order, makes the following elements exactly those that followed the save.", "quantifier": "all parents, all histories of next/save/restore/crash", "why_tests_cant": "Histories are unbounded and interleave restores of old checkpoints.", "anchors": ["grain/_src/python/dataset/transformations/map.py:_MapDatasetIterator", "grain/_src/python/dataset/transformations/map.py:_RandomMapDatasetIterator", "grain/_src/python/dataset/transformations/map.py:_MapWithIndexDatasetIterator", "grain/_src/python/dataset/transformations/limit.py:_LimitDatasetIterator", "grain/_src/python/dataset/dataset.py:DatasetIterator"]}
{"id": "C18", "title": "Checkpoints of filter iterators resume exactly", "statement": "As for map iterators, for IterDataset.filter over any correctly checkpointing parent and any predicate, including positions where the next elements are all filtered out.", "quantifier": "all parents, predicates, histories", "why_tests_cant": "Unbounded histories.", "anchors": ["grain/_src/python/dataset/transformations/filter.py:_FilterDatasetIterator"]}
{"id": "C19", "title": "Checkpoints of batch and rebatch iterators resume exactly", "statement": "Restoring a state taken at any point, into the same iterator or a new one, gives exactly the elements (or errors, or the end) that the iterator gave from that point on; this for IterDataset.batch and rebatch over any correctly checkpointing parent, including partially consumed batches and the end of data with and without drop_remainder.", "quantifier": "all parents, batch sizes, histories", "why_tests_cant": "Unbounded histories; the failing restore point is a boundary case.", "anchors": ["grain/_src/python/dataset/transformations/batch.py:_BatchDatasetIterator", "grain/_src/python/dataset/transformations/rebatch.py:_RebatchDatasetIterator"]}
{"id": "C20", "title": "Checkpoints of flat_map iterators resume exactly", "statement": "Restoring a state taken at any point, into the same iterator or a new one, gives exactly the elements (or errors, or the end) that the iterator gave from that point on; this for IterDataset.flat_map over any correctly checkpointing parent, including the middle of a fan-out, empty fan-outs and the end of data, into fresh and used iterators.", "quantifier": "all parents, fan-out functions, histories", "why_tests_cant": "Unbounded histories; the failing case needs an end-of-data state restored into a used iterator.", "anchors": ["grain/_src/python/dataset/transformations/flatmap.py:_FlatMapDatasetIterator"]}
{"id": "C21", "title": "Checkpoints of repeat iterators resume exactly", "statement": "Restoring a state taken at any point, into the same iterator or a new one, gives exactly the elements (or errors, or the end) that the iterator gave from that point on; this for IterDataset.repeat over any correctly checkpointing parent, at any point of any epoch.", "quantifier": "all parents, repetition counts, histories", "why_tests_cant": "Unbounded histories and epochs.", "anchors": ["grain/_src/python/dataset/transformations/repeat.py:_RepeatDatasetIterator"]}
{"id": "C22", "title": "Caching is invisible and its checkpoints resume exactly", "statement": "IterDataset.cache yields exactly the parent's stream whether elements come from the parent or the cache, and checkpoints resume exactly.", "quantifier": "all parents, histories", "why_tests_cant": "Depends on how full the cache was at save and restore time over all histories.", "anchors": ["grain/_src/python/dataset/transformations/cache.py:_InMemoryCacheDatasetIterator"]}
{"id": "C23", "title": "Window shuffling a stream permutes windows and checkpoints exactly", "statement": "IterDataset.window_shuffle yields, window by window, a permutation of the parent's consecutive windows (last one possibly short); a checkpoint inside any window resumes exactly.", "quantifier": "all parents, window sizes, seeds, histories", "why_tests_cant": "Unbounded histories; the window must be refilled and reshuffled identically after restore.", "anchors": ["grain/_src/python/dataset/transformations/shuffle.py:_WindowShuffleDatasetIterator"]}
{"id": "C24", "title": "Mixing streams follows the proportions, stops at the first exhausted component and checkpoints exactly", "statement": "IterDataset.mix draws components in the order prescribed by the proportions, takes each component's elements in order, ends when the component to draw from is exhausted (and stays ended), and checkpoints resume exactly.", "quantifier": "all component streams, weights, histories", "why_tests_cant": "Unbounded histories.", "anchors": ["grain/_src/python/dataset/transformations/mix.py:_MixedDatasetIterator"]}
{"id": "C25", "title": "Checkpoints of zip iterators resume exactly", "statement": "Restoring a state taken at any point, into the same iterator or a new one, gives exactly the elements (or errors, or the end) that the iterator gave from that point on; this for IterDataset.zip over any number of correctly checkpointing parents.", "quantifier": "all parents, histories", "why_tests_cant": "Unbounded histories, unequal parent lengths.", "anchors": ["grain/_src/python/dataset/transformations/zip.py:_ZipDatasetIterator"]}
{"id": "C26", "title": "Interleave yields every element of every dataset exactly once, in per-dataset order", "statement": "InterleaveIterDataset over any list of datasets and any cycle_length yields a sequence in which the elements of each dataset appear all, once, and in order; at most cycle_length datasets are open at a time.", "quantifier": "all lists of datasets, all cycle lengths", "why_tests_cant": "Universal over stream lengths and cycle lengths.", "anchors": ["grain/_src/python/dataset/transformations/interleave.py:InterleaveDatasetIterator"]}
{"id": "C27", "title": "Checkpoints of interleave iterators resume exactly", "statement": "Saving the state at any point and restoring it into a fresh or used iterator makes the following elements exactly those that followed the save, also when an epoch was restarted by repeat in between.", "quantifier": "all datasets, cycle lengths, histories of next/save/restore/crash", "why_tests_cant": "The failures need a restore into a used iterator followed by another save.", "anchors": ["grain/_src/python/dataset/transformations/interleave.py:InterleaveDatasetIterator.get_state", "grain/_src/python/dataset/transformations/interleave.py:InterleaveDatasetIterator.set_state", "grain/_src/python/dataset/transformations/repeat.py:_RepeatDatasetIterator"]}
{"id": "C28", "title": "Prefetching from random access is invisible and checkpoints exactly", "statement": "MapDataset.to_iter_dataset yields exactly the non-None elements of the dataset in index order for every prefetch buffer size and thread count, even when these are changed while running, and get_state/set_state and get/set_next_index agree and resume exactly.", "quantifier": "all datasets, buffer sizes, thread counts, interleavings of resize/next/save/restore", "why_tests_cant": "Histories that mix resizes and restores are unbounded.", "anchors": ["grain/_src/python/dataset/transformations/prefetch.py:PrefetchDatasetIterator"]}
{"id": "C29", "title": "Thread prefetch is invisible under every schedule", "statement": "ThreadPrefetchIterDataset yields exactly the parent's stream in order, ends when it ends, and get_state returned to the user resumes right after the last element the user received, under every interleaving of the producer thread and consumer calls including set_state and stop; stopping always terminates the producer.", "quantifier": "all parents, buffer sizes, interleavings of producer and consumer steps", "why_tests_cant": "Thread schedules cannot be enumerated by tests.", "anchors": ["grain/_src/python/dataset/transformations/prefetch.py:ThreadPrefetchDatasetIterator", "grain/_src/python/dataset/transformations/prefetch.py:_put_iterator_elements_in_buffer"]}
{"id": "C30", "title": "Process prefetch never returns an element from before a restore", "statement": "In a process-prefetched iterator, after set_state(s) the next elements returned are exactly those following s, under every interleaving of worker, request queue and result queue, for any number of set_state calls with any number of elements already in flight; and a worker failure is reported to the user.", "quantifier": "all parents, buffer sizes, interleavings, numbers of restores", "why_tests_cant": "Requires all interleavings of two processes and two queues.", "anchors": ["grain/_src/python/dataset/transformations/process_prefetch.py:ProcessPrefetchDatasetIterator", "grain/_src/python/dataset/transformations/process_prefetch.py:_put_dataset_elements_in_buffer"]}
{"id": "C31", "title": "Multiprocess output does not depend on the number of workers", "statement": "mp_prefetch of an index-based pipeline with n workers yields exactly the sequence a single process yields, for every n>=1; resuming from a checkpoint preserves it.", "quantifier": "all datasets, all worker counts", "why_tests_cant": "Universal over lengths and worker counts.", "anchors": ["grain/_src/python/dataset/transformations/process_prefetch.py:multiprocess_prefetch", "grain/_src/python/dataset/transformations/interleave.py:InterleaveDatasetIterator", "grain/_src/python/dataset/transformations/prefetch.py:_set_slice_iter_dataset"]}
{"id": "C32", "title": "Packing loses, duplicates and overlaps no token (first fit)", "statement": "For any stream of examples that fit, first-fit packing places the tokens of each example, unchanged and contiguous, in exactly one row, in cells no other example uses; segment ids number the examples of a row from 1 and positions count from 0 inside an example, unused cells are padding; every input example occurs in exactly one output batch and batches come in stream order.", "quantifier": "all streams, numbers of packing bins, length limits, alignments", "why_tests_cant": "Universal over streams and configuration.", "anchors": ["grain/_src/python/dataset/transformations/packing_packed_batch.py:FirstFitPackedBatch", "grain/_src/python/dataset/transformations/packing_packed_batch.py:PackedBatch", "grain/_src/python/dataset/transformations/packing.py:PackingDatasetIterator"]}
{"id": "C33", "title": "Best-fit packing respects capacity and sequence limits", "statement": "Best-fit packing has the same no-loss/no-overlap guarantees, chooses among the rows where the example fits one with the least free space, and never exceeds max_sequences_per_bin.", "quantifier": "all streams and configurations", "why_tests_cant": "The limit is enforced through a score mask; failing inputs are zero-length sequences.", "anchors": ["grain/_src/python/dataset/transformations/packing_packed_batch.py:BestFitPackedBatch"]}
{"id": "C34", "title": "Packing checkpoints resume exactly", "statement": "Saving the state of a packing iterator at any row of any batch and restoring it into a fresh iterator yields exactly the remaining rows, with and without row shuffling.", "quantifier": "all streams, configurations, save points", "why_tests_cant": "The restore replays the parent from the start of the batch; all save points matter.", "anchors": ["grain/_src/python/dataset/transformations/packing.py:PackingDatasetIterator.get_state", "grain/_src/python/dataset/transformations/packing.py:PackingDatasetIterator.set_state"]}
{"id": "C35", "title": "Concat-then-split packing outputs the concatenation of the token streams", "statement": "For concat-then-split packing, concatenating the non-padding tokens of the outputs gives exactly the concatenation of the input sequences, cut in pieces of the sequence length (full-length sequences possibly passed through), for each feature; no token is lost or repeated.", "quantifier": "all streams, sequence lengths, feature sets", "why_tests_cant": "Universal over streams; failing inputs need two features of different length that are split twice.", "anchors": ["grain/_src/python/dataset/transformations/packing_concat_then_split.py:_ConcatThenSplitDatasetIterator"]}
{"id": "C36", "title": "Concat-then-split checkpoints resume exactly, also through JSON", "statement": "Saving at any output and restoring (directly, or after serialising the state to JSON as the checkpoint handler does) resumes with exactly the remaining tokens.", "quantifier": "all streams, save points, in-memory and JSON-round-tripped states", "why_tests_cant": "The loss appears only after a JSON round trip of a state without remainder.", "anchors": ["grain/_src/python/dataset/transformations/packing_concat_then_split.py:_ConcatThenSplitDatasetIterator.set_state", "grain/_src/python/checkpoint/handler.py:CheckpointHandler"]}
{"id": "C37", "title": "The pack-and-batch operation loses no example", "statement": "PackAndBatchOperation over any iterator of examples emits batches in which every example occurs exactly once with correct segment ids and positions, and ends without error for every input including the empty one.", "quantifier": "all inputs, batch sizes, length limits", "why_tests_cant": "Universal over inputs; the empty input is an untested boundary.", "anchors": ["grain/_src/python/experimental/example_packing/packing.py:PackAndBatchOperation"]}
{"id": "C38", "title": "Elastic map iterators continue the same global sequence after resharding", "statement": "With an elastic map iterator, stopping after k global batches with s shards and restarting from the checkpoint with any other shard count s' dividing the global batch size, the union of the shards' batches from then on is the sequence of global batches following the k-th, up to the incomplete last one; no element of them is repeated or skipped. This holds over any number of restarts, with any shard counts and global batch sizes and from the checkpoint of any shard.", "quantifier": "all datasets, global batch sizes, shard counts, stop points", "why_tests_cant": "Universal over shard counts and stop points.", "anchors": ["grain/_src/python/dataset/elastic_iterator.py:_ElasticMapDatasetIterator"]}
{"id": "C39", "title": "Elastic shard states are redistributed without loss", "statement": "The mapping from (shard, local iterator index) to global state key is a bijection for every shard count, so restoring with a different shard count gives every saved state to exactly one shard; elements already read before the resize are not read again and no others are lost.", "quantifier": "all shard counts before and after, all numbers of datasets and exhaustion patterns", "why_tests_cant": "Universal over shard counts and exhaustion patterns.", "anchors": ["grain/_src/python/dataset/elastic_iterator.py:ElasticIterDatasetIterator", "grain/_src/python/dataset/transformations/interleave.py:InterleaveDatasetIterator.set_shard_states", "grain/_src/python/checkpoint/elastic_checkpoint.py"]}
{"id": "C40", "title": "Samplers visit every record exactly once per epoch across shards", "statement": "Over all shards, SequentialSampler and IndexSampler produce each record key of each epoch exactly once (minus dropped remainder), with globally unique indices, index i on shard i mod shard_count, and out-of-range indices rejected.", "quantifier": "all record counts, shard counts, epoch counts, drop_remainder, shuffle values", "why_tests_cant": "Universal over sizes; failing cases need several epochs and an uneven split.", "anchors": ["grain/_src/python/samplers.py:SequentialSampler", "grain/_src/python/samplers.py:IndexSampler", "grain/_src/python/samplers.py:_ShardMapDataset"]}
{"id": "C41", "title": "DataLoader checkpoints round-trip for every worker count", "statement": "For every shard, worker count and number of elements consumed, the state saved by the DataLoader iterator restores to the same position: the following elements are those that would have followed; the elements and their order do not depend on the worker count.", "quantifier": "all shard counts/indices, worker counts, positions", "why_tests_cant": "Index encoding over unbounded positions and counts.", "anchors": ["grain/_src/python/data_loader.py:_DataLoaderStateDatasetIterator", "grain/_src/python/data_loader.py:_SamplerMapDataset", "grain/_src/python/operations.py", "grain/_src/python/data_loader.py:_OperationDatasetIterator", "grain/_src/python/data_loader.py:_FlatMapAdapter"]}
{"id": "C42", "title": "Sampler size is found exactly", "statement": "For any sampler that accepts exactly indices 0..n-1 the size determined by probing is n, for every n up to sys.maxsize, 0 included; larger sizes are cut to sys.maxsize.", "quantifier": "all n", "why_tests_cant": "Binary/exponential search over an unbounded range.", "anchors": ["grain/_src/python/data_loader.py:_SamplerMapDataset._sampler_size"]}
{"id": "C43", "title": "Variable-size queues never exceed their capacity", "statement": "A variable-size queue holds at most max(current limit, items present when the limit was lowered) items, delivers items in FIFO order, never loses one and a blocked producer proceeds once there is room, for every history of put, get and set_max_size.", "quantifier": "all histories of put/get/set_max_size by any number of producers and consumers", "why_tests_cant": "Histories are unbounded; failure needs a grow during a pending shrink.", "anchors": ["grain/_src/python/ipc/variable_size_queue.py:VariableSizeMultiprocessingQueue", "grain/_src/python/ipc/variable_size_queue.py:VariableSizeQueue"]}
{"id": "C44", "title": "Dataset options merge with a fixed precedence", "statement": "Merging DatasetOptions keeps explicitly set values, prefers the later-applied options object, falls back to defaults only where neither sets a value, is associative and has the default options as identity, so the result does not depend on how a chain of with_options is grouped.", "quantifier": "all combinations of set/unset fields and chains of any length", "why_tests_cant": "All combinations and chains.", "anchors": ["grain/_src/python/dataset/base.py:DatasetOptions.merge", "grain/_src/python/dataset/dataset.py:WithOptionsIterDataset"]}
{"id": "C45", "title": "Sparse-filter errors are raised exactly when a whole window exceeds the threshold", "statement": "The filter threshold checker warns/raises exactly at the elements ending a complete window of the configured size in which the dropped ratio exceeds the threshold, for every sequence of pass/drop outcomes.", "quantifier": "all sequences of outcomes, thresholds, window sizes", "why_tests_cant": "Unbounded sequences.", "anchors": ["grain/_src/python/dataset/transformations/filter.py:FilterThresholdChecker"]}
{"id": "C46", "title": "Tree flattening round-trips", "statement": "For every nested structure of dicts, lists and tuples, unflatten_as(structure, flatten(structure)) is the structure, map_structure preserves the shape and flatten(map_structure(f, t)) = map f (flatten(t)).", "quantifier": "all nested structures", "why_tests_cant": "Unbounded nesting.", "anchors": ["grain/_src/core/tree_lib.py"]}
{"id": "C47", "title": "Shared-memory blocks are released exactly once", "statement": "Every shared memory block created for an element by a worker is unlinked exactly once, whether the element is returned to the user, skipped because of a restore, or discarded when the iterator stops; and the number of blocks awaiting deletion is bounded.", "quantifier": "all interleavings and histories of element hand-over and stops", "why_tests_cant": "Leak paths depend on schedules.", "anchors": ["grain/_src/python/ipc/shared_memory_array.py", "grain/_src/python/dataset/transformations/process_prefetch.py:_put_dataset_elements_in_buffer", "grain/_src/python/dataset/transformations/process_prefetch.py:ProcessPrefetchDatasetIterator._stop_prefetch"]}
{"id": "C48", "title": "Checkpoint files of different processes do not collide and restore what was saved", "statement": "For every number of processes each process writes and reads its own file name, distinct processes use distinct names, and restoring a checkpoint written with a different process count is detected instead of silently reading other data.", "quantifier": "all process counts and indices", "why_tests_cant": "Universal over counts; depends on decimal formatting being injective.", "anchors": ["grain/_src/python/checkpoint/handler.py:CheckpointHandler", "grain/_src/python/checkpoint/elastic_checkpoint.py"]}
{"id": "C49", "title": "get_next_index and set_next_index agree with iteration", "statement": "For iterators that support it, after set_next_index(i) the element returned is the one returned at position i of a fresh iteration, and get_next_index counts the elements returned so far, through any composition of transformations supporting it.", "quantifier": "all positions, compositions, histories", "why_tests_cant": "Unbounded positions and histories.", "anchors": ["grain/_src/python/dataset/dataset.py:DatasetIterator", "grain/_src/python/dataset/dataset.py:get_next_index", "grain/_src/python/dataset/transformations/prefetch.py", "grain/_src/python/dataset/transformations/map.py", "grain/_src/python/dataset/transformations/batch.py", "grain/_src/python/dataset/transformations/limit.py"]}
{"id": "C50", "title": "Range datasets are Python ranges and their worker slices partition them", "statement": "MapDataset.range(start, stop, step) has Python's range length and elements, for negative steps too; after set_slice for worker w of n the workers' ranges concatenate to the original range.", "quantifier": "all start/stop/step, all worker counts", "why_tests_cant": "Universal over integers.", "anchors": ["grain/_src/python/dataset/transformations/source.py:RangeMapDataset", "grain/_src/python/dataset/transformations/source.py:SourceMapDataset"]}
{"id": "C51", "title": "Read errors do not shift the stream", "statement": "If reading element i raises and the caller continues iterating or checkpoints, the following elements and the checkpoint position are the same for every prefetch buffer size.", "quantifier": "all buffer sizes, positions of the failing element, histories", "why_tests_cant": "Needs an error at an arbitrary buffered position.", "anchors": ["grain/_src/python/dataset/transformations/prefetch.py:PrefetchDatasetIterator.__next__"]}
{"id": "C52", "title": "Seeds stay in range and those of different epochs do not collide", "statement": "The per-epoch seed of a shuffle and the seed a transformation derives from ds.seed are inside [0,2^32) and reproducible functions of the user seed; for a fixed seed the per-epoch seeds of distinct epochs below 2^32 are distinct.", "quantifier": "all seeds and epochs", "why_tests_cant": "Modular arithmetic over 2^32 values.", "anchors": ["grain/_src/python/dataset/transformations/shuffle.py:ShuffleMapDataset", "grain/_src/python/dataset/dataset.py:MapDataset.seed"]}
{"id": "C53", "title": "Checkpoints of whole pipelines resume exactly", "statement": "For a pipeline built from any random access dataset by map, random_map, map_with_index, limit, filter, batch, rebatch, repeat, window shuffle, zip and mix in any order and depth, the elements are those of the corresponding list operations, and any history of next, get_state and set_state (into the same or a new iterator) continues exactly where the state was taken.", "quantifier": "all pipelines, elements, histories", "why_tests_cant": "The space of pipelines and histories is infinite; tests cover single transformations.", "anchors": ["grain/_src/python/dataset/dataset.py:DatasetIterator", "grain/_src/python/dataset/transformations/map.py", "grain/_src/python/dataset/transformations/batch.py", "grain/_src/python/dataset/transformations/repeat.py", "grain/_src/python/dataset/transformations/shuffle.py", "grain/_src/python/dataset/transformations/zip.py", "grain/_src/python/dataset/transformations/mix.py", "grain/_src/python/dataset/transformations/prefetch.py"]}
{"id": "C54", "title": "Worker slices partition every source, also one used several times", "statement": "When a pipeline is sliced for worker w of n, every source in it contributes its w-th part (interleaved: elements w, w+n, ...; sequential_slice: the w-th contiguous part of the even split), nothing else changes, and over all workers every element is read exactly once per use of the source, also when one dataset object is used in several places of the pipeline.", "quantifier": "all pipelines, sources, worker counts and sharing", "why_tests_cant": "Universal over sizes, worker counts and pipeline graphs.", "anchors": ["grain/_src/python/dataset/transformations/source.py:SourceMapDataset.set_slice", "grain/_src/python/dataset/transformations/source.py:RangeMapDataset.set_slice", "grain/_src/python/dataset/transformations/prefetch.py:PrefetchIterDataset.set_slice", "grain/_src/python/dataset/transformations/interleave.py:InterleaveIterDataset.set_slice", "grain/_src/python/dataset/transformations/prefetch.py:_set_slice_iter_dataset"]}
{"id": "C55", "title": "Mixing by name pairs each dataset with its own proportion", "statement": "When MixedIterDataset gets its parents and proportions as dictionaries, each parent is drawn with the proportion stored under the same key, whatever the order in which the dictionaries were written.", "quantifier": "all dictionaries, key orders and proportions", "why_tests_cant": "Universal over insertion orders.", "anchors": ["grain/_src/python/dataset/transformations/mix.py:MixedIterDataset", "grain/_src/core/tree_lib.py:flatten"]}
{"id": "C56", "title": "start_prefetch never changes what an iterator yields", "statement": "Calling start_prefetch at any time (as the checkpoint handler does after a restore) does not change the elements a thread-prefetched iterator returns nor their order, for every prefetch_buffer_size including 0.", "quantifier": "all parents, buffer sizes, programs and schedules", "why_tests_cant": "The failure needs a particular interleaving of two threads.", "anchors": ["grain/_src/python/dataset/transformations/prefetch.py:ThreadPrefetchDatasetIterator.start_prefetch", "grain/_src/python/dataset/transformations/prefetch.py:ThreadPrefetchDatasetIterator.__next__", "grain/_src/python/checkpoint/handler.py:CheckpointHandler.restore"]}
{"id": "C57", "title": "Rebatching keeps the features apart", "statement": "Rebatching concatenates, for each feature, exactly that feature's arrays of the incoming batches in order; the values of one feature never appear in another, whatever the order of the keys in the individual elements.", "quantifier": "all element structures, key orders and batches", "why_tests_cant": "Universal over tree structures and key orders.", "anchors": ["grain/_src/python/dataset/transformations/batch.py:_RebatchDatasetIterator", "grain/_src/core/tree_lib.py:flatten"]}
{"id": "C58", "title": "Sequential slicing of a pipeline keeps its elements", "statement": "mp_prefetch with sequential_slice=True yields, over all workers, exactly the elements of the pipeline, each as often as without workers.", "quantifier": "all pipelines of map datasets, sources and worker counts", "why_tests_cant": "Universal over pipelines, lengths and worker counts.", "anchors": ["grain/_src/python/dataset/transformations/prefetch.py:MultiprocessPrefetchIterDataset", "grain/_src/python/dataset/transformations/source.py:SourceMapDataset.set_slice", "grain/_src/python/dataset/transformations/repeat.py:RepeatMapDataset", "grain/_src/python/dataset/transformations/slice.py:SliceMapDataset"]}
{"id": "C59", "title": "Elastic restarts keep what transformations above the interleave hold", "statement": "When an elastic job over iterator datasets is restored with another number of processes, the outputs before and after the restart are together what the pipeline makes of the elements, none lost: also for transformations applied after the interleave.", "quantifier": "all pipelines above the interleave, datasets, histories of resizes and checkpoints", "why_tests_cant": "Universal over pipelines, checkpoint positions and process counts.", "anchors": ["grain/_src/python/dataset/elastic_iterator.py:ElasticIterDatasetIterator.get_shard_states", "grain/_src/python/dataset/elastic_iterator.py:ElasticIterDatasetIterator.set_shard_states", "grain/_src/python/checkpoint/elastic_checkpoint.py:restore_elastic_iterator"]}
{"id": "C60", "title": "TFRecord files are read record by record", "statement": "Iterating a TFRecordIterDataset yields exactly the records written to the file, in order, whatever their number and sizes; a checkpoint taken at any point resumes exactly; if the file is cut anywhere, all complete records are returned and the cut one is reported with an error instead of being returned shortened.", "quantifier": "all lists of records, all cut positions, all histories of next/get_state/set_state/crash", "why_tests_cant": "Unbounded record lists and cut positions.", "anchors": ["grain/_src/python/dataset/sources/tfrecord_dataset.py:_TFRecordReader", "grain/_src/python/dataset/sources/tfrecord_dataset.py:_TFRecordDatasetIterator"]}
{"id": "C61", "title": "Parquet files are read row by row", "statement": "Iterating a ParquetIterDataset over one file yields exactly its rows, row group after row group (also with empty row groups); a checkpoint taken at any point resumes exactly. Over several files every row of every file is returned exactly once, in the order of its file.", "quantifier": "all files, row groups, numbers of files, all histories of next/get_state/set_state/crash", "why_tests_cant": "Unbounded files and histories.", "anchors": ["grain/_src/python/dataset/sources/parquet_dataset.py:_ParquetDatasetIterator", "grain/_src/python/dataset/sources/parquet_dataset.py:ParquetIterDataset"]}
{"id": "C62", "title": "The default batch function keeps every element as a row", "statement": "Batching any number of elements with the same features (nested structures of arrays of equal shapes and types, dictionaries with their keys in any order) gives an element of the same structure in which every feature has a new first dimension and the k-th element's array as its k-th row, unchanged. Elements that differ in structure or in the shape of a feature are refused with an error. With mixed types the rows are the arrays cast to numpy's common type.", "quantifier": "all element structures, shapes, types, numbers of elements", "why_tests_cant": "Unbounded structures, sizes and numbers of elements.", "anchors": ["grain/_src/python/dataset/transformations/batch.py:make_batch", "grain/_src/core/tree_lib.py:map_structure"]}
{"id": "C63", "title": "Padding a batch adds rows of the pad value and changes nothing else", "statement": "batch_and_pad of at most batch_size elements gives a batch with exactly batch_size rows: the elements in order, then rows of the pad value in the type of the feature; with no element or too many it raises ValueError.", "quantifier": "all element structures, shapes, types, numbers of elements, batch sizes, pad values", "why_tests_cant": "Unbounded structures, sizes and numbers of elements.", "anchors": ["grain/_src/python/dataset/transformations/batch.py:batch_and_pad"]}
{"id": "C64", "title": "Batching into shared memory gives the same batch", "statement": "Letting worker processes write batches directly to shared memory never changes what is returned or raised: the batch equals the one made in ordinary memory.", "quantifier": "all element structures, shapes, types, numbers of elements", "why_tests_cant": "Unbounded structures, sizes, types and numbers of elements.", "anchors": ["grain/_src/python/dataset/transformations/batch.py:make_batch", "grain/_src/python/dataset/transformations/batch.py:BatchIterDataset.enable_shared_memory_output", "grain/_src/python/ipc/shared_memory_array.py:SharedMemoryArray"]}
{"id": "C65", "title": "Elements are as get_element_spec says", "statement": "If `get_element_spec` returns a specification for a dataset, every element the dataset or its iterator ever returns (and that is not None) has that nested structure, and every array in it has the stated type, number of dimensions and known dimensions: with drop_remainder the batch dimension is exactly the batch size, otherwise it is left open. User transformations count as right about their own `output_spec`; the datasets mixed, concatenated or interleaved have one specification.", "quantifier": "all datasets and iterators built by ranges, maps, filters, slices, reindexing, repetition, shuffling, batching, zipping, limits, caches, mixing, concatenating and interleaving, to any depth; all element structures, shapes, types, indices and epochs, all histories of next, get_state and set_state", "why_tests_cant": "the specification is computed without looking at data, so it must be right for every element of every pipeline, including the last short batch and batches of batches", "anchors": ["grain/_src/python/dataset/dataset.py:get_element_spec", "grain/_src/python/dataset/transformations/batch.py:_get_batch_element_spec", "grain/_src/python/dataset/transformations/map.py:_ElementSpecFromTransformMapDatasetMixin._element_spec", "grain/_src/python/dataset/transformations/zip.py:ZipMapDataset._element_spec", "grain/_src/python/dataset/transformations/mix.py:MixedMapDataset._element_spec", "grain/_src/python/dataset/transformations/rebatch.py:RebatchIterDataset._element_spec"]}
{"id": "C66", "title": "Closing an iterator closes everything below it", "statement": "`close` of an iterator, called at any moment, closes every iterator below it: reading threads and files of the sources. Whatever is called on the iterator afterwards (`next`, `get_state`, `set_state`, `close`), nothing below it is open again, and a second `close` changes nothing.", "quantifier": "all pipelines built from sources by the transformations, zip, mix, interleave, thread prefetch, to any depth; all histories of next, get_state, set_state and close before and after", "why_tests_cant": "`close` may come in any state of the pipeline, after any history, and the promise is about all later calls.", "anchors": ["grain/_src/python/dataset/dataset.py:DatasetIterator.close", "grain/_src/python/dataset/transformations/prefetch.py:PrefetchDatasetIterator.close", "grain/_src/python/dataset/transformations/prefetch.py:ThreadPrefetchDatasetIterator.close", "grain/_src/python/dataset/transformations/interleave.py:InterleaveDatasetIterator.close", "grain/_src/python/dataset/elastic_iterator.py:ElasticIterator.close"]}
{"id": "C67", "title": "A closed iterator raises", "statement": "After `close`, every `next` raises `ValueError`: no element, no `StopIteration`, and the call returns, whatever was done before and whatever is called in between (`get_state`, `set_state`, `close`).", "quantifier": "all pipelines built from sources by the transformations, zip, mix, interleave, thread prefetch, to any depth; all histories of next, get_state, set_state and close before and after", "why_tests_cant": "`close` may come in any state of the pipeline, after any history, and the promise is about all later calls.", "anchors": ["grain/_src/python/dataset/dataset.py:DatasetIterator.close", "grain/_src/python/dataset/dataset.py:DatasetIterator._assert_not_closed", "grain/_src/python/dataset/transformations/prefetch.py:PrefetchDatasetIterator.__next__", "grain/_src/python/dataset/transformations/prefetch.py:ThreadPrefetchDatasetIterator.start_prefetch", "grain/_src/python/dataset/transformations/interleave.py:InterleaveDatasetIterator.__next__"]}
{"id": "C68", "title": "Parallel workers process each element once", "statement": "mp_prefetch and multithread_prefetch of a pipeline of map, filter, flat_map and repeat over a random access dataset or over interleaved datasets yield, for every number of workers or threads, the elements the pipeline yields without workers, each the same number of times; resuming from a checkpoint keeps the order that this number of workers gives.", "quantifier": "all such pipelines, datasets, user functions that do not raise, and numbers of workers; all checkpoint and restore histories", "why_tests_cant": "Universal over pipelines, datasets and worker counts.", "anchors": ["grain/_src/python/dataset/transformations/prefetch.py:multithread_prefetch", "grain/_src/python/dataset/transformations/process_prefetch.py:multiprocess_prefetch", "grain/_src/python/dataset/transformations/prefetch.py:_set_slice_iter_dataset", "grain/_src/python/dataset/transformations/interleave.py:InterleaveIterDataset"]}
{"id": "C69", "title": "Lengths and ratios are computed as with exact arithmetic", "statement": "For numbers up to 2^53: RangeDataSource(start, stop, step) has the elements of range(start, stop, step); the length of MapDataset.batch is the number of batches its elements need (or, with drop_remainder, can fill); the length of a random access flat_map is the product of length and fan-out; and the filter's threshold is reached exactly when skipped/total is at least the fraction configured.", "quantifier": "all starts, stops, steps, lengths, batch sizes, fan-outs, counts and thresholds in that range", "why_tests_cant": "The code divides in floating point; whether rounding changes a ceiling or a comparison depends on each pair of numbers.", "anchors": ["grain/_src/python/data_sources.py:RangeDataSource", "grain/_src/python/dataset/transformations/batch.py:BatchMapDataset._get_length", "grain/_src/python/dataset/transformations/flatmap.py:FlatMapMapDataset.__len__", "grain/_src/python/dataset/transformations/filter.py:FilterThresholdChecker.check"]}
{"id": "C70", "title": "A mix follows the weights it is given", "statement": "After k elements of a mix with weights v_1..v_n (any positive numbers), the number drawn from dataset i differs from k*v_i/(v_1+..+v_n) by at most the number of datasets.", "quantifier": "all numbers of datasets, all positive weights, all positions", "why_tests_cant": "Universal over real weights and unboundedly many positions; the weights pass through floating point and truncation.", "anchors": ["grain/_src/python/dataset/transformations/mix.py:_float_to_int_proportions", "grain/_src/python/dataset/transformations/mix.py:SelectionWithProportionsMap", "grain/_src/python/dataset/transformations/mix.py:_dataset_and_key_of_next_element"]}
{"id": "C71", "title": "run_in_parallel returns all results in order or raises", "statement": "run_in_parallel(f, kwargs, num_workers) returns the values of all calls in the order of kwargs; if some call raises, it raises the exception of a call that raised and never returns; no call is made twice, at most num_workers run at once, none is running or started later once it has returned or raised; and it always ends if the calls do.", "quantifier": "all functions, numbers of calls and workers, outcomes of the calls and interleavings of the threads", "why_tests_cant": "Depends on the thread schedule: which calls have ended when the exceptions are looked at.", "anchors": ["grain/_src/core/parallel.py:run_in_parallel"]}
{"id": "C72", "title": "The checkpoint test helper accepts exactly the datasets that resume", "statement": "assert_equal_output_after_checkpoint(ds) passes only if a checkpoint taken at any point of reading ds, restored into an iterator, continues with exactly the remaining elements; and it passes for every finite non-empty dataset whose iterators do so, whose states have one specification, and return the state restored.", "quantifier": "all datasets with any iterator implementation, all points of the iteration", "why_tests_cant": "It is a statement about every implementation of the iterator protocol, including users' own.", "anchors": ["grain/_src/python/testing/experimental.py:assert_equal_output_after_checkpoint"]}
{"id": "C73", "title": "The automatic configuration stays within the limits given", "statement": "pick_performance_config chooses at most max_workers workers and max_buffer_size buffered elements, and as many as fit into ram_budget_mb given the average size of the sampled elements, up to the rounding of floating point.", "quantifier": "all element sizes, numbers of elements and prefetchers, budgets and maxima (up to 2^53)", "why_tests_cant": "The quotients are rounded; whether the bound holds depends on each combination of sizes.", "anchors": ["grain/_src/python/dataset/transformations/prefetch_autotune.py:pick_performance_config", "grain/_src/python/dataset/transformations/prefetch_autotune.py:_get_num_workers", "grain/_src/python/dataset/transformations/prefetch_autotune.py:_get_buffer_size", "grain/_src/python/dataset/transformations/prefetch_autotune.py:_get_average_element_size_mb"]}
{"id": "C74", "title": "Wait time ratios divide the waiting time", "statement": "The wait time ratios of an execution summary lie between 0 and 1 and add up to 1 (up to rounding to four places): the nodes that run in one thread get parts in proportion to the time spent in them, and the part of a prefetch is divided in the same way among the nodes of the thread it waits for.", "quantifier": "all pipelines (trees of transformations with any nesting of prefetches) and all recorded times", "why_tests_cant": "Tests compute the ratios of two or three fixed graphs; the division must be right for every graph and every set of times, including rounding.", "anchors": ["grain/_src/python/dataset/stats.py:_compute_wait_time_ratio", "grain/_src/python/dataset/stats.py:_get_nodes_before_prefetch", "grain/_src/python/dataset/stats.py:_populate_wait_time_ratio"]}
{"id": "C75", "title": "The execution summary shows the pipeline", "statement": "get_execution_summary returns exactly the nodes of the pipeline, each with its own measurements and the numbers of the nodes it reads from; the copies of a pipeline in worker processes and interleaved datasets appear as one pipeline whose times, elements and bytes are the sums, with the least minimum and the greatest maximum, whatever the order of the workers.", "quantifier": "all pipelines, all measurements, all numbers of workers and interleaved datasets", "why_tests_cant": "Node numbers are assigned while walking a tree of unbounded shape and merged across processes; tests only look at a few shapes.", "anchors": ["grain/_src/python/dataset/stats.py:_ExecutionStats", "grain/_src/python/dataset/stats.py:_MPPrefetchExecutionStats", "grain/_src/python/dataset/stats.py:_InterleaveExecutionStats", "grain/_src/python/dataset/stats_utils.py:merge_execution_summaries", "grain/_src/python/dataset/stats_utils.py:get_complete_summary", "grain/_src/python/dataset/dataset.py:get_execution_summary"]}
{"id": "C76", "title": "Every recorded time is reported exactly once", "statement": "While threads record processing times and the background thread reports them, no record is lost or counted twice and the background thread does not fail; it keeps reporting for as long as the pipeline is used.", "quantifier": "all interleavings of recording threads and the reporting thread, all times at which elements are requested", "why_tests_cant": "The buffer is shared without a lock; a test sees only one schedule and no pauses of minutes.", "anchors": ["grain/_src/python/dataset/stats.py:_ExecutionStats.report", "grain/_src/python/dataset/stats.py:_ExecutionStats.record_self_time", "grain/_src/python/dataset/stats.py:_ExecutionStats._reporting_loop"]}
{"id": "C77", "title": "Interleaved datasets are all counted", "statement": "The measurements of an interleave contain those of every dataset it has read from so far.", "quantifier": "all cycle lengths and all orders in which the interleaved iterators yield", "why_tests_cant": "The set of iterators in use changes during the run; tests look at the summary while the first datasets are being read.", "anchors": ["grain/_src/python/dataset/transformations/interleave.py:InterleaveDatasetIterator.__next__", "grain/_src/python/dataset/stats.py:_InterleaveExecutionStats"]}
{"id": "C78", "title": "grain.load reads every record once per epoch", "statement": "grain.load(source, num_epochs=E, shuffle, seed, shard_options, transformations, batch_size, worker_count) yields in each epoch what the transformations make of every record of the source exactly once, over all shards; without worker processes batches are consecutive groups of that sequence; checkpoints resume exactly.", "quantifier": "all sources, epochs, seeds, shuffling or not, shard counts, batch sizes, worker counts and histories of calls", "why_tests_cant": "The guarantee combines sampler, sharding, workers, batching and checkpoints; tests run single configurations.", "anchors": ["grain/_src/python/load.py:load", "grain/_src/python/data_loader.py:DataLoader", "grain/_src/python/samplers.py:IndexSampler"]}
{"id": "C79", "title": "Default seeds depend on the nearest ds.seed calls and on positions only", "statement": "Without a seed of its own, a random transformation (shuffle, random_map) derives its seed from the values given to the nearest ds.seed calls upstream on every path and from its distances to them, nearest first; what lies upstream of those calls has no influence, a later ds.seed overrides an earlier one, a seed passed directly is used as it is, and the transformation is refused with ValueError exactly when no ds.seed lies upstream. A transformation and one upstream of it with no ds.seed in between never derive their seeds from the same value, so every downstream random transformation has its own seed.", "quantifier": "every tree of datasets, all seeds, every position", "why_tests_cant": "A test looks at a few chains; that the traversal lists every seed once in a fixed order, and that values at different positions never coincide, concerns every branching pipeline and every seed.", "anchors": ["grain/_src/python/dataset/dataset.py: _Dataset._default_seed, _WithSeedMapDataset, _WithSeedIterDataset, MapDataset.seed, IterDataset.seed", "grain/_src/python/dataset/transformations/shuffle.py: ShuffleMapDataset.__init__", "grain/_src/python/dataset/transformations/map.py: RandomMapMapDataset.__init__, RandomMapIterDataset.__init__"]}
{"id": "C80", "title": "States survive being written as JSON text", "statement": "A state of an iterator, written with json.dumps and read back with json.loads, restores the iterator exactly as the state itself would: after set_state with the read-back state the iterator gives the same elements, in the same order, as it gave after the save. A state whose text was cut off anywhere is refused, and the iterator it was to be loaded into goes on where it was.", "quantifier": "every pipeline of map datasets and iterator transformations, every history of next, save and restore, every point of the text at which writing stopped, every string in a state (any character)", "why_tests_cant": "dictionaries with other than string keys, escapes and partial files behave differently for states no unit test constructs; the claim ranges over all states, all texts and all cut points", "anchors": ["grain/_src/python/dataset/dataset.py::DatasetIterator", "grain/_src/python/data_loader.py::DataLoaderIterator", "grain/_src/python/checkpoint/handler.py::CheckpointHandler", "grain/_src/python/dataset/transformations/interleave.py::_InterleaveDatasetIterator"]}
{"id": "C81", "title": "Checkpoints written in the background hold the position of the call", "statement": "save captures the position of the iterator at the call: elements taken while the file is being written do not change the checkpoint. After any crash, load either continues exactly at the position of the save or raises and leaves the iterator as it was; it does not raise once the background work ended.", "quantifier": "every pipeline, every history of next, save, load and crashes, every interleaving of the background work with the program and every character at which it is cut off", "why_tests_cant": "the writing thread races with the training loop and a crash can hit at any character of the file; tests exercise a handful of schedules", "anchors": ["grain/_src/python/dataset/dataset.py::DatasetIterator.save", "grain/_src/python/dataset/dataset.py::DatasetIterator.load", "grain/_src/python/data_loader.py::DataLoaderIterator.save", "grain/_src/python/checkpoint/base.py::background_save", "grain/_src/python/checkpoint/base.py::background_load"]}
{"id": "C82", "title": "Interleaving datasets of which some were filtered out", "statement": "When the datasets given to an interleave are themselves a dataset from which some were filtered out, iteration yields every element of each dataset that remains, exactly once and in that dataset's order, and then ends.", "quantifier": "every number of datasets, every choice of the ones filtered out, every cycle length, every content of the datasets and every number of calls of next", "why_tests_cant": "A test fixes one set of datasets and one cycle length; whether elements are lost depends on how the filtered entries, the cycle length and the lengths of the remaining datasets fall together.", "anchors": ["grain/_src/python/dataset/transformations/interleave.py:_InterleaveDatasetIterator", "grain/_src/python/dataset/transformations/interleave.py:InterleaveIterDataset"]}
{"id": "C83", "title": "Elements arrive from a worker process as they were in it", "statement": "With multiprocess prefetching an element produced by the pipeline in a worker process arrives in the main process with the same structure, and each of its leaves with the same value, shape and data type, whatever the sizes of its arrays and whichever of them travel through shared memory. The shared memory used on the way is released when the element is dropped, or when it is discarded without having been returned.", "quantifier": "all element structures, shapes, data types, values, values of min_shm_size and states of the shared memory", "why_tests_cant": "An element travels as metadata and is rebuilt from them; a test sends a few freshly made arrays. Views, derived arrays, empty arrays and failures in the middle of an element need reasoning about what the metadata leave out.", "anchors": ["grain/_src/python/ipc/shared_memory_array.py: copy_to_shm, open_from_shm, unlink_shm, SharedMemoryArray.metadata, SharedMemoryArray.from_metadata", "grain/_src/python/dataset/transformations/process_prefetch.py: multiprocess_prefetch"]}
{"id": "C84", "title": "Adding multiprocess prefetching to a dataset leaves that dataset as it is", "statement": "Calling mp_prefetch on a dataset makes a new dataset. The dataset it was called on, and other pipelines built on it, go on giving the same elements and using no more resources than before.", "quantifier": "all batches, shapes, data types, numbers of workers, shared memory states and slices taken of the batches", "why_tests_cant": "Datasets are meant to be immutable descriptions, but the call switches the batching step to shared memory in place; a test looks at the new dataset only.", "anchors": ["grain/_src/python/dataset/transformations/process_prefetch.py: multiprocess_prefetch", "grain/_src/python/dataset/transformations/batch.py: BatchIterDataset.enable_shared_memory_output"]}
{"id": "C85", "title": "A failing element affects only itself", "statement": "If next() on an iterator raises because reading or transforming one element failed, and the caller catches the exception and goes on calling next(), then every element that did not fail is still returned, in the order and in the combination (batch, tuple, flattened outputs) it would have had if the failing element had not been in the data; and a checkpoint taken after the exception continues there.", "quantifier": "All transformations of the iterator API, all data, all positions and numbers of failing reads, all user functions that raise for some elements, and all histories of next, get_state and set_state calls after the exception.", "why_tests_cant": "Tests make one chosen element fail once and check that the exception is raised; which of the elements already taken from the input are lost depends on where in a batch, window, tuple or flattened element the failure comes and on what is called afterwards.", "anchors": ["grain/_src/python/dataset/transformations/batch.py:_BatchDatasetIterator.__next__", "grain/_src/python/dataset/transformations/rebatch.py:_RebatchDatasetIterator.__next__", "grain/_src/python/dataset/transformations/zip.py:_ZipDatasetIterator.__next__", "grain/_src/python/dataset/transformations/mix.py:_MixedDatasetIterator.__next__", "grain/_src/python/dataset/transformations/shuffle.py:_WindowShuffleDatasetIterator.__next__", "grain/_src/python/dataset/transformations/flatmap.py:_FlatMapDatasetIterator.__next__", "grain/_src/python/dataset/transformations/map.py:_MapDatasetIterator.__next__", "grain/_src/python/dataset/transformations/filter.py:_FilterDatasetIterator.__next__", "grain/_src/python/dataset/transformations/limit.py", "grain/_src/python/dataset/transformations/repeat.py"]}
{"id": "C86", "title": "A transformation gives the same elements before and after to_iter_dataset", "statement": "For a random access dataset and a transformation T offered both by MapDataset and IterDataset, ds.T().to_iter_dataset() and ds.to_iter_dataset().T() cannot be told apart by any history of next, get_state and set_state: for filter and repeat always (repeat: if epochs are not reseeded or the dataset is the same in every epoch), for map exactly if the function never returns None (before, None results are skipped; after, they are returned), for random_map (same seed), map_with_index, batch and zip if nothing was filtered out before. flat_map gives the same elements if no fan-out exceeds max_fan_out and no part is None. A mix of random access datasets yields a prefix of what the mix of the iterators yields.", "quantifier": "every dataset, user function, batch size, weights, number of reading threads and buffer size on either side, and every history of calls", "why_tests_cant": "tests compare the two orders for single datasets without filtered elements and None results", "anchors": ["grain/_src/python/dataset/transformations/map.py:_MapDatasetIterator.__next__", "grain/_src/python/dataset/transformations/map.py:MapMapDataset.__getitem__", "grain/_src/python/dataset/transformations/map.py:_RandomMapDatasetIterator.__next__", "grain/_src/python/dataset/transformations/flatmap.py:FlatMapMapDataset.__getitem__", "grain/_src/python/dataset/transformations/flatmap.py:_FlatMapDatasetIterator.__next__", "grain/_src/python/dataset/transformations/batch.py:BatchMapDataset.__getitem__", "grain/_src/python/dataset/transformations/batch.py:_BatchDatasetIterator.__next__", "grain/_src/python/dataset/transformations/zip.py:ZipMapDataset.__getitem__", "grain/_src/python/dataset/transformations/mix.py:_MixedDatasetIterator.__next__", "grain/_src/python/dataset/transformations/prefetch.py:PrefetchDatasetIterator.__next__"]}
{"id": "C87", "title": "Errors reach the user unchanged, with all frames of user code", "statement": "Whatever filtering mode is set and however many library calls an exception passes on its way out of next(), the same exception arrives, with every frame of user code in its traceback in order; only frames below grain/_src other than the one that raised are removed, once per thread, at the outermost filtering call; StopIteration and mode off leave everything as it is; mode remove_frames keeps the full traceback in the cause. The traceback of an error of a worker process shows the same files and lines in the same order.", "quantifier": "every call stack, every nesting of filtered calls, every mode, every traceback", "why_tests_cant": "tests look at a few call stacks", "anchors": ["grain/_src/core/traceback_util.py:filter_traceback", "grain/_src/core/traceback_util.py:run_with_traceback_filter", "grain/_src/core/traceback_util.py:include_filename", "grain/_src/core/traceback_util.py:reconstruct_traceback", "grain/_src/core/traceback_util.py:_should_filter", "grain/_src/python/dataset/dataset.py:_OutputIterDataset.__iter__"]}
{"id": "C88", "title": "A list of transformations does the same in ds.apply and in a DataLoader", "statement": "ds.apply(ts) applies every transformation of the list ts exactly once, in the order of the list, as what its class says (Batch, Map, RandomMap, MapWithIndex, FlatMap, Filter), so that the elements are what the transformations make of the elements of ds one after the other, and checkpoints resume exactly; applying ts and then us is applying ts + us; objects of other classes are refused with NotImplementedError. A DataLoader with operations=ts returns the same elements as ds.apply(ts) over the same records.", "quantifier": "all lists of transformation objects of any classes, all user functions, all datasets, samplers, shards, buffer sizes; all histories of reads and checkpoints", "why_tests_cant": "tests apply a few lists of one or two transformations; the property is about all lists, about objects with several base classes and about two separate implementations of the dispatch agreeing", "anchors": ["grain/_src/python/dataset/dataset.py: MapDataset.apply, IterDataset.apply, apply_transformations", "grain/_src/python/data_loader.py: DataLoader, _apply_transform_to_dataset, _FlatMapAdapter", "grain/_src/core/transforms.py"]}
{"id": "C89", "title": "Checkpoints of pipelines that contain interleaved datasets", "statement": "In a pipeline with InterleaveIterDataset anywhere in it (nested, below map, random_map, map_with_index, filter, limit, batch, rebatch, zip, mix, flat_map, window_shuffle, repeat or packing), a state taken at any point and restored into a new iterator makes that iterator continue with exactly the elements that were still to come; states taken after such a restart are as good as the first ones.", "quantifier": "every pipeline built from these transformations, every stream, cycle length and number of datasets, every history of next, get_state and restarts from any saved state", "why_tests_cant": "Tests restore each state once, into an iterator of one transformation; the failures need a second state taken after a restart, at a point where the interleave has moved to another dataset.", "anchors": ["grain/_src/python/dataset/transformations/interleave.py:InterleaveDatasetIterator.get_state", "grain/_src/python/dataset/transformations/interleave.py:InterleaveDatasetIterator.set_state", "grain/_src/python/dataset/transformations/flatmap.py:_FlatMapDatasetIterator.set_state", "grain/_src/python/dataset/transformations/shuffle.py:_WindowShuffleDatasetIterator.set_state"]}
{"id": "C90", "title": "Prefetching reads ahead no further than its buffer", "statement": "A prefetching iterator with buffer size n has, at any moment, at most n elements waiting and one in the hands of the thread or process that reads: its input is at most n+1 elements ahead of the position the user sees, whatever the user calls and however threads are scheduled; a process prefetching iterator holds shared memory for at most n+1 elements; a map dataset read with buffer size n has at most n reads submitted, those right after the position.", "quantifier": "all inputs, buffer sizes, sequences of calls (next, get_state, set_state, start_prefetch, close) and schedules", "why_tests_cant": "The bound concerns every interleaving of the consumer with the producer; a test observes one.", "anchors": ["grain/_src/python/dataset/transformations/prefetch.py: ThreadPrefetchDatasetIterator", "grain/_src/python/dataset/transformations/process_prefetch.py: _ProcessPrefetchDatasetIterator", "grain/_src/python/dataset/transformations/prefetch.py: PrefetchDatasetIterator._fill_buffer"]}
{"id": "C91", "title": "A mix of named datasets can be restarted with other components and weights", "statement": "If the datasets of IterDataset.mix are given by name, a state can be restored into a mix with other components or weights: a component whose name is in the state continues right after its last element, one that is not starts from the beginning, and from then on components are drawn as the new weights prescribe. So a component that stays in the mix over any number of such restarts delivers each element once.", "quantifier": "all sets of named datasets, all sequences of restarts, weights and numbers of elements read between them", "why_tests_cant": "The statement is about every history of changes of the mixture; tests restart once with one change.", "anchors": ["grain/_src/python/dataset/transformations/mix.py: _MixedDatasetIterator.set_state, _MixedDatasetIterator.get_state", "grain/_src/python/dataset/dataset.py: IterDataset.mix"]}
{"id": "C92", "title": "Every epoch of a random access dataset has the same data", "statement": "If no function depends on the index or on random numbers, ds[i + len(ds)] equals ds[i] for a pipeline without shuffling; with global shuffles followed by maps, filters, repetition or concatenation, the elements ds[e*len], ..., ds[(e+1)*len-1] of any epoch e are those of the first epoch in some order.", "quantifier": "all pipelines of random access transformations, all epochs (integers)", "why_tests_cant": "A test checks a few pipelines for two epochs.", "anchors": ["grain/_src/python/dataset/dataset.py: MapDataset.__getitem__", "grain/_src/python/dataset/transformations/repeat.py: RepeatMapDataset", "grain/_src/python/dataset/transformations/mix.py: MixedMapDataset", "grain/_src/python/dataset/transformations/shuffle.py: ShuffleMapDataset"]}
{"id": "C93", "title": "Iterators read only what they need, and restoring does not start over", "statement": "Creating an iterator and get_state read nothing from the data. One call of next reads a fixed number of elements at most (1 for map, random_map, map_with_index, limit and for flat_map with non-empty results, b for batch(b), w for window_shuffle(w), one of each input for zip, one for mix; at the end of an epoch of repeat one more; a filter reads up to the element it returns and no further; limit(n) reads nothing after n elements). set_state reads a fixed number too (nothing; one element below flat_map, one window below window_shuffle), however far the position is from the beginning. For a pipeline of these the numbers combine. Not so for cache: the first next after a restore reads everything again from the beginning.", "quantifier": "all pipelines of these transformations above any inputs, all sequences of next, get_state and set_state with any states", "why_tests_cant": "A test measures single pipelines at small positions; it cannot show that the cost of a restore does not grow with the position, for all pipelines.", "anchors": ["grain/_src/python/dataset/transformations/map.py", "grain/_src/python/dataset/transformations/limit.py", "grain/_src/python/dataset/transformations/filter.py:_FilterDatasetIterator", "grain/_src/python/dataset/transformations/batch.py:_BatchDatasetIterator", "grain/_src/python/dataset/transformations/flatmap.py:_FlatMapDatasetIterator", "grain/_src/python/dataset/transformations/shuffle.py:_WindowShuffleDatasetIterator", "grain/_src/python/dataset/transformations/repeat.py", "grain/_src/python/dataset/transformations/zip.py", "grain/_src/python/dataset/transformations/mix.py", "grain/_src/python/dataset/transformations/packing.py", "grain/_src/python/dataset/transformations/rebatch.py", "grain/_src/python/dataset/transformations/cache.py"]}
{"id": "C94", "title": "A shared-memory data source returns the elements it was given", "statement": "grain.sources.SharedMemoryDataSource(elements) has len(elements) elements; reading it with any index in range returns the element given, in the process that made it and in every process that attaches to it by name or receives it pickled; indices out of range raise IndexError.", "quantifier": "every list of ints, floats, bools, strings, bytes and None of any sizes; every index; every process attaching while the block exists; every amount of memory and rounding of the block", "why_tests_cant": "A test uses a few short ASCII values; the layout (offsets, formats, codes) depends on all elements before, and the losses occur only for values ending in zeros, for strings outside ASCII of certain lengths and for indices below the range.", "anchors": ["grain/_src/python/data_sources.py:SharedMemoryDataSource"]}
{"id": "C95", "title": "Stacked prefetching (device_put) is transparent under every schedule of all its threads", "statement": "A pipeline with several thread prefetches stacked on each other \u2013 such as `grain.experimental.device_put`, which prefetches on the CPU, transfers each element and prefetches the transferred elements \u2013 gives its user exactly the elements of the pipeline without the prefetches, in order; `get_state` / `set_state`, into the same object or after a crash into a new one, resume exactly although every layer has read ahead of the next; no schedule deadlocks, and every call returns, whatever the buffer sizes.", "quantifier": "every stack of ThreadPrefetchIterDataset (any buffer sizes, including 0), map, map_with_index, limit and batch over every source that resumes exactly and whose elements do not raise; every interleaving of the user's thread with all prefetch threads; every history of next, get_state, set_state and restarts", "why_tests_cant": "Each test runs one schedule of one or two prefetch threads; with k layers k+1 threads interleave, and a deadlock or a lost element needs a particular order of a put, a stop and a read in different layers.", "anchors": ["grain/_src/python/experimental/device_put/device_put.py:device_put", "grain/_src/python/dataset/transformations/prefetch.py:ThreadPrefetchDatasetIterator", "grain/_src/python/dataset/transformations/prefetch.py:_put_iterator_elements_in_buffer"]}
{"id": "C96", "title": "Stacked prefetches read a bounded number of elements ahead of the user", "statement": "However the threads of a stack of prefetches are scheduled, the source is never read more than a fixed number of elements ahead of what the user has received: each prefetch adds its buffer size and one element in the hands of its thread, a batch of b multiplies by b. For `device_put(ds, device, cpu_buffer_size=c, device_buffer_size=d)` at most c + d + 2 elements are read and not yet received between two calls.", "quantifier": "every stack of ThreadPrefetchIterDataset, map, map_with_index, limit and batch over every source that resumes exactly; every schedule and every moment of it; every number of next and get_state calls", "why_tests_cant": "A test sees the read-ahead of one schedule; the worst case needs every thread of the stack to have run as far as its buffer allows at the same moment.", "anchors": ["grain/_src/python/dataset/transformations/prefetch.py:ThreadPrefetchDatasetIterator", "grain/_src/python/experimental/device_put/device_put.py:device_put"]}
{"id": "C97", "title": "A worker process over a pipeline with its own prefetch threads is transparent under every schedule", "statement": "Prefetching a pipeline in a worker process (`process_prefetch` inside mp_prefetch; with layers that prefetch with threads in the worker below it and in the main process above it, as `device_put` makes them) gives exactly the elements of the pipeline without processes and threads, in order. `set_state` takes effect whenever it is called \u2013 while the worker is reading ahead, while earlier requests are still on their way, after the end was reached and the worker was stopped, and in a new process after a crash. No schedule deadlocks, and every call returns.", "quantifier": "every stack of process prefetches (any positive buffer sizes, workers kept or not after the end), thread prefetches, map, map_with_index, limit and batch over every source that resumes exactly and whose elements do not raise; every interleaving of the user, the workers and all prefetch threads; every history of next, get_state, set_state and restarts", "why_tests_cant": "A test runs one schedule of the main process and one worker; stale elements reach the user only if a request, its marker and the worker's read-ahead cross in a particular order, and the worker's own threads multiply the orders.", "anchors": ["grain/_src/python/dataset/transformations/process_prefetch.py:ProcessPrefetchDatasetIterator", "grain/_src/python/dataset/transformations/process_prefetch.py:_put_dataset_elements_in_buffer", "grain/_src/python/dataset/transformations/prefetch.py:ThreadPrefetchDatasetIterator"]}
{"id": "C98", "title": "Mixtures and zips of pipelines that run their own threads and processes are transparent under every schedule", "statement": "`IterDataset.mix` and `zip` of components that prefetch with threads or worker processes give exactly what they give without threads: position m of a mixture holds the next unused element of the component chosen for m, and the mixture ends when a chosen component has none; element m of a zip is made of the elements m of all components, ending with the shortest (with strict, of equally long ones). A checkpoint saved between two `next` calls restores all the components, one after the other, while the threads of all of them go on; the user sees the same continuation, also after the end and after a crash. No schedule deadlocks and every call returns. The same holds with further layers (filter, batch, prefetch, device_put) above, and for trees of mixtures and zips.", "quantifier": "every tree of mix, zip, filter, map, map_with_index, limit, batch, thread prefetch and process prefetch layers over every source that resumes exactly; any number of components, any choice of component per position (in particular every list of positive weights), strict or not; every sequence of next, get_state, set_state and restart; every schedule of all threads and processes", "why_tests_cant": "While the user restores component 2 the threads of components 1 and 3 run; a test exercises one of unboundedly many interleavings, and one shape of the tree.", "anchors": ["grain/_src/python/dataset/transformations/mix.py: _MixedDatasetIterator", "grain/_src/python/dataset/transformations/zip.py: ZipDatasetIterator", "grain/_src/python/dataset/transformations/filter.py: _FilterDatasetIterator", "grain/_src/python/dataset/transformations/prefetch.py: ThreadPrefetchDatasetIterator", "grain/_src/python/dataset/transformations/process_prefetch.py: _ProcessPrefetchDatasetIterator"]}
{"id": "C99", "title": "Elastic iterators accept only pipelines that they can resize without loss, and all hosts agree", "statement": "`ElasticIterator` accepts an `IterDataset` pipeline only if the state that it saves for a resize (the states of the shards of the interleave) describes what the user has received: a pipeline that reads ahead of the user above the interleave is rejected, as are zip, mix, `to_iter_dataset` and a filter of a MapDataset, wherever they are in the pipeline. The decision depends on the pipeline, the number of hosts and the global batch size, and is the same on all hosts.", "quantifier": "every graph of datasets, global batch size, number of hosts and host; every buffer size and every schedule of the prefetch thread", "why_tests_cant": "The checks walk graphs of any size and shape; the loss needs a schedule in which the prefetch thread is ahead when the state is saved, and a host with one file only exists for some numbers of files and hosts.", "anchors": ["grain/_src/python/dataset/elastic_iterator.py: ElasticIterator, ElasticIterDatasetIterator, _verify_transformations_supported, _find_sliceable_dataset, _find_sliceable_iterator", "grain/_src/python/dataset/transformations/prefetch.py: _set_slice_iter_dataset, ThreadPrefetchDatasetIterator", "grain/_src/python/dataset/sources/parquet_dataset.py: ParquetIterDataset"]}
{"id": "C100", "title": "Interleaving pipelines that run their own threads and processes, and mp_prefetch with several workers, are transparent under every schedule", "statement": "`InterleaveIterDataset` of pipelines that prefetch with threads or worker processes gives one fixed interleaving of them, whatever the speed of the threads: every element of every pipeline once and in its order, pipelines started in their order, at most cycle_length of them open, and an open pipeline is read again within cycle_length elements. If worker i of w reads the elements i, i + w, i + 2w, ... of a dataset, `mp_prefetch` (and `multithread_prefetch`) gives the elements of the dataset in their order, as without workers, for any number of workers and buffer size. A checkpoint saved between two `next` calls and restored into a new iterator gives the same continuation, also after the end and after a crash. No schedule deadlocks and every call returns. The same holds with further layers above and below.", "quantifier": "any number of pipelines, every tree of layers in each of them, every cycle length, number of workers and buffer size; every sequence of next, get_state, restore into a new iterator and restart; every schedule of the main process, all workers and all their threads", "why_tests_cant": "With w workers there are 2w threads and w processes besides the user's; tests see a handful of interleavings of them and a few lengths, and a wrong order shows only if a slow worker is waited for in the wrong place.", "anchors": ["grain/_src/python/dataset/transformations/interleave.py: InterleaveDatasetIterator, InterleaveIterDataset, _add_prefetch_and_make_iterator", "grain/_src/python/dataset/transformations/process_prefetch.py: multiprocess_prefetch, _ProcessPrefetchDatasetIterator", "grain/_src/python/dataset/transformations/prefetch.py: multithread_prefetch, ThreadPrefetchDatasetIterator"]}
{"id": "C101", "title": "How far a whole tree of prefetching layers reads ahead", "statement": "When a pipeline is a tree of thread prefetches, process prefetches, maps, limits, batches, mixtures, zips of equally long datasets, interleaves, window shuffles, rebatches and flat_maps - in particular mp_prefetch with several workers and multithread_prefetch - the number of elements that all its sources together have given out is bounded by what the user has received and the buffer sizes: between two calls, mp_prefetch with w workers and buffers of b has read at most w*(2b+2) elements that the user has not received, multithread_prefetch with t threads at most t*(b+1); one more while a call is running. The bound does not grow with the length of the data or the speed of the workers.", "quantifier": "every tree of these layers, every number of inputs and workers, all buffer sizes, all sources, every sequence of next() and get_state() calls, every schedule of all threads and worker processes, every moment of it", "why_tests_cant": "Tests can look at how much was read for one schedule after a sleep; the bound must hold at every moment of every schedule, and for every nesting of layers.", "anchors": ["grain/_src/python/dataset/transformations/interleave.py: InterleaveDatasetIterator", "grain/_src/python/dataset/transformations/process_prefetch.py: multiprocess_prefetch, _put_dataset_elements_in_buffer", "grain/_src/python/dataset/transformations/prefetch.py: multithread_prefetch, _put_iterator_elements_in_buffer", "grain/_src/python/dataset/transformations/mix.py: _MixedDatasetIterator", "grain/_src/python/dataset/transformations/zip.py: ZipDatasetIterator"]}
{"id": "C102", "title": "Closing a pipeline ends all its threads and worker processes", "statement": "close() of the iterator of a pipeline made of any tree of layers (thread prefetches, process prefetches, device_put, maps, batches, limits, filters, zips, mixtures, interleaves, mp_prefetch, multithread_prefetch), called between two calls of a user who reads, saves, goes back and restarts, always returns: whatever the order in which the threads and worker processes run there is no deadlock and no infinite run, and when it has returned no prefetch thread and no worker process of the pipeline is left.", "quantifier": "All trees of layers, all buffer sizes, all programs of next/get_state/set_state calls before it, every moment between two calls (threads and workers anywhere in their work), every schedule of the calling thread, the threads and the workers.", "why_tests_cant": "A deadlock or leaked thread needs one particular interleaving of the closing thread with a reader that is just about to put into a full buffer, take a request, or start; tests see a few schedules of one or two layers.", "anchors": ["grain/_src/python/dataset/transformations/prefetch.py:ThreadPrefetchDatasetIterator.close", "grain/_src/python/dataset/transformations/process_prefetch.py:ProcessPrefetchDatasetIterator.close", "grain/_src/python/dataset/dataset.py:DatasetIterator.close", "grain/_src/python/dataset/transformations/interleave.py:InterleaveDatasetIterator.close"]}
{"id": "C103", "title": "Window shuffle, packing and flat_map anywhere in a pipeline, under every schedule", "statement": "A window shuffle, a first-fit or best-fit packing, or a flat_map placed anywhere in a tree of prefetching and other layers, above or below thread prefetches, worker processes, interleaves, mixes and zips, gives the elements it gives over the plain stream, whatever the schedule. These layers save a state of the pipeline below together with a position in their own window, batch or list, and on restore read the pipeline below again up to there; saving in the middle of a window, batch or list, going back, and restarting in a new process still give the same elements, no call blocks for ever, and closing ends the threads and processes below.", "quantifier": "every tree of layers, every window size and shuffle, every packing configuration and list of examples that fit, every flat_map function over an endless stream, every program of next/save/restore/restart, every schedule", "why_tests_cant": "A restored window or batch is read again while threads and processes below are at arbitrary points of their own work; unit tests restore each of these transformations over a plain list only.", "anchors": ["grain/_src/python/dataset/transformations/shuffle.py: _WindowShuffleDatasetIterator", "grain/_src/python/dataset/transformations/packing.py: PackingDatasetIterator", "grain/_src/python/dataset/transformations/flatmap.py: _FlatMapDatasetIterator", "grain/_src/python/dataset/transformations/prefetch.py: ThreadPrefetchDatasetIterator"]}
{"id": "C104", "title": "Repeat and rebatch anywhere in a pipeline, under every schedule", "statement": "A repeat or a rebatch placed anywhere in a tree of prefetching and other layers gives the elements it gives over the plain stream, whatever the schedule of the user and of the threads and processes below. A repeat puts the pipeline below back to its first state at the end of every epoch, while threads and processes below may still be reading ahead; the user sees the stream the requested number of times over, in the same order each time. A rebatch gives the rows of the incoming batches in batches of the requested size. Saving in the middle of an epoch or of a batch, going back, and restarting in a new process still give the same elements, no call blocks for ever, and closing ends the threads and processes below.", "quantifier": "every tree of layers, every number of epochs (also endless), every batch size and sizes of incoming batches, every program of next/save/restore/restart, every schedule", "why_tests_cant": "At the end of an epoch the pipeline below is rewound at an arbitrary point of the work of its threads and processes, and a checkpoint may fall on either side; unit tests repeat a plain list or one schedule of a prefetch.", "anchors": ["grain/_src/python/dataset/transformations/repeat.py: _RepeatDatasetIterator", "grain/_src/python/dataset/transformations/rebatch.py: _RebatchDatasetIterator", "grain/_src/python/dataset/transformations/prefetch.py: ThreadPrefetchDatasetIterator"]}
{"id": "C105", "title": "A DataLoader with worker processes gives the same elements under every schedule", "statement": "A DataLoader with any positive number of worker processes, whatever the timing of the main process, its prefetch threads and the workers, gives one element from each worker in turn, skipping those that are used up: what a sequential reader of the workers' parts would see, and with one-to-one operations the same order as a loader without workers. A user may save the state at any point, go back in the same iterator or restart in a new one after a crash, any number of times, and continues exactly there, also when some workers are already used up. There is no deadlock and no call takes for ever.", "quantifier": "all numbers of workers, buffer sizes, shards, samplers, sources, operations whose user functions succeed, sequences of next/get_state/set_state calls and restarts, and all interleavings of the processes and threads", "why_tests_cant": "tests run one schedule of the processes; a loss would need a particular overlap of a restore with the read-ahead of several workers", "anchors": ["grain/_src/python/data_loader.py:_DataLoaderStateDatasetIterator", "grain/_src/python/data_loader.py:DataLoader._create_dataset", "grain/_src/python/data_loader.py:DataLoaderIterator", "grain/_src/python/dataset/transformations/process_prefetch.py:multiprocess_prefetch", "grain/_src/python/dataset/transformations/interleave.py:InterleaveDatasetIterator"]}
{"id": "C106", "title": "start_prefetch changes nothing but how early elements are read", "statement": "start_prefetch() of an iterator may be called at any time between two other calls - before the first element, right after a state was restored (as the checkpoint handler does), after the end of the data, any number of times - on any tree of transformations, prefetch threads and worker processes with positive buffer sizes, and on a DataLoader with workers. Whatever the schedule, the elements, their order, the end of the data and the states that are saved and restored afterwards are those of a user who never calls it; there is no deadlock and no call takes for ever.", "quantifier": "all trees of layers, sequences of next/get_state/set_state/start_prefetch calls and restarts, and all schedules of the threads and processes", "why_tests_cant": "A test sees a few schedules of a few pipelines; start_prefetch races with get_state and set_state in every layer it reaches, and whether a thread or worker that was started early (or after the end of the data) can disturb a later call depends on the timing.", "anchors": ["grain/_src/python/dataset/dataset.py: DatasetIterator.start_prefetch", "grain/_src/python/dataset/transformations/prefetch.py: ThreadPrefetchDatasetIterator.start_prefetch", "grain/_src/python/dataset/transformations/process_prefetch.py: ProcessPrefetchDatasetIterator.start_prefetch", "grain/_src/python/dataset/transformations/interleave.py: InterleaveDatasetIterator.start_prefetch", "grain/_src/python/data_loader.py: DataLoaderIterator.start_prefetch", "grain/_src/python/checkpoint/handler.py: CheckpointHandler.restore"]}
{"id": "C107", "title": "A state of a multi-process pipeline over interleaved datasets can be used whenever it was saved", "statement": "For a pipeline that interleaves several datasets or files (`InterleaveIterDataset`, `ParquetIterDataset` over several files) and is read with `mp_prefetch` by several workers, a state returned by `get_state()` at any moment, also before the first element and before every worker has delivered one, restored into a new iterator, continues with exactly the remaining elements; and `repeat` after `mp_prefetch` yields the same elements in every epoch.", "quantifier": "all datasets, cycle lengths and numbers of workers, and all histories of next, get_state and restoring into a new iterator.", "why_tests_cant": "The start state of a worker is computed in the main process, where the pipeline is not cut in slices, but is restored in the worker, where it is; whether the two have the same shape depends on the cycle length and on the number of datasets each worker gets.", "anchors": ["grain/_src/python/dataset/transformations/process_prefetch.py: ProcessPrefetchDatasetIterator.get_state, _LazyWorkerSliceIterDataset, multiprocess_prefetch", "grain/_src/python/dataset/transformations/interleave.py: InterleaveDatasetIterator.get_state, set_state"]}
{"id": "C108", "title": "Exceptions of elements pass through stacks of prefetching threads and processes in their place", "statement": "In a pipeline of any number of thread and process prefetches with map, map_with_index, limit, filter and batch between them, over a source or with functions that raise for some elements: a user who goes on after exceptions gets, whatever the schedule of all the threads and processes, the elements and the exceptions in the order in which the pipeline without threads gives them, each once, except that a process prefetch ends with the first exception until a state is restored; no exception leads to a deadlock or to a call that does not return; after a restart from a checkpoint no element is lost or repeated, at most exceptions already raised are raised again, and a checkpoint taken right after an element is exact.", "quantifier": "all such stacks, buffer sizes, functions, positions of failing elements, schedules of all threads, and programs of next, get_state, set_state and restarts", "why_tests_cant": "The number of schedules of several stacked threads with an exception on its way through their buffers, combined with rewinds and restarts, is unbounded.", "anchors": ["grain/_src/python/dataset/transformations/prefetch.py:_put_iterator_elements_in_buffer", "grain/_src/python/dataset/transformations/prefetch.py:ThreadPrefetchDatasetIterator", "grain/_src/python/dataset/transformations/process_prefetch.py:_put_dataset_elements_in_buffer", "grain/_src/python/dataset/transformations/process_prefetch.py:ProcessPrefetchDatasetIterator.__next__", "grain/_src/python/dataset/transformations/map.py", "grain/_src/python/dataset/transformations/batch.py", "grain/_src/python/dataset/transformations/filter.py", "grain/_src/python/dataset/transformations/limit.py"]}
{"id": "C109", "title": "mp_prefetch with several workers over elements that raise", "statement": "With ds.mp_prefetch and any number of workers, the user gets the outcomes of the dataset in its order up to and with the first exception, raised in its place; an exception costs the failed element only, or else ends the iteration, so that no later element goes missing without notice; nothing is reordered or repeated; a restored iterator at most raises again an exception that was raised already.", "quantifier": "every number of workers, buffer size, finite dataset, set of raising elements, stack of layers in the workers, schedule of main process, worker processes and threads, and program of reads, saves, restores and restarts", "why_tests_cant": "which elements fail, how far each worker has read ahead when one does, and how the stop of the failed worker interleaves with the others is not controlled by a test; the loss is silent", "anchors": ["grain/_src/python/dataset/transformations/interleave.py:InterleaveDatasetIterator.__next__", "grain/_src/python/dataset/transformations/process_prefetch.py:multiprocess_prefetch", "grain/_src/python/dataset/transformations/process_prefetch.py:ProcessPrefetchDatasetIterator.__next__"]}
{"id": "C110", "title": "multithread_prefetch over elements that raise", "statement": "Iterating a dataset through multithread_prefetch, whose elements may raise (in the source or in a transformation), gives every element and every exception of the dataset exactly once, in the dataset's order, for a user who goes on after exceptions; each thread's outcomes stay in order, up to the first exception the outcomes are exactly the dataset's, checkpoints neither lose nor repeat an element, and no schedule of the threads blocks or goes on for ever.", "quantifier": "Every finite dataset, every set of positions that raise, every number of threads and buffer size, every schedule of the threads, every program of next/get_state/set_state/restart calls.", "why_tests_cant": "Which thread is ahead when an element raises depends on the schedule, and positions of exceptions relative to the number of threads decide the order; tests fix a schedule and one raising position.", "anchors": ["grain/_src/python/dataset/transformations/prefetch.py:multithread_prefetch", "grain/_src/python/dataset/transformations/interleave.py:InterleaveDatasetIterator.__next__", "grain/_src/python/dataset/transformations/prefetch.py:ThreadPrefetchDatasetIterator"]}
{"id": "C111", "title": "Interleaved datasets whose elements raise", "statement": "Interleaving datasets whose elements may raise, with any prefetching threads and worker threads below, gives to a user who goes on after exceptions every element and every exception of every dataset exactly once, each dataset's in its order; checkpoints taken anywhere, also between exceptions, neither lose nor repeat an element of any dataset, and no schedule blocks or goes on for ever.", "quantifier": "Every number of finite datasets and cycle length, every set of positions that raise, every stack of layers below, every schedule, every program of next/get_state/set_state/restart calls.", "why_tests_cant": "An exception leaves the interleave in the middle of a turn, with the other datasets at positions that depend on the lengths and on what raised before; a checkpoint taken there is combined from checkpoints of all inputs that may lag behind.", "anchors": ["grain/_src/python/dataset/transformations/interleave.py:InterleaveDatasetIterator", "grain/_src/python/dataset/transformations/interleave.py:InterleaveIterDataset", "grain/_src/python/dataset/transformations/prefetch.py:ThreadPrefetchDatasetIterator"]}
{"id": "C112", "title": "Closing an iterator keeps its position", "statement": "it.close() does not move an iterator: it.get_state() returns after close() what it would have returned before, so that a job which closes its input and then saves resumes as if it had saved first, for every pipeline of sources, transformations, mixtures, zips and interleaves.", "quantifier": "every pipeline (map datasets, all transformations, thread prefetch, zip, mix; an interleave of such pipelines on top), every sequence of next, get_state, set_state and close calls before it", "why_tests_cant": "close drops buffers and closes parents at an arbitrary point of the iteration, and the state is put together from the states of everything below", "anchors": ["grain/_src/python/dataset/dataset.py:DatasetIterator.close", "grain/_src/python/dataset/transformations/prefetch.py:PrefetchDatasetIterator.close", "grain/_src/python/dataset/transformations/prefetch.py:ThreadPrefetchDatasetIterator.close", "grain/_src/python/dataset/transformations/interleave.py:InterleaveDatasetIterator.close"]}
{"id": "C113", "title": "A refused state leaves the iterator where it was", "statement": "set_state on the iterator of a random access dataset (to_iter_dataset) raises IndexError exactly when the position in the state is negative or past the end of the dataset; an accepted state is the position afterwards; after a refused state the iterator goes on as if set_state had not been called.", "quantifier": "every dataset, buffer size, number of threads, position of the iterator and position in the state, and every number of reads afterwards", "why_tests_cant": "states of other or larger datasets hold any position, and what a refused state does shows only in the reads that follow it, possibly never ending", "anchors": ["grain/_src/python/dataset/transformations/prefetch.py:PrefetchDatasetIterator.set_state", "grain/_src/python/dataset/transformations/prefetch.py:PrefetchDatasetIterator.__next__"]}
