# A formal model of google/grain in Lean 4

Source read: `/repo` (google/grain at the pinned commit), as text only.  Nothing was built or run.
Paths below are relative to `/repo/grain/_src`; `T/` is `python/dataset/transformations/`, `D/` is
`python/dataset/`.

## 1. Trusted base

* **Lean 4.33.0's kernel** and the standard axioms `propext`, `Classical.choice`, `Quot.sound`.
  No axiom is added, there is no `sorry`, `admit`, `native_decide`, `bv_decide`, `implemented_by`.
  Every theorem depends on a subset of these three (`#print axioms`, checked for every theorem by `vcheck`).
* **The reading of the code.**  A theorem is about the model; the model is tied to the code only by the
  file/line citation carried by every definition.
* **Python semantics assumed by the model.**  `int` is `Int`/`Nat` (unbounded); `//` and `%` by a positive
  number are `Int.ediv`/`Int.emod` (equal to floor division there; for negative divisors the model spells
  the case out); lists are immutable values except where *aliasing is the point* (interleave), in which case
  the alias is modelled explicitly; `StopIteration` and exceptions are values of the result type.
* **External calls are parameters.**  User functions (`map`, predicates, batch functions), the PRNG
  (`numpy` permutation / `random.Random.shuffle` are any function returning a permutation), the SHA based
  round keys of `index_shuffle` are arbitrary parameters, so the theorems hold for all their behaviours.
* **Concurrency.**  Threads, processes and queues are modelled as transition systems whose steps are the
  atomic operations of the code (queue put/get, flag set/test, semaphore acquire/release).  Theorems
  quantify over all schedules of these steps.  What is trusted: the atomicity of these operations, FIFO
  order of queues, fairness where a liveness statement says so.

## 2. What is not modelled

Of `D/stats.py`: the printed tables and graphs, `output_spec`, tracing and the exported metrics (`core/monitoring.py`) (execution summaries and their reporting are modelled, C74–C77); array memory (arrays are shape, type and list of values; numpy's conversions between types are
a parameter, section C62), floating point in user data (where grain itself computes
lengths, proportions and ratios in floating point, binary64 rounding is modelled in `Verif/Float`; the models of the datasets
use the exact lengths and integer proportions, and `Verif/Float` proves when the computed ones agree), the array_record format (tfrecord and parquet are modelled: the bytes of the
former, the tables of the latter), tracing, logging,
pickling/cloudpickle, signal handling and process death other than the worker-exit cases named in
section 5.

## 3. Architecture of the model

Modules are grouped by area, `lean/Verif/<Area>/`:

* `Model*.lean`  – the model, function by function, every definition citing its source.
* `Spec.lean`    – small, independent specifications (what a user would say).
* `Lemmas*.lean`, `Sim*.lean`, `Machine.lean`, `Order.lean` – helper lemmas and simulations.
* `Props*.lean`  – the properties: theorem statements, short proofs, non-vacuity examples, and
  counterexample theorems where the code violates the property.

`Verif/Py.lean` has the exceptions, `Verif/ListUtil.lean` general facts about lists.

### Iterators and checkpoints (C17–C28, C34, C36, C49)

An iterator class is a value of `Iter α`: the type `S` of the object's fields, the type `C` of
checkpoints, `init`, `next`, `get` (may mutate, as in interleave), `set`.  `next` takes fuel because
several `__next__` methods loop (`filter`, `flat_map`, `repeat`, `interleave`); running out of fuel is
"has not returned yet".  The *specification* of an iterator is one stream `ℕ → Option α` and an abstract
machine with a single number as its state:

    next      outputs stream[pos], pos := pos+1          (or StopIteration, pos unchanged)
    save      remembers pos
    restore k pos := the k-th remembered position
    crash     pos := 0 (a new object), remembered positions survive

`ResumesExactly it xs ended` (`Verif/Iter/Basic.lean`) says that for **every** list of such operations the
iterator's outputs are those of the abstract machine (`xs` is the stream, or with `ended = false` a known
prefix of it, so endless pipelines are covered).  `Resumes` is the simulation proving it.  Each
transformation gets a theorem `Resumes parent xs → Resumes (T parent) (stream-level T of xs)`, so that the
result composes over arbitrary pipelines (`pipeline_resumes_exactly`).  Where restores into used objects
are broken in the code, the weaker notion with restores into new objects only is proved
(`ResumesExactlyWhen`, `ResumesFresh`) together with a machine-checked counterexample.

### Random access datasets (C02–C16, C50, C69, C70)

A `MapDataset` is a length and the functions `getitem`, `getitems`.  Every transformation is a function on
these, mirroring the class.

### Schedules (C29, C30, C43, C47, C71)

Transition systems `step : State → Action → Option State` with an invariant proved by induction over all
action lists.

### Trees of concurrent layers (C95–C98, C100–C106)

`Verif/Stack`: a layer is a labelled transition system (`ConcIter`) whose calls may take many steps and which may move
between calls. A predicate (`Follows`) says that it follows a stream: with an invariant, progress while a call is running, and a
well-founded measure. Each layer of the code preserves it, so it holds of trees of any height (`Stacked`); the user-level
theorems are proved once, for everything that is `Stacked`. Closing (`Shut`), reading ahead (`ReadsFrom`) and
`start_prefetch` (`Kicked`) are further predicates of the same form.

## 4. Properties: model and proof plan

| id | modelled | how it is proved |
|----|----------|------------------|
| C01 | `even_split` | arithmetic; list of ranges flattened equals `List.range` |
| C02 | `simon_encrypt`, `index_shuffle` for every even block size, `_shuffled_index` | Feistel rounds are involutive ⇒ bijection on block; cycle walking is a bijection on `[0,max]` by orbit argument; counterexample when `max_index = 4^j`; `_partial` excludes exactly those |
| C03 | `WindowShuffleMapDataset` | window arithmetic over C02; counterexample when length is not a multiple of the window |
| C04–C06 | `_dataset_and_key_of_next_element`, selection map, mixed length | nested floor arithmetic, counting function, induction on position |
| C07 | `_ConcatSelectionMap` | bisect specification, induction on components |
| C08 | `slice.indices`, `SliceMapDataset` | case analysis with `omega`, spec is "list of positions" |
| C09 | slices and round robin | arithmetic + interleave semantics |
| C10 | `BatchMapDataset`, `_BatchDatasetIterator` | list chunking spec |
| C11 | `_getitems` of all map transformations | induction over an inductive "built from" predicate |
| C12–C15 | repeat, zip, filter, flat_map | stream level specs |
| C16 | `RngPool`, rng index computation | pool invariant: generator is always reset before use |
| C17–C25 | iterator classes | refinement, see above |
| C26, C27 | `InterleaveDatasetIterator` incl. mutation and aliasing | invariant over slots; counterexamples (findings F6, F7) |
| C28 | `PrefetchDatasetIterator` incl. buffer, resize | invariant buffer = window of future reads; `prefetch_position_exact`: states and next indices are one position in the dataset, sparse or not |
| C29 | thread prefetch transition system | invariant + schedules |
| C30 | process prefetch transition system | invariant on markers in the queue + pending requests; counterexample for raising `set_state` |
| C31 | pipelines as graphs of dataset objects, their slicing in place for each worker, the workers' iterators and their interleaving | induction over the pipeline: worker `w` yields every `n`-th element; from C09/C26 |
| C32–C34 | `PackedBatch`, first/best fit, iterator | invariant by induction on the stream |
| C35, C36 | concat-then-split | invariant; counterexamples for multi-feature splits and JSON |
| C37 | `PackAndBatchOperation` and its `_PackedBatch`, one call run to its end | simulation to the first-fit model, then the same invariant; counterexamples for empty input and a second call |
| C38 | `_ElasticMapDatasetIterator` over slice, batch and prefetch iterator; histories of restarts | refinement to a position in the shard's stream; induction over the phases |
| C39 | `get_shard_states`/`set_shard_states` of interleave, elastic checkpoint files, histories of resizes | the interleave refinement from an arbitrary restored state, induction over the phases; counterexample for used-up datasets |
| C40, C42 | samplers, size probing | arithmetic; counterexample for uneven multi-epoch shards |
| C41 | `DataLoader` over the samplers: reading, every operation (`transforms`, the legacy generators of `operations.py`, `FlatMap` through `_FlatMapAdapter`), workers as interleave, the loader's own checkpoint | induction over the operations, simulation to a position; generators by a run of the loop against the list specification; counterexamples for ended generators, `FlatMap` and worker counts |
| C43 | both variable size queues as transition systems of any number of threads (for processes: semaphore, buffers, feeder threads, pipe, resize lock) | invariants over all histories, a measure for "comes to rest"; counterexample grow-while-shrinking |
| C44 | options merge | algebra |
| C45 | threshold checker | induction on outcomes against windowed spec |
| C46 | tree lib | structural induction |
| C47 | shared memory ownership | multiset invariant over the process prefetch system |
| C48 | `CheckpointHandler.save`/`restore`, elastic checkpoint files, names and `glob`/`split` of names, a directory as a list of files | injectivity of decimal formatting, invariant over all orders of writes |
| C49 | next-index methods, also of thread and process prefetch with their `_next_index` | refinement with a position index; for the prefetchers the invariants of C29 and C30 |
| C50 | range/source set_slice | arithmetic over C01 |
| C51 | prefetch `__next__` with failing reads | counterexample + partial |
| C52 | seeds: `wordsOf`, `seedOf` and the derived seeds of epochs and transformations | modular arithmetic; ranges (`transformation_seed_range`) and injectivity on epochs |
| C53 | iterator pipelines | composition of the `Resumes` theorems by induction over the pipeline |
| C54 | `set_slice` of all datasets over a heap of dataset objects | induction over the pipeline graph, C01/C09; counterexamples for shared objects |
| C56 | thread prefetch, `start_prefetch` | as C29; counterexample for size 0 |
| C55 | `MixedIterDataset` given mappings | flattening order; counterexample |
| C57 | rebatch over trees | flattening order; counterexample |
| C58 | sequential slices under map datasets | permutation of workers' epochs; counterexamples for repeat and slice |
| C59 | transformations above the interleave of an elastic iterator, histories of resizes | refinement of the job with transformations to the job without (map, filter, batch and compositions); counterexamples for flat_map, window shuffle, map_with_index |
| C60 | `_TFRecordReader` over a list of bytes, `fileRead`, the iterator with its offset as state; format in `Sources/Spec.lean` | simulation (record boundaries), round trip, every cut position |
| C61 | `_ParquetDatasetIterator` (tables as named columns, dictionary built column by column), several files as interleave | simulation (row group, index) ↔ position; C26 for several files |
| C62 | `map_structure` over any number of trees (`Tree.mapN`), `np.stack`, `make_batch`; numpy's types are a parameter (`Numpy`, laws in `Numpy.Lawful`) | structural induction over trees by path, rows of a stacked array |
| C63 | `batch_and_pad`, `np.full`, `np.concatenate` | reduction to stacking the elements and the rows of padding |
| C64 | `shm_stacking_function`, `SharedMemoryArray` allocation, `np.stack(out=...)` | equality of the two stacking functions at every leaf, congruence of `map_structure` |
| C65 | every `_element_spec` property; elements of the datasets of `MapDs` and iterators of `Iter` | induction over how a dataset is built; at a batch the rows of C62, at a zip position by position; above prefetching threads and worker processes from C29 and C30 for every schedule |
| C66 | `DatasetIterator.close` and its overrides over the iterators of `Iter`, with a closed flag per iterator; a source is released when its flag is set | an invariant of states after `close`, kept by every call of every transformation; induction over how the pipeline is built |
| C67 | the same model; which `__next__` look at the flag (`_assert_not_closed`, `start_prefetch`) | the same invariant: `next` of a closed parent raises, and the transformation passes it on |
| C68 | the same model (Verif/Multiprocess/ModelSlice.lean) with `filter`, `flat_map`, `repeat` and interleaved datasets | induction over the pipeline: the workers' streams are together a permutation of the pipeline's; C26 |
| C69 | `RangeDataSource`, `BatchMapDataset._get_length`, `FlatMapMapDataset.__len__`, the ratio of `FilterThresholdChecker`, with binary64 rounding (`Verif/Float/Model.lean`: nearest, ties to even, subnormals, overflow) | rounding is monotone, exact on integers up to 2^53 and off by less than 2^-53 relative; hence ceilings and comparisons of quotients are exact; counterexamples evaluated by the kernel |
| C70 | `_float_to_int_proportions` and the length in `SelectionWithProportionsMap.__init__` with binary64 rounding | error bounds of the two roundings and the truncation, composed with C05; counterexample: weights 3 and 7 |
| C71 | `run_in_parallel` with `ThreadPoolExecutor` and `as_completed` as a transition system (`Verif/Parallel`) | invariant of all reachable states, decreasing measure for termination; the order of `as_completed` among completed calls is left open |
| C72 | `assert_equal_output_after_checkpoint` over any iterator (`Verif/Testing`) | the two loops are unfolded into a history of calls (soundness), and run along a simulation (acceptance); counterexamples for the last state and used iterators |
| C73 | `pick_performance_config` and its helpers with binary64 rounding (`Verif/Autotune`); a dataset is the list of its elements' sizes | relative errors of the chain of roundings composed; counterexamples for short datasets and for workers times buffers |
| C74 | `_compute_wait_time_ratio` and its helpers on summaries as graphs of numbered nodes, with binary64 rounding and `round(x, 4)` (`Verif/Stats`) | the loop is shown equal to a recursion over the tree of the pipeline; the error of each rounding is bounded and composed along prefetches; counterexample for a prefetch whose input has no time |
| C75 | `_build_execution_summary` of the three kinds of statistics objects, merging and renumbering of summaries, sorting | mutual induction over statistics objects: the summary grows by exactly the nodes of the pipeline; counterexample for interleave before another input |
| C76 | `record_self_time`, `report` as atomic steps of any number of reporters, `_reporting_loop` with a clock | invariant: records = reported + in hand + in the buffer; a measure for catching up; counterexample schedules with two reporters; after a pause nothing is reported, for every continuation |
| C77 | `_parent_stats` of an interleave | the parents are the last iterators of the slots; counterexample for `cycle_length` 1 |
| C78 | `load` (`Verif/Loader/ModelLoad.lean`) over the models of `IndexSampler` and `DataLoader` | composition of C40 and C41: the records of the sampler's keys, each epoch a rearrangement |
| C79 | `Seeds/Model.lean`: datasets as trees of (`_seed_rng_seed`, `_parents`), the queue loop of `_default_seed`, the words numpy makes of the list (padding included; the hash is a parameter), the seed checks of `shuffle` and `random_map` | loop invariant over two consecutive levels of the queue against `seedsAt`, the seeds at an exact distance; distinctness by the sum of the entropy words; findings F71, F72 |
| C80 | `Json/Model.lean`: `json.dumps(indent=4)` with `ensure_ascii` escapes (surrogate pairs included) and `json.loads`, Python values with dictionary keys of several types; `Json/ModelStates.lean`: the dictionary that `get_state` of every transformation makes and what `set_state` reads from it | round trip by induction over values against a fuel-bounded reader; truncation by monotonicity of the reader (a complete value stays complete when text is appended); pipelines by coding the checkpoints of the `Iter` machines of C53; finding F73. Floats do not occur in states and are not modelled |
| C81 | `Json/ModelAsync.lean`: `save`/`load` of the Orbax interface as a system of the iterator, the coroutines with their progress, and the files; events for every character written, crashes included | invariant relating files and coroutines to the positions of the saves, induction over the events, against the ideal program `AsyncOk` |
| C82 | `Interleave/ModelSparse.lean`: the loop of `__next__` over a `MapDataset` of datasets with `None` entries; `_prefetch_ds_iter` passes over them | loop invariant relating slots to positions in the datasets, induction over the calls; false in full (F74), so `_partial` with the exact bound on what is lost |
| C83 | `Shm/Model.lean`: `copy_to_shm`, `open_from_shm`, `unlink_shm` and the leaf functions, over a heap of named blocks; leaves are ordinary arrays, arrays in shared memory with the positions of their bytes, arrays derived from those, metadata, or other objects. Element trees of any structure | `mapS` over a tree equals `listS` over its leaves; induction over the leaves with the invariant that old blocks are kept; views and derived arrays by computation |
| C84 | `Shm/Model.lean`: `batchLeaf` (one feature of `make_batch` with and without `output_to_shared_memory`), `mpPrefetchInput` (the switch made in place), a slicing function of the user, reading of batches in the main process | induction over the batches; bytes of the rows as a flattened list |
| C85 | the failing branches of the iterator models of `Iter/Model.lean` (map, map_with_index, random_map, filter, limit, repeat, flat_map, batch, rebatch, zip, mix, window_shuffle); spec `Iter/SpecErrors.lean`: `elements` (what did not fail), `YieldsOutcomes`, what batch, flat_map and zip yield when calls of the input fail | for the first seven: the elements that come out are those that come out of the elements that did not fail, by induction on the outcomes of the parent; for batch a simulation with the failing outcomes; false of batch, rebatch, zip, mix, window_shuffle (F77-F81) and of checkpoints of flat_map taken after an exception (F82), each shown for all data or with a witness; cache, thread prefetching and packing (also with examples that do not fit into a row) yield, to a caller who goes on, what they yield without the failing elements, by simulation with the failing outcomes (`Iter/PropsErrorsCache.lean`, `ThreadPrefetch/PropsErrors.lean`, `Packing/PropsErrors.lean`); interleave by C26, whose streams may contain failures; false of checkpoints of cache and thread prefetching taken after an exception (F90, F91); false of process prefetching, which ends at the first failing element (F92, `ProcPrefetch/PropsErrors.lean`) |
| C86 | the random access datasets of `MapDs/Model.lean` under `prefetchIter` (`to_iter_dataset`) against the iterator models on top of `prefetchIter`; spec `Iter/SpecCommute.lean`: `SameIteration` (no history of calls tells two iterators apart), `Reads` (what a random access dataset holds) | the stream of either side from the resumption theorems of C20–C28; two iterators with the same stream are indistinguishable (`sameIteration_of_stream`), with different streams they are not. Partial: false for filtered datasets with all but map, filter and repeat, shown with concrete datasets |
| C87 | `core/traceback_util.py` (`Trace/Model.lean`): tracebacks as lists of frames, an exception leaving a stack of calls (`unwind`), the handler of `run_with_traceback_filter`, tracebacks rebuilt from worker processes; spec `Trace/Spec.lean` | induction over the stack; the loops over reversed frames by induction with the position generalised. Not modelled: IPython detection, the text of notes, `compile` |
| C88 | `Apply/Model.lean`: transformation objects with the methods of the base classes they have, the two chains of class tests (`TObj.dispatch`, `TObj.loaderOp`), `applyFrom`/`applyIter` over the iterator models, `loaderOf` over the data loader models of C41; spec `Apply/Spec.lean`: what each method makes of a list of elements | induction on the list with the simulations of the single transformations for states restored into new iterators; the records of a loader are related to elements by their data; counterexamples for objects of several classes and for `None` (F93, F94) |
| C89 | `InterleaveDatasetIterator` under the other iterators (Verif/Interleave/Unread.lean), `flat_map` and `window_shuffle` with the state objects they share with their input (ModelShared.lean) | states are restored into objects from which nothing was read (`Unread`, closed under `get_state`): a simulation with that restriction passes through every transformation, because each agrees with itself over an input whose `set_state` is made total (`tame`); counterexamples for flat_map and window_shuffle (F95, F96); concat-then-split packing shares its input's state too (F97) |
| C90 | The transition systems of thread and process prefetching and the iterator of map prefetching (ThreadPrefetch, ProcPrefetch, Iter/Model.lean), over an input that counts the elements it returned (`Iter.counted`, Verif/Ahead/Spec.lean) | invariants over all schedules: the input's counter is the position the user sees plus what is queued or in the producer's hands (per phase of the consumer); the buffer of map prefetching by induction on the calls; runs that reach the bounds. How far `mp_prefetch` with n workers and interleave read ahead in total is C101 |
| C91 | `_MixedDatasetIterator` for a mapping of datasets (Verif/NamedMix/Model.lean), parents and states by name | the real job (new iterator, `set_state`, n calls of `next`, `get_state`, repeated with other names and weights) is simulated by an ideal one that keeps a position per name; from it, no loss for a component that stays, and the share of every weight per phase (C05). Findings for used iterators and ended mixtures |
| C92 | The random access datasets (Verif/MapDs/Model.lean) | periodicity `ds[i + len] = ds[i]` by induction over pipelines without shuffling; permutation of epochs by induction over pipelines with global shuffles (C02), maps, filters, repetition and concatenation. Window shuffles are not included (F2), nor functions of the index or of random numbers, which are meant to differ |
| C93 | `Verif/Cost`: the input is wrapped so that it records every call of `next` (`Iter.traced`); `Costs` assigns to a pipeline the number of reads one `next` and one `set_state` may cause; induction over pipelines and over histories (`Used`), bounds in ℕ∞. Cache: an explicit history for every position |
| C94 | `SharedMemoryDataSource` (data_sources.py:137-182) with the `ShareableList` it inherits from, byte by byte: formats, offsets, packing, codes, attaching by name. | The block is shown to be head ++ data ++ formats ++ codes; reading at the position after any prefix of the elements returns what was packed; UTF-8 from Lean's library. |
| C95 | `Stack/Model`: iterators as labelled transition systems (`ConcIter`), a thread prefetch over any of them (`prefetchOver`, one step per queue operation, per test of the stop flag, per entry or return of a parent call), sequential transformations over them (`transOver`), `device_put`, and a user making any calls. Proved by a compositional simulation (`Follows`) with a rank for termination; safety, progress and termination for stacks of any height. Not modelled: elements that raise, `close`, index calls, `start_prefetch` (one layer: C29). |
| C96 | `Stack/Ahead`: the position of the source in a state of the stack, and a bound read off the layers (`StackedOn`); proved from the simulation of C95 (the buffer continues the stream where the user is, the parent where the buffer ends). |
| C97 | `Stack/Process`: process prefetch as a layer of the stacks of C95 (`processOver`): main process, worker, element queue, request queue and its counter, stop event, the worker holding the layers below with all their threads; one step per queue operation, counter access and parent call. `Stack/ProcessLemmas`, `Stack/ProcessUser`: the simulation (`ProcInv`: the user at `n` gets the stream from the last request, or from the marker due, or from what follows the last marker) and a rank for termination. Not modelled: elements that raise, `close`, index calls, the bound 5 of the request queue, shared memory, a killed worker. |
| C98 | `Stack/Multi`: layers with several inputs (`multiOver`): `zip` (strict or not) and `mix` ask one input after the other, `set_state` restores the inputs one by one while all their threads run; `filter` as a layer with one input. `Stack/MultiLemmas`: a step of one of finitely many terminating inputs terminates (`acc_pi`), `multi_follows`; `Stack/MultiStreams`: the streams of zip, mix and filter. The constructors `zip`, `mix` and `filter` of `Stacked` make the theorems of C95 hold for trees. Spec: `streamZip`, `streamMix`, `Filtered`. |
| C99 | `Elastic/Accept`: dataset graphs, the work-list checks, the in-place slicing and the two graph searches of `ElasticIterator.__init__` and `ElasticIterDatasetIterator.__init__`. `Elastic/AcceptProps`: the checks find a class iff the graph contains it; acceptance of chains characterised; the loss below a thread prefetch is a schedule of the model of C95 for every buffer size (`prefetch_runs_ahead`). Not modelled: multiprocessing options (raise), user-defined dataset classes. |
| C100 | `Stack/Interleave`: interleave as a layer with several inputs over any layers (slots, cursor, which inputs a state restores), `mp_prefetch` and `multithread_prefetch` built from it. `Stack/InterleaveLemmas`, `Stack/InterleaveStreams`: the layer computes one stream, a function of the streams of the inputs; `Stack/Spec.Interleaves` says what is asked of it (elements, order, openings, round robin); slices interleaved are the whole stream; with C95–C98 every schedule shows that stream. |
| C101 | `Stack/TreeAhead`: a tree of layers with the number of elements its sources have given out in a state and a bound read off the layers (`ReadsFrom`). `Stack/TreeAheadLemmas`: without restores no layer is in a restoring state (`Tame`, closed under all steps); with it the simulations of C95–C100 bound each layer (the process prefetch by its buffer and the worker's element; mixtures and interleaves return each element they take, so their inputs' positions add up to at most the position of the user). `Stack/TreeAheadAnchor`: window shuffle, rebatch and flat_map, whose parents only move forward during a call. |
| C102 | `Stack/Close.lean`: the steps of the thread in `close` of each layer (`Closer`), interleaved with the steps of all threads and workers (`CloseStep`). `Stack/CloseLemmas.lean`: each layer keeps `CloseEnds` (progress, termination, nothing left): the steps of a thread prefetch's `close` are those of its `set_state`; a process prefetch by a rank on the worker that was told to stop; several inputs by the product of the accessible parts. `Stack/CloseProps.lean`: induction on the tree (`Shut`). `Stack/StartClose.lean`: the same when the user also calls `start_prefetch` (`KickShut`, the trees of C106 with their closers). |
| C103 | `Stack/Anchor.lean`: a layer with registers that hold states of the parent, whose next, get_state and set_state are sequences of parent calls interleaved with everything that runs below. Window shuffle, packing and flat_map are instances. `Stack/AnchorLemmas.lean`: what a layer computes from its parent's stream is an evaluation relation, and the layer over any tree follows that stream (`anchor_follows`). `Stack/AnchorStreams.lean` and `Stack/AnchorPack.lean` compute the three streams. `Stacked` (C95) and `Shut` (C102) have constructors for them, so all theorems about trees cover them. The rows of packing are those of C32 and C33. |
| C104 | `Stack/Anchor.lean`: the layers of C103 may also set a register to a state they hold (`back`), and pass the parent's state of now through get_state (`live`); repeat and rebatch are instances. `Stack/AnchorRepeat.lean` computes their streams. `Stacked` and `Shut` have constructors for them. A repeat asks for a tree without interleaves (`NoInterleave`), because the state an interleave reports at its end is not that of its start (C27). |
| C105 | `DataLoader` with workers under every schedule (Stack/Loader.lean: the interleave of C100 over process prefetches over the workers' iterators of C41, under the conversion of states of data_loader.py:240-340, restores into used iterators included).  Proof: the interleave of as many datasets as slots follows the turns, also from states in which used-up workers are open again (`loader_follows`); then as C95. |
| C106 | `start_prefetch()` between any two calls, on the trees of C95–C104 and on the DataLoader of C105 (Stack/Start.lean: what it does in each layer; a user whose program is interrupted by `start_prefetch` calls).  Proof: between calls it keeps the invariant of each layer (`Kicks`), a worker started after the end of a process-prefetched stream included (the parameter `kick` of `ProcInv`); the user with `start_prefetch` calls is then simulated by the user without. |
| C107 | `Multiprocess/ModelLazy.lean`: the interleave iterator with the lengths of the lists in its states, the process prefetch iterator with the start state computed in the main process, the workers over slices of the datasets. Proof (`LemmasLazy`, `PropsLazy`): the state of a new interleave in closed form (`ilGet_init`); it fits a worker exactly if the cycle lengths agree; then C26 for the workers and for the interleave of the workers. Without that condition (`LemmasWarm`): the program and the same program with correct start states are in the same state, but for the recorded states of exhausted workers, and give the same results once every worker has delivered or is exhausted, which is so after as many elements as there are workers. |
| C108 | `Stack/RaiseModel.lean`: the iterators of the Stack area with outcomes `Py α`: sources, map, map_with_index, limit, filter (functions that may raise), batch, thread prefetch with exceptions in its buffer; `Stack/RaiseProcess.lean`: process prefetch with the exceptions of `next(it)` (those of other calls in the worker are left out); spec `Stack/RaiseSpec.lean`: a position in a stream of outcomes, where a checkpoint may stand for an earlier position with only exceptions between (`LagRun`, needed because of F91), and the streams that the transformations stand for | the simulation of C95 with a position that lags (`Raise.Follows`), layer by layer; the invariant of the thread prefetch keeps the exception with which its thread ended; a process prefetch follows its parent up to the first exception, and its checkpoints are those of positions before it; transformations that read several elements for one by `Reads`. `mp_prefetch` with several workers is C109. Zip, mix, other interleaves, window shuffle, packing and rebatch are left out: after an exception most of them lose or shift elements also without threads (F77–F81) |
| C109 | `Raise.ilTrans` is the interleave whose children may raise: the exception leaves `__next__` without turning the cycle; spec `workersOutcomes` (Stack/RaiseSpec.lean) | Verif/Stack/RaiseMultiLemmas.lean carries following a stream of outcomes (with lagging checkpoints) through a transformation with several inputs; Verif/Stack/RaiseTurns.lean proves that the interleave of as many inputs as its cycle length, each over after its first exception, gives the turns of the inputs. `RaiseStack.workers` makes `mp_prefetch` a layer of C108. `RaiseStack.anyWorkers` (Stack/RaiseInterleaveProps.lean) does the same for workers with any finite lists of outcomes, cut by `untilRaiseList`. Not modelled: endless datasets. |
| C110 | `Raise.multithreadPrefetchOver` = the interleave `Raise.ilTrans` over thread prefetches (Stack/RaiseMulti.lean), children that go on after exceptions | the turns of the inputs (`turnsOfInput`: a turn ends with an element) as invariant of the interleave (Stack/RaiseBlocks.lean: `bl_eval`, `mid_lag`, `blocks_computes`), then C108's `RaiseStack` with one more layer; the list of outcomes is a permutation of the dataset, keeps each thread's order and is the dataset up to the first exception; F113 for the order after it |
| C111 | `Raise.interleaveOver` with `n ≤ cycle` as a layer of C108's `RaiseStack`; spec `interleaveOutcomes` (Stack/RaiseSpec.lean) | C110's invariant, for any lists of outcomes of the inputs; the outcomes are a permutation of those of the inputs and contain each input's as a sublist. Not modelled: fewer slots than datasets; endless datasets |
| C112 | the models of C66 (Verif/Close/Model.lean): `close` and `get` of every iterator | induction on the pipeline: `close` changes no field that `get_state` reads, and the states of the parents are the same by induction (Verif/Close/StateProps.lean); for interleave by induction on the loop over the slots. Simplification: the buffer of a thread prefetch is left out (C29); `mp_prefetch` is not covered. |
| C113 | `prefetchSet`, `prefetchIter` (Verif/Iter/Model.lean) | Verif/Iter/PropsRefused.lean: by cases on the position; that the iterator never ends after a refused state by giving the infinite sequence of its states. The last part of the statement is false of the code (F114). |

## 5. Findings (properties false of the code)

Each is a theorem with a concrete witness; the property's positive part is proved under the hypothesis that
excludes exactly the failing case (`_partial`).

| # | property | what happens | theorem |
|---|----------|--------------|---------|
| F1 | C02 | `index_shuffle` is not a permutation when `max_index = 4^j`, j ≥ 8 | see `Verif/Shuffle/Props.lean` |
| F2 | C03 | window shuffle of a repeated dataset leaves its epoch; seeds of late windows overflow | see `Verif/MapDs` |
| F4 | C19 | flat_map: end-of-data state restored into a used iterator | see `Verif/Iter/PropsCheckpoint.lean` |
| F5 | C20 | rebatch: spurious empty batch | same |
| F6 | C27 | interleave: state saved after a restore into a used iterator (also by `repeat`) loses data | `interleave_save_after_restore_loses_data`, `repeat_interleave_loses_data` |
| F7 | C27 | interleave under `repeat(3)`: the starting state is overwritten through an alias, third epoch reads wrong datasets | `repeat_interleave_wrong_elements` |
| F8 | C22 | cache iterator | same as F4 |
| F9 | C12 | `repeat(None)` over an empty dataset does not return | same |
| F12 | C51 | prefetch after a read error | same |
| F24 | C15 | flat_map function raising: earlier outputs come again | same |
| F29 | C56 | thread prefetch with buffer size 0: `start_prefetch` (called by the checkpoint handler and by interleave) starts a producer that races with `__next__`; elements out of order | `thread_prefetch_size_zero_race` |
| F13 | C30 | process prefetch: if the parent's `set_state` raises in the worker, or the worker dies while a restore is pending, the next `next` never returns | `process_prefetch_set_state_error_not_reported`, `process_prefetch_failure_not_reported` |
| F32 | C31 | mp_prefetch of a dataset with elements filtered out: the order depends on the number of workers; `map_with_index` after `to_iter_dataset` gets per-worker indices | `mp_sparse_order_depends_on_workers`, `mp_map_with_index_depends_on_workers` |
| F15 | C33 | best-fit packing exceeds `max_sequences_per_bin` with examples without tokens | `best_fit_exceeds_max_sequences` |
| F22 | C32 | packing: after a too long example (ValueError) the end of the data raises `IndexError` instead of `StopIteration` | `packing_index_error_after_long_example` |
| F16 | C35 | concat-then-split: an element with features of different lengths that is split twice repeats tokens of the shorter feature | `cts_repeats_token` |
| F16b | C35 | concat-then-split: a scalar feature is repeated in every part of a split element | `cts_repeats_scalar` |
| F18 | C35 | concat-then-split with BOS and an empty sequence: `IndexError` and lost tokens, or a BOS token in the padding | `cts_bos_fails`, `cts_bos_in_padding` |
| F17 | C36 | concat-then-split: a state without remainder restored from JSON loses an element (`[-1, -1] != (-1, -1)`) | `cts_json_loses_element`, `cts_json_loses_row` |
| F3 | C40 | `IndexSampler` with an uneven split and several epochs: the shards do not see the same epochs, so records are missing and repeated; an empty shard raises | `indexSampler_uneven_epochs`, `indexSampler_uneven_witness`, `indexSampler_empty_shard` |
| F33 | C41 | `DataLoader` with `Filter` or `Batch`: order or contents depend on the number of workers | `dataLoader_filter_depends_on_workers`, `dataLoader_batch_depends_on_workers` (`FlatMap`: `dataLoader_flatMap_depends_on_workers`) |
| F25 | C45 | filter threshold counters: not reset after an error, not part of the checkpoint (a restored pipeline raises elsewhere or not at all); threshold 0 means none | `threshold_error_repeats`, `filter_threshold_not_checkpointed`, `threshold_zero_disables` |
| F28 | C26 | interleave of no datasets raises `IndexError` | `interleave_no_datasets` |
| F23 | C54 | a dataset object used twice in a pipeline is sliced twice in every worker: most elements are never read | `shared_prefetch_loses`, `shared_source_loses` |
| F26 | C55 | without JAX `MixedIterDataset` pairs dictionaries of datasets and proportions by insertion order | `mix_by_name_order` |
| F34 | C57 | without JAX rebatch concatenates different features when elements list their keys in different orders | `rebatch_mixes_features` |
| F35 | C58 | `sequential_slice=True` under `repeat`, slices (and other datasets that keep lengths): elements are repeated or read from outside the slice | `sequential_slice_repeat`, `sequential_slice_slice` |
| F20 | C39 | elastic iterator over datasets: a dataset that is used up when the checkpoint is taken is opened and read again after the restart, unless it comes before one of the datasets its host opens first | `elastic_rereads_used_up`, `elastic_rereads_used_up_hosts` |
| F21 | C38 | elastic map iterator: in the incomplete last global batch some shards still give a batch and others stop; their checkpoints then differ | `elastic_map_uneven_end` |
| F14 | C43 | `VariableSizeMultiprocessingQueue`: raising the limit while an earlier lower limit is still pending lets the queue exceed the limit, and repeating this without any bound | `mq_bound_false`, `mq_unbounded` |
| F36 | C37 | `PackAndBatchOperation`: the empty input raises `AttributeError`; a second call of the same operation emits the last batch of the first call again | `pack_and_batch_empty`, `pack_and_batch_second_call` |
| F37 | C48 | restoring an elastic iterator from a directory without a checkpoint raises nothing (other iterators: `ValueError`); a directory used again with another process count restores old states | `elastic_restore_without_checkpoint`, `reused_directory_restores_old` |
| F38 | C48, C38 | an elastic iterator over a `MapDataset` cannot be restored by the checkpoint handler when the number of processes has changed (`ValueError`: its file is looked up by process count) | `checkpoint_other_count_detected` |
| F39 | C59 | elastic iterator: after a change of the number of processes only the interleave is restored; what transformations above it hold (pending flat_map outputs, shuffle windows, indices) is lost | `elastic_flat_map_loses`, `elastic_window_shuffle_loses`, `elastic_map_with_index_restarts` |
| F40 | C49 | `get_next_index` counts positions of the random access dataset, not elements: with filtered elements it is not the number returned so far, `set_next_index(i)` does not move to the i-th element, and numbers of `map_with_index` change | `next_index_sparse`, `next_index_sparse_map_with_index` |
| F41 | C49 | batch: with a dropped remainder `get_next_index` counts one batch too many after the end; with a last smaller batch `set_next_index` of the end raises `IndexError` | `next_index_drop_remainder`, `next_index_end_of_batches` |
| F42 | C49 | interleave of one dataset: after the end `get_next_index` is 0 and `set_next_index` raises `AssertionError` | `next_index_interleave_end` |
| F43 | C60 | TFRecord: checksums are not checked (TODO in the code): a damaged length makes the reader return bytes of several records as one, or lose the rest of the file | `tfrecord_damage_unnoticed`, `tfrecord_damaged_length_overflow` |
| F44 | C61 | Parquet: a file without row groups raises when opened; of two columns with the same name only the last is returned; a worker without files (more workers than files) raises `IndexError` | `parquet_no_row_groups`, `parquet_duplicate_columns`, `parquet_no_files` |
| F45 | C62 | Without JAX, elements that are sequences of different lengths are batched without an error; the features beyond the shortest are lost | `make_batch_drops_features` |
| F46 | C64 | Batching into shared memory uses the first element's type: integers of a wider type in later elements are cut to it silently, floats after integers raise `TypeError`; a feature without values (shape with a zero) raises `ValueError` since shared memory of size zero cannot be made; all of these work without workers | `shm_batch_wraps`, `shm_batch_refuses_floats`, `shm_batch_refuses_empty` |
| F47 | C65 | `rebatch` states its batch size as a fixed dimension also with `drop_remainder=False`, where the last batch may be smaller (`batch` leaves the dimension open); mixing, concatenating and interleaving state the specification of the first dataset, right only if all have the same (the code says so in a comment) | `rebatch_element_spec_wrong`, `mix_element_spec_needs_equal` |
| F48 | C49, C56 | Thread prefetch: after `set_next_index` and `start_prefetch`, `get_state` asks the parent for its state while the producer thread reads it; the state is too far and elements are lost. With filtered elements `get_next_index` counts elements returned, but after `set_state` it is the parent's index; the same in process prefetch | `thread_prefetch_set_index_race`, `thread_prefetch_next_index_sparse`, `process_prefetch_next_index_sparse` |
| F49 | C41 | Legacy operations are generators: one that has ended stays ended, so `set_state` on a finished `DataLoader` iterator is accepted but nothing is read again; after an exception of the user function (which arrives as `ValueError`) the iterator stops while a new one restored from the state saved then reads on | `legacy_operation_stays_ended`, `legacy_operation_error_ends`, `legacy_operation_error_is_final` |
| F50 | C41 | A random map after `FlatMap` in a `DataLoader` is called with `None` for its generator, whatever the sampler's seed (the adapter builds the new records without one) | `dataLoader_random_map_after_flatMap`, `dataLoader_random_map_after_flatMap_no_rng` |
| F51 | C41 | With a `FlatMap` the loader's checkpoints are not validated: the state of a loader with another shard, source or sampler is accepted | `dataLoader_flatMap_accepts_foreign` |
| F52 | C66, C67 | `ElasticIterator.close` looks for an attribute `_base_iterator` that never exists (the cached property is called `base_iterator`): nothing is closed and `next` goes on returning elements | `elastic_close_does_nothing` |
| F53 | C67 | After `close`, `flat_map`, `rebatch`, `window_shuffle` and `cache` still hand out elements they hold; `limit`, `repeat` at their end and `mix` report `StopIteration` instead of `ValueError` | `flatMap_yields_after_close`, `rebatch_yields_after_close`, `windowShuffle_yields_after_close`, `cache_yields_after_close`, `limit_stops_after_close`, `repeat_stops_after_close`, `mix_stops_after_close` |
| F54 | C66, C67 | `close` of an iterator over a TFRecord file neither closes the file nor stops the iterator (parquet alike) | `tfRecord_close_does_nothing` |
| F55 | C66 | `get_state` or `set_state` of a closed interleave opens iterators that a second `close` does not close; below `repeat`, used up iterators that are kept are never closed | `interleave_save_after_close_opens`, `interleave_restore_after_close_opens`, `interleave_kept_iterators_stay_open` |
| F56 | C31 | `limit` and `batch` before `mp_prefetch` act in each worker: `limit(2)` yields 2·n elements with n workers, batches hold other elements and with `drop_remainder` elements are lost; `zip([ds.map(f), ds.map(g)])` over one `ds` loses elements (F23 seen from the output) | `parallel_limit_multiplies`, `parallel_batch_depends_on_workers`, `parallel_shared_zip_loses` |
| F57 | C68 | With more workers than interleaved datasets (or Parquet files) `mp_prefetch` and `multithread_prefetch` raise `IndexError` | `parallel_more_workers_than_datasets` |
| F58 | C06 | The length of a mix is one too small when rounding makes the quotient fall just below an integer: mixing datasets of 9 and 5 elements with the weights 9 and 5 yields 13 of the 14 elements | `mix_length_loses_element` |
| F59 | C06 | For components with more than 2^52 / (sum of proportions) elements (the sum is about 100·(sum of weights)/(least weight)) the length of a mix may be one too large and its last element a repetition | `mix_length_repeats_element` |
| F60 | C70 | Weights are scaled so that the least is 100 and truncated: weights 3 and 7 become 100 and 233, and the deviation from the weights grows with the number of elements (up to 1% of the share) | `mix_drifts_from_weights` |
| F61 | C69 | `ds.repeat().batch(1)` (without `drop_remainder`): the length rounds to 2^63, so `len()`, and with it iterating, raises `OverflowError` | `batch_of_endless_raises` |
| F62 | C69 | `RangeDataSource` raises `AssertionError` for ranges Python's `range` treats as empty (`start` beyond `stop`); lengths above 2^53 are rounded | `range_source_rejects_empty`, `range_source_too_short`, `batch_length_too_short`, `flat_map_length_overflows` |
| F63 | C71 | The documentation of `run_in_parallel` says the first exception is propagated; calls complete before `as_completed` is asked come in no particular order, so the exception of a later failure may be raised | `parallel_raises_later_failure` |
| F64 | C72 | `assert_equal_output_after_checkpoint` never restores the state taken after the last element, nor restores into a used iterator: it passes for iterators that start again, or repeat an element, then | `checkpoint_test_misses_end`, `checkpoint_test_misses_used` |
| F65 | C73 | `pick_performance_config` ignores the budget for datasets with fewer elements than `samples_to_check` (the maxima are chosen), and gives the whole budget both to the workers and to the buffer of each worker | `workers_ignore_budget`, `config_exceeds_budget` |
| F66 | C74 | when the thread a prefetch waits for has not recorded any time yet, the part of the prefetch is lost and the ratios do not add up to 1 (they can all be 0) | `waiting_time_lost` |
| F67 | C75 | the statistics of `interleave` and of worker processes do not count the nodes they add: if they are behind an input of `zip`/`mix` that is not the last, the numbers are given away again and the summary loses nodes and connects the rest wrongly | `summary_loses_nodes` |
| F68 | C77 | `interleave` drops the measurements of a dataset when its slot moves on to the next one: totals go down during a run | `interleave_forgets` |
| F69 | C76 | interleaved iterators are never marked as inner nodes, so each has its own reporting thread although the output's thread reports them too; two threads then pop one buffer: one can die of an `IndexError`, and updates get lost | `two_reporters_crash`, `two_reporters_lose_time` |
| F70 | C76 | the reporting thread ends when no element has been requested for two minutes (a long evaluation or checkpoint) and is never started again: the statistics stand still and the buffer of records grows without bound | `reports_stop_after_pause` |
| F71 | C79 | `ds.seed` promises every downstream random transformation a unique seed, but two transformations on different branches at the same distance from equal seeds derive the same one: `zip([s.random_map(f), s.random_map(g)])` with `s = ds.seed(1)` draws the same random numbers in both. `default_seed_unique_false` |
| F72 | C79 | `InterleaveIterDataset` registers no parents, so `ds.seed` on the interleaved datasets is not seen after the interleave: a following `random_map` without a seed raises `ValueError`. `default_seed_interleave_false` |
| F73 | C80 | interleave keeps the states of datasets that are not open yet (`future_states`, after a restore with another number of hosts) in a dictionary with int keys; JSON makes them strings and `set_state` does not turn them back, so they are never found again: the next save and restore, with the same number of hosts, reads those datasets again from their start. `future_states_lost`, `elastic_text_state_false` |
| F74 | C82 | `interleave` over a `MapDataset` of datasets from which some were filtered out: the loop counts all entries (interleave.py:139) but takes only those that remain, so `next(self._prefetch_ds_iter)` ends early and its `StopIteration` (141) leaves `__next__` while other datasets are still open. Their remaining elements are silently lost. `interleave_filtered_loses` |
| F75 | C83 | A view of an array in shared memory (a slice, a transposed array) is sent as the name of its block with its shape and data type, without offset and strides (shared_memory_array.py:101-106, 192-193), so the first bytes of the block arrive instead of the view; nothing is raised. A copy or a converted array (`x.astype(..)`) of such an array makes the worker fail with `AssertionError`; an element that holds the same such array twice makes `unlink_shm` raise `FileNotFoundError`; and if a block cannot be made, the blocks already made for the same element are not released. `view_crosses`, `derived_refused`, `shared_twice_discard_raises`, `copy_failure_leaks` |
| F76 | C84 | `mp_prefetch` with two or more workers switches the batching step of the dataset it is called on to shared memory, in place (process_prefetch.py:712-714, batch.py:552-560). Iterating that dataset in the main process afterwards leaves a shared memory block per batch until the process ends, and another pipeline `batched.map(lambda x: x[k:])` read through workers gets the first rows instead of the last ones. `batches_leak`, `batch_rows_cross` |
| F77 | C85 | When the input of `batch` raises in the middle of a batch, the elements already taken for it are lost, also from checkpoints taken afterwards: they are in a local variable and the input has moved on (batch.py:301-308). `batch_failure_loses`, `batch_with_failures` |
| F78 | C85 | `rebatch` loses the rows taken from earlier batches when the input raises before the new batch is full (rebatch.py:112-187). `rebatch_failure_loses` |
| F79 | C85 | After one exception of a later input of `zip` the inputs are out of step for good: the element already taken from the earlier input is gone and every later element is paired with the partner of its successor, without any exception (zip.py:104-136). `zip_failure_misaligns` |
| F80 | C85 | A mix treats every exception of a component like its end: it is finished from then on, also in checkpoints taken afterwards, so a caller that goes on (or restores) gets `StopIteration` although elements are left (mix.py:218-231). `mix_failure_ends` |
| F81 | C85 | When the input of `window_shuffle` raises while a window is filled, the elements read so far stay in the window unshuffled and come out last one first (shuffle.py:203-214). `windowShuffle_failure_unshuffled` |
| F82 | C85 | A checkpoint of `flat_map` taken after the read of the next element failed says how many outputs of the previous element were used and is applied to the next one, so after restoring its first outputs are skipped (flatmap.py:101-138). `flatMap_checkpoint_after_failure_loses` |
| F83 | C86 | `MapDataset.map` followed by `to_iter_dataset` skips elements for which the function returns `None`; `to_iter_dataset().map` returns `None` for them (map.py:163-170, 307-316; prefetch.py:242-300). `map_commutes_iff` |
| F84 | C86 | After a filter, `random_map` and `map_with_index` number elements differently before and after `to_iter_dataset`: before, filtered elements are counted, after, they are not, so the same pipeline written in the other order uses other random numbers and indices (map.py:219-236, 270-286, 349-366, 403-412). `random_map_sparse_differs`, `map_with_index_sparse_differs` |
| F85 | C86 | After a filter, `MapDataset.batch` passes `None` entries to the batch function while `IterDataset.batch` forms full batches of the remaining elements (batch.py:300-322, 444-468); likewise `MapDataset.zip` yields rows containing `None` and `IterDataset.zip` pairs elements of different positions. `batch_sparse_differs`, `zip_sparse_differs` |
| F86 | C86 | `IterDataset.flat_map` ignores `max_fan_out`, and returns `None` parts which `MapDataset.flat_map` followed by `to_iter_dataset` skips (flatmap.py:54-75, 101-117). `flat_map_fan_out_differs`, `flat_map_none_differs` |
| F87 | C86 | A mix of iterators goes on until the component to be read next is exhausted; the same mix of random access datasets stops earlier, at the length computed from the proportions (mix.py:35-78, 211-240). `mix_longer_after` |
| F88 | C08 | `ds.slice(indices)` does not reject positions outside the dataset: a negative position or one beyond the end is read from the previous or the following epoch, which for a shuffled dataset is not the element counted from the end (slice.py:100-103). `reindex_reads_other_epochs` |
| F89 | C87 | The class's `__next__` is replaced for the whole process, and each thread looks for filtering calls only in its own stack: an exception from a prefetching thread over an iterator class that any earlier pipeline had as its output class is filtered in both threads and carries the note twice (traceback_util.py:246-268, dataset.py:1781-1788). `note_per_thread` |
| F90 | C85 | A checkpoint of `cache` counts the elements that came, not the calls that raised. A new iterator given the state reads the input again from the start; the failing element raises again in the middle of this and, since the flag for rebuilding is already cleared, the next call goes on right there: elements that came before the checkpoint come again (cache.py:72-90). `cache_failure_repeats` |
| F91 | C85 | A checkpoint of a thread-prefetching iterator taken after an exception is the state before the failing element, however often it is taken and restored: the element is tried again after every restore, unlike with the iterator without prefetching (prefetch.py:623-651, 700-709). `thread_prefetch_failure_repeats` |
| F92 | C85 | process prefetching: an exception of the parent ends the data; the elements after the failing one are never returned (`StopIteration` for ever), and the state after the exception is the one before the failing element, so it fails again after every restore. `process_prefetch_failure_ends`, `process_prefetch_failure_repeats` |
| F93 | C88 | a transformation object with several base classes is applied as one of them only, without an error: an object that is a `Map` and a `Filter` filters nothing; which class counts differs between `ds.apply` and `DataLoader` (`MapWithIndex` + `Filter`, `Batch` + `Map`). `TfRandomMap` is refused by `ds.apply`, `MapWithIndex` by `DataLoader` (`TypeError` when the iterator is made). `apply_two_classes`, `apply_differs_from_loader`, `apply_other_classes` |
| F94 | C88 | where a map returns `None`, the next map of a dataset is not called and `None` is passed on, the next map of a `DataLoader` is called with `None`. `none_differs` |
| F95 | C89 | `flat_map` over an interleave: `set_state` keeps the state object it gives to the interleave, which overwrites its list of indices while the buffer is restored; a state taken before the next read of the input restores wrong elements | `flat_map_interleave_wrong_elements` |
| F96 | C89 | `window_shuffle` over an interleave: the same, `copy.deepcopy` is applied before the object is shared, not after; a state taken in the window of a restart repeats and loses elements | `window_shuffle_interleave_wrong_elements` |
| F97 | C89 | Concat-then-split packing keeps, with the remainder of a split element, the state object it gave to its parent's `set_state` (packing_concat_then_split.py:533, 545-551); an interleave below writes into that object, so a state taken after a restart can be wrong: tokens are delivered again and others are lost. `cts_interleave_wrong_tokens` |
| F98 | C90 | Thread prefetching with `prefetch_buffer_size=0` (`next` then reads synchronously) and `start_prefetch`: the queue is made with `maxsize=0`, which `queue.Queue` takes for unbounded, so the thread reads the whole input into memory without limit. `thread_prefetch_zero_unbounded` |
| F99 | C91 | `IterDataset.mix` promises that a component whose state is not found in the checkpoint starts from the beginning; `set_state` only skips it (mix.py:249-251), so in an iterator that has been read it goes on from where it was. `named_mix_restore_keeps`, `named_mix_used_not_reset` |
| F100 | C91 | The stop flag is part of the state: a mixture saved after one component was exhausted yields nothing after a restart with other components, although none of them is exhausted. `named_mix_stays_over` |
| F101 | C92 | The epochs of a mix have different data: the length is that of the component used up first, and in the next epoch the others go on where they were, wrapping round at another place (mix.py:72-78), so elements of a longer component are missing in some epochs and repeated in others. `mix_epochs_differ` |
| F102 | C92 | `select_from_datasets` passes indices beyond the length on to the user's selection map, and the map shown in the documentation raises `IndexError` for them (base.py:150-164): after `repeat(2)` the second epoch raises. `select_repeat_raises` |
| F103 | C93 | `cache`: a state saved after n elements and restored into a new iterator makes the next call of `next` read n+1 elements, everything from the beginning of the data (the cache is rebuilt, cache.py:70-80); every other transformation reads a number that does not depend on the position | `cache_restore_reads_all` |
| F104 | C94 | `SharedMemoryDataSource` strips zeros at the end of bytes (and strings): `SharedMemoryDataSource([b"a\x00"])[0] == b"a"`. Any binary record ending in a zero byte is silently changed. | `shared_source_loses_zeros`, `shared_source_bytes` |
| F105 | C94 | The space for a string is computed from its number of characters, but its UTF-8 bytes are stored: seven `é` come back as four `é`, other strings raise `UnicodeDecodeError` when read. | `shared_source_cuts_strings` |
| F106 | C94 | An index below `-len` is not rejected: for every non-empty source of integers `source[-len-1]` is 113, and lower ones return other elements. | `shared_source_negative_index` |
| F107 | C99 | `ElasticIterator` rejects `to_iter_dataset` ("does not support … prefetch") but not `ThreadPrefetchIterDataset` / `device_put` above the interleave; the shard states are taken below the prefetch while its thread reads ahead, so up to buffer size + 1 elements are lost at a resize | `elastic_accepts_thread_prefetch`, `elastic_prefetch_loses` |
| F108 | C99 | `ParquetIterDataset` is sliced per host, but a host left with exactly one file gets an iterator without shard states: `ElasticIterator` raises `ValueError` on that host only (3 files, 2 hosts) | `elastic_parquet_host_dependent` |
| F109 | C70 | Negative weights of a mix are accepted: two of them are used by their sizes, and with one of them the mix is built with a negative length and fails only when the length is asked for. | `mix_negative_weights_accepted` |
| F110 | C107 | `mp_prefetch` with several workers over `InterleaveIterDataset` (or several Parquet files): the state of a worker before its first element is computed in the main process from the pipeline that is not sliced (`_LazyWorkerSliceIterDataset.__iter__`, process_prefetch.py:662-664). It has `min(cycle_length, number of datasets)` slots, the worker's iterator `min(cycle_length, datasets of the worker)`: if the latter is smaller, restoring raises `IndexError` in the worker (interleave.py:262). So a checkpoint taken before every worker delivered an element cannot be restored, and `repeat` after `mp_prefetch` fails in the second epoch (or hangs, F13). `multithread_prefetch` slices at once and is not affected. | `mp_interleave_start_state_lost`, `mp_interleave_repeat_fails` |
| F111 | C30 | A worker process that fails at its start (`worker_init_fn`, unpickling, making the iterator; process_prefetch.py:218-232) after a state was restored: the exception is put in the queue (297-307) but discarded as an element from before the restore (515-524), and the exit code is 0, so `next` never returns, under every schedule. Without a restore it is raised. | `process_prefetch_start_failure_not_reported`, `process_prefetch_start_failure_reported` |
| F112 | C109, C31, C108 | With `mp_prefetch` of two or more workers, an exception of one element makes the rest of that worker's elements go missing: the interleave asks the failed worker again, which says `StopIteration`, and drops it; the other workers go on and the iteration ends as usual. With one worker the iteration ends at the exception (F92), with threads only it goes on with all elements. | `mp_prefetch_loses_elements_of_failed_worker`, `workers_outcomes_mem_iff` |
| F113 | C110 | `multithread_prefetch` gives the elements after an exception in another order than the dataset: an exception leaves `InterleaveDatasetIterator.__next__` before `_next_index_in_cycle` is advanced (interleave.py:125-130), so the thread that raised is asked again and its shard is one element ahead from then on. Two threads, element 1 of 0..5 raises: 0, exception, 3, 2, 5, 4 | `multithread_prefetch_reorders_after_exception` |
| F114 | C113 | `set_state` with a position past the end raises `IndexError` after it has moved the iterator there (prefetch.py:287-298): a user who catches the exception and goes on gets elements of later and later epochs for ever without prefetching, and with prefetching first the elements read ahead, under wrong positions, and then `IndexError` (pop from an empty deque) for ever; after a negative position elements are repeated | `refused_state_reads_for_ever`, `refused_state_raises_for_ever`, `refused_negative_state_reads_extra`, `refused_state_moves_iterator` |
