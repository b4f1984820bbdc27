# Formal model of lightonai/next-plaid in Lean 4

## 1. Layout

* `lean/Verif/Model/*.lean`: the model. Each definition cites the file and lines of /repo it models and states its simplifications.
* `lean/Verif/Spec/*.lean`: small independent specifications (plain lists, calendars, grammars, partitions) the theorems refer to.
* `lean/Verif/Proofs/*.lean`: helper lemmas.
* `lean/Verif/Props/*.lean`: the property theorems `Cnn_*`, each with a non-vacuity `example`, and theorems that refute a property (with a concrete witness, or for all inputs of a kind) where the code does not have it.
* `seeded/LOG.jsonl`: wrong programs tried against the theorems. `MANIFEST.json`: property/theorem table. `properties.jsonl`: the properties in English.

A name ending in `_partial` says that the theorem covers a part of its property; the missing part is named in its comment and in MANIFEST.json, and where the missing part is false of the code a theorem beside it says so.

## 2. Trusted base

* Lean 4.33.0's kernel. The axioms each theorem depends on are listed in section 6; they are among `propext`, `Classical.choice` and `Quot.sound`. No axioms are added; there is no `sorry`, `admit`, `native_decide` or `bv_decide`.
* Mathlib, as far as imported, is checked by the same kernel.
* The reading of the Rust source: the code was not executed; each definition was written by hand from the lines it cites. Nothing checks that a definition and its lines agree.
* Modelling conventions:
  * `usize`/`i64` are `Nat`/`Int` (no overflow) unless a definition says otherwise (`Model/Convert` wraps; conversions that clip are modelled).
  * A Rust panic or `Err` is an explicit value (`Fault.panic`, `Fault.err`), never a default.
  * Floating point: scores in search are elements of any linear order with the extra values NaN and infinities (`Model/MaxSim`, `Model/Search`); in fusion, ranking and pooling numbers are elements of an ordered field with a rounding after each operation (`Rounding`), laws of the rounding are hypotheses, and `Model/Double` gives IEEE 754 binary64 and binary32 with unbounded exponents as an instance that is proved to be lawful. In `Model/Outliers` the arithmetic is a parameter without laws.
  * Files are values; a directory is a record or a map of named files. `Model/Atomic` has a file system in which a crash loses unsynchronised changes; elsewhere a crash is a prefix of the list of effects.
  * rayon's ordered parallel iterators are modelled by their sequential meaning. Where a property is about interleavings (`Batch`, `Locks`, `Slots`, `Progress`, `Encode`, `Net`, `Pipeline`) there is an explicit transition system and the theorems range over all schedules.
  * Hash-map orders, ties in partial selection and SQLite's order of rows without `ORDER BY` are arbitrary (oracles and permutations the theorems range over).
  * SQLite is modelled as tables with transactional statements; FTS5 as a set of postings; its tokenizers and BM25 are parameters. `fancy_regex` and `globset` are modelled by their documented meaning for the syntax that colgrep generates.
  * The forward pass of the neural network, k-means' choice of centroids, tokenizers, tree-sitter parsing and hashing are parameters; what is assumed of them is written as a `Lawful`-like structure beside the theorem.

## 3. Per-property plan

| id | model | proof |
|----|-------|-------|
| C01 | `Model/Codec`: `new_with_store` tables, `quantize_residuals` bit loop, `decompress` table walk | bit-level lemma for the 4 widths (finite: 256 bytes x width, by kernel `decide`), induction on the number of bytes |
| C02 | bucket = number of cutoffs below v | induction on sorted cutoffs |
| C03 | `packbits`/`unpackbits` | induction on chunks of 8 |
| C04 | batched arg-max loops | arg-max lemma; batch split lemma |
| C05 | system calls of `atomic_write_file` over a crashing file system | invariant over every prefix of the calls and every surviving part |
| C06 C07 C08 C09 C10 | on-disk index: chunks (doclens, codes, residuals), IVF and lengths, metadata; create, append, delete, load | abstraction function to a list of documents; invariant; each operation commutes; induction over histories |
| C11 C12 | directory with embeddings.npy, buffer files; `MmapIndex::update` with its three modes; `clean_embeddings_files` | invariant "raw files = prefix / suffix of documents"; counterexamples where the code breaks it |
| C13-C18 | `search_one_mmap`, batched variant, probing, candidate gathering, three ranking phases over an abstract score type | list lemmas on sort/truncate; IVF exactness from C07 |
| C19 | simple/batched/lane-wise max | fold lemmas |
| C20 | validate-then-map | direct |
| C21 | header writer and parser on bytes | round trip on decimal numerals |
| C22 | merge with manifest, mtimes | invariant linking manifest and merged file |
| C23 C24 C40 C41 | metadata tables with range updates, conditional updates, chunked lookup | sequential-shift lemma, then two-store refinement |
| C25 C26 | char-level tokenizer, recursive-descent validator with fuel | soundness/completeness against an inductive grammar |
| C27 C43 | sanitisers and identifier tokenizer on character lists | output grammar; decomposition lemmas |
| C28 C29 C30 | fusion and chunked filtered search over an ordered field with rounding | list lemmas; top-k of a union of top-k |
| C31 C44 | worker as a state machine over arrival/timeout events | invariant over schedules, measure for progress |
| C32 C33 C45 | eviction, repair and batches of deletions over the two-store model with crash points | refinement; counterexamples for interrupted deletes |
| C34 C35 C36 | transition systems over API events | inductive invariants; counterexamples as schedules |
| C37 | integer arithmetic of `civil_from_days` | inverse of a day count; successor law |
| C38 | append of centroids, tiled min-distance | fold over tiles |
| C39 | conversion of legacy files, byte for byte | direct; witnesses |
| C42 | postings kept beside the tables | invariant over histories; witnesses |
| C46 | path joining and resolution | lemmas on components; `..` and absolute names for all directories |
| C47 C48 | JSON values, affinity, column inference | case analysis, invariant over histories |
| C49 C50 | colgrep's plan, incremental update, resumable build, rebuild, with interruption at each write | invariant linking state file and index; witnesses |
| C51 C52 C53 | colgrep's glob-to-regex translation, brace expansion, filters; parser and matcher of the generated regular expressions | relational semantics of patterns; translation lemma |
| C54 C55 | result list, collapse by file, ranking signals | list lemmas over arbitrary hash orders |
| C56 C57 C58 | batching, ordering, threads over bounded channels, tensors of a batch | permutation lemmas; invariant and measure over schedules; padding invariance |
| C59 | nearest-neighbour chain, union-find cut, means | dendrogram invariant for any arithmetic; reducibility of Ward's dissimilarity in exact arithmetic; kernel-evaluated run in IEEE doubles for the endless loop |
| C60 | pool of encoding workers: queue, lock, batches, groups, answers, panics | invariant over schedules (multiset of requests), measure for progress |
| C61 | reranking: embeddings in JSON or base64, binary32 arithmetic, stable sort | round trip (base64, little-endian), error bound by induction over the sums, order by induction over the sort |
| C62 | cutting a file into units: attributes, functions, classes, constants, gaps; text files; Vue, Svelte, HTML; parser and tree as parameters | structural induction over trees (definitions), induction over lines with an invariant for the open gap; refutations by witness |
| C63 | the same model; ranges and code of units | induction over trees and lines |
| C64 | `build_call_graph` | characterisation of the sorted, deduplicated list; refutation by witness for updates |
| C65 | `search` and the three endpoints that delegate to it; one world per read of the shared state | inversion of the handler for answers and for refusals; composed with C13, C28–C30, C40; refutations by witness |
| C66 | `calc_display_ranges`, the printing functions, `find_representative_lines` (scores a parameter), `PatternMatcher`, the output half of `cmd_search` | invariant of the merge loop; induction over ranges; refutations by witness |
| C67 | `filter_by_text_pattern_with_options`, `bre_to_ere`, `escape_literal_braces`, the engine's syntax; a grammar of patterns with both spellings as the specification | both rewritings and the parser by structural induction on patterns; refutations by witness |
| C68 | the section in `AGENTS.md`, the entry in Codex's `config.toml`, the removal of hooks from `settings.json`; the specification is a state machine of the file as its owner sees it | first occurrences of the markers by an argument on letters; induction over histories; lemmas on association lists; refutations by witness |
| C69 | the store of index directories, their names, the choice of the index by search, init and clear; updates by their outcome | invariant over histories (directories stand where their projects say); the loop over directories by induction; pigeonhole for the clash of names |
| C70 | drawing of documents, number of clusters, held-out rows, quantiles, cutoffs and weights, over any rounding; k-means and the shuffle are parameters | monotonicity of the exact quantile and a bound on rounding; counting of cutoffs below a value; ranks of distinct values; refutations by witness |
| C71 | the six endpoints over the metadata store, each look at the disk on its own | from C23, C40, C41; the split for any interference by cases |
| C72 | the list of worktrees, the choice of the sibling, the copy in three looks, then the runs of C49 | the seeded state is that of a run over the sibling's contents with the present times (invariant of C49); contents of files recorded with their time and size are never read; refutations by witness |
| C73 | JSON text: writer in both layouts, reader with escapes, numbers and the limit of nesting; the five records and how their files are written | structural induction on values with any text after them; reading is not changed by more text, so a proper prefix of a container is refused; invariant over histories for the configuration |
| C74 | the settings record with its file (C73), the two commands that change it, the functions that resolve each setting | every command is read, change, write; per setting one step law, then induction over histories |
| C75 | the character automaton over patterns, the merge of token lists | induction over the syntax of patterns with the invariant that the collected text has the words of the literal text; merge by the unique list of words of a text |
| C76 | files with numbers, paths, the cache of connections, reads in two halves | simulation of one database per path by induction over calm histories; an invariant (connection to a file at no path) for the stale ones; the server's repair with the count as it is read |
| C77 | the walk over a tree of files, links and directories, the ignore function, the resolution of paths, the table of languages | mutual induction over trees (files found = files at a path whose way is kept), induction over the resolution of paths |
| C78 | the single-table layouts, the move to version 1, the branches of all calls for them | refinement to a list of rows by induction over histories, reusing the lemmas of C23 for the table and the renumbering |
| C79 | the text built for a unit, the words of its path, the cut to a limit | the loop over the path refined to a direct cutting into words, an inductive specification of words and gaps; list algebra for lines and cuts |
| C80 | single, complete, average and weighted linkage over distances that may be infinite or not numbers; the upper half of a matrix; the cut at a distance | invariant of the loop (a tree, and the distance of every two live clusters is the method's distance of their members), the union-find lemmas of C59 for the cut |
| C81 | steps of any number of processes: open the lock file, try, proceed, die, time passes; lock files as numbered files that outlive their directory | invariant over all histories (who owns which file, how many files were made), pigeonhole; witnesses for clear and rebuild |
| C82 | the six array readers of `mmap.rs` with 64-bit wrapping sizes, `from_raw_parts` beyond the file as an outcome of its own; the three raw writers | round trip by list lemmas; reads by arithmetic without overflow; witnesses with overflow |
| C83 | the index directory as a list of directories with `config.json` and `metadata.json`, the cache of configurations, every request as a function; for overlaps a transition system of one index with the lock, the cache and the file as separate steps | refinement to a server without a cache by an invariant over requests; invariants over all schedules; witnesses for the races |
| C84 | an update as the list of its writes, each of which may fail or be the last; matrices with their widths and ndarray's `assign` (equal widths are copied, width one is repeated, others panic); buffer, raw embeddings, server batch with repair | invariant `Fit` over histories of updates and deletions; case analysis over the writes; general theorems on what a buffer of another width does; witnesses for interruptions |
| C85 | one index of the server over its life: queue and worker (C31), batches into the directory (C84), declaring, removing, and workers that outlive their queue | invariant by induction over the events: the directory and the metadata are what was handed over; composed with C31; a general refutation and three schedules |
| C86 | the record of a unit with its 22 fields, its row, the columns' types, the repair of types after reading, the reading of the record; the last steps of both searches | columns are typed as declared, by induction over histories; composed with C40 (lookup), C47 (values) and C73 (lists through JSON); case analysis over the fields |
| C87 | the sessions' threads, their queue, mutexes that a panic poisons, the pooling thread, both channels and destructors, as a transition system; encoding and pooling are parameters that may panic | accounting invariant (queue, held, sent and lost chunks are a permutation of all chunks) over all schedules; a decreasing measure for termination; the placing of chunks is shared with C56 |
| C88 | both selecting functions: validation, the choice between one table and the join, resolution of names ignoring case, parameter count, three-valued evaluation of the condition at every row, the function `regexp` registered on the shared connection | the evaluator is proved equal to an independent definition of truth by induction on conditions; rows of either source stand for the rows of the listing (Rep invariant of C23); names are found in the text because the reading spells them |
| C89 | `Sdk`: the Python package's units, stable sort by line, merging, language names; the parser (`extract_units`) and lower-casing beyond ASCII are parameters | induction over insertion and deduplication; case split over languages |
| C90 | `Qml`: the walk over the syntax tree of a QML file, units of objects, components, signals, properties and handlers; scripts as in `Units`; the parser is a parameter | mutual induction over trees: no panic, sound, complete, counted |
| C91 | The text of a metadata value when it is added (`collect_text_parts`, on JSON trees) and when it is read from its column again (`json_to_sql`, type affinity, the column loop of `rebuild` and `update_rows`), the `unicode61` tokenizer (maximal runs of word characters), `update_with_metadata`. | Specification: the words of a JSON tree by structural recursion, with or without keys and nulls. A separator character splits the words of a text (induction); compact JSON text is then decomposed by mutual induction. Histories: instance of C42 over JSON trees. |
| C92 | `Facts`: syntax trees (kind, field, text, children), the walks over them and what is noted: calls, control flow, variables, parameters, return type, parent class | Specification: the nodes of a tree in the order of the text, names at the end of a callee, declarators of C; induction over trees, with the recursion limit |
| C93 | `Imports`: import nodes of a file, the module named by the text of an import, accesses, the filter for a unit | Induction over trees (nodes reachable without passing an import); words of the text of an import characterised by splitting at white space |
| C94 | `Docs`: `extract_docstring` on the lines of a file and the row of a unit, for every language; `trim_start_matches`, `trim_end_matches` | Specification: the maximal block of lines above a row that are comments, blank or attributes, and what each says after its marks (relations on texts). The upward loops are shown to read exactly that block, by induction on the block from below; canonical comment blocks for `/** */` and `(** *)`. |
| C95 | `Gpu`: the two kernels thread by thread on buffers, `cublasSgemm` as documented, batches, copies, failing calls, the choice between GPU and CPU, `encode_index_chunk`; the context of the process and the panic hook as state machines | A launch writes every place once, so any order of the writes gives the same buffer (permutation lemma); the loops by induction on batches with the buffer of residuals as invariant; the argmax of the GPU is the first best, that of the CPU the last; composition with C01 for what is decoded; invariants over all interleavings for the context |
| C96 | `Runtime`: files, environment, search order, archives, extraction as a list of writes with crash points, the restart for cuDNN | Case analysis of the decision logic against `Loadable`; the writes of an extraction by induction from the right (last entry wins); torn writes as an inductive relation; bounded restarts because the marker is set |
| C97 | `Interrupt`: the six threads of the indexing pipeline with bounded channels, the flag and the counter of critical sections, failures, joins and the end of the process | Invariants of a transition system by induction over runs (units in flight, index and database in step, which threads have ended); progress by induction along the pipeline; a weight that every step but a signal decreases; refutation by a concrete schedule |
| C98 | `Device`: environment, modes, flags, features of a build, execution providers with what ONNX Runtime makes of them, index builders and searches of a process in sequence | Case analysis; invariants on the environment by induction over sequences of commands; equivalence for automatic mode; refutations in general form |
| C99 | `Retry` over `Interrupt`: the second attempt starts with what the first has left | A run over a non-empty index simulates one over an empty index, so C97 applies; counting; concrete schedules for the refutations |
| C100 | `Padding`: `pad_sequences` with its loops of writes, `create_mask`, `normalize_rows`, `row_norms`; entries of any type, real numbers for norms | The writes fill blocks (induction over rows and sequences); the mask picks the blocks' fronts; algebra of norms |
| C101 | `Stderr`: descriptor 2, the panic hook, buffers of calls; programs of one thread; calls of two threads as their entries and ends | Induction over programs; refutations for every state or body |
| C102 | `Stats` over `Colgrep`: the count, the stamp of the format, routing by the format, histories of runs and searches, stale saves | The invariant of C49 does not see the count, so its induction extends to histories; fixed point of runs and concrete interleavings for the refutations |
| C103 | `Uninstall`: paths from the environment, removals that may fail, the loop of `clear --all` with locks | Characterisation of the files left, by induction over the directories; frame theorems for failures |
| C104 | `index_specific_files` over the store, state and pipeline of C49: the three kinds of files, what is parsed, the deletion of old documents, the new documents, the state saved at the end, the early returns, an interruption at any number of units | An invariant (the index can be trusted) kept by every plain call and established by the empty index and by calm runs; for other files, the documents at every moment of the log; five counterexamples |
| C105 | `colgrep update`: the search for the key in the answer, the comparison, the pipeline `curl … \| sh` whose status is that of the shell | The version read is characterised by an equivalence; case analysis of the command; counterexamples for every installed version |
| C106 | the table of routes, the stack of layers of each router, the settings, a token bucket per client, semaphores, request ids | case analysis over the table with a general lemma on overlapping patterns; induction over arrivals with the credit as potential; invariant over schedules of arrivals and answers; library behaviour taken from documentation |
| C107 | the server over several lives: HTTP requests under way, both queues with their workers, the signal, the end of the runtime | invariant over all schedules on top of the invariants of `Batch`; loss shown by explicit schedules for every setting |
| C108 | how a shell reads the path in double quotes, the sequence of commands of installation and removal over what Claude Code knows, the count of files of the hooks | induction over the characters of the path; case analysis over the calls that succeed; the loop with early exit equals the count, by induction |
| C109 | `get_distinct_strings` over the two-table store of C23 (`Model/Distinct.lean`); SQLite's `DISTINCT`, text conversion and result order are parameters with laws | Invariant over all histories that each column is in the table its name says, then the selected column equals the column of the listing; reading is characterised by induction on the values |
| C110 | `compute_centroids` in its three builds, the training step of `compute_kmeans`, the CUDA flag and context, `compute_centroids_from_documents` with broadcasting, `catch_cuda_panic` as steps of threads (`Model/Centroids.lean`); k-means and the behaviour of the GPU are parameters | Case analysis for one call, induction over histories for the flag; induction over nested schedules for the hook, a witness schedule for its loss |
| C111 | `ensure_model` over the cache of hf-hub with a network that may answer each request with another revision, `select_onnx_file`, the choice of the token (`Model/Hub.lean`) | Induction over the list of files with the invariant that cache and network know one revision; witnesses for a moving repository |
| C112 | `trace_log`, `trace_log_results`, `trace_enabled`, `json_escape` as functions to text, and the standard error as the text of all calls (`Model/Trace.lean`) | Round trip through the reader of JSON of C73 by induction over the query and over the lists; no control character in a record, so that lines and records agree; witnesses for scores that are not finite |
| C113 | `copy_dir_all` step by step over a directory tree, and the removal, copy, removal and rename of `try_seed_from_sibling_worktree` (`Model/CopyTree.lean`) | Mutual induction over the tree: what the steps leave alone and what they make; an invariant of all steps before the rename; induction over attempts |
| C114 | `find_existing_parent_and_list` over an arbitrary file system (`Model/Nearby.lean`) | Induction over the components of the path; permutation and order of the list; general refutations for relative paths and files in the way, witnesses for the note and the order |
| C115 | The three registries behind their mutexes, with poisoning, and the two settings read once (`Model/Registry.lean`) | Induction over the sequence of requests with the invariant that what was made differs and no mutex is poisoned; a general refutation for a setting of zero |
| C116 | The permits, started tasks, lock queue and ended tasks of each index as a transition system (`Model/Pending.lean`) | Invariant that free permits and unfinished additions make up the limit, and a permutation carried over the history; a measure for the draining; a general refutation of the order |

Every property can be expressed in a model; where a part depends on floating point, the OS or SQLite internals the property is labelled partial in MANIFEST.json, or the assumption is a hypothesis, with the missing part named.

## 4. What is modelled and what is not

| module of the model | code |
|---|---|
| `Codec` | next-plaid/src/codec.rs (construction, quantisation, packing, decompression, compression into codes), utils.rs `packbits`/`unpackbits`, kmeans.rs assignment |
| `MaxSim` | next-plaid/src/maxsim.rs |
| `Index` | next-plaid/src/index.rs, update.rs, delete.rs: creation, append, delete, centroid expansion, buffered update, load |
| `Outliers` | next-plaid/src/update.rs `find_outliers` |
| `Search` | next-plaid/src/search.rs, embeddings.rs |
| `Npy`, `Merge`, `Convert` | next-plaid/src/mmap.rs: array files, merged-file cache, conversion of legacy files |
| `Atomic` | next-plaid/src/utils.rs `atomic_write_file` |
| `Db`, `Json`, `Condition` | next-plaid/src/filtering.rs: tables, values, validation of conditions |
| `TextQuery`, `Fts`, `Fusion` | next-plaid/src/text_search.rs |
| `Store` | index and metadata together (index.rs `update_with_metadata`, `delete`) |
| `Server`, `Batch`, `Locks`, `Slots`, `Progress`, `Paths`, `Calendar` | next-plaid-api/src/handlers/documents.rs, handlers/metadata.rs (locks only), state.rs |
| `Encode`, `Prepare`, `Hierarchy`, `Double` | next-plaid-onnx/src/lib.rs (batching, batch preparation, cutting of outputs, pooling), hierarchy.rs (Ward) |
| `Colgrep`, `Net`, `Pipeline` | colgrep/src/index/mod.rs (indexing runs, pipeline), index/state.rs |
| `Globs`, `Regex`, `Include`, `Filters` | colgrep/src/index/mod.rs (pattern functions and filters) |
| `Results`, `Ranking` | colgrep/src/index/mod.rs and commands/search.rs (results), ranking.rs |
| `EncodePool` | next-plaid-api/src/handlers/encode.rs (worker pool) |
| `Single` | f32 arithmetic (IEEE binary32) |
| `Rerank` | next-plaid-api/src/handlers/rerank.rs; next-plaid-api/src/models.rs (base64 and JSON embeddings); `to_ndarray` of search.rs and documents.rs; next-plaid/src/filtering.rs `base64_encode` |
| `Units` | colgrep/src/parser/{mod,extract,text,vue,svelte,html,call_graph}.rs: from a syntax tree to units; not: tree-sitter, node kinds per language, signatures' and docstrings' texts, control-flow analysis, qml.rs |
| `SearchApi` | next-plaid-api/src/handlers/search.rs (all handlers, `fetch_metadata_for_docs`); the call structure of text_search.rs `search` and `search_filtered`; not: FTS5, overflow of `top_k * 3`, logs and timings |
| `Display`, `Ere` | colgrep/src/display.rs (not: the scores of lines, 134-289; syntect), the output half of colgrep/src/commands/search.rs with `PatternMatcher`; `bre_to_ere` and `escape_literal_braces` of index/mod.rs; not: `--json`, padding, messages on standard error |
| `TextFilter` | `filter_by_text_pattern_with_options` of colgrep/src/index/mod.rs, `where_condition_regexp` with `code REGEXP ?` of next-plaid/src/filtering.rs as a scan of rows; not: rows without code, a broken database, limits of the engine, syntax outside the grammar of `Spec.Pat` (ranges and classes in sets, look-around, back-references, lazy quantifiers) |
| `Install` | `add_to_agents_md`, `remove_from_agents_md` of colgrep/src/install/{codex,opencode,hermes}.rs, `add_sandbox_writable_root`, `remove_sandbox_writable_root` (on parsed TOML), `remove_hooks_from_settings` of claude_code.rs (on parsed JSON); not: the file system's failures, printing of TOML and JSON, calls of `claude`, Hermes' skill directory |
| `Places` | colgrep/src/index/paths.rs (not: the lock, environment variables), the choice of the index in commands/search.rs (1074-1260), commands/init.rs and commands/clear.rs; not: seeding from a worktree, rebuilding a damaged index, Windows paths |
| `Train` | next-plaid/src/kmeans.rs `compute_kmeans`, `estimate_num_partitions`; next-plaid/src/index.rs 182-284, 551-666 (sampling, residuals, quantiles); next-plaid/src/utils.rs `quantile(s)`; not: k-means, average residuals, square roots and logarithms as floating point, not-a-numbers |
| `MetaApi` | next-plaid-api/src/handlers/metadata.rs; not: tracing, I/O errors of SQLite |
| `Worktree` | colgrep/src/index/worktree.rs; seeding in colgrep/src/index/mod.rs (164-199, 1628-1635, 1972-2048); not: failures of the copy |
| `JsonText`, `Records` | the JSON files: serde_json as used for metadata.json, doclens.N.json, config.json, state.json, project.json; next-plaid/src/index.rs 104-155, next-plaid-api/src/state.rs 464-511, colgrep/src/index/state.rs 17-104, colgrep/src/index/paths.rs 21-62; not: printing of floating point numbers (parameter), bytes that are not UTF-8, `index_configs` locks |
| `Settings` | colgrep/src/config.rs, colgrep/src/commands/config.rs, resolve functions of colgrep/src/commands/search.rs; not: the loading of a model in set-model (a truth value), defaults that depend on the machine (parallel sessions, batch size) |
| `Enhance` | colgrep/src/commands/search.rs 233-358, 1508-1512; white space and lower case are parameters |
| `DbConn` | next-plaid/src/filtering.rs 656-731, the removal in `create`; documents.rs 109-192 with the count as read; assumed: a SQLite connection goes on reading the file it was opened on; not: errors between the check for the file and its opening |
| `Scan` | colgrep/src/index/mod.rs 42, 1764-1820, 2690-2945, colgrep/src/parser/language.rs 8-66; git's exclusions and lower case are parameters; not: entries that cannot be read |
| `Legacy` | next-plaid/src/filtering.rs 747-877, 911-949, 1332-1463, 1646-1765 and the single-table branches of get, where_condition and update_where; not: column names that differ only in case, columns without a type |
| `EmbedText` | colgrep/src/embed.rs 1-212; not: `to_lowercase`, `is_uppercase`, `is_whitespace` themselves (parameters), paths with `..` or a root |
| `Linkage` | next-plaid-onnx/src/hierarchy.rs 33-48, 90-111, 286-394, 520-589; not: overflow, negative infinity |
| `ProcLock` | colgrep/src/index/paths.rs 238-288, with its uses in index/mod.rs, commands/clear.rs, commands/search.rs; not: a directory removed between its making and the opening of the file |
| `ArrayFile` | `mmap.rs:58-400, 750-1066`; not: alignment (C21), `ndarray` itself (its shape check is a definition), the order flag and type of an NPY header, which the readers ignore |
| `Catalogue` | next-plaid-api/src/state.rs 346-360, 459-530, 690-755, handlers/documents.rs 48-80, 959-1117, 1420-1490, 1598-1658; not: failures of the file system, the queues |
| `ConfCache` | the same functions for one index, in steps; not: removal of a directory file by file, documents stored meanwhile |
| `Abort` | next-plaid/src/index.rs 927-971, 1431-1591, update.rs 132-396, 621-751, 760-1130, delete.rs 66-398 with widths and failures, documents.rs 109-192, 400-560, 1142-1181; not: compression, interruptions inside one chunk or one creation, several chunks in one call, samples smaller than the collection |
| `Accepted` | documents.rs:289-380, 400-560, 959-1035, 1420-1490, 1509-1598 put together over `Batch` and `Abort`; not: batches interrupted by a removal (`Locks`), eviction, deletions |
| `Shown` | colgrep/src/index/mod.rs 830-834, 4044-4074, 4197-4233, 4413-4441, parser/types.rs (`CodeUnit`, `Language`, `UnitType`); not: penalty and boosts (`Ranking`), paths that are not Unicode |
| `Stream` | next-plaid-onnx/src/lib.rs 783-855, 1379-1487; not: failure to spawn a thread, the order in which captured variables of a panicking thread are dropped |
| `Where` | next-plaid/src/filtering.rs 535-561, 670-716, 1880-2059; not: SQLite's own parser (names that are SQL keywords must be quoted), short-circuit evaluation that skips a failing REGEXP, the condition `1=1`, databases of the first layout |
| `Sdk` | colgrep/python-sdk/src/lib.rs 158-297, 330-470; colgrep/src/parser/types.rs 51-100; not: PyO3 glue, `to_dict`, `extract_units`, `build_embedding_text` |
| `Qml` | colgrep/src/parser/qml.rs 17-400, 486-539; not: tree-sitter, `extract_qml_imports`, variables and parameters of units |
| `Words` | next-plaid/src/text_search.rs:78-84, 269-296, 651-660, 896-905; filtering.rs:616-650; index.rs:1604-1630; not: `trigram`, the identifier-aware tokenizer (see C27, C42), printing of floating point numbers (parameters), ranking |
| `Facts` | colgrep/src/parser/analysis.rs:7-98, 403-761, 1182-1323; not: tree-sitter and its grammars (theorems hold for every tree), `char::is_alphabetic` (parameter) |
| `Imports` | colgrep/src/parser/analysis.rs:763-1178, extract.rs (the filter of imports); not: tree-sitter, Unicode tables (parameters) |
| `Docs` | colgrep/src/parser/analysis.rs:99-400; not: tree-sitter (rows, kinds and fields of nodes are given) |
| `Gpu` | next-plaid/src/cuda.rs (all but loading of the driver and compilation of kernels), index.rs:17-40, 289-371, 730-776, codec.rs:260-293; not: arithmetic of f32 and of cuBLAS (parameters), tearing of single writes |
| `Runtime` | colgrep/src/onnx_runtime.rs:35-170, 206-217, 373-448, 530-845; not: the search for cuDNN (its answer is given), the paths searched after the first (given), HTTP, gzip/zip/tar (an archive is its entries), permissions |
| `Interrupt` | colgrep/src/signal.rs; colgrep/src/index/mod.rs:489-985; not: what the stages compute (C57), k-means and coding threads of a new index (one with the index thread), memory order of the two relaxed loads, thread spawning |
| `Device` | colgrep/src/acceleration.rs; colgrep/src/main.rs:62-70; colgrep/src/index/mod.rs:212, 263-310, 1162-1437, 3622-3750; next-plaid-onnx/src/lib.rs:218-320, 401-554, 1009-1017; next-plaid/src/lib.rs:71-84; not: how cuDNN and ONNX Runtime are found (C96), number of sessions and batch sizes, the provider `Auto`, which colgrep does not use |
| `Retry` | colgrep/src/index/mod.rs:1381-1433; not: threads of the first attempt that still run during the second |
| `Padding` | next-plaid/src/utils.rs:160-182, 234-281; not: rounding, NaN |
| `Stderr` | colgrep/src/stderr.rs; not: other platforms than unix, backtraces, single instructions of an entry or an end in another thread's order |
| `Stats` | colgrep/src/index/state.rs:66-114; colgrep/src/commands/search.rs:1639-1644; colgrep/src/commands/stats.rs:80-111; colgrep/src/index/mod.rs:1646-1672; not: printing of statistics, a state.json that cannot be read |
| `Uninstall` | colgrep/src/install/uninstall.rs:12-68, 118-184; colgrep/src/index/paths.rs:65-91; colgrep/src/config.rs:507-515; colgrep/src/commands/clear.rs:17-52; not: taking colgrep out of other tools (C68 has the editing of their files), empty directories, links |
| `Specific` | colgrep/src/index/mod.rs:1752-1951 (`index_specific_files`); not: files of unknown language, a file that changes while it is read, a Ctrl+C between the parsing of two files, the text index |
| `SelfUpdate` | colgrep/src/commands/update.rs:1-105; not: Windows, what the installer does beyond the installed version |
| `Surface` | next-plaid-api/src/main.rs 290-505, tracing_middleware.rs 61-90; not: Swagger UI, 404 and 405, preflight, the source of axum, tower and tower_governor |
| `Shutdown` | next-plaid-api/src/main.rs 260-288, 897-907 with documents.rs 289-380, 722-824; not: removal of the index, the source of tokio |
| `Plugin` | install/claude_code.rs 46-198, 277-370, commands/hooks.rs 8-64, 108-118; not: messages, Windows, the programs called, the walk over the directory |
| `Distinct` | next-plaid/src/filtering.rs:537-562, 2061-2123 (split layout); not: the old single-table layout |
| `Centroids` | next-plaid/src/kmeans.rs:58-240, 330-412, next-plaid/src/cuda.rs:32-59, 99-182; not: k-means itself (fastkmeans-rs), the driver |
| `Hub` | colgrep/src/model.rs:1-73, next-plaid-onnx/src/lib.rs:1668-1696; not: hf-hub itself (its cache is modelled as documented: one directory per revision, the revision last seen is recorded, a file of the recorded revision is not requested again) |
| `Trace` | colgrep/src/index/mod.rs:4299-4382; not: the rounding of an `f32` to six places (a finite score is its sign and its number of millionths), `to_string_lossy`, other writers to the standard error |
| `CopyTree` | colgrep/src/index/worktree.rs:100-123, colgrep/src/index/mod.rs:2008-2020; not: a source that changes during the copy (C72), permissions, a full disk other than as a stop between steps |
| `Nearby` | colgrep/src/commands/search.rs:963-1011, 1035-1041; not: entries that cannot be read one by one, names that are not Unicode |
| `Registry` | next-plaid-api/src/handlers/documents.rs:38-46, 210-221, 270-324, 718-750; not: the workers (`Batch`), tokio itself (that a channel for no elements and more than 2^61-1 permits panic is taken from its documentation) |
| `Pending` | next-plaid-api/src/handlers/documents.rs:249-257, 275-284, 1182-1325; not: the work of a task (`Index`, `Batch`), other holders of the lock of the index (`Locks`), a panic outside the blocking task |

Not modelled:

* next-plaid: cuda.rs; the iterations of k-means (the fastkmeans crate); in `Index` the learned numbers are parameters, how they are learned is `Train`; SIMD instructions themselves (lanes are modelled); file locks between processes; I/O errors other than those named in the definitions; NPY headers with non-ASCII characters.
* next-plaid-api: HTTP routing, rate limits, models.rs (serialisation), handlers/encode.rs, tracing, main.rs start-up.
* next-plaid-onnx: sessions and execution providers, the tokenizer's own algorithm, downloading and configuration of models; linkage methods other than Ward's.
* colgrep: tree-sitter itself and the node kinds of each language (`Units` starts from a syntax tree), parser/analysis.rs and qml.rs, parsing of the command line, the scores of representative lines and syntax colours, ONNX runtime download, configuration files.
* The Python SDKs.

## 5. Where the code does not have a desired property

Each is a theorem (or several) of that name in `lean/Verif/Props`.

| theorem | what happens |
|---|---|
| `C08_empty_append_loses_documents`, `C11_empty_update_loses_documents` | an empty batch removes documents from view |
| `C09_negative_ids_corrupt` | negative ids in a deletion corrupt the index |
| `C09_delete_all_unloadable` | deleting every document leaves a directory that cannot be opened |
| `C11_append_with_buffer_corrupts`, `C11_stale_handle_wrong_ids` | appending beside a buffer, or through a stale handle |
| `C13_zero_probe_panics` | `n_ivf_probe = 0` panics |
| `C15_small_budget_misses` | a small `n_full_scores` misses the best document |
| `C17_ties_may_differ`, `C17_threshold_differs` | batched and standard probing differ under ties and with a threshold |
| `C21_data_never_aligned` | data in written NPY files starts at 1 modulo 64 |
| `C22_fast_path_stale`, `C22_interrupted_stale` | the merged-file cache can be stale |
| `C23_missing_id_shifts` | deleting ids that do not exist shifts rows with sparse ids |
| `C24_refused_metadata_misaligns` | refused metadata leaves index and rows misaligned |
| `C25_numbers_accepted` | `1 = 1`-like idioms are accepted beside the grammar |
| `C26_reserved_column_refused` | a column named like a reserved word cannot be used |
| `C27_nul_is_a_syntax_error` | NUL inside a word is an FTS5 syntax error |
| `C30_repeated_id_returned_twice` | repeated ids in a filter are returned twice |
| `C33_first_batch_misaligned`, `C33_eviction_misaligned`, `C33_refused_first_batch_unusable`, `C33_keywords_not_repaired` | kills that the repair does not repair |
| `C34_add_and_batch`, `C34_remove_and_create`, `C34_metadata_and_batch`, `C34_two_names` | two changes of an index at the same time |
| `C35_cold_read_goes_back`, `C35_two_writers_go_back` | a reader may go back to an older version |
| `C36_stale_queued`, `C36_queued_update_hidden`, `C36_failure_of_another_request`, `C36_counter_not_reset` | progress reports that do not describe the queue |
| `C37_before_epoch` | dates before 1970 have a wrong time of day |
| `C39_fortran_order_lost`, `C39_unsupported_shape_destroyed`, `C39_length_overflow` | conversion of legacy files loses data |
| `C42_identifier_ghosts`, `C42_identifier_rebuild_loses`, `C42_reread_changes_words`, `C42_tokenizer_change_drops` | the keyword index does not follow the documents |
| `C43_no_identifier` | text without ASCII letters has no identifier tokens |
| `C46_parent`, `C46_absolute` | index names can leave the index directory |
| `C47_null_first`, `C47_bool_and_tree`, `C47_mixed` | values that come back changed |
| `C48_row_order` | acceptance of a batch depends on the order of its rows |
| `C49_emptied_file_stale`, `C49_first_code_not_indexed`, `C49_once_skipped_never_indexed`, `C49_same_stat_not_seen`, `C49_lost_record_stale` | changes that colgrep never indexes |
| `C50_interrupted_update_duplicates`, `C50_killed_deletion_misaligned`, `C50_killed_first_build_stuck`, `C50_killed_rebuild_lost`, `C50_changed_during_build` | interrupted indexing runs |
| `C51_double_star_hides_more`, `C51_question_mark_crosses`, `C51_root_pattern_wrong`, `C51_dir_slash_ignored` | `--exclude` patterns |
| `C52_star_crosses`, `C52_nested_braces_lose`, `C52_root_pattern_empty`, `C52_exclude_without_braces` | `--include` patterns |
| `C53_subdir_too_wide`, `C53_pattern_escapes` | a search in a directory looks at others |
| `C54_fewer_than_k`, `C54_code_only_empty`, `C54_overlapping_paths`, `C54_ties_differ`, `C54_missing_row_shifts_scores` | result lists |
| `C55_plural_ies`, `C55_negative_raised`, `C55_negative_lowered` | ranking signals |
| `C56_zero_batch` | batch size 0 panics on one session |
| `C57_fallback_duplicates`, `C57_create_rows_without_documents`, `C57_rollback_too_early` | failed indexing runs |
| `C58_short_panics`, `C58_left_padding`, `C58_no_token_panics` | encoding of edge cases |
| `C59_never_ends`, `C59_cut_not_by_distance`, `C59_not_finite_panics` | pooling may run for ever in doubles; its clusters need not be those of the smallest distances; a NaN panics |
| `C60_pool_lost`, `C60_not_isolated` | texts on which the model panics end the workers for good; a text that cannot be encoded fails other clients' requests |
| `C61_formats_differ_elsewhere` | search and document endpoints accept base64 without any token and infinite numbers in JSON, each refused in the other format |
| `C62_deep_file_refuted` | a file nested deeper than the limit gets no units at all, although `extract_units` promises units that cover the entire file |
| `C62_vue_refuted`, `C62_svelte_refuted` | statements at the top level of a Vue script and the styles of Vue and Svelte components are in no unit |
| `C62_one_line_script_refuted` | a script opened and closed on one line swallows the lines after it up to the next closing tag |
| `C63_structure_range_refuted` | the structure unit of an HTML page or Svelte component ends too early when blank lines or scripts were left out |
| `C64_incremental_refuted` | an incremental update computes callers over the new units only, so callers (and the embedded text) differ from those of a fresh index |
| `C65_race_refuted` | metadata is read after the index snapshot: a deletion in between gives a document another document's metadata |
| `C65_subset_and_filter_refuted` | a filter replaces the subset given with it instead of narrowing it |
| `C65_unknown_index_refuted` | a text search of a missing index (or with a query FTS5 cannot read) is answered 200 with no results; a hybrid one silently becomes purely semantic |
| `C66_content_crash_refuted` | `-c` with `-e`: `signature_line + usize::MAX` wraps when no single line of a unit of code matches (a pattern that matches across lines), and the slice panics |
| `C66_merged_refuted` | a result collapsed by file keeps the text of its leader but starts at the smallest line: match line numbers are shifted, matching lines are not shown |
| `C66_dots_refuted` | `...` is printed between the first two lines of a unit and the next range even when they touch |
| `C67_parentheses_refuted` | `\(` … `\)` is always taken for a group: `-e 'foo\(\)'` selects units with `foo` alone |
| `C67_word_refuted` | `-w` does not group the pattern: `-w 'cat\|dog'` selects `category` |
| `C67_fixed_case_refuted` | with `-F` capital letters count although the documentation says that matching is case-insensitive (and the display ignores them) |
| `C68_opening_refuted`, `C68_order_refuted` | an opening marker without its closing one loses the owner's text at the next install and uninstall; markers in the other order double it |
| `C68_indent_refuted`, `C68_again_refuted`, `C68_title_refuted` | leading blank space of `AGENTS.md` is lost, each reinstallation adds an empty line, a file with only the title is deleted |
| `C68_sandbox_comments_refuted`, `C68_sandbox_own_refuted` | a `config.toml` with only comments is deleted; a directory the owner had listed is taken out |
| `C68_hooks_mixed_refuted` | a matcher is removed as a whole, with the owner's hooks in it |
| `C69_clash_refuted` | the name of an index directory has the project's last name and 32 bits of a hash; on a clash a project is searched in the index of another one (for every hash there are such projects), although the stored path tells that they differ |
| `C69_init_refuted` | `init` in a directory with its own index below an indexed project updates the project's index, searches there read the directory's own |
| `C69_upwards_refuted` | `colgrep query ..` from a subdirectory of an indexed project builds a new index |
| `C70_few_tokens` | an index created from fewer than 20 tokens has cutoffs and weights 0: every token is read as its centroid |
| `C70_order_refuted` | interpolation in single precision can put a later cutoff below an earlier one (by one unit in the last place) |
| `C70_estimate_refuted` | `estimate_num_partitions` says 14 for 15 tokens in 11 documents, 15 centroids are computed |
| `C71_get_bad_condition_refuted` | an invalid condition is an internal error (500) in `metadata/get`, though documented as 400 |
| `C71_vanished` | metadata removed during a `get` gives an empty answer, not "no metadata" |
| `C72_differing_stale` | in a worktree seeded from a sibling, files that differ between the two keep the sibling's code in the index for ever |
| `C72_killed_stale`, `C72_copied_during_update_misaligned`, `C72_skipped_in_sibling` | a kill during seeding, a run in the sibling during the copy, a file that was not text in the sibling |
| `C73_config_lost` | the server writes config.json in place: killed meanwhile, the index has no readable configuration any more and every update of it fails |
| `C74_always_relative` | `settings --no-relative-paths` reports success and has no effect |
| `C74_shown` | `settings` shows 25 results and 6 lines as defaults; a search uses 15 (or 10) and 20 |
| `C74_alpha_zero` | `settings --alpha 0` (keywords only, by the help text) resets the balance to 0.6 |
| `C74_killed`, `C74_race` | settings are written in place: a kill loses all of them silently and no further command can repair the file; of two commands at the same time one is lost |
| `C75_group_options_refuted` | `-e '(?:foo)'` is searched for as `:foo`, `(?i)foo` as `ifoo` |
| `C75_fixed_strings_refuted`, `C75_unclosed_refuted` | with `-F` the literal text is stripped like a pattern: `a.b(c)` becomes `abc`, everything after a `{` is lost |
| `C75_basic_syntax_refuted` | `foo\|bar` written with a backslash is matched as an alternation but searched for literally |
| `C75_repeated_refuted` | a word that a pattern has twice is appended twice, though the function is documented to deduplicate |
| `C76_deleted_index_stale`, `C76_rebuilt_stale`, `C76_race_stale` | the cached read connection survives the removal of its file: after DELETE and a new index of the same name, or after colgrep's rebuild in the same process, all metadata reads show the old rows |
| `C76_repair_loses`, `C76_repair_refuses` | the server's repair believes the stale count: it deletes the documents beyond it from the vector index and reports success, or fails before every batch |
| `C77_force_path_dead`, `C77_vendor_internal` | the documented `--force-include vendor/internal` has no effect: the walk does not enter `vendor` |
| `C77_absolute_outside`, `C77_outside` | `index_specific_files` promises to skip files outside the project, but checks only paths with `..`; absolute paths and links get through |
| `C78_null_row_refused` | an old database refuses a batch with a row that is not an object unless the batch brings a new column; a new database takes it |
| `C79_path_lost` | a comment says that the path is always kept when a text is cut; a long description pushes it (and the code) out |
| `C79_directories_lost` | the extension is cut at the last dot of the whole path, so `v1.2/deploy/Makefile` becomes `v1 Makefile` |
| `C80_not_finite` | with a distance that is infinite or not a number, the methods other than Ward's join observation 0 with itself instead of failing |
| `C81_two_writers_clear`, `C81_two_writers_rebuild` | removing the index directory removes the lock file, so that a process that had opened the old file and one that makes a new one write at the same time |
| `C81_cleared_while_written` | `colgrep clear` gives the lock back before it removes the directory, so it may remove an index that another process has begun to write |
| `C82_wraps`, `C82_wraps_npy` | `16 + nrows * ncols * 4` wraps around in a release build, so that a file of sixteen bytes opens as an array of 2^62 rows; reading all of it makes a slice that passes the file |
| `C20_batch` | `decompress_documents` and `get_document_codes` give nothing for an unknown id, which `reconstruct` refuses |
| `C83_stale_config` | `get_index_config` reads the file and fills the cache in two steps without the index's lock: a reader that overlaps a change of `max_documents` leaves the old limit in the cache until a restart |
| `C83_deleted_remembered` | the same with a deletion: the configuration of a deleted index stays in the cache, documents can be added to it, and the index that comes back has no `config.json` |
| `C83_declared_removed` | `delete_index` removes the directory after it released the lock: an index declared in between is answered as created and is removed |
| `C83_torn` | `config.json` is truncated and then written: a crash in between leaves an index that is listed, cannot be created and cannot be updated |
| `C83_delete_absent` | `DELETE /indices/{name}` documents 404; an index that does not exist is answered as deleted |
| `C83_declared_not_found` | a declared index is in the list, but `GET /indices/{name}` says it is not found |
| `C83_accepts_anything` | `create_index` accepts a number of bits for which there is no codec, and any tokenizer |
| `C84_poisons`, `C84_poisoned_blocks`, `C84_poisoned_eats` | documents of another width that find the buffer empty are written to it before the update panics; afterwards every small update panics, and every larger one deletes as many documents from the end of the index as the buffer has, each time again (`POST update` does not check widths) |
| `C84_refused_loses` | an update with a document of another width that fills the buffer takes the buffered documents out of the index before it panics |
| `C84_width_one` | documents of width one are not refused: their numbers are repeated over the width of the index |
| `C84_interrupted_loses` | a process stopped while the buffered documents are indexed again has lost documents reported as stored, for good |
| `C84_interrupted_replaces` | a process stopped between writing the buffer and the index: two updates later the document that was not stored replaces one that was, and has its metadata |
| `C84_interrupted_revives` | a process stopped between `embeddings.npy` and its lengths: when one document is left, the next update gives it the tokens of the deleted ones |
| `C85_neighbour` | an update answered 202 and in order is lost because a request of another client with documents of another width fell into the same batch |
| `C85_old_documents` | documents accepted for an index that was removed are stored in the index declared under its name afterwards |
| `C86_array_never_shown` | a file whose text is a JSON array is indexed and never shown |
| `C86_scores_shift` | with `--semantic-only` a document without metadata shifts the scores of the documents behind it |
| `C87_silent`, `C87_pool_silent` | when encoding or pooling panics in a thread, its chunk (after a pooling panic: everything not yet pooled) is missing and the stream ends normally, without a failure |
| `C87_poisoned`, `C87_after_panic` | a session in which an encoding has panicked stays poisoned: with one session all later streams give nothing and report nothing |
| `C87_drop_encodes_all`, `C87_pooled_drop_encodes_all` | dropping a stream early does not stop the work (documented: "Dropping it early will stop receiving new chunks"): the threads are joined before the receiver is dropped, so all chunks are encoded before the drop returns |
| `C88_other_patterns`, `C88_first_parameter` | `where_condition_regexp` compiles the first parameter only and ignores the pattern passed by SQLite: a second REGEXP, or one that is not the first placeholder, is matched against the wrong pattern |
| `C88_pattern_stays`, `C88_unregistered` | the function `regexp` stays registered on the cached connection: a plain `where_condition` with REGEXP is answered with the pattern of an earlier call, or fails when there was none |
| `C88_no_text` | one NULL (or number) in the column makes a REGEXP query fail instead of leaving the row out |
| `C88_case_twins` | two columns that differ only in case are accepted when one is a thin column (`file`, `File`); every condition on them then fails as ambiguous |
| `C89_last_line_short` | a merged unit ends where the unit that starts last ends, even if an enclosing unit ends later |
| `C89_not_listed` | `supported_languages` leaves out CSS, QML, PowerShell and the text formats, which are detected and accepted |
| `C89_small` | with merge=True a file with one unit gives that unit, under its own name and type, not a document named after the file |
| `C90_value_lost` | functions and objects inside the value of a QML binding or property have no unit of their own |
| `C90_outside_lost` | lines of a QML file outside of objects (imports, pragmas, comments) are in no unit |
| `C90_import_inside` | an import counts as used when its name ends another identifier |
| `C91_bool` | a Boolean in the metadata is found by `true`/`false` when it is added and by `1`/`0` after a rebuild |
| `C91_line_break` | in an array or object, the word after a line break is lost by a rebuild (`two` becomes `ntwo`) |
| `C91_key` | the keys of a nested object are not searchable when it is added, and are after a rebuild |
| `C91_digits` | the number 2.0 is found by `0` only until a rebuild; `007` in a column of integers is found by `7` after one |
| `C91_extended_not_found` | documents added with `update_with_metadata` are never entered into the keyword index |
| `C92_call_text` | of the callee `handlers("app.main")` a call of `main")` is listed |
| `C92_call_underscore` | functions whose name begins with an underscore are never listed as called |
| `C92_flow_twice` | keyword tokens are counted as branches and loops: one `if` gives the complexity 3 |
| `C92_variable_keyword` | JavaScript: `const` is listed as a variable |
| `C92_params_pointer` | a C function that returns a pointer has no parameters |
| `C92_params_default` | JavaScript parameters with default values are not listed |
| `C92_parent_python` | `class A(mod.Base, Mixin)` is said to extend `Mixin` |
| `C93_module_keyword` | `import users` imports a module called `import users` |
| `C93_include` | every `#include` imports `include` |
| `C93_braces` | JavaScript `import { x } from 'm'` imports nothing |
| `C93_module_words` | `pub use a::b`, `import static`, `import qualified`, `import a, b` name the wrong module |
| `C93_not_imports` | Lua `io.write("hello")` imports `hello`; Elixir `def` imports `def` |
| `C93_rust_path` | `fs::read(p)` does not use `fs` |
| `C93_unit_substring` | a function that calls `close` is said to use `import os` |
| `C94_block_slash` | a `/** … */` comment closed on a line of its own leaves a slash at the end of the docstring |
| `C94_code` | a comment at the end of a line of code makes everything from the nearest line that begins with `/*` the docstring |
| `C94_detached` | line comments are joined with earlier ones across blank lines |
| `C94_haskell_lost` | a Haskell comment in several lines, with `-- \|` in the first, is lost |
| `C94_elixir_false` | a function with `@doc false` gets the docstring of the module; heredocs are lost |
| `C94_python_quotes` | an indented Python docstring keeps its opening quotes |
| `C95_ties` | a token with two best centroids gets the first from the GPU and the last from the CPU: the index depends on the machine |
| `C95_nan` | NaN as the score of the first centroid makes the GPU take that centroid; the CPU takes the best number |
| `C95_width_one` | documents of width one are not refused; their number is repeated |
| `C95_narrow_on_gpu` | embeddings narrower than the centroids: the GPU reads the centroids with the wrong width and reports success |
| `C95_second_attempt` | the flag of a broken GPU is read before the lock: a waiting call initialises CUDA again and may get a context |
| `C95_hook_lost` | two overlapping calls can leave the process without its panic hook for good |
| `C96_torn` | a crash while the library is written leaves a file that every later run reports as the runtime, whatever the server would send; it is never repaired |
| `C96_arm_downloads_again` | a CUDA build on Linux ARM looks for provider libraries its archive does not have: it downloads on every run |
| `C96_ld_part_of_name` | `LD_LIBRARY_PATH` is searched for the directory as a substring, so `/opt/ort/lib` is not added if `/opt/ort/lib64` is there |
| `C97_torn` | One Ctrl+C can end the process in the middle of a write to the index, which critical sections are there to prevent: the interrupted encoder makes the tokenizer's send fail and the main thread returns without joining the index thread |
| `C97_interrupt_is_an_error` | Ctrl+C with work queued is reported as "Failed to send tokenized chunk", not as an interruption |
| `C98_conflict` | Contradicting variables end the program even if a flag says which of CPU and GPU is wanted |
| `C98_sticky` | Automatic mode decides once: after a search, a run with fewer than 300 units or a fallback the process (as of the Python package) stays on the CPU |
| `C98_search_one_thread` | In a CUDA build a search in automatic mode runs on the CPU with one thread, whatever was asked for |
| `C98_force_gpu_on_cpu` | `--force-gpu`, "fail if unavailable", indexes on the CPU and succeeds in builds without CUDA |
| `C99_twice`, `C99_duplicates` | After a GPU failure the units already written are indexed again and are there twice |
| `C99_overlap` | The CPU attempt can begin while the index thread of the failed GPU attempt is still writing |
| `C98_library_ignored` | `NEXT_PLAID_FORCE_CPU` is ignored by the library for TensorRT, CoreML and DirectML |
| `C100_negative` | A negative length marks the whole row of the mask instead of none of it |
| `C100_narrow` | `pad_sequences` panics if a later sequence is narrower than the first |
| `C100_wide` | `pad_sequences` silently drops columns of sequences wider than the first |
| `C101_nested` | The message of a panic in a nested suppressed part is never shown |
| `C101_wrong_message` | An earlier, caught panic's message is shown in place of the one that ended a nested part |
| `C101_two_threads` | Two overlapping calls leave standard error at /dev/null and the hook of a finished call for good |
| `C101_other_thread` | A panic of another thread during suppression is never shown |
| `C102_format_lost` | A search with `--no-update` or `reset-stats` stamps the present format on an index of another one, which then is never made anew |
| `C102_outdated_for_good` | The same, for any number of later runs |
| `C102_race_duplicates` | A search saves the state without the lock: one that overlaps the end of a run makes the next run store the new files' units twice |
| `C102_race_unrepaired` | The same can clear the mark of a run that is then killed, so that its damage is not repaired |
| `C103_left_behind` | With `COLGREP_DATA_DIR`, `--uninstall` says that all is removed and leaves every index and the configuration |
| `C103_not_only_indexes` | `clear --all` removes every directory in `COLGREP_DATA_DIR`, whether it is an index or not |
| `C104_no_code_left` | A given file that has lost all its code keeps its old units in the index: without new units the function returns early, before it deletes anything or saves the state. |
| `C104_twice` | A new file that is given twice is indexed twice. |
| `C104_interrupted` | A new file that was half written when the call was interrupted is not recorded; the next call adds all of it again. |
| `C104_restored` | A file that is not text for a while loses its documents and keeps its record; with its old content it is reported as unchanged and stays absent. |
| `C104_skipped_for_good` | A file that was once skipped is not indexed although it is text and is given; and a skipped file is counted as added. |
| `C105_offline` | Without a network `colgrep update` says that colgrep has been updated: `curl … \| sh` has the status of `sh`, which reads nothing. |
| `C105_older` | Versions are compared for equality only, so a newer colgrep is replaced by an older release. |
| `C106_sustained_refuted` | README.md:826 and the compose files call `RATE_LIMIT_PER_SECOND` the sustained requests per second; main.rs:468 hands it to `per_second`, which is the number of seconds for one request. With the default of 50 a client gets one request every 50 seconds once its burst is used up, and larger values make it slower. |
| `C106_concurrency_refuted` | README.md:828 calls `CONCURRENCY_LIMIT` the maximum of requests in flight and main.rs:483 calls it global; there is a separate semaphore for each router at least, and none for health, list and state of indices. |
| `C106_answered_refuted` | The time limit is inside the concurrency limit (main.rs:365-374, 458-484): waiting for a permit is not limited. |
| `C106_id_refuted` | `trace_request` is the innermost layer: answers 408 and 429 have no `x-request-id`, and answers 429 have no CORS header either. |
| `C106_zero` | `CONCURRENCY_LIMIT=0` is taken: the server starts and then serves nothing but health and index information. |
| `C107_lost_refuted` | `with_graceful_shutdown` (main.rs:897-904) waits for HTTP requests only. Updates and deletions answered 202 that are in a queue, or in a batch whose work has not begun, are lost on SIGTERM without a trace. |
| `C108_path_refuted` | install/claude_code.rs:137-142 puts the data directory between double quotes in a command for `$SHELL -c` without escaping: `$(…)`, backticks, `"` and `\` in `XDG_DATA_HOME` or the home directory are read by the shell, and commands in them are run. |
| `C108_failed_install_refuted` | The old marketplace entry and plugin are removed (claude_code.rs:117-131) before the new one is added; if that fails the user is left with none. |
| `C108_uninstalled_refuted` | "Colgrep has been uninstalled from Claude Code." (claude_code.rs:362-366) is printed whatever failed; the files are deleted although the marketplace is still registered. |
| `C109_mixed_refuted` | The distinct strings of a column are documented as the non-NULL string values; one document with a number in the column makes the whole call fail. |
| `C109_no_store` | An invalid column name is documented as an error; without a metadata store it gives an empty list. |
| `C110_number_refuted` | `compute_centroids` documents a result of `num_centroids` rows; with a configuration the argument is ignored and `config.k` is used. |
| `C110_metal_refuted` | With Metal a failing GPU is an error; there is no fallback to the CPU. |
| `C110_width_refuted` | A document with one column beside wider documents is broadcast: training sees rows that are in no document. |
| `C110_hook_refuted` | `catch_cuda_panic` saves and restores the process-wide panic hook; overlapping calls of two threads can leave the silent hook installed for good. |
| `C111_moving_refuted` | When the repository gets a new revision after an interrupted download, `ensure_model` succeeds with a directory that lacks files (the parent of the first file); the next call repairs it. |
| `C111_offline_refuted` | Every call tries the optional file; when a new revision answers it, that revision becomes the recorded one and a complete model in the cache is no longer found without a network. |
| `C111_unquantised_refuted` | A model that was found may lack `model.onnx`, so loading it unquantised fails. |
| `C111_token_refuted` | An empty `HF_TOKEN` counts as a token and hides `HUGGING_FACE_HUB_TOKEN` and the token file. |
| `C112_not_finite_refuted` | A score that is NaN or infinite is printed as `NaN` or `inf`, and the trace record is not JSON. |
| `C113_links_refuted` | The comment on `copy_dir_all` says symbolic links are copied as they are; `fs::copy` follows them, and one link without a target fails the whole copy. The property itself (links followed) holds. |
| `C114_relative_refuted` | For a relative path whose first component does not exist (`srcc/x`) the walk ends at the empty path, which does not exist: the error says that no existing parent directory was found, whatever is in the current directory. |
| `C114_file_refuted` | For a path below a file (`a.rs/x`) the error says that no existing parent directory was found, although the directory of the file exists. |
| `C114_thirty_refuted` | A directory with exactly thirty entries is listed in full, with the note that the list is truncated. |
| `C114_order_refuted` | The first thirty entries are taken before sorting: which ones are shown depends on the order of the file system. |
| `C115_zero_refuted` | `BATCH_CHANNEL_SIZE=0` is accepted as a setting: making the first queue panics with the registry locked, and from then on every update of every index panics on the poisoned mutex. |
| `C116_order_refuted` | Each accepted addition is a task of its own that asks for the lock of the index when the runtime first runs it, so on several threads two additions accepted one after the other can be stored in the other order. |

## 6. Axioms of each theorem

Printed by `#print axioms`; all names are in the namespace `NextPlaid.Props`.

* Quot.sound: `C110_number_partial`.

* no axioms: `C06_create_empty_refused`, `C100_none`, `C100_wide`, `C101_wrong_message`, `C102_count`, `C102_reset`, `C110_never_worse`, `C110_forced`, `C110_again`, `C110_number_refuted`, `C110_metal_refuted`, `C110_width_refuted`, `C110_hook_refuted`, `C111_directory`, `C111_no_substitute`, `C111_moving_refuted`, `C111_offline_refuted`, `C111_unquantised_refuted`, `C111_token_refuted`, `C37_epoch`.

* propext: `C08_empty_append_loses_documents`, `C101_restored`, `C101_message_partial`, `C101_not_suppressed`, `C101_two_threads`, `C101_two_threads_nested`, `C101_other_thread`, `C106_defaults`, `C106_answered_refuted`, `C106_id_refuted`, `C106_body`, `C108_path_partial`, `C108_failed_install_refuted`, `C108_uninstalled_partial`, `C108_there_and_back`, `C108_uninstalled_refuted`, `C110_context_once`, `C110_documents_partial`, `C111_warm`, `C111_kept`, `C116_other_indexes`, `C116_lock_in_order`, `C116_order_refuted`, `C22_fast_path_stale`, `C22_interrupted_stale`, `C23_missing_id_shifts`, `C27_nul_is_a_syntax_error`, `C35_cold_read_goes_back`, `C35_two_writers_go_back`, `C36_elapsed_frozen`, `C36_counter_not_reset`, `C39_fortran_order_lost`, `C39_unsupported_shape_destroyed`, `C39_length_overflow`, `C40_both_refused`, `C46_absolute`, `C47_value_exact`, `C58_left_padding`, `C58_no_token_panics`, `C71_get_bad_condition_refuted`, `C71_vanished`, `C75_none`, `C81_two_writers_clear`, `C81_two_writers_rebuild`, `C81_cleared_while_written`, `C82_wraps`, `C84_refused_loses`, `C91_joined`, `C91_added`, `C93_tables`, `C95_narrow_on_gpu`, `C97_again`.

* propext, Classical.choice, Quot.sound: `C01_codec_round_trip`, `C01_unaligned_panics`, `C02_bucket_interval`, `C03_pack_unpack`, `C03_pack_bytes`, `C04_kmeans_assignment`, `C05_crash_anywhere`, `C05_old_or_new`, `C05_other_files`, `C05_success`, `C05_failure`, `C05_durable`, `C05_histories`, `C06_create_stores`, `C06_create_succeeds`, `C07_ivf_exact`, `C07_ivf_exact_histories`, `C08_append`, `C09_delete_partial`, `C09_delete_all_unloadable`, `C10_history`, `C100_pad`, `C100_mask`, `C100_normalize`, `C102_history_partial`, `C102_other_format`, `C104_indexed_partial`, `C104_trusted`, `C104_others`, `C105_version`, `C105_unknown`, `C105_current`, `C105_said_current`, `C105_honest_partial`, `C105_failure`, `C105_offline`, `C105_older`, `C105_space`, `C106_one_route`, `C106_reached`, `C106_exempt`, `C106_rate`, `C106_never_refused`, `C106_sustained_refuted`, `C106_concurrency_refuted`, `C106_zero`, `C107_answered`, `C107_first_partial`, `C107_loss_bounded`, `C107_quiet`, `C107_lost_refuted`, `C108_path_refuted`, `C108_installed`, `C108_succeeds`, `C108_again`, `C108_hooks`, `C109_exact`, `C109_fails_iff`, `C109_names`, `C109_ids`, `C109_no_store`, `C109_mixed_refuted`, `C11_buffered_history`, `C11_history_succeeds`, `C111_complete_partial`, `C111_found`, `C111_quantised`, `C111_offline`, `C111_token`, `C112_off`, `C112_records`, `C112_meaning_partial`, `C112_faithful`, `C112_not_finite_refuted`, `C113_complete`, `C113_killed`, `C113_again`, `C113_attempts`, `C114_closest`, `C114_lines`, `C114_note_partial`, `C114_absolute`, `C114_relative_refuted`, `C114_file_refuted`, `C114_thirty_refuted`, `C114_order_refuted`, `C115_one_each_partial`, `C115_settings`, `C115_zero_refuted`, `C12_raw_in_step`, `C12_delete_keeps_raw`, `C13_well_formed`, `C13_search_answers`, `C14_subset`, `C15_exhaustive`, `C15_exhaustive_numbers`, `C16_threshold_sound`, `C16_threshold_exact`, `C17_same_cells`, `C17_same_answer`, `C17_ties_may_differ`, `C19_simd_max_eq_scalar`, `C19_simd_max_is_max`, `C19_paths_agree`, `C19_score_is_sum_of_maxima`, `C19_empty_document`, `C20_reconstruct`, `C20_batch`, `C20_codes`, `C21_header_1d`, `C21_header_2d`, `C21_values`, `C21_rows`, `C21_truncated_refused`, `C21_data_never_aligned`, `C22_from_scratch`, `C22_library_histories`, `C22_incremental_partial`, `C22_codes_read_back`, `C22_residuals_read_back`, `C23_store_is_list`, `C23_delete`, `C23_delete_any_table`, `C24_rows_belong_together`, `C24_returned_ids`, `C24_deleted_count`, `C24_refused_metadata_misaligns`, `C27_or_only_phrases`, `C28_rrf`, `C28_better_rank`, `C29_relative`, `C29_relative_scores`, `C30_chunked`, `C30_same_as_one_filter`, `C32_newest_kept`, `C32_count`, `C33_repair_partial`, `C33_repair_again`, `C33_first_batch_misaligned`, `C33_eviction_misaligned`, `C33_refused_first_batch_unusable`, `C33_keywords_not_repaired`, `C34_batches_exclusive_partial`, `C34_requests_exclusive_partial`, `C34_no_deadlock`, `C34_remove_and_create`, `C34_two_names`, `C35_never_back_partial`, `C35_fresh_partial`, `C36_active_shown`, `C36_queued_counted_partial`, `C36_finished_shown`, `C36_finished_gone`, `C36_listed`, `C36_processing_shown_partial`, `C36_idle_not_running`, `C36_stale_queued`, `C36_queued_update_hidden`, `C37_successor`, `C37_one_to_one`, `C37_text`, `C38_blocked_search`, `C38_tile_sizes_irrelevant`, `C38_exactly_the_far_tokens`, `C39_idempotent`, `C39_report`, `C39_untouched`, `C39_converted`, `C39_float_values_partial`, `C39_length_values_partial`, `C39_residual_values`, `C40_lookup`, `C40_lookup_ids`, `C40_condition`, `C41_update_where`, `C41_bad_column_refused`, `C42_keywords_follow_partial`, `C42_word_search_partial`, `C42_identifier_ghosts`, `C42_identifier_rebuild_loses`, `C42_reread_changes_words`, `C42_tokenizer_change_drops`, `C43_identifiers`, `C43_nothing_lost`, `C43_tokens_plain`, `C43_no_identifier`, `C45_delete_batch`, `C46_confined_partial`, `C46_separate_partial`, `C46_parent`, `C47_values_partial`, `C47_null_first`, `C47_bool_and_tree`, `C47_mixed`, `C48_append_accepted`, `C48_create_accepted_partial`, `C48_bad_name_refused`, `C48_lengths`, `C48_row_order`, `C49_up_to_date_partial`, `C49_forced_run`, `C50_resumed_partial`, `C51_exclude_partial`, `C51_exclude_hides`, `C51_exclude_dir_partial`, `C51_exclude_dir_hides`, `C51_question_mark_crosses`, `C52_braces`, `C52_include_partial`, `C52_include_shows`, `C52_star_crosses`, `C52_nested_braces_lose`, `C52_root_pattern_empty`, `C52_exclude_without_braces`, `C53_filters_partial`, `C53_always_hold`, `C53_subdir_too_wide`, `C53_pattern_escapes`, `C54_hybrid`, `C54_candidates`, `C54_shown`, `C54_merged`, `C54_paths`, `C54_deterministic_partial`, `C54_fewer_than_k`, `C54_code_only_empty`, `C54_overlapping_paths`, `C54_ties_differ`, `C55_units`, `C55_order`, `C55_penalty_compounds`, `C55_penalty_range`, `C55_penalised`, `C55_never_lower`, `C55_stem`, `C55_stem_of_name`, `C55_coherence`, `C55_plural_ies`, `C55_negative_raised`, `C55_negative_lowered`, `C56_order`, `C56_succeeds`, `C56_batches`, `C56_fits`, `C56_fixed`, `C56_simple`, `C56_stream`, `C56_stream_progress`, `C57_sample`, `C57_in_step`, `C57_succeeds`, `C57_ends`, `C57_fallback_duplicates`, `C57_create_rows_without_documents`, `C57_rollback_too_early`, `C58_documents`, `C58_texts`, `C58_expanded`, `C58_same_batch`, `C58_read`, `C58_succeeds`, `C58_batch_invariant`, `C58_short_panics`, `C59_tree`, `C59_flat`, `C59_flat_ends`, `C59_flat_distance`, `C59_pooled`, `C59_means`, `C59_ward`, `C59_succeeds`, `C59_cut_not_by_distance`, `C59_never_ends`, `C60_own`, `C60_failed`, `C60_once`, `C60_no_request_dropped`, `C60_bounded`, `C60_pool_lost`, `C61_arithmetic`, `C61_each_once`, `C61_best_first`, `C61_scores`, `C61_refused`, `C61_close`, `C61_exact_order`, `C61_base64`, `C61_base64_unique`, `C61_written`, `C61_formats`, `C61_formats_differ_elsewhere`, `C62_every_line_partial`, `C62_text`, `C62_definitions`, `C62_only_definitions`, `C62_raw`, `C62_vue_template`, `C62_vue_script`, `C62_page_scripts`, `C62_html_outside`, `C62_svelte_outside`, `C62_deep_file_refuted`, `C62_vue_refuted`, `C62_one_line_script_refuted`, `C62_svelte_refuted`, `C63_code`, `C63_vue`, `C63_scripts`, `C63_structure_partial`, `C63_structure_range_refuted`, `C64_called_by`, `C64_parts_partial`, `C64_incremental_refuted`, `C65_reason`, `C65_answered`, `C65_shape`, `C65_allowed`, `C65_ranked`, `C65_semantic`, `C65_keyword`, `C65_hybrid`, `C65_metadata`, `C65_own_metadata_partial`, `C65_filtered`, `C65_encoded`, `C65_race_refuted`, `C65_subset_and_filter_refuted`, `C65_unknown_index_refuted`, `C66_excerpt`, `C66_pattern`, `C66_pattern_elsewhere_partial`, `C66_query`, `C66_query_elsewhere`, `C66_no_crash_partial`, `C66_content_crash_refuted`, `C66_merged_refuted`, `C66_dots_refuted`, `C66_files`, `C66_compact`, `C66_verbose`, `C67_pattern`, `C67_word_partial`, `C67_word_refuted`, `C67_parentheses_refuted`, `C67_fixed_case_refuted`, `C67_line`, `C67_shown`, `C67_shown_word_partial`, `C68_history`, `C68_kept`, `C68_restores`, `C68_restores_absent`, `C68_opening_refuted`, `C68_order_refuted`, `C68_indent_refuted`, `C68_again_refuted`, `C68_title_refuted`, `C68_sandbox_add`, `C68_sandbox_again`, `C68_sandbox_remove`, `C68_sandbox_restores`, `C68_sandbox_comments_refuted`, `C68_sandbox_own_refuted`, `C68_hooks`, `C68_no_hooks`, `C68_hooks_gone`, `C68_hooks_mixed_refuted`, `C69_clash_refuted`, `C69_init_refuted`, `C69_upwards_refuted`, `C70_kmeans`, `C70_estimate_partial`, `C70_estimate_refuted`, `C70_heldout`, `C70_error`, `C70_quantiser`, `C70_order`, `C70_order_refuted`, `C70_shares_partial`, `C71_check`, `C71_get_condition`, `C71_get_ids`, `C71_count`, `C71_update`, `C71_bad_requests_partial`, `C72_seeded`, `C72_seeded_partial`, `C72_siblings`, `C73_any_value`, `C73_distinct`, `C73_torn`, `C73_metadata`, `C73_metadata_legacy`, `C73_doclens`, `C73_state`, `C73_state_torn`, `C73_project`, `C73_config`, `C73_config_killed`, `C73_config_lost`, `C73_members`, `C74_numbers`, `C74_switches`, `C74_texts`, `C74_alpha`, `C74_patterns`, `C74_always_relative`, `C74_killed`, `C74_alpha_zero`, `C74_race`, `C75_merge`, `C75_once`, `C75_group_options_refuted`, `C75_fixed_strings_refuted`, `C75_basic_syntax_refuted`, `C75_repeated_refuted`, `C75_unclosed_refuted`, `C76_repair_loses`, `C76_repair_refuses`, `C77_scan`, `C77_once`, `C77_skipped`, `C77_inside`, `C77_default`, `C77_force_name`, `C77_force_directory`, `C77_language`, `C77_dotdot_inside`, `C77_specific_inside_partial`, `C77_specific_same_partial`, `C77_force_path_dead`, `C77_vendor_internal`, `C77_absolute_outside`, `C77_outside`, `C78_store_is_list`, `C78_counts`, `C78_lookup`, `C78_condition`, `C78_move`, `C78_null_row_refused`, `C79_limit`, `C79_text`, `C79_code_only`, `C79_head_kept_partial`, `C79_path_lost`, `C79_directories_lost`, `C80_tree`, `C80_closest`, `C80_monotone`, `C80_flat`, `C80_components`, `C80_compact`, `C80_not_finite`, `C82_raw_rows`, `C82_raw_values`, `C82_reads_partial`, `C82_npy_shape`, `C82_npy_length`, `C82_inside`, `C82_wraps_npy`, `C83_as_files`, `C83_config_kept`, `C83_deleted_gone`, `C83_delete_absent`, `C83_declared_not_found`, `C83_accepts_anything`, `C83_without_config`, `C83_declared_once`, `C83_stale_config`, `C83_deleted_remembered`, `C83_declared_removed`, `C83_torn`, `C84_history`, `C84_stores`, `C84_batch`, `C84_checked`, `C84_refused_partial`, `C84_unchanged_partial`, `C84_poisons`, `C84_poisoned_blocks`, `C84_poisoned_eats`, `C84_width_one`, `C85_stored_partial`, `C85_all_stored_partial`, `C85_accepting`, `C85_neighbour`, `C86_hybrid_partial`, `C86_semantic_partial`, `C86_same`, `C86_storable`, `C86_array_never_shown`, `C86_scores_shift`, `C87_right`, `C87_complete_partial`, `C87_accounts`, `C87_silent`, `C87_poisoned`, `C87_after_panic`, `C87_drop_encodes_all`, `C87_ends`, `C87_goes`, `C87_pooled_right`, `C87_pooled_complete_partial`, `C87_pool_silent`, `C87_pooled_drop_encodes_all`, `C87_pooled_ends`, `C87_pooled_goes`, `C88_plain`, `C88_regexp_partial`, `C88_other_patterns`, `C88_first_parameter`, `C88_pattern_stays`, `C88_unregistered`, `C88_no_text`, `C88_count`, `C88_refused`, `C88_case_twins`, `C89_merged`, `C89_merged_totals`, `C89_first_line`, `C89_last_line_partial`, `C89_last_line_short`, `C89_small`, `C89_parse`, `C89_detected`, `C89_listed`, `C89_not_listed`, `C90_definitions`, `C90_only`, `C90_located`, `C90_import_inside`, `C90_value_lost`, `C90_outside_lost`, `C91_line_break`, `C91_key`, `C91_digits`, `C91_history_partial`, `C91_extended_not_found`, `C92_walk`, `C92_first`, `C92_tables`, `C92_calls`, `C92_call_listed`, `C92_call_sound`, `C92_call_text`, `C92_call_underscore`, `C92_flow`, `C92_flow_partial`, `C92_flow_twice`, `C92_variables`, `C92_variables_c`, `C92_variables_c_sound`, `C92_variable_keyword`, `C92_params_plain`, `C92_params_go`, `C92_params_sound`, `C92_params_pointer`, `C92_params_default`, `C92_parent_sound`, `C92_parent_clause`, `C92_parent_field`, `C92_parent_js`, `C92_parent_python`, `C93_imports`, `C93_go`, `C93_ocaml`, `C93_ruby_sound`, `C93_ruby`, `C93_lua`, `C93_module_first`, `C93_module_last`, `C93_module_keyword`, `C93_include`, `C93_braces`, `C93_module_words`, `C93_not_imports`, `C93_used`, `C93_rust_path`, `C93_unit_substring`, `C94_lines`, `C94_lines_covers`, `C94_detached`, `C94_c_lines`, `C94_c_block`, `C94_block_partial`, `C94_block_slash`, `C94_block_sound`, `C94_code`, `C94_ocaml`, `C94_haskell`, `C94_haskell_lost`, `C94_lua`, `C94_dashes_covers`, `C94_elixir`, `C94_elixir_none`, `C94_elixir_false`, `C94_python_some`, `C94_python_quotes`, `C94_other`, `C95_gpu`, `C95_gpu_codes`, `C95_cpu`, `C95_chunk`, `C95_compress`, `C95_forced`, `C95_same`, `C95_ties`, `C95_nan`, `C96_env`, `C96_first`, `C96_cache_first`, `C96_where`, `C96_no_network`, `C96_download`, `C96_loadable_partial`, `C96_broken_cache`, `C96_torn`, `C96_once`, `C96_arm_downloads_again`, `C96_ld_part_of_name`, `C97_settled`, `C97_complete`, `C97_in_order`, `C97_no_error`, `C97_sections`, `C97_no_deadlock`, `C97_ends`, `C97_interrupt_is_an_error`, `C98_variables`, `C98_round_trip`, `C98_flags`, `C98_conflict`, `C98_force_cpu`, `C98_force_gpu`, `C98_auto`, `C98_fallback`, `C98_sticky`, `C98_search_auto`, `C98_search_one_thread`, `C98_force_gpu_on_cpu`, `C98_library`, `C98_library_ignored`, `C98_auto_other`, `C98_no_memory`, `C99_again`, `C99_clean_partial`, `C99_twice`.

* propext, Quot.sound: `C01_codec_widths`, `C02_bucket_monotone`, `C04_codes_are_argmax`, `C04_batch_independent`, `C09_negative_ids_corrupt`, `C100_round_trip`, `C100_negative`, `C100_narrow`, `C101_propagates`, `C101_silent`, `C101_nested`, `C102_counted`, `C102_format_lost`, `C102_outdated_for_good`, `C102_race_duplicates`, `C102_race_unrepaired`, `C103_uninstalled_partial`, `C103_nothing_else`, `C103_left_behind`, `C103_failure`, `C103_cleared`, `C103_clear_inside`, `C103_not_only_indexes`, `C103_in_use`, `C104_counts`, `C104_no_code_left`, `C104_twice`, `C104_interrupted`, `C104_restored`, `C104_skipped_for_good`, `C106_own_bucket`, `C106_starts`, `C106_concurrency_partial`, `C106_waits`, `C106_answered_partial`, `C106_id_partial`, `C107_for_good`, `C11_append_with_buffer_corrupts`, `C11_stale_handle_wrong_ids`, `C11_empty_update_loses_documents`, `C110_remembered`, `C110_hook_partial`, `C110_hook_for_good`, `C112_string`, `C113_failed`, `C113_links_refuted`, `C116_limit`, `C116_accepted_exactly`, `C116_none_lost`, `C116_drains`, `C13_zero_probe_panics`, `C15_budget`, `C15_small_budget_misses`, `C17_threshold_differs`, `C18_batch`, `C18_modes_agree`, `C18_batch_answers`, `C20_bad_id_refused`, `C20_codec_rows`, `C22_nothing_refused`, `C25_accepted_well_formed`, `C25_accepted_safe`, `C25_one_reading`, `C25_numbers_accepted`, `C26_grammar_check`, `C26_condition_accepted`, `C26_reserved_column_refused`, `C27_only_phrases`, `C27_empty`, `C28_ids`, `C28_exact_share`, `C28_extremes`, `C29_ids`, `C29_extremes`, `C30_repeated_id_returned_twice`, `C31_batches`, `C31_documents_in_order`, `C31_drained`, `C31_ends_empty`, `C31_bounded`, `C34_add_and_batch`, `C34_metadata_and_batch`, `C35_snapshot_kept`, `C35_published`, `C35_one_loader`, `C36_failure_of_another_request`, `C37_before_epoch`, `C38_existing_centroids_kept`, `C38_stored_codes_same_vectors`, `C44_batches`, `C44_drained`, `C44_bounded`, `C45_any_order`, `C49_emptied_file_stale`, `C49_first_code_not_indexed`, `C49_once_skipped_never_indexed`, `C49_same_stat_not_seen`, `C49_lost_record_stale`, `C50_interrupted_update_duplicates`, `C50_killed_deletion_misaligned`, `C50_killed_first_build_stuck`, `C50_killed_rebuild_lost`, `C50_changed_during_build`, `C51_double_star_hides_more`, `C51_root_pattern_wrong`, `C51_dir_slash_ignored`, `C53_subdir_complete`, `C54_missing_row_shifts_scores`, `C55_definition`, `C56_zero_batch`, `C57_units`, `C57_deduplicated`, `C59_unpooled`, `C59_not_finite_panics`, `C60_ends`, `C60_not_isolated`, `C67_fixed`, `C67_literal`, `C67_verbatim`, `C67_unreadable`, `C67_shown_fixed`, `C69_history`, `C69_search`, `C69_isolated`, `C69_cleared`, `C70_few_tokens`, `C71_check_splits`, `C71_no_index`, `C71_no_metadata`, `C72_not_seeded`, `C72_differing_stale`, `C72_killed_stale`, `C72_copied_during_update_misaligned`, `C72_skipped_in_sibling`, `C74_shown`, `C75_words`, `C75_literal_text`, `C76_reads_partial`, `C76_deleted_index_stale`, `C76_rebuilt_stale`, `C76_race_stale`, `C76_create_refreshes`, `C76_repair_live`, `C80_squareform`, `C81_bounded`, `C81_exclusive_partial`, `C81_rebuild_waits`, `C81_refused`, `C81_timeout`, `C81_freed`, `C82_get_partial`, `C83_fields_kept`, `C83_change_written`, `C83_remembers_partial`, `C84_interrupted_partial`, `C84_interrupted_loses`, `C84_interrupted_replaces`, `C84_interrupted_revives`, `C85_only_accepted`, `C85_undeclared`, `C85_old_documents`, `C85_old_documents_later`, `C85_old_dropped`, `C90_imports`, `C91_reread`, `C91_nothing_lost`, `C91_steady`, `C91_bool`, `C92_returns`, `C92_parent_py`, `C93_unit`, `C95_memory`, `C95_memory_codes`, `C95_wrong_width`, `C95_width_one`, `C95_one_context`, `C95_broken`, `C95_second_attempt`, `C95_hook`, `C95_hook_lost`, `C96_ld`, `C96_reexec`, `C96_cudnn_in_path`, `C97_prompt`, `C97_reported`, `C97_torn`, `C99_duplicates`, `C99_overlap`.
