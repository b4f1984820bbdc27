{"id": "C01", "title": "Residual codec round trip", "statement": "For every supported bit width (1, 2, 4, 8) and every token residual, the packed bytes that compression stores decode back to exactly the bucket that was chosen for each dimension, so the decompressed (un-normalised) token is, per dimension, the centroid value plus the bucket weight of that dimension's own bucket. Bit widths that do not divide 8 are refused when the codec is built.", "quantifier": "all nbits, all dimensions dim with dim*nbits divisible by 8, all bucket sequences, all centroids and weights", "why_tests_cant": "Encoder and decoder use two different bit orders undone by lookup tables; a test samples a few vectors and one nbits, the claim is for all 256 byte values, all widths and all lengths.", "anchors": ["next-plaid/src/codec.rs:ResidualCodec::new_with_store", "next-plaid/src/codec.rs:ResidualCodec::quantize_residuals", "next-plaid/src/codec.rs:ResidualCodec::decompress"]}
{"id": "C02", "title": "Bucket choice respects the cutoffs", "statement": "With non-decreasing cutoffs, the bucket stored for a value v is the unique b with cutoff[b-1] < v <= cutoff[b] (open at both ends of the list); hence bucket choice is monotone in v and never exceeds the number of cutoffs.", "quantifier": "all cutoff lists, all values of a linear order", "why_tests_cant": "Boundary behaviour (v equal to a cutoff) must be right for every cutoff list, not for sampled floats.", "anchors": ["next-plaid/src/codec.rs:ResidualCodec::quantize_residuals"]}
{"id": "C03", "title": "Bit packing is lossless", "statement": "Unpacking the bytes produced by packing a bit sequence returns that sequence followed only by zero padding to a byte boundary.", "quantifier": "all bit sequences of any length", "why_tests_cant": "Lengths not divisible by 8 and all bit patterns.", "anchors": ["next-plaid/src/utils.rs:packbits", "next-plaid/src/utils.rs:unpackbits"]}
{"id": "C04", "title": "Each token is assigned to a best centroid, whatever the batch size", "statement": "Compression assigns every token a centroid index that is in range and whose score is at least every other centroid's score, and the result does not depend on how the tokens are split into batches.", "quantifier": "all numbers of tokens and of centroids >= 1, all score matrices over a total order, all batch sizes >= 1", "why_tests_cant": "Batch boundaries depend on memory budgets; ties and batch splits cannot be enumerated.", "anchors": ["next-plaid/src/codec.rs:ResidualCodec::compress_into_codes_cpu", "next-plaid/src/maxsim.rs:assign_to_centroids"]}
{"id": "C05", "title": "Atomic file replacement", "statement": "When a state file is rewritten, a crash at any point leaves under its name either the complete old contents or the complete new contents; if the writer fails the old contents are kept and the error is reported; on success the new contents are visible.", "quantifier": "all old and new contents, all crash points, all writer failures, any number of pre-existing temporary names", "why_tests_cant": "Crash points cannot be scheduled from a unit test.", "anchors": ["next-plaid/src/utils.rs:atomic_write_file"]}
{"id": "C06", "title": "Index creation stores every document under its position", "statement": "After an index is created from a list of documents, loading it shows exactly that many documents and document i has exactly the tokens given for it, whatever the chunk size; creating from an empty list is refused.", "quantifier": "all document lists (including documents with zero tokens), all chunk sizes >= 1", "why_tests_cant": "Chunk boundaries and offsets interact for all sizes.", "anchors": ["next-plaid/src/index.rs:create_index_files", "next-plaid/src/index.rs:write_index_from_encoded_chunks", "next-plaid/src/index.rs:MmapIndex::load", "next-plaid/src/index.rs:MmapIndex::get_document_codes"]}
{"id": "C07", "title": "The inverted file is exact", "statement": "In every index produced by creation, appends and deletions, document d is listed under centroid c exactly when d has a token assigned to c, and each list is strictly increasing.", "quantifier": "all histories of create / append / delete with non-empty batches and non-negative ids (negative ids: see C09), all documents, all centroids", "why_tests_cant": "The IVF is patched incrementally by three different code paths; only an invariant over all histories settles it.", "anchors": ["next-plaid/src/index.rs:create_index_files", "next-plaid/src/update.rs:update_index", "next-plaid/src/delete.rs:delete_from_index_impl", "next-plaid/src/index.rs:MmapIndex::get_candidates"]}
{"id": "C08", "title": "Appending keeps old documents and numbers new ones consecutively", "statement": "Adding n documents to an index holding N documents leaves documents 0..N-1 unchanged and makes the new ones N..N+n-1 in the given order.", "quantifier": "all index states, all non-empty batches, all chunk sizes, whether or not the last chunk is extended", "why_tests_cant": "The last-chunk-extension path, chunk splits and offsets interact for every size.", "anchors": ["next-plaid/src/update.rs:update_index", "next-plaid/src/index.rs:MmapIndex::update_append"]}
{"id": "C09", "title": "Deleting removes exactly the requested documents", "statement": "Deleting a set of ids removes exactly the existing documents with those ids, keeps all others in order with their tokens, renumbers them consecutively, and returns how many documents were removed. Repeated or out-of-range ids have no further effect.", "quantifier": "all index states, all lists of ids (repeated, unsorted, negative, beyond the end)", "why_tests_cant": "Ids outside the index and chunk layouts cannot be enumerated.", "anchors": ["next-plaid/src/delete.rs:delete_from_index", "next-plaid/src/delete.rs:delete_from_index_impl"]}
{"id": "C10", "title": "Any history of operations equals the same history on a plain list", "statement": "After any sequence of create, append and delete operations the loaded index shows exactly the documents that the same operations produce on an ordinary list.", "quantifier": "all finite operation histories with non-empty batches and non-negative delete ids (outside: C08_empty_append_loses_documents, C09_negative_ids_corrupt)", "why_tests_cant": "A statement about all histories.", "anchors": ["next-plaid/src/index.rs", "next-plaid/src/update.rs:update_index", "next-plaid/src/delete.rs:delete_from_index_impl"]}
{"id": "C11", "title": "Buffered updates never lose, duplicate or reorder documents", "statement": "Whatever mixture of from-scratch rebuilds, buffered appends, and centroid expansions the library chooses internally, a history of update and delete calls leaves the index holding exactly the documents the history describes, in order, and update returns their ids.", "quantifier": "all histories of update / delete calls on a freshly opened index, non-empty updates, non-negative delete ids, and all threshold configurations, changing between calls", "why_tests_cant": "The choice between three update modes depends on accumulated state and thresholds; tests visit a few histories.", "anchors": ["next-plaid/src/index.rs:MmapIndex::update", "next-plaid/src/update.rs:save_buffer", "next-plaid/src/update.rs:load_buffer", "next-plaid/src/delete.rs:clean_embeddings_files"]}
{"id": "C12", "title": "Deleting keeps the saved raw embeddings in step with the index", "statement": "After any delete, the raw embeddings saved for rebuild and for the pending buffer are exactly those of the surviving documents they belonged to.", "quantifier": "all index states reachable by update/delete histories, all lists of non-negative ids", "why_tests_cant": "Depends on where the buffered suffix lies relative to deleted ids for all states.", "anchors": ["next-plaid/src/delete.rs:clean_embeddings_files", "next-plaid/src/delete.rs:delete_from_index_keep_buffer"]}
{"id": "C13", "title": "Search answers are well formed", "statement": "Every search returns at most top_k results, each id at most once, every id names an existing document, passages and scores have equal length, and scores are in non-increasing order.", "quantifier": "all indexes, queries and search parameters, standard and batched probing", "why_tests_cant": "Quantifies over all queries and parameters.", "anchors": ["next-plaid/src/search.rs:search_one_mmap", "next-plaid/src/search.rs:search_one_mmap_batched"]}
{"id": "C14", "title": "Filtered search returns only documents of the filter", "statement": "When a subset of document ids is given, every result is in the subset.", "quantifier": "all subsets, queries, parameters", "why_tests_cant": "All subsets.", "anchors": ["next-plaid/src/search.rs:search_one_mmap", "next-plaid/src/search.rs:search_one_mmap_batched"]}
{"id": "C15", "title": "Exhaustive settings give the exact ranking", "statement": "If every centroid is probed, no score threshold applies and the re-ranking budget covers all documents, search returns the top_k documents (of the subset if given) with at least one token by exact late-interaction score over the decompressed tokens: no unreturned document scores strictly better than a returned one, and fewer than top_k are returned only if there are fewer documents.", "quantifier": "all indexes, queries, top_k, subsets, score types with a total order", "why_tests_cant": "Combines IVF completeness with three ranking phases.", "anchors": ["next-plaid/src/search.rs:search_one_mmap", "next-plaid/src/search.rs:search_one_mmap_batched", "next-plaid/src/search.rs:ivf_probe_batched"]}
{"id": "C16", "title": "Score threshold only prunes centroids below it", "statement": "With a centroid score threshold t, a probed centroid contributes candidates only if some query token scores at least t against it; every document returned has a token in such a centroid.", "quantifier": "all queries, centroids, thresholds", "why_tests_cant": "All score matrices.", "anchors": ["next-plaid/src/search.rs:search_one_mmap", "next-plaid/src/search.rs:ivf_probe_batched"]}
{"id": "C17", "title": "Probing in centroid batches equals probing all at once", "statement": "Without a score threshold, and with no ties between centroid scores of one query token, probing the centroids in slices of any size selects the same set of centroids as scoring them all at once.", "quantifier": "all score matrices, slice sizes >= 1, probe counts >= 1", "why_tests_cant": "The heap-based selection works on every split.", "anchors": ["next-plaid/src/search.rs:ivf_probe_batched", "next-plaid/src/search.rs:search_one_mmap"]}
{"id": "C18", "title": "Batch search equals separate searches", "statement": "Searching many queries at once returns, in query order, what searching each one alone returns, sequentially or in parallel.", "quantifier": "all query lists, both parallel settings", "why_tests_cant": "All lists; scheduling must not matter.", "anchors": ["next-plaid/src/search.rs:search_many_mmap"]}
{"id": "C19", "title": "Late-interaction score is the sum of per-query-token maxima on every code path", "statement": "The simple path, the batched path and the vectorised maximum all compute, for finite similarities, the sum over query tokens of the maximum similarity with any document token; a document with no tokens scores zero.", "quantifier": "all matrix sizes, all finite similarity values, any vector width", "why_tests_cant": "Remainder lanes and size-dependent path switches exist for every length.", "anchors": ["next-plaid/src/maxsim.rs:maxsim_score", "next-plaid/src/maxsim.rs:maxsim_score_simple", "next-plaid/src/maxsim.rs:simd_max"]}
{"id": "C20", "title": "Embedding reconstruction checks every id first and answers in request order", "statement": "Reconstructing a list of ids fails if any id is not an existing document, and otherwise returns one matrix per requested id, in order, with that document's own tokens. Documents decompressed together give the same rows one after another, in request order, with the number of rows of each; there an id of no document counts no rows.", "quantifier": "all id lists, all indexes", "why_tests_cant": "All id lists, including repeated ones and bad ids at any position.", "anchors": ["next-plaid/src/embeddings.rs:reconstruct_embeddings", "next-plaid/src/embeddings.rs:reconstruct_single", "next-plaid/src/index.rs:decompress_documents", "next-plaid/src/index.rs:get_document_codes"]}
{"id": "C21", "title": "Array file headers are read back as written", "statement": "For every row and column count, parsing the header bytes the library writes for a merged file returns the same shape and the exact offset at which the data begins.", "quantifier": "all shapes", "why_tests_cant": "Decimal printing, padding to 64 and parsing must agree for every number.", "anchors": ["next-plaid/src/mmap.rs:write_npy_header_1d", "next-plaid/src/mmap.rs:write_npy_header_2d", "next-plaid/src/mmap.rs:parse_npy_header", "next-plaid/src/mmap.rs:parse_shape"]}
{"id": "C22", "title": "The merged files are the concatenation of the chunks, also when merged incrementally", "statement": "Merging chunk files yields exactly the rows of all chunks in order followed by the padding rows, and re-merging after chunks were appended, changed or removed gives the same file as merging from scratch, provided a changed chunk file has a changed modification time or row count.", "quantifier": "all chunk lists, all earlier merged states, all manifests produced by earlier merges", "why_tests_cant": "Incremental reuse depends on the whole history of merges.", "anchors": ["next-plaid/src/mmap.rs:merge_codes_chunks", "next-plaid/src/mmap.rs:merge_residuals_chunks"]}
{"id": "C23", "title": "Metadata deletion renumbers rows exactly like the index", "statement": "Deleting ids from the metadata store removes exactly those rows and moves every surviving row from id i to i minus the number of deleted existing ids below i, keeping its contents; the number of removed rows is returned.", "quantifier": "all stores whose ids are 0..n-1 (what the index gives out), after any history of metadata calls; all id lists (repeated, out of range, negative). For stores with caller-chosen ids the exact rule is stated too.", "why_tests_cant": "The range-update algorithm must be right for all gap patterns.", "anchors": ["next-plaid/src/filtering.rs:delete", "next-plaid/src/filtering.rs:delete_v2"]}
{"id": "C24", "title": "Document i and metadata row i always belong together", "statement": "Through any history of successful add and delete calls that go through the index API with metadata, the metadata row with id i is the one supplied with document i, and both stores hold the same number of entries.", "quantifier": "all histories", "why_tests_cant": "A two-store invariant over all histories.", "anchors": ["next-plaid/src/index.rs:MmapIndex::update_or_create_with_metadata", "next-plaid/src/index.rs:MmapIndex::delete_with_options", "next-plaid/src/filtering.rs:update", "next-plaid/src/filtering.rs:delete"]}
{"id": "C25", "title": "A filter condition can only compare known columns with placeholders", "statement": "If the library accepts a filter condition then the text is a well-formed boolean combination of comparisons of existing columns against ? placeholders: no literals, functions, sub-queries, comments or statement separators, and every column is a column of the table (ignoring case). The one exception is the idiom of a number, an equals sign and a number. A text says one condition at most.", "quantifier": "all condition strings, all column sets", "why_tests_cant": "Injection safety is a statement about every string.", "anchors": ["next-plaid/src/filtering.rs:validate_condition", "next-plaid/src/filtering.rs:tokenize", "next-plaid/src/filtering.rs:ConditionValidator", "next-plaid/src/filtering.rs:quick_safety_check"]}
{"id": "C26", "title": "Every condition of the documented grammar is accepted", "statement": "Every condition built from the documented grammar over existing columns is accepted by the grammar check.", "quantifier": "all expressions of the grammar, any nesting depth", "why_tests_cant": "All expressions, unbounded nesting.", "anchors": ["next-plaid/src/filtering.rs:ConditionValidator"]}
{"id": "C27", "title": "Keyword queries cannot inject full-text operators", "statement": "The sanitised form of any user query is a sequence of double-quoted phrases with every inner quote doubled, separated by single spaces (or by OR); no operator, column filter or unbalanced quote survives, and sanitising yields the empty query when nothing searchable remains.", "quantifier": "all query strings", "why_tests_cant": "All strings.", "anchors": ["next-plaid/src/text_search.rs:sanitize_fts5_query", "next-plaid/src/text_search.rs:sanitize_fts5_query_or"]}
{"id": "C28", "title": "Reciprocal rank fusion", "statement": "Fused results contain each id once, only ids from the two inputs, are sorted by fused score, are at most top_k, and an id's fused score is the weighted sum of 1/(60+rank) over the lists that contain it; with alpha 1 (0) only semantic (keyword) ranks count.", "quantifier": "all pairs of result lists with distinct ids, all alpha, all top_k", "why_tests_cant": "All lists.", "anchors": ["next-plaid/src/text_search.rs:fuse_rrf"]}
{"id": "C29", "title": "Relative score fusion", "statement": "Each list's scores are mapped into [0,1] preserving order (constant lists map to 1), the fused score is the weighted sum, results contain each id of the union at most once, sorted and cut to top_k.", "quantifier": "all pairs of result lists, all alpha, all top_k", "why_tests_cant": "All lists, including constant and empty ones.", "anchors": ["next-plaid/src/text_search.rs:fuse_relative_score"]}
{"id": "C30", "title": "Filtered keyword search over many ids equals one big filter", "statement": "Keyword search restricted to a list of distinct ids, executed in chunks of at most 900 parameters, returns the same top results as a single unrestricted-size filter would.", "quantifier": "all id lists of any length without repetition, all scored tables, all top_k", "why_tests_cant": "Lists longer than the parameter limit.", "anchors": ["next-plaid/src/text_search.rs:search_filtered"]}
{"id": "C31", "title": "Update batching loses nothing and keeps order", "statement": "Every accepted update request is processed exactly once, in the order accepted, and each batch is closed as soon as it holds at least the configured number of documents.", "quantifier": "all request arrival sequences and timeout schedules", "why_tests_cant": "All schedules of arrivals and timeouts.", "anchors": ["next-plaid-api/src/handlers/documents.rs:batch_worker", "next-plaid-api/src/handlers/documents.rs:process_batch"]}
{"id": "C32", "title": "Eviction keeps the newest documents", "statement": "With max_documents = m, after an update the index holds the newest min(n, m) documents in order and nothing else is evicted.", "quantifier": "all document counts and limits", "why_tests_cant": "All sizes.", "anchors": ["next-plaid-api/src/handlers/documents.rs:evict_oldest_documents"]}
{"id": "C33", "title": "Repair re-aligns index and metadata after an interrupted operation", "statement": "If an operation stops between writing the index and writing the metadata, the repair run before the next operation leaves both stores with the same number of entries and every remaining document paired with its own metadata.", "quantifier": "all states, all interruption points of add and of delete", "why_tests_cant": "Crash points.", "anchors": ["next-plaid-api/src/handlers/documents.rs:repair_index_db_sync", "colgrep/src/index/mod.rs:IndexBuilder::repair_index_db_sync"]}
{"id": "C34", "title": "One writer per index", "statement": "At any moment at most one request is modifying a given index on disk.", "quantifier": "all interleavings of create, add, update batch, delete batch and delete-index requests on any index names", "why_tests_cant": "All interleavings.", "anchors": ["next-plaid-api/src/handlers/documents.rs:get_index_lock", "next-plaid-api/src/handlers/documents.rs:get_index_lock_by_path", "next-plaid-api/src/handlers/documents.rs:add_documents", "next-plaid-api/src/handlers/documents.rs:process_batch", "next-plaid-api/src/handlers/documents.rs:delete_index"]}
{"id": "C35", "title": "Readers see one consistent index snapshot", "statement": "A search that obtained an index handle keeps using that snapshot while writers publish new ones; every snapshot a reader sees was published by a load, and reads never go back to an older snapshot.", "quantifier": "all interleavings of readers and writers", "why_tests_cant": "All interleavings.", "anchors": ["next-plaid-api/src/state.rs:IndexSlot", "next-plaid-api/src/state.rs:AppState::get_index_slot", "next-plaid-api/src/state.rs:AppState::reload_index"]}
{"id": "C36", "title": "Update status reporting follows the lifecycle", "statement": "Queued or running updates are never dropped from the health report; finished ones disappear only after the retention time; the queued counter never goes negative; and a failure or completion is what the report shows until a new update starts.", "quantifier": "all event histories and clock readings", "why_tests_cant": "All histories.", "anchors": ["next-plaid-api/src/state.rs:AppState::record_update_queued", "next-plaid-api/src/state.rs:AppState::record_update_completed", "next-plaid-api/src/state.rs:AppState::record_update_failed", "next-plaid-api/src/state.rs:AppState::get_update_health_statuses"]}
{"id": "C37", "title": "Timestamps denote the right calendar date", "statement": "The date printed for day number d after 1970-01-01 is the Gregorian date of that day: day 0 is 1970-01-01 and each following day is the calendar successor.", "quantifier": "all days since the epoch", "why_tests_cant": "All days, all leap-year patterns.", "anchors": ["next-plaid-api/src/state.rs:civil_from_days", "next-plaid-api/src/state.rs:system_time_to_rfc3339"]}
{"id": "C38", "title": "Centroid expansion keeps existing documents decodable", "statement": "Adding centroids never changes existing centroids, so all previously stored codes still denote the same vectors; exactly the tokens farther than the threshold from every existing centroid are considered for expansion whatever the tile sizes.", "quantifier": "all centroid sets, token sets, thresholds, tile sizes", "why_tests_cant": "All sizes and tilings.", "anchors": ["next-plaid/src/update.rs:update_centroids", "next-plaid/src/update.rs:find_outliers"]}
{"id": "C39", "title": "Legacy index conversion is idempotent", "statement": "Converting an index a second time changes nothing and reports that nothing was converted; conversion preserves the element values of each file and the files it need not touch.", "quantifier": "all directories of array files", "why_tests_cant": "All combinations of file types present.", "anchors": ["next-plaid/src/mmap.rs:convert_fastplaid_to_nextplaid"]}
{"id": "C40", "title": "Metadata lookup answers in request order", "statement": "Looking up a list of distinct ids returns the existing rows in the requested order and skips missing ones, whatever the list length; giving both a condition and ids is refused.", "quantifier": "all id lists, all tables", "why_tests_cant": "Lists longer than the SQL parameter limit.", "anchors": ["next-plaid/src/filtering.rs:get", "next-plaid/src/filtering.rs:get_v2"]}
{"id": "C41", "title": "A conditional metadata update touches exactly the selected rows", "statement": "Updating metadata under a condition changes exactly the named columns of exactly the rows satisfying the condition, keeps ids and all other values, and returns how many rows were selected; an unknown column is refused and nothing changes.", "quantifier": "all metadata stores reachable by metadata calls, all conditions, all updates", "why_tests_cant": "The update is split over two tables and chunks; it must be right for every table shape and every selection.", "anchors": ["next-plaid/src/filtering.rs:update_where", "next-plaid/src/filtering.rs:update_where_v2"]}
{"id": "C42", "title": "Keyword search stays in step with the metadata", "statement": "After any history of additions, deletions and conditional metadata updates made through the API, a keyword finds document i exactly when it occurs in the current metadata of document i; deleted documents are never found and ids follow the renumbering.", "quantifier": "all histories of successful add, delete and metadata-update calls, all metadata rows, all tokenizers", "why_tests_cant": "The keyword index is a third store kept in step by incremental deletions, a rebuild or row updates depending on the shape of the deletion; every interleaving of them must agree.", "anchors": ["next-plaid/src/text_search.rs:index", "next-plaid/src/text_search.rs:delete", "next-plaid/src/text_search.rs:rebuild", "next-plaid/src/text_search.rs:update_rows", "next-plaid/src/index.rs:MmapIndex::delete_with_options"]}
{"id": "C43", "title": "Identifier tokenisation loses nothing", "statement": "For the code tokenizer, the identifiers of a text are exactly its maximal runs of ASCII letters, digits and underscores without leading digits; each identifier, lower-cased, is a search token, its camel-case and snake-case parts concatenate back to it, and every part can be searched for. Tokens contain only letters, digits and underscores.", "quantifier": "all texts", "why_tests_cant": "Splitting depends on the case of three neighbouring characters anywhere in an arbitrary text; a lost character is only visible for the text that contains it.", "anchors": ["next-plaid/src/text_search.rs:tokenize_identifiers", "next-plaid/src/text_search.rs:split_identifier", "next-plaid/src/text_search.rs:camel_split"]}
{"id": "C44", "title": "Queued deletions are applied exactly once and in order", "statement": "Every deletion request that was accepted is handed to the deleting worker exactly once and in the order of acceptance, in batches of at most the configured number of conditions; the worker always comes to an idle state, and then nothing accepted is left unprocessed.", "quantifier": "all arrival sequences, all timings of the two waiting periods, every moment at which the queue is closed", "why_tests_cant": "The worker has two timed loops, and an item can arrive, the channel can close or a deadline can pass in any of them.", "anchors": ["next-plaid-api/src/handlers/documents.rs:delete_batch_worker", "next-plaid-api/src/handlers/documents.rs:delete_documents"]}
{"id": "C45", "title": "A batch of deletions removes exactly the matching documents", "statement": "Whatever delete requests are combined into one batch, afterwards the index and its metadata hold exactly the documents whose metadata satisfied none of the accepted conditions, in their previous order and each beside its own metadata; a refused condition removes nothing and does not affect the others.", "quantifier": "all histories of the index, all lists of conditions", "why_tests_cant": "Deletion renumbers documents, so a condition evaluated after an earlier one of the same batch sees other ids; the claim is over every combination of conditions and every state.", "anchors": ["next-plaid-api/src/handlers/documents.rs: process_delete_batch", "next-plaid/src/index.rs: delete", "next-plaid/src/filtering.rs: where_condition, delete"]}
{"id": "C46", "title": "An index name denotes a directory of its own inside the index directory", "statement": "Every request that names an index reads, writes and removes files only inside the directory of that name directly under the configured index directory, and different names never share files.", "quantifier": "all index names a client can send, all configured index directories and working directories", "why_tests_cant": "Names are arbitrary strings decoded from the URL; the claim is about every one of them, including separators and dot segments.", "anchors": ["next-plaid-api/src/state.rs: index_path", "next-plaid-api/src/handlers/documents.rs: create_index, delete_index"]}
{"id": "C47", "title": "Metadata values come back as they were given", "statement": "Whatever rows of metadata are added, in whatever batches, and whatever documents are deleted or rows changed in between, listing the metadata of a document shows for every column exactly the JSON value that was given for it (and NULL where none was given).", "quantifier": "all JSON values, all histories of additions, deletions and conditional changes", "why_tests_cant": "The type of a column is fixed by the batch that introduces it and the database converts later values to it, so the claim depends on the whole history and on every combination of values; tests use one type per column.", "anchors": ["next-plaid/src/filtering.rs: infer_sql_type, json_to_sql, create, update, get, row_to_json_value"]}
{"id": "C48", "title": "Well-formed metadata is accepted and malformed metadata is refused", "statement": "A batch of metadata rows, one per document, whose column names are identifiers that do not clash with each other or with the reserved ones is accepted, whatever was stored before and in whatever order the rows are; a batch with another number of rows than documents, or with a name that is not an identifier, is refused and nothing changes.", "quantifier": "all batches of rows, all stores reachable through the API", "why_tests_cant": "Creation chooses between two code paths by looking at the first row, and an update adds columns to tables with an arbitrary history; acceptance must hold for every batch and every state.", "anchors": ["next-plaid/src/filtering.rs: create, try_fixed_schema_from_first_row, create_with_fixed_columns, update, is_valid_column_name"]}
{"id": "C49", "title": "After an indexing run colgrep's index holds the code as it is now", "statement": "When a run of `colgrep` indexing comes to its end, the index holds, for every source file of the project, each code unit of its present content exactly once, and nothing else: no units of deleted files and none of earlier versions; and metadata row i describes document i.", "quantifier": "every project, every sequence of edits (files added, changed, deleted, renamed, emptied, made unreadable) between runs, every number of runs, forced and incremental", "why_tests_cant": "Incremental updates depend on the whole history of runs and edits through the recorded state; tests try single transitions such as one added or one changed file.", "anchors": ["colgrep/src/index/mod.rs: IndexBuilder::run_indexing, incremental_update, compute_update_plan, full_rebuild, delete_files_from_index", "colgrep/src/index/state.rs: IndexState"]}
{"id": "C50", "title": "Interrupted colgrep runs are made good by the next ones", "statement": "If indexing is interrupted or its process is killed at any moment, the next run that comes to its end leaves the index a single uninterrupted run would have left: no unit is lost, none is stored twice, and rows and documents correspond.", "quantifier": "every project, every moment of interruption or kill, any number of interruptions, first builds, updates and forced rebuilds", "why_tests_cant": "The moments of interruption are unboundedly many and combine over several runs; tests kill at one or two places.", "anchors": ["colgrep/src/index/mod.rs: build_resumable, flush_build_batch, incremental_update, repair_index_db_sync, delete_files_from_index, run_index_stage", "colgrep/src/index/state.rs: IndexState::save"]}
{"id": "C51", "title": "Exclusion patterns hide the files they describe and no others", "statement": "A search with `--exclude` patterns never returns code from a file one of the patterns describes, and still returns code from every other file; likewise `--exclude-dir` hides exactly the files in or below the directories its patterns describe.  `*` and `?` stay within a path component, `**/` stands for any number of directories, all other characters stand for themselves, a leading `/` anchors the pattern at the project root.", "quantifier": "all lists of patterns, all paths without line breaks, all indexes", "why_tests_cant": "Patterns are compiled by hand to regular expressions and joined; whether escaping, anchoring and alternation are right must hold for every pattern, list of patterns and path.", "anchors": ["colgrep/src/index/mod.rs: glob_to_regex, dir_pattern_to_regex, Searcher::filter_exclude_by_patterns, Searcher::filter_exclude_by_dirs", "next-plaid/src/filtering.rs: where_condition_regexp"]}
{"id": "C52", "title": "colgrep --include shows exactly the files its glob patterns select", "statement": "`colgrep --include=PATTERN` restricts a search to the units of files whose path is selected by at least one pattern: brace groups stand for each of their alternatives, a pattern without a leading `**/` may match at any depth, and otherwise a pattern selects a path exactly when the path is one of those the pattern describes. No selected file is left out and no other file is shown.", "quantifier": "every list of include patterns, every indexed set of units and every file path", "why_tests_cant": "The set of patterns and the set of paths are both unbounded and the brace expander is recursive; a unit test tries a handful of pattern/path pairs and cannot show that expansion yields every alternative or that no other path is selected.", "anchors": ["colgrep/src/index/mod.rs: expand_braces", "colgrep/src/index/mod.rs: build_glob_set", "colgrep/src/index/mod.rs: matches_glob_pattern", "colgrep/src/index/mod.rs: IndexState/Searcher::filter_by_file_patterns"]}
{"id": "C53", "title": "A restricted colgrep search looks at exactly the code that meets every restriction", "statement": "When a search is restricted to a directory or a file, by `-e`, by `--include`, `--exclude` or `--exclude-dir`, the code units that are ranked are exactly those that meet all of the restrictions given; if there are none the search ends with no results.", "quantifier": "all sets of indexed units, all combinations of restrictions, all directory names and patterns, all iteration orders of hash sets", "why_tests_cant": "Six filters combine, each with its own early exit and its own way to intersect; a test fixes one combination and one set of paths, while a directory or pattern that lets in a unit of another file may have any name.", "anchors": ["colgrep/src/commands/search.rs: search_single_path", "colgrep/src/scoring.rs: should_search_from_root", "colgrep/src/index/mod.rs: Searcher::filter_by_path_prefix, Searcher::filter_by_files, Searcher::filter_by_file_patterns, Searcher::filter_exclude_by_patterns, Searcher::filter_exclude_by_dirs"]}
{"id": "C54", "title": "A search shows the k best files, one result per file, in a fixed order", "statement": "A search with -k shows at most k results, best score first, one for each file; every result is the best-scoring unit of its file among the candidates, with lines from the first to the last unit of the file that was found; no file that is left out has a better candidate than a file that is shown, and files are left out only when k are shown. The same search on the same index shows the same list every time.", "quantifier": "all indexes, queries, rankings of the two searches (semantic and keyword), fusion weights, k, numbers of paths, and orders in which hash maps are read", "why_tests_cant": "The list depends on every ranking of every set of units and on the iteration order of hash maps, which differs from run to run; tests use a few files with well separated scores.", "anchors": ["/repo/colgrep/src/commands/search.rs cmp_results_deterministic, cmd_search, search_single_path", "/repo/colgrep/src/index/mod.rs search_hybrid_with_embedding, collapse_by_file, search_with_embedding"]}
{"id": "C55", "title": "Ranking signals change scores only as documented", "statement": "Ranking signals keep the candidates and their order. The path penalty is a product of factors between 0 and 1, one for each kind of file the path is of, and is off for queries about tests, specs or benchmarks. Boosts for file names and definitions raise exactly the units that share a word with the query, the coherence boost raises exactly the first best unit of each file in proportion to the file's total, and no boost lowers a score. Nothing depends on the order of a hash map.", "quantifier": "all queries, paths, unit names, candidate lists with scores that are not negative, constants from the environment in their ranges, and hash orders", "why_tests_cant": "The signals interact over all candidates of a search (greatest score, greatest total), and rounding, ties and hash orders vary with the input; tests check a few literal paths and lists.", "anchors": ["/repo/colgrep/src/ranking.rs file_path_penalty, should_apply_path_penalty, apply_path_stem_boost, apply_definition_boost, apply_file_coherence_boost", "/repo/colgrep/src/index/mod.rs search_hybrid_with_embedding"]}
{"id": "C56", "title": "Encoding gives one embedding per document, in order, whatever the batching", "statement": "Encoding a list of texts, in fixed or length-bucketed batches, on one session or several, returns exactly one embedding for each text, in the order of the texts, and the embedding at each position is an embedding of the text at that position. The call succeeds whenever tokenising and the forward passes do. Length-bucketed batches hold every document once, are never padded below a document's length or above the document length, and never hold more padded tokens than a full batch. The streaming call delivers each text's embedding exactly once at its offset, in whatever order the sessions finish, and does not stall.", "quantifier": "every list of texts, batch size, document length, number of sessions, batching mode, moment of cancellation, forward pass that returns one result per row, and every interleaving of the streaming workers", "why_tests_cant": "The documents are sorted by length, split into buckets and permuted back; a wrong index shows only for particular length patterns, and the streaming order depends on the schedule of threads.", "anchors": ["next-plaid-onnx/src/lib.rs: tokenize_documents_in_batches, encode_prepared_document_batches_cancellable, build_fixed_dynamic_shapes, encode_single_session, encode_parallel, encode_documents_raw_stream"]}
{"id": "C57", "title": "An indexing run stores each unit once with its own embedding and row, whatever the schedule", "statement": "When the threads of an indexing run (tokenise, encode, pool, index, metadata) are done, the vector index and the metadata database have grown in step: each stored unit once, with an embedding of its own text, at the id under which its row is stored; all units if no thread failed and nobody interrupted, some otherwise. If tokenising, forward passes and writes succeed then the run succeeds, and the threads never wait for each other for ever. Equal texts in a chunk are encoded once and shared.", "quantifier": "every list of units, chunk size, batching mode, capacity of the channels, schedule of the six threads, chunk at which the user interrupts, forward pass or append that fails, and content of the index before", "why_tests_cant": "The result must not depend on how six threads interleave over bounded channels nor on the moment of a failure or interruption; a test sees one schedule.", "anchors": ["colgrep/src/index/mod.rs: prepare_units_for_encoding, prepare_deduplicated_chunk, run_tokenize_stage, run_encode_stage, run_pool_stage, run_index_stage, flush_update_batch, run_metadata_stage, run_chunk_pipeline, run_encoding_pipeline"]}
{"id": "C58", "title": "The embedding of a text does not depend on the batch it is encoded in", "statement": "Encoding a text gives exactly one vector for each token the model reads of it that is not filtered out, in order. What is read is the text's first tokens with the prefix token in the second place and its last token (the separator), at most the configured length; an expanded query is filled up with mask tokens to exactly the query length. The vectors depend only on those tokens: not on the other texts of the call, nor on padding, batching mode, number of sessions, or on whether the texts are tokenised one by one or together. Batch preparation never goes out of bounds.", "quantifier": "every tokenizer that pads on the right, list of texts of any lengths, batch size, batching mode, number of sessions, skip list, length of at least 3, and forward pass that attends only to positions that are not masked", "why_tests_cant": "Rows of all documents are written into one flat tensor with offsets that depend on the longest document; a wrong offset or mask changes embeddings only for particular combinations of lengths.", "anchors": ["next-plaid-onnx/src/lib.rs: tokenize_processed_texts_individually, prepare_batch_from_tokenized_documents, prepare_batch_from_tokenizer_encodings, encode_prepared_batch_with_session, encode_batch_with_session"]}
{"id": "C59", "title": "Pooled documents are means of clusters of similar tokens", "statement": "With a pool factor f above one, a document of more than two token rows is replaced by its first row followed by max((rows-1)/f, 1) rows, each the mean of the rows of one cluster; the clusters are non-empty, every other row is in exactly one, and they are the clusters a hierarchical clustering has after its first merges. The clustering is a tree: every merge joins two clusters that exist, each cluster is merged at most once, sizes are right, and each merge joins two clusters that are nearest to each other in Ward's dissimilarity. Pooling always ends, the clusters are those of the smallest distances, and rows that are not finite are reported as an error.", "quantifier": "all documents (any number of rows, any width, any values), all pool factors, all distances, any rounding arithmetic", "why_tests_cant": "The nearest-neighbour chain visits data-dependent sequences; whether it ends depends on last bits of rounded distances, and the tree and partition laws must hold for every matrix of distances", "anchors": ["next-plaid-onnx/src/hierarchy.rs: linkage, linkage_ward, find_nearest_neighbor, fcluster_maxclust, fcluster_distance", "next-plaid-onnx/src/lib.rs: pool_embeddings_hierarchical, pool_document_embeddings"]}
{"id": "C60", "title": "Each client of the encoding pool gets the embeddings of its own texts", "statement": "Requests to encode texts, for documents and queries and with any pool factors, may arrive at any time; several workers take them from one queue and encode them in common batches. Every accepted request is answered exactly once: with one embedding for each of its own texts, in their order, made for the kind of text and the pool factor it asked for, or with an error if a model reported one for a batch that contains its texts. As long as no model panics no accepted request is dropped, requests are refused only when the queue is full, and the workers always come to the end of their work.", "quantifier": "all numbers of workers, all arrivals, batch limits, queue capacities, deadlines, orders in which groups are encoded, all schedules of workers and handlers", "why_tests_cant": "Which requests share a batch depends on timing; a wrong offset or key shows only for particular mixtures of kinds, pool factors and numbers of texts, and loss or double answers only under particular interleavings", "anchors": ["next-plaid-api/src/handlers/encode.rs: encode_texts_internal, get_or_create_encode_pool, encode_worker_loop, process_encode_batch_with_model"]}
{"id": "C61", "title": "Reranking returns every document once, best MaxSim score first", "statement": "An answered rerank request contains each document of the request exactly once, with falling scores and ties in the order of the request. Each score is the sum over query tokens of the greatest dot product with a token of that document, in f32 arithmetic and never non-finite; for embeddings with entries between -1 and 1 the request is never refused for its values, the score is within an explicit rounding bound of the exact MaxSim score, and documents whose exact scores differ by more than twice the bound are in the right order. A request is refused if it has no documents, or embeddings that are empty, ragged, of another dimension or not finite, and otherwise only on overflow. Base64 embeddings are read back exactly as written, and the format in which embeddings are sent does not change the answer.", "quantifier": "all queries, documents, formats, f32 values (including subnormals, both zeros, infinities and not-a-numbers)", "why_tests_cant": "Ties, signed zeros, rounding and overflow depend on bit patterns; base64 text of every length modulo three must round-trip; tests compare a few short vectors", "anchors": ["next-plaid-api/src/handlers/rerank.rs: rerank, compute_maxsim, score_desc_cmp, doc_to_ndarray", "next-plaid-api/src/models.rs: decode_b64_embeddings, json_embeddings_to_array2, encode_b64_embeddings", "next-plaid-api/src/handlers/search.rs: to_ndarray", "next-plaid-api/src/handlers/documents.rs: to_ndarray", "next-plaid/src/filtering.rs: base64_encode"]}
{"id": "C62", "title": "Every line of an indexed file is in a unit, and each definition has its own", "statement": "When a source file is indexed, every line that is not blank is in the range and the code of at least one unit, so it can be found. Each named function, method, class and top-level constant has a unit of its own with its name, its class, its calls and its lines including attributes above it; all remaining text is gathered in raw units that contain no line of a definition, each line in exactly one. Text and configuration files are one unit.", "quantifier": "all sources, all syntax trees whose rows are rows of the file, all languages of the generic extractor; all Vue, Svelte and HTML files and all results of the script parser", "why_tests_cant": "Coverage must hold for every nesting and every arrangement of definitions, attributes, blank lines and tags; tests show a few files.", "anchors": ["colgrep/src/parser/mod.rs extract_units, extract_from_node", "colgrep/src/parser/extract.rs extract_function, extract_class, extract_constant, fill_raw_code_gaps", "colgrep/src/parser/text.rs", "colgrep/src/parser/vue.rs", "colgrep/src/parser/svelte.rs", "colgrep/src/parser/html.rs"]}
{"id": "C63", "title": "A unit's line range is where its code is", "statement": "The code of a unit is exactly the lines of the file from its first to its last line, so a result opened in an editor shows the code that was matched. For units from scripts and templates in Vue, Svelte and HTML files, each line of the unit's code is part of the line of the file with the number the unit gives it. Cutting a file never panics.", "quantifier": "all sources, all syntax trees whose rows are rows of the file, all languages, all nesting depths", "why_tests_cant": "Offsets are added and subtracted in several places (attributes, rows from 0 and lines from 1, script blocks); an error of one line shows only for particular layouts.", "anchors": ["colgrep/src/parser/extract.rs fill_raw_code_gaps", "colgrep/src/parser/extract.rs", "colgrep/src/parser/vue.rs extract_vue_units", "colgrep/src/parser/svelte.rs extract_svelte_units", "colgrep/src/parser/html.rs extract_html_units"]}
{"id": "C64", "title": "The callers recorded for a unit are exactly its callers", "statement": "After indexing, each unit lists exactly the names of the units that call its name, without repetition and in order; nothing else of the unit changes. The list does not depend on whether a file was indexed in a first build or in a later update.", "quantifier": "all lists of units; all divisions of a project into earlier and later files", "why_tests_cant": "The graph depends on all pairs of units of a project and on the history of updates.", "anchors": ["colgrep/src/parser/call_graph.rs build_call_graph", "colgrep/src/index/mod.rs incremental_update", "colgrep/src/embed.rs build_embedding_text"]}
{"id": "C65", "title": "A search request is answered with one result per query, restricted as asked, each document with its own metadata", "statement": "Over the HTTP API, a request with embeddings, texts or both is answered exactly when it asks something, its numbers and names make sense, and everything it refers to exists; otherwise it is refused with the status that names the reason, never with an internal error. The answer has one result per query in order, with at most top_k distinct documents, best first, as many scores and metadata entries as documents; only documents that satisfy the filter (or are in the subset) appear. Embeddings get what the index answers, texts the best keyword matches, both the fusion of three times as many of each, with the documented defaults. The metadata shown with a document is its own.", "quantifier": "all requests, all index contents and databases, all states other requests leave behind between any two reads of this one", "why_tests_cant": "The handler reads shared state several times and other requests run in between; the combinations of embeddings, texts, filters, subsets, defaults and failures are far more than tests can list.", "anchors": ["next-plaid-api/src/handlers/search.rs search", "next-plaid-api/src/handlers/search.rs fetch_metadata_for_docs", "next-plaid-api/src/handlers/search.rs search_filtered", "next-plaid-api/src/handlers/search.rs search_with_encoding", "next-plaid-api/src/handlers/search.rs search_filtered_with_encoding", "next-plaid/src/text_search.rs search_filtered", "next-plaid-api/src/models.rs SearchRequest"]}
{"id": "C66", "title": "What colgrep prints for its results is a faithful excerpt of the files", "statement": "For every result colgrep prints lines of the file as it is now, each with its own number and text (cut after 400 visible characters), in order, beginning with the first line of the result, and with `...` wherever lines are left out. With -e the matching lines of the result are shown with half the requested context on each side; without -e the lines that contain the query, or the lines around at most three others, or the first lines. Compact output with -e lists exactly the matching lines of each file with results; -l lists each file once, best first; verbose output shows every result once, code before documents, files by their best result. Printing does not crash.", "quantifier": "all results, files (also files changed since they were indexed), patterns, queries, flags, numbers of context lines, highlighters that only add colours and scores of lines", "why_tests_cant": "The printed lines come from merging, clamping and cutting ranges for any set of matches in any file and any context; off-by-one errors and crashes hide in particular combinations of these.", "anchors": ["colgrep/src/display.rs calc_display_ranges", "colgrep/src/display.rs print_plain_ranges", "colgrep/src/display.rs print_highlighted_ranges", "colgrep/src/display.rs print_highlighted_content", "colgrep/src/display.rs find_representative_lines", "colgrep/src/display.rs group_results_by_file", "colgrep/src/commands/search.rs cmd_search", "colgrep/src/commands/search.rs PatternMatcher"]}
{"id": "C67", "title": "colgrep -e selects exactly the units that contain the pattern", "statement": "With -e, the units considered are exactly those whose text contains a match of the pattern, lines separately for ^ and $, letters equal regardless of case unless --case-sensitive, whether groups, alternatives and repetitions are written in the basic or the extended spelling; plus those that contain the text of the pattern itself, so that code can be pasted as a pattern. -w asks for edges of words on both sides, -F searches for the text itself. A malformed pattern is searched for as a text and never fails. Each unit is selected once; a unit is selected whenever one of its lines matches, and the lines shown as matching are those in which the pattern occurs.", "quantifier": "all patterns of the supported grammar in both spellings (for verbatim search: all texts), all stored units, all combinations of -F, -w, -E and --case-sensitive, all orders in which a hash set is read", "why_tests_cant": "The pattern is rewritten twice as text before the engine reads it; whether the rewriting keeps the meaning depends on nesting, escapes and braces in unboundedly many combinations.", "anchors": ["colgrep/src/index/mod.rs filter_by_text_pattern_with_options", "colgrep/src/index/mod.rs bre_to_ere", "colgrep/src/index/mod.rs escape_literal_braces", "next-plaid/src/filtering.rs where_condition_regexp", "colgrep/src/commands/search.rs PatternMatcher"]}
{"id": "C68", "title": "Installing into and uninstalling from other programs keeps what is the user's", "statement": "colgrep --install-codex/-opencode/-hermes puts its instructions as one marked section behind the user's text in AGENTS.md, replacing an earlier section; uninstalling takes the section out and leaves the user's text. Installing for Codex adds one directory to writable_roots in config.toml and changes nothing else; uninstalling takes it out and restores the file. Uninstalling from Claude Code removes exactly the matchers whose hooks call colgrep from settings.json and keeps every other matcher and setting in order.", "quantifier": "every text of AGENTS.md, every config.toml and settings.json, and every history of installations (with any version of the instructions), uninstallations and edits by the user", "why_tests_cant": "Tests try a few files; whether some text of the user, or some sequence of installing, editing and uninstalling, loses or doubles their content ranges over all texts and histories.", "anchors": ["colgrep/src/install/codex.rs: add_to_agents_md, remove_from_agents_md, add_sandbox_writable_root, remove_sandbox_writable_root", "colgrep/src/install/opencode.rs: add_to_agents_md, remove_from_agents_md", "colgrep/src/install/hermes.rs: add_to_agents_md, remove_from_agents_md", "colgrep/src/install/claude_code.rs: remove_hooks_from_settings"]}
{"id": "C69", "title": "A command uses and changes only the index of its project and model", "statement": "A search in a directory is answered from the directory's own index for the selected model if it has one, otherwise from the nearest indexed project above it for that model, restricted to the subdirectory, otherwise from a new index; the index it reads holds that project's files embedded with that model and is the one just brought up to date. Searching, initialising or clearing changes no index of another model and no index of a project that is neither the directory nor above it.", "quantifier": "every history of searches, init, clear and clear --all for any directories and models with any outcome of the updates (finished, failed, killed, lock held elsewhere), any order of directory entries", "why_tests_cant": "Which index is chosen depends on everything indexed before on the machine; mixing two projects or models shows only for particular histories and names.", "anchors": ["colgrep/src/index/paths.rs: compute_index_dir_name, find_index_for_project, find_parent_index", "colgrep/src/commands/search.rs: is_external_project_path, run of a search (1074-1260)", "colgrep/src/commands/init.rs: cmd_init", "colgrep/src/commands/clear.rs: cmd_clear"]}
{"id": "C70", "title": "The quantiser and the centroids of an index are learned soundly from its documents", "statement": "When an index is created, k-means sees every token of the documents drawn exactly once and is asked for between 1 and as many centroids as there are tokens (the number asked for, or the power of two just below 16 times the root of the estimated token count); creation fails only if there is no token. The quantiser's cutoffs and weights are quantiles of the residuals of sampled tokens: a residual in the range of the training residuals is read back with an error of at most the width of its bucket plus the rounding error of single precision, the weights lie between the cutoffs, and the buckets get equal shares. estimate_num_partitions predicts the number of centroids.", "quantifier": "all document collections, all orders in which documents are drawn, all settings, all residual values and numbers of bits, all ways in which arithmetic rounds within a relative and absolute error", "why_tests_cant": "The error bound must hold for every residual and every training set, including ties and rounding at bucket borders; tests look at a few random matrices.", "anchors": ["next-plaid/src/kmeans.rs: compute_kmeans, estimate_num_partitions", "next-plaid/src/index.rs: create_index_files, prepare_codec_artifacts", "next-plaid/src/utils.rs: quantile, quantiles", "next-plaid/src/codec.rs: quantize_residuals"]}
{"id": "C71", "title": "The metadata endpoints report and change exactly the rows asked for", "statement": "The check endpoint splits the requested ids into those that have a metadata row and those that do not, keeping order and repetitions, with matching counts. The get endpoint returns the rows of the listing for the requested ids (in request order) or the rows that satisfy the condition (in listing order), cut to the limit; query returns the ids of the same rows; count the number of rows. An update answers with the number of rows that query gives for its condition and changes exactly these rows in exactly the named columns. Requests that are wrong are refused as the caller's fault, a missing index or database as not found, and nothing is changed.", "quantifier": "every history of metadata calls, every list of ids of any length, every condition, limit and set of new values, and for the split every interference by other requests", "why_tests_cant": "Tests check a few ids and conditions; the split must be exact for every list with repetitions and unknown or negative ids, for lists beyond SQLite's parameter limit, and whatever other requests do to the index between the looks at the disk.", "anchors": ["next-plaid-api/src/handlers/metadata.rs: check_metadata, query_metadata, get_metadata, get_all_metadata, get_metadata_count, update_metadata", "next-plaid/src/filtering.rs: get, where_condition, update_where, count"]}
{"id": "C72", "title": "The index of a new git worktree is right although it was copied from a sibling", "statement": "When a worktree without an index is indexed and a sibling worktree of the same repository has a finished index for the same model, the index is copied from the first such sibling in git's list and then brought up to date: afterwards it holds exactly the units of the files as they are in this worktree. An existing index or a forced run is never replaced by a copy, and no copy is made of an index that is unfinished, dirty or of another format.", "quantifier": "every pair of worktrees and their files, every history of indexing runs in the sibling, every list of worktrees, every kill and every interleaving with runs in the sibling", "why_tests_cant": "A test looks at a few files that are the same in both worktrees; the property must hold for every difference between two branches, and for copies that overlap with a run in the sibling.", "anchors": ["colgrep/src/index/worktree.rs: list_worktree_roots, seed_candidates, copy_dir_all", "colgrep/src/index/mod.rs: seed_source_state, maybe_seed_from_worktree, try_seed_from_sibling_worktree, run_indexing, compute_update_plan"]}
{"id": "C73", "title": "JSON files are read as they were written, and never as something else", "statement": "The metadata, the document lengths, the configuration of an index on the server, and the state and project of a colgrep index are read from their files exactly as they were written, whatever strings and numbers they hold, in the compact and in the indented layout; two different values never have the same text. A file whose writing was cut short at any point is refused rather than read as another value or as an empty one. A process killed while it saves leaves either the old or the new record. Metadata of an older version are completed by counting the documents. The members of a record may come in any order and unknown ones do not matter; missing ones have their defaults where there are any, and a repeated, ill-typed or missing required member makes the file unreadable.", "quantifier": "every JSON value and record, every string with any characters, every cut of the text, every history of declarations, limit changes and restarts, and every moment of a kill", "why_tests_cant": "Tests round-trip a few records; escapes, surrogate pairs, number forms, nesting and each of the unboundedly many prefixes of a text must be right for all values.", "anchors": ["next-plaid/src/index.rs: Metadata, load_from_path", "next-plaid-api/src/state.rs: get_index_config, set_index_config", "next-plaid-api/src/handlers/documents.rs: update_index_config", "colgrep/src/index/state.rs: IndexState::load, save", "colgrep/src/index/paths.rs: ProjectMetadata::load, save"]}
{"id": "C74", "title": "The last settings command that mentions a setting decides it", "statement": "After any history of `settings` and `set-model` commands, each setting used by a search or an indexing run is the option given on the command line, else the environment where there is one, else the value given by the last settings command that mentions it, else the default; 0 resets a number, a model that cannot be loaded is not taken, commands with conflicting options change nothing, and settings that a command does not mention stay as they are. A pattern is in the ignore or force-include list exactly if the last command that mentions it added it, and only once. What `settings` shows is what is used.", "quantifier": "every history of commands with every combination of options, every pattern and model name, and every command line of the search", "why_tests_cant": "Tests set one or two values on a fresh configuration; the settings interact through one file that every command reads, changes and writes, and the property ranges over all histories of commands.", "anchors": ["colgrep/src/config.rs: Config", "colgrep/src/commands/config.rs: cmd_config, cmd_set_model", "colgrep/src/commands/search.rs: resolve_model, resolve_top_k, resolve_context_lines, resolve_relative_paths, resolve_verbose, resolve_pool_factor, cmd_search", "colgrep/src/cli.rs: Commands::Settings", "colgrep/src/parser/mod.rs: max_recursion_depth"]}
{"id": "C75", "title": "A pattern given with -e adds exactly its literal words to the query", "statement": "With `-e PATTERN QUERY`, the text searched for by meaning begins with the query as given, followed by the words of the pattern's literal text that the query does not have (apart from case), each after one blank; operators, anchors, character sets, counts and groups contribute nothing, classes and alternatives separate words, escaped characters stand for themselves. If nothing is new the query is unchanged, and adding the pattern again changes nothing. With -F the pattern's text is itself literal.", "quantifier": "every query, every pattern built from literals, classes, sets, anchors, groups, alternatives and repetitions in any nesting, every notion of white space and lower case", "why_tests_cant": "Tests check a handful of patterns; the claim is about all patterns of a recursive syntax, read by a character automaton that does not parse it.", "anchors": ["colgrep/src/commands/search.rs: strip_regex_for_semantic, merge_query_with_pattern, search_single_path"]}
{"id": "C76", "title": "Reads of metadata see the database that is there", "statement": "Every read of an index's metadata (filters, counts, rows, text search) gives what the metadata database at the index's path holds at that moment, whatever this process has read, written, created, deleted or renamed before; in particular an index that was deleted and declared again under the same name shows only its own rows.", "quantifier": "every history of overlapping reads, writes, creations, removals and renames of databases at any number of paths, in one process", "why_tests_cant": "Tests use a fresh directory per case, so no connection outlives its file; the claim is about all histories of one long-lived process and all overlaps of readers with creation.", "anchors": ["next-plaid/src/filtering.rs: DB_READ_CONNECTIONS, read_connection, invalidate_read_connection, with_db_read, open_db_write, create, count", "next-plaid-api/src/handlers/documents.rs: delete_index, repair_index_db_sync", "colgrep/src/index/mod.rs: full_rebuild"]}
{"id": "C77", "title": "colgrep indexes exactly the files of the project that its rules admit", "statement": "The files indexed are exactly the regular files below the project root, each once, that are at most 512 KiB, have one of the known and selected languages by name or extension (apart from case), are not excluded by git, and have no hidden, built-in ignored or user-ignored name on their way, unless a force-include pattern applies: a name pattern frees the names it fits, a path pattern everything at or below the path. Files given by name to the library follow the same rules, and none outside the project root is ever read.", "quantifier": "every file system with links, every project root, every set of ignore and force-include patterns, every list of paths given", "why_tests_cant": "Tests check the ignore function on single paths; what is indexed depends on the walk over arbitrary trees, which prunes directories before it sees the files in them, and on links and path arguments of any shape.", "anchors": ["colgrep/src/index/mod.rs: scan_files, should_ignore, is_within_project_root, is_file_too_large, index_specific_files, IGNORED_DIRS", "colgrep/src/parser/language.rs: detect_language", "colgrep/README.md: Custom Ignore & Force-Include"]}
{"id": "C78", "title": "Metadata written by an earlier version is kept and goes on behaving as a list", "statement": "A metadata database that an earlier version of the library left behind (one table, document ids as primary key or as a plain column) shows its rows unchanged, and goes on behaving as a list of rows under appends, deletions and conditional changes, as a new database does: rows have ids 0, 1, .., deletion removes exactly the listed ids and renumbers the rest, lookups and conditions answer from the listing, and the counts returned are right. The rebuild of the table at the first deletion loses, reorders and converts nothing, whether or not the deletion that asked for it completes.", "quantifier": "every old database (both layouts, any columns and rows) and every sequence of appends, deletions, conditional changes and re-creations", "why_tests_cant": "Tests migrate one small old database once; the claim is about every content and every later history, including a crash between the rebuild and the deletion", "anchors": ["next-plaid/src/filtering.rs:ensure_fast_subset_schema", "next-plaid/src/filtering.rs:metadata_schema_version", "next-plaid/src/filtering.rs:is_split_schema", "next-plaid/src/filtering.rs:update", "next-plaid/src/filtering.rs:delete", "next-plaid/src/filtering.rs:get", "next-plaid/src/filtering.rs:update_where", "next-plaid/src/filtering.rs:insert_fixed_metadata_rows"]}
{"id": "C79", "title": "The text embedded for a code unit says what is known of the unit and never exceeds its limit", "statement": "The text embedded for a function, method, class, document or section is: its kind and name, then one line for each non-empty thing known of it in a fixed order (signature, base, class, description, parameters, return type, calls, callers, variables, imports), then the words of the last four components of its path (split at separators, underscores, dashes, dots, blanks and small-to-capital changes, in lower case) with the file name, then its code. Blocks of code and constants are embedded as their code alone. No text has more than 8192 characters; one that fits is unchanged, one that does not is its longest beginning (less white space at the end) with a mark, so that the path is kept and only the end of the code is lost.", "quantifier": "every code unit with any texts in its fields, every path, every classification of characters into white space, capitals and small letters", "why_tests_cant": "Tests normalise a few paths and truncate one text; the order and survival of the parts and the splitting of words must hold for all texts, lengths and alphabets.", "anchors": ["colgrep/src/embed.rs: build_embedding_text", "colgrep/src/embed.rs: normalize_path_for_embedding", "colgrep/src/embed.rs: truncate_text", "colgrep/src/embed.rs: shorten_path"]}
{"id": "C80", "title": "Hierarchical clustering with single, complete, average and weighted linkage", "statement": "From a condensed matrix of finite distances, linkage returns a tree over the observations: n-1 merges of older clusters, none joined twice, each with the number of its observations. Every merge joins two clusters that are nearest of all there are at the time (nearest pair of members for single, farthest pair for complete, mean of all pairs for average, mean of the distances of the two parts for weighted linkage), the number written is that distance, and it does not decrease from one merge to the next. Cutting at a distance puts two observations together if and only if a cluster made at not more than that distance has both: for single linkage, if and only if they are connected by steps of not more than that length, and for complete linkage only if they are not farther apart. squareform_to_condensed takes the upper half of a square matrix in the order linkage expects. A distance that is infinite or not a number breaks the tree: the first observation is joined with itself.", "quantifier": "every number of observations, every symmetric distance function, every arithmetic with rounding (for average and weighted linkage the distances are stated for exact numbers), every threshold", "why_tests_cant": "the tests cluster a few points; the claims are about every distance matrix, of any size, with ties", "anchors": ["next-plaid-onnx/src/hierarchy.rs: linkage, linkage_generic, update_single, update_complete, update_average, update_weighted, squareform_to_condensed, fcluster, fcluster_distance"]}
{"id": "C81", "title": "Only one colgrep process at a time writes to an index", "statement": "As long as the index directory is not removed, at most one process writes to an index at any moment, whatever processes start, wait, end or are killed; a process is refused the lock or waits for it only while another process has it, gives up only after five seconds, and gets it at its next attempt once the writer has ended or was killed. A process that removes a broken index does so while nobody writes to it. With removals (colgrep clear, rebuild of a broken index) there may be as many writers as one plus the number of removals, and colgrep clear may remove an index while another process writes to it.", "quantifier": "every interleaving of any number of processes that index, try to index, clear or rebuild, each ending or dying at any moment, with any times between steps", "why_tests_cant": "a test runs a few processes in the orders that happen to occur; the claims are about all schedules", "anchors": ["colgrep/src/index/paths.rs: acquire_index_lock, try_acquire_index_lock", "colgrep/src/index/mod.rs: index, try_index, index_specific_files", "colgrep/src/commands/clear.rs: cmd_clear", "colgrep/src/commands/search.rs: rebuild of a broken index"]}
{"id": "C82", "title": "Array files opened in place are read inside the file", "statement": "A raw array file written by the library (32-bit floats, bytes or 64-bit integers) opens with its shape, and every row, every range of rows and every value is read back as written. Any file that opens, raw or NPY, whoever wrote it, holds all the values its header speaks of, and every row and range of rows is read without a panic as the bytes at their place. Values returned are always bytes of the file.", "quantifier": "all files of bytes, all shapes a header can state, all rows and ranges of rows", "why_tests_cant": "Headers are 64-bit numbers whose product can pass 64 bits; a test opens a few files of small shape.", "anchors": ["next-plaid/src/mmap.rs:MmapArray2F32", "next-plaid/src/mmap.rs:MmapArray2U8", "next-plaid/src/mmap.rs:MmapArray1I64", "next-plaid/src/mmap.rs:MmapNpyArray1I64", "next-plaid/src/mmap.rs:MmapNpyArray2F32", "next-plaid/src/mmap.rs:MmapNpyArray2U8", "next-plaid/src/mmap.rs:write_array2_f32", "next-plaid/src/mmap.rs:write_array2_u8", "next-plaid/src/mmap.rs:write_array1_i64"]}
{"id": "C83", "title": "The server's catalogue of indexes says what was asked of it", "statement": "Requests one after another, with restarts anywhere between them, are answered from what is stored: declaring an index that exists is refused; an index has the configuration it was declared with (what was left out by default) and the last limit on documents that was set, until it is deleted; a deleted index is gone until it is declared again; the list is of all indexes that exist, each once, in order. However requests overlap, an index is declared at most once for each time it is removed, a change that was answered is stored, and no member but the limit changes.", "quantifier": "all directories, all sequences of create, set limit, delete, add documents, list, describe and restart requests; for overlaps all schedules of any number of requests", "why_tests_cant": "The cache of configurations is filled by readers without the lock; whether it agrees with the files depends on the schedule, and tests run one.", "anchors": ["next-plaid-api/src/state.rs:get_index_config", "next-plaid-api/src/state.rs:set_index_config", "next-plaid-api/src/state.rs:list_all", "next-plaid-api/src/state.rs:get_index_summary", "next-plaid-api/src/handlers/documents.rs:create_index", "next-plaid-api/src/handlers/documents.rs:delete_index", "next-plaid-api/src/handlers/documents.rs:update_index_config"]}
{"id": "C84", "title": "An update that cannot be stored, or is interrupted, costs no stored document", "statement": "Documents of the width of the index are stored behind the others under the ids reported, whatever branch an update takes; an update with a document of another width is refused and changes nothing, and later updates are stored as if it had not been made; a process stopped anywhere in an update leaves the documents that were stored, with all of the new ones or none, and every document keeps its own metadata in what follows.", "quantifier": "all histories of updates and deletions, all widths of the documents given, all thresholds, changing between calls, and every write after which a process can stop", "why_tests_cant": "What is left behind by a failing or interrupted update shows only in later updates that take another branch; tests look at the update that fails, and at few points of interruption.", "anchors": ["next-plaid/src/index.rs:MmapIndex::update", "next-plaid/src/index.rs:create_index_with_kmeans_files", "next-plaid/src/update.rs:save_buffer", "next-plaid/src/update.rs:load_buffer_info", "next-plaid/src/update.rs:update_index", "next-plaid/src/update.rs:update_centroids", "next-plaid-api/src/handlers/documents.rs:process_batch", "next-plaid-api/src/handlers/documents.rs:add_documents"]}
{"id": "C85", "title": "What becomes of accepted updates", "statement": "An update answered 202 is stored: in whatever order requests, batches and timeouts happen, the documents found in an index are the documents of the accepted requests, each with its own metadata, in the order of acceptance, up to some point, and all of them once the worker has nothing left to do; an index declared after another of the same name was removed holds only documents accepted for it.", "quantifier": "every schedule of declaring and removing the index, requests with vectors and with texts, receives, timeouts and batches, every batch size, channel size and threshold, every document and metadata", "why_tests_cant": "it depends on which requests fall into one batch and on when an index is removed and declared again while a worker still has updates; tests run one schedule", "anchors": ["next-plaid-api/src/handlers/documents.rs:get_or_create_batch_queue", "next-plaid-api/src/handlers/documents.rs:batch_worker", "next-plaid-api/src/handlers/documents.rs:process_batch", "next-plaid-api/src/handlers/documents.rs:update_index", "next-plaid-api/src/handlers/documents.rs:delete_index", "next-plaid-api/src/handlers/documents.rs:create_index"]}
{"id": "C86", "title": "A unit found by a search is the unit that was indexed", "statement": "What colgrep shows for a document found by a search is the code unit that was indexed under this document, unchanged in every field (name, file, lines, language, kind, signature, docstring, lists of parameters, calls, variables and imports, flags, code), beside the score of that document; a document that was found and is in the index is shown.", "quantifier": "every history of inserting units and deleting them, every unit with any texts in its fields, every list of document ids and scores a search can give, every order in which the database returns rows", "why_tests_cant": "units go through JSON, typed database columns and a repair that guesses types from the text of a value and from the name of a column; which texts are mistaken depends on all of the text, and tests use ordinary ones", "anchors": ["colgrep/src/index/mod.rs:fix_sqlite_types", "colgrep/src/index/mod.rs:search_with_embedding", "colgrep/src/index/mod.rs:search_hybrid_with_embedding", "colgrep/src/parser/types.rs:CodeUnit", "colgrep/src/parser/text.rs:extract_plain_text_units", "next-plaid/src/filtering.rs:get"]}
{"id": "C87", "title": "A stream of embeddings gives every document once and then ends", "statement": "Documents encoded through a stream arrive chunk by chunk from the threads of all sessions. When the stream ends, every document's embedding was given exactly once and at its place, unless one of the messages was a failure; what was given before the end is right; every stream ends, and dropping it early ends the work.", "quantifier": "all documents, batch sizes, numbers of sessions, interleavings of the sessions' threads, the pooling thread and the caller, all moments of dropping, and all encodings that panic", "why_tests_cant": "the outcome depends on the interleaving of threads, on when a thread panics or the stream is dropped, and on sessions poisoned by earlier calls", "anchors": ["next-plaid-onnx/src/lib.rs: encode_documents_stream, encode_documents_raw_stream, RawDocumentEmbeddingStream, DocumentEmbeddingStream, build_document_work_queue"]}
{"id": "C88", "title": "A filter selects exactly the rows for which its condition is true", "statement": "A filter condition with one value per placeholder selects the ids of exactly those metadata rows for which the condition is true under SQL's three-valued logic, whichever table holds the columns, in whatever case they are written, and whatever queries were made before on the same index; with REGEXP, each test uses the pattern given for its own placeholder, and a row whose column is not text is not selected.", "quantifier": "all metadata histories, conditions of the documented grammar, parameter lists, regular expressions, orders in which the database visits rows, and histories of queries on the shared connection", "why_tests_cant": "conditions nest without bound, the answer depends on which table a name resolves to and on what earlier calls left on the cached connection, and tests of REGEXP use one pattern as first parameter", "anchors": ["next-plaid/src/filtering.rs: where_condition, where_condition_regexp, condition_references_fat_column, get_schema_columns, read_connection, with_db_read, invalidate_read_connection"]}
{"id":"C89","title":"The Python parser package merges a file's units without losing any, and its language names agree","statement":"With merge=True, parse_code returns exactly one unit. For a file with two or more units it is a Document named after the file whose parameters, calls, callers, variables and imports are those of all units, each once, in the order of first appearance by line; whose code and embedding text are all units' texts in line order with an empty line between; whose docstring joins the distinct non-empty docstrings; whose complexity is the sum and whose flags are the disjunction; and whose line range covers all units. The language name that detect_language reports is accepted by parse_code_with_language and gives the same result as parse_code; every name of supported_languages is accepted and no two mean the same language.","quantifier":"for every list of units, file name, code, language and lower-casing that is the usual one on ASCII","why_tests_cant":"Units may be nested, unsorted, on the same line or share any names; a test sees a few files, and the claim is about every list of units and every language in both tables.","anchors":["colgrep/python-sdk/src/lib.rs: merge_units, parse_code, parse_code_with_language, supported_languages, detect_language_py","colgrep/src/parser/types.rs: FromStr for Language"]}
{"id":"C90","title":"Each definition of a QML file is a unit in the object it belongs to","statement":"For a QML file within the depth limit, every object, inline component, function, signal, property, signal handler (on followed by a capital), variable and enumeration that is not inside a value or a function body has a unit with its name, its lines, its code, its kind and the object or component around it; there are no other units and no duplicates, and a file gives all of its units or none. The imports a function is said to use are those of the file that its code mentions.","quantifier":"for every QML source and every syntax tree of it, of any size and nesting","why_tests_cant":"The walk takes different paths through annotated objects, inline components, initialisers and nameless nodes; a test sees a few files, the claim is about every tree.","anchors":["colgrep/src/parser/qml.rs: extract_qml_units, extract_from_node, recurse_initializer, extract_object_definition, extract_inline_component, extract_signal, extract_property, extract_handler_binding, imports_used_in_code"]}
{"id": "C91", "title": "A document is found by the words of its metadata, however often the keyword index is rebuilt", "statement": "A metadata value that is added is found by the words of the texts, numbers and Booleans in it, at any depth, and by nothing else. The same holds after the keyword index has been filled from the tables again (a deletion or a conditional change): no word is lost and none is gained, whatever the type of the column. So after any history a word finds a document exactly when it is in its current metadata, also for documents that were added to an open index.", "quantifier": "all JSON values of any depth, all column types, all words, all classifications of the characters outside ASCII, all histories of additions, deletions and conditional changes", "why_tests_cant": "The text at insertion and the text after a rebuild are produced by two different pieces of code through a database with type affinity; whether they agree depends on the value, on the type of the first value of the column and on the history, of which tests try a few.", "anchors": ["next-plaid/src/text_search.rs: metadata_to_text, collect_text_parts, rebuild, update_rows, fts_rebuild_select", "next-plaid/src/filtering.rs: json_to_sql, infer_sql_type", "next-plaid/src/index.rs: MmapIndex::update_with_metadata"]}
{"id": "C92", "title": "What is said about a unit is true of its code", "statement": "The calls listed for a piece of code are exactly the names by which its call expressions call, at any depth, in order and each once; its complexity is one more than the number of branches and loops in it, and it is marked as having loops, branches or error handling exactly if it has some; its variables are the names it declares, its parameters those of its head in order (without self), its return type and parent class are those written there. Nothing is listed that is not written in the code.", "quantifier": "all syntax trees of any size and depth, all languages, all names, all classifications of characters, all recursion limits", "why_tests_cant": "The facts are collected by walks over trees that the grammar of each of some twenty languages produces; whether the walk misses a node, counts a token or takes a piece of a string for a name depends on the tree, and tests look at a few trees in a few languages.", "anchors": ["colgrep/src/parser/analysis.rs: extract_function_calls, extract_control_flow, extract_variables, extract_parameters, extract_return_type, extract_parent_class, find_first_by_kind, find_first_by_kinds, find_identifier_in_declarator"]}
{"id": "C93", "title": "Imports noted about a piece of code are imports of its file that it uses", "statement": "The imports of a file are exactly the modules that its import statements name, found anywhere in the file down to the recursion limit, in order and each once. The imports noted about a unit are those of them, in that order, that it uses: as the base of an access or by one of its calls.", "quantifier": "all syntax trees of any size and depth, all languages, all texts of import statements, all module names, all recursion limits", "why_tests_cant": "Module names are cut out of the text of import statements by one set of rules for all languages; which part of the statement is taken depends on every form of import each language has, and the link to a unit on substrings of the names it calls.", "anchors": ["colgrep/src/parser/analysis.rs: extract_file_imports, extract_used_modules", "colgrep/src/parser/extract.rs: extract_function, extract_class", "colgrep/src/parser/mod.rs: extract_units"]}
{"id": "C94", "title": "The docstring of a unit is what the comment above it says", "statement": "A function or class that is indexed carries the text of its documentation: the comment directly above it (or the string at the beginning of its body in Python), without the comment marks, its lines in order with spaces between. Nothing else of the file is in it; without a comment there is no docstring. Reading it never panics.", "quantifier": "all files (any lines, any number of them), all rows in them, all languages, all lengths of comments and repetitions of marks", "why_tests_cant": "The comment is found by looking upwards line by line, with other rules for each language; whether a mark, a blank line, an attribute or a line of code is recognised depends on the lines above, of which there are unboundedly many arrangements.", "anchors": ["colgrep/src/parser/analysis.rs: extract_docstring", "colgrep/src/parser/extract.rs: extract_function, extract_class"]}
{"id": "C95", "title": "A GPU gives the codes and residuals that the CPU would", "statement": "Encoding documents gives every token a centroid with the best score and packs the difference to that centroid, whether a GPU or the CPU does it, whatever the batches, the order in which threads of the GPU run, the calls of the driver that fail and the memory there is; the GPU never reads or writes outside its buffers and keeps to its memory. A failing GPU means the CPU does the work, unless a GPU is demanded, in which case the process panics and never returns wrong codes. When each token has one best centroid all machines encode the same chunk. One process has one context, a broken GPU is left alone, and the panic hook of the program survives.", "quantifier": "all embeddings and centroids of one width, all numbers of them (below 2^31 centroids), all limits of memory up to 16 GiB, all orders of the writes of the kernels, all sets of failing calls, all interleavings of calls for the context and of panic hooks", "why_tests_cant": "Tests run on machines without a GPU; on one with a GPU they see one schedule of the threads, one size of batch and no failures. Ties, NaN and overlapping calls need unusual inputs and schedules.", "anchors": ["next-plaid/src/cuda.rs: compress_into_codes_cuda_batched, compress_and_residuals_cuda_batched, ARGMAX_KERNEL, compute_batch_size, get_global_context, mark_cuda_broken, clear_cuda_broken, catch_cuda_panic", "next-plaid/src/index.rs: encode_index_chunk, compress_and_residuals_cpu, create_index_files", "next-plaid/src/codec.rs: compress_into_codes"]}
{"id": "C96", "title": "The ONNX Runtime that is used is the right one, and is downloaded at most once", "statement": "The runtime library used is the one named by ORT_DYLIB_PATH if it can be loaded; otherwise, without CUDA, the first in the search order that can be loaded; otherwise the one of the program's cache, downloaded if its files are missing. Nothing is downloaded or written if a library that can be loaded is found. A download succeeds exactly if the archive can be read and has all files wanted; each gets the contents of its last entry and no other file changes. After a success the next run needs no network. What is reported as found can be loaded. The directory of the library is put at the front of the path of the linker, where all other entries stay. The process starts itself again at most once.", "quantifier": "all builds, hosts, environments, contents of the file system, answers of the server, crash points of the extraction", "why_tests_cant": "Depends on the environment, on what is installed, on archives sent by a server and on the point at which an earlier run died; tests run with one set-up.", "anchors": ["colgrep/src/onnx_runtime.rs: ensure_onnx_runtime, pin_runtime_library, prepend_ld_library_path, find_onnx_runtime, get_search_paths, download_onnx_runtime, extract_libraries, is_valid_ort_dylib"]}
{"id": "C97", "title": "Ctrl+C while an index is made", "statement": "When a run of the indexing threads returns without an error, interrupted or not, all threads have ended, nothing is being written, the vector index and the database hold the same units, and these are the first of the units to be indexed, in order; if Ctrl+C was not pressed they are all of them. At every moment the rows of the database are a prefix of the units. After Ctrl+C, and outside of a write, no batch of the model is begun and nothing more is sent off. A run never hangs: while it has not returned one of its threads can go on, and the number of its steps is bounded, whatever the schedule, the signals and the failures. Without signals and failures there is no error. Pressing Ctrl+C again changes nothing. The process does not end while the index is being written.", "quantifier": "all units and chunks, flush limits, schedules of the six threads, points at which Ctrl+C is pressed, failures of any thread at any point", "why_tests_cant": "Depends on the interleaving of six threads with a signal and with failures; a test sees one schedule and cannot place the signal.", "anchors": ["colgrep/src/signal.rs: is_interrupted_outside_critical, CriticalSectionGuard, setup_signal_handler", "colgrep/src/index/mod.rs: run_chunk_pipeline, run_tokenize_stage, run_encode_stage, run_pool_stage, run_index_stage, run_metadata_stage"]}
{"id": "C98", "title": "Where the model runs: CPU or GPU", "statement": "The environment variables FORCE_CPU, FORCE_GPU and their prefixed forms are read as on if 1 or true in any case; both kinds on is an error. A flag on the command line decides over the variables. A mode that was chosen is read as that mode by colgrep and by both libraries, and no other variable changes. With --force-cpu no session is ever made on a GPU, in any build and whatever is indexed and searched. With --force-gpu no session is ever made on the CPU: it fails if there is no GPU. In automatic mode with CUDA an index run uses the GPU exactly if it has 300 units or more and the GPU can be used; if the GPU fails it is done again on the CPU; searches run on the CPU.", "quantifier": "all environments, flags, builds, machines, sequences of index runs and searches in a process", "why_tests_cant": "Depends on the hardware, the build and the history of the process; tests run on one machine without a GPU.", "anchors": ["colgrep/src/acceleration.rs: env_acceleration_mode, apply_acceleration_mode", "colgrep/src/main.rs: main", "colgrep/src/index/mod.rs: ensure_model_created, rebuild_model_for_cpu, run_encoding_pipeline, load_with_quantized, execution_provider_for_acceleration_mode", "next-plaid-onnx/src/lib.rs: configure_execution_provider, configure_cuda, is_cuda_available, is_force_cpu, is_force_gpu"]}
{"id": "C99", "title": "Indexing that fails on the GPU is done again on the CPU, without a trace", "statement": "If a run of the indexing threads fails and is done again, then after the second has returned normally every unit is in the index and in the database exactly once, and the two attempts do not write at the same time.", "quantifier": "all units and chunks, flush limits, schedules, points of failure", "why_tests_cant": "Needs a GPU that runs out of memory at a chosen point, and depends on the interleaving of the threads.", "anchors": ["colgrep/src/index/mod.rs: run_encoding_pipeline, run_chunk_pipeline"]}
{"id": "C100", "title": "Padded sequences can be taken apart again", "statement": "Padding a list of sequences of vectors of one width gives an array that has, for each sequence, as many rows as the longest has: the rows of the sequence and then rows of the padding value. The rows which the mask made from the returned lengths marks are exactly the rows of all sequences, in order. Normalising rows keeps their directions and makes each of them one long, except those shorter than 1e-12, which stay shorter than one.", "quantifier": "all lists of sequences of any lengths and widths, all padding values, all lengths and all rows of real numbers", "why_tests_cant": "The claim is about every combination of lengths, including empty sequences; a test has a few.", "anchors": ["next-plaid/src/utils.rs:pad_sequences", "next-plaid/src/utils.rs:create_mask", "next-plaid/src/utils.rs:normalize_rows", "next-plaid/src/utils.rs:row_norms"]}
{"id": "C101", "title": "Suppressing standard error hides no panic and is undone", "statement": "While a part of the program runs with standard error suppressed nothing it writes is shown; if a panic leaves it, its message is shown once and the panic goes on; afterwards standard error and the panic hook are what they were, whatever happened, also if parts are nested, panic or run in several threads.", "quantifier": "all programs built of writes, panics, caught panics and suppressed parts; all states; overlapping calls of two threads", "why_tests_cant": "It concerns every nesting and every order of the shared descriptor's and hook's changes in several threads.", "anchors": ["colgrep/src/stderr.rs:with_suppressed_stderr", "colgrep/src/stderr.rs:SuppressStderr"]}
{"id": "C102", "title": "Counting searches leaves the index alone", "statement": "Recording a search, or resetting the statistics, changes the count of searches and nothing else: whatever searches and resets come before, between or during indexing runs, the index afterwards is up to date with the files of the last run, an index of an outdated format is still made anew, and a run that was killed is still repaired.", "quantifier": "all sequences of runs, searches and resets over any files; all formats; all moments of a concurrent run", "why_tests_cant": "It needs every order of reads and writes of the state by searching and indexing processes, and states written by other versions.", "anchors": ["colgrep/src/index/state.rs:IndexState::save", "colgrep/src/index/state.rs:IndexState::load", "colgrep/src/commands/search.rs:search_single_path", "colgrep/src/commands/stats.rs:cmd_reset_stats", "colgrep/src/index/mod.rs:run_indexing"]}
{"id": "C103", "title": "Uninstalling and clearing remove what is colgrep's and nothing else", "statement": "When `colgrep --uninstall` says that all is uninstalled, no index, configuration, plugin file or downloaded runtime is left; `colgrep clear --all` removes every index; neither of them ever removes a file that is not colgrep's; failures are reported.", "quantifier": "all environments, all file systems, all failures of removals and all held locks", "why_tests_cant": "It ranges over all settings of the environment and all contents of the directories they name.", "anchors": ["colgrep/src/install/uninstall.rs:uninstall_all", "colgrep/src/install/uninstall.rs:remove_data_directory", "colgrep/src/index/paths.rs:get_colgrep_data_dir", "colgrep/src/config.rs:get_config_path", "colgrep/src/commands/clear.rs:cmd_clear"]}
{"id": "C104", "title": "Indexing chosen files", "statement": "index_specific_files brings the index up to date for the files it is given: after a call that succeeds, each of them has exactly the code units of its present content in the index. The documents and records of all other files stay as they are, whatever is given and at whatever moment the process is interrupted or killed. The counts it returns tell what happened to the files.", "quantifier": "every set of given files with any contents, every earlier state of the index, every moment of an interruption or a kill, every sequence of calls and indexing runs", "why_tests_cant": "a test gives a few files once; the failures need a file that lost its code, a file listed twice, an interruption between batches or a content that comes back, over arbitrary histories", "anchors": ["colgrep/src/index/mod.rs: index_specific_files", "colgrep/src/index/mod.rs: delete_files_from_index_no_fts_rebuild", "colgrep/src/index/mod.rs: parse_files_parallel", "colgrep/src/index/state.rs: IndexState"]}
{"id": "C105", "title": "colgrep update", "statement": "When colgrep update says that colgrep is up to date or has been updated, the latest released version is installed; if the version cannot be found out or installed, an error is reported. Nothing is downloaded or run if the version that runs is the latest.", "quantifier": "every answer of the release server, every outcome of the download (complete, cut off, failed) and of the installer, every version that runs", "why_tests_cant": "it depends on the network, on the shell and on a server; a test would have to enumerate all answers and all places where a download can break", "anchors": ["colgrep/src/commands/update.rs: cmd_update", "colgrep/src/commands/update.rs: get_latest_version"]}
{"id": "C106", "title": "The server's routes, limits and request ids are as documented", "statement": "Every documented request reaches its handler whatever the index is called, and no request fits two routes. With rate limiting on, exactly the documented requests are exempt, each client is counted for itself, and in any span of time it gets at most the burst plus the sustained rate (documented: RATE_LIMIT_PER_SECOND requests a second). At most CONCURRENCY_LIMIT requests are in flight. Every request is answered within its time limit, and every answer carries a request id: the client's own if it sent a readable one.", "quantifier": "all index names, paths and methods; all settings; all sequences of arrival times of any number of clients; all schedules of arrivals and answers; all header bytes", "why_tests_cant": "The rate bound holds over every span of every arrival sequence, the concurrency bound over every interleaving, and route uniqueness over every path; the repository's rate limit test passes with the documented rate and with its inverse.", "anchors": ["next-plaid-api/src/main.rs:build_router", "next-plaid-api/src/main.rs:rate_limit_error", "next-plaid-api/src/tracing_middleware.rs:trace_request", "next-plaid-api/README.md"]}
{"id": "C107", "title": "Ending the server gracefully keeps what it has accepted", "statement": "When the server gets SIGINT or SIGTERM it takes no further request, answers every request under way, and every update and deletion answered 202 has been carried out when it ends, or at least: what is carried out are whole requests, the first of those accepted, in order, and no more than a known number are lost.", "quantifier": "all schedules of requests, worker steps, timeouts, signals, ends and restarts of the server, over any number of lives; all batch and queue sizes", "why_tests_cant": "Whether an accepted update survives depends on where the worker is when the signal comes, which is any point of any schedule.", "anchors": ["next-plaid-api/src/main.rs:shutdown_signal", "next-plaid-api/src/main.rs:main", "next-plaid-api/src/handlers/documents.rs:batch_worker", "next-plaid-api/src/handlers/documents.rs:delete_batch_worker", "next-plaid-api/src/handlers/documents.rs:process_batch"]}
{"id": "C108", "title": "The plugin for Claude Code is installed and removed completely", "statement": "When `colgrep --install-claude-code` reports success the plugin is installed from the files written now, whatever was there before and whatever the data directory is called; a failed installation leaves a working plugin as it was; when the removal says colgrep has been uninstalled nothing of it is left. The session hooks speak of colgrep exactly where an index exists for the project or one around it, or the project has one to fifty files.", "quantifier": "all paths of the data directory; all combinations of failures of the commands and of the file system; all states before; all directory listings", "why_tests_cant": "The commands go through a shell, so the claim ranges over every path a shell may read differently and over every combination of failing external commands.", "anchors": ["colgrep/src/install/claude_code.rs:install_claude_code", "colgrep/src/install/claude_code.rs:uninstall_claude_code", "colgrep/src/commands/hooks.rs:should_inject_colgrep_context", "colgrep/src/commands/hooks.rs:is_small_project"]}
{"id": "C109", "title": "Enumerating a metadata column lists exactly the texts of the documents that exist", "statement": "After any history of creating, appending, deleting and conditionally changing metadata, asking for the distinct strings of a column returns every text that the full listing shows in that column, each once, and nothing else: no value survives its last document. The call fails exactly when some document has a value in the column that is neither absent nor text, so one number hides all strings; an unknown column gives an empty list, a name that is not a plain identifier is refused, and without a store every name gives an empty list.", "quantifier": "all metadata histories, all column names, all values, every order in which the database returns values", "why_tests_cant": "The values live in one of two tables that every append, deletion and change has to keep in step; that the enumeration of one table agrees with the join is an invariant over all histories.", "anchors": ["next-plaid/src/filtering.rs: get_distinct_strings, get_schema_columns, is_thin_column, update_v2, delete_v2"]}
{"id": "C110", "title": "Training centroids never fails because of a GPU, and GPU trouble is remembered", "statement": "With CUDA, training centroids answers with the GPU's result when the GPU was used and gave one, and otherwise with exactly what the CPU gives for the same rows and settings, so it succeeds whenever the CPU does. Once a call had trouble with the GPU, no later call of the process uses it until the process is told to try again; a call that asks for the CPU never uses the GPU. Without settings the number of centroids is the number asked for; documents are trained on as all their rows in order; and guarding GPU calls leaves the reporting of panics as it was.", "quantifier": "all rows, documents and settings, everything the GPU may do in every call, all histories of calls of a process, all schedules of guarded calls", "why_tests_cant": "Tests run on machines without a failing GPU; what later calls do depends on the whole history of the process, and the panic hook on the schedule of threads.", "anchors": ["next-plaid/src/kmeans.rs: compute_centroids, compute_centroids_from_documents, compute_kmeans, default_config", "next-plaid/src/cuda.rs: catch_cuda_panic, get_global_context, is_cuda_broken, mark_cuda_broken, clear_cuda_broken"]}
{"id": "C111", "title": "A model that is found is complete, offline too, and the network file is the one asked for", "statement": "A model given as an existing directory is used as it is. Otherwise, when the repository does not move during the call, a model is found as soon as each needed file is answered or already in the recorded directory, and what is returned is one directory holding all needed files. Without a network a model is found exactly when the recorded directory is complete, and nothing changes; with every file in the cache the network plays no part; no call removes a file. The network file loaded is the one asked for (quantised or not) or there is an error. The token is that of HF_TOKEN, else HUGGING_FACE_HUB_TOKEN, else the token file, bare or in quotes.", "quantifier": "all contents of the cache, every revision answering or failing each single request, all tokens", "why_tests_cant": "It depends on what the network does at each request and on what earlier, possibly interrupted, calls left in the cache.", "anchors": ["colgrep/src/model.rs: ensure_model, REQUIRED_FILES, OPTIONAL_FILES", "next-plaid-onnx/src/lib.rs: select_onnx_file"]}
{"id": "C112", "title": "The trace of a search is one JSON record per stage, for every query and file name", "statement": "With COLGREP_TRACE set to 1, true or TRUE, and for no other value, each stage of a search writes exactly one record to the standard error. Whatever the query and the file names contain (line feeds, quotes, backslashes, control characters, the marker itself), a reader that takes the lines starting with the marker finds one record for each stage, in order, and no other. Each record is valid JSON and says the stage, the query exactly as given, and the first ids with their scores, or files with their scores, at most the limit.", "quantifier": "all queries, file names, ids, scores and limits, all sequences of stages, all values of the variable", "why_tests_cant": "The JSON is put together by hand; whether it is one line that decodes to the query depends on every character of an arbitrary text.", "anchors": ["colgrep/src/index/mod.rs: trace_log, trace_log_results, trace_enabled, json_escape"]}
{"id": "C113", "title": "An index copied from a sibling worktree is complete or not there, whenever the copy is cut short", "statement": "Copying the index of a sibling worktree ends with exactly the files and directories of the sibling's index in the place of this one (links are followed), no more and no less, whatever was in that place and whatever earlier attempts left behind. When the program is killed after any single step, in the middle of a file too, and no index was there before, then either there is no index that a later run would recognise or it is the complete copy; nothing else in the directory has changed. A copy that fails leaves the place as it was.", "quantifier": "all directory trees of the source, all contents of the destination, every kill point, every sequence of killed attempts with different sources", "why_tests_cant": "The existing test copies one nested directory; kills between any two steps and leftovers of any earlier attempt cannot be enumerated.", "anchors": ["colgrep/src/index/worktree.rs: copy_dir_all", "colgrep/src/index/mod.rs: try_seed_from_sibling_worktree"]}
{"id": "C114", "title": "For a path that does not exist the error names the closest existing directory and lists it", "statement": "When the path to search does not exist, the error names the closest directory above it that exists, and no other, and lists its entries in order, directories marked: all of them when there are no more than thirty, else thirty with a note that the list is cut, and the note is there only then. Help is given whenever a directory above the path exists.", "quantifier": "all paths, absolute and relative, all contents of the file system, all orders in which a directory is read", "why_tests_cant": "It ranges over every path and file system, and the order in which a directory is read is not determined.", "anchors": ["colgrep/src/commands/search.rs: find_existing_parent_and_list, search_single_path"]}
{"id": "C115", "title": "Every index has one queue of each kind and one limit of waiting tasks for the life of the server", "statement": "For every sequence of requests, each update, deletion or document request gets the queue or the limit of waiting tasks of its index; two requests get the same one exactly when they are of the same kind and for the same index. The sizes are those of BATCH_CHANNEL_SIZE and MAX_QUEUED_TASKS_PER_INDEX when these are numbers, else the defaults, as they were when first needed; no setting makes a request fail.", "quantifier": "all sequences of requests for all indexes, all values of the environment at each of them", "why_tests_cant": "Two queues for one index would break the order of updates only under particular interleavings, and the settings range over all texts.", "anchors": ["next-plaid-api/src/handlers/documents.rs: get_or_create_batch_queue, get_or_create_delete_batch_queue, get_index_semaphore, batch_channel_size, max_queued_tasks_per_index"]}
{"id": "C116", "title": "An index never has more pending additions than the limit, and every accepted one is done once", "statement": "For every history of the server: an index never has more accepted and unfinished additions of documents than MAX_QUEUED_TASKS_PER_INDEX; a request is answered 503 exactly when that many are unfinished, and then changes nothing; every accepted addition is taken up exactly once, whether it succeeds, fails or panics, and gives its place back; other indexes have no influence; additions are done in the order they were accepted.", "quantifier": "all sequences of requests, all orders in which the runtime runs the tasks, all outcomes of each task, all limits and all indexes", "why_tests_cant": "It ranges over all interleavings of requests and background tasks; a lost place shows only after as many failures as the limit.", "anchors": ["next-plaid-api/src/handlers/documents.rs: add_documents, get_index_semaphore, get_index_lock"]}
