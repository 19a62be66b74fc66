# Formal model of karmaresearch/trident in Lean 4

Layout: `lean/Verif/<Area>/Model.lean`-style modules hold the model (each definition cites /repo lines), `Spec.lean` files hold the small independent specifications, and property theorems are named `Cnn_*`.

## Plan per property

* **C01** Fixed-width table fields read back the value that was written. Readers modelled on signed bytes (`char` is signed on the target); encoders from the inserter. Round-trip by arithmetic; the 5- and 8-byte readers do not mask the first byte, so the full claim is refuted with a witness and proved below 2^39 / 2^63.
* **C02** Variable-length integers round-trip and are self-delimiting. 7-bit little-endian varint codec on naturals; round trip and self-delimitation by strong induction.
* **C03** The one-byte table signature is decoded to what was encoded. Bit-level model of the signature setters/getters; finite domain, proved for all layouts/flags.
* **C04** The chosen layout is wide enough for the data. Model of determineStrategy with its running maxima; proved by induction over the pair list.
* **C05** Full scan of a row-layout table returns exactly the stored pairs in order. Byte-level encoder and iterator state machine; scan = list by induction.
* **C06** Full scan of a cluster-layout table returns exactly the stored pairs in order. Same for the cluster layout, with the group counter back-patched by the inserter.
* **C07** Full scan of a column-layout table returns exactly the stored pairs in order. Same for the column layout.
* **C08** Query answers do not depend on the storage layout. Corollary of C05-C12 through the common specification (filter of the list).
* **C09** Lookup with the first value fixed (row layout). Model of the binary search + linear phase; loop invariant.
* **C10** Lookup with both values fixed (row layout). Same.
* **C11** Lookups on the cluster layout. Group walk + binary search inside the group.
* **C12** Lookups on the column layout. Binary search over the first-column blocks and inside the group.
* **C13** Forward seek never skips a qualifying pair. Per-layout seek model and loop invariant; refutation where the code is wrong.
* **C14** mark/reset replays the same suffix. State machine: reset restores the observable suffix.
* **C15** Distinct-first-value mode lists each first value once with its multiplicity. Model of the distinct mode.
* **C16** Cardinality equals the number of elements iteration yields. Model of getCardinality per layout.
* **C17** Merging additions yields the sorted union. k-way merge model; permutation + sortedness by induction on remaining elements.
* **C18** Removals yield the sorted difference. Merge difference model; equals filter by induction.
* **C19** Term lists merge by key with summed counts. Merge by key with sums; `Update/Stats` counts the new keys of an update as `UpdateStats` does, because the term list skips updates without new keys. Exact for histories in which every update changes the key set; keys exact after additions; three refutations (stale count, lost key, kept key). `Query/Terms` is `getTermList` of a loaded store: exact for orders that can be read (`C19_stored_partial`), keys only for others (`C19_absent_order_partial`).
* **C20** Index selection puts the bound positions first. Tables PERM/INV_PERM and getIndex as functions, exhaustive case analysis over the shape, symbolic over terms.
* **C21** Pattern queries on a loaded graph are sound and complete. Composition: loader groups -> tables -> tree map -> querier; proved against filter on the set of triples.
* **C22** Skipped inverse tables are reconstructed faithfully. Reverse-table reconstruction and sort; equals the swapped sorted list.
* **C23** Updates are normalised against the current content. match() as merge loop; equals filter.
* **C24** After any history of updates queries answer as if applied to a set. Fold of updates as nested merge/difference iterators versus fold of set operations, induction over the history.
* **C25** The triple count stays right under updates. `Update/Card.lean` models `getInputSize`, `getCardOnIndex`, `getCard` and its memo table, the numbers kept with the graph (`nTriplesInserted`, number of elements in tree entries) and with an update. Proved by induction over the history (`Numbers`): the size is the number of triples that hold; the number of triples with a term is what `getCardOnIndex` reports; `getCard` is right for no or three fixed positions, and for one fixed position under conditions. Four refutations of `getCard`. Not covered: patterns with two fixed positions (answered by `getCardinality` of an iterator, C16) and the estimates `estCard`, `estCardOnIndex`.
* **C26** Merging updates preserves the content. Model of the numbers of subjects stored with updates, of summaryAddDiff/summaryRmDiff and of mergeUpdates; the content is a fold of set operations over the history. Partial: every request changes the set of subjects and no stored triple is added back; refuted otherwise (an addition to a known subject is lost, two of them use a NULL iterator, a triple added back is returned twice, the next update is numbered before a left deletion).
* **C27** A crash while an update is written leaves the old or the new content. `Update/Crash`: eight points (nothing, part of the tables, all tables, trees s, p, o, statistics, flag) at which the writing can stop; what a later query sees at each. Between two points single files are either absent or complete, except the tables, which may hold any prefix (no reader reaches it before its tree exists). Refutation + partial.
* **C28** A crash while updates are merged preserves the content. The directories and the points between the renames; partial: before the first rename (every history), after the second (conditions of C26); refuted between the renames and for a directory `_newdiff` left by an interrupted merge.
* **C29** Update tables preserve the pairs given to them. Packing of pairs in 64 bits; refutation >= 2^32, partial below.
* **C30** The term tree behaves as a finite map. B+-tree model (nodes with separators and splits), refinement to a function key -> Option value over all put sequences: `Tree.Inv` (separators bound the keys of the children, all leaves at the same depth) is kept by every put. Nodes stay in memory; a leaf that is written and read back is covered by C32/C33 and refuted here. Refutations for odd capacities, negative keys and reloaded leaves.
* **C31** Iterating over the term tree returns all keys in increasing order. In-order traversal via right siblings (`Tree.right`), paths as positions; same invariant.
* **C32** Node keys survive serialisation. Node serialise/unserialise on bytes; refutation for steps 128..255; partial otherwise.
* **C33** Leaf coordinates survive serialisation. Leaf value block encoder/parser on bytes; refutation for blocks over 65535 bytes.
* **C34** Storing coordinates for an existing key replaces the old ones. addCoordinates list surgery; exact result for every history, refutation + partial.
* **C35** The string pool returns the strings that were added. Writer/reader over a block list; invariant over all appended entries.
* **C36** Comparing a pooled string agrees with byte-wise lexicographic order. cmp model versus lexicographic order.
* **C37** The string pool survives closing and reopening. Close/reopen model; refutation at block multiples + partial.
* **C38** Blocks handed to the compression thread are written once and in order. Transition system of the two threads; invariant over all reachable states.
* **C39** Closing the string pool terminates. Reachable deadlock state (refutation) in the same transition system.
* **C40** Dictionary lookups are inverse to each other. Model of the load, of additions with few and many new terms, of reopening and of merging; `Holds` says which texts and ids a dictionary on disk holds, by induction over the history. The strings are in the pool model of C35–C37 and the tree from ids to coordinates is the model of C30; the tree from texts to ids is taken as a map. Refutation for merging after small additions.
* **C41** Terms added by small updates survive a restart. Text format writer/reader; refutation for white space, partial for white-space-free terms.
* **C42** The table index of a file locates every table. FileMarks/.idx model.
* **C43** Node blocks on disk never overlap and hold the last version written. NodeManager block allocator model; invariant over write histories.
* **C44** Memory in use is never evicted and the accounting is exact. MemoryManager model; invariant over histories.
* **C45** Open file sessions have distinct identifiers. Session table model; invariant.
* **C46** The hash join returns the join of its inputs. Plan, fillNextMap and probe model; multiset equality with all consistent combinations of rows; partial: refuted for projections that skip a new column of the last input and for inputs without or with three shared variables.
* **C47** Parallel loops cover their range exactly once. Chunking loop model; exact cover for begin=0, refuted otherwise.
* **C48** Sorting raw triple records sorts the triples. Record codec; order isomorphism.
* **C49** The loader splits sorted triples into one table per key. Inserter state machine; equals grouping of the list.
* **C50** The flat tree agrees with the ordinary tree. The writer (`writeFirstPerm`, `writeOtherPerm`) as functions on bytes, from the `.idx` files of the loader and the list of the tree's entries; the reader on mapped pages, with unmapped memory as a distinct outcome. Induction over the entries of SOP against the entries of the tree, then over the other orders; result: block `k` is that of id `k`. Query answers through `Loaded` (C21).
* **C51** Update triples are translated to the ids of their own terms. compressUpdate column loop; refutation for unknown terms in deletions; partial.
* **C52** Permutation records produced while loading are the permutations of the input. `sortChunks2` with its rounds, filler records and in-place swaps; induction over the rounds. False for large ids and some numbers of threads.
* **C53** Merging the permutations gives each term one entry with all its tables. Model of CoordinatesMerger::get and the record file; loop invariant: the heads hold the smallest keys left.
* **C54** Permutations made from each other contain the input in their order. The position variables of createIndices as an invariant over the chain.
* **C55** A file that is being read stays open. FileManager over MemoryManager; invariant over histories of sessions.
* **C56** The parallel sort sorts. Model of sort_int; induction over the halving, for every strict weak order.
* **C57** The queue between threads loses and repeats nothing. Transition system of producers and consumers; invariant over all reachable states.
* **C58** Registering memory always returns. Same model as C44; partial: refuted when all blocks are locked or all slots used.
* **C59** A scan of a pattern returns exactly the bindings of its variables. Model of the tuple iterator over the querier's iterators and of the naming of variables in a scan; proved for any querier that answers queries (`Answers`), which is shown for stored and updated graphs; partial: different names; refuted for repeated names.
* **C60** A scan asked to sort by columns returns rows in that order. Same model; partial: at most two columns or one of three orders; refuted for the other three.
* **C61** Scanning and joining several patterns answers the graph pattern. Composition of C59 and C46; partial: conditions of both.
* **C62** Union and difference of sorted tables. Model of the two loops with their read-ahead buffers; union: sorted, count of each row is the maximum of both counts; difference partial: refuted at the ends of the tables.
* **C63** The join of two tables. Merge join over ranges; partial: tables sorted by the shared columns; refuted for others, because the sorted copies are not read.
* **C64** The iterator over a table returns its rows. State machine of the iterator; induction over rows and over runs.
* **C65** The tables of a permutation are written from the sorted input. The files of `sortChunks2` merged in groups of four; a sorted permutation of a list is unique, so this is the `sort` of the loader model.
* **C66** Queries in an order that was not stored. Model of `ReOrderItr`: rows of SPO are collected (with jumps over greater predicates), grouped by key, sorted. Invariant of the collecting loop against the scan; the groups as a map. With updates: proved for the patterns without jumps, refuted for the others.
* **C68** Jumping to a key. Byte level model of the index files; invariant `Rest` (position in the files = entries to come), kept by reads and jumps; the search reads eight bytes instead of five, so it is proved safe and refuted to be exact.

## Trusted base

* Lean 4.33.0 kernel. Axioms allowed: `propext`, `Classical.choice`, `Quot.sound` (checked with `#print axioms`).
* The correspondence between the C++ text and the Lean definitions (read by hand; every definition cites its lines).
* Third-party code that is not in /repo is modelled from its documented behaviour: kognac `Utils` codecs, LZ4 (assumed lossless), sparsehash maps, the C++ standard library, mmap. The codecs are: big-endian fixed width, `encode_vlong2`/`vint2` (`encV`), `encode_vlong2_fixedLen` (`encVFixed`), `decode_int` (`rdInt`, four bytes big-endian).
* Machine model: x86-64, `char` signed, two's complement.
* `std::sort` and the external sort of the loader are functions with the specification "sorted permutation of the input" (`SortsPairs`, `SortSpec`, `SortsRows`); the theorems hold for every such function.
* Loops whose bound is not syntactic are given fuel; the theorems state how much fuel is enough, so no run is cut.
* Memory is a total function from addresses to bytes; a mapped file is a region with its bytes (`Placed`). Reads outside a region give arbitrary bytes, so no theorem can depend on them.

## What is modelled

| Area | Modules | Code |
|---|---|---|
| Byte codecs | `Bytes` | readers of the tables, kognac `Utils` codecs |
| Tables | `Tables/*` | newrow/newcluster/newcolumn writers and iterators, `StorageStrat` |
| Iterators | `Iter/*` | `CompositeItr`, `RmItr`, `ArrayItr`, `CompositeTermItr`, `RmCompositeTermItr`, `DiffTermItr`, `newItrOnReverse` |
| Stored graph | `Query/*` | index selection, permutations, `Querier::get`, `getIterator` (no updates), `ScanItr`, `TermItr` (with `gotoKey`), `ReOrderItr` |
| Loading | `Load/*` | `TableStorage` (marks, files), `Inserter`, `CoordinatesMerger`, `PermSorter::sortChunks2` (rounds, filler, permuting records), `Loader::mergeDiskFragments` (`FileMerger` by its specification: the merge of sorted files), permutations of the input |
| Updates | `Update/*`, `Iter/CompositeScan` | `DiffIndex3` (createDiffIndex, sortIndex, table writers, getIterator, scans), `Querier::getIterator` with updates, `Updater::match` and `creatediffupdate`, `CompositeScanItr`; numbers of subjects stored with an update, `KB::mergeUpdates`, `Querier::summaryAddDiff`, `summaryRmDiff` (large updates, as in the rest of the model), `getInputSize`, `getCardOnIndex`, `getCard`, stops of `mergeUpdates` between its steps |
| Term tree | `Tree/*` | `Root`, `IntermediateNode`, `Leaf`, `Node` with numeric keys (put, append, get, split), `TreeItr`, node and leaf codecs |
| String pool | `Pool/*` | `StringBuffer`: append, get, cmp, close and reopen; the compression thread and the destructor as a transition system (sequentially consistent). The cache of blocks is taken to be transparent. |
| Files and memory | `Files/*` | `MemoryManager` (add, remove, locks, eviction), `FileManager` (sessions, opening and closing of files) |
| Nodes on disk | `NodeStore/*` | `NodeManager`: placing and growing of blocks, index written on closing, reading, `compressSpace`. With no nodes at all `compressSpace` writes outside of an array; that case is `none`. |
| Threads | `Parallel/*` | `ParallelTasks::parallel_for`, `sort_int`, `ConcurrentQueue` (as a transition system, sequentially consistent) |
| Dictionary | `Dict/*` | `Updater::compressUpdate`, `writeDict`, `DictMgmt` (lookups, choice of the dictionary of an id, file of terms of small updates), `KB` (opening dictionaries, `createNewDict` of merging), the dictionary written by the loader. One dictionary partition; nodes of the trees stay in memory. |
| Flat tree | `Flat/*` | `FlatRoot` (writing for labelled and unlabelled graphs, `get`), `FlatTreeItr`. Mapped in pages of 4096 bytes whose rest is 0; uninitialised buffer bytes are arbitrary. |
| Joins | `Join/*` | `JoinPlan::prepare`, `HashJoin`, `KBScan`, `TupleKBItr`, `TupleTable`, `TupleTableItr` |
| SPARQL operators | `Sparql/*` | `GroupBy`, `AggrFunctions`, `AggregateHandler`, `HashJoin`, `MergeJoin`, `Union`, `MergeUnion`, `HashGroupify`, `DuplLimit`, `ResultsPrinter` (which rows are written), `Minus`, `ValuesScan`, `Assignment`, `CartProd`, `NestedLoopJoin`, `DomainDescription`, `IndexScanHint::next` and `TridentScan::next` (hints), shared domains in plans, `Selection`, `Filter` and `buildSelection`, `SPARQLLexer`, `SPARQLParser` (prefixes, group graph patterns, expressions), `encode`, `encodeFilter`, `binds` and `transformSubquery` of `SemanticAnalysis` (RDF-3X), `TridentLayer::lookup`. An input is the list of rows it returns; scheduling and the text of the output are not modelled. |
| Plans of queries | `Sparql/PlanGen` | `PlanGen` and `CodeGen` for groups of triple patterns and filters, edges of `QueryGraph`; costs, cardinalities and selectivities are parameters; the rows of a scan are given by what it reads. Not: plans with VALUES, OPTIONAL, BIND, subqueries, NOT EXISTS, GROUP BY, aggregates, HAVING, DISTINCT |
| Text of a query to its output | `Sparql/QueryText` | `SPARQLParser::parse` for SELECT, `SemanticAnalysis::transform` for groups of triple patterns and FILTER, the query with its plan and the printer. Not: CONSTRUCT, ORDER BY, GROUP BY, HAVING, expressions in the projection, REDUCED, COUNT, DUPLICATES, JSON |
| Scans of the store | `Sparql/IndexScan` | `IndexScan`, `TridentScan` and `getPermuted` without aggregation and without hints, over the iterators of `Query/KB` and of updates |
| Ignoring the last columns | `Query/Distinct`, `Query/Terms`, `Sparql/AggrScan`, `Sparql/FullyScan` | `ignoreSecondColumn` and `getCount` on stored tables, sorted arrays and scans; `getTermList` on stored and on absent orders; `AggregatedIndexScan` and `FullyAggregatedIndexScan` without hints |
| ORDER BY | `Sparql/OrderBy` | `Sort` with its comparison; the two overloads of `lookupById` share one buffer; `std::sort` by its contract |
| JSON | `Http/Json`, `Http/JsonRead` | `JSON::write` and the calls that build an object; `JSON::read` from the tree that `rapidjson`'s parser gives (the parser itself: by RFC 8259) |
| JSON of queries | `Sparql/JsonOutput` | `formatJSON`, `CacheEntry::print`, `execSPARQLQuery` and the document of `db_sparql`; not: numbers that a query computes, ORDER BY |
| Percent-encoding | `Http/Escape` | all of `escape` and `unescape`, with `isalnum` of the locale C |
| Requests | `Http/Server`, `Http/Client` | `_getValueParam`, `processRequest` up to the call of the handler, `HttpClient::post`; not: numbers of more than 31 bits |
| Receiving and sending | `Http/Server` | the body of `processSocket` for one request; not: the queues, `waitForData`, errors of `read` |
| Sending | `Http/Server` | the loop of `processSocket` |
| Responses | `Http/Client` | `getResponse` after the `send` |
| Exchange | `Http/Exchange` | one request and one response on one connection |
| Python module | `Python/Db`, `Query/Aggr`, `Query/PairCard` | the lookups, counts, joins and degrees of `trident.Db` and `field1` of `trident.Itr` on numbers; the pointers of the object. Not: reference counts, errors in arguments, texts and the classes other than `Batcher` (`Ml/Batch`) |
| Plans of UNION | `Sparql/UnionQuery` | `buildUnion`, the union of the code generator, filters of the group, for a group that is one UNION of alternatives with triple patterns and filters. Not: a UNION that is joined with patterns or other groups |
| Plans of MINUS | `Sparql/MinusQuery` | the loop over MINUS groups, which variables their scans leave out, `translateMinus` of the code generator, for groups of triple patterns and filters. The costs and the successor of a MINUS plan, which the code does not set, are parameters. Not: MINUS inside of MINUS, or with OPTIONAL, UNION or VALUES |
| Pages and lookups | `Http/Web` | `lookup`, `getPage` with its cache, all of `processRequest` with its state, for one thread, on a tree of files without symbolic links; the results of queries are a parameter |
| Batches | `Ml/Batch`, `Ml/BatchQuery` | `createInputForBatch`, `start` with and without a query, `getBatch`, `getBatchNr`, `getNBatches`, `loadTriples`; any shuffle. Not: `KBBatch` (batches without a file), feedback, the random numbers |
| Values not in a column | `Tables/ColumnNotIn` | `NewColumnTable::columnNotIn` over lists of decoded values. Not: the strides of the bytes |
| Updates of one pattern | `Update/Diff1` | `DiffIndex1` (make, load, iterators, counts) and `Diff1Itr`. Not: `moveto`, `mark` and `reset` of the iterator (they always throw). `createDiffIndex` has no caller in /repo |
| Edges, groups, positions | `Query/Edges` | `edg_*`, `grp_*` over edges, `pos_*`, `countEdges`, `FilterSameItr`. Not: the release of iterators |
| Counts of groups | `Query/GroupCount` | `cnt_grp_*`, `getCard` with a position. Not: `getCardinality` of the iterators (a parameter, see C16); the call of `hasNext` before it |
| Indexes of table files | `Tables/FileIndex` | `FileIndex`. `encode_vlong` is a parameter. Not: the growth of the buffer, negative differences |
| Aggregated tables | `Iter/Aggr` | `AggrItr`, `getCoordinatesForPOS`, aggregated branch of `Querier::get`. `getFilePairIterator` is a parameter. Not: estimates, `reset(1)` |
| Common neighbours | `Snap/Common` | `GetCommon`, `_native_cmp`, `_countSame`, `GetOutLenField`. Not: `GetTriads` and the other algorithms on graphs |
| Shortest paths | `Snap/ShortPath` | `getShortPath`, `getShortPath2`. The lists of neighbours are a parameter |
| Subgraphs with averaged embeddings | `Ml/Subgraphs` | `processItr` of `AvgSubgraphs` and `VarSubgraphs`, `calculateEmbeddings`, `addSubgraph`. The rows of the scans are parameters, the arithmetic of `double` is any functions. Not: the exception for a node without embedding, and the distances |
| Files of subgraphs | `Ml/SubgraphFile` | `storeToFile` and `loadFromFile` of `Subgraphs`, `AvgSubgraphs` and `VarSubgraphs`. A `double` is its 64 bits; the encoders of kognac are taken to put the high byte first |

Not modelled: the writing of aggregated tables (reading them is C119), samples, graph transformations, RDF parsing and dictionary encoding while loading (kognac), multi-threaded loading (each
permutation is loaded by one thread), the other parts of the SPARQL parser, the planner and the RDF-3X operators not listed above, mining, learning, HTTP server, analytics.

## Claims found false

Each is a theorem with a concrete witness; the property keeps a `_partial` theorem for the rest.

* ids from 2^39 on are misread from 5-byte row and cluster fields (C01, C08); six-byte ids are truncated (C04).
* `getStrategy` with two different widths sets both from the first (C03).
* seeks, distinct mode and cardinality: see the `_violated` theorems of C13, C15, C16.
* deletions are subtracted from every term list through the SPO list (C19);
* `getNUniqueKeys` counts only keys that are new in the graph (or vanish from it), and the term list skips updates where it is 0: counts go stale, later a subject with triples disappears, or one without triples stays (C19).
* a full scan of an empty graph reads outside an array (C21).
* an update loses triples with ids from 2^32 on (two ids share a 64-bit word), and the pair (0, 2^32 - 1) if it is the first of its key (C29).
* updates of an empty stored graph are undefined, because the updater scans it (C24).
* an interrupted deletion can be seen by some orders and not by others; an interrupted addition is opened as a deletion, which makes some queries undefined (C27).
* the term tree loses keys if the number of keys in a node is odd, if keys are negative, or if a leaf with keys in steps of more than 1 is put into after it was read from disk (C30); such a leaf also loses its keys when it is written again, and keys in steps of 128 to 255 are misread at once (C32).
* a leaf of the default capacity with more than 65535 bytes of coordinates ends the process when it is written (C33).
* coordinates put over old ones keep old permutations (C34).
* the last string of the pool cannot be read if it ends at the end of a block and nothing of it is stored there (C35); a pool whose size is a multiple of the block size loses its last block and the one before when it is closed (C37).
* the destructor of the pool can wait for ever: two notifications are sent without the lock (C39).
* a parallel loop that starts after 0 also runs its body for 0, and can run it twice for the same numbers (C47).
* registering memory never returns when the limit is reached and all blocks are locked, or when all slots are used although blocks could be freed (C58).
* the hash join reads outside an array if the projection skips a new column of the last input, and has no case for inputs that share no or three variables (C46).
* the scan of a pattern with a repeated variable, `?x 5 ?x`, returns triples with different subject and object; of `?x ?x ?y` it loses answers; the tuple iterator compares an unset position when a repeated variable follows a constant and only variables are read (C59).
* a scan asked to sort by all three columns in the order subject-object-predicate, object-subject-predicate or predicate-subject-object sorts by another order (C60).
* the difference of two sorted tables keeps rows that are in both, at the end of either table; union and difference report to be empty (C62).
* the join of tables, and its predicted size, read the tables instead of their sorted copies, so answers are lost unless the tables are sorted already (C63).
* merging updates forgets the file with the terms of small additions: their ids lose their texts, and are given to other terms (C40).
* a small addition with a term that contains a space makes opening the database never return, or cuts the term (C41).
* a deletion that contains an unknown term twice in a column also deletes a triple of the term before it (C51).
* the sort of the loader fills its array with records that are meant to come last, but they come before triples with ids above 4311810305: such triples are lost and made up ones loaded (C52).
* with three cores, or any number of threads that is no multiple of the number of readers, the sort reads a part that does not exist (C52).
* the flat tree reads outside of the mapped file for ids above the largest one, e.g. unknown ids or ids of terms added later, where the ordinary tree finds nothing; and three bytes outside of it for the largest id, if that is a predicate and the file ends with a page (C50).
* loading three orders with a flat tree fails: it starts from the SOP tables (C50).
* merging updates loses an addition that adds no new subject, and uses a NULL iterator if there is no other addition; a stored triple that was deleted and added back is returned twice after merging; a deletion that is left alone by merging keeps number 1, so the next update gets number 0 and is applied before it (C26).
* a crash between the two renames of merging loses all updates, and a directory `_newdiff` left by an interrupted merge is taken over by a later one, so that changes undone since then come back (C28).
* **C25** `getCard` with one fixed position: the numbers of deleted triples are added instead of subtracted (`C25_deletions_counted_violated`, querier.cpp:514-516). With three indices the number of elements is looked up in an index that was not built, so the answer is 0 (`C25_three_indices_violated`); the same happens for terms whose tables were skipped (`C25_skipped_tables_violated`). Answers are remembered in a static table by the address of the querier (`C25_memo_violated`, querier.cpp:469-484).
* **C67** GROUP BY and aggregates. Model of `GroupBy` (any sorted permutation), `AggrFunctions` (registers of the group variables exchanged with the saved keys) and `AggregateHandler`. Induction over the groups; the state of every call is a fold over the rows of the group. Proved for integers under the conditions under which the code is right; the other cases are refuted.
* **C69** Hash joins. The table with two slots per key (cuckoo hashing) represents a set of chains; `insert` keeps that under exchanges and growth, and terminates for 64 bit keys. Sums over chains equal sums over the rows of the left side, so the results are equal as bags. OPTIONAL: what holds, and witnesses.
* **C70** Merge joins. The 18 states of the loop as a step function on registers, shadows, buffer and remaining rows; scans may skip to the value of the other side in any calls. One invariant per state gives the pairs still to come, with a lexicographic measure. Inner joins are proved, also that the result is sorted by the join variable (`C70_order`); OPTIONAL is refuted by witnesses.
* **C71** UNION. Registers are a function; the mappings and initializations are computed from the variables of the parts as in the code generator; equality of lists with the concatenation of the parts. The union of two sorted parts is a step machine; an invariant gives the rows still to come and at most one repetition.
* **C72** DISTINCT. The hash table with chains, the 64 bit hash value and rehashing; the order of the pool is any permutation. Invariant: the chains hold exactly the groups of their slot.
* **C73** LIMIT and OFFSET. `DuplLimit` as a step machine, the loops of `ResultsPrinter` as recursive functions over the rows; compared with `drop` and `take` of the expanded list.
* **C74** MINUS. The flat vector of rows and the set of indices; division by zero is `none`. Invariant: the rows found by the set are those read so far.
* **C75** VALUES and BIND. The position in the flat list of values; BIND as a map over the rows. Exact description of what is returned for every number of variables.
* **C76** Products. `CartProd` with its buffer and the registers at the start, nested loops as a step machine; equality of lists with all pairs.
* **C77** Domains and hints. The 8192 bit filter as one number with minimum and maximum; `nextCandidate` with its search in words of 64 bits; hints with registers, merge partners and domains; scans as sorted lists that skip. Proved by bits, with the values written as 8192 q + 64 i + j.
* **C78** Shared domains. Plans as trees of scans and hash joins; a run is a relation with the domains before and after, in which a scan may skip any rows that the domains exclude. Invariant: values of answers of the whole query stay in the domains. UNION and OPTIONAL are refuted by witnesses.
* **C79** FILTER. Expressions as a tree; results with the flags of the code (id, text, truth value, type); the cache of numbers as a state; the special plans for `?x = c`, `?x != c` and `?x IN (...)`. Numbers in texts (`strtol`, `strtod`, text comparison) are parameters. `Spec.holds` is the meaning over terms. Proved by induction over conditions with the invariant that the cache agrees with the dictionary.
* **C80** The SPARQL parser. The lexer on lists of bytes, the parser of group graph patterns on lists of tokens with fuel. `Spec.Pat` is a pattern as written, `toks` its tokens and `meaning` its parts; `Lex.Written` relates texts and tokens. Proved by induction over patterns for the three mutually recursive loops (group, rest of a triple block, alternatives), with an invariant of the table of names.
* **C81** Lookup of constants. The dictionary is a function from texts to ids that stores texts of terms; `denotes` and `Term.text` give the term and its stored text. Proved by cases over the datatypes.
* **C82** Semantic analysis. Groups with terms or ids as a type, `transform` as in the code; `Spec.eval` is the multiset of solutions by the algebra of SPARQL. Proved by mutual induction over groups: the algebra commutes with the injective decoding of ids, and dropped parts have no solutions.
* **C83** Parser of conditions. Recursive descent as in the code over the tokens of the lexer; `Spec.Derives` is the grammar of SPARQL. Proved by induction over derivations, with the loops of each level reading the operands one after the other.
* **C84** Conditions from text to rows. Composition of C83 (text to tree), C81 (constants), `encodeFilter` and C79 (operators); conjuncts become operators of their own. `Spec.SCond.truth` is the value of a condition for a solution over RDF terms. Proved by induction over conditions; that the type of a literal is found from the end of its text, and that different terms have different texts, is proved on the way.
* **C85** Plans. The dynamic programming table of `PlanGen` over arbitrary costs, and the operators of a plan with the registers that `CodeGen` gives them; the operators are those of C69, C70 and C76. `Spec.answers` chooses a triple per pattern. Proved by an invariant of the table (relations, ordering, filters of each plan; no scan without guaranteed order is kept) and by induction over plans that the rows are the choices for the patterns of the plan, sorted by its ordering. `Props/StoreQuery` puts the scans of a loaded store (C87, C88, C19) under these theorems: from the ids that are loaded and the text of the query to its lines.
* **C86** Whole queries. The steps of C80, C81, C83, C84, C85, C72 and C73 one after the other, with the parts of the parser between them (projection, LIMIT, OFFSET). `Spec.answers` is over triples of RDF terms and names of variables, without ids or plans. Proved by showing that the solutions in terms are the choices of triples in ids of C85, condition by condition, and that the printed columns determine a row.
* **C87** Scans of the store. The eight operators of `IndexScan` over the iterators of the querier (C21, C38), and plans (C85) whose scans are these. `fits` and `value` of the specification of C85 say which triples and values. Proved by following the rows of the iterator, which are those of a prefix of the order, through the tests of the operator; plans by showing that each scan returns the rows that C85 assumes. Scans that skip the last column (C88) or the last two (C19) are included; `C87_load_then_query_partial` goes from loading a graph to the output of a query.
* **C88** Reading without the last column. `Query/Distinct` models `ignoreSecondColumn` and `getCount` of each iterator that a query on a store without updates returns; `countOf` counts triples. Proved from C21 and C38: each iterator returns the distinct first values of the pairs it would return otherwise.
* **C89** ORDER BY. `OrderBy.less` is the comparison; `Returns` is what `std::sort` may leave: a sorted permutation if the comparison is defined and a strict weak order on the rows, anything otherwise. `Spec.Before` is the order that is asked for, on cells. Proved by showing that the comparison is `Before` on columns of terms and on columns of integers. `C89_query_partial`, `C89_query_distinct_partial` and `C89_load_partial` (`Verif.Props.OrderQuery`) go from the text of a query with ORDER BY to its lines, as in C86; `RunSorted` is what the program writes, `InOrder` the order that is asked for, over the answers with the values of the keys.
* **C90** JSON. `Http.Json` is the class with its two maps and two lists; `write` is the function that writes it, with `none` for the exception. `JsonSpec.IsJson` is the grammar of RFC 8259 together with what a text stands for, as relations; `Same` compares documents up to the order of members. `make` are the calls that build a document. Proved by induction on what is written, and the grammar is shown to be unambiguous.
* **C91** Reading JSON. `parseValue`, `parseMembers`, `parseArray` are the functions that turn a parsed tree into an object, with `cstr` for the C strings in between. `Reads t j` says that the text `t` is read as `j`. Proved from C90 and by induction on the document.
* **C92** JSON of queries. `RunJson` goes from the bytes of a query to the bytes that are returned: the parser, the plan and the rows of C86, `Limit.output` for the collected rows, `rowJson` and `resultJson` for the calls of the JSON class, and `Http.write`. `Spec.resultDoc` is the document, from `Spec.answers`. Proved by showing that the calls are those that make the document, and then by C90.
* **C93** Percent-encoding. `escape` and `unescape` on lists of bytes; `Spec.Percent` and `Spec.Decodes` are the standard. Proved by induction on the text.
* **C94** Requests. `requestOf` finds the path, the form and the parameters with `find`, as the code does; `Spec.First` says where a text stands first. Proved by showing that the search finds the first place, for any request in which nothing stands before it and for the requests of the client.
* **C95** Receiving. `Received` is a relation: the first read returns any number of bytes, then `ReadLoop` reads until the computed number of bytes is there. Proved from an invariant of the loop: what was read and what is left are the request.
* **C96** Sending. `sendLoop` takes the list of what `send` returns. Proved by induction on it.
* **C97** Responses. `getResponse` takes the list of what `recv` returns; reading outside of the buffer and endless loops are outcomes. `Spec.Chunks` is the standard for chunks. Proved by induction on the list, and on the chunks.
* **C98** Exchange. `Exchange` puts together C94 to C97: the request of the client, what the server reads, the query, the page, what is sent, and what the client reads. Together with C92 the client gets the document of the answers.
* **C99** Lookups from Python. Each method is the loop over an iterator of the querier; `Lists`, `Lists2` and `Lists3` say what a list has. Proved from what the querier returns (C21, C24) by the order of the index; the aggregated ones from the iterators that skip equal values.
* **C100** Counts from Python. From C25; for two fixed positions `KB.cardTwo` models `getCardinality` of the iterators of the tables, and of rebuilt tables.
* **C101** Joins from Python. `joinLoop` and `existsLoop` are the loops of the code. Proved by induction on the lists, which are sorted.
* **C102** Degrees from Python. The numbers are those of the entries in the tree of terms; an entry that was skipped is taken from the other index. Proved from what the loader writes into the tree.
* **C103** Life of the Python object. `Handle` has the pointers that are set. Proved by induction on the calls.
* **C104** Queries with UNION. `translateUnion` chooses a plan from those of the alternatives (`PlanGen` for each of them), `UExecOn` runs it with the operators of C71. Proved: by costs that can be compared the plan is the chain of all alternatives, its answers are a permutation of those of `Spec.unionAnswers`. The specification lists solutions of triples that fit. The same is proved with the scans of a loaded store (`Props/StoreAlgebra`).
* **C105** Queries with MINUS. `translateMinus` puts the first plan of each MINUS group beside the first plan of the group, `MExecOn` runs both with the operator of C74. Proved: the rows that are left are those of `Spec.minusAnswers`, by induction on the number of MINUS groups. The specification compares solutions by their variables. The same is proved with the scans of a loaded store (`Props/StoreAlgebra`).
* **C106** Lookups over HTTP. `Web.lookup` has `stoi` and `lookupById`, `processRequest` is the whole handler with its state. Proved from the lemmas on forms (C94) and on JSON (C90).
* **C107** Pages. `WebSpec.place` resolves names as POSIX does, a tree of files maps places to contents. Proved: an invariant of the cache over all histories of requests, and that paths without `..` stay below the directory.
* **C108** Batches. `Ml/Batch` has the file of records of 15 bytes, its reading in words of eight bytes, and the loops over the shuffled indices. Reading behind the last mapped page is `none`. Proved by induction over the indices and over the calls of an epoch.
* **C109** Splits. The outcome of the draws is a parameter of `createInput`. Proved by induction over the triples.
* **C110** Queries for batches. `Ml/BatchQuery` has the binary searches with their inclusive end. Proved with an invariant of the searches, for each of the indexes that `getIndex` chooses.
* **C111** Values not in a column. `Tables/ColumnNotIn` has the merge of the two columns and what follows it. Proved by induction over both columns.
* **C112** Updates of one pattern. `Update/Diff1` has the bytes of the values (four or eight), the choice of the range of values, and the iterator. The old value of the field `first` of an iterator is a parameter, as `init` does not set it. Proved for each index and each free position, with an invariant of the binary search.
* **C113** Counts of an update of one pattern. The store is a list of triples; `outerJoin` compares its sorted columns with the values. Proved for each index and free position, with lists of distinct new pairs and keys as the specification.
* **C114** Edges. `Query/Edges` has the choice of the index, the edge iterators and the filter for equal variables, over any querier that answers from a set of triples (proved for stores in C59). The fields that the filter does not set are parameters. Proved by cases on the name and the arguments, and by induction over the rows for the filter.
* **C115** Groups. `Query/Edges` has the iterators that count rows with equal keys. Proved by induction over the rows: on sorted rows they return each key once, with its count; the specification is a list of the distinct triples of the group.
* **C116** Positions. `Query/Edges` has the loop that skips triples and asks `hasNext` once more before it reads. Proved by induction over the position, with the fact that `hasNext` of the tables keeps the values.
* **C117** Counts of groups. `Query/GroupCount` has the functions over the groups of C115 and over cardinalities of iterators, which are parameters that satisfy C16. Proved by cases on the name and the arguments; the specification is a list of the distinct values.
* **C118** Indexes of table files. `Tables/FileIndex` has the nested index, its bytes, both searches and the growing arrays. Proved by mutual induction over the index for the bytes, and with an invariant of the interval for the searches.
* **C119** Aggregated tables. `Iter/Aggr` has `AggrItr` over any iterators of the main and the second tables, the coordinates, and the branch of `Querier::get` that opens it. Proved by induction on the rows of the main table and of the current second table; the seeks use `SeekOK` of the tables below.
* **C120** Common neighbours. `Snap/Common` has `GetCommon` on bytes in memory. Proved by induction on both lists, with the comparison of two nodes by induction on their bytes.
* **C121** Shortest paths. `Snap/ShortPath` has the breadth-first search. Proved with an invariant: distances that were stored are right, the queue is sorted with at most two distances, and nodes that have left the queue have no unseen neighbours. The fuel is shown to be enough.
* **C122** Subgraphs with averaged embeddings. `Ml/Subgraphs` has the loop over the rows of the two scans. Proved with an invariant on the rows that were read: the groups other than the current one are made, and the current count and sum are right. For the variances the loop is shown to be the same loop with lists of nodes as numbers.
* **C123** Files of subgraphs. `Ml/SubgraphFile` has the bytes that are written and read. Proved by induction on the subgraphs and on the numbers.
* after any update that changed the graph, a query with fixed predicate and free subject in an order that is not stored throws, as the merged iterator has no `gotoKey` (`C66_updates_violated`). `ReOrderItr::gotoKey` to a key beyond the last one goes on with the last table instead of ending (`C66_goto_key_past_end_violated`).
* `TermItr::gotoKey` compares the key with eight bytes of which only five are the key, so below 2^24 it does not move within a file (`C68_jump_violated`). `ScanItr::gotoKey` keeps the answer of an earlier `hasNext`, so it says there is a next row even if none is left (`C68_scan_jump_after_hasNext_violated`).
* in a query with GROUP BY and aggregates a last group with one solution is returned with the key of the group before (`C67_last_group_violated`). SUM and AVG ignore multiplicities (`C67_sum_multiplicity_violated`); DISTINCT forgets nothing between groups (`C67_distinct_violated`); decimal results are returned as ids of terms (`C67_decimal_violated`); negative results are no integers (`C67_negative_violated`); AVG of integers is cut off (`C67_average_violated`); aggregates over group variables use the key of the group before (`C67_group_variable_violated`); without solutions COUNT returns no row (`C67_empty_violated`).
* a hash join with an OPTIONAL side returns wrong rows: the join variable of a row without partner is not set (`C69_left_optional_violated`), of several rows with the same value only one is returned (`C69_right_optional_violated`), and if the OPTIONAL part has no solutions at all nothing is returned (`C69_right_optional_empty_violated`).
* a merge join with an OPTIONAL side loses rows without partner when the OPTIONAL side ends within a block of equal values (`C70_optional_block_violated`, `C70_optional_buffer_violated`) or when the scan of the other side skips (`C70_optional_skipping_violated`), runs forever for ids above 2^32 (`C70_optional_endless_violated`), and has no value for the join variable when the left side is OPTIONAL (`C70_left_optional_violated`).
* the union of two sorted parts with one variable (`MergeUnion`) repeats a row of the second part if its value is also the last value of the first part (`C71_merge_union_violated`).
* with LIMIT the JSON output can have more rows than the limit (`C73_json_limit_violated`); with DISTINCT the offset and the number of rows count duplicates (`C73_distinct_offset_violated`, `C73_distinct_count_violated`); without LIMIT at most 2^32-1 rows are written (`C73_print_all_violated`).
* MINUS without a common variable divides by zero whenever both sides have solutions (`C74_minus_disjoint_violated`), and treats an unbound variable as a value (`C74_minus_unbound_violated`).
* VALUES with k variables returns only one of k rows (`C75_values_violated`); BIND returns a solution that occurs twice once (`C75_bind_violated`).
* if the right side of a product is OPTIONAL and empty, the first row has an old value instead of an unbound one (`C76_right_optional_violated`).
* the next possible value after a value can be smaller than that value, when the filter wraps around at 2^64 (`C77_next_violated`); scans are not affected, as they ignore smaller hints.
* the domains are also shared by the branches of a UNION and by an OPTIONAL part that is hashed: the second branch loses answers that the joins of the first branch excluded (`C78_union_violated`), and rows without partner are skipped (`C78_optional_violated`). By reading, the same holds for MINUS, whose pattern restricts the domains of the main pattern.
* FILTER: `<` between a number and another term depends on earlier comparisons (`C79_less_violated`); constants with ids from 2^32 on are mixed up (`C79_long_id_violated`); a constant that is not stored equals a missing value (`C79_unknown_violated`); `!=` is true of a missing value (`C79_unbound_violated`) and `bound` is always true (`C79_bound_violated`); a literal that is not stored equals an IRI with the same text (`C79_literal_iri_violated`); `contains` depends on what is stored (`C79_contains_violated`); blank nodes are literals (`C79_blank_violated`); `datatype` is always string (`C79_datatype_violated`); negative numbers and numbers in ids compare wrongly (`C79_negative_violated`) or end the query with an exception (`C79_exception_violated`). Also: numbers are equal only if their texts are (`C79_equal_numbers_violated`); decimals are compared as texts (`C79_decimals_violated`), strings together with their quotes (`C79_strings_violated`); an order comparison with a constant that is not stored reads a variable that was never set (`C79_unknown_order_violated`); `NaN <= 1` is true (`C79_nan_violated`).
* the SPARQL parser: a blank node label is a new variable after each point (`C80_blank_nodes_violated`); MINUS and VALUES in a nested group are lost (`C80_nested_minus_violated`, `C80_nested_values_violated`); a FILTER in a nested group becomes one of the group around it (`C80_nested_filter_violated`); after a triple and FILTER a subject may not begin with a name (`C80_filter_subject_violated`); variables named like a keyword are not accepted as subject (`C80_variable_word_violated`); VALUES is only accepted after triples without a point (`C80_values_violated`); numbers, truth values and a last semicolon are errors (`C80_numbers_violated`); escapes are not decoded (`C80_escapes_violated`); OPTIONAL before a triple pattern is read as if it came after it (`C80_order_violated`).
* constants in queries: a literal with the text of an IRI or blank node is taken for it (`C81_literal_iri_violated`, `C81_literal_blank_violated`); literals with a language are never found, and the literal without language is found instead if the tag is a term (`C81_language_violated`, `C81_language_never_violated`); datatypes other than five are not looked up with the literal (`C81_type_violated`).
* one unknown term in VALUES makes the whole query empty (`C82_values_violated`), and so does an unknown term in FILTER NOT EXISTS, whose condition is then always true (`C82_not_exists_violated`).
* conditions: IN is an error (`C83_in_violated`); NOT IN with an empty list is dropped and otherwise mixes up IRIs, strings and variables (`C83_not_in_empty_violated`, `C83_not_in_violated`); EXISTS, the empty prefix, xsd:integer and exponents are errors (`C83_exists_violated`, `C83_empty_prefix_violated`, `C83_numbers_violated`); a prefix with the name of a function hides it (`C83_function_prefix_violated`); comparisons in a row are accepted (`C83_comparisons_violated`).
* conditions in groups: variables that only VALUES binds have no value in FILTER (`C84_values_violated`), nor have those of the outer group in the FILTER of an OPTIONAL (`C84_optional_violated`); an order comparison with a number that is not stored is undefined (`C84_order_violated`); 5 is not equal to 05 (`C84_value_violated`).
* plans: the two positions of `?x :p ?x` are not compared (`C85_repeated_violated`); a pattern with a constant and two variables that are nowhere else gets a scan that throws an exception, in every plan (`C85_constant_violated`); more than 64 patterns and groups without patterns get no plan (`C85_wide_violated`, `C85_empty_violated`).
* whole queries: a query with such a pattern has no output (`C86_constant_violated`), `LIMIT 0` is rejected (`C86_limit_zero_violated`), the word WHERE must not mix small and capital letters (`C86_where_violated`), a second OFFSET is accepted (`C86_offset_twice_violated`).
* the list of the keys of an order that is not stored has the count 1 for each key (`C19_absent_order_violated`), and `SELECT ?p { ?s ?p ?o }` then prints each predicate once (`C87_absent_order_violated`); the same query prints too few rows after an addition that brings no new predicate (`C87_addition_violated`).
* ORDER BY: after an IRI was looked up with the other function, the last two bytes of each text are ignored (`C89_stale_violated`) and a text of one byte is read outside of its bounds (`C89_short_violated`); ORDER BY COUNT and a variable without register read outside of the row (`C89_count_violated`, `C89_absent_violated`); a column with numbers that were computed and with terms has no order (`C89_mixed_violated`); numbers of the dictionary are sorted as texts, literals before IRIs, and an IRI can come before its own beginning (`C89_terms_violated`). In texts of queries: an expression in ORDER BY makes the query fail after it was parsed (`C89_expression_violated`); a variable that is only in ORDER BY is a column of `SELECT *` (`C89_star_violated`); with DISTINCT, a key that is not a column makes lines appear twice (`C89_distinct_violated`); a column without value makes the operator use a null pointer (`C89_null_violated`).
* JSON: an empty array is written as `{}` (`C90_empty_violated`); an array with texts and objects throws when it is written (`C90_mixed_violated`).
* Reading JSON: a text with a zero byte is cut there (`C91_zero_violated`); arrays of arrays throw (`C91_nested_violated`); of an array with texts and objects only those of the last kind are kept (`C91_mixed_violated`); an integer of more than 32 bits throws (`C91_integer_violated`).
* JSON of queries: without answers there is no array of bindings, and if a constant is unknown no columns either (`C92_empty_violated`); blank nodes are literals (`C92_blank_violated`, and in text `C86_blank_violated`); `<>` is a literal (`C92_iri_violated`); a column without a term is the literal `NULL` (`C92_unbound_violated`); LIMIT counts groups of equal rows (`C73_json_limit_violated`).
* Requests: the server never runs a query with `+` (`C94_plus_violated`); carriage returns before line feeds are lost (`C94_lines_violated`); the name of a parameter is found inside of other names (`C94_name_violated`).
* Receiving: a request of at most 1028 bytes that does not come at once is cut, so is every one of 1025 to 1028 bytes (`C95_parts_violated`); `content-length` in another case is not found (`C95_case_violated`); without a space a digit of the length is lost (`C95_space_violated`).
* Sending: if the first `send` fails nothing is sent, if a later one fails a byte is sent twice (`C96_error_violated`).
* Responses: if the end of the headers is not in the first buffer, `getResponse` never ends (`C97_headers_violated`); a chunk whose length is in another buffer makes it fail (`C97_chunks_violated`).
* Exchange: the header with the length follows a line that ends with a line feed alone (`C98_line_violated`).
* Python: `join_e2e` with a first value of -1 skips common values, because they are not sorted (`C101_join_unbound_violated`); the degrees and `n_triples` do not change with updates (`C102_updates_violated`); with one index `indegree` returns 0 for every term (`C102_one_index_violated`); `sparql` after `Db()` and `load` uses NULL (`C103_sparql_violated`).
* queries with UNION: a variable that an alternative does not have is printed as 4294967295 (`C104_unbound_violated`), an alternative without patterns is a null pointer (`C104_empty_violated`), and if all alternatives but one have an unknown constant the plan of a missing one is read (`C104_unknown_violated`).
* queries with MINUS: no register exists for a variable that is in one pattern and otherwise only after MINUS (`C105_unused_violated`), for one that joins patterns after MINUS and is nowhere else (`C105_inner_violated`), and for one that is in two MINUS groups but not in the group (`C105_two_violated`); `MINUS { }` is a null pointer (`C105_empty_violated`); without common variables there is a division by zero (`C105_disjoint_violated`).
* lookups over HTTP: ids from 2^31 on are never answered, and after such a request `stop` does not return (`C106_large_violated`); for unknown ids a text is made from pointers that were never set (`C106_unknown_violated`); `-n` finds the term of id 2^32 - n (`C106_negative_violated`).
* pages: each file of the machine can be read with `..` (`C107_outside_violated`); changes of a file are not sent once it was sent (`C107_stale_violated`); only the first `WEB_PORT` is replaced (`C107_port_violated`); for empty files and for names with `HTTP` the main page is sent (`C107_empty_violated`, `C107_name_violated`); missing files are sent with status 200 (`C107_missing_violated`).
* batches: if the file fills its last page (for example with 4096 triples), the last triple is read behind the page (`C108_page_violated`); files of an earlier start are taken for any graph (`C108_stale_violated`); `getBatch` with one column returns nothing without a filter (`C108_one_violated`); arrays change with the next batch (`C108_array_violated`); numbered batches have triples twice if there is a filter (`C108_number_violated`).
* splits: files that fill their last page cannot be read (`C109_page_violated`), nor can empty ones (`C109_empty_violated`).
* queries for batches: for a triple that is not in the graph another triple can be returned, as the end of a range is searched as well (`C110_absent_violated`); if predicates have ids of their own, constants for them are compared with their positions (`C110_predicate_violated`); if the file fills its last page, the search reads behind it (`C110_page_violated`).
* values not in a column: with `stopAfterFirst` the value is written twice if the other column has a larger one (`C111_first_violated`).
* updates of one pattern: values between 2^31 and 2^32 are read as negative numbers (`C112_large_violated`); if the second column is ignored, an iterator that is used again returns nothing (`C112_ignore_violated`); an update without values reads before the start of the list (`C112_empty_violated`).
* counts of an update of one pattern: the keys of OPS and POS are taken from each other, so that keys are missing (`C113_keys_violated`) and new ones are not counted (`C113_count_violated`); for SOP, OSP and PSO the arrays of keys are too short (`C113_array_violated`); for PSO the new objects are counted as new subjects (`C113_pso_violated`).
* edges with a variable that occurs twice: the first term is what the memory of the iterator holds (`C114_subject_violated`, `C114_object_violated`); the compared positions are those of the query and not of the index (`C114_position_violated`); an iterator that is used again returns nothing (`C114_used_violated`); with three equal variables one is not compared (`C114_three_violated`); `countEdges` ignores a predicate (`C114_count_violated`).
* groups: if another position is a term, the groups are those of the index, so that `grp_s` with a predicate returns one group with the predicate as its key (`C115_bound_violated`) and `grp_sr` returns its keys swapped (`C115_swapped_violated`); with two terms the first key is the second one and the second one is never set (`C115_const_violated`).
* positions: the last triple is never returned (`C116_last_violated`); without a term, a value that is the last of its table is read after the table was closed (`C116_scan_violated`).
* counts of groups: with a term at the position that is not in its name, `cnt_grp_sr` counts subjects (`C117_third_violated`); without a term `cnt_grp_s`, `cnt_grp_r` and `cnt_grp_d` throw (`C117_none_violated`).
* indexes of table files: an entry that is added after reading loses all others, as `unserialize` does not set the length of the arrays (`C118_reload_violated`); a lookup without entries reads outside of the array (`C118_empty_violated`).
* aggregated tables: a seek to a first value that is not there loses pairs of the next first value and can end the rows (`C119_seek_violated`); a mark after a read and a reset lose the rest of the current first value (`C119_mark_violated`); a lookup of a second value without a first value stops at the first row without it (`C119_lookup_violated`); files from 2^15 and positions from 2^31 on are read as negative numbers (`C119_coordinates_violated`).
* common neighbours: bytes are compared as numbers with sign, so common nodes with a byte from 128 on can be missed (`C120_sign_violated`); labels of two bytes shift the entries (`C120_label_violated`).
* shortest paths: the distance of a node to itself is returned as -1 (`C121_self_violated`).
* files of subgraphs: with 2^32 variances or more a file is written that cannot be loaded, as the counter has 32 bits (`C123_var_violated`); an object that has subgraphs keeps them when a file is loaded (`C123_again_violated`).
* subgraphs: from 2^32 on the embedding of another node is taken, as the number of the node is cut to 32 bits (`C122_rows_violated`).
