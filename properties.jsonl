{"id": "C01", "title": "Fixed-width table fields read back the value that was written", "statement": "A number written into a table field of w bytes (w in 1,2,4,5,8) that fits the field is returned unchanged by the reader of that width, whatever bytes surround it.", "quantifier": "every width, every value that fits, every surrounding byte content", "why_tests_cant": "2^40 and 2^64 values per width; sampled values miss sign-extension boundaries", "anchors": ["include/trident/binarytables/binarytablereaders.h", "src/trident/binarytables/newrowtableinserter.cpp"]}
{"id": "C02", "title": "Variable-length integers round-trip and are self-delimiting", "statement": "Decoding the bytes produced for a number returns that number and stops exactly after them, whatever follows.", "quantifier": "every natural number and every suffix of bytes", "why_tests_cant": "unbounded domain, boundaries at every multiple of 7 bits", "anchors": ["src/trident/tree/stringbuffer.cpp:writeVInt", "src/trident/tree/leaf.cpp", "src/trident/binarytables/newcolumntableinserter.cpp"]}
{"id": "C03", "title": "The one-byte table signature is decoded to what was encoded", "statement": "For every layout and pair of field widths the storage chooser can select, reading the signature byte returns the same layout, widths and flag.", "quantifier": "every layout, width flag and flag bit", "why_tests_cant": "the OR-only setters interact bitwise; a test covers only the combinations it lists", "anchors": ["src/trident/binarytables/storagestrat.cpp", "include/trident/binarytables/storagestrat.h"]}
{"id": "C04", "title": "The chosen layout is wide enough for the data", "statement": "For every non-empty list of pairs the layout selected for it has fields wide enough for every value and every group size in the list, so storing never truncates.", "quantifier": "every list of pairs whose values fit in 5 bytes", "why_tests_cant": "unbounded lists; wrong only near width boundaries", "anchors": ["src/trident/binarytables/storagestrat.cpp:determineStrategy"]}
{"id": "C05", "title": "Full scan of a row-layout table returns exactly the stored pairs in order", "statement": "Writing a list of pairs in row layout and iterating returns the same list.", "quantifier": "every list of pairs fitting the widths, every bytes after the table", "why_tests_cant": "all lengths and contents", "anchors": ["include/trident/binarytables/newrowtable.h", "src/trident/binarytables/newrowtableinserter.cpp"]}
{"id": "C06", "title": "Full scan of a cluster-layout table returns exactly the stored pairs in order", "statement": "Same for the cluster layout, including multi-element groups and both group-counter widths.", "quantifier": "every sorted list of pairs", "why_tests_cant": "group boundaries at every position and counter widths", "anchors": ["include/trident/binarytables/newclustertable.h", "src/trident/binarytables/newclustertableinserter.cpp"]}
{"id": "C07", "title": "Full scan of a column-layout table returns exactly the stored pairs in order", "statement": "Same for the column layout.", "quantifier": "every sorted list of pairs", "why_tests_cant": "group boundaries, header widths derived from data", "anchors": ["include/trident/binarytables/newcolumntable.h", "src/trident/binarytables/newcolumntable.cpp", "src/trident/binarytables/newcolumntableinserter.cpp"]}
{"id": "C08", "title": "Query answers do not depend on the storage layout", "statement": "The same list of pairs stored in any of the three layouts gives the same full scan and the same answers to lookups with a fixed first value or both values fixed.", "quantifier": "every sorted duplicate-free list, every layout, every constraint", "why_tests_cant": "the cross product of data, layout and constraint is unbounded", "anchors": ["include/trident/binarytables/newrowtable.h", "include/trident/binarytables/newclustertable.h", "include/trident/binarytables/newcolumntable.h"]}
{"id": "C09", "title": "Lookup with the first value fixed (row layout)", "statement": "After fixing the first value c, iteration yields exactly the stored pairs whose first value is c, in order; hasNext is false iff there is none.", "quantifier": "every sorted table, every c", "why_tests_cant": "binary search plus linear tail: off-by-one only at particular sizes", "anchors": ["include/trident/binarytables/newrowtable.h", "src/trident/binarytables/newrowtable.cpp"]}
{"id": "C10", "title": "Lookup with both values fixed (row layout)", "statement": "After fixing (c1,c2) iteration yields that pair iff it is stored.", "quantifier": "every sorted table, every pair", "why_tests_cant": "binary search boundary conditions", "anchors": ["include/trident/binarytables/newrowtable.h"]}
{"id": "C11", "title": "Lookups on the cluster layout", "statement": "Fixing the first value, or both, yields exactly the matching pairs.", "quantifier": "every sorted table, every constraint", "why_tests_cant": "linear group walk and binary search inside a group", "anchors": ["include/trident/binarytables/newclustertable.h"]}
{"id": "C12", "title": "Lookups on the column layout", "statement": "Fixing the first value, or both, yields exactly the matching pairs.", "quantifier": "every sorted table, every constraint", "why_tests_cant": "two binary searches over derived offsets", "anchors": ["src/trident/binarytables/newcolumntable.cpp"]}
{"id": "C13", "title": "Forward seek never skips a qualifying pair", "statement": "After reading an element, seeking to (c1,c2) and iterating yields exactly the remaining pairs that are >= (c1,c2).", "quantifier": "every sorted table, every reachable iterator position, every target", "why_tests_cant": "all positions and targets; state carried over from earlier calls", "anchors": ["include/trident/binarytables/newrowtable.h:moveto", "include/trident/binarytables/newclustertable.h:moveto", "include/trident/binarytables/newcolumntable.h:moveto"]}
{"id": "C14", "title": "mark/reset replays the same suffix", "statement": "Resetting an iterator to a mark makes it return the same elements it returned after the mark was set.", "quantifier": "every table, every mark position, any number of steps in between", "why_tests_cant": "all positions and interleavings of steps", "anchors": ["include/trident/binarytables/newrowtable.h", "include/trident/binarytables/newclustertable.h", "include/trident/binarytables/newcolumntable.h"]}
{"id": "C15", "title": "Distinct-first-value mode lists each first value once with its multiplicity", "statement": "With the second column ignored, iteration yields every distinct first value exactly once, in order, and the count reported for it is the number of stored pairs with that first value.", "quantifier": "every sorted table", "why_tests_cant": "all run-length distributions", "anchors": ["include/trident/binarytables/newrowtable.h", "include/trident/binarytables/newclustertable.h", "include/trident/binarytables/newcolumntable.h"]}
{"id": "C16", "title": "Cardinality equals the number of elements iteration yields", "statement": "getCardinality of a freshly opened iterator equals the length of what it would return.", "quantifier": "every table, layout and constraint", "why_tests_cant": "all tables and constraints", "anchors": ["include/trident/binarytables/newrowtable.h", "include/trident/binarytables/newclustertable.h", "include/trident/binarytables/newcolumntable.h"]}
{"id": "C17", "title": "Merging additions yields the sorted union", "statement": "The iterator that merges the main table with any number of additions returns all pairs of all inputs in sorted order, with no loss and no duplication when inputs are disjoint.", "quantifier": "every finite family of sorted inputs, every number of inputs", "why_tests_cant": "k-way interleavings are unbounded", "anchors": ["src/trident/iterators/compositeitr.cpp"]}
{"id": "C18", "title": "Removals yield the sorted difference", "statement": "The iterator that subtracts a deletion list from a sorted stream returns exactly the elements of the stream not in the list, in order.", "quantifier": "every pair of sorted streams", "why_tests_cant": "all interleavings", "anchors": ["src/trident/iterators/rmitr.cpp"]}
{"id": "C19", "title": "Term lists merge by key with summed counts", "statement": "Enumerating the keys of a graph with additions yields each key once, in order, with the sum of the counts of its sources; with deletions a key disappears exactly when all its triples were deleted.", "quantifier": "every family of sorted key lists", "why_tests_cant": "all interleavings", "anchors": ["src/trident/iterators/compositetermitr.cpp", "src/trident/iterators/rmcompositetermitr.cpp"]}
{"id": "C20", "title": "Index selection puts the bound positions first", "statement": "For each of the eight patterns of bound positions the index chosen by the querier has all bound positions as a prefix of its key order, and permuting a triple to an index and back is the identity.", "quantifier": "every pattern of bound/unbound positions, every permutation, every triple", "why_tests_cant": "the contract is over all terms; tests see particular patterns", "anchors": ["src/trident/kb/querier.cpp:getIndex", "include/trident/kb/querier.h"]}
{"id": "C21", "title": "Pattern queries on a loaded graph are sound and complete", "statement": "For every pattern (each position fixed or free), iterating over the result of the query yields exactly the loaded triples matching the pattern, each once, ordered by the chosen index.", "quantifier": "every finite set of triples, every pattern, every layout choice per table", "why_tests_cant": "all graphs and all patterns", "anchors": ["src/trident/kb/querier.cpp:getIterator", "src/trident/kb/inserter.cpp", "src/trident/tree/root.cpp"]}
{"id": "C22", "title": "Skipped inverse tables are reconstructed faithfully", "statement": "When a small inverse table was not stored, the table rebuilt on the fly from its partner contains the same pairs, sorted.", "quantifier": "every table, every key", "why_tests_cant": "all contents", "anchors": ["src/trident/kb/querier.cpp:newItrOnReverse", "src/trident/iterators/arrayitr.cpp"]}
{"id": "C23", "title": "Updates are normalised against the current content", "statement": "An add update stores exactly the given triples that are not in the graph; a delete update stores exactly the given triples that are in it.", "quantifier": "every graph content, every list of triples", "why_tests_cant": "merge of two sorted streams of any length", "anchors": ["src/trident/kb/updater.cpp:match"]}
{"id": "C24", "title": "After any history of updates queries answer as if applied to a set", "statement": "For any sequence of add/delete updates, queries return exactly the triples of the set obtained by applying the operations in order.", "quantifier": "every initial graph, every finite history of updates, every pattern", "why_tests_cant": "histories are unbounded", "anchors": ["src/trident/kb/querier.cpp", "src/trident/kb/updater.cpp", "src/trident/kb/diffindex3.cpp"]}
{"id": "C25", "title": "The triple count stays right under updates", "statement": "The reported size of the graph equals the number of triples after any history of updates; reported pattern cardinalities equal the number of answers.", "quantifier": "every history", "why_tests_cant": "histories are unbounded", "anchors": ["src/trident/kb/querier.h:getInputSize", "src/trident/kb/querier.cpp:getCard"]}
{"id": "C26", "title": "Merging updates preserves the content", "statement": "After merging all updates into one addition and one deletion, the graph contains the same triples.", "quantifier": "every base graph and every history of updates", "why_tests_cant": "histories with repeated add/delete of the same triple", "anchors": ["src/trident/kb/kb.cpp:mergeUpdates", "src/trident/kb/querier.cpp:summaryAddDiff"]}
{"id": "C27", "title": "A crash while an update is written leaves the old or the new content", "statement": "At every point at which the update can be interrupted, reopening the graph shows either the content before the update or the content after it.", "quantifier": "every crash point, every content, every update", "why_tests_cant": "crash points between any two file operations", "anchors": ["src/trident/kb/updater.cpp:creatediffupdate", "src/trident/kb/kb.cpp:addDiffIndex"]}
{"id": "C28", "title": "A crash while updates are merged preserves the content", "statement": "At every point at which merging can be interrupted, reopening the graph shows the same content.", "quantifier": "every crash point, every history", "why_tests_cant": "crash points between two renames", "anchors": ["src/trident/kb/kb.cpp:mergeUpdates"]}
{"id": "C29", "title": "Update tables preserve the pairs given to them", "statement": "Building the tables of an update keeps every pair of every triple of the update.", "quantifier": "every set of triples of any ids", "why_tests_cant": "packing of two ids in one word, sentinel values", "anchors": ["src/trident/kb/diffindex3.cpp"]}
{"id": "C30", "title": "The term tree behaves as a finite map", "statement": "After any sequence of put operations on the term tree, get returns the last value put for a key, and nothing for keys never put.", "quantifier": "every sequence of puts, every node capacity, every key", "why_tests_cant": "splits happen at depths no test reaches", "anchors": ["src/trident/tree/root.cpp", "src/trident/tree/intermediatenode.cpp", "src/trident/tree/leaf.cpp", "src/trident/tree/node.cpp"]}
{"id": "C31", "title": "Iterating over the term tree returns all keys in increasing order", "statement": "The tree iterator returns exactly the keys stored, in strictly increasing order, each once.", "quantifier": "every sequence of puts", "why_tests_cant": "all shapes", "anchors": ["src/trident/tree/treeitr.cpp", "src/trident/tree/intermediatenode.cpp:getRightSibling"]}
{"id": "C32", "title": "Node keys survive serialisation", "statement": "A node written to disk and read back has the same keys.", "quantifier": "every increasing list of keys", "why_tests_cant": "compact encodings triggered by arithmetic progressions of particular steps", "anchors": ["src/trident/tree/node.cpp:serialize", "src/trident/tree/node.cpp:unserialize"]}
{"id": "C33", "title": "Leaf coordinates survive serialisation", "statement": "The table coordinates of each key written to a leaf block are read back unchanged, for every subset of stored permutations.", "quantifier": "every list of coordinate records", "why_tests_cant": "64 subsets times unbounded values", "anchors": ["src/trident/tree/leaf.cpp"]}
{"id": "C34", "title": "Storing coordinates for an existing key replaces the old ones", "statement": "After put(key, c) on a key that already has coordinates, get(key) returns c.", "quantifier": "every old and new coordinate set", "why_tests_cant": "64 x 64 combinations of permutation subsets and unbounded values", "anchors": ["src/trident/tree/leaf.cpp:addCoordinates"]}
{"id": "C35", "title": "The string pool returns the strings that were added", "statement": "After any sequence of additions, reading at the position returned for a string gives that string, across block boundaries and prefix compression.", "quantifier": "every sequence of strings, every block size", "why_tests_cant": "boundary alignments occur at particular total lengths", "anchors": ["src/trident/tree/stringbuffer.cpp"]}
{"id": "C36", "title": "Comparing a pooled string agrees with byte-wise lexicographic order", "statement": "The pool's comparison of the string at a position with an argument has the sign of the byte-wise comparison, also for prefix-compressed entries and entries that cross blocks.", "quantifier": "every pool content, position and argument", "why_tests_cant": "all alignments", "anchors": ["src/trident/tree/stringbuffer.cpp:cmp"]}
{"id": "C37", "title": "The string pool survives closing and reopening", "statement": "After closing the pool and reopening it, all strings are still readable.", "quantifier": "every sequence of strings", "why_tests_cant": "fails only when the total size hits a block multiple", "anchors": ["src/trident/tree/stringbuffer.cpp:~StringBuffer", "src/trident/tree/stringbuffer.cpp:uncompressBlock"]}
{"id": "C38", "title": "Blocks handed to the compression thread are written once and in order", "statement": "For every schedule of the writer and the compression thread the blocks written so far are a prefix of the blocks handed over, and none is lost or duplicated.", "quantifier": "every interleaving, any number of blocks", "why_tests_cant": "schedules", "anchors": ["src/trident/tree/stringbuffer.cpp:compressBlocks", "src/trident/tree/stringbuffer.cpp:compressLastBlock"]}
{"id": "C39", "title": "Closing the string pool terminates", "statement": "Under every schedule the destructor of the pool eventually returns.", "quantifier": "every interleaving", "why_tests_cant": "lost wake-ups need a particular interleaving", "anchors": ["src/trident/tree/stringbuffer.cpp:~StringBuffer"]}
{"id": "C40", "title": "Dictionary lookups are inverse to each other", "statement": "For every term added by loading or by updates, text-to-id and id-to-text are inverse, and two different terms never get the same id.", "quantifier": "every history of additions", "why_tests_cant": "histories are unbounded", "anchors": ["src/trident/kb/dictmgmt.cpp", "src/trident/kb/updater.cpp"]}
{"id": "C41", "title": "Terms added by small updates survive a restart", "statement": "Terms recorded in the global update dictionary are found again after closing and reopening.", "quantifier": "every set of terms, any characters", "why_tests_cant": "white space and non-numeric tokens break the text format", "anchors": ["src/trident/kb/dictmgmt.cpp"]}
{"id": "C42", "title": "The table index of a file locates every table", "statement": "For each table of a file the stored marks return the key, layout, start and end of that table, also when several tables were appended.", "quantifier": "every sequence of appended tables", "why_tests_cant": "all table counts and sizes", "anchors": ["src/trident/binarytables/tableshandler.cpp"]}
{"id": "C43", "title": "Node blocks on disk never overlap and hold the last version written", "statement": "After any sequence of node writes of any sizes, each node's block contains the last bytes written for it and blocks do not overlap.", "quantifier": "every sequence of writes and growth", "why_tests_cant": "growth shifts following blocks", "anchors": ["src/trident/tree/nodemanager.cpp"]}
{"id": "C44", "title": "Memory in use is never evicted and the accounting is exact", "statement": "The memory manager never evicts a block that is locked by a session, and its byte counter is the sum of the sizes of the registered blocks.", "quantifier": "every history of add/lock/unlock/remove", "why_tests_cant": "histories", "anchors": ["include/trident/utils/memorymgr.h"]}
{"id": "C45", "title": "Open file sessions have distinct identifiers", "statement": "newSession never returns an identifier that is still open, and fails only if all are open.", "quantifier": "every history of newSession/closeSession", "why_tests_cant": "histories", "anchors": ["include/trident/files/filemanager.h"]}
{"id": "C46", "title": "The hash join returns the join of its inputs", "statement": "The rows produced are exactly the combinations of rows that agree on the join fields, with multiplicities.", "quantifier": "every pair of inputs and join fields", "why_tests_cant": "all inputs", "anchors": ["src/trident/sparql/hashjoinitr.cpp"]}
{"id": "C47", "title": "Parallel loops cover their range exactly once", "statement": "parallel_for(begin,end,...) calls the body on disjoint ranges whose union is [begin,end).", "quantifier": "every begin, end, grain size and number of threads", "why_tests_cant": "all combinations", "anchors": ["include/trident/utils/parallel.h"]}
{"id": "C48", "title": "Sorting raw triple records sorts the triples", "statement": "Byte-wise order of the fixed-width records used by the loader is the numeric lexicographic order of the triples, and the record of a triple decodes to it.", "quantifier": "every triple with ids below 2^40", "why_tests_cant": "all values", "anchors": ["src/trident/kb/permsorter.cpp"]}
{"id": "C49", "title": "The loader splits sorted triples into one table per key", "statement": "Feeding a sorted list of triples into the inserter creates exactly one table per distinct first term with exactly its pairs and registers its size.", "quantifier": "every sorted list of triples", "why_tests_cant": "all group shapes and sizes around the in-memory threshold", "anchors": ["src/trident/kb/inserter.cpp"]}
{"id": "C50", "title": "The flat term tree agrees with the term tree", "statement": "If a database has a flat tree, then looking up an id in it is defined and gives, for each of the six orders, exactly the table (number of pairs, strategy, file, position) that the ordinary tree gives; ids without tables give none; iterating over it gives all ids in order; pattern queries return the same answers.", "quantifier": "every graph, every setting of the load, every id, every content of uninitialised buffers", "why_tests_cant": "gaps in the ids, tables skipped in any order, position of the last block in its page", "anchors": ["src/trident/tree/flatroot.cpp", "FlatRoot::loadFlatTree", "FlatRoot::get", "include/trident/tree/flattreeitr.h"]}
{"id": "C51", "title": "Update triples are translated to the ids of their own terms", "statement": "Each triple of an update is translated to the ids of its own three terms (existing or new); unknown terms in a deletion make the triple be ignored.", "quantifier": "every list of text triples, every dictionary", "why_tests_cant": "orders of terms", "anchors": ["src/trident/kb/updater.cpp:compressUpdate"]}
{"id": "C52", "title": "Permutation records produced while loading are the permutations of the input", "statement": "For every requested permutation, the sorted files written by the loader contain together each input triple exactly once, with its fields in that permutation's order, whatever the number of threads and the memory available, and the files of one round are sorted.", "quantifier": "every list of input files, number of threads and readers, memory limit, chain of permutations and correct sort", "why_tests_cant": "all lists, thread counts, memory sizes and id values", "anchors": ["src/trident/kb/permsorter.cpp:sortChunks2,sortChunks2_load,sortChunks2_fill,sortChunks2_permute,dumpPermutation"]}
{"id": "C53", "title": "Merging the permutations gives each term one entry with all its tables", "statement": "The entries written separately for each permutation are merged to one entry per term, in increasing order of terms; the entry of a term has for every permutation exactly the size and place registered there, and nothing for permutations without a table of the term.", "quantifier": "every set of tables per permutation (with those of SOP, OSP, PSO only for terms of SPO, OPS, POS)", "why_tests_cant": "the merge interleaves six streams whose heads can be ordered in any way; tests cover a few interleavings", "anchors": ["src/trident/kb/loader.cpp:CoordinatesMerger::get", "include/trident/loader.h:TreeWriter"]}
{"id": "C54", "title": "Permutations made from each other contain the input in their order", "statement": "When the loader makes each permutation from the rows of the previous one, every permutation consists of the rows of all input triples in the order of that permutation.", "quantifier": "every list of triples, every sequence of permutations the loader can make", "why_tests_cant": "must hold for every number of indices and every input", "anchors": ["src/trident/kb/loader.cpp:createIndicesInBlocks", "src/trident/kb/loader.cpp:generateNewPermutation"]}
{"id": "C55", "title": "A file that is being read stays open", "statement": "The file a session read last stays open, whatever other sessions do, until that session reads another file or is closed; in a graph opened only for reading no file is ever closed and every call returns.", "quantifier": "every history of opening and closing sessions and of reads of files of any sizes", "why_tests_cant": "the limit on open files is only reached in long histories", "anchors": ["include/trident/files/filemanager.h:getFile", "include/trident/utils/memorymgr.h"]}
{"id": "C56", "title": "The parallel sort sorts", "statement": "Sorting with any number of threads gives a permutation of the input in which no element is less than an earlier one.", "quantifier": "every input, every strict weak order, every number of threads", "why_tests_cant": "all sizes, orders and numbers of threads", "anchors": ["include/trident/utils/parallel.h:sort_int"]}
{"id": "C57", "title": "The queue between threads loses and repeats nothing", "statement": "What is taken from the queue is what was pushed, in that order and exactly once; a consumer that waits while the queue is not empty is going to be woken.", "quantifier": "every number of consumers, every schedule", "why_tests_cant": "schedules", "anchors": ["include/trident/utils/parallel.h:ConcurrentQueue"]}
{"id": "C58", "title": "Registering memory always returns", "statement": "Registering a block with the memory manager returns, and does so within the memory limit if blocks that are not locked can be freed.", "quantifier": "every history of registrations, locks and releases", "why_tests_cant": "needs states in which all blocks are locked or all slots are used", "anchors": ["include/trident/utils/memorymgr.h:add"]}
{"id": "C59", "title": "A scan of a pattern returns exactly the bindings of its variables", "statement": "Scanning a triple pattern returns one row with the values of the variables for each triple that has the constants of the pattern and the same value wherever it has the same variable, and nothing else.", "quantifier": "every graph, stored or updated; every pattern; read with all columns or with the variables only", "why_tests_cant": "all patterns, graphs and histories of updates", "anchors": ["src/trident/sparql/sparqloperators.cpp:KBScan", "src/trident/sparql/tupleiterator.cpp:TupleKBItr::init"]}
{"id": "C60", "title": "A scan asked to sort by columns returns rows in that order", "statement": "When a scan is opened with a list of columns to sort by, its rows come in non-decreasing order of the values in these columns.", "quantifier": "every graph, pattern and list of columns that hold variables", "why_tests_cant": "all graphs and lists of columns", "anchors": ["src/trident/sparql/tupleiterator.cpp:TupleKBItr::init", "src/trident/kb/querier.cpp:getIndex"]}
{"id": "C61", "title": "Scanning and joining several patterns answers the graph pattern", "statement": "Scanning each of several patterns and joining the scans returns one row for each way to choose a triple for each pattern such that all constants match and every variable has one value.", "quantifier": "every graph, stored or updated; every list of at least two patterns that are connected", "why_tests_cant": "all graphs and lists of patterns", "anchors": ["src/trident/sparql/sparqloperators.cpp:KBScan", "src/trident/sparql/sparqloperators.cpp:HashJoin", "src/trident/sparql/tupleiterator.cpp"]}
{"id": "C62", "title": "Union and difference of sorted tables", "statement": "The union of two sorted tables is sorted and holds exactly the rows of both; the difference holds exactly the rows of the first table that are not in the second.", "quantifier": "all pairs of sorted tables with rows of the same width", "why_tests_cant": "all tables, boundary cases at the ends of both", "anchors": ["src/trident/model/table.cpp:TupleTable::merge", "src/trident/model/table.cpp:TupleTable::retain"]}
{"id": "C63", "title": "The join of two tables", "statement": "Joining two tables with named columns gives one row for each pair of rows that agree on the columns with the same name; the predicted size is the number of these rows.", "quantifier": "all pairs of tables", "why_tests_cant": "all tables and all ways to share columns", "anchors": ["src/trident/model/table.cpp:TupleTable::join", "src/trident/model/table.cpp:TupleTable::joinHitRates", "src/trident/model/table.cpp:TupleTable::sortBy"]}
{"id": "C64", "title": "The iterator over a table returns its rows", "statement": "Iterating over a table returns its rows in order; if the last column is ignored, it returns each run of rows that agree on the other two columns once, with its length.", "quantifier": "all tables", "why_tests_cant": "all tables", "anchors": ["src/trident/model/table.cpp:TupleTableItr"]}
{"id": "C65", "title": "The tables of a permutation are written from the sorted input", "statement": "After the input has been sorted in rounds and the resulting files have been merged in groups, the sequence of rows from which the tables of a permutation are written is the sorted sequence of the input triples in that permutation's order.", "quantifier": "every list of input files, number of threads and readers, memory limit, order in which the directory lists files, and correct sort and merge", "why_tests_cant": "all inputs, splits into rounds and groups of files", "anchors": ["src/trident/kb/permsorter.cpp:sortChunks2", "src/trident/kb/loader.cpp:mergeDiskFragments,insert"]}
{"id": "C66", "title": "Queries in an order that was not stored", "statement": "If the store was built with fewer than six orders, a query in any order still returns exactly the matching triples, sorted in that order, each once; so every pattern can be answered with every number of orders. The same holds after any history of additions and deletions.", "quantifier": "all graphs, patterns, orders, numbers of stored orders and histories of updates", "why_tests_cant": "all combinations of stored orders, bound positions and graph contents", "anchors": ["src/trident/iterators/reorderitr.cpp:fillValue,hasNext,next,gotoKey", "src/trident/kb/querier.cpp:Querier::getIterator"]}
{"id": "C68", "title": "Jumping to a key", "statement": "While reading the sorted keys of an index, a jump to a key k never leaves out a key from k on, and the next key that is read is the first one which is at least k. This holds after any sequence of reads and jumps, and also for the triples read key by key.", "quantifier": "all stored indices, sequences of reads and jumps and keys", "why_tests_cant": "all call sequences and contents of the index files", "anchors": ["src/trident/iterators/termitr.cpp:TermItr::gotoKey", "src/trident/iterators/scanitr.cpp:ScanItr::gotoKey"]}
{"id": "C67", "title": "GROUP BY and aggregates", "statement": "A SPARQL query with GROUP BY and aggregates returns exactly one row for every group of solutions: the values of the group variables and COUNT, SUM, AVG, MIN and MAX over the solutions of that group, each solution counted with its multiplicity. With GROUP BY and no aggregates every group is returned once.", "quantifier": "all lists of solutions with multiplicities, group variables, combinations of aggregates and orders that sorting may produce", "why_tests_cant": "all solutions, group sizes and orders of equal rows", "anchors": ["rdf3x/src/rts/GroupBy.cpp:GroupBy::first,next", "rdf3x/src/rts/AggrFunctions.cpp:processGroup,updateVar,copyVars", "src/trident/sparql/aggrhandler.cpp:executeFunction,stopUpdate"]}
{"id": "C69", "title": "Hash joins", "statement": "A join of two parts of a SPARQL query by a hash table returns every pair of solutions that agree on the join variable, as often as the product of their multiplicities, and nothing else. If a part is OPTIONAL, the solutions of the other part without partner are returned once as well, with their own values.", "quantifier": "all lists of solutions on both sides with 64 bit values, including collisions that make the table grow", "why_tests_cant": "all inputs, and all collisions of the hash functions", "anchors": ["rdf3x/src/rts/HashJoin.cpp:BuildHashTable::run,insert,lookup,first,next", "rdf3x/src/cts/CodeGen.cpp:mergeBindings"]}
{"id": "C70", "title": "Merge joins", "statement": "A join of two parts of a SPARQL query that are both sorted by the join variable returns every pair of solutions that agree on it, as often as the product of their multiplicities, and nothing else, also when the scans below skip solutions that cannot match. If a part is OPTIONAL, the solutions of the other part without partner are returned once as well, with their own values.", "quantifier": "all sorted lists of solutions on both sides, all block sizes, all calls in which the scans skip", "why_tests_cant": "all inputs and all interleavings of blocks of equal values", "anchors": ["rdf3x/src/rts/MergeJoin.cpp:first,next,handleNM,swapLeft,swapRight", "rdf3x/src/rts/IndexScan.cpp:IndexScanHint::next", "src/layers/TridentLayer.cpp:TridentScan::next"]}
{"id": "C71", "title": "UNION", "statement": "A SPARQL UNION returns the solutions of all its parts, each as often as in its part, and a variable that a part does not mention is unbound in the solutions of that part.", "quantifier": "all numbers of parts, all lists of solutions, all sets of variables of the parts, all earlier contents of the registers", "why_tests_cant": "values of one part could leak into solutions of another part for particular sets of variables", "anchors": ["rdf3x/src/rts/Union.cpp:firstFromPart,first,next", "rdf3x/src/rts/MergeUnion.cpp:first,next", "rdf3x/src/cts/CodeGen.cpp:translateUnion,translateMergeUnion"]}
{"id": "C72", "title": "DISTINCT", "statement": "With SELECT DISTINCT the operator that removes duplicates returns every distinct solution of its input exactly once, and together with it the number of all its occurrences.", "quantifier": "all lists of solutions, all collisions of hash values, all numbers of rehashings, all orders of memory addresses", "why_tests_cant": "hash collisions and the enlargement of the table depend on the data", "anchors": ["rdf3x/src/rts/HashGroupify.cpp:first,next", "rdf3x/include/infra/util/VarPool.hpp:enumAll"]}
{"id": "C73", "title": "LIMIT and OFFSET", "statement": "A query or subquery with OFFSET o and LIMIT n returns exactly the first n of the solutions that remain after the first o ones, counting duplicates as separate solutions unless DISTINCT is given; without LIMIT it returns all of them. This holds for the text output, the JSON output and the number of rows.", "quantifier": "all lists of solutions with all multiplicities, all limits, all offsets, all output formats", "why_tests_cant": "a row stands for several solutions, so limit and offset can fall inside a row", "anchors": ["rdf3x/src/rts/DuplLimit.cpp:first,next", "rdf3x/src/rts/ResultsPrinter.cpp:first,formatJSON", "rdf3x/src/cts/SPARQLParser.cpp:parseLimitOffset"]}
{"id": "C74", "title": "MINUS", "statement": "MINUS removes exactly the solutions that agree with some solution of the other side on all variables that both bind, if there is such a variable; without common variables it removes nothing.", "quantifier": "all lists of solutions on both sides, all sets of common variables, including none", "why_tests_cant": "depends on which variables are bound in each solution", "anchors": ["rdf3x/src/rts/Minus.cpp:first,next", "rdf3x/include/rts/operator/Minus.hpp:HashVectors,EqualVectors", "rdf3x/src/cts/CodeGen.cpp:translateMinus"]}
{"id": "C75", "title": "VALUES and BIND", "statement": "VALUES contributes every row of its list exactly once, for any number of variables. BIND adds its value to every solution and does not change how often a solution occurs.", "quantifier": "all lists of values, all numbers of variables, all lists of solutions", "why_tests_cant": "the number of rows and variables is arbitrary", "anchors": ["rdf3x/src/rts/ValuesScan.cpp:first,next", "rdf3x/src/rts/Assignment.cpp:first,next"]}
{"id": "C76", "title": "Patterns without a common variable", "statement": "Two parts of a query without a common variable are combined to all pairs of their solutions, as often as the product of their multiplicities. If a part is OPTIONAL and has no solutions, the solutions of the other part are returned with its variables unbound.", "quantifier": "all lists of solutions on both sides, all contents of the registers before", "why_tests_cant": "all inputs, and stale registers", "anchors": ["rdf3x/src/rts/CartProd.cpp:first,next", "rdf3x/src/rts/NestedLoopJoin.cpp:first,next"]}
{"id": "C77", "title": "Domains and hints never skip a needed solution", "statement": "While a SPARQL query runs, operators record which values of a variable can still be part of an answer, and scans skip ahead to such values. A value that was observed is never excluded, restricting a record keeps every value that is in both, and looking for the next possible value never passes one. A scan that skips returns every row whose values are possible, in its order, and no other rows than its own.", "quantifier": "all sequences of observed values and restrictions over 64 bit ids, all scans sorted by their columns, all sequences of hints between the calls", "why_tests_cant": "all sets of values and all orders of restrictions and calls", "anchors": ["rdf3x/src/rts/DomainDescription.cpp:couldQualify,nextCandidate,sync,restrictTo,add", "rdf3x/src/rts/IndexScan.cpp:IndexScanHint::next", "rdf3x/src/rts/AggregatedIndexScan.cpp:next", "src/layers/TridentLayer.cpp:TridentScan::next"]}
{"id": "C78", "title": "Domains shared by the parts of a query", "statement": "A SPARQL query returns exactly the solutions of its pattern, each as often as it matches, although all parts of the query share one record of possible values per variable, joins drop and scans skip what it excludes, and each join narrows it. The order of the joins and the choice of the hashed side do not matter.", "quantifier": "all trees of scans and hash joins of any depth, all stored rows with 64 bit ids, all choices of skipped rows", "why_tests_cant": "all plans, all data and all ways in which scans skip", "anchors": ["rdf3x/src/rts/HashJoin.cpp:BuildHashTable::run,first,next", "rdf3x/src/cts/CodeGen.cpp:translateHashJoin,addAdditionalSelections,allocateRegisters,prepareRuntime", "rdf3x/src/rts/DomainDescription.cpp:restrictTo", "rdf3x/src/rts/Union.cpp:next"]}
{"id": "C79", "title": "FILTER keeps exactly the true rows", "statement": "A FILTER with conditions built from comparisons, IN, isIRI, isLiteral, isBlank, bound, and, or, not over variables and constants returns exactly the solutions for which its condition is true of the terms, with their multiplicities and order. Terms are compared by what they denote (numbers by value, the rest by text), not by their ids, and earlier comparisons do not change later ones.", "quantifier": "all conditions of any depth, all lists of solutions, all dictionaries and all states of the cache of numbers", "why_tests_cant": "all conditions over all terms, and all histories of comparisons", "anchors": ["rdf3x/src/rts/Selection.cpp:Result::ensureString,isNumericComparison,numLess,Less::eval,LessOrEqual::eval,Equal::eval,NotEqual::eval,BuiltinIn::eval,Selection::next", "rdf3x/src/rts/Filter.cpp:first,next", "rdf3x/src/cts/CodeGen.cpp:buildSelection,translateFilter", "rdf3x/include/cts/infra/QueryGraph.hpp:Filter::id", "src/layers/TridentLayer.cpp:lookupById"]}
{"id": "C80", "title": "The pattern of a query is read as written", "statement": "The WHERE part of a SPARQL query is read as the group graph pattern that was written: the same triple patterns, OPTIONAL, UNION, MINUS and VALUES parts and FILTER conditions in the same nesting, with prefixed names expanded, `a` as rdf:type, and literals with their language or type. Equal variable names are one variable, different names are different variables, and variables named before, as after SELECT, keep their identity. White space, comments, quotes of either kind and the case of keywords do not matter.", "quantifier": "all group graph patterns of any size and depth, all texts that write them, all declared prefixes and all variables named before", "why_tests_cant": "all patterns of any depth and all ways to write them", "anchors": ["rdf3x/src/cts/SPARQLLexer.cpp:getNext,isKeyword,getLiteralValue,getIRIValue", "rdf3x/src/cts/SPARQLParser.cpp:parsePatternElement,parseRDFLiteral,parseGraphPattern,parseGroupGraphPattern,parseValues,parseWhere,nameVariable"]}
{"id": "C81", "title": "A constant in a query is the term that was written", "statement": "An IRI or literal in a query is looked up as exactly the RDF term it denotes: the id used is the id of that stored term, and if the term is not stored the constant is unknown. Terms that differ in kind, language or datatype are not mixed up.", "quantifier": "all dictionaries and all constants of a query", "why_tests_cant": "all texts, languages and datatypes over all dictionaries", "anchors": ["rdf3x/src/cts/SemanticAnalysis.cpp:encode,lookup", "src/layers/TridentLayer.cpp:lookup"]}
{"id": "C82", "title": "Unknown constants do not change the answers", "statement": "Replacing terms by ids and dropping the parts of a query that mention terms which are not stored does not change its answers: an OPTIONAL part with an unknown term binds nothing, a UNION loses only the alternatives with unknown terms, MINUS with an unknown term removes nothing, and a query is declared empty only if it has no solutions.", "quantifier": "all group graph patterns of any nesting, all stored triples and all dictionaries", "why_tests_cant": "all nestings of patterns and all combinations of known and unknown terms", "anchors": ["rdf3x/src/cts/SemanticAnalysis.cpp:transformSubquery,encodeNotExistsFilter,transform,encode"]}
{"id": "C83", "title": "Conditions are read by the rules of SPARQL", "statement": "The condition of a FILTER and the expression of a BIND mean what SPARQL's grammar says: || binds less than &&, then comparisons, then + and -, then * and /, then the signs in front; operators of a level are taken from the left; brackets and function calls group as usual; variables with the same name are the same variable; prefixes declared at the start are the ones used. Texts have one meaning, and what follows the condition is left in place.", "quantifier": "all expressions of any nesting, all spellings of words, all white space and comments, all declared prefixes and all variables named before", "why_tests_cant": "all nestings of operators and functions", "anchors": ["rdf3x/src/cts/SPARQLParser.cpp:parseExpression,parseConstraint,parseFilter,parseAssignment,parsePrefix", "rdf3x/src/cts/SPARQLLexer.cpp:getNext"]}
{"id": "C84", "title": "FILTER keeps the solutions for which the written condition is true", "statement": "A condition that is written after FILTER keeps exactly the solutions for which it is true by the operator table of SPARQL, with their multiplicities and in their order. Its constants are the terms that were written, its variables have the terms of the solution, integers are compared by value, strings by their characters; constants that no triple has are different from every term.", "quantifier": "all texts of conditions, nestings and constants, all groups that bind their variables, all dictionaries and all lists of solutions", "why_tests_cant": "all conditions and dictionaries; the same text is stored under different ids, and which constants are stored is decided by the data", "anchors": ["rdf3x/src/cts/SemanticAnalysis.cpp:encodeFilter,binds,encode", "rdf3x/src/cts/SPARQLParser.cpp:parseFilter", "rdf3x/src/cts/CodeGen.cpp:translateFilter", "rdf3x/src/rts/Selection.cpp:Selection::first", "rdf3x/src/rts/Filter.cpp:Filter::first"]}
{"id": "C85", "title": "The plan that is chosen for a query returns the answers of the query", "statement": "Whatever the statistics say, a query with triple patterns and conditions gets a plan, and its execution prints the answers: the values of the projected variables for each choice of a triple per pattern such that the constants agree, each variable has one value and the conditions hold, each answer as often as there are choices for it. Scans that read only some positions, the order of joins, the kinds of joins and the place of the conditions make no difference.", "quantifier": "all databases, all groups of triple patterns and conditions, all projections, all estimates of costs and cardinalities, all choices of scans and joins that follow from them", "why_tests_cant": "the plan depends on estimates for the data at hand; there are exponentially many plans, and a wrong one returns wrong rows only for some data", "anchors": ["rdf3x/src/cts/PlanGen.cpp:PlanGen::translate,translate_int,buildScan,buildIndexScan,buildAggregatedIndexScan,buildFullyAggregatedIndexScan,addPlan,buildFilters,buildJoinInfo,isUnused,findFilters", "rdf3x/src/cts/QueryGraph.cpp:QueryGraph::constructEdges", "rdf3x/src/rts/FullyAggregatedIndexScan.cpp:FullyAggregatedIndexScan::ScanPrefix1::first", "src/layers/TridentLayer.cpp:TridentScan::first", "rdf3x/src/cts/CodeGen.cpp:translatePlan,resolveScanVariable,getJoinVariables,mergeBindings,addAdditionalSelections,translateMergeJoin,translateHashJoin,translateNestedLoopJoin,translateCartProd,translateFilter"]}
{"id": "C86", "title": "The text of a SELECT query gives the lines of its answers", "statement": "Whoever writes a SELECT query as text, with prefixes, columns or `*`, a group of triple patterns and FILTERs, LIMIT and OFFSET, gets as output the terms of the columns for each solution of the group in the triples that were loaded: each as often as there are solutions, or once with DISTINCT, and of these the part that LIMIT and OFFSET say. The columns of `*` are the variables in the order of their names. White space, comments, the letters of the words, the order of LIMIT and OFFSET, the statistics and the plan make no difference.", "quantifier": "all texts of such queries, all stored triples and dictionaries, all estimates of the optimizer, all executions of the plan", "why_tests_cant": "the output depends on the parser, the dictionary, the plan and the operators together; a fault in any of them shows only for some query on some data", "anchors": ["rdf3x/src/cts/SPARQLParser.cpp:SPARQLParser::parse,parseProjection,parseFrom,parseWhere,parseLimitOffset", "rdf3x/src/cts/SemanticAnalysis.cpp:SemanticAnalysis::transform,transformSubquery,encodeFilter", "rdf3x/src/cts/PlanGen.cpp:PlanGen::translate", "rdf3x/src/cts/CodeGen.cpp:CodeGen::translate,translateFilter", "rdf3x/src/rts/ResultsPrinter.cpp:ResultsPrinter::first", "src/trident/sparql/sparql.cpp:SPARQLUtils::execSPARQLQuery"]}
{"id": "C87", "title": "A pattern is read from the store completely, once and in order", "statement": "When a SPARQL query needs the triples of a pattern in some order, the scan of the stored graph gives the values of its variables for each stored triple that fits the constants, once for each triple, sorted by the variable that comes first in the order. With these scans the output of a query are its answers from the stored triples, whatever layouts, orders or updates the store has.", "quantifier": "all stored graphs, all patterns and all six orders, all queries and plans made of such scans", "why_tests_cant": "the operator depends on which of the three values are constants, the store on layouts, missing orders and updates; a missed filter or a wrong end shows only for some of these combinations on some data", "anchors": ["rdf3x/src/rts/IndexScan.cpp:IndexScan::create,Scan,ScanFilter2,ScanFilter3,ScanFilter23,ScanPrefix1,ScanPrefix1Filter3,ScanPrefix12,ScanPrefix123", "src/layers/TridentLayer.cpp:TridentLayer::getScan,TridentScan::first,next", "src/trident/kb/querier.cpp:Querier::getPermuted,getIterator", "rdf3x/src/cts/CodeGen.cpp:translateIndexScan,resolveScanVariable"]}
{"id": "C88", "title": "Reading a pattern without its last column counts the triples", "statement": "Reading a pattern in an order and ignoring the last column gives each pair of the first two values that some matching triple has, exactly once, sorted, and with the number of matching triples that have it.", "quantifier": "all graphs, all table layouts and index configurations, all orders that can be read, all patterns whose last position in the order is not fixed", "why_tests_cant": "three table layouts, the aggregated table, sorting of absent orders and the scan over all keys each count in their own way; a count that is off by one shows only at a change of the value, at the end of a table or between two keys", "anchors": ["src/trident/binarytables/newcolumntable.cpp:NewColumnTable::ignoreSecondColumn", "src/trident/binarytables/newrowtable.h", "src/trident/binarytables/newclustertable.h", "src/trident/iterators/scanitr.cpp:ScanItr::ignoreSecondColumn", "src/trident/iterators/aggritr.cpp", "src/trident/iterators/arrayitr.cpp:ArrayItr::ignoreSecondColumn", "src/layers/TridentLayer.cpp:TridentLayer::getScan"]}
{"id": "C89", "title": "ORDER BY returns the rows sorted", "statement": "A query with ORDER BY returns the rows that it returns without it, each as often, and in an order in which no row comes after one that it should come before: the first key in which two rows differ decides, in ascending or descending order, and a row without a value comes first.", "quantifier": "all rows, all lists of keys with their directions, all dictionaries, all values of the rows; all orders that std::sort can produce", "why_tests_cant": "the comparison is handed to std::sort, which may do anything if it is not a strict weak order on the rows at hand, so that single results say nothing; the comparison reads a buffer that earlier calls leave behind", "anchors": ["rdf3x/src/rts/Sort.cpp:Sorter::operator()", "rdf3x/src/rts/Sort.cpp:Sort::Sort", "rdf3x/src/rts/Sort.cpp:Sort::first", "src/layers/TridentLayer.cpp:TridentLayer::lookupById", "include/trident/kb/dictmgmt.h:DictMgmt::compare"]}
{"id": "C90", "title": "The JSON that is written stands for what was put in", "statement": "If a program builds a document from objects, arrays and texts with the functions of the JSON class and writes it, then the text is JSON by RFC 8259, it has exactly one meaning, and this is the document: all the members with their names, all the elements in their order, and every text with its characters.", "quantifier": "all documents of any depth and size, all texts as names and values, all sequences of calls", "why_tests_cant": "quotes, backslashes and control characters can be anywhere in names and texts, at any depth", "anchors": ["src/trident/utils/json.cpp:JSON::write", "src/trident/utils/json.cpp:JSON::put", "src/trident/utils/json.cpp:JSON::add_child", "src/trident/utils/json.cpp:JSON::push_back", "src/trident/utils/json.cpp:escape_json", "include/trident/utils/json.h:JSON"]}
{"id": "C91", "title": "A JSON document that was written and is read again is the same document", "statement": "If a document is built and written, and the text is read with the JSON class, then no exception is thrown, and what was read is the document: writing it again gives a text that stands for it.", "quantifier": "all documents of any depth and size, all texts as names and values", "why_tests_cant": "names and texts pass through escapes, C strings and the numbers and kinds that the reader supports, at any depth", "anchors": ["src/trident/utils/json.cpp:JSON::read", "src/trident/utils/json.cpp:parse_value", "src/trident/utils/json.cpp:JSON::write"]}
{"id": "C92", "title": "The JSON that is returned for a query is that of its answers", "statement": "If a SELECT query is sent through the Python module, the Java library or the server, then the text that is returned is JSON, and its document has the columns of the query, and for each answer, as often as the query asks, an object with the term of each column: IRIs without brackets, literals as N-Triples write them, blank nodes as blank nodes; and the number of the answers.", "quantifier": "all texts of queries, all graphs, all dictionaries, all estimates of the optimizer, all results that the scans can return", "why_tests_cant": "the texts of terms can have any characters, and the rows pass through the parser, the plan, the collection of duplicates and the JSON class", "anchors": ["rdf3x/src/rts/ResultsPrinter.cpp:formatJSONRow", "rdf3x/src/rts/ResultsPrinter.cpp:ResultsPrinter::formatJSON", "rdf3x/src/rts/ResultsPrinter.cpp:CacheEntry::print", "src/trident/sparql/sparql.cpp:SPARQLUtils::execSPARQLQuery", "src/python/trident.cpp:db_sparql", "src/layers/TridentLayer.cpp:TridentLayer::lookupById"]}
{"id": "C93", "title": "Percent-encoding and decoding are inverse and follow the standard", "statement": "Escaping a text writes every byte that is not a letter, a digit, '-', '_', '.' or '~' as '%' and two hexadecimal digits; unescaping gives the text back; and unescaping decodes every value of a form, also those of other clients, with '+' as a space.", "quantifier": "all byte strings, all encoded values", "why_tests_cant": "texts have any bytes and any length", "anchors": ["src/trident/utils/httpclient.cpp:HttpClient::escape", "src/trident/utils/httpclient.cpp:HttpClient::unescape"]}
{"id": "C94", "title": "The query that the server runs is the one in the request", "statement": "If a client posts a form with the parameter query to /sparql, then the server runs the query that the value of this parameter stands for, and it leaves out the rows if and only if the parameter print is false.", "quantifier": "all queries, all encodings of them, all other headers and parameters", "why_tests_cant": "the parameters are found by searching the text of the request, and any header or parameter can have any text", "anchors": ["src/trident/server/server.cpp:_getValueParam", "src/trident/server/server.cpp:TridentServer::processRequest", "src/trident/utils/httpclient.cpp:HttpClient::post"]}
{"id": "C95", "title": "The server hands over the whole request", "statement": "If a client sends a request with its length, then the handler gets all bytes of the request, and no byte is left for the next one, however the bytes arrive.", "quantifier": "all requests, all ways in which the bytes arrive (schedules of read)", "why_tests_cant": "the schedule of the network is not under control of a test", "anchors": ["src/trident/utils/httpserver.cpp:HttpServer::processSocket", "src/trident/utils/httpserver.cpp:HttpServer::getMessageBodyLength"]}
{"id": "C96", "title": "The client is sent the whole response", "statement": "However many bytes each call of send takes, the client is sent the response once, without gaps and repetitions, and the loop ends.", "quantifier": "all responses, all results of send", "why_tests_cant": "the number of bytes that the network takes is not under control of a test", "anchors": ["src/trident/utils/httpserver.cpp:HttpServer::processSocket"]}
{"id": "C97", "title": "The client reads the response", "statement": "If a server sends a response with status 200 whose headers say how long the body is, or that it is in chunks, then the client returns the headers and the body, however the bytes arrive.", "quantifier": "all responses, all ways in which the bytes arrive", "why_tests_cant": "the schedule of the network is not under control of a test", "anchors": ["src/trident/utils/httpclient.cpp:HttpClient::getResponse"]}
{"id": "C98", "title": "A query over HTTP returns its answers", "statement": "If the client posts a query to the server, then the response that it reads is JSON and has the answers of the query, however the bytes of the request and of the response arrive.", "quantifier": "all texts of queries, all graphs, all schedules of read, send and recv", "why_tests_cant": "needs all of the parts, for all queries and schedules", "anchors": ["src/trident/utils/httpclient.cpp:HttpClient::post", "src/trident/utils/httpclient.cpp:HttpClient::getResponse", "src/trident/server/server.cpp:TridentServer::processRequest", "src/trident/utils/httpserver.cpp:HttpServer::processSocket"]}
{"id": "C99", "title": "The lookups of the Python module return the matching terms", "statement": "s(p, o), o(s, p), po(s), ps(o), os(p) and all(permutation) return exactly the ids, pairs or triples of the graph that match, each once and in increasing order; s_itr(p, o) returns the subjects one by one and then -1; s_aggr_fromo, o_aggr_froms and o_aggr_fromp return each subject or object once; all_s, all_p and all_o return each term in the position once.", "quantifier": "all graphs, histories of updates and ids", "why_tests_cant": "graphs have any size and any contents", "anchors": ["src/python/trident.cpp:db_alls", "src/python/trident.cpp:db_allo", "src/python/trident.cpp:db_allpo", "src/python/trident.cpp:db_allps", "src/python/trident.cpp:db_allos", "src/python/trident.cpp:db_all", "src/python/trident.cpp:db_alls_aggr", "src/python/trident.cpp:db_allo_aggr_froms", "src/python/trident.cpp:db_allo_aggr_fromp", "src/python/trident.cpp:db_lists", "src/python/itr.cpp:itr_field1"]}
{"id": "C100", "title": "The counts of the Python module are exact", "statement": "exists(s, p, o) says whether the triple is in the graph; count_s, count_p and count_o return the number of triples with the term; count_po, n_s and n_o return the number of triples with the two terms.", "quantifier": "all graphs, histories of updates and ids", "why_tests_cant": "graphs and histories have any size", "anchors": ["src/python/trident.cpp:db_exists", "src/python/trident.cpp:db_counts", "src/python/trident.cpp:db_counto", "src/python/trident.cpp:db_countp", "src/python/trident.cpp:db_count_po", "src/python/trident.cpp:db_ns", "src/python/trident.cpp:db_no", "src/trident/kb/querier.cpp:Querier::getCardOnIndex"]}
{"id": "C101", "title": "The joins of the Python module return the common values", "statement": "join_e2e returns the values that both lookups have in common, each once and in increasing order; existsQuery says whether some x has the triples (term, p1, x) and (x, p2, o2).", "quantifier": "all graphs, histories of updates, orders and ids", "why_tests_cant": "graphs have any size and any contents", "anchors": ["src/python/trident.cpp:db_join_e2e", "src/python/trident.cpp:db_existsQuery"]}
{"id": "C102", "title": "The degrees and the number of triples in the Python module are exact", "statement": "outdegree, indegree and degree return every term of the graph once, in increasing order, with the number of triples that have it as subject, as object, and the sum; n_triples returns the number of triples.", "quantifier": "all graphs, indices and histories of updates", "why_tests_cant": "graphs have any size; the numbers come from two indices, one of which may lack entries", "anchors": ["src/python/trident.cpp:db_degree", "src/python/trident.cpp:db_indegree", "src/python/trident.cpp:db_outdegree", "src/python/trident.cpp:db_ntriples", "include/trident/kb/kb.h:KB::getSize"]}
{"id": "C103", "title": "The methods of a Python object work after it was opened or loaded", "statement": "After Db(path), and after Db() and a load that succeeded, lookups and sparql work, whatever other calls of load were made.", "quantifier": "all histories of calls", "why_tests_cant": "histories have any length", "anchors": ["src/python/trident.cpp:db_new", "src/python/trident.cpp:db_init", "src/python/trident.cpp:db_loadFromFiles", "src/python/trident.cpp:db_sparql"]}
{"id": "C104", "title": "The answers of a query with UNION are those of its alternatives", "statement": "SELECT with a group that is a UNION of alternatives, each with triple patterns and filters, and with filters of the group, returns the solutions of every alternative for which the filters hold, each as often as it is a solution; a variable that an alternative does not have is unbound in its answers. No query reads memory out of bounds.", "quantifier": "all databases, queries of this form and costs of plans", "why_tests_cant": "databases and queries have any size, and the plan depends on the costs", "anchors": ["rdf3x/src/cts/PlanGen.cpp:buildUnion", "rdf3x/src/cts/PlanGen.cpp:collectVariables", "rdf3x/src/cts/PlanGen.cpp:findOrdering", "rdf3x/src/cts/PlanGen.cpp:PlanGen::translate_int", "rdf3x/src/cts/PlanGen.cpp:PlanGen::translate", "rdf3x/src/cts/CodeGen.cpp:translateUnion", "rdf3x/src/cts/SemanticAnalysis.cpp:transform"]}
{"id": "C105", "title": "MINUS removes the right answers of a query", "statement": "SELECT with a group of triple patterns and filters and with any number of MINUS groups returns the solutions of the group, each as often as it is a solution, without those for which some MINUS group has a solution that shares a variable and has the same value for every shared variable. No query reads memory that it must not read.", "quantifier": "all databases, queries of this form and costs of plans", "why_tests_cant": "databases and queries have any size, and the plan depends on the costs", "anchors": ["rdf3x/src/cts/PlanGen.cpp:PlanGen::translate_int", "rdf3x/src/cts/PlanGen.cpp:PlanGen::translate", "rdf3x/src/cts/PlanGen.cpp:isUnused", "rdf3x/src/cts/CodeGen.cpp:translateMinus", "rdf3x/src/cts/CodeGen.cpp:collectVariables", "rdf3x/src/rts/Minus.cpp", "rdf3x/src/cts/SemanticAnalysis.cpp:transformSubquery"]}
{"id": "C106", "title": "A lookup over HTTP returns the term of the id", "statement": "If a client posts an id of the store to /lookup, then the response is JSON with the text of the term, IRIs without angle brackets, whatever requests came before; for an id that is not in the store there is a defined response. After each request the server can be stopped.", "quantifier": "all stores, ids, requests and earlier requests", "why_tests_cant": "ids have 64 bits and requests any form", "anchors": ["src/trident/server/server.cpp:TridentServer::lookup", "src/trident/server/server.cpp:TridentServer::processRequest", "src/trident/server/server.cpp:TridentServer::stop", "src/layers/TridentLayer.cpp:TridentLayer::lookupById"]}
{"id": "C107", "title": "The server sends the files of the web interface and no others", "statement": "A GET of a path returns what the file with that path below the directory of the web interface contains at that time, with each WEB_PORT replaced by the port, whatever requests came before; an error status if there is no such file; never a file from elsewhere.", "quantifier": "all trees of files, paths and histories of requests", "why_tests_cant": "paths and histories are unbounded, attackers choose them", "anchors": ["src/trident/server/server.cpp:TridentServer::getPage", "src/trident/server/server.cpp:TridentServer::getDefaultPage", "src/trident/server/server.cpp:TridentServer::processRequest"]}
{"id": "C108", "title": "An epoch of batches has each triple exactly once", "statement": "After start, the batches of getbatch until there is no further one have each triple of the graph that the filter accepts exactly once; all batches but the last have the size that was asked for. The same holds for the numbered batches. The arrays of a batch keep their values.", "quantifier": "all graphs, sizes of batches, filters and orders of shuffling", "why_tests_cant": "graphs and shuffles are unbounded, and the file meets the end of a page only for some sizes", "anchors": ["src/trident/ml/batch.cpp:BatchCreator::start", "src/trident/ml/batch.cpp:BatchCreator::createInputForBatch", "src/trident/ml/batch.cpp:BatchCreator::getBatch", "src/trident/ml/batch.cpp:BatchCreator::getBatchNr", "src/trident/ml/batch.cpp:BatchCreator::getNBatches", "src/python/batcher.cpp:batcher_getbatch"]}
{"id": "C109", "title": "Each triple is for training, validation or test", "statement": "If shares for validation and test are given, then each triple is in exactly one of the three files, and loadTriples returns the triples of each file.", "quantifier": "all graphs and random numbers", "why_tests_cant": "the split is random and graphs are unbounded", "anchors": ["src/trident/ml/batch.cpp:BatchCreator::createInputForBatch", "src/trident/ml/batch.cpp:BatchCreator::loadTriples"]}
{"id": "C110", "title": "Batches for a query have exactly the triples that match", "statement": "After start with constants for some of subject, predicate and object, the batches of an epoch have each triple of the graph with these constants exactly once and no others.", "quantifier": "all graphs, constants, sizes of batches and orders of shuffling", "why_tests_cant": "the binary searches meet boundaries that depend on the graph", "anchors": ["src/trident/ml/batch.cpp:BatchCreator::start", "src/trident/ml/batch.cpp:BatchCreator::populateIndicesFromQuery", "src/trident/ml/batch.cpp:BatchCreator::findFirstOccurrence", "src/trident/ml/batch.cpp:BatchCreator::findLastOccurrence"]}
{"id": "C111", "title": "The values of a column that are not in another one", "statement": "columnNotIn writes exactly the values of a column of a table that are not in a column of another table, in their order. With stopAfterFirst it writes the first such value and nothing else.", "quantifier": "all pairs of sorted columns that have values", "why_tests_cant": "columns are unbounded, and the merge ends in several ways", "anchors": ["src/trident/binarytables/newcolumntable.cpp:NewColumnTable::columnNotIn"]}
{"id": "C112", "title": "An update of one pattern has exactly its triples", "statement": "An update that is made from a triple with one free position and a list of values returns, for each index and each pattern, exactly the triples with these values that match, each once and in the order of the index. If the second column is ignored it returns each pair of first and second terms once.", "quantifier": "all updates, indexes and patterns", "why_tests_cant": "updates are unbounded, and there are six indexes, three free positions and eight forms of patterns", "anchors": ["src/trident/kb/diffindex1.cpp:DiffIndex1::createDiffIndex", "src/trident/kb/diffindex1.cpp:DiffIndex1::getIterator", "include/trident/iterators/diff1itr.h:Diff1Itr::init", "include/trident/iterators/diff1itr.h:Diff1Itr::next"]}
{"id": "C113", "title": "The counts of an update of one pattern are right", "statement": "For an update of one pattern, the cardinality of a key is its number of triples; the numbers of new keys and of new pairs are the numbers of keys and pairs of the update that the store does not have; the list of keys has each key of the update.", "quantifier": "all stores, updates, indexes and keys", "why_tests_cant": "the counts depend on the store and on the update, which are unbounded", "anchors": ["src/trident/kb/diffindex1.cpp:DiffIndex1::getCard", "src/trident/kb/diffindex1.cpp:DiffIndex1::getUniqueNFirstTerms", "src/trident/kb/diffindex1.cpp:DiffIndex1::getNFirstTables", "src/trident/kb/diffindex1.cpp:DiffIndex1::getNUniqueKeys", "src/trident/iterators/difftermitr.cpp:DiffTermItr::init"]}
{"id": "C114", "title": "Edge iterators return exactly the matching triples in the order of their name", "statement": "edg_srd, edg_sdr, edg_rsd, edg_rds, edg_dsr and edg_drs return exactly the triples of the store that match their arguments, each once and in the order that their name spells. Equal variables have equal values. countEdges returns their number.", "quantifier": "all stores, functions and arguments", "why_tests_cant": "stores are unbounded, and each function chooses one of four indexes by its arguments", "anchors": ["include/trident/kb/querier.h:Querier::edg_srd", "include/trident/kb/querier.h:Querier::getEdgeItr", "include/trident/kb/querier.h:Querier::sameVar", "include/trident/kb/querier.h:Querier::countEdges", "include/trident/iterators/filtersameitr.h:FilterSameItr"]}
{"id": "C115", "title": "Groups of edges have the right keys and sizes", "statement": "grp_s, grp_r and grp_d return each term at their position among the matching triples once, with the number of matching triples that have it. grp_sr, grp_sd, grp_rs, grp_rd, grp_ds and grp_dr do so for pairs of terms.", "quantifier": "all stores, functions and arguments", "why_tests_cant": "the number and the sizes of groups are unbounded", "anchors": ["include/trident/kb/querier.h:Querier::grp_s", "include/trident/kb/querier.h:Querier::grp_sr", "include/trident/kb/querier.h:OneKeyCardItr", "include/trident/kb/querier.h:TwoKeyCardItr", "src/trident/kb/querier.cpp:ConstKeyCardItr"]}
{"id": "C116", "title": "The triple at a position", "statement": "pos_srd, pos_sdr, pos_rsd, pos_rds, pos_dsr and pos_drs return the triple at the given position of what the edge iterator of the same name returns, for each position it has.", "quantifier": "all stores, functions, arguments and positions", "why_tests_cant": "positions and stores are unbounded", "anchors": ["include/trident/kb/querier.h:Querier::pos_srd", "include/trident/kb/querier.h:Querier::pos_rds"]}
{"id": "C117", "title": "Counts of groups are right", "statement": "cnt_grp_s, cnt_grp_r and cnt_grp_d return the number of terms that the matching triples have at their position. cnt_grp_sr, cnt_grp_sd, cnt_grp_rs, cnt_grp_rd, cnt_grp_ds and cnt_grp_dr return the number of pairs of terms.", "quantifier": "all stores, functions and arguments", "why_tests_cant": "stores are unbounded, and the functions count in different ways for different arguments", "anchors": ["include/trident/kb/querier.h:Querier::cnt_grp_s", "include/trident/kb/querier.h:Querier::cnt_grp_sr", "include/trident/kb/querier.h:Querier::countKeyCardItr", "src/trident/kb/querier.cpp:Querier::getCard"]}
{"id": "C118", "title": "The index of a table file keeps its entries and finds keys", "statement": "An index that is serialized and unserialized is the same, with all additional indexes. Entries that are added are kept in their order. A lookup returns the first entry whose key is not below the given one, and the additional index of a key exactly if there is one.", "quantifier": "all indexes of any size and depth, all keys and start positions", "why_tests_cant": "indexes are nested to any depth and entries are stored as differences", "anchors": ["src/trident/binarytables/fileindex.cpp:FileIndex::serialize", "src/trident/binarytables/fileindex.cpp:FileIndex::unserialize", "src/trident/binarytables/fileindex.cpp:FileIndex::idx", "src/trident/binarytables/fileindex.cpp:FileIndex::additional_idx", "src/trident/binarytables/fileindex.cpp:FileIndex::add"]}
{"id": "C119", "title": "Aggregated tables return the pairs they stand for", "statement": "An aggregated table returns, for each row of its main table, the first value with all second values of the table the row points to, in order. A lookup of a pair finds it exactly if it is there. A seek leaves exactly the pairs from the target on. A reset returns to the marked row. With the second column ignored each first value is returned once, with the number of its pairs. Coordinates keep strategy, file and position.", "quantifier": "all main and second tables, all lookups, seeks, marks and coordinates", "why_tests_cant": "tables of any number of rows, with reads and seeks in any order", "anchors": ["src/trident/iterators/aggritr.cpp:AggrItr::hasNext", "src/trident/iterators/aggritr.cpp:AggrItr::next", "src/trident/iterators/aggritr.cpp:AggrItr::moveto", "src/trident/iterators/aggritr.cpp:AggrItr::mark", "src/trident/iterators/aggritr.cpp:AggrItr::reset", "src/trident/iterators/aggritr.cpp:AggrItr::getCount", "include/trident/iterators/aggritr.h:AggrItr", "src/trident/kb/inserter.cpp:Inserter::getCoordinatesForPOS", "src/trident/kb/querier.cpp:Querier::get"]}
{"id": "C120", "title": "The number of common neighbours of two nodes", "statement": "For two lists of neighbours as they are stored, the number of common neighbours that is used for triangles and clustering coefficients is the number of nodes in both lists, whatever the widths of the nodes in the two lists.", "quantifier": "all pairs of lists of neighbours of any length, all widths and memory contents", "why_tests_cant": "it depends on all bytes of all nodes in both lists and on every combination of widths", "anchors": ["src/snap/nativetasks.cpp:_native_cmp", "src/snap/nativetasks.cpp:_countSame", "src/snap/nativetasks.cpp:NativeTasks::GetCommon", "include/snap/tnode.h:GetOutLenField"]}
{"id": "C121", "title": "Shortest paths", "statement": "The distance between two nodes that is returned is the number of edges of a shortest path between them, whatever the directions of the edges, and -1 exactly if there is no path.", "quantifier": "all finite graphs, all pairs of nodes and lists of pairs", "why_tests_cant": "it is about all paths in graphs of any size", "anchors": ["include/snap/nativetasks.h:NativeTasks::getShortPath", "include/snap/nativetasks.h:NativeTasks::getShortPath2"]}
{"id": "C122", "title": "Subgraphs with averages and variances", "statement": "The subgraphs that are made from a store are, once each, the pairs of an object and a predicate, and of a subject and a predicate, with more triples than the minimum; their size is the number of these triples, and their embedding is the average, and if asked for the variance, of the embeddings of the subjects or objects of these triples.", "quantifier": "all lists of triples, all minimums, all dimensions, all embeddings, any arithmetic of the numbers", "why_tests_cant": "it is about groups of any number and size, the last group and single groups included", "anchors": ["src/trident/ml/subgraphs.cpp:AvgSubgraphs::processItr", "src/trident/ml/subgraphs.cpp:AvgSubgraphs::calculateEmbeddings", "include/trident/ml/subgraphs.h:Subgraphs::addSubgraph", "src/trident/ml/subgraphs.cpp:VarSubgraphs::processItr", "include/trident/ml/embeddings.h:Embeddings::get"]}
{"id": "C123", "title": "Files of subgraphs", "statement": "Loading a file of subgraphs gives back the subgraphs, the dimension, the minimum, the averages and the variances that were stored.", "quantifier": "all numbers of subgraphs, averages and variances, all their values, all objects to load in", "why_tests_cant": "it is about files of any size, and the failure needs more than 2^32 numbers", "anchors": ["include/trident/ml/subgraphs.h:Subgraphs::loadFromFile", "include/trident/ml/subgraphs.h:Subgraphs::storeToFile", "src/trident/ml/subgraphs.cpp:AvgSubgraphs::loadFromFile", "src/trident/ml/subgraphs.cpp:VarSubgraphs::loadFromFile"]}
