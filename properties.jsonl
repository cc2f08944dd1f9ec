{"id": "C01", "title": "A compressed bitmap remembers exactly the bits appended to it", "statement": "Start from an empty EWAH bitmap and apply any sequence of append_bit, append_bits, append_block and flip. Iterating bit_range over the result yields, concatenated, exactly the sequence of bits obtained by performing the same operations on a plain list of booleans, and size() is the length of that list.", "quantifier": "every finite history of append_bit/append_bits(n)/append_block(block,n)/flip calls, every bit and block value, every run length up to 2^64-1 bits in total", "why_tests_cant": "Run-length markers have counters that overflow at 2^32-1 clean and 2^31-1 dirty words, so the interesting boundaries lie at bitmaps of hundreds of gigabits and at every phase of a 64-bit word; tests sample short histories.", "anchors": ["libvast/vast/ewah_bitmap.hpp: ewah_bitmap", "libvast/src/ewah_bitmap.cpp: append_bit, append_bits, append_block, flip, integrate_last_block, bump_dirty_count, ewah_bitmap_range::scan"]}
{"id": "C02", "title": "Bitmap equality is equality of content", "statement": "Two EWAH bitmaps built by different append histories compare equal with operator== if and only if they hold the same sequence of bits.", "quantifier": "every pair of append histories", "why_tests_cant": "operator== compares the compressed words, so equality is right only if the compressed form is canonical for every history that leads to the same bits.", "anchors": ["libvast/src/ewah_bitmap.cpp: operator==, append_bit, append_bits, append_block, flip"]}
{"id": "C03", "title": "Bitmap set algebra is pointwise", "statement": "For any two bitmaps x and y, the bit at position i of x & y, x | y, x ^ y, x - y and of the n-ary versions equals the boolean operation of the bits of x and y at i, where positions past the end of an operand read as false, and the result has the size of the longer operand.", "quantifier": "every pair (and every list) of bitmaps, of any and different sizes and any run structure", "why_tests_cant": "The evaluation walks two run-length encoded sequences in lock step; each combination of run lengths, literal words and unequal lengths takes a different path.", "anchors": ["libvast/vast/bitmap_algorithms.hpp: binary_eval, binary_and, binary_or, binary_xor, binary_nand, nary_eval, nary_and, nary_or"]}
{"id": "C04", "title": "rank and select agree with the bits", "statement": "rank<Bit>(bm, i) counts the positions up to and including i that hold Bit; select<Bit>(bm, k) is the position of the k-th such bit or npos if there are fewer; frame returns the first and last such positions; any and all mean existence and universality.", "quantifier": "every bitmap, position and ordinal, for both bit values", "why_tests_cant": "Results depend on word boundaries, run lengths and unused bits of the last word.", "anchors": ["libvast/vast/bitmap_algorithms.hpp: rank, select, frame, any, all, is_subset", "libvast/vast/bits.hpp", "libvast/vast/word.hpp"]}
{"id": "C05", "title": "The WAH bitmap remembers exactly the bits appended to it", "statement": "The statement of C01 for wah_bitmap.", "quantifier": "every finite history of append_bit/append_bits/append_block/flip calls on a WAH bitmap", "why_tests_cant": "Fill counters and the 63-bit literal size make the interesting boundaries rare in tests.", "anchors": ["libvast/vast/wah_bitmap.hpp", "libvast/src/wah_bitmap.cpp"]}
{"id": "C06", "title": "The null (uncompressed) bitmap remembers exactly the bits appended to it", "statement": "Iterating bit_range over a null_bitmap yields exactly the bits appended to it.", "quantifier": "every finite history of appends", "why_tests_cant": "The defect is visible only where a run of equal words is followed by a partial last word.", "anchors": ["libvast/src/null_bitmap.cpp: null_bitmap_range::scan", "libvast/vast/null_bitmap.hpp"]}
{"id": "C07", "title": "An ID set built from ranges contains exactly those ranges", "statement": "make_ids over any list of half-open ranges and single ids returns a bitmap that contains an id if and only if one of the ranges does.", "quantifier": "every list of ranges, overlapping and unordered", "why_tests_cant": "Overlap and order interact with run-length encoding.", "anchors": ["libvast/src/ids.cpp: make_ids", "libvast/vast/ids.hpp"]}
{"id": "C08", "title": "Selecting objects by ID visits exactly the intersecting ones", "statement": "Given objects that own disjoint ascending ID intervals, select_with over an ID set calls its callback for exactly the objects whose interval contains a selected ID, in order and once each.", "quantifier": "every ID set and every list of intervals", "why_tests_cant": "Skipping uses lower_bound jumps whose result depends on every gap pattern.", "anchors": ["libvast/vast/bitmap_algorithms.hpp: select_with"]}
{"id": "C09", "title": "Values survive the mixed-radix decomposition of an index", "statement": "For every well-defined base, compose(decompose(x, base), base) = x for every x below the product of the base values, and every digit is below its base value.", "quantifier": "every base and every value", "why_tests_cant": "Bases are user-configurable index attributes; a test fixes a handful.", "anchors": ["libvast/vast/base.hpp: decompose, compose", "libvast/src/base.cpp"]}
{"id": "C10", "title": "An encoded column answers every relational query exactly", "statement": "After encoding any column of values with the equality, range, bitslice or a multi-level coder, decode(op, x) for each of ==, !=, <, <=, >, >= returns exactly the rows whose value stands in that relation to x, and rows that were skipped never match.", "quantifier": "every column, every base, every operator, every operand", "why_tests_cant": "The evaluation algorithm (RangeEval-Opt) has a separate path for each digit value, base and operator.", "anchors": ["libvast/vast/coder.hpp: singleton_coder, equality_coder, range_coder, bitslice_coder, multi_level_coder", "libvast/vast/bitmap_index.hpp"]}
{"id": "C11", "title": "A numeric index never loses a matching row", "statement": "For an index over integers, counts, times, durations or reals and any of the six relational operators, every row whose value satisfies the predicate is in the lookup result; for integers and counts the result contains no other row.", "quantifier": "every column, every operator, every operand, every binning", "why_tests_cant": "Binning shifts operands by one bin for strict comparisons; off-by-one errors appear only at bin boundaries.", "anchors": ["libvast/vast/index/arithmetic_index.hpp", "libvast/vast/binner.hpp", "libvast/vast/bitmap_index.hpp: lookup"]}
{"id": "C12", "title": "The index key order is the value order", "statement": "The order-preserving transformation of signed integers (and of the sign/exponent/mantissa of doubles) to unsigned keys is strictly monotone, hence comparisons of keys equal comparisons of values.", "quantifier": "every pair of 64-bit integers", "why_tests_cant": "2^128 pairs.", "anchors": ["libvast/vast/detail/order.hpp: order"]}
{"id": "C13", "title": "The string index answers ==, != and substring queries exactly", "statement": "For every column of strings not longer than the configured maximum, string_index::lookup for ==, !=, ni and not_ni returns exactly the rows for which the comparison holds.", "quantifier": "every column of strings and every query string", "why_tests_cant": "Strings of different length share character columns; filler in skipped rows shows only in combination.", "anchors": ["libvast/src/index/string_index.cpp: append_impl, lookup_impl"]}
{"id": "C14", "title": "Address and subnet indexes answer containment exactly", "statement": "For every column of addresses, lookup of ==, != against an address and in/not_in against a subnet returns exactly the rows for which it holds; for columns of subnets likewise ==, !=, in, ni.", "quantifier": "every column, every address and every prefix length", "why_tests_cant": "128 prefix lengths times every address; /0 and mixed v4/v6 are corner cases.", "anchors": ["libvast/src/index/address_index.cpp", "libvast/src/index/subnet_index.cpp"]}
{"id": "C15", "title": "The list index answers membership exactly", "statement": "For every column of lists (up to the configured maximum size), lookup ni x returns exactly the rows whose list contains x and not_ni x the rows whose list does not.", "quantifier": "every column of lists and every element", "why_tests_cant": "Rows of different list sizes leave shorter element columns; the complement depends on trailing rows.", "anchors": ["libvast/src/index/list_index.cpp"]}
{"id": "C16", "title": "A hash index never loses a row and never confuses two rows it has seen", "statement": "For every column, lookup == x over a hash index returns a superset of the rows equal to x, and exactly those rows if x occurs in the column; != returns the complement of that.", "quantifier": "every column, every operand, every hash function", "why_tests_cant": "Digest collisions are resolved by seeds; a test cannot enumerate collisions of a real hash.", "anchors": ["libvast/vast/index/hash_index.hpp"]}
{"id": "C17", "title": "Null and missing rows are answered as the data model says", "statement": "A value index with any mixture of appended values, nulls and gaps answers == null with exactly the null rows; a comparison with a value never returns a row that was never appended, and returns a null row exactly if the operator is !=.", "quantifier": "every append history with gaps and every predicate", "why_tests_cant": "The result depends on the relative position of the last null, the last value and the gaps.", "anchors": ["libvast/src/value_index.cpp: append, lookup"]}
{"id": "C18", "title": "A min-max synopsis never rules out a partition that has a match", "statement": "If a value was added to a min_max_synopsis and satisfies op x, then lookup(op, x) is not false.", "quantifier": "every multiset of added values, every operator and operand", "why_tests_cant": "Every operator has its own condition on the interval; a test samples intervals.", "anchors": ["libvast/vast/min_max_synopsis.hpp: lookup", "libvast/vast/time_synopsis.hpp"]}
{"id": "C19", "title": "A bool synopsis never rules out a partition that has a match", "statement": "If a boolean was added and satisfies op x then lookup is not false.", "quantifier": "every multiset of added booleans, operator, operand", "why_tests_cant": "All histories of adds.", "anchors": ["libvast/src/bool_synopsis.cpp"]}
{"id": "C20", "title": "A Bloom filter has no false negatives", "statement": "After any sequence of add operations, lookup of each added value returns true, for any hash functions, including after the filter was built from a buffered synopsis.", "quantifier": "every set of added values, every hash function family, every filter size", "why_tests_cant": "Cannot enumerate hash functions.", "anchors": ["libvast/vast/bloom_filter.hpp", "libvast/vast/bloom_filter_synopsis.hpp", "libvast/vast/buffered_synopsis.hpp"]}
{"id": "C21", "title": "Catalog lookup never misses a partition that holds a match", "statement": "For every query expression, meta_index::lookup returns every partition that contains an event satisfying the expression; the result is sorted and without duplicates.", "quantifier": "every set of partitions and synopses that are themselves free of false negatives, every expression", "why_tests_cant": "Boolean structure of queries is unbounded; short-circuits and rewriting interact.", "anchors": ["libvast/src/system/meta_index.cpp: lookup, lookup_impl, prune_all"]}
{"id": "C22", "title": "Normalizing a query does not change its meaning", "statement": "normalize(expr) evaluates to the same truth value as expr for every event.", "quantifier": "every expression and every event", "why_tests_cant": "Expressions are unbounded trees.", "anchors": ["libvast/src/expression.cpp: normalize", "libvast/src/expression_visitors.cpp: hoister, aligner, denegator, deduplicator"]}
{"id": "C23", "title": "Normalization produces the documented normal form", "statement": "In normalize(expr) there is no negation, no single-element conjunction or disjunction, and in every predicate with an extractor the left side is an extractor; normalizing again changes nothing.", "quantifier": "every expression", "why_tests_cant": "Expressions are unbounded trees; one-level rewriting misses deeper nesting.", "anchors": ["libvast/src/expression.cpp: normalize", "libvast/src/expression_visitors.cpp"]}
{"id": "C24", "title": "Operator negation and flipping are sound involutions", "statement": "evaluate(x, negate(op), y) = !evaluate(x, op, y) and evaluate(x, op, y) = evaluate(y, flip(op), x) for all data x and y, and both maps are involutions.", "quantifier": "all pairs of data values and all operators", "why_tests_cant": "Data values are unbounded.", "anchors": ["libvast/src/operator.cpp: negate, flip", "libvast/src/data.cpp: evaluate"]}
{"id": "C25", "title": "The candidate check keeps exactly the matching rows", "statement": "Filtering a table slice with an expression tailored to its layout, as the store does after pruning metadata predicates, keeps exactly the rows that satisfy the query.", "quantifier": "every layout, slice and expression", "why_tests_cant": "Depends on the boolean position of metadata predicates.", "anchors": ["libvast/src/expression.cpp: tailor, prune_meta_predicates", "libvast/src/expression_visitors.cpp: meta_pruner, type_resolver", "libvast/src/system/archive.cpp"]}
{"id": "C26", "title": "Concept resolution terminates and finds every field", "statement": "resolve_concepts and taxonomy resolution terminate for every (also cyclic) concept graph, and the resolved fields are exactly those reachable from the concept.", "quantifier": "every concept map, including cyclic ones", "why_tests_cant": "Graph shapes are unbounded.", "anchors": ["libvast/src/taxonomies.cpp: resolve_concepts, resolve_impl"]}
{"id": "C27", "title": "Selecting rows of a slice returns exactly the selected rows with their IDs", "statement": "select(slice, ids) returns slices whose rows, with their event IDs, are exactly the rows of the input whose ID is in the set, in order; no ID is duplicated, lost or reassigned.", "quantifier": "every slice with at least one row whose IDs fit into 64 bits, and every ID set", "why_tests_cant": "Each pattern of gaps yields a different number of result slices.", "anchors": ["libvast/src/table_slice.cpp: select, truncate, split"]}
{"id": "C28", "title": "Truncating and splitting a slice lose nothing", "statement": "truncate(slice, n) keeps the first n rows; split(slice, n) returns two slices whose concatenation is the input, the first with n rows; IDs are preserved.", "quantifier": "every slice, with or without IDs, and every n", "why_tests_cant": "All boundaries.", "anchors": ["libvast/src/table_slice.cpp: truncate, split"]}
{"id": "C29", "title": "The interval map behaves as a finite map", "statement": "After any sequence of insert, inject, erase(point), erase(range) and erase_value, range_map::lookup(k) returns what a map from single keys would return, and its intervals are disjoint, non-empty and ordered.", "quantifier": "every history of operations", "why_tests_cant": "Overlaps have many relative positions.", "anchors": ["libvast/vast/detail/range_map.hpp"]}
{"id": "C30", "title": "The archive returns each stored event for its ID until it is erased", "statement": "After any sequence of put, flush and erase on a segment store, get(ids) returns whole slices that contain every stored and not erased row whose ID is in ids exactly once, and no row that is not stored; a session opened by extract delivers the same slices one by one while other calls go on.", "quantifier": "every history of put/flush/erase/get and every segment size and cache capacity", "why_tests_cant": "History dependent: active builder, cache and disk interact.", "anchors": ["libvast/src/segment_store.cpp: put, get, erase, flush", "libvast/src/segment.cpp: lookup, erase", "libvast/src/segment_builder.cpp"]}
{"id": "C31", "title": "The archive can be reopened after a crash at any point", "statement": "At any crash point during put, flush or erase, reopening the store directory succeeds and every event that was flushed and not erased is still returned exactly once.", "quantifier": "every history and every crash point", "why_tests_cant": "Crash points between individual file operations.", "anchors": ["libvast/src/segment_store.cpp: erase, flush, register_segments, make"]}
{"id": "C32", "title": "Caches are bounded and never return stale or wrong values", "statement": "lru_cache, flat_lru_cache and detail::cache hold at most their capacity, never hold a key twice, return the value last stored for a key, and evict the least recently used entry.", "quantifier": "every history of operations and every capacity", "why_tests_cant": "Histories are unbounded.", "anchors": ["libvast/vast/detail/lru_cache.hpp", "libvast/vast/detail/flat_lru_cache.hpp", "libvast/vast/detail/cache.hpp"]}
{"id": "C33", "title": "Saving a file is atomic", "statement": "If io::save is interrupted at any point, the target file has either its old content or the complete new content.", "quantifier": "every content and every crash point", "why_tests_cant": "Crash points.", "anchors": ["libvast/src/io/save.cpp: save", "libvast/src/io/write.cpp"]}
{"id": "C34", "title": "Event IDs are never assigned twice, also across crashes", "statement": "In any history of imports, clean shutdowns, crashes and restarts of the importer, the ID ranges assigned to table slices are pairwise disjoint and increasing.", "quantifier": "every history of imports, crashes and restarts", "why_tests_cant": "Crash points and history lengths are unbounded.", "anchors": ["libvast/src/system/importer.cpp: read_state, write_state, get_next_block, next_id"]}
{"id": "C35", "title": "A query visits every candidate partition exactly once", "statement": "Under any schedule of client requests for more results, the index evaluates each candidate partition of a query exactly once and then forgets the query; requesting n never schedules more than n partitions.", "quantifier": "every candidate set, every schedule of requests, every set of in-memory partitions", "why_tests_cant": "Schedules are unbounded.", "anchors": ["libvast/src/system/index.cpp: collect_query_actors, query_state, pending"]}
{"id": "C36", "title": "Ingest routing loses no slice and respects partition capacity", "statement": "For any stream of slices, the index stores every slice in exactly one partition, a partition never exceeds its capacity unless it consists of a single oversized slice, and every full partition is decommissioned.", "quantifier": "every stream of slices and every capacity", "why_tests_cant": "Streams are unbounded.", "anchors": ["libvast/src/system/index.cpp: stream stage, create_active_partition, decommission_active_partition"]}
{"id": "C37", "title": "Partition evaluation is independent of reply order", "statement": "For every expression and every order in which the per-predicate results arrive, the evaluator ends with the same hits, which are the evaluation of the expression over the complete predicate results.", "quantifier": "every expression and every permutation of replies", "why_tests_cant": "Number of orders is factorial.", "anchors": ["libvast/src/system/evaluator.cpp"]}
{"id": "C38", "title": "The exporter ships no more events than requested and none twice", "statement": "Under any schedule of result batches and extract requests, the number of shipped events never exceeds the number requested, events are shipped in arrival order, and none is lost or duplicated.", "quantifier": "every schedule and all slice sizes", "why_tests_cant": "Schedules are unbounded.", "anchors": ["libvast/src/system/exporter.cpp: ship_results, request_more_hits"]}
{"id": "C39", "title": "A query finishes after all partitions have answered", "statement": "Under any schedule, the exporter and query processor shut down only after every candidate partition has been evaluated.", "quantifier": "every schedule of extract and done messages", "why_tests_cant": "Race between extract requests and outstanding partitions.", "anchors": ["libvast/src/system/exporter.cpp: request_more_hits, done handler", "libvast/src/system/query_processor.cpp"]}
{"id": "C40", "title": "A query supervisor reports completion exactly once per batch and only at the end", "statement": "Under every order of evaluator completions the supervisor sends done to the client exactly once per batch and after the last evaluator completed, and offers itself as idle exactly then.", "quantifier": "every batch and every order of completions", "why_tests_cant": "Orders are factorial.", "anchors": ["libvast/src/system/query_supervisor.cpp"]}
{"id": "C41", "title": "Archive query requests are answered in order and each exactly once", "statement": "Every request is answered once with done or error under any interleaving of requests, segment completions and client failures.", "quantifier": "every interleaving", "why_tests_cant": "Interleavings.", "anchors": ["libvast/src/system/archive.cpp"]}
{"id": "C42", "title": "Disk quota enforcement deletes only the oldest partitions and stops at the low-water mark", "statement": "A purge starts only above the high-water mark, deletes oldest first, and stops deleting once the size is at or below the low-water mark.", "quantifier": "every set of partitions, sizes and ages; every step size", "why_tests_cant": "Unbounded state.", "anchors": ["libvast/src/system/disk_monitor.cpp"]}
{"id": "C43", "title": "A partition-local store answers from what was written", "statement": "An active or passive local store returns for a query every event that was written to it and not erased, at any time.", "quantifier": "every history of writes, internal persists, queries and erases", "why_tests_cant": "History dependent.", "anchors": ["libvast/src/system/local_segment_store.cpp"]}
{"id": "C44", "title": "Variable-byte integers round-trip", "statement": "varbyte::decode(encode(x)) = x with as many bytes consumed as produced, for every unsigned integer of 8..64 bits; the encoding has at most max_size bytes and ignores trailing data.", "quantifier": "every unsigned integer and every suffix", "why_tests_cant": "2^64 values.", "anchors": ["libvast/vast/detail/varbyte.hpp"]}
{"id": "C45", "title": "Base64 round-trips", "statement": "base64::decode(base64::encode(bytes)) = bytes for every byte string.", "quantifier": "every byte string", "why_tests_cant": "Unbounded.", "anchors": ["libvast/src/detail/base64.cpp"]}
{"id": "C46", "title": "Escaping round-trips", "statement": "json_unescape(json_escape(s)), percent_unescape(percent_escape(s)), byte_unescape(byte_escape_all(s)), byte_unescape(byte_escape(s)) and double_unescape(double_escape(s, e), e) give back s; unescaping never reads outside its input.", "quantifier": "every byte string", "why_tests_cant": "Unbounded.", "anchors": ["libvast/vast/detail/escapers.hpp", "libvast/src/detail/string.cpp"]}
{"id": "C47", "title": "MessagePack values round-trip and can be skipped", "statement": "Decoding an encoded value gives the value back, and overlay::next advances exactly over one encoded object, for integers of every width, strings, binary, timestamps and nested arrays.", "quantifier": "every value of the supported types, arbitrarily nested", "why_tests_cant": "Unbounded nesting and 2^64 values.", "anchors": ["libvast/vast/msgpack_builder.hpp: put", "libvast/vast/msgpack.hpp: visit", "libvast/src/msgpack.cpp: overlay::next"]}
{"id": "C48", "title": "Subnet containment is prefix containment", "statement": "subnet::contains(address) holds iff the first length bits agree; contains(subnet) iff every address of the inner one is contained; constructing a subnet normalizes the network address and is idempotent.", "quantifier": "every address, prefix length and pair of subnets, v4 and v6", "why_tests_cant": "2^128 addresses.", "anchors": ["libvast/src/address.cpp: mask, compare", "libvast/src/subnet.cpp"]}
{"id": "C49", "title": "Flattening a record type preserves its columns", "statement": "The leaves of a record type, in order, are the fields of its flattened type; flat_index_at and offset_from_index are mutually inverse between leaf offsets and column numbers; flatten is idempotent.", "quantifier": "every nested record type", "why_tests_cant": "Unbounded nesting.", "anchors": ["libvast/src/type.cpp: flatten, flat_index_at, offset_from_index, each, num_leaves"]}
{"id": "C50", "title": "Sorted-set operations on partition IDs are set operations", "statement": "intersect, unify and their in-place variants applied to sorted duplicate-free sequences return the sorted duplicate-free intersection and union.", "quantifier": "every pair of sorted sequences", "why_tests_cant": "Unbounded.", "anchors": ["libvast/vast/detail/set_operations.hpp"]}
{"id": "C51", "title": "Merging and flattening records preserve data", "statement": "flatten(record) keeps every leaf with its dotted path; merge(src, dst) takes values from src where both define a leaf and otherwise keeps dst.", "quantifier": "every pair of nested records", "why_tests_cant": "Unbounded nesting.", "anchors": ["libvast/src/data.cpp: flatten, merge"]}
{"id": "C52", "title": "Transforms apply steps in order and never change the number of rows or IDs", "statement": "transformation_engine::apply either returns an error or a slice with as many rows and the same offset, being the composition of all matching transforms in configuration order; slices of other types are unchanged.", "quantifier": "every list of transforms and every slice", "why_tests_cant": "Unbounded configurations.", "anchors": ["libvast/src/transform.cpp"]}
{"id": "C53", "title": "Schema combination keeps one type per name", "statement": "schema::merge fails iff two types of the same name differ, otherwise contains the types of both; combine prefers the right side; names stay unique.", "quantifier": "every pair of schemas", "why_tests_cant": "Unbounded.", "anchors": ["libvast/src/schema.cpp"]}
{"id": "C54", "title": "Predicates mean the same on owned data and on views", "statement": "Evaluating a predicate x op y on data values (as synopses and value indexes do) and on data views (as the candidate check does) gives the same answer.", "quantifier": "all pairs of data values and all operators", "why_tests_cant": "Data values are unbounded and nested.", "anchors": ["libvast/src/data.cpp: evaluate", "libvast/src/view.cpp: evaluate_view, operator<", "libvast/vast/view.hpp"]}
{"id": "C55", "title": "Comparing WAH or null bitmaps compares their bits", "statement": "operator== of two wah_bitmaps, or of two null_bitmaps, built by any two histories of appends and flips is true exactly if the two bitmaps hold the same bits.", "quantifier": "every pair of finite histories of append_bit/append_bits/append_block/flip calls", "why_tests_cant": "Equality depends on the internal block layout reached by each of the unboundedly many histories, including sizes at word boundaries.", "anchors": ["libvast/src/wah_bitmap.cpp: operator==", "libvast/vast/bitvector.hpp: operator==", "libvast/src/null_bitmap.cpp"]}
{"id": "C56", "title": "The enumeration index answers ==, != and list membership exactly", "statement": "For every column of enumeration values, lookup of == and != against an enumeration value, and of in and not_in against a list of them, returns exactly the rows for which the comparison holds.", "quantifier": "every append history with nulls and gaps, every operand", "why_tests_cant": "The equality-coded bitmaps of different values have different lengths; the complement depends on the last row of each.", "anchors": ["libvast/src/index/enumeration_index.cpp", "libvast/vast/coder.hpp: equality_coder"]}
{"id": "C57", "title": "Filtering and counting the rows of a slice are exact", "statement": "filter(slice, expr, hints) returns a slice of exactly the rows that satisfy the expression and whose ID is in the hints (all rows, if the hints are empty), in order, and nothing if there are none; count_matching returns the number of those rows; evaluate returns the IDs of exactly the rows that satisfy the expression.", "quantifier": "every slice with at least one row, every expression, every ID set", "why_tests_cant": "All combinations of windows, hints and expressions.", "anchors": ["libvast/src/table_slice.cpp: evaluate, filter, count_matching"]}
{"id": "C58", "title": "Base64 decoding never writes outside its buffer", "statement": "base64::decode(str) decodes into a buffer of decoded_size(str.size()) bytes and never writes outside of it, whatever the characters, the padding and the length of str.", "quantifier": "every input string", "why_tests_cant": "The input is an arbitrary string from outside, of any length and with any padding.", "anchors": ["libvast/src/detail/base64.cpp: decode", "libvast/vast/detail/base64.hpp: decoded_size"]}
{"id": "C59", "title": "Escaped strings can be embedded safely", "statement": "json_escape returns a valid JSON string (in particular no unescaped quote or control character between the quotes), percent_escape only unreserved characters and percent signs, byte_escape and byte_escape_all only printable ASCII characters.", "quantifier": "every byte string", "why_tests_cant": "Any of the unboundedly many strings could break out of the surrounding text.", "anchors": ["libvast/vast/detail/escapers.hpp", "libvast/src/detail/string.cpp: json_escape, percent_escape, byte_escape"]}
{"id": "C60", "title": "Splitting a string loses no characters", "statement": "The parts that split returns with include_sep make up the string; joining the parts it returns without gives the string, up to a separator at the end; it splits at most max_splits times; no part holds the separator (without escape string and limit); a separator behind the escape string is not a separator.", "quantifier": "every string, non-empty separator, escape string and limit", "why_tests_cant": "Separators can overlap themselves, the escape string and earlier separators in unboundedly many ways.", "anchors": ["libvast/src/detail/string.cpp: split", "libvast/vast/detail/string.hpp: join"]}
{"id": "C61", "title": "replace_all replaces every occurrence", "statement": "replace_all(str, search, replace) returns, and its result is str with every occurrence of search, found from left to right, replaced.", "quantifier": "all strings", "why_tests_cant": "Replacements can contain the search string, and occurrences can overlap.", "anchors": ["libvast/src/detail/string.cpp: replace_all"]}
{"id": "C62", "title": "Looking up fields by offset and key", "statement": "at(offset) and resolve(offset) give the field at an offset and its dotted path; resolve(key) gives the offset of the field with that dotted path, and only of such a field; find_suffix gives exactly the fields whose path ends in the suffix; at(key) and flat_field_at agree with them.", "quantifier": "all record types, offsets and keys", "why_tests_cant": "Record types nest to any depth, and names can be prefixes of one another.", "anchors": ["libvast/src/type.cpp: record_type::at", "libvast/src/type.cpp: record_type::resolve", "libvast/src/type.cpp: record_type::find_suffix", "libvast/src/type.cpp: record_type::flat_field_at"]}
{"id": "C63", "title": "Removing a field removes exactly its leaves", "statement": "remove_field gives a record type whose leaves are those of the original, without the leaves at or below the removed field, in the same order.", "quantifier": "all record types, offsets and paths", "why_tests_cant": "Record types nest to any depth.", "anchors": ["libvast/src/type.cpp: remove_field"]}
{"id": "C64", "title": "Merging record types", "statement": "merge gives a record type with the leaves of both, or fails exactly if the two disagree on a field. priority_merge always succeeds and gives the leaves of the preferred side and those of the other where the preferred side has nothing. assign replaces the type of a field.", "quantifier": "all record types with unique sibling names", "why_tests_cant": "Record types nest to any depth and overlap in any way.", "anchors": ["libvast/src/type.cpp: merge", "libvast/src/type.cpp: priority_merge", "libvast/src/type.cpp: record_type::assign", "libvast/vast/type.hpp: update_attributes"]}
{"id": "C65", "title": "The delete, replace and hash transform steps change exactly the configured column", "statement": "delete removes exactly the configured field's column and keeps every other column with its cells in order; replace sets every cell of the column to the value and gives the column the type of the value; hash appends one column with the hash of every cell; a slice without the field keeps its layout and rows.", "quantifier": "every slice, nested layout and field of it", "why_tests_cant": "Unbounded layouts and numbers of rows; the layout and the cells are changed by separate code that must agree for every nesting.", "anchors": ["libvast/src/transform_steps/delete.cpp", "libvast/src/transform_steps/replace.cpp", "libvast/src/transform_steps/hash.cpp"]}
{"id": "C66", "title": "Resolving concepts and models keeps the meaning of a query", "statement": "A predicate on a concept resolves to an expression that holds iff it holds for one of the concept's fields (for a negated operator: for all of them); a predicate comparing a model to a record resolves to one that holds iff it holds for every given component and the others exist; an expression resolves predicate by predicate; pruning removes exactly fields that occur in no known layout; errors are reported as errors.", "quantifier": "every taxonomy, expression, record, set of layouts and valuation of predicates", "why_tests_cant": "Concept graphs, model trees and expressions are unbounded.", "anchors": ["libvast/src/taxonomies.cpp: resolve, resolve_impl, contains", "libvast/vast/expression.hpp: for_each_predicate"]}
{"id": "C67", "title": "The index survives crashes and restarts", "statement": "After every start the index knows the partitions that were complete when it stopped and were not erased: every event ingested before is in a partition it knows or in an erased one; every partition it knows has its file; a partition whose erasure was acknowledged stays unknown and its file stays gone; and the number of events it reports per layout is that of the events in the partitions it knows.", "quantifier": "every history of ingestion, rotation, erasure, writes of the file system actor in every order and with every outcome, shutdowns, crashes at every point, and starts", "why_tests_cant": "Crash points and the order of writes by the file system actor are not under a test's control, and histories are unbounded.", "anchors": ["libvast/src/system/index.cpp: index_state::load_from_disk, create_active_partition, decomission_active_partition, flush_to_disk, pack, index (stream stage, erase handler, exit handler)", "libvast/src/system/partition.cpp: active_partition (persist), passive_partition (erase)", "libvast/src/system/posix_filesystem.cpp"]}
{"id": "C68", "title": "A MessagePack table slice returns the values added to its builder", "statement": "Whoever adds values to a table slice builder for the MessagePack encoding row by row, and whose values are all accepted, gets a slice with that many rows in which every access to a row and column returns the value added there; a value that is rejected leaves the builder unchanged.", "quantifier": "every layout, every number of rows and every accepted value of every type, including nested lists and maps and nulls, with and without assertions", "why_tests_cant": "The value at a position is found by skipping all encoded values before it, so it depends on the size and encoding of every value in the row.", "anchors": ["libvast/src/msgpack_table_slice_builder.cpp: add_impl, finish, encode", "libvast/src/msgpack_table_slice.cpp: at, decode", "libvast/src/view.cpp: type_check"]}
{"id": "C69", "title": "Printed data parses back", "statement": "The text that printing a value produces is defined, and parsing that text as a value succeeds, consumes all of it, and returns the same value; in particular two different values never have the same text.", "quantifier": "every data value of every type and nesting depth", "why_tests_cant": "The parser is a list of alternatives that are tried in order, so whether a text is read as intended depends on every earlier alternative failing on every text of that kind, and values nest without bound.", "anchors": ["libvast/vast/concept/printable/vast/data.hpp: data_printer", "libvast/vast/concept/parseable/vast/data.hpp: data_parser", "libvast/vast/concept/parseable/vast/address.hpp", "libvast/vast/concept/parseable/vast/time.hpp", "libvast/vast/concept/parseable/string/quoted_string.hpp", "libvast/vast/detail/escapers.hpp: print_escaper"]}
{"id": "C70", "title": "Numeric literals mean what they say", "statement": "A literal number with its sign and suffix, a duration, and a subnet with its prefix length that the parser accepts is read as exactly the quantity its digits, suffixes and units denote; a literal whose quantity cannot be represented is rejected.", "quantifier": "every digit sequence of every length, sign, suffix, white space, address and prefix length", "why_tests_cant": "Digit sequences are unbounded and the failures lie at the limits of the machine types.", "anchors": ["libvast/vast/concept/parseable/numeric/integral.hpp: integral_parser", "libvast/vast/concept/parseable/numeric/real.hpp: real_parser", "libvast/vast/concept/parseable/vast/si.hpp: si_parser", "libvast/vast/concept/parseable/vast/subnet.hpp", "libvast/vast/concept/parseable/vast/time.hpp: compound_duration_parser"]}
{"id": "C71", "title": "Readers see the lines of their input", "statement": "Wherever the input stalls, a reader of line-based input obtains exactly the non-empty lines of the text, in order, each once and whole, and then learns that the input is exhausted.", "quantifier": "every byte sequence, every line ending and every pattern of read time-outs, any number of requests", "why_tests_cant": "A time-out may strike between any two bytes of an input of any length, and what goes wrong there only shows with a particular line ending.", "anchors": ["libvast/src/detail/line_range.cpp: line_range::next_timeout", "libvast/vast/detail/absorb_line.hpp: absorb_line", "libvast/src/detail/fdinbuf.cpp: fdinbuf::underflow"]}
{"id": "C72", "title": "Line-based readers deliver every event once", "statement": "When a reader reports the end of its input, the slices it delivered contain, per layout, exactly the events of the input in order; at any time they contain an initial part of them; no slice is empty or larger than requested; a call whose batch timeout has expired holds nothing back; a call delivers no more events than it was asked for.", "quantifier": "every input, pattern of stalls, sequence of calls with their limits, and behaviour of the clock", "why_tests_cant": "Events are buffered per layout across calls and flushed at stalls, time-outs and limits in any order.", "anchors": ["libvast/src/format/json.cpp, libvast/vast/format/json.hpp: reader::read_impl", "libvast/src/format/syslog.cpp: reader::read_impl", "libvast/src/format/multi_layout_reader.cpp", "libvast/vast/format/reader.hpp: reader::read"]}
{"id": "C73", "title": "An import sends the requested events", "statement": "A source sends downstream, per layout, the events of its input that the import filter keeps, in order, and nothing else; with a limit it reads exactly that many events, or all there are; it sends the end-of-stream marker once, as its last message; when it terminates, everything it read has been sent.", "quantifier": "every input and pattern of stalls, every schedule of requests from the stream, wake-ups and exit messages, every limit and filter", "why_tests_cant": "The requests of the stream, the stalls of the input and the termination interleave arbitrarily.", "anchors": ["libvast/src/system/source.cpp: source, source_state::filter_and_push", "libvast/vast/format/reader.hpp: reader::read"]}
{"id": "C74", "title": "Every event of a datagram is imported", "statement": "If the stream has capacity when a datagram arrives, all events in that datagram are sent on, in order, and none is mixed with those of other datagrams.", "quantifier": "every sequence of datagrams with any payload, capacity and arrival time", "why_tests_cant": "Loss depends on the time since the last batch and on what the reader kept from earlier datagrams.", "anchors": ["libvast/src/system/datagram_source.cpp", "libvast/src/format/multi_layout_reader.cpp"]}
{"id": "C75", "title": "A CSV line is one event or none", "statement": "Each line of a CSV input that the parser accepts becomes one event with the cells of that line, each other line none; slices keep the requested size; and no input makes the reader fail an assertion.", "quantifier": "every input, column list and separator, pattern of stalls, sequence of calls and clock", "why_tests_cant": "The cells of a refused line may affect any later line, and lines may be wrong in every column.", "anchors": ["libvast/src/format/csv.cpp: reader::read_impl, make_csv_parser, csv_parser_factory", "libvast/src/format/single_layout_reader.cpp: single_layout_reader::finish", "libvast/src/arrow_table_slice_builder.cpp: add_impl, finish"]}
{"id": "C76", "title": "SHA-1 digests are SHA-1 digests", "statement": "Feeding any chunks of bytes to the SHA-1 hasher and finishing yields the SHA-1 digest (FIPS 180-4) of their concatenation, however the bytes are cut into chunks.", "quantifier": "every list of chunks of any lengths, every content of the uninitialised block buffer", "why_tests_cant": "Padding and block boundaries interact with chunk boundaries at every length.", "anchors": ["libvast/src/concept/hashable/sha1.cpp: sha1::operator(), result", "libvast/vast/concept/hashable/sha1.hpp: sha1"]}
{"id": "C77", "title": "Community IDs follow the specification", "statement": "The Community ID computed for a flow is the one the specification prescribes; the two directions of a connection, including ICMP requests and replies, get the same ID, and different connections get different ones unless SHA-1 collides.", "quantifier": "every flow: all addresses, ports, protocols and seeds", "why_tests_cant": "Ordering endpoints, the one-way ICMP types and mixed address families make too many cases, and equality of IDs quantifies over pairs of flows.", "anchors": ["libvast/vast/community_id.hpp: compute, v1", "libvast/src/icmp.cpp: dual", "libvast/vast/flow.hpp: flow"]}
{"id": "C78", "title": "Packets of a trace become the right events", "statement": "Every IP packet of a packet trace becomes an event with the addresses and ports of its headers and the bytes of the packet; frames of any other form are skipped; no frame makes the reader touch memory outside it, fail, or lose events of other frames.", "quantifier": "every frame: any bytes, any link header, any capture length", "why_tests_cant": "The bytes of a frame come from the network: each length and type field may take any value.", "anchors": ["plugins/pcap/main.cpp: decapsulate, reader::read_impl", "libvast/src/ether_type.cpp: as_ether_type"]}
{"id": "C79", "title": "Flow cutoff and flow table limits", "statement": "Of each flow, exactly the packets preceded by fewer payload bytes of that flow than the cutoff are delivered; the table never tracks more flows than configured; and reading completes.", "quantifier": "every trace, all cutoffs, table limits and ages, all timestamps, all random choices of evicted flows", "why_tests_cant": "The outcome depends on the interleaving of flows, the clock of the capture and random eviction.", "anchors": ["plugins/pcap/main.cpp: update_flow, evict_inactive, shrink_to_max_size, state"]}
{"id": "C80", "title": "Queries mean what their text says", "statement": "A query text built from predicates with !, &&, ||, parentheses and whitespace has the truth value of the usual precedence rules, and printing an expression and reading the text yields the expression again.", "quantifier": "every query text over any operands, every nesting depth, every placement of whitespace; every expression", "why_tests_cant": "Precedence, nesting and whitespace combine without bound.", "anchors": ["libvast/src/concept/parseable/vast/expression.cpp: make_expression_parser, to_expr", "libvast/vast/concept/printable/vast/expression.hpp: expression_printer"]}
{"id": "C81", "title": "Search identifiers of Sigma rules", "statement": "A search identifier of a Sigma rule matches exactly the events that Sigma says: all entries of a map, any element of a list, values with their wildcards and modifiers, regardless of case.", "quantifier": "every YAML tree, every key and value, every event", "why_tests_cant": "YAML trees nest without bound and each key combines modifiers with values.", "anchors": ["libvast/src/detail/sigma.cpp: parse_search_id, make_pattern, make_predicate"]}
{"id": "C82", "title": "Conditions of Sigma rules", "statement": "The condition of a Sigma rule has the meaning the Sigma specification gives it, for every table of search identifiers; a reference to an identifier that does not exist is an error.", "quantifier": "every condition text, every table of identifiers", "why_tests_cant": "The set of identifiers changes how the text of the condition is tokenised.", "anchors": ["libvast/src/detail/sigma.cpp: search_id_symbol_table, detection_parser, parse_rule", "libvast/vast/concept/parseable/string/symbol_table.hpp: symbol_table"]}
{"id": "C83", "title": "The calendar", "statement": "Points in time are printed with the date that the Gregorian calendar gives to their day, the time of day and as many fractional digits as needed, and a date from 1900 on is read as the beginning of the day that the calendar gives to it.", "quantifier": "every 64-bit number of nanoseconds since 1970, every date of the calendar", "why_tests_cant": "There are 213,000 days and 2^64 points in time; leap years follow a 400-year cycle.", "anchors": ["libvast/vast/concept/printable/std/chrono.hpp: from_days, time_point_printer", "libvast/vast/concept/parseable/vast/time.hpp: to_days, ymdhms_parser"]}
{"id": "C84", "title": "Text of points in time", "statement": "Printing a point in time and reading the text yields the same point in time; a text with date, time of day and zone denotes the point in time it names; seconds since the epoch are read exactly; a day that its month does not have is refused.", "quantifier": "every 64-bit number of nanoseconds, every date, time of day and zone", "why_tests_cant": "The value goes through floating-point arithmetic: about one point in time out of forty is affected by rounding.", "anchors": ["libvast/vast/concept/printable/std/chrono.hpp: time_point_printer", "libvast/vast/concept/parseable/vast/time.hpp: ymdhms_parser, unix_ts", "libvast/vast/concept/parseable/numeric/real.hpp: real_parser"]}
{"id": "C85", "title": "Text of real numbers", "statement": "A real number is printed as a decimal numeral without superfluous zeros that denotes it up to half a unit in the last of the printed decimals, and the text reads back as the number.", "quantifier": "every finite double and every number of decimals up to ten", "why_tests_cant": "The rounding, the carry and the elision of zeros interact; only some fractions reach the carry.", "anchors": ["libvast/vast/concept/printable/numeric/real.hpp: real_printer", "libvast/vast/concept/parseable/numeric/real.hpp: real_parser", "libvast/vast/concept/parseable/vast/data.hpp: data_parser"]}
{"id": "C86", "title": "Text of durations", "statement": "A duration is printed as a decimal numeral and the longest unit that is not longer than it; the text denotes it up to half a hundredth of the unit; a whole number of units is printed exactly and reads back as the same duration.", "quantifier": "every 64-bit number of nanoseconds", "why_tests_cant": "There are 2^64 durations and seven units; the count goes through floating-point division and rounding.", "anchors": ["libvast/vast/concept/printable/std/chrono.hpp: duration_printer", "libvast/vast/concept/printable/numeric/real.hpp: real_printer", "libvast/vast/concept/parseable/vast/time.hpp: duration_parser"]}
{"id": "C87", "title": "JSON export", "statement": "Every exported event is one line; the line is a JSON document of one object with a member for each field in order, an object for each record, or, with the option to flatten, one member for each column under its dotted name; every value is shown as the JSON value that stands for it.", "quantifier": "every layout, every row of values and both options", "why_tests_cant": "The output has to be parsed by every JSON reader for every string, number and nesting; escapes, decimals and keys meet in combinations that examples do not reach.", "anchors": ["libvast/vast/concept/printable/vast/json.hpp: json_printer", "libvast/vast/format/ostream_writer.hpp: ostream_writer", "libvast/src/format/json.cpp: writer::write", "libvast/src/view.cpp: to_canonical"]}
{"id": "C88", "title": "JSON import", "statement": "A line with a JSON object becomes one row: each column has the value that stands in its place in the object, found along the path of its name or under its dotted name; it is empty if there is none; a value of another kind makes it empty, and the line is counted as invalid.", "quantifier": "every layout, every JSON object, every text of it", "why_tests_cant": "Objects nest, omit, repeat and shadow members in arbitrarily many ways, and each kind of JSON value meets each type.", "anchors": ["libvast/src/format/json.cpp: add, lookup, convert", "libvast/vast/format/json.hpp: reader::read_impl"]}
{"id": "C89", "title": "JSON export and import", "statement": "Events exported as JSON and imported with the same layout are the same events, with and without flattened names.", "quantifier": "every layout and every row of values", "why_tests_cant": "Printer and reader are separate code with separate grammars for each type; agreement on all values of all types cannot be sampled.", "anchors": ["libvast/src/format/json.cpp: writer::write, add, convert, lookup", "libvast/vast/concept/printable/vast/json.hpp: json_printer"]}
{"id": "C90", "title": "Choice of a type for JSON objects", "statement": "With one set of field names the first type with it is chosen for every object; with several, an object is assigned to the first type whose fields are exactly its members, and to none if there is no such type.", "quantifier": "every list of types and every JSON object", "why_tests_cant": "The choice goes through sorted lists of names in a cache; every order of members and types has to lead to the same type.", "anchors": ["libvast/vast/format/json/default_selector.hpp: default_selector"]}
{"id": "C91", "title": "Results of an exploration", "statement": "An exploration delivers each event of the context at most once, delivers every event of the context, and no more than the limit on events, where a limit of 0 stands for no limit.", "quantifier": "every sequence of slices from the queries for the context, overlapping in any way, and every limit", "why_tests_cant": "The same event arrives from several queries in any interleaving; whether it is delivered twice depends on which IDs came before.", "anchors": ["libvast/src/system/explorer.cpp: explorer_state::forward_results"]}
{"id": "C92", "title": "Context of an event", "statement": "The context of an event consists of the events whose timestamp lies between the event's timestamp minus --before and plus --after, and that have the same value in the field given by --by.", "quantifier": "every timestamp, every value, every combination of the options and every event", "why_tests_cant": "The query goes through its text; every timestamp and every value has to survive that, and the type extractor has to mean the one column.", "anchors": ["libvast/src/system/explorer.cpp: explorer, the handler for table slices", "libvast/src/table_slice_column.cpp: table_slice_column::make"]}
{"id": "C93", "title": "End of an exploration", "statement": "An exploration ends when the first query and all the queries for the contexts are done, and not earlier.", "quantifier": "every order in which queries start, fail to start and end", "why_tests_cant": "Exporters start and end concurrently; the count must be zero at the right time in every interleaving.", "anchors": ["libvast/src/system/explorer.cpp: explorer, quit_if_done"]}
{"id": "C94", "title": "What a sink writes", "statement": "A sink gives its writer the events it receives, after the transformations, in their order, without loss or repetition, up to the limit of which 0 stands for none; it ends exactly when the limit is reached and flushes all before; a new limit counts from the first event on unless already reached; an error of the writer ends it. Slices whose transformation fails are left out.", "quantifier": "every sequence of slices and limits, every outcome of transformations and writes", "why_tests_cant": "The limit falls at any place inside any slice, and limits change while slices arrive.", "anchors": ["libvast/src/system/sink.cpp: transforming_sink", "libvast/vast/system/sink.hpp: sink_state"]}
{"id": "C95", "title": "Types of Zeek logs", "statement": "The name of a type in the header of a Zeek log is understood as the type it stands for, at any depth of containers, and no other name is; on export a type is written under a name that Zeek has for it and that is understood on import.", "quantifier": "every name and every type", "why_tests_cant": "Names nest to any depth, and any text may stand in the header.", "anchors": ["libvast/src/format/zeek.cpp: parse_type", "libvast/src/format/zeek.cpp: to_zeek_string, zeek_type_printer"]}
{"id": "C96", "title": "Reading Zeek logs", "statement": "From any number of Zeek logs one after the other, the import makes one event per record, in order, with the name and the columns of its log, and the value that each field stands for; comments, empty lines and lines with another number of fields are left out; at a field that is no value of its column reading ends with an error after all events before; slices are never empty nor larger than asked for.", "quantifier": "every header, every log and every sequence of logs, every interruption between lines, every slice size", "why_tests_cant": "Separators, escapes, types and the sizes of slices combine without bound; interruptions fall between any two lines.", "anchors": ["libvast/src/format/zeek.cpp: reader::read_impl, reader::parse_header", "libvast/vast/format/zeek.hpp: zeek_parser_factory, make_zeek_parser"]}
{"id": "C97", "title": "Writing Zeek logs", "statement": "What is exported as a Zeek log can be imported again, and gives the same events up to the precision of the format.", "quantifier": "every layout and every sequence of rows", "why_tests_cant": "Strings and lists have any length and content, and each text must be read as the value it was made from.", "anchors": ["libvast/src/format/zeek.cpp: zeek_printer, print_header, writer", "libvast/vast/concept/printable/numeric/real.hpp: real_printer"]}
{"id": "C98", "title": "Resolving schemas", "statement": "The definitions of schema files are resolved to the types they stand for, wherever the names they use are defined and in whatever order the definitions come; a name without definition or a circular definition is an error; of several directories, a later one may redefine names of earlier ones and use them, and earlier definitions are not affected.", "quantifier": "every set of definitions of any depth, every order of the symbol table, every sequence of directories", "why_tests_cant": "Definitions use each other in graphs of any shape, and the order of the hash table differs between runs.", "anchors": ["libvast/vast/concept/parseable/vast/schema.hpp: symbol_resolver", "libvast/src/schema.cpp: load_symbols, load_schema"]}
{"id": "C99", "title": "Reading schema files", "statement": "A schema file is read as exactly the definitions that it contains, with their containers, records, expressions, attributes, quoted names and comments; a second definition of a name and a malformed text are errors; reading ends for every text.", "quantifier": "every text", "why_tests_cant": "Types nest to any depth, with white space and comments between any two tokens.", "anchors": ["libvast/src/concept/parseable/vast/type.cpp: type_parser::parse", "libvast/vast/concept/parseable/vast/schema.hpp: symbol_map_parser, schema_parser"]}
{"id": "C100", "title": "Sending schemas", "statement": "A schema that is sent to another node, or written as text and read again, arrives with the same types, whatever schema the receiver had before.", "quantifier": "every schema, every order of the hash table, every previous schema of the receiver", "why_tests_cant": "Schemas are serialized as texts, and every type, name and attribute must be read again as what it was.", "anchors": ["libvast/src/schema.cpp: serialize", "libvast/vast/concept/printable/vast/schema.hpp: schema_printer", "libvast/vast/concept/printable/vast/type.hpp: type_printer", "libvast/vast/concept/printable/vast/attribute.hpp: attribute_printer"]}
{"id": "C101", "title": "Arrow table slices keep their values", "statement": "A table slice encoded with Arrow returns, for every row and column, exactly the value that was added there, whatever the types of the columns, and gives the index of a column all values with their positions; values of a wrong type are refused without a trace; the builder can be used again after the slice is finished.", "quantifier": "every layout, every sequence of rows", "why_tests_cant": "Lists, maps and records nest to any depth and are stored as offsets into shared arrays, with nulls at every level.", "anchors": ["libvast/src/arrow_table_slice_builder.cpp: column_builder, arrow_table_slice_builder::add, finish", "libvast/src/arrow_table_slice.cpp: decode, value_at, append_column_to_index, at", "libvast/src/table_slice.cpp: table_slice::at"]}
{"id": "C102", "title": "A partition finds the matching events", "statement": "For every query, the IDs that a partition reports for it include those of all its events that satisfy the query, whichever order its indexers reply in; if the indexes are exact, there are no others.", "quantifier": "every sequence of table slices of any layouts, every expression, every order of replies", "why_tests_cant": "The answer depends on how predicates are distributed over the columns of all layouts of the partition and on how the partial answers are combined.", "anchors": ["libvast/src/system/active_partition.cpp: resolver for writes, atom::evaluate", "libvast/src/system/passive_partition.cpp: evaluate, type_ids", "libvast/src/system/evaluator.cpp", "libvast/src/expression.cpp: resolve"]}
{"id": "C103", "title": "A query returns exactly the matching events", "statement": "For a database of sealed partitions, the events that a query with the historical option returns are, as a multiset, exactly the stored events that satisfy it.", "quantifier": "every list of partitions, every expression, every order of replies of indexers and of partitions", "why_tests_cant": "It is the composition of catalog lookup, index lookup, and the candidate check of the store; each over-approximates in its own way.", "anchors": ["libvast/src/system/meta_index.cpp", "libvast/src/system/index.cpp", "libvast/src/system/passive_partition.cpp", "libvast/src/segment_store.cpp: extract", "libvast/src/expression_visitors.cpp: tailor, evaluate"]}
{"id": "C104", "title": "Deleting deletes what the query says", "statement": "After an erase query (used for aging) no event that satisfies the query is left in the partition, every other event is still there, and later queries return exactly what is left.", "quantifier": "every sequence of table slices, every expression, every order of replies of the indexers", "why_tests_cant": "The partition deletes what its indexes report without looking at the events; whether this is right depends on every index being exact for every value.", "anchors": ["libvast/src/system/partition.cpp: erase branch of the query handlers", "libvast/src/system/archive.cpp: query::erase", "libvast/src/system/local_segment_store.cpp: atom::erase"]}
{"id": "C105", "title": "Counting gives the number of matching events", "statement": "`vast count` ends, and the number it prints is the number of stored events that satisfy the query, each counted once; with `--estimate` it is at least that number.", "quantifier": "every list of candidate partitions, every order in which they are handed out and in which counts arrive, every number of partitions per request", "why_tests_cant": "The result is accumulated over batches of partitions that the counter has to request until none is left; whether this adds up depends on the protocol between three actors.", "anchors": ["libvast/src/system/counter.cpp", "libvast/src/system/query_processor.cpp", "libvast/src/system/count_command.cpp", "libvast/src/system/index.cpp: collect_query_actors and query handlers", "libvast/src/table_slice.cpp: count_matching"]}
{"id": "C106", "title": "Aging runs again and again", "statement": "As long as the node runs, the aging query is run once in every interval: whenever a cycle has ended, a timer for the next one is set, and each timer starts one cycle.", "quantifier": "every sequence of timers, triggers by hand and messages of the index, every number of candidate partitions per cycle", "why_tests_cant": "It is a liveness property over infinite runs; tests run one or two cycles.", "anchors": ["libvast/src/system/eraser.cpp", "libvast/src/system/query_processor.cpp", "libvast/src/system/spawn_eraser.cpp"]}
{"id": "C107", "title": "CSV export can be read back", "statement": "The text that CSV export writes is a table: an ordinary CSV reader finds one row per event, in order, after a header with the names of its columns; the first cell is the name of the layout and each other cell is a text for the value, strings with any characters included.", "quantifier": "every sequence of table slices, every layout, every value, every string", "why_tests_cant": "Quotes, commas, bars and line feeds may appear anywhere in strings; whether a reader sees the same cells depends on all combinations.", "anchors": ["libvast/src/format/csv.cpp: writer::write, render", "libvast/vast/detail/escapers.hpp: make_double_escaper", "libvast/src/format/ostream_writer.cpp"]}
{"id": "C108", "title": "The node shuts down in order", "statement": "On shutdown the node tells the index to terminate only after the importer has terminated, and the archive only after both; none of them before all other local components have terminated or the time for these is over. The file system is never told. Nothing is killed before a grace period is over. The node reports success only if importer, index and archive have terminated, and the process is aborted only after the grace period of the core components.", "quantifier": "every registry, all timeouts, every order of terminations, timers and messages", "why_tests_cant": "Which DOWN messages, timers and answers arrive in which order is a matter of scheduling; a test sees one order.", "anchors": ["libvast/src/system/node.cpp: exit handler", "libvast/src/system/terminator.cpp", "libvast/src/system/shutdown.cpp", "libvast/vast/system/terminate.hpp"]}
{"id": "C109", "title": "Shutdown ends", "statement": "Once the node has been told to shut down it ends after boundedly many steps, either normally or by aborting the process, even if components do not react.", "quantifier": "every registry, all timeouts, every order of terminations, timers and messages", "why_tests_cant": "It is a liveness property over all schedules and all behaviours of the components.", "anchors": ["libvast/src/system/node.cpp: exit handler", "libvast/src/system/terminator.cpp", "libvast/src/system/shutdown.cpp"]}
{"id": "C110", "title": "The value of an option comes from the most specific place", "statement": "The value of an option is the one given on the command line, else in the environment, else in the last of the files given with --config that has it, else in the file of the user, else in the system-wide file; lists from these places are concatenated. With --bare-mode only files given with --config are read. A configuration file that cannot be used is reported, not ignored.", "quantifier": "every file system, environment and command line, all configuration files, every option", "why_tests_cant": "There are as many cases as combinations of places, nesting and types of values; tests have single files.", "anchors": ["libvast/src/system/configuration.cpp: config_dirs, configuration::parse", "libvast/src/detail/settings.cpp: merge_settings", "vast/vast.cpp: main", "libvast/src/data.cpp: merge, flatten"]}
{"id": "C111", "title": "The plugins that are asked for are loaded", "statement": "If the program starts, exactly the plugins that the user asked for are loaded: those given by path, those given by name from the first directory of the search path that has them, with `bundled` all that were built with the program, with `all` all in the search path. No file is loaded twice, no two plugins have the same name, and a plugin that cannot be found or loaded is an error.", "quantifier": "every list of plugins, every search path and file system, all plugins linked into the program", "why_tests_cant": "Which files there are in which directories, and in which order they are listed, is different on each host.", "anchors": ["libvast/src/plugin.cpp: get_plugin_dirs, resolve_plugin_name, load"]}
{"id": "C112", "title": "A pivot finds the events that share a value", "statement": "The results of a pivot are exactly the events of the type that was asked for that share a value of the link field (`uid` between Zeek logs, otherwise `community_id`) with one of the results of the first query. No value is asked for twice.", "quantifier": "every sequence of results of the first query, all layouts and values, every interleaving with the answers to requests for exporters", "why_tests_cant": "Results come in any order and grouping, with types from any source, while exporters start and end.", "anchors": ["libvast/src/system/pivoter.cpp: common_field, pivoter", "libvast/src/table_slice_column.cpp: make", "libvast/src/type.cpp: record_type::find_suffix"]}
{"id": "C113", "title": "A pivot ends", "statement": "A pivot ends when the first query and all queries made for its results are done, and not before.", "quantifier": "every interleaving of results, answers to requests for exporters, ends of exporters, and the final status of the first query", "why_tests_cant": "The order in which exporters start, fail and end depends on the schedule.", "anchors": ["libvast/src/system/pivoter.cpp: pivoter (quit_if_done and the handlers)"]}
{"id": "C114", "title": "Concepts and models are what the schema files define", "statement": "Loading taxonomies succeeds if and only if all schema files can be read, all definitions of concepts and models in them are well formed, and no two models have the same name. Then the concepts and models are those that are defined, whatever was there before, and a concept has the fields and concepts of all its definitions, in any order of the files. Otherwise the concepts and models stay as they were.", "quantifier": "every set of directories and every content of their files", "why_tests_cant": "Any number of files may define parts of the same concept, and the content of files is arbitrary.", "anchors": ["libvast/src/taxonomies.cpp: convert, extract_concepts, extract_models", "libvast/src/system/type_registry.cpp: the handler for atom::load"]}
{"id": "C115", "title": "The type registry remembers all layouts", "statement": "The type registry knows every layout of events it got, each once and the latest first, over any number of restarts. So a query for a concept asks for every field of the concept that some event has.", "quantifier": "every history of batches, ends, crashes, starts, and failures to save and load", "why_tests_cant": "Layouts change and nodes crash at any time; what is lost shows only in later queries.", "anchors": ["libvast/src/system/type_registry.cpp: insert, save_to_disk, load_from_disk, type_registry", "libvast/vast/detail/stable_set.hpp: add", "libvast/src/taxonomies.cpp: contains"]}
{"id": "C116", "title": "There is one node per directory", "statement": "At no time do two processes run a node on the same database directory. If no process runs a node on it, a node can be started, also after a crash.", "quantifier": "any number of processes, every interleaving of their system calls, every crash point, failures of system calls, reuse of process numbers", "why_tests_cant": "Two starts interleave at system calls, and what a crash leaves depends on when it happens.", "anchors": ["libvast/src/detail/pid_file.cpp: acquire_pid_file", "libvast/src/system/spawn_node.cpp: spawn_node"]}
{"id": "C117", "title": "A node starts only on a directory of its version", "statement": "A node starts on a directory if and only if it has no version file, or one for the current version. The version file is written once and never changed. If the version is an older one, the node says everything that has changed since.", "quantifier": "every content of the version file, every history of starts with crashes and failed writes, all tables of versions", "why_tests_cant": "The contents of the file and the crash points are unbounded, and the tables grow with each release.", "anchors": ["libvast/src/db_version.cpp: read_db_version, initialize_db_version, describe_breaking_changes_since", "libvast/src/system/spawn_node.cpp: spawn_node"]}
{"id": "C118", "title": "The node knows its components", "statement": "Every component that the node starts is in its registry, under a label of its own. Of the components that exist once there is at most one, and who looks for it by its type gets it. While the node shuts down, no component is started.", "quantifier": "all sequences of spawning with and without labels, answers of the type registry, registration from elsewhere, kills, ends and shutdown", "why_tests_cant": "Labels from users, generated labels and queries that wait for the type registry interleave in unboundedly many ways.", "anchors": ["libvast/src/system/node.cpp: spawn_command, generate_label, register_component, is_singleton", "libvast/src/system/component_registry.cpp: add", "libvast/vast/system/component_registry.hpp: find"]}
{"id": "C119", "title": "The node reacts to the end of its components", "statement": "A component is in the registry of the node as long as it is alive, unless it is killed; when the node has heard of the end of a component, the component is gone from the registry. When a core component ends, the node shuts down, and for no other one.", "quantifier": "all sequences of spawning, kills, ends of actors and delays of DOWN messages", "why_tests_cant": "Whether a DOWN message is handled before or after a kill is up to the schedule.", "anchors": ["libvast/src/system/node.cpp: node, kill_command, deregister_component", "libvast/src/system/component_registry.cpp: remove"]}
{"id": "C120", "title": "Transforms are as configured", "statement": "Each of the four locations (import and export, in the server and in the client) gets the transforms whose triggers name it, in their order, with the event types of the trigger and the steps of the transform. A configuration that is not well-formed is refused.", "quantifier": "all configurations: any number of triggers, transforms and steps, any values in the place of each", "why_tests_cant": "The configurations are unbounded, and each of the four locations reads them in its own process.", "anchors": ["libvast/src/system/make_transforms.cpp: make_transforms, parse_transform_steps"]}
{"id": "C121", "title": "Each transform is applied once", "statement": "An event runs through every transform that is configured for its type once: on import first through those of the client and then through those of the server, on export the other way round.", "quantifier": "all configurations, all events, all steps", "why_tests_cant": "Steps are arbitrary functions from plugins, and configurations are unbounded.", "anchors": ["libvast/src/system/spawn_source.cpp", "libvast/src/system/import_command.cpp", "libvast/src/system/spawn_importer.cpp", "libvast/src/system/spawn_exporter.cpp", "libvast/src/system/make_sink.cpp", "libvast/src/system/transformer.cpp"]}
{"id": "C122", "title": "After a blocking import its events are found", "statement": "When `vast import --blocking` returns, a query gives all events that it imported.", "quantifier": "all schedules of the messages between source, importer, index, partitions, indexers and store, any number of batches, any other clients that import at the same time", "why_tests_cant": "The answer to the client races with the batches on several streams; a test sees one schedule.", "anchors": ["libvast/src/system/import_command.cpp: import_command", "libvast/src/system/importer.cpp: subscribe", "libvast/src/system/index.cpp: notify_flush_listeners", "libvast/src/system/partition.cpp: notify_flush_listeners", "libvast/vast/detail/notifying_stream_manager.hpp"]}
{"id": "C123", "title": "A blocking import ends", "statement": "If others import only for a limited time, `vast import --blocking` returns.", "quantifier": "all schedules, any number of batches and partitions", "why_tests_cant": "A listener that is lost in one of the schedules would let the command wait for ever.", "anchors": ["libvast/src/system/import_command.cpp: import_command", "libvast/src/system/index.cpp: notify_flush_listeners, add_flush_listener", "libvast/vast/detail/notifying_stream_manager.hpp"]}
{"id": "C124", "title": "What is known about a partition survives a restart", "statement": "When the synopses of a partition were written, reading them gives the same answers to every query, so that the same partitions are candidates before and after a restart of the node.", "quantifier": "all sequences of table slices with all types and values, all options for the synopses, all queries", "why_tests_cant": "The parameters of the Bloom filters go through a text with six digits; whether they come back depends on all rates and sizes.", "anchors": ["libvast/src/partition_synopsis.cpp: pack, unpack", "libvast/src/synopsis.cpp: pack, unpack, serialize, deserialize", "libvast/src/bloom_filter_synopsis.cpp: annotate_parameters, parse_parameters", "libvast/src/bloom_filter_parameters.cpp", "libvast/src/system/index.cpp: extract_partition_synopsis"]}
{"id": "C125", "title": "A full partition can be written", "statement": "Once a partition has taken events, its synopses can be shrunk and written.", "quantifier": "all sequences of table slices with all types and values, all options for the synopses", "why_tests_cant": "A synopsis that cannot be shrunk is kept and cannot be written; whether that happens depends on the rate and the number of distinct values.", "anchors": ["libvast/vast/buffered_synopsis.hpp: shrink, serialize", "libvast/src/partition_synopsis.cpp: shrink, pack", "libvast/vast/address_synopsis.hpp", "libvast/vast/string_synopsis.hpp", "libvast/src/bool_synopsis.cpp"]}
{"id": "C126", "title": "After a restart, no partition with a matching event is ruled out", "statement": "After a partition was filled, shrunk, written and read again, its synopsis for a column does not answer no to a predicate that one of the values in the column satisfies.", "quantifier": "all sequences of table slices with all types and values, all options for the synopses, all hash functions, all predicates", "why_tests_cant": "Whether an added value is still found depends on all other values, on the size of the filter and on the hash functions.", "anchors": ["libvast/src/partition_synopsis.cpp: add, shrink, pack, unpack", "libvast/vast/buffered_synopsis.hpp", "libvast/vast/bloom_filter.hpp", "libvast/vast/min_max_synopsis.hpp"]}
{"id": "C127", "title": "A syslog message becomes an event with its fields", "statement": "For every message that follows RFC 5424, importing the line gives an event of type syslog.rfc5424 with the facility, severity, version, time, host, application, process, message identifier and text of the message.", "quantifier": "all messages of the grammar of RFC 5424: all priorities, versions, points in time, names, structured data and texts", "why_tests_cant": "The grammar has optional parts, repetitions and escapes that combine without bound.", "anchors": ["libvast/vast/format/syslog.hpp: header_parser, parameter_parser, structured_data_element_parser, structured_data_parser, message_content_parser, message_parser", "libvast/src/format/syslog.cpp: read_impl"]}
{"id": "C128", "title": "No syslog line is lost or made up", "statement": "Every line that is not empty becomes one event: either one with the whole line, or one whose fields are all literally in the line, at their places.", "quantifier": "all lines of bytes, all environments (time of day, floating point)", "why_tests_cant": "The parser chooses between alternatives and stops at lengths; that it never invents, moves or drops a byte is about all lines.", "anchors": ["libvast/vast/format/syslog.hpp: message_parser", "libvast/src/format/syslog.cpp: read_impl"]}
{"id": "C129", "title": "The text of a UUID identifies it", "statement": "A UUID is printed as in RFC 4122, different UUIDs have different texts, and a text of RFC 4122 in upper or lower case, with or without dashes or braces, is read as the UUID that it denotes; other texts are rejected.", "quantifier": "all UUIDs and all texts", "why_tests_cant": "There are 2^128 UUIDs and the parser keeps state over 38 characters.", "anchors": ["libvast/vast/concept/printable/vast/uuid.hpp", "libvast/vast/concept/parseable/vast/uuid.hpp", "libvast/src/uuid.cpp"]}
{"id": "C130", "title": "Random UUIDs are of version 4", "statement": "A random UUID has the version 4 and the variant of RFC 4122, and its 122 other bits are those of the random numbers.", "quantifier": "all pairs of 64-bit random numbers", "why_tests_cant": "There are 2^128 pairs of numbers.", "anchors": ["libvast/src/uuid.cpp: random_generator"]}
{"id": "C131", "title": "The disk monitor erases partitions only", "statement": "When the disk monitor looks for partitions to erase, its candidates are exactly the files of partitions that it can examine.", "quantifier": "all contents of the directory of the index, all identifiers", "why_tests_cant": "Which names are taken for identifiers depends on a parser that accepts more than it should.", "anchors": ["libvast/src/system/disk_monitor.cpp: handler of atom::erase", "libvast/vast/concept/parseable/vast/uuid.hpp"]}
{"id": "C132", "title": "Every metric is ingested", "statement": "While metrics are ingested, every finite metric that a component reports becomes one row, in order, with the name of the component and the number that it reported, and reaches the importer.", "quantifier": "all sequences of reports, announcements, failures, changes of the configuration and requests of the importer, up to and including an exit", "why_tests_cant": "A row waits in one of two buffers, and which ones are delivered depends on the order of all messages.", "anchors": ["libvast/src/system/accountant.cpp", "libvast/vast/system/instrumentation.hpp", "libvast/vast/system/report.hpp"]}
{"id": "C133", "title": "Metrics go where the configuration says", "statement": "Every metric is written once, in order, to the file and the socket that are enabled in the configuration in force, and nowhere else.", "quantifier": "all sequences of messages with any number of changes of the configuration", "why_tests_cant": "The state of the sinks depends on all earlier configurations.", "anchors": ["libvast/src/system/accountant.cpp: record, apply_config", "libvast/src/detail/make_io_stream.cpp"]}
{"id": "C134", "title": "Options for metrics take effect", "statement": "An option for metrics in the configuration takes effect if it is valid; otherwise there is an error.", "quantifier": "all configurations", "why_tests_cant": "There is one string for every option, in two places.", "anchors": ["libvast/src/accountant/config.cpp", "libvast/vast/component_config.hpp", "vast.yaml.example"]}
{"id": "C135", "title": "Endpoints are read as they are written", "statement": "A host, a port with or without a protocol, or both, are read as they are written, and other texts are rejected.", "quantifier": "all texts", "why_tests_cant": "There are infinitely many texts, and numbers with more bits than the type.", "anchors": ["libvast/vast/concept/parseable/vast/endpoint.hpp", "libvast/vast/concept/parseable/vast/port.hpp"]}
{"id": "C136", "title": "Clients reach the node with the same endpoint", "statement": "If a node listens, then a client with the same endpoint in its configuration connects to the host and port at which it listens.", "quantifier": "all values of the option", "why_tests_cant": "The two commands interpret the option in different places.", "anchors": ["libvast/src/system/start_command.cpp", "libvast/src/system/connect_to_node.cpp"]}
{"id": "C137", "title": "The query is the one that the user named", "statement": "A command runs the query from the file, the standard input or the argument that the user named, and fails if there is none or more than one.", "quantifier": "all values of the option, all arguments, all contents of files", "why_tests_cant": "The query may be any text, and the number of arguments is not bounded.", "anchors": ["libvast/src/system/read_query.cpp", "libvast/src/system/pivot_command.cpp"]}
{"id": "C138", "title": "vast get writes the events that were asked for", "statement": "The command writes the events with the given ids in the order of its arguments and fails at the first argument that is not an id.", "quantifier": "all contents of an archive and all lists of arguments", "why_tests_cant": "Ids are 64-bit numbers, and the arguments any texts.", "anchors": ["libvast/src/system/get_command.cpp"]}
{"id": "C139", "title": "vast export reports failures and leaves nothing behind", "statement": "When an export ends, its result tells whether there was a timeout or a component failed, and exporter and sink are down or told to exit; it ends when the exporter does.", "quantifier": "all sequences of messages", "why_tests_cant": "The messages of four actors and of the user arrive in any order.", "anchors": ["libvast/src/system/sink_command.cpp"]}
{"id": "C140", "title": "An inferred schema imports the events that it comes from", "statement": "A schema that vast infer finds for a JSON event has a column for every value in the event, and with it every event of the same shape is imported with all of its values.", "quantifier": "all inputs whose first line is a JSON object, and all other events of the same shape", "why_tests_cant": "Events nest to any depth, and the inference, the schema and the importer are separate pieces of code that have to agree on every value.", "anchors": ["libvast/src/system/infer_command.cpp", "libvast/src/format/json.cpp"]}
{"id": "C141", "title": "An inferred schema can be loaded", "statement": "The text that vast infer prints is accepted as a schema, and it means the types that were inferred.", "quantifier": "all inputs whose first line is a JSON object", "why_tests_cant": "Names and nesting of the event are arbitrary.", "anchors": ["libvast/src/system/infer_command.cpp", "libvast/vast/concept/printable/vast/type.hpp", "libvast/vast/concept/parseable/vast/schema.hpp"]}
{"id": "C142", "title": "Types are inferred from values", "statement": "Numbers, booleans, lists, objects, addresses, subnets, timestamps, durations and words get the types of such values, at any depth.", "quantifier": "all inputs whose first line is a JSON object", "why_tests_cant": "There are infinitely many values of each kind, and several parsers compete for a text.", "anchors": ["libvast/src/system/infer_command.cpp"]}
{"id": "C143", "title": "Log entries from Zeek are decoded as they were encoded", "statement": "Every row in Zeek's binary format is decoded to the values that Zeek wrote, nothing else is accepted as a row, and a row that was cut off is refused.", "quantifier": "all rows with any values and lists nested to any depth, and all byte strings", "why_tests_cant": "Rows nest to any depth and carry arbitrary bytes.", "anchors": ["plugins/broker/src/zeek.cpp: extract, extract_value, process"]}
{"id": "C144", "title": "Columns of Zeek logs get types that take their values", "statement": "A log that Zeek announces gets a layout with its name and a column for every field with the type of that field, and each of these columns takes all values of the type, and null.", "quantifier": "all logs with any number of fields, all values", "why_tests_cant": "The types in an announcement and the values in rows are decoded by different functions, which have to agree for all combinations.", "anchors": ["plugins/broker/src/zeek.cpp: convert, process", "libvast/src/detail/zeekify.cpp"]}
{"id": "C145", "title": "Rows from Zeek arrive once and in order", "statement": "The slices of a layout have exactly the rows that Zeek wrote to streams with this layout at the time, in their order, in slices that are not larger than asked for.", "quantifier": "all sequences of messages, also nested in batches and over several reads, with logs that change on the way", "why_tests_cant": "The order of announcements and rows of different logs is arbitrary, and slices end at any of them.", "anchors": ["plugins/broker/src/reader.cpp: read_impl, dispatch", "libvast/src/format/multi_layout_reader.cpp"]}
{"id": "C146", "title": "Shared memory lives as long as it is used", "statement": "The bytes of a chunk or of a slice of one stay the same and accessible as long as someone holds it. When nobody holds it or a slice of it any more, the memory is freed and the deletion steps are run in the order they were added, each exactly once.", "quantifier": "all programs over any number of chunks, slices of slices and copies, all interleavings of threads that release them", "why_tests_cant": "Use after free, double free and leaks depend on the order in which the last references go away.", "anchors": ["libvast/src/chunk.cpp: make, ~chunk, slice", "libvast/vast/chunk.hpp: add_deletion_step"]}
{"id": "C147", "title": "Chunks arrive as they were sent", "statement": "A chunk that is sent to another process arrives with the same bytes, the absence of a chunk arrives as such, and a message that was cut off is an error.", "quantifier": "all chunks and all continuations of the message", "why_tests_cant": "All sizes and contents count, and what follows in the message.", "anchors": ["libvast/src/chunk.cpp: inspect"]}
{"id": "C148", "title": "Files are read completely or not at all", "statement": "Reading a file gives its whole content, also if the system returns it in small pieces, or an error. Mapping a file gives the same bytes.", "quantifier": "all files, all sequences of partial reads and failures, files that change meanwhile", "why_tests_cant": "The sizes of partial reads are chosen by the system and tests see one piece only.", "anchors": ["libvast/src/io/read.cpp", "libvast/src/chunk.cpp: read, mmap", "libvast/src/detail/posix.cpp: read"]}
{"id": "C149", "title": "The filesystem counts its requests", "statement": "The status of the filesystem has the numbers of successful and failed requests and of the bytes that they moved.", "quantifier": "all sequences of requests", "why_tests_cant": "The numbers are sums over the whole history.", "anchors": ["libvast/src/system/posix_filesystem.cpp"]}
{"id": "C150", "title": "Test events in the number asked for", "statement": "`vast import test` makes exactly as many events as asked for, in slices of at most the given size, of the test layouts of the schema in turn, and then reports the end; once it has, it makes no more.", "quantifier": "all schemas, all numbers of events and slice sizes, all sequences of calls of the source, all random numbers", "why_tests_cant": "The number per call depends on the credit of the stream, and a layout can have any number of columns and distributions.", "anchors": ["libvast/src/format/test.cpp: reader::read_impl, reader::schema", "libvast/src/format/multi_layout_reader.cpp"]}
{"id": "C151", "title": "Test columns have their own distribution", "statement": "In generated events each column is drawn from the distribution of its own attribute; columns without one are null, and times and durations advance with each event.", "quantifier": "all schemas, all histories of calls, all random numbers", "why_tests_cant": "Distributions are found by position, so that one column can shift all that follow.", "anchors": ["libvast/src/format/test.cpp: initializer, randomizer"]}
{"id": "C152", "title": "Distributions are what the schema says", "statement": "The attribute `default` of a column tells its distribution as `name(a,b)`; a schema with one that is not understood is refused.", "quantifier": "all names, all numerals, all types and other attributes", "why_tests_cant": "The text is open-ended.", "anchors": ["libvast/src/format/test.cpp: make_distribution, builtin_schema", "libvast/vast/detail/random.hpp"]}
{"id": "C153", "title": "Sizes in bytes mean what they say", "statement": "A size in the configuration is a number with an optional unit (k, M, G, T, P, E or Ki, Mi, Gi, Ti, Pi, Ei) and an optional `B`; it stands for the number times the unit, and any other text is refused.", "quantifier": "all texts", "why_tests_cant": "Texts of any length; the product can exceed 64 bits.", "anchors": ["libvast/vast/concept/parseable/vast/si.hpp: si_parser, bytesize", "libvast/src/detail/settings.cpp: get_bytesize"]}
{"id": "C154", "title": "The disk monitor starts as configured", "statement": "The disk monitor is started exactly if a disk budget is configured and consistent, with the marks, step, interval and program that were given; without a budget it is not started.", "quantifier": "all configurations, all sets of files", "why_tests_cant": "All combinations of options of all types.", "anchors": ["libvast/src/system/spawn_disk_monitor.cpp: spawn_disk_monitor", "libvast/src/system/disk_monitor.cpp: validate"]}
{"id": "C155", "title": "Exploring needs a constraint", "statement": "`vast explore` starts an explorer only if some option limits the context: a field or a positive time before or after; the explorer gets the values given.", "quantifier": "all options, all parsers of durations", "why_tests_cant": "All combinations of options of all types.", "anchors": ["libvast/src/system/spawn_explorer.cpp: explorer_validate_args, spawn_explorer"]}
{"id": "C156", "title": "Sources are made as asked", "statement": "A source listens on the given UDP endpoint or reads the given file, not both; its slices and the number of its events have the given limits, and it asks its reader for at least one event and never for more than are missing.", "quantifier": "all options, all endpoints, all amounts of credit and numbers of events read", "why_tests_cant": "Products of credit and size of slices can exceed 64 bits.", "anchors": ["libvast/src/system/make_source.cpp: make_source", "libvast/src/system/source.cpp: source"]}
{"id": "C157", "title": "Exported Arrow streams hold the results", "statement": "The output of `vast export arrow` is a sequence of Arrow streams, one for each run of results of the same layout, that is read back as exactly the results written, in order; if an operation fails, as those before it.", "quantifier": "all sequences of results, all failures of operations on the output", "why_tests_cant": "Any interleaving of layouts and any failing operation.", "anchors": ["libvast/src/format/arrow.cpp: writer::write, writer::layout", "libvast/src/system/sink.cpp"]}
{"id": "C158", "title": "Stable maps behave like maps and keep the order of insertion", "statement": "After any sequence of insertions, assignments and erasures, a collection that keeps the order of insertion (records and maps as values) finds for each key exactly the value a mathematical map holds, reports whether something was inserted or erased, and lists its keys once each in the order of insertion.", "quantifier": "all histories of operations, all types of keys and values", "why_tests_cant": "Histories of any length.", "anchors": ["libvast/vast/detail/vector_map.hpp", "libvast/vast/detail/stable_map.hpp", "libvast/vast/detail/vector_set.hpp"]}
{"id": "C159", "title": "Flat maps behave like maps and stay sorted", "statement": "The same for the collections that keep their keys in order; their keys are strictly ascending, binary search finds what is there, and two of them are equal exactly if they have the same contents.", "quantifier": "all histories of operations, all strict total orders of keys", "why_tests_cant": "Histories of any length, any order.", "anchors": ["libvast/vast/detail/flat_map.hpp", "libvast/vast/detail/flat_set.hpp", "libvast/vast/detail/vector_map.hpp"]}
{"id": "C160", "title": "Equal records and maps are recognized", "statement": "Two records or maps with the same contents are equal, and each key occurs once.", "quantifier": "all pairs of histories of operations", "why_tests_cant": "Pairs of histories of any length.", "anchors": ["libvast/vast/detail/stable_map.hpp", "libvast/vast/detail/vector_map.hpp: erase, make_unsafe", "libvast/vast/data.hpp: record, map"]}
{"id": "C161", "title": "Exported text arrives complete or as a prefix", "statement": "Whatever the operating system does on each write, what arrives at a file, a pipe or a socket is a prefix of the results in order, all of it if no write fails, and failures are reported.", "quantifier": "all sequences of slices and rows, all results of each system call", "why_tests_cant": "Each system call may write less or fail.", "anchors": ["libvast/src/detail/fdoutbuf.cpp", "libvast/src/format/ostream_writer.cpp: write_buf, flush", "libvast/src/system/sink.cpp"]}
{"id": "C162", "title": "The size of the database is measured correctly", "statement": "The disk monitor's measurement is the sum of the sizes of all files in the database, or what the configured program prints; other output is an error.", "quantifier": "all outputs and exit states of the program, all listings of files with files vanishing or failing in between", "why_tests_cant": "Outputs of any length, any race with deletions.", "anchors": ["libvast/src/system/disk_monitor.cpp: compute_dbdir_size", "libvast/src/detail/process.cpp: execute_blocking", "libvast/vast/detail/recursive_size.hpp"]}
{"id": "C163", "title": "Signals reach the process once", "statement": "Each signal sent to the process is passed on to it, not more often than it was raised; a second request to terminate ends the process at once.", "quantifier": "all interleavings of signal handlers with the steps of the monitor", "why_tests_cant": "Races between handlers and the monitor's thread.", "anchors": ["libvast/src/system/signal_monitor.cpp: signal_monitor_handler, signal_monitor::run"]}
{"id": "C164", "title": "The checksum is CRC-32", "statement": "The checksum of any message, in any pieces, is its CRC-32, and any change within four consecutive bytes changes it.", "quantifier": "all messages of less than 2^31 bytes, all ways to cut them, all changes within four bytes", "why_tests_cant": "Messages of any length.", "anchors": ["libvast/src/concept/hashable/crc.cpp: crc, crc32"]}
{"id": "C165", "title": "Typed views on columns show the columns asked for", "statement": "A typed view on a slice that is asked for columns by position, by name or by number finds the first column denoted that has the type asked for; iterating gives, row by row, exactly the values of these columns; if a column is not found the view is invalid and empty.", "quantifier": "all layouts, all hints, all wanted types, all contents", "why_tests_cant": "Layouts of any depth and any contents.", "anchors": ["libvast/vast/project.hpp", "libvast/vast/table_slice_column.hpp"]}
{"id": "C166", "title": "Checked conversions of numbers are exact", "statement": "A checked conversion between integral types succeeds exactly if the value can be represented in the target, and then leaves it unchanged.", "quantifier": "all pairs of integral types of any width and signedness, all values", "why_tests_cant": "All values of all pairs of types.", "anchors": ["libvast/vast/detail/narrow.hpp"]}
{"id": "C167", "title": "Integer powers and logarithms are exact", "statement": "The integer power is exact modulo 2^64, and the integer logarithm is the floor of the logarithm.", "quantifier": "all bases and arguments of 64 bits", "why_tests_cant": "All 64-bit arguments.", "anchors": ["libvast/vast/detail/math.hpp"]}
{"id": "C168", "title": "JSON events that tell their type get the layout of that type", "statement": "An event of Suricata or Zeek in JSON is read with the record type of the schema whose name is the prefix of the format and the event's type; an event whose type has no layout gets none.", "quantifier": "all schemas set one after the other, all objects, all histories", "why_tests_cant": "Any schema and any order of events.", "anchors": ["libvast/vast/format/json/field_selector.hpp", "libvast/vast/format/json/suricata_selector.hpp", "libvast/vast/format/json/zeek_selector.hpp"]}
{"id": "C169", "title": "Unknown types of events are reported once", "statement": "Each type of event without a layout is reported, once, and nothing else is reported as such.", "quantifier": "all histories of schemas and events", "why_tests_cant": "Histories of any length.", "anchors": ["libvast/vast/format/json/field_selector.hpp: operator()"]}
{"id": "C170", "title": "Directories are listed completely and in a fixed order", "statement": "Listing a directory of schemas or taxonomies gives exactly the files the filter accepts, to any depth up to the limit, in an order that does not depend on the operating system; beyond the limit there is an error, never an incomplete list.", "quantifier": "all directory trees, all filters, all limits, all orders of enumeration", "why_tests_cant": "Trees of any shape and depth.", "anchors": ["libvast/vast/detail/filter_dir.hpp", "libvast/src/schema.cpp: load_schema", "libvast/src/data.cpp: load_yaml_dir"]}
{"id": "C171", "title": "Identifiers of resources are read back as written", "statement": "The text that is written for a URI is read back as the same URI.", "quantifier": "all URIs: schemes, hosts, ports, paths, queries and fragments of any length", "why_tests_cant": "Any number of segments and of query parameters, with any bytes in them.", "anchors": ["libvast/vast/uri.hpp", "libvast/vast/concept/parseable/vast/uri.hpp", "libvast/vast/concept/printable/vast/uri.hpp"]}
{"id": "C172", "title": "The attribute `synopsis` decides about the Bloom filter of a column", "statement": "A column of strings or addresses with the attribute synopsis=bloomfilter(n,p) gets a Bloom filter for n values and the rate p, whatever the configuration says; a text that is not of this form has no effect on the filter.", "quantifier": "all texts of attributes, all lists of attributes, all options", "why_tests_cant": "Any text can be given as an attribute, and any number of attributes in any order.", "anchors": ["libvast/src/bloom_filter_parameters.cpp: parse_parameters", "libvast/vast/bloom_filter_synopsis.hpp", "libvast/vast/buffered_synopsis.hpp"]}
{"id": "C173", "title": "Columns marked with skip have no synopsis", "statement": "A column that is marked with the attribute skip gets no synopsis, and the mark has no effect on other columns.", "quantifier": "all sequences of slices that a partition gets, with any columns", "why_tests_cant": "Depends on all columns of all slices of a partition and on their order.", "anchors": ["libvast/src/partition_synopsis.cpp: partition_synopsis::add", "libvast/vast/type.hpp: has_skip_attribute"]}
{"id": "C174", "title": "HTTP requests are read exactly", "statement": "A text is read as an HTTP request if and only if it is one, as the method, URI, protocol, version, headers and body that it contains; a header is found by its name in any case.", "quantifier": "all texts; all requests with any number of headers", "why_tests_cant": "Any number of headers, any bytes, names in any mixture of upper and lower case.", "anchors": ["libvast/vast/concept/parseable/vast/http.hpp", "libvast/vast/http.hpp", "libvast/src/http.cpp"]}
{"id": "C175", "title": "HTTP responses are written as messages", "statement": "The text that is written for a response is a message whose lines are the status line and the headers, and whose body is that of the response.", "quantifier": "all responses with any headers and bodies", "why_tests_cant": "Any number of headers, including none, with any bytes.", "anchors": ["libvast/vast/concept/printable/vast/http.hpp", "libvast/vast/http.hpp"]}
{"id": "C176", "title": "Blocks of memory from an arena do not overlap", "statement": "After any history of requests and returns of memory, in any order, no byte belongs to two blocks that are in use, blocks from the arena lie within it and are aligned, only memory from the heap is given back to the heap, and memory that is returned in the reverse order of the requests can be used again.", "quantifier": "all capacities, alignments and histories of requests, returns and resets", "why_tests_cant": "Any number of blocks of any sizes, returned in any order, so that the free end of the arena moves in both directions.", "anchors": ["libvast/vast/detail/short_alloc.hpp"]}
{"id": "C177", "title": "What is hashed of a value determines it", "statement": "Equal values are given to a hash function as equal bytes, whatever the padding of their memory contains, and different values of a type as different bytes, alone or several in a row.", "quantifier": "all types made of numbers, Booleans, texts, empty classes, pairs, arrays, vectors, ordered sets and inspectable classes, nested to any depth; all of their values; hash functions of either byte order", "why_tests_cant": "Nested values of any depth and length, and any contents of the padding.", "anchors": ["libvast/vast/concept/hashable/hash_append.hpp", "libvast/vast/concept/hashable/uhash.hpp"]}
{"id": "C178", "title": "What is hashed of an unordered set determines it", "statement": "Equal unordered sets are given to a hash function as equal bytes and different ones as different bytes; values of different types as different bytes.", "quantifier": "all unordered sets of elements of any type, in any order of iteration", "why_tests_cant": "Any number of elements, and any order that a history of insertions leads to.", "anchors": ["libvast/vast/concept/hashable/hash_append.hpp", "libvast/vast/view.hpp"]}
{"id": "C179", "title": "Rows are exported to the Zeek log of their layout", "statement": "Exported to the standard output, every row follows the header of its own layout; exported to a directory, there is one file per layout, with its header and exactly its rows, in order. A slice is reported as written if and only if all its rows are in the log.", "quantifier": "all sequences of table slices with any layouts in any order, any rows, and any state of the directory", "why_tests_cant": "Any interleaving of layouts and any number of slices.", "anchors": ["libvast/src/format/zeek.cpp", "libvast/vast/format/ostream_writer.hpp", "libvast/src/format/ostream_writer.cpp"]}
{"id": "C180", "title": "Combined parsers accept what their expression says", "statement": "A parser made of smaller ones by sequence, choice, repetition, lists, options, look-ahead, difference and guards accepts an input exactly if its expression, read as a parsing expression grammar, does, and stops at the same character; if it fails, it leaves the position where it was.", "quantifier": "all parsers built with the combinators, nested to any depth, over any character classes, literals and symbol tables; all inputs", "why_tests_cant": "Any nesting of combinators and any input.", "anchors": ["libvast/vast/concept/parseable/core", "libvast/vast/concept/parseable/string"]}
{"id": "C181", "title": "Parsing ends", "statement": "Parsing ends for every input.", "quantifier": "all parsers built with the combinators, nested to any depth; all inputs", "why_tests_cant": "Any nesting of loops and any input.", "anchors": ["libvast/vast/concept/parseable/core"]}
{"id": "C182", "title": "The text that a combined parser stores is the text that it read", "statement": "If a parser made of character classes and texts by sequence, choice, repetition, options, look-ahead and difference succeeds, the string or character passed to it holds exactly the text that was consumed and not ignored; parsing succeeds and stops at the same character whether or not the text is stored.", "quantifier": "all parsers built with these combinators whose attribute is a character, a text or unused, nested to any depth; all inputs; all initial values of the string; all values of uninitialised characters", "why_tests_cant": "Any nesting of combinators, any input, and memory that is not initialised.", "anchors": ["libvast/vast/concept/parseable/core", "libvast/vast/concept/parseable/string", "libvast/vast/concept/parseable/detail/container.hpp", "libvast/vast/concept/parseable/detail/char_helpers.hpp"]}
{"id": "C183", "title": "Recursive grammars accept what they say", "statement": "A parser of a grammar with rules that refer to one another accepts an input exactly if the grammar, read as a parsing expression grammar, does, and stops at the same character; if it fails, it leaves the position where it was.", "quantifier": "all grammars built with the combinators and rules, with any number of rules that refer to one another in any way; all inputs", "why_tests_cant": "Any recursion and any input.", "anchors": ["libvast/vast/concept/parseable/core/rule.hpp", "libvast/vast/concept/parseable/core"]}
{"id": "C184", "title": "Parsing with recursive grammars ends", "statement": "Parsing a query, data, a type or the condition of a Sigma rule ends for every text.", "quantifier": "all texts, with any nesting of parentheses, lists, maps, records and types; all grammars of rules", "why_tests_cant": "Any nesting and any text, also malformed ones.", "anchors": ["libvast/src/concept/parseable/vast/expression.cpp", "libvast/vast/concept/parseable/vast/data.hpp", "libvast/src/concept/parseable/vast/type.cpp", "libvast/src/detail/sigma.cpp", "libvast/vast/concept/parseable/core/rule.hpp"]}
{"id": "C185", "title": "Combined printers write what their expression says", "statement": "A printer made of smaller ones by sequence, choice, repetition, lists, options, look-ahead and guards succeeds exactly if the value has a text by its expression, and then has written exactly this text.", "quantifier": "all printers built with the combinators, nested to any depth; all values of their types", "why_tests_cant": "Any nesting of combinators and any value.", "anchors": ["libvast/vast/concept/printable/core", "libvast/vast/concept/printable/string"]}
{"id": "C186", "title": "Commands leave nothing running", "statement": "When export, explore, pivot or import returns, with success or an error, every actor that it has started has been told to stop or is known to be down.", "quantifier": "all combinations of failing steps; all sequences of messages to the command, of any length", "why_tests_cant": "Any step can fail and any messages can come in any order.", "anchors": ["libvast/src/system/sink_command.cpp sink_command", "libvast/src/system/explore_command.cpp explore_command", "libvast/src/system/pivot_command.cpp pivot_command", "libvast/src/system/import_command.cpp import_command"]}
{"id": "C187", "title": "Commands report that they failed", "statement": "If a step of export, explore, pivot or import fails, an actor it depends on goes down with an error, or the timeout passes, the command returns an error; and an error that it returns has such a cause.", "quantifier": "all combinations of failing steps; all sequences of messages to the command, of any length", "why_tests_cant": "Any step can fail and any messages can come in any order.", "anchors": ["libvast/src/system/sink_command.cpp sink_command", "libvast/src/system/explore_command.cpp explore_command", "libvast/src/system/pivot_command.cpp pivot_command", "libvast/src/system/import_command.cpp import_command"]}
{"id": "C188", "title": "Commands come to an end", "statement": "An export, exploration, pivot or import returns when the actors it waits for go down, and can be interrupted with SIGINT or SIGTERM.", "quantifier": "all combinations of failing steps; all sequences of messages to the command, of any length", "why_tests_cant": "Any messages can come in any order and number.", "anchors": ["libvast/src/system/sink_command.cpp sink_command", "libvast/src/system/explore_command.cpp explore_command", "libvast/src/system/pivot_command.cpp pivot_command", "libvast/src/system/import_command.cpp import_command"]}
{"id": "C189", "title": "Hash indexes are wide enough for their partition", "statement": "For every capacity of partitions, fields with the attribute index=hash get an index, and its digests are wide enough that about one collision is expected among so many values, but not wider, up to 8 bytes.", "quantifier": "all cardinalities, as signed 64-bit numbers", "why_tests_cant": "Any number can be configured as the size of a partition.", "anchors": ["libvast/src/value_index_factory.cpp make", "libvast/vast/detail/bit.hpp"]}
{"id": "C190", "title": "Powers of two", "statement": "The functions for powers of two recognize them, find the next one below and above a number, and the number of bits that it needs.", "quantifier": "all non-negative signed 64-bit numbers", "why_tests_cant": "All numbers.", "anchors": ["libvast/vast/detail/bit.hpp ispow2, ceil2, floor2, log2p1"]}
{"id": "C191", "title": "The service manager is told that the node is ready", "statement": "When the node is up, it sends exactly one message READY=1 to the socket that NOTIFY_SOCKET names, which can be a path or an abstract socket, says whether this failed, and removes the variable.", "quantifier": "all values of NOTIFY_SOCKET; all sockets that others listen at", "why_tests_cant": "Any address can be configured, and services run in environments that differ from those of tests.", "anchors": ["libvast/src/systemd.cpp notify_ready", "libvast/src/detail/posix.cpp uds_sendmsg"]}
{"id": "C192", "title": "Logs go to the journal if the standard error does", "statement": "By default, the node logs to the journal exactly if JOURNAL_STREAM has the device and the inode of its standard error.", "quantifier": "all values of JOURNAL_STREAM; all devices and inodes", "why_tests_cant": "All numbers and texts.", "anchors": ["libvast/src/systemd.cpp connected_to_journal"]}
{"id": "C193", "title": "Messages are logged up to the verbosity that is configured", "statement": "On the console one sees exactly the messages up to the verbosity from the command line, or else from the configuration, or else info; the log file has exactly those up to its own verbosity. Neither verbosity changes the other. Verbosities that are no levels are refused. Servers log to the given file or to server.log in the directory of the database, and clients to no file unless one is given for them.", "quantifier": "all options, texts, levels of messages and levels that VAST is built with", "why_tests_cant": "Options combine in more ways than tests try, and the logger has one level in front of the two of its sinks.", "anchors": ["libvast/src/logger.cpp setup_spdlog", "libvast/src/logger.cpp loglevel_to_int", "libvast/src/logger.cpp vast_loglevel_to_spd", "libvast/vast/logger.hpp"]}
