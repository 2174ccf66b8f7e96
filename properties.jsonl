{"id": "C01", "title": "Hashes are FNV-1 / FNV-1a however the data is fed in", "statement": "For every byte string, hashing it with Sum64/String64 (resp. Sum64a/String64a), or by any sequence of Write / WriteString / WriteByte / WriteUint64 calls on a fresh (or Reset) hasher whose bytes concatenate to it, gives exactly the FNV-1 (resp. FNV-1a) 64-bit hash of the concatenated bytes, WriteUint64 contributing the 8 big-endian bytes; Sum appends exactly the 8 big-endian bytes of Sum64 and leaves the prefix alone.", "quantifier": "all byte strings, all ways of splitting them into calls of the four write methods", "why_tests_cant": "there are infinitely many inputs and splits; the tests compare a handful with the standard library", "anchors": ["internal/hash/fnv/fnv.go: Fnv64.Write, WriteByte, WriteString, WriteUint64, Sum, Fnv64a.*, String64, String64a, Sum64, Sum64a, sum"]}
{"id": "C02", "title": "Changing one byte always changes the hash", "statement": "Two byte strings of the same length that differ in exactly one position never have the same FNV-1 (or FNV-1a) hash; consequently two observations whose (single) key values have the same length and differ in one byte never share a collation record.", "quantifier": "all byte strings, all positions, all replacement bytes", "why_tests_cant": "2^64-size hash space; no test can enumerate it", "anchors": ["internal/hash/fnv/fnv.go: Sum64, Sum64a", "internal/collation/schema.go: FVList.KeyValue"]}
{"id": "C03", "title": "A bit bucket is an array of saturating counters", "statement": "For every width 1..8 and every number of buckets, any sequence of Set, IncN and Reset calls with in-range indices never panics and leaves Get returning, for every bucket, exactly what an array of integers saturating at 2^w-1 would hold: writing one bucket never disturbs another, including buckets that straddle byte boundaries.", "quantifier": "all widths, all bucket counts, all operation sequences, all values", "why_tests_cant": "straddling patterns depend on index*width mod 8 and on neighbours' contents; tests look at three literals", "anchors": ["internal/bitbucket/bitbucket.go: New, Get, Set, IncN, extract, set, incn, Reset, Max"]}
{"id": "C04", "title": "CountN counts", "statement": "After any history, CountN(v) is the number of bucket indices i in [0,n) with Get(i)=v, so the counts over all v sum to n.", "quantifier": "all bit buckets, all values v", "why_tests_cant": "needs all contents", "anchors": ["internal/bitbucket/bitbucket.go: CountN, Count"]}
{"id": "C05", "title": "Bit bucket serialisation round-trips", "statement": "For every well-formed bit bucket b, the bytes WriteTo emits, read back by ReadFrom through a reader that delivers them in any chunks, or adopted by WithBytes (with any extra bytes after them), give a bit bucket with the same width, count and contents; WriteTo emits exactly Len() = Len(n,w) bytes and reports that count, and with a failing writer the bytes emitted are a prefix and the count reported is the number actually accepted.", "quantifier": "all bit buckets, all ways a reader may chunk the data, all points at which a writer may fail", "why_tests_cant": "infinitely many buckets and chunkings", "anchors": ["internal/bitbucket/bitbucket.go: WriteTo, ReadFrom, WithBytes, Len, length"]}
{"id": "C06", "title": "ReadFrom rejects damaged streams", "statement": "ReadFrom never reports success on a stream whose version byte is not 1, that ends before the declared data, or that carries extra bytes after it; it reports ErrIncompatibleVersion, io.ErrUnexpectedEOF and io.ErrShortBuffer respectively, for every chunking by the reader.", "quantifier": "all byte streams, all readers obeying the io.Reader contract", "why_tests_cant": "all cut points, all chunkings", "anchors": ["internal/bitbucket/bitbucket.go: ReadFrom"]}
{"id": "C07", "title": "Opening a serialised bit bucket never accepts what New would refuse and never panics", "statement": "For every byte slice, WithBytes returns either an error or a bit bucket of width at most 8 whose buckets can all be read without panicking; it never panics. The same holds for ReadFrom.", "quantifier": "all byte slices / streams", "why_tests_cant": "needs hostile headers (overflowing or negative counts, oversized widths), which the tests never build", "anchors": ["internal/bitbucket/bitbucket.go: WithBytes, ReadFrom, length"]}
{"id": "C08", "title": "WithBytes shares the caller's buffer", "statement": "Writing through a bit bucket opened by WithBytes is visible in the caller's buffer: re-opening the buffer yields the updated bucket, and bytes outside the bucket area (header, trailing bytes) are untouched.", "quantifier": "all buffers, all write sequences", "why_tests_cant": "all contents", "anchors": ["internal/bitbucket/bitbucket.go: WithBytes, Set, IncN"]}
{"id": "C09", "title": "Bloom filter: no false negatives", "statement": "For every filter with at least one bit, after any sequence of Add calls Has(v) is true for every v added since creation or the last Reset; a false answer means v was never added. No call panics.", "quantifier": "all m >= 1, all k, all sequences of byte strings", "why_tests_cant": "false negatives could hide in any m/k/hash combination", "anchors": ["internal/summary/bloom/bloom.go: NewBits, Add, Has, newHasher, hasher.next, Reset"]}
{"id": "C10", "title": "Bloom filter: set semantics", "statement": "The state of a bloom filter depends only on the set of values added: order and repetition do not matter, and adding more values never turns a positive answer negative. A fresh filter (or one just Reset) with k >= 1 answers false for everything.", "quantifier": "all sequences, permutations and repetitions", "why_tests_cant": "all histories", "anchors": ["internal/summary/bloom/bloom.go: Add, Has, Reset"]}
{"id": "C11", "title": "Bloom filter serialisation round-trips", "statement": "WriteTo then ReadFrom (any chunking) or WithBytes gives a filter with the same m, k and bits, so Has answers identically for every value; Len() is the number of bytes written; a stream with a wrong version, truncated or with trailing data is refused.", "quantifier": "all filters, all chunkings, all values queried", "why_tests_cant": "all contents", "anchors": ["internal/summary/bloom/bloom.go: WriteTo, ReadFrom, WithBytes, Len"]}
{"id": "C12", "title": "HyperLogLog: the estimate depends only on the set of distinct values", "statement": "For every precision 4..18, after any sequence of Add calls each register holds the maximum rank of the values hashed to it; hence the counter state, and every estimate (Count, LinearCount, HarmonicCount, PoissonCount), is the same for any order and any repetition of the added values, and re-adding a value never changes the estimate.", "quantifier": "all precisions, all sequences of byte strings", "why_tests_cant": "all histories; ranks up to 61 need astronomically rare hashes", "anchors": ["internal/summary/hll/hll.go: New, Add, Count, initParams"]}
{"id": "C13", "title": "HyperLogLog serialisation round-trips", "statement": "WriteTo then ReadFrom (any chunking) or WithBytes yields a counter with the same precision and registers, so all estimates agree and further Adds behave identically; Len() = Len(p) is the number of bytes written; damaged streams (wrong version, truncated, trailing) are refused.", "quantifier": "all precisions, all register contents, all chunkings", "why_tests_cant": "all contents", "anchors": ["internal/summary/hll/hll.go: WriteTo, ReadFrom, WithBytes, Len"]}
{"id": "C14", "title": "HyperLogLog: an empty counter estimates 0 and a counter that has seen exactly one distinct value estimates 1", "statement": "Count() is 0 for a fresh or reset counter and 1 after any number of additions of one single value.", "quantifier": "all precisions 4..18, all values", "why_tests_cant": "all values and precisions; depends on rounding up a logarithm", "anchors": ["internal/summary/hll/hll.go: Count, CountN, initParams"]}
{"id": "C15", "title": "HyperLogLog distinguishes short similar values", "statement": "Distinct values are spread over registers independently of their shape: in particular values sharing a prefix and differing in the last byte are counted as distinct (the estimate grows with the number of distinct values).", "quantifier": "all prefixes, all precisions", "why_tests_cant": "tests use random 8-byte values only; the defect is a property of all inputs of a given shape", "anchors": ["internal/summary/hll/hll.go: Add", "internal/hash/fnv/fnv.go: Sum64"]}
{"id": "C16", "title": "Opening a serialised HyperLogLog counter or bloom filter never panics and never yields a counter whose Add can panic", "statement": "For every byte slice, hll.WithBytes and bloom.WithBytes return an error or a structure on which Add/Has/Count do not panic.", "quantifier": "all byte slices", "why_tests_cant": "needs hostile buffers", "anchors": ["internal/summary/hll/hll.go: WithBytes, Add", "internal/summary/bloom/bloom.go: WithBytes, Add"]}
{"id": "C17", "title": "Streaming mean and variance are exact up to rounding", "statement": "In exact arithmetic, after any non-empty sequence of Update calls Mean() is the arithmetic mean and Variance() the unbiased sample variance (divisor n-1) of the observations, Sum() their sum and Count() their number; Variance() is NaN for fewer than two.", "quantifier": "all sequences of observations of any length", "why_tests_cant": "the Welford recurrence must be right for every length and every order", "anchors": ["internal/summary/stat64/stats.go: Update, Mean, Variance, Sum, Count"]}
{"id": "C18", "title": "UpdateMulti is repeated Update", "statement": "UpdateMulti(vs) leaves the buffer bit-for-bit in the state that calling Update on each element in turn leaves, for IEEE doubles including NaN and infinities; so batching never changes a statistic.", "quantifier": "all buffers, all sequences of doubles", "why_tests_cant": "all sequences, bit-level", "anchors": ["internal/summary/stat64/stats.go: Update, UpdateMulti"]}
{"id": "C19", "title": "Integer sums are exact", "statement": "If every observation is an integer-valued double and every running total stays below 2^53 in magnitude, Sum() is the exact integer sum and Count() the exact number of observations, with IEEE double arithmetic.", "quantifier": "all such sequences", "why_tests_cant": "infinitely many sequences; rounding at each step", "anchors": ["internal/summary/stat64/stats.go: Update, Sum, Count"]}
{"id": "C20", "title": "Variance is never negative", "statement": "With IEEE double arithmetic, as long as no intermediate overflows or observation is NaN/infinite, Variance() is never negative, whatever the rounding errors.", "quantifier": "all sequences of finite doubles", "why_tests_cant": "rounding behaviour over all sequences", "anchors": ["internal/summary/stat64/stats.go: Update, Variance"]}
{"id": "C21", "title": "A constant stream has exact statistics", "statement": "If the same finite double is observed n >= 1 times, Mean() equals it exactly and Variance() is exactly 0 (n >= 2), with IEEE arithmetic.", "quantifier": "all finite doubles, all n", "why_tests_cant": "all doubles and lengths", "anchors": ["internal/summary/stat64/stats.go: Update, Mean, Variance"]}
{"id": "C22", "title": "max and min report the extreme observation", "statement": "After any non-empty sequence of observations of a field, max (min) reports a value that was observed and is >= (<=) every observation.", "quantifier": "all sequences of doubles (including negative ones, NaN and infinities)", "why_tests_cant": "all orders; NaN handling", "anchors": ["internal/collation/measure.go: Max.ContWriter, Max.ContReader, Min.ContWriter, Min.ContReader"]}
{"id": "C23", "title": "Compiled record layout is sound", "statement": "For every schema whose measures have valid parameters, Compile assigns byte ranges that lie inside [0, Size()), and no two writers of different measures overlap, so updating one measure never changes what another measure reports.", "quantifier": "all schemas: any number and order of fields and measures", "why_tests_cant": "all schemas", "anchors": ["internal/collation/compile.go: Schema.Compile"]}
{"id": "C24", "title": "Every declared measure can be read back under its name", "statement": "For every schema, each field measure of kind sum, mean, var, max, min or uniquecount and each record-level count is readable as name(field) (count(*)), and when several of sum/mean/var are declared for one field they all report statistics of the same observation stream.", "quantifier": "all schemas", "why_tests_cant": "all combinations/orders of measures", "anchors": ["internal/collation/compile.go: Schema.Compile", "internal/collation/schema.go: Collator.Read"]}
{"id": "C25", "title": "A record's statistics are the statistics of its observations", "statement": "Starting from a zeroed buffer, after applying any sequence of observations (all accepted, first one flagged as initialising), reading each declared measure returns the count, running sum, mean, variance, maximum, minimum and cardinality estimate of exactly the values those observations carried for that field, regardless of which other fields and measures are present.", "quantifier": "all schemas, all sequences of observations, including ones in which a field is missing", "why_tests_cant": "all histories", "anchors": ["internal/collation/schema.go: Collator.Update, Collator.Read", "internal/collation/measure.go"]}
{"id": "C26", "title": "A rejected observation leaves no trace", "statement": "If an observation is rejected with an error, no statistic of any collation changes.", "quantifier": "all observations, all schemas, all prior states", "why_tests_cant": "needs every failure point inside a multi-measure, multi-store update", "anchors": ["internal/collation/schema.go: Collator.Update", "internal/bufmap/bufmap.go: Map.Update", "internal/server/server.go: recvObservation"]}
{"id": "C27", "title": "Read returns exactly the requested known measures in request order", "statement": "Collator.Read returns one value per requested (field, measure) pair that the collation maintains, in request order, each labelled with the requested names, and silently omits pairs it does not maintain.", "quantifier": "all schemas, all requests (including repeated and unknown names)", "why_tests_cant": "all requests", "anchors": ["internal/collation/schema.go: Collator.Read, FMV"]}
{"id": "C28", "title": "The record key depends only on the key fields", "statement": "Routing depends only on the values of the collation's key fields: adding, removing or reordering other fields (and reordering the key fields in the row) never changes the record an observation or query goes to; an observation and a query agreeing on the key fields go to the same record. An observation missing a key field is ignored without error, a query missing one gets an empty result.", "quantifier": "all rows/queries with unique field names, all key lists", "why_tests_cant": "all rows and permutations", "anchors": ["internal/collation/schema.go: FVList.KeyValue", "internal/storage/storage.go: Store.Write, Store.Read"]}
{"id": "C29", "title": "Observations with different key values go to different records", "statement": "If two observations differ in the value of some key field they update different records.", "quantifier": "all pairs of rows", "why_tests_cant": "a collision needs specific inputs; tests never look for one", "anchors": ["internal/collation/schema.go: FVList.KeyValue", "internal/hash/fnv/fnv.go"]}
{"id": "C30", "title": "bufmap: a key reads back what was last written for it", "statement": "In any sequential history of Update and Get calls, Get(k) reports found exactly if some Update(k) has succeeded in finding a slot, and then fills the caller's stride-sized buffer with the bytes left by the last update of k; it never panics.", "quantifier": "all map sizes, strides, keys, histories", "why_tests_cant": "depends on slot index arithmetic for every slot; the test uses one key in one slot", "anchors": ["internal/bufmap/bufmap.go: Map.Get, Map.Update, pos"]}
{"id": "C31", "title": "bufmap: init is signalled exactly once per key", "statement": "The update function is told init=true exactly on the first update of each key.", "quantifier": "all histories, all collision patterns, all schedules", "why_tests_cant": "collisions and races", "anchors": ["internal/bufmap/bufmap.go: Map.Update"]}
{"id": "C32", "title": "bufmap: keys do not interfere", "statement": "Updating a key never changes the buffer or presence of any other key; each key occupies one slot forever; the update function sees exactly the bytes left by the previous update of the same key (zeroes the first time).", "quantifier": "all histories, all keys", "why_tests_cant": "all collision patterns", "anchors": ["internal/bufmap/bufmap.go: Map.Update"]}
{"id": "C33", "title": "bufmap: when updates fail", "statement": "Update returns ErrInvalidKey exactly for key 0, and ErrOutOfSlots exactly when the key is new and all (at most 11) candidate slots are held by other keys; once a key has been accepted its later updates are never refused; in every failing case the map is unchanged and the function is not called.", "quantifier": "all maps and keys", "why_tests_cant": "all occupancy patterns", "anchors": ["internal/bufmap/bufmap.go: Map.Update, maxReprobe"]}
{"id": "C34", "title": "bufmap: concurrent updates are atomic and none is lost", "statement": "Under any interleaving of any number of goroutines calling Update and Get, updates of one key are applied one at a time, each to the result of the previous one: when all have returned, the buffer is the result of applying the accepted update functions in some order.", "quantifier": "all schedules, any number of goroutines", "why_tests_cant": "schedules", "anchors": ["internal/bufmap/bufmap.go: Map.Update"]}
{"id": "C35", "title": "bufmap: concurrent Get never sees a half-written buffer", "statement": "Under any interleaving, the bytes returned by Get are a (prefix of a) buffer that some completed update (or the initial zero state) left, current at some moment between the call and the return of Get \u2014 provided fewer than 2^31 updates of that slot complete while it copies.", "quantifier": "all schedules", "why_tests_cant": "schedules; 32-bit sequence wrap-around", "anchors": ["internal/bufmap/bufmap.go: Map.Get"]}
{"id": "C36", "title": "bufmap: a panicking update function does not wedge the map", "statement": "After an update function panics, later calls for that key still complete.", "quantifier": "all histories with panicking functions", "why_tests_cant": "needs fault injection", "anchors": ["internal/bufmap/bufmap.go: Map.Update, Map.Get", "internal/summary/hll/hll.go: New"]}
{"id": "C37", "title": "seqlock: Get is an atomic snapshot", "statement": "Under any interleaving of Put, Update and Get, Get returns a value that was the complete content at some moment during the call \u2014 provided fewer than 2^31 writes complete during it.", "quantifier": "all schedules, any number of readers and writers", "why_tests_cant": "schedules; 32-bit wrap-around", "anchors": ["internal/seqlock/seqlock.go: Get, Put, Update"]}
{"id": "C38", "title": "seqlock: Update is atomic and aborts cleanly", "statement": "Concurrent Put/Update calls take effect one at a time, each Update seeing the result of the previous write; if the function returns an error the data is unchanged and the error is returned.", "quantifier": "all schedules, all update functions", "why_tests_cant": "schedules", "anchors": ["internal/seqlock/seqlock.go: Put, Update"]}
{"id": "C39", "title": "incmap: a key's value is the sum of its increments", "statement": "Under any interleaving of any number of goroutines calling Inc and Get, the value of a key is the sum mod 2^64 of the increments whose Inc took effect (all those that returned true); Inc returns false only for key 0 or when the key is new and its 11 candidate slots are taken, and a false Inc has no effect.", "quantifier": "all schedules, all keys and amounts", "why_tests_cant": "schedules and collisions", "anchors": ["internal/incmap/incmap.go: Map.Inc, Map.Get"]}
{"id": "C40", "title": "incmap/bufmap: a key never written is not found", "statement": "Get(k) reports not-found for every key k that was never successfully written, including k = 0.", "quantifier": "all maps, all keys", "why_tests_cant": "the reserved key 0 and probing past other keys", "anchors": ["internal/incmap/incmap.go: Map.Get", "internal/bufmap/bufmap.go: Map.Get"]}
{"id": "C41", "title": "Observation lines parse to their fields", "statement": "For every timestamp, delimiter and list of name=value pairs that avoid the delimiter (names also avoiding '='), the line ts<d>n1=v1<d>n2=v2... parses to exactly that timestamp (microseconds) and those pairs in order; values may contain '=' and any other byte.", "quantifier": "all lines of the format", "why_tests_cant": "infinitely many lines", "anchors": ["internal/server/server.go: parseRow, parseFV"]}
{"id": "C42", "title": "Line parsing is total and rejects lines without a timestamp", "statement": "parseRow never panics; it fails exactly when the line does not start with a digit or the leading digits (at most 20) exceed the 64-bit range; field bytes are never invented: joining the parsed fields gives back the line.", "quantifier": "all byte strings", "why_tests_cant": "all byte strings", "anchors": ["internal/server/server.go: parseRow, parseFV"]}
{"id": "C43", "title": "A batch is applied in order up to the first bad line", "statement": "POST /obs applies each line, in order, to every store in order, stopping at the first line or store that fails; the effect is the same as posting the accepted lines one by one; 200 means every line was applied to every store it routes to.", "quantifier": "all bodies, all stores", "why_tests_cant": "all failure positions", "anchors": ["internal/server/server.go: recvObservation", "internal/storage/storage.go: Store.Write"]}
{"id": "C44", "title": "HTTP dispatch", "statement": "The status code is determined by method, path and content type as documented: only POST on /obs, only GET/POST on /collation/{name}; unknown collations, empty or nested names get 404, unknown media types 415, malformed queries 400; no refused request changes any statistic.", "quantifier": "all requests", "why_tests_cant": "all requests", "anchors": ["internal/server/server.go: registerHandlers, recvObservation, queryCollation, ServeHTTP"]}
{"id": "C45", "title": "Queries parse to what they say", "statement": "For every list of measure(field) selections and key='value' criteria made of ordinary characters (and any case/spacing of the keywords), RoughParse returns exactly those measures grouped by field (in some field order) and exactly those criteria in order.", "quantifier": "all such queries", "why_tests_cant": "infinitely many queries", "anchors": ["internal/query/rough.go: RoughParse, queryRe, selectRe, whereRe"]}
{"id": "C46", "title": "Any key value that can be observed can be queried", "statement": "For every key value that can be sent in an observation there is a query that addresses its record.", "quantifier": "all values", "why_tests_cant": "values with quotes, newlines, or the word where", "anchors": ["internal/query/rough.go: whereRe, queryRe", "internal/server/server.go: parseRow"]}
{"id": "C47", "title": "Malformed queries are refused", "statement": "RoughParse fails exactly when the text is not of the shape select ... where ... ; it never panics.", "quantifier": "all strings", "why_tests_cant": "all strings", "anchors": ["internal/query/rough.go: RoughParse, queryRe"]}
{"id": "C48", "title": "End to end: count(*) is the number of accepted observations", "statement": "For the whole server pipeline (POST lines, route, store, query), after any sequence of accepted observation posts, querying count(*) for a key value returns the number of posted lines with that key value.", "quantifier": "all sequences of posts, all stores, all keys", "why_tests_cant": "composition of every layer over all histories", "anchors": ["internal/server/server.go", "internal/storage/storage.go", "internal/bufmap/bufmap.go", "internal/collation/schema.go", "internal/query/rough.go"]}
{"id": "C49", "title": "End to end: no cross-talk between collations or keys", "statement": "An observation posted for one key value never changes the answer to a query about another key value or about another collation.", "quantifier": "all histories, all keys", "why_tests_cant": "composition", "anchors": ["internal/server/server.go", "internal/storage/storage.go", "internal/bufmap/bufmap.go", "internal/collation/schema.go"]}
{"id": "C50", "title": "Meanvar computes the mean and the sample variance", "statement": "Meanvar returns the mean and the sample variance of its input (NaN where undefined), in agreement with stat64.", "quantifier": "all float lists", "why_tests_cant": "all lists", "anchors": ["internal/stats/stats.go: Meanvar, Sum"]}
{"id": "C51", "title": "Shuffle permutes", "statement": "For every random source obeying the Intn contract, Shuffle rearranges its argument (same multiset); ShuffleRepeated(n, src) returns n entries all drawn from src and, for n >= len(src), containing every entry of src; Printable is within 0x20..0x7E; Shuffle can produce every permutation.", "quantifier": "all inputs, all random sources", "why_tests_cant": "all random streams", "anchors": ["internal/testutil/rand.go: Shuffle, ShuffleRepeated, Printable, RandomByteSlices"]}
{"id": "C52", "title": "Closeness test means what it says", "statement": "Close64(a,b,tol) holds only if a and b differ by at most the given relative tolerance (or are adjacent); Equiv64 and EquivOrCloseFloat64 also accept two infinities and two NaNs.", "quantifier": "all doubles", "why_tests_cant": "all sign combinations", "anchors": ["internal/testutil/float.go: Close64, AdjacentEqual64, Equiv64, EquivOrCloseFloat64"]}
{"id": "C53", "title": "The mean lies within the range of the observations", "statement": "With IEEE double arithmetic, for every non-empty sequence of finite doubles whose pairwise differences do not overflow, Mean() lies between the smallest and the largest observation (rounding never pushes it outside).", "quantifier": "all sequences of finite doubles", "why_tests_cant": "rounding depends on every operand", "anchors": ["internal/summary/stat64/stats.go: Update, Mean"]}
{"id": "C54", "title": "The rounding error of Sum is bounded", "statement": "For every sequence of n finite doubles whose Sum() is finite, Sum() differs from the exact sum by at most ((1+2^-53)^n - 1) times the sum of the magnitudes.", "quantifier": "all sequences of finite doubles", "why_tests_cant": "worst-case accumulation over all sequences", "anchors": ["internal/summary/stat64/stats.go: Update, Sum"]}
{"id": "C55", "title": "HyperLogLog: every estimate returns", "statement": "For every counter obtained by New(p), 4 <= p <= 18, and any calls of Add and Reset, Count, LinearCount, HarmonicCount and PoissonCount return: the iterations of the sigma and tau corrections terminate and no index is out of range.", "quantifier": "all precisions, all histories of Add and Reset", "why_tests_cant": "the correction loops run until a floating-point sum stops changing, for every register content", "anchors": ["internal/summary/hll/hll.go: Count, LinearCount, HarmonicCount, PoissonCount, sigma, tau, poisson, harmonic"]}
{"id": "C56", "title": "HyperLogLog: adding a value never lowers the estimate", "statement": "For every counter and every value, Count() after Add(v) is at least Count() before.", "quantifier": "all counters, all values", "why_tests_cant": "every switch-over between estimators, for every register content", "anchors": ["internal/summary/hll/hll.go: Count, thresholds"]}
{"id": "C57", "title": "HyperLogLog: the estimate is never negative", "statement": "Count() is at least 0 for every counter.", "quantifier": "all histories of Add", "why_tests_cant": "needs values whose hashes fill the registers", "anchors": ["internal/summary/hll/hll.go: Count"]}
{"id": "C58", "title": "Every key value can be recorded", "statement": "For every key value an observation of it is accepted by an empty store (if its other fields are valid).", "quantifier": "all key values", "why_tests_cant": "needs an input whose hash is the reserved key", "anchors": ["internal/storage/storage.go: Store.Write", "internal/bufmap/bufmap.go: Map.Update", "internal/collation/schema.go: FVList.KeyValue"]}
{"id": "C59", "title": "The statistics of a key value are those of its observations", "statement": "After any accepted writes to a store, a query of a declared measure for a key value returns that statistic of exactly the observations with the key value.", "quantifier": "all histories, all schemas, all keys", "why_tests_cant": "composition of hashing, probing, record layout and every measure over all histories", "anchors": ["internal/storage/storage.go: Store.Write, Store.Read", "internal/bufmap/bufmap.go: Map.Update, Map.Get", "internal/collation/schema.go: Collator.Update, Collator.Read"]}
{"id": "C60", "title": "Bloom: a value sets k distinct bits", "statement": "Adding a value to an empty filter sets exactly k distinct bits (all bits if there are fewer), namely those that double hashing selects, and never any other; every bit of the filter can be used.", "quantifier": "all filters, all values, all histories", "why_tests_cant": "depends on the arithmetic of two 64-bit hashes modulo every filter size", "anchors": ["internal/summary/bloom/bloom.go: Add, newHasher, next"]}
{"id": "C61", "title": "Bloom: Count estimates the number of values added", "statement": "Count() is 0 for an empty or reset filter, otherwise the estimate m/k ln(m/(m-x)) for x set bits rounded up; it is never negative and never decreases when values are added.", "quantifier": "all filters, all histories", "why_tests_cant": "rounding and the logarithm for every fill level, including a full filter", "anchors": ["internal/summary/bloom/bloom.go: Count", "internal/bitbucket/bitbucket.go: CountN"]}
{"id": "C62", "title": "Bloom: ErrorRate estimates the rate of false positives", "statement": "ErrorRate() is a number from 0 to 1, 0 for an empty filter, and (1 - e^(-kn/m))^k for n values added.", "quantifier": "all filters, all histories", "why_tests_cant": "all fill levels", "anchors": ["internal/summary/bloom/bloom.go: ErrorRate"]}
{"id": "C63", "title": "Bloom: New chooses the textbook size", "statement": "New(n, p) makes a usable filter with m = ceil(n ln(1/p)/(ln 2)^2) bits and k = ceil(m/n ln 2) hash functions (at most 255), suitable for n items with a false positive rate of p; Len(n, p) is the number of bytes WriteTo writes for it.", "quantifier": "all n >= 1 and 0 < p < 1", "why_tests_cant": "all parameters", "anchors": ["internal/summary/bloom/bloom.go: New, mk, Len, NewBits"]}
{"id": "C64", "title": "Store: concurrent Writes and Reads look as if they were executed one after the other", "statement": "With any number of goroutines calling Write and Read of one store at the same time, a Read that finds a record sees the record that results from serving, one after the other, Writes of that key in an order that respects time: every Write that had returned before the Read returned is in it, no Write that was called later is, and no half finished Write is seen. In particular count(*) reports at least the number of observations whose Write had returned and at most the number of those whose Write had been called; and a Read called after some Write of that key had returned finds a record.", "quantifier": "all schemas, all interleavings of any number of Writes and Reads", "why_tests_cant": "races between goroutines: all schedules", "anchors": ["internal/storage/storage.go: Write, Read, Do", "internal/bufmap/bufmap.go: Update, Get"]}
{"id": "C65", "title": "Store: sum, mean and variance are exact under concurrency", "statement": "With any number of goroutines calling Write and Read of one store at the same time, and all Writes of the key accepted, a Read that finds a record reports the running sum, mean and sample variance of the numbers carried by the observations of that key taken in an order that respects time: every observation whose Write had returned is included, none whose Write was not yet called, none twice; also while several goroutines are creating the record.", "quantifier": "all schemas, all interleavings of any number of Writes and Reads", "why_tests_cant": "races between goroutines: all schedules", "anchors": ["internal/storage/storage.go: Write, Read, Do", "internal/bufmap/bufmap.go: Update, Get", "internal/collation/schema.go: Update, Read"]}
{"id": "C66", "title": "Store: every measure is as if the observations were written one after the other", "statement": "With any number of goroutines calling Write and Read of one store at the same time, and all Writes of the key accepted, every measure (count, sum, mean, var, max, min, uniquecount) that a Read reports is that of the record of the observations of the key written one after the other in an order that respects time.", "quantifier": "all schemas, all interleavings of any number of Writes and Reads", "why_tests_cant": "races between goroutines: all schedules, in particular between the first Writes of a key", "anchors": ["internal/storage/storage.go: Write, Read, Do", "internal/bufmap/bufmap.go: Update, Get", "internal/collation/schema.go: Update, Read"]}
{"id": "C67", "title": "HyperLogLog: the harmonic estimate is the published raw estimate", "statement": "For every counter, HarmonicCount() is the published raw HyperLogLog estimate alpha * m^2 / sum(2^-M[j]) over the m registers (to within a small relative error, rounded up), and Count() is the same number in the range where it uses the harmonic mean.", "quantifier": "all precisions, all histories of Add and Reset", "why_tests_cant": "every register content; floating-point rounding of up to 2^18 additions", "anchors": ["internal/summary/hll/hll.go: HarmonicCount, harmonic, alpha, Count"]}
{"id": "C68", "title": "Server: what was acknowledged is counted, under concurrent requests", "statement": "With any number of clients posting observations and querying at the same time: a query for count(*) received after some posts had been answered with status 200 reports at least the number of observations of those posts that agree with the criteria on the key fields, and at most the number of such observations received until it is answered; when no post is in progress it reports the exact number. Requests handled one at a time are the special case of one goroutine.", "quantifier": "all schemas, all clients' requests, all interleavings of the handlers", "why_tests_cant": "races between request handlers: all schedules", "anchors": ["internal/server/server.go: ServeHTTP, recvObservation, recvObservation, queryCollation", "internal/storage/storage.go: Write, Read", "internal/bufmap/bufmap.go: Update, Get"]}
{"id": "C69", "title": "HyperLogLog: PoissonCount is Ertl's improved raw estimate", "statement": "For every counter, PoissonCount() is the estimate of Ertl (2016) that the code's comments name: alpha_inf * m^2 / (m*sigma(C_0/m) + sum_{k=1..q} C_k 2^-k + m*tau(1 - C_{q+1}/m) 2^-q), where C_k is the number of registers holding k, q = 64 - p, alpha_inf = 1/(2 ln 2), to within a small relative error, rounded up; an empty counter gives 0. Count() is the same number in the range where it uses this estimator.", "quantifier": "all precisions, all histories of Add and Reset", "why_tests_cant": "every register content; two infinite series evaluated in floating point until the sum no longer changes", "anchors": ["internal/summary/hll/hll.go: PoissonCount, poisson, sigma, tau, alpha, Count"]}
{"id": "C70", "title": "stat64: a summary uses the first 32 bytes of its buffer", "statement": "Update, UpdateMulti and Reset of a summary WithBytes(buf) change the first 32 bytes of buf only, in a way that depends on these only; Count, Sum, Mean and Variance read these only. On a shorter buffer (without spare capacity) Update and UpdateMulti panic, Reset clears what there is, and an accessor panics exactly if the bytes it reads are missing.", "quantifier": "all buffers, all calls", "why_tests_cant": "all buffer lengths and contents", "anchors": ["internal/summary/stat64/stats.go: WithBytes, Reset, Update, UpdateMulti, Count, Sum, Mean, Variance, Len"]}
{"id": "C71", "title": "stats: See is the standard error of the estimate", "statement": "See(vals, e) is sqrt(sum((v-e)^2)/(n-2)) over the n numbers, within rounding; where that is not defined (fewer than three numbers) it is NaN.", "quantifier": "all lists of finite numbers and all estimates", "why_tests_cant": "rounding errors add up over any number of values; sizes of the values", "anchors": ["internal/stats/stats.go: See"]}
{"id": "C72", "title": "Server: starting and stopping", "statement": "Serve handles no request before its handlers are registered; it returns an error exactly if it cannot listen (and then handled no request, and the program exits with a status other than 0); it goes on until SIGINT or SIGTERM arrives, and such a signal, whenever it arrives, makes it return without an error or ends the process.", "quantifier": "all interleavings of the steps of Serve, of signals and of requests", "why_tests_cant": "races between start-up and signals", "anchors": ["internal/server/server.go: Serve, waitSignal, registerHandlers", "starbow.go: main"]}
{"id": "C73", "title": "Server: sum, mean and variance under concurrent requests", "statement": "While clients post observations and query at the same time, the answer to a query for sum, mean or variance of a field is that statistic of the posted numbers whose observations agree with the criteria on the key fields, each taken at most once, in an order that respects time; it has all those acknowledged before the query was sent and none that was not posted. For whole numbers, with nothing in progress, the sum is exact whatever the interleaving was.", "quantifier": "all sets of concurrent requests, all interleavings of their steps, all schemas", "why_tests_cant": "interleavings of any number of goroutines; the order of floating-point additions", "anchors": ["internal/server/server.go: recvObservation, queryCollation", "internal/storage/storage.go: Write, Read", "internal/bufmap/bufmap.go: Update, Get"]}
{"id": "C74", "title": "Every call returns", "statement": "Every Update, Put, Write, Get and Read of a map, seqlock or store that is in progress returns, under every schedule that lets each goroutine have its turn again and again (a fair scheduler) and in which no more calls are made, unless a function passed to it panics. With calls made for ever, a Get may be kept retrying for ever.", "quantifier": "all reachable states, all numbers of goroutines, all fair infinite schedules", "why_tests_cant": "liveness: infinite executions, deadlocks and endless retries under every schedule", "anchors": ["internal/bufmap/bufmap.go: Update, Get", "internal/seqlock/seqlock.go: Put, Update, Get", "internal/storage/storage.go: Write, Read"]}
{"id": "C75", "title": "Increments are wait-free", "statement": "Every Inc and Get of the counter map returns after a fixed number of operations of its own (34 and 12), whatever the other goroutines do and however they are scheduled, even if they stop for ever in the middle of a call.", "quantifier": "all reachable states, all interleavings, all behaviours of the others", "why_tests_cant": "every schedule, including ones that stop other goroutines anywhere", "anchors": ["internal/incmap/incmap.go: Inc, Get"]}
{"id": "C76", "title": "What WithBytes opens", "statement": "WithBytes of the bit bucket refuses a buffer too short for its header or for the counters it declares (ErrShortBuffer), of another version, or wider than 8 bits, checked in the order header, version, width, body; every other buffer with a width of 1 to 8 and a count whose size in bits fits a 64-bit int opens, and counter i is then the w bits of the body from bit i*w on. The bloom filter and the cardinality counter refuse another version and pass on the error of the bucket that follows their two bytes. No proper prefix of serialised bytes (of at least two bytes) opens.", "quantifier": "all byte slices; all counts, widths and bodies", "why_tests_cant": "all buffers, including ones no WriteTo made", "anchors": ["internal/bitbucket/bitbucket.go: WithBytes, length", "internal/summary/bloom/bloom.go: WithBytes", "internal/summary/hll/hll.go: WithBytes"]}
{"id": "C77", "title": "A measure keeps to its bytes", "statement": "The writer of a measure, given at least Size() bytes, returns no error, changes only the first Size() bytes, in a way that depends on these and the value only, and leaves those behind as they were; the reader of such a buffer returns a value that depends on these bytes only. With fewer bytes the writer does not report success.", "quantifier": "all measures, all buffers, all values, first and later writes", "why_tests_cant": "all buffers and values; records of several measures lie side by side in one slice", "anchors": ["internal/collation/measure.go: RowWriter, ContWriter, DiscWriter, ContReader, Size"]}
{"id": "C78", "title": "Server: one answer, one order, under concurrency", "statement": "Whatever other requests are handled at the same time: no request is answered twice; a request that is neither a post whose body is read nor a query that gives all key fields of a collation is answered as if it were alone, whatever was stored, and changes nothing; a post (that is not cancelled) answered 200 was read to its end and each of its lines was written to each store that has its key fields, once, successfully; one not answered 200 is answered 500, at a first line (and store) at which it went wrong, everything before was written and nothing behind; and the lines of a post are always written in order.", "quantifier": "all sets of concurrent requests, all interleavings, all schemas", "why_tests_cant": "interleavings of any number of handlers; partial failures at any line and store", "anchors": ["internal/server/server.go: recvObservation, queryCollation, registerHandlers", "internal/storage/storage.go: Write, Read"]}
{"id": "C79", "title": "ReadFrom and WriteTo count the bytes", "statement": "The number ReadFrom returns is the number of bytes it took from the reader, whatever the reader does (short reads, errors with data, data after an end of file) and whatever error comes with it. The number WriteTo returns is the number of bytes the writer accepted; these are a beginning of the serialised bytes, all of them exactly if no error is returned, and the error is the writer's.", "quantifier": "all bit buckets, bloom filters and counters, well-formed or not; all readers and all writers that fail after any number of bytes", "why_tests_cant": "all splittings of the stream into reads and all points of failure", "anchors": ["internal/bitbucket/bitbucket.go: ReadFrom, WriteTo", "internal/summary/bloom/bloom.go: ReadFrom, WriteTo", "internal/summary/hll/hll.go: ReadFrom, WriteTo"]}
{"id": "C80", "title": "Every request is answered", "statement": "Once a request has been received, and the server's goroutines keep getting their turns, the request is eventually answered: handlers of observations and queries, however many run at once and however they contend for records, all finish. (False in the program for a query whose record lies in one of the last slots of its map: it panics inside the map and is never answered; nor for a query whose record lies in a slot that cuts a distinct counter, which ends in a panic of the handler; both proved as refutations.)", "quantifier": "all environments, all lists of stores with valid schemas and at least one slot, all reachable states of the concurrent server (any requests in any stage of handling), all fair schedules, all choices the goroutines make (such as noticing a cancellation)", "why_tests_cant": "Liveness is a statement about infinite fair executions of arbitrarily many goroutines; a test sees finitely many steps of one schedule and cannot tell slow from stuck.", "anchors": ["internal/server/server.go: recvObservation, queryCollation", "internal/storage/storage.go: Store.Write, Store.Read", "internal/bufmap/bufmap.go: Map.Update, Map.Get"]}
{"id": "C81", "title": "An answer can be read back", "statement": "The body of a successful answer to a query can be read in exactly one way: first the criteria of the query, in order, then lines measure(field)=value, and these are exactly the values the store returned, in order. A client that knows its query needs nothing else, whatever names the query uses. (Without knowing the query the body alone is ambiguous when a criterion's name contains = or ( : the answer of an empty server can be made identical to that of one with data; proved as a refutation.)", "quantifier": "all environments in which numbers are printed without newline and closing parenthesis, all map iteration orders, all lists of stores with valid schemas, all request bodies (any bytes in the query)", "why_tests_cant": "The claim ranges over all query texts, field names and printed values; a test reads back the few bodies it was written for, and a forged line needs an odd name nobody thinks of testing.", "anchors": ["internal/server/server.go: queryCollation", "internal/query/rough.go: RoughParse", "internal/collation/schema.go: FMV.String"]}
{"id": "C82", "title": "Map iteration order changes nothing but the order of fields", "statement": "Go iterates over maps in an arbitrary order, which the query parser exposes. Whatever order is chosen for a request, the effect of the request on the stores is the same and the reply is the same, except that a successful query may report its fields in another order: for each field the values are the same, in the same order. A query that fails in one order fails in every order.", "quantifier": "all pairs of map iteration orders (any permutations of any lists), all environments, all lists of stores in any state, all requests", "why_tests_cant": "The iteration order is chosen by the runtime, not by the test: a test sees one order per run and cannot range over all of them for all queries.", "anchors": ["internal/query/rough.go: RoughParse", "internal/server/server.go: queryCollation", "internal/collation/schema.go: Collator.Read"]}
{"id": "C83", "title": "A query never panics", "statement": "Whatever was observed before, a query is answered with rows, with 'no rows' or with an error status; its handler never panics. (False in the program: the record is read back only up to its slot number, and if that cuts the header of a distinct counter the query panics with an index out of range; proved as a refutation together with the exact condition.)", "quantifier": "all valid schemas, all histories of observations on a fresh store with any positive number of slots, all queries", "why_tests_cant": "Whether a query panics depends on the hash of the key, the layout of the record and the collisions of the whole history; tests sample a few keys.", "anchors": ["internal/bufmap/bufmap.go: Map.Get", "internal/summary/hll/hll.go: WithBytes, Counter.Count", "internal/bitbucket/bitbucket.go: WithBytes", "internal/storage/storage.go: Store.Read"]}
{"id": "C84", "title": "How observations are packaged makes no difference", "statement": "What is stored depends only on the observations and their order, not on how the client writes them down and sends them: the timestamps, the delimiter, the order of the fields within a line, how many lines go into one request, whether the last line ends with a newline, LF or CRLF line ends, and the queries made in between. (False for refused observations: a line with a value that is no number is refused, but the fields before that value are recorded and those after it are not. And a blank line at the end of a body is refused with 500.)", "quantifier": "all configurations of valid collations with any positive number of slots, all pairs of histories of requests with the same observations; for splitting and line ends, all bodies byte for byte and all states of the stores", "why_tests_cant": "The histories, the ways to write them down and the splits into requests are unboundedly many, and any of them might interact with what is stored before.", "anchors": ["internal/server/server.go: Server.recvObservation", "internal/server/server.go: parseRow, parseFV", "internal/collation/schema.go: Collator.Update", "internal/storage/storage.go: Store.Write"]}
{"id": "C85", "title": "The order of observations", "statement": "Aggregates are about the set of observations made, not about the order in which they happened to arrive: if the same observations arrive in another order, they are accepted all the same, and count, sum, mean, var, max, min and uniquecount are the same. (False of the code: the field of a uniquecount must be in the first observation of a key value if it is in any, so the order decides whether observations are accepted; max and min start from 0 if the first observation lacks the field; sums, means and variances are rounded after every step.)", "quantifier": "all valid collations with any number of slots, all pairs of histories of requests whose observations are permutations of each other, all queries for one statistic", "why_tests_cant": "There are n! orders of n observations for every n, and rounding, the creation of records and the sketches might all depend on the order.", "anchors": ["internal/collation/schema.go: Collator.Update", "internal/collation/measure.go: ContWriter, DiscWriter, RowWriter", "internal/summary/hll/hll.go: Counter.Add", "internal/storage/storage.go: Store.Write", "internal/server/server.go: Server.recvObservation"]}
{"id": "C86", "title": "Which observations are accepted", "statement": "It is predictable which observations the server accepts: in a history of posts of correctly written observations all posts are answered with 200 if and only if, for every collation whose key fields an observation has, its key value does not hash to 0, its values are numbers wherever a numeric statistic is kept of the field, a slot of the table is free for its key value (one of the eleven from its home slot on, not taken by an earlier key value) and, if that slot is the home slot itself, the fields whose distinct values are counted were already in the first observation with this key value.", "quantifier": "all configurations of fresh valid collations with any positive number of slots, all histories of posts and other requests, any environment", "why_tests_cant": "Acceptance depends on the whole history before; the histories and the configurations are unboundedly many.", "anchors": ["internal/server/server.go: Server.recvObservation", "internal/storage/storage.go: Store.Write", "internal/bufmap/bufmap.go: Map.Update", "internal/collation/schema.go: Collator.Update"]}
{"id": "C87", "title": "A collation has room for as many key values as it has slots", "statement": "A collation opened with l slots takes observations for up to l different key values: no observation is refused for want of room while fewer than l key values are stored. (What the code does: a new key value is refused exactly if the eleven slots from its home slot on are all taken.)", "quantifier": "all valid collations, all positive numbers of slots, all histories of observations, all key values", "why_tests_cant": "Whether there is room depends on the whole history of key values and on where each of them hashes; the histories are unboundedly many.", "anchors": ["internal/bufmap/bufmap.go: Map.Update", "internal/storage/storage.go: Store.Write", "internal/server/server.go: Server.recvObservation"]}
{"id": "C88", "title": "Successive queries see successive states", "statement": "Whatever is posted and asked at the same time, a query answered later sees every observation that a query answered before it was called has seen, in the same order, and possibly more: a key value that was found stays found, its count never goes down, and while every observation received has been answered the same query gets the same answer.", "quantifier": "all configurations, all interleavings of posts and queries, all key values, all observations", "why_tests_cant": "It relates any two moments of any interleaving of concurrent requests; tests sample a few schedules.", "anchors": ["internal/server/server.go: Server.queryCollation", "internal/storage/storage.go: Store.Read", "internal/bufmap/bufmap.go: Map.Get", "internal/bufmap/bufmap.go: Map.Update"]}
{"id": "C89", "title": "A greater precision counts distinct values more precisely", "statement": "Counting the same values with a HyperLogLog counter of a greater precision gives an estimate that is at least as good (README: more precise results can be obtained by increasing the precision configured for the field): more registers distinguish more values, and the estimate approaches the number of different values.", "quantifier": "all lists of values, all pairs of precisions 4 to 18", "why_tests_cant": "It compares the estimates of two counters for every list of values; a test has a few lists, and those that break it have a hash structure that tests do not aim at.", "anchors": ["internal/summary/hll/hll.go: New, Add, Count", "internal/hash/fnv/fnv.go: Sum64", "README.md: Example Queries"]}
{"id": "C90", "title": "The collations of a server do not affect each other", "statement": "Adding a collation to a server, or removing another one, changes neither which observations the server accepts for a collation nor any answer about it.", "quantifier": "every server, every set of its other collations and their contents, every history of posts and other requests, every query text", "why_tests_cant": "It compares two servers over all histories, queries and neighbouring collations; a test compares two particular configurations.", "anchors": ["internal/server/server.go: recvObservation, queryCollation", "internal/storage/storage.go: Write", "demo.go"]}
{"id": "C91", "title": "Fields no collation uses are ignored", "statement": "Fields of an observation that are neither a key nor a measured field of any collation, the time and the delimiter make no difference: two sequences of requests that differ only in these get the same answers, request by request, also when observations are refused.", "quantifier": "every configuration of collations, every sequence of posts of correctly written observations and other requests, every way of adding or removing unused fields", "why_tests_cant": "It relates pairs of unbounded histories over all configurations; a test can add one field to one observation.", "anchors": ["internal/collation/schema.go: Collator.Update, KeyValue", "internal/collation/compile.go: Compile", "internal/storage/storage.go: Write", "internal/server/server.go: parseRow, recvObservation"]}
{"id": "C92", "title": "Asking for several measures at once is asking for each", "statement": "A query for several measures is answered with exactly what queries for the single measures under the same criteria are answered with, put together in order; if one of these is not answered with 200, the query for all is answered like the first such one.", "quantifier": "every server state, every collation name, every query text that parses, every choice of texts for the single measures", "why_tests_cant": "It relates the answer to a query to the answers to arbitrarily many other queries in every state of the server; a test compares particular answers.", "anchors": ["internal/collation/schema.go: Collator.Read", "internal/storage/storage.go: Read", "internal/server/server.go: queryCollation", "internal/query/rough.go: RoughParse"]}
{"id": "C93", "title": "Every criterion of a query restricts the answer", "statement": "The answer to a query is about exactly those accepted observations that satisfy all criteria of its where clause, which the answer repeats.", "quantifier": "every history of posts, every query text, every state of the server", "why_tests_cant": "It relates the answer to all observations ever posted, for every set of criteria; the existing tests only use criteria on the key fields.", "anchors": ["internal/storage/storage.go: Read", "internal/collation/schema.go: KeyValue", "internal/server/server.go: queryCollation", "demo.go"]}
{"id": "C94", "title": "A maximum is never taken back", "statement": "Of two answers to max of a field for the same key value, the later is at least the earlier, and of two answers to min the later is at most the earlier, whatever has been accepted in between.", "quantifier": "every history of accepted posts and other requests, every point of it at which the two queries are made, every key value, every field", "why_tests_cant": "It relates two arbitrary moments of every history; a test looks at a few observations of one key.", "anchors": ["internal/collation/measure.go: maxWriter, minWriter", "internal/collation/schema.go: Update", "internal/bufmap/bufmap.go: Update", "internal/server/server.go: queryCollation"]}
{"id": "C95", "title": "What has been counted is not counted again", "statement": "Observations of a key value that carry for a field only values which observations of that key value carried before do not change the answer to uniquecount of the field.", "quantifier": "every history of accepted posts and other requests, every continuation of it, every key value, every field, every set of values", "why_tests_cant": "It compares the answers at two arbitrary moments of every history; a test counts a few values once.", "anchors": ["internal/collation/measure.go: cardinality writer", "internal/summary/hll/hll.go: Add, Count", "internal/collation/schema.go: Update", "internal/server/server.go: queryCollation"]}
{"id": "C96", "title": "The statistics in one answer fit together", "statement": "When min, mean and max of a field are asked for in one query, the answer gives a least value, a mean and a greatest value in this order: min <= mean <= max.", "quantifier": "every history of accepted posts and other requests, every key value, every field, every rounding", "why_tests_cant": "It concerns all histories and all roundings of the running mean; a test compares a few means with expected values.", "anchors": ["internal/collation/measure.go: maxWriter, minWriter, mean", "internal/summary/stat64/stats.go: Update, Mean", "internal/collation/schema.go: Update, Read", "internal/server/server.go: queryCollation"]}
{"id": "C97", "title": "An observation without a field does not change what is reported of the field", "statement": "Once a key has been observed, the answer to a query of some fields for that key stays exactly the same while observations that carry none of these fields are posted, of that key or of others, accepted or refused. (count(*) is not of a field.)", "quantifier": "every set of collations, every history of any requests before, every number of posts of correctly written observations without the fields and of other requests, every query text", "why_tests_cant": "It concerns every layout of every record, every slot and every history before and between; a test compares one answer before and after one observation.", "anchors": ["internal/collation/schema.go: Update, Read", "internal/collation/compile.go: Schema.Compile", "internal/bufmap/bufmap.go: Update, Get", "internal/server/server.go: recvObservation, queryCollation"]}
