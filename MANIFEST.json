{
 "claims": [
  {
   "property": "C01",
   "status": "proved",
   "theorems": [
    "Starbow.Props.C01_oneshot",
    "Starbow.Props.C01_streaming",
    "Starbow.Props.C01_counts",
    "Starbow.Props.C01_sum"
   ],
   "note": "All functions of fnv.go against an independent FNV-1/1a fold over naturals; any call sequence."
  },
  {
   "property": "C02",
   "status": "proved",
   "theorems": [
    "Starbow.Props.C02_one_byte",
    "Starbow.Props.C02_four_bytes"
   ],
   "note": "Inputs that differ in one byte, or only within four consecutive bytes (C02_four_bytes), never collide, for both hashes."
  },
  {
   "property": "C03",
   "status": "proved",
   "theorems": [
    "Starbow.Props.C03_saturating_counters",
    "Starbow.Props.C03_frame",
    "Starbow.Props.C03_reachable_wf"
   ],
   "note": "Fresh bucket, any in-range operation sequence, width 1..8, any count whose bit size fits int64."
  },
  {
   "property": "C04",
   "status": "proved",
   "theorems": [
    "Starbow.Props.C04_countN",
    "Starbow.Props.C04_total"
   ],
   "note": "CountN equals the count of Get results; counts over the 256 values sum to n."
  },
  {
   "property": "C05",
   "status": "proved",
   "theorems": [
    "Starbow.Props.C05_write",
    "Starbow.Props.C05_readFrom",
    "Starbow.Props.C05_withBytes",
    "Starbow.Props.C05_failing_writer"
   ],
   "note": "Writing, reading through any chunking reader, WithBytes with trailing bytes, failing writers."
  },
  {
   "property": "C06",
   "status": "partial",
   "theorems": [
    "Starbow.Props.C06_version",
    "Starbow.Props.C06_truncated_header",
    "Starbow.Props.C06_truncated_data",
    "Starbow.Props.C06_trailing_partial",
    "Starbow.Props.C06_success_iff",
    "Starbow.Props.C06_trailing_with_eof_accepted"
   ],
   "note": "Version and truncation for every reader; trailing data proved for readers that return EOF in a read of its own; for readers returning the last bytes together with EOF the claim is false (C06_trailing_with_eof_accepted)."
  },
  {
   "property": "C07",
   "status": "partial",
   "theorems": [
    "Starbow.Props.C07_withBytes_can_panic",
    "Starbow.Props.C07_withBytes_accepts_unreadable",
    "Starbow.Props.C07_readFrom_can_panic",
    "Starbow.Props.C07_readFrom_accepts_wide",
    "Starbow.Props.C07_withBytes_partial"
   ],
   "note": "The claim is false: counterexamples C07_withBytes_can_panic, C07_withBytes_accepts_unreadable, C07_readFrom_can_panic, C07_readFrom_accepts_wide. Proved for non-negative, non-overflowing counts and non-zero width."
  },
  {
   "property": "C08",
   "status": "proved",
   "theorems": [
    "Starbow.Props.C08_shared_buffer"
   ],
   "note": "Buffer sharing modelled by storeBack (the data slice aliases buf[10:])."
  },
  {
   "property": "C09",
   "status": "proved",
   "theorems": [
    "Starbow.Props.C09_no_false_negatives"
   ],
   "note": "Any history of Add/Reset on a filter with m>=1 bits; also shows that no call panics."
  },
  {
   "property": "C10",
   "status": "proved",
   "theorems": [
    "Starbow.Props.C10_set_semantics",
    "Starbow.Props.C10_monotone",
    "Starbow.Props.C10_empty"
   ],
   "note": "State is a function of the set of live values; positive answers are stable; fresh/reset filters with k>=1 answer false."
  },
  {
   "property": "C11",
   "status": "partial",
   "theorems": [
    "Starbow.Props.C11_write",
    "Starbow.Props.C11_readFrom",
    "Starbow.Props.C11_withBytes",
    "Starbow.Props.C11_same_answers",
    "Starbow.Props.C11_version",
    "Starbow.Props.C11_truncated",
    "Starbow.Props.C11_trailing_partial"
   ],
   "note": "Round trip, Len, version and truncation for every reader; trailing data only for readers that return EOF in a read of its own (false otherwise, see C06)."
  },
  {
   "property": "C12",
   "status": "proved",
   "theorems": [
    "Starbow.Props.C12_registers",
    "Starbow.Props.C12_set_semantics",
    "Starbow.Props.C12_readd"
   ],
   "note": "Registers equal the maximum rank specification; state determined by the set of live values; every estimator is a function of that state."
  },
  {
   "property": "C13",
   "status": "partial",
   "theorems": [
    "Starbow.Props.C13_write",
    "Starbow.Props.C13_readFrom",
    "Starbow.Props.C13_withBytes",
    "Starbow.Props.C13_version",
    "Starbow.Props.C13_truncated",
    "Starbow.Props.C13_trailing_partial",
    "Starbow.Props.C13_reachable_wf",
    "Starbow.Props.C13_zero_value"
   ],
   "note": "Round trip, Len, version and truncation for every reader; trailing data only for readers that return EOF in a read of its own (false otherwise, see C06)."
  },
  {
   "property": "C14",
   "status": "partial",
   "theorems": [
    "Starbow.Props.C14_linear_partial",
    "Starbow.Props.C14_empty_partial",
    "Starbow.Props.C14_single_is_two"
   ],
   "note": "The second half of the claim is false of the code: a counter that has seen one distinct value estimates 2 at every precision (C14_single_is_two; m ln(m/(m-1)) is slightly above 1 and is rounded up). Proved: empty and reset counters estimate 0, and in the whole linear-counting region Count is m ln(m/v) rounded up, up to a relative error of 2^-33. math.Log is a parameter assumed accurate to 2^-50 (LogOk, shown satisfiable)."
  },
  {
   "property": "C15",
   "status": "partial",
   "theorems": [
    "Starbow.Props.C15_last_byte_not_distinguished",
    "Starbow.Props.C15_partial",
    "Starbow.Props.C15_readme_refuted"
   ],
   "note": "The claim is false: C15_last_byte_not_distinguished shows that up to 256 distinct values sharing all but their last byte always land in one register. C15_partial: exactly the registers selected by some added value are non-empty. C15_readme_refuted: in the program itself, after the 1315 airports of the United States of misc/airports.sh (1315 different codes, each post accepted), the answers are count(*)=1315, min -54, max 9078 and uniquecount(iata)=38 - the output README.md prints."
  },
  {
   "property": "C16",
   "status": "partial",
   "theorems": [
    "Starbow.Props.C16_bloom_withBytes_can_panic",
    "Starbow.Props.C16_bloom_zero_bits_add_panics",
    "Starbow.Props.C16_bloom_partial",
    "Starbow.Props.C16_hll_withBytes_can_panic",
    "Starbow.Props.C16_hll_add_panics",
    "Starbow.Props.C16_hll_partial",
    "Starbow.Props.C16_hll_tau_endless",
    "Starbow.Props.C16_hll_poisson_endless",
    "Starbow.Props.C16_hll_count_endless",
    "Starbow.Props.C16_hll_poisson_low",
    "Starbow.Props.C16_hll_poisson_wide",
    "Starbow.Props.C16_hll_zero_value",
    "Starbow.Props.C16_bloom_zero_value"
   ],
   "note": "The claim is false (counterexamples C16_*_can_panic, C16_hll_add_panics, C16_bloom_zero_bits_add_panics); proved for buffers whose header declares consistent sizes. Hostile hll buffers can also make Count and PoissonCount loop for ever (C16_hll_count_endless, C16_hll_poisson_endless) or panic (C16_hll_poisson_low, C16_hll_poisson_wide)."
  },
  {
   "property": "C17",
   "status": "proved",
   "theorems": [
    "Starbow.Props.C17_exact"
   ],
   "note": "The same update code interpreted over the rationals; C54 bounds the rounding of Sum, C53 and C20 say what survives rounding for Mean and Variance."
  },
  {
   "property": "C18",
   "status": "proved",
   "theorems": [
    "Starbow.Props.C18_multi",
    "Starbow.Props.C18_multi_nil",
    "Starbow.Props.C18_history"
   ],
   "note": "Byte-exact for non-empty batches; an empty batch rewrites the same values (a NaN payload, not modelled, could only matter there in no observable way)."
  },
  {
   "property": "C19",
   "status": "proved",
   "theorems": [
    "Starbow.Props.C19_integer_sum",
    "Starbow.Props.C19_count"
   ],
   "note": "Totals up to and including 2^53."
  },
  {
   "property": "C20",
   "status": "proved",
   "theorems": [
    "Starbow.Props.C20_nonneg",
    "Starbow.Props.C20_overflow"
   ],
   "note": "Overflow is excluded by a condition on the inputs only (no two observations differ by more than the largest double); C20_overflow shows the exclusion is needed."
  },
  {
   "property": "C21",
   "status": "proved",
   "theorems": [
    "Starbow.Props.C21_constant"
   ],
   "note": "Equality of numerical values (observing -0 gives mean +0)."
  },
  {
   "property": "C22",
   "status": "partial",
   "theorems": [
    "Starbow.Props.C22_max_partial",
    "Starbow.Props.C22_min_partial",
    "Starbow.Props.C22_after_nan",
    "Starbow.Props.C22_nan_refuted"
   ],
   "note": "Proved for every stream without NaN (and, C22_after_nan, what is reported when a NaN is first). C22_nan_refuted: a field value 'NaN' that is accepted by ParseFloat freezes max/min, so the unrestricted statement is false of the code."
  },
  {
   "property": "C23",
   "status": "proved",
   "theorems": [
    "Starbow.Props.C23_layout",
    "Starbow.Props.C23_independent"
   ],
   "note": "Layout and independence for every schema (precisions given to HyperLogLog in [4,18])."
  },
  {
   "property": "C24",
   "status": "proved",
   "theorems": [
    "Starbow.Props.C24_readable",
    "Starbow.Props.C24_undeclared",
    "Starbow.Props.C24_same_stream"
   ],
   "note": "For every schema: readers exist under name(field), and sum/mean/var of one field report statistics of the same stream."
  },
  {
   "property": "C25",
   "status": "partial",
   "theorems": [
    "Starbow.Props.C25_count",
    "Starbow.Props.C25_count_exact",
    "Starbow.Props.C25_sum",
    "Starbow.Props.C25_mean",
    "Starbow.Props.C25_var",
    "Starbow.Props.C25_values_parse",
    "Starbow.Props.C25_extreme_law",
    "Starbow.Props.C25_extreme_partial",
    "Starbow.Props.C25_uniquecount_law",
    "Starbow.Props.C25_uniquecount_partial",
    "Starbow.Props.C25_never_panics",
    "Starbow.Props.C25_accepted_iff",
    "Starbow.Props.C25_absent_refuted",
    "Starbow.Props.C25_repeated_refuted",
    "Starbow.Props.C25_uniquecount_refuted"
   ],
   "note": "count, sum, mean, var proved for every schema and row sequence; max, min, uniquecount proved when the first accepted row carries the field exactly once (_partial). C25_absent_refuted, C25_repeated_refuted, C25_uniquecount_refuted show the unrestricted statement false of the code: init is signalled for the first row of the record only."
  },
  {
   "property": "C26",
   "status": "partial",
   "theorems": [
    "Starbow.Props.C26_trace",
    "Starbow.Props.C26_refused_partial",
    "Starbow.Props.C26_counted_refuted"
   ],
   "note": "False as stated: C26_counted_refuted shows a rejected observation (value not a number) is counted. C26_refused_partial: writes refused for a cancelled context, an invalid key or a full table change nothing. C26_trace: exactly what a refused observation leaves behind: the fields before the bad value."
  },
  {
   "property": "C27",
   "status": "partial",
   "theorems": [
    "Starbow.Props.C27_read",
    "Starbow.Props.C27_exact_partial",
    "Starbow.Props.C27_error_refuted"
   ],
   "note": "C27_read gives exactly what Read does; C27_exact_partial is the property when no reader reports an error; C27_error_refuted: a reader error (incompatible HyperLogLog bytes) makes the whole Read fail."
  },
  {
   "property": "C28",
   "status": "proved",
   "theorems": [
    "Starbow.Props.C28_key",
    "Starbow.Props.C28_other_fields",
    "Starbow.Props.C28_repeated",
    "Starbow.Props.C28_reorder",
    "Starbow.Props.C28_query",
    "Starbow.Props.C28_missing"
   ],
   "note": "All rows, queries and key lists; C28_key, C28_other_fields, C28_reorder, C28_query, C28_missing."
  },
  {
   "property": "C29",
   "status": "partial",
   "theorems": [
    "Starbow.Props.C29_no_separator",
    "Starbow.Props.C29_refuted",
    "Starbow.Props.C29_collision",
    "Starbow.Props.C29_country_collision",
    "Starbow.Props.C29_codes_partial"
   ],
   "note": "False as stated: no separators between hashed names and values (C29_no_separator, C29_refuted), only 2^64 keys (C29_collision), a concrete pair for the program's country collation (C29_country_collision). C29_codes_partial: values differing only within four consecutive bytes never share a record."
  },
  {
   "property": "C30",
   "status": "partial",
   "theorems": [
    "Starbow.Props.C30_found_partial",
    "Starbow.Props.C30_bytes_partial",
    "Starbow.Props.C30_truncated",
    "Starbow.Props.C30_panics",
    "Starbow.Props.C30_panic_alone",
    "Starbow.Props.C30_silent"
   ],
   "note": "False as stated: Get copies values[x*s : x*(s+1)] where x is the slot number, so it copies only min(len buf, x) bytes (C30_truncated) and panics when x*(s+1) exceeds the backing array (C30_panics). Proved: found iff an update was accepted, and the bytes that are copied are those of the last update. C30_silent: in every interleaving a Get of a key stored in a slot x with x*(s+1) > l*s never returns."
  },
  {
   "property": "C31",
   "status": "partial",
   "theorems": [
    "Starbow.Props.C31_partial",
    "Starbow.Props.C31_displaced_always_init",
    "Starbow.Props.C31_told_partial",
    "Starbow.Props.C31_home_partial",
    "Starbow.Props.C31_displaced_init",
    "Starbow.Props.C31_late_init",
    "Starbow.Props.C31_double_init"
   ],
   "note": "False as stated: a key stored outside its first candidate slot is told init=true on every update (C31_displaced_always_init; in any interleaving C31_displaced_init); under concurrency init can be signalled twice or to a later update, losing an observation (C31_double_init, C31_late_init). Proved: at home slots, sequentially (C31_partial); in any interleaving a new record is initialised at least once (C31_told_partial) and an Update of a key already stored at home is never told init (C31_home_partial)."
  },
  {
   "property": "C32",
   "status": "proved",
   "theorems": [
    "Starbow.Props.C32_content",
    "Starbow.Props.C32_isolated",
    "Starbow.Props.C32_slot_fixed",
    "Starbow.Props.C32_sees_previous"
   ],
   "note": "Any sequential history on any map size and stride; content = fold of the update functions of that key only."
  },
  {
   "property": "C33",
   "status": "proved",
   "theorems": [
    "Starbow.Props.C33_invalid_key",
    "Starbow.Props.C33_out_of_slots",
    "Starbow.Props.C33_accepted_forever"
   ],
   "note": "Exact characterisation of both refusals; acceptance is permanent."
  },
  {
   "property": "C34",
   "status": "proved",
   "theorems": [
    "Starbow.Props.C34_update_alone",
    "Starbow.Props.C34_serial",
    "Starbow.Props.C34_real_time"
   ],
   "note": "Interleaving model (one atomic/mutex operation or byte access per step, sequentially consistent memory), any number of goroutines; serial order, exact set of calls, returned errors and real-time order. C34_update_alone: the concurrent model run by one goroutine agrees with the sequential model."
  },
  {
   "property": "C35",
   "status": "partial",
   "theorems": [
    "Starbow.Props.C35_get_alone",
    "Starbow.Props.C35_partial"
   ],
   "note": "Proved for buffers no longer than the stride; only the first min(len buf, slot number) bytes are copied (the slicing bug, C30_truncated). The sequence-number wrap-around proviso is explicit (during < 2^32). C35_get_alone: agreement of the two models."
  },
  {
   "property": "C36",
   "status": "partial",
   "theorems": [
    "Starbow.Props.C36_wedged",
    "Starbow.Props.C36_others_partial",
    "Starbow.Props.C36_panic_alone",
    "Starbow.Props.C36_hang_alone",
    "Starbow.Props.C36_get_hang_alone",
    "Starbow.Props.C36_wedged_forever"
   ],
   "note": "The claim is false: C36_wedged (sequential) and C36_wedged_forever (any interleaving: no later Update/Get of that key ever returns). Proved: updates of keys in other slots still complete."
  },
  {
   "property": "C37",
   "status": "proved",
   "theorems": [
    "Starbow.Props.C37_snapshot"
   ],
   "note": "Array size is a parameter; sequentially consistent interleaving model."
  },
  {
   "property": "C38",
   "status": "proved",
   "theorems": [
    "Starbow.Props.C38_serial",
    "Starbow.Props.C38_real_time"
   ],
   "note": "Serial order, exact set of calls, returned errors, real-time order; failing updates leave the contents unchanged."
  },
  {
   "property": "C39",
   "status": "proved",
   "theorems": [
    "Starbow.Props.C39_inc_alone",
    "Starbow.Props.C39_get_alone",
    "Starbow.Props.C39_value",
    "Starbow.Props.C39_get",
    "Starbow.Props.C39_refused",
    "Starbow.Props.C39_consistent",
    "Starbow.Props.C39_get_absent",
    "Starbow.Props.C39_sequential",
    "Starbow.Props.C39_sequential_refused"
   ],
   "note": "Interleaving model at the granularity of single atomic operations, any number of goroutines and any schedule."
  },
  {
   "property": "C40",
   "status": "partial",
   "theorems": [
    "Starbow.Props.C40_bufmap_partial",
    "Starbow.Props.C40_bufmap_zero_found",
    "Starbow.Props.C40_incmap_zero_found",
    "Starbow.Props.C40_bufmap_conc_partial",
    "Starbow.Props.C40_incmap_partial"
   ],
   "note": "False for key 0 (C40_bufmap_zero_found, C40_incmap_zero_found). Proved for every non-zero key, sequentially and under any interleaving for bufmap and incmap."
  },
  {
   "property": "C41",
   "status": "partial",
   "theorems": [
    "Starbow.Props.C41_parse_partial",
    "Starbow.Props.C41_time_refuted",
    "Starbow.Props.C41_digits_refuted"
   ],
   "note": "Proved for all lines whose timestamp has at most 20 digits and fits into 64 bits as nanoseconds. False beyond: the time wraps around (C41_time_refuted), and a 21st digit is taken for the delimiter (C41_digits_refuted)."
  },
  {
   "property": "C42",
   "status": "proved",
   "theorems": [
    "Starbow.Props.C42_total",
    "Starbow.Props.C42_refuses",
    "Starbow.Props.C42_faithful",
    "Starbow.Props.C42_field"
   ],
   "note": "For all byte strings."
  },
  {
   "property": "C43",
   "status": "partial",
   "theorems": [
    "Starbow.Props.C43_concurrent",
    "Starbow.Props.C43_batch",
    "Starbow.Props.C43_too_long",
    "Starbow.Props.C43_bad_line",
    "Starbow.Props.C43_line",
    "Starbow.Props.C43_store_fails",
    "Starbow.Props.C43_accepted",
    "Starbow.Props.C43_media",
    "Starbow.Props.C43_cancelled_refuted",
    "Starbow.Props.C43_truncated_refuted",
    "Starbow.Props.C43_cancelled_midway"
   ],
   "note": "Proved for every body, every list of stores and every failure position, without cancellation and with the body read completely. False for a cancelled context (200 with nothing applied) and for a body cut short (the partial last line is applied). C43_cancelled_midway is the exact law for a request cancelled while it is handled: which stores have which rows, and the answer (200 although lines are missing, or 500). C43_concurrent: the exact law of any answered post, cancellable or not, in any run with any number of concurrent requests: the place where it ended, everything before it applied, nothing behind it given to a store, and the five possible reasons with the answer each gives."
  },
  {
   "property": "C44",
   "status": "proved",
   "theorems": [
    "Starbow.Props.C44_clean",
    "Starbow.Props.C44_obs",
    "Starbow.Props.C44_collation",
    "Starbow.Props.C44_answer",
    "Starbow.Props.C44_other",
    "Starbow.Props.C44_unchanged",
    "Starbow.Props.C44_batch_refuted"
   ],
   "note": "For all requests; refused means 400, 404, 405 or 415. A request refused with 500 may have applied its earlier lines (C44_batch_refuted), as C43 says. C44_clean says which paths the mux does not redirect."
  },
  {
   "property": "C45",
   "status": "proved",
   "theorems": [
    "Starbow.Props.C45_parse",
    "Starbow.Props.C45_misread_refuted",
    "Starbow.Props.C45_where_refuted"
   ],
   "note": "For every ordinary query text (any number of selections and criteria, any case, any spacing) and every map iteration order. Two theorems show how texts outside the class are misread (a value ending in = followed by another criterion; a value containing the word where)."
  },
  {
   "property": "C46",
   "status": "partial",
   "theorems": [
    "Starbow.Props.C46_server_refuted",
    "Starbow.Props.C46_queryable_partial",
    "Starbow.Props.C46_refuted"
   ],
   "note": "False for the empty value and for values with a single quote (C46_refuted: no criterion of any parsed query has such a value; the demo data contain Cote d'Ivoire). Proved for every list of keys and non-empty values without quotes and newlines, by exhibiting the query."
  },
  {
   "property": "C47",
   "status": "proved",
   "theorems": [
    "Starbow.Props.C47_shape"
   ],
   "note": "Exact characterisation of the accepted texts, for all byte strings."
  },
  {
   "property": "C48",
   "status": "partial",
   "theorems": [
    "Starbow.Props.C48_server_law",
    "Starbow.Props.C48_server_slot_partial",
    "Starbow.Props.C48_server_partial",
    "Starbow.Props.C48_server_ioo_refuted",
    "Starbow.Props.C48_server_cet_refuted",
    "Starbow.Props.C48_law",
    "Starbow.Props.C48_counts_partial",
    "Starbow.Props.C48_read_partial",
    "Starbow.Props.C48_zero_refuted",
    "Starbow.Props.C48_panic_refuted",
    "Starbow.Props.C48_ioo_refuted",
    "Starbow.Props.C48_cet_refuted"
   ],
   "note": "Store level: C48_law is the exact law for every history; C48_read_partial the property where slots allow it; C48_zero_refuted, C48_panic_refuted, C48_ioo_refuted, C48_cet_refuted show it false of the code. C48_server_partial is the statement for the whole server (requests in, answers out); C48_server_ioo_refuted and C48_server_cet_refuted are the failures over HTTP in the program's own configuration. C48_server_law: the exact answer over HTTP for every accepted history, whatever slot the key has; C48_server_slot_partial: the property over HTTP without the proviso on home slots."
  },
  {
   "property": "C49",
   "status": "partial",
   "theorems": [
    "Starbow.Props.C49_server_partial",
    "Starbow.Props.C49_server_refuted",
    "Starbow.Props.C49_other_keys_partial",
    "Starbow.Props.C49_refuted"
   ],
   "note": "Store level: C49_other_keys_partial for different keys; C49_refuted: two key values of the program's country collation with the same key. C49_server_partial: whole server, after any requests, for any further request. C49_server_refuted: a collision over HTTP in the program's own configuration."
  },
  {
   "property": "C50",
   "status": "partial",
   "theorems": [
    "Starbow.Props.C50_mean_partial",
    "Starbow.Props.C50_refuted",
    "Starbow.Props.C50_double_refuted",
    "Starbow.Props.C50_sum_agrees",
    "Starbow.Props.C50_nonneg"
   ],
   "note": "The mean, the NaN cases and the agreement of Sum with stat64 hold. The second result is not the sample variance the documentation promises but the population variance (C50_refuted, for every list with two different values; C50_double_refuted in doubles)."
  },
  {
   "property": "C51",
   "status": "proved",
   "theorems": [
    "Starbow.Props.C51_shuffle",
    "Starbow.Props.C51_unbiased",
    "Starbow.Props.C51_reaches",
    "Starbow.Props.C51_repeated",
    "Starbow.Props.C51_repeated_short",
    "Starbow.Props.C51_repeated_panics",
    "Starbow.Props.C51_printable",
    "Starbow.Props.C51_printable_all",
    "Starbow.Props.C51_slices",
    "Starbow.Props.C51_bytes_all"
   ],
   "note": "For every source that obeys the Intn contract. Also: exactly one sequence of draws per rearrangement, exactly when ShuffleRepeated panics, and that for n below len(src) it only rearranges the first n entries, which the documentation does not say."
  },
  {
   "property": "C52",
   "status": "partial",
   "theorems": [
    "Starbow.Props.C52_adjacent",
    "Starbow.Props.C52_sound_partial",
    "Starbow.Props.C52_complete_partial",
    "Starbow.Props.C52_refuted",
    "Starbow.Props.C52_equiv",
    "Starbow.Props.C52_equivOrClose",
    "Starbow.Props.C52_infinite_refuted",
    "Starbow.Props.C52_adjacent_inf"
   ],
   "note": "Proved for a > 0 with the exact rounding slack (1 + 2^-51), in both directions. False for every negative a (C52_refuted): the test divides by a instead of |a|. C52_adjacent_inf: an infinity counts as adjacent to the greatest finite double."
  },
  {
   "property": "C53",
   "status": "proved",
   "theorems": [
    "Starbow.Props.C53_mean_within"
   ],
   "note": ""
  },
  {
   "property": "C54",
   "status": "proved",
   "theorems": [
    "Starbow.Props.C54_sum_error"
   ],
   "note": ""
  },
  {
   "property": "C55",
   "status": "proved",
   "theorems": [
    "Starbow.Props.C55_estimators_return"
   ],
   "note": "All four estimators, any behaviour of math.Log; running out of rounds in the loops of sigma and tau is modelled as a panic, so the theorem includes termination."
  },
  {
   "property": "C56",
   "status": "partial",
   "theorems": [
    "Starbow.Props.C56_poisson_partial",
    "Starbow.Props.C56_count_poisson_partial",
    "Starbow.Props.C56_count_can_drop",
    "Starbow.Props.C56_harmonic_partial",
    "Starbow.Props.C56_linear_partial",
    "Starbow.Props.C56_count_linear_partial",
    "Starbow.Props.C56_count_harmonic_partial"
   ],
   "note": "False of the code: C56_count_can_drop exhibits a history (29 values estimate at least 39, a 30th new value makes it 37). What holds: HarmonicCount never drops while it fits into an int64 (C56_harmonic_partial); LinearCount never drops while a register stays empty (C56_linear_partial); Count never drops while linear counting still applies after the Add (C56_count_linear_partial) and once it has entered the harmonic regime (C56_count_harmonic_partial). PoissonCount never drops, rounding included (C56_poisson_partial), so neither does Count within the Poisson regime (C56_count_poisson_partial). Missing: the switch-overs between the regimes, where the claim is false, and estimates beyond the int64 range."
  },
  {
   "property": "C57",
   "status": "partial",
   "theorems": [
    "Starbow.Props.C57_count_can_be_negative",
    "Starbow.Props.C57_partial",
    "Starbow.Props.C57_ranks_partial"
   ],
   "note": "False of the code: C57_count_can_be_negative gives 16 values of 14 bytes for which Count is -2^63 (the conversion of an out-of-range float64 is modelled as on amd64). C57_partial: Count, HarmonicCount and PoissonCount are not negative as long as the registers of rank at most R contribute 2^(2p-63) to the sum; C57_ranks_partial: in particular if no value has one of the two highest ranks."
  },
  {
   "property": "C58",
   "status": "partial",
   "theorems": [
    "Starbow.Props.C58_law",
    "Starbow.Props.C58_refuted"
   ],
   "note": "False of the code: C58_refuted, a country value whose hash is the reserved key 0. C58_law: exactly which observations a fresh collation accepts: key not 0 and numbers where numbers are wanted, for every valid collation and every positive number of slots."
  },
  {
   "property": "C59",
   "status": "partial",
   "theorems": [
    "Starbow.Props.C59_firsts",
    "Starbow.Props.C59_law",
    "Starbow.Props.C59_http_refuted",
    "Starbow.Props.C59_server_law",
    "Starbow.Props.C59_server_partial",
    "Starbow.Props.C59_server_values_partial",
    "Starbow.Props.C59_home_partial",
    "Starbow.Props.C59_values_partial",
    "Starbow.Props.C59_displaced_refuted",
    "Starbow.Props.C59_gt_uz_refuted"
   ],
   "note": "The exact law is complete: C59_law (one store) and C59_server_law (over HTTP) say for every accepted history and every key value from which record and from how much of it every query is answered, wherever the key is kept; C25 says what a record in the home slot reports, C59_firsts what one elsewhere reports (count, sum, mean and var right; max and min only the last number, uniquecount only the last value). The claim itself is proved for keys in their home slot (C59_home_partial, C59_values_partial, C59_server_partial, C59_server_values_partial) and false for keys that collide in the table (C59_displaced_refuted, C59_gt_uz_refuted, C59_http_refuted) and for slots of which not all bytes are read (C48_zero_refuted, C48_panic_refuted)."
  },
  {
   "property": "C60",
   "status": "partial",
   "theorems": [
    "Starbow.Props.C60_bits",
    "Starbow.Props.C60_at_most_k",
    "Starbow.Props.C60_distinct_partial",
    "Starbow.Props.C60_refuted",
    "Starbow.Props.C60_last_bit_unused"
   ],
   "note": "Which bits are set, at most k, and that an odd filter never uses its last bit: for all filters and histories. k distinct bits: proved when the (even) number of bits is a power of two; false otherwise (C60_refuted)."
  },
  {
   "property": "C61",
   "status": "partial",
   "theorems": [
    "Starbow.Props.C61_estimate_partial",
    "Starbow.Props.C61_empty",
    "Starbow.Props.C61_single_is_two",
    "Starbow.Props.C61_monotone_partial",
    "Starbow.Props.C61_full_refuted"
   ],
   "note": "Proved for every history that leaves a bit clear, up to 2^36 bits, with an explicit rounding bound; assumes math.Log is accurate to 2^-50 (LogOk). False for a full filter: Count is then the smallest integer (C61_full_refuted, C63_rate_refuted). A single value counts as 2 (C61_single_is_two)."
  },
  {
   "property": "C62",
   "status": "partial",
   "theorems": [
    "Starbow.Props.C62_rate_partial",
    "Starbow.Props.C62_empty",
    "Starbow.Props.C62_items_refuted",
    "Starbow.Props.C62_full_refuted"
   ],
   "note": "What is proved is that ErrorRate is the formula with the number of set bits in place of the number of items, in [0,1], and 0 when empty. As an estimate of the rate of false positives it is false: C62_items_refuted, C62_full_refuted. Assumes ExpOk, PowOk (accuracy of math.Exp, math.Pow)."
  },
  {
   "property": "C63",
   "status": "partial",
   "theorems": [
    "Starbow.Props.C63_rate_panics",
    "Starbow.Props.C63_rate_one",
    "Starbow.Props.C63_new",
    "Starbow.Props.C63_len",
    "Starbow.Props.C63_rate_refuted",
    "Starbow.Props.C63_zero_refuted"
   ],
   "note": "Size, number of hash functions, usability and Len: proved for 1 <= n <= 2^53, 0 < p < 1 and filters up to 2^61 bits, assuming LogOk. Also p = 1 (C63_rate_one: an empty filter that contains everything) and rates whose logarithm is not finite (C63_rate_panics). False: the promised rate (C63_rate_refuted) and n = 0 (C63_zero_refuted)."
  },
  {
   "property": "C64",
   "status": "partial",
   "theorems": [
    "Starbow.Props.C64_snapshot",
    "Starbow.Props.C64_count_partial",
    "Starbow.Props.C64_found",
    "Starbow.Props.C64_write_alone",
    "Starbow.Props.C64_read_alone",
    "Starbow.Props.C64_history"
   ],
   "note": "C64_snapshot: what a Read sees is the result of a serial order of Writes that respects time, truncated to as many bytes as the number of the slot (C30_truncated). C64_count_partial: the bounds for count(*) for slots from which the count is read. C64_found: a Read called after a Write of its key returned finds a record. C64_write_alone, C64_read_alone, C64_history: a goroutine moving alone gets exactly what the sequential model of Write and Read says (calls, results, memory), so every sequential history is a run of the concurrent model."
  },
  {
   "property": "C65",
   "status": "partial",
   "theorems": [
    "Starbow.Props.C65_partial"
   ],
   "note": "C65_partial: for any valid schema, any interleaving and any serial order of the log; for slots from which the whole record is read (C30_truncated) and Reads during which the sequence number of the slot makes fewer than 2^32 steps (as C35). france_case (with examples) shows a case meeting the hypotheses."
  },
  {
   "property": "C66",
   "status": "partial",
   "theorems": [
    "Starbow.Props.C66_displaced",
    "Starbow.Props.C66_displaced_server",
    "Starbow.Props.C66_displaced_last",
    "Starbow.Props.C66_twin_refuted",
    "Starbow.Props.C66_server_partial",
    "Starbow.Props.C66_quiet_partial",
    "Starbow.Props.C66_extreme_partial",
    "Starbow.Props.C66_uniquecount_partial",
    "Starbow.Props.C66_http_refuted",
    "Starbow.Props.C66_race_refuted",
    "Starbow.Props.C66_partial"
   ],
   "note": "C66_partial: for any collator and interleaving, if the first Write of the key had returned before the others were called and the key has its home slot. False without the first proviso: C66_race_refuted (two first Writes at once; both return nil, one observation lost from max). Without the second: C59_gt_uz_refuted. C66_http_refuted: the same with two concurrent posts and a query over HTTP. race is the general form of the refutation. C66_server_partial, C66_quiet_partial: the same for the whole server under concurrent HTTP requests and any query; C66_extreme_partial and C66_uniquecount_partial draw the consequence for max/min (a number observed that bounds all others) and uniquecount (the count of a fresh counter given all values), whatever the interleaving. C66_displaced and C66_displaced_server: the exact law for keys out of their home slot, under every interleaving and with no proviso about the first: the record treats each observation as its first; C66_displaced_last: so max and min are whatever was served last; C66_twin_refuted: in the program, after a height of LT, heights 5 and 3 of ZZ give max 3."
  },
  {
   "property": "C67",
   "status": "partial",
   "theorems": [
    "Starbow.Props.C67_counted_partial",
    "Starbow.Props.C67_harmonic_partial",
    "Starbow.Props.C67_count_partial",
    "Starbow.Props.C67_empty_refuted"
   ],
   "note": "C67_counted_partial: for every counter HarmonicCount is alpha*m^2/S rounded up, to within 2^-33, where S counts an empty register as one half and alpha is the published constant up to 256 registers and 0.7213475 above. C67_harmonic_partial and C67_count_partial: with no empty register it is (and Count below the switch-over alpha*m/7 is) the published estimate, within 0.4%. C67_empty_refuted: with empty registers it is not."
  },
  {
   "property": "C68",
   "status": "partial",
   "theorems": [
    "Starbow.Props.C68_alone",
    "Starbow.Props.C68_count_partial",
    "Starbow.Props.C68_exact_partial",
    "Starbow.Props.C68_realised"
   ],
   "note": "C68_count_partial: the bounds; C68_exact_partial: exact when no post is in progress; both for keys whose slot number is at least 8 times the number of record measures (C30_truncated) and no overtaking of a Read by 2^31 updates of one record. C68_alone: from any reachable state, a goroutine handling a request alone does exactly what the sequential server does, so C41-C49 are about runs of this model. C68_realised: every concurrent run of a store arises from concurrent requests, so the refutations about stores (C66_race_refuted) are about the server."
  },
  {
   "property": "C69",
   "status": "partial",
   "theorems": [
    "Starbow.Props.C69_used_partial",
    "Starbow.Props.C69_partial",
    "Starbow.Props.C69_count_partial",
    "Starbow.Props.C69_empty",
    "Starbow.Props.C69_alpha_refuted"
   ],
   "note": "C69_partial: from precision 9 on PoissonCount is Ertl's estimate rounded up, within 4e-8. C69_used_partial: for every precision it is that estimate within 2^-28 with the code's alpha in place of 1/(2 ln 2). C69_count_partial: so is Count between linear counting and the switch-over. C69_empty: an empty counter gives 0. C69_alpha_refuted: at precision 4 the published estimate is not met (267 instead of at least 285), because the code uses 0.673. The estimate must be at most 2^62 (else the conversion to int64 overflows, C57)."
  },
  {
   "property": "C70",
   "status": "proved",
   "theorems": [
    "Starbow.Props.C70_local",
    "Starbow.Props.C70_reads",
    "Starbow.Props.C70_short"
   ],
   "note": "C70_local, C70_reads, C70_short."
  },
  {
   "property": "C71",
   "status": "partial",
   "theorems": [
    "Starbow.Props.C71_partial",
    "Starbow.Props.C71_few_refuted",
    "Starbow.Props.C71_overflow_refuted"
   ],
   "note": "C71_partial: for 3 to 2^31 numbers of magnitude up to 2^200 the result is the standard error of the estimate within a relative (n+8)/2^52 and an absolute 2^-230. C71_few_refuted: with fewer than three numbers the code returns -0 or +Inf where the formula is undefined, so the second half of the claim is false of the code. C71_overflow_refuted: for large numbers the squares overflow and the result is infinite although the standard error is a double (2^600, 0, 0)."
  },
  {
   "property": "C72",
   "status": "partial",
   "theorems": [
    "Starbow.Props.C72_ready",
    "Starbow.Props.C72_listen",
    "Starbow.Props.C72_signal_partial",
    "Starbow.Props.C72_only_signal",
    "Starbow.Props.C72_signal_refuted",
    "Starbow.Props.C72_listen_fails",
    "Starbow.Props.C72_exit_refuted",
    "Starbow.Props.C72_exit"
   ],
   "note": "Requests only after registration, errors only from listening, no return without a signal: proved for all histories. That every signal stops the server is refuted (one delivered between signal.Notify and the receive on the unbuffered channel is lost), C72_signal_partial covers every other moment; the exit status after a failed start is refuted."
  },
  {
   "property": "C73",
   "status": "partial",
   "theorems": [
    "Starbow.Props.C73_partial",
    "Starbow.Props.C73_exact_partial",
    "Starbow.Props.C73_integers_partial"
   ],
   "note": "C73_partial: with posts in progress; C73_exact_partial: all acknowledged before; C73_integers_partial: whole numbers, exact sum. Missing: colliding key values (C29), keys in the first slots (C30_truncated), a Read overtaken by 2^31 Writes (C35, C65), which are false of the code."
  },
  {
   "property": "C74",
   "status": "partial",
   "theorems": [
    "Starbow.Props.C74_bufmap_partial",
    "Starbow.Props.C74_seqlock",
    "Starbow.Props.C74_starved",
    "Starbow.Props.C74_store_partial"
   ],
   "note": "C74_seqlock: complete for functions that do not panic. C74_bufmap_partial, C74_store_partial: all Updates/Writes, and all Gets/Reads of keys that are not in one of the last slots (x*(s+1) > l*s); those never return (C30_silent). C74_starved: an infinite fair run with ever new Updates in which a Get never returns."
  },
  {
   "property": "C75",
   "status": "proved",
   "theorems": [
    "Starbow.Props.C75_wait_free"
   ],
   "note": "for every reachable state and every continuation; the bound for Get is sharp (example)"
  },
  {
   "property": "C76",
   "status": "proved",
   "theorems": [
    "Starbow.Props.C76_every_buffer",
    "Starbow.Props.C76_bucket_refused",
    "Starbow.Props.C76_bucket_opens",
    "Starbow.Props.C76_bucket_prefix",
    "Starbow.Props.C76_bloom",
    "Starbow.Props.C76_hll",
    "Starbow.Props.C76_prefix"
   ],
   "note": "All three structures. Buffers declaring counts that are negative or overflow, or width 0, are covered by C07/C16 (the code misbehaves there)."
  },
  {
   "property": "C77",
   "status": "partial",
   "theorems": [
    "Starbow.Props.C77_writer",
    "Starbow.Props.C77_reader",
    "Starbow.Props.C77_short",
    "Starbow.Props.C77_cardinality",
    "Starbow.Props.C77_cardinality_short_refuted",
    "Starbow.Props.C77_record"
   ],
   "note": "Numbers: proved for all buffers of at least Size() bytes (C77_writer, C77_reader), panics below for Count, Max, Min (C77_short). Cardinality: proved for precisions 4 to 18 (C77_cardinality). That too few bytes are always noticed is refuted for cardinality: the first write succeeds (C77_cardinality_short_refuted)."
  },
  {
   "property": "C78",
   "status": "proved",
   "theorems": [
    "Starbow.Props.C78_once",
    "Starbow.Props.C78_fixed",
    "Starbow.Props.C78_accepted",
    "Starbow.Props.C78_refused",
    "Starbow.Props.C78_order"
   ],
   "note": "For all reachable states of the concurrent server (requests handled by any number of goroutines). Answers of queries that give all key fields are C68 and C73. Posts that can be cancelled: C43_concurrent."
  },
  {
   "property": "C79",
   "status": "proved",
   "theorems": [
    "Starbow.Props.C79_read_bucket",
    "Starbow.Props.C79_read_bloom",
    "Starbow.Props.C79_read_hll",
    "Starbow.Props.C79_write_bucket",
    "Starbow.Props.C79_write_bloom",
    "Starbow.Props.C79_write_hll"
   ],
   "note": "ReadFrom: for every reader, if it returns (a negative size makes it panic, C07). WriteTo: writers that accept a number of bytes and then fail."
  },
  {
   "property": "C80",
   "status": "partial",
   "theorems": [
    "Starbow.Props.C80_moves",
    "Starbow.Props.C80_answered_partial",
    "Starbow.Props.C80_home_partial",
    "Starbow.Props.C80_panics",
    "Starbow.Props.C80_reply_partial",
    "Starbow.Props.C80_panic_refuted",
    "Starbow.Props.C80_silent",
    "Starbow.Props.C80_silent_refuted"
   ],
   "note": "C80_answered_partial, C80_home_partial: all requests are answered from some moment on, except queries for keys in the last slots of their map (x*(size+1) > slots*size). C80_silent: those are never answered, in any run; C80_silent_refuted: concretely in the program (country CET). C80_moves ties the runs to the model's transitions. C80_panics: a request whose handling ends in a panic is a query of a key whose slot cuts the counter of a field asked for (C83); C80_reply_partial: the other queries get a reply that is no panic; C80_panic_refuted: the panic occurs in the program (Poland)."
  },
  {
   "property": "C81",
   "status": "partial",
   "theorems": [
    "Starbow.Props.C81_results",
    "Starbow.Props.C81_body_partial",
    "Starbow.Props.C81_forged_refuted",
    "Starbow.Props.C81_concurrent"
   ],
   "note": "C81_results: full claim for a client that knows its query. C81_body_partial: from the body alone, when no criterion name contains = or (. Otherwise false: C81_forged_refuted. C81_concurrent: the same for every successful answer in any run with any number of concurrent requests; its results are those of the Read made for that request, or none."
  },
  {
   "property": "C82",
   "status": "proved",
   "theorems": [
    "Starbow.Props.C82_order",
    "Starbow.Props.C82_concurrent",
    "Starbow.Props.C82_status"
   ],
   "note": "C82_order. For failing queries the claim is that they fail (500 or panic) in every order. C82_status: which of the two can depend on the order (tz GSH in the program). C82_concurrent: the same with any number of concurrent requests in any interleaving: every run with one order has its counterpart with the other (the order is a function of the map, fixed during a run), with an instance in UnknownRaceDemo."
  },
  {
   "property": "C83",
   "status": "partial",
   "theorems": [
    "Starbow.Props.C83_law",
    "Starbow.Props.C83_slot_partial",
    "Starbow.Props.C83_server_law",
    "Starbow.Props.C83_when",
    "Starbow.Props.C83_nokey",
    "Starbow.Props.C83_partial",
    "Starbow.Props.C83_panics",
    "Starbow.Props.C83_poland_refuted"
   ],
   "note": "C83_when: if a query panics the slot of its key cuts the header of a counter asked for, or the read itself fails; C83_nokey: queries without a usable key never panic; C83_partial: none panics if the slots of the keys are at least the record size (and home slots are distinct); C83_panics: whenever the slot cuts the counter the query does panic; C83_poland_refuted: in the program, for Poland. C83_law, C83_server_law: exactly when a query for the distinct values of a field panics, for every accepted history, in the store and over HTTP; C83_slot_partial: C83_partial with the slot the key actually has instead of distinct home slots. Missing: nothing that is true of the code."
  },
  {
   "property": "C84",
   "status": "partial",
   "theorems": [
    "Starbow.Props.C84_partial",
    "Starbow.Props.C84_split",
    "Starbow.Props.C84_newline",
    "Starbow.Props.C84_crlf",
    "Starbow.Props.C84_blank_refuted",
    "Starbow.Props.C84_refused_refuted",
    "Starbow.Props.C84_values_refuted"
   ],
   "note": "C84_partial: two histories of correctly written observations that are the same up to the order of fields (fields may occur repeatedly, the values of one field keep their order): if one is accepted so is the other, and the stores end up equal. C84_split: a body may be cut after any newline into two requests; C84_newline: the last newline may be left out; C84_crlf: CRLF line ends; all three for all states. C84_blank_refuted: a blank last line is refused. C84_values_refuted: the order of two values of the same field matters: max(height) is 1 after heights 9, 1 and 9 after 1, 9. C84_refused_refuted: for a refused observation the order of fields matters. Missing: nothing that is true of the code (refused observations are described exactly by C26_trace)."
  },
  {
   "property": "C85",
   "status": "partial",
   "theorems": [
    "Starbow.Props.C85_record_partial",
    "Starbow.Props.C85_accepted_partial",
    "Starbow.Props.C85_partial",
    "Starbow.Props.C85_sum_refuted",
    "Starbow.Props.C85_extreme_refuted",
    "Starbow.Props.C85_unique_refuted"
   ],
   "note": "C85_accepted_partial: if every observation carries the fields whose distinct values are counted, acceptance does not depend on the order. C85_partial: the answers for count, for sums of integers (magnitudes up to 2^53 in total), for uniquecount, max and min of a field every observation carries do not depend on the order; C85_record_partial: the same for one record. The rest is false: C85_unique_refuted, C85_extreme_refuted, C85_sum_refuted (the demo program, end to end). Missing: mean and var, which are rounded (for the rounding of sums see C54, of means C53)."
  },
  {
   "property": "C86",
   "status": "proved",
   "theorems": [
    "Starbow.Props.C86_store_apart",
    "Starbow.Props.C86_apart",
    "Starbow.Props.C86_store",
    "Starbow.Props.C86_server",
    "Starbow.Props.C86_gt_uz",
    "Starbow.Props.C86_full"
   ],
   "note": "C86_server (the server, if and only if), C86_store (one store); where keys are kept is described independently in Spec/Seats.lean (Storage.slot_run proves that the tables do this). C86_apart, C86_store_apart: the simpler form when observations with different key values have different home slots. Instances: C86_gt_uz (two observations of UZ refused on their own, accepted after one of GT), C86_full (a table of one slot), OrderDemo.ofFR_accepted."
  },
  {
   "property": "C87",
   "status": "partial",
   "theorems": [
    "Starbow.Props.C87_law",
    "Starbow.Props.C87_partial",
    "Starbow.Props.C87_at_most",
    "Starbow.Props.C87_apart_partial",
    "Starbow.Props.C87_crowd_refuted",
    "Starbow.Props.C87_uz_refuted"
   ],
   "note": "C87_law: exactly when an observation is refused for want of room, for every history: its key value has no slot and every slot it could have (home slot and up to ten after it) belongs to another key. C87_partial: never while at most min(l, 11) different key values have been seen, the strongest bound by number alone (C87_crowd_refuted: eleven others with the same home slot suffice to be refused, in a table of any size). C87_apart_partial: never if home slots are distinct. C87_at_most: a history that is accepted throughout has at most l key values. C87_uz_refuted: in the program's own configuration, eleven accepted two-letter country codes and the post of UZ is answered 500 although 4989 of 5000 slots are free."
  },
  {
   "property": "C88",
   "status": "partial",
   "theorems": [
    "Starbow.Props.C88_store",
    "Starbow.Props.C88_found",
    "Starbow.Props.C88_server",
    "Starbow.Props.C88_count_partial",
    "Starbow.Props.C88_stable",
    "Starbow.Props.C88_count_refuted"
   ],
   "note": "C88_store and C88_found: one store, any interleaving: the order of Writes explaining an earlier Read is an initial part of that explaining a later one; found stays found. C88_server: the same for whole replies of the server, for any queries and any slot (as much of the record as is copied, C30_truncated). C88_stable: while every post received has been answered, the same query gets the same answer. C88_count_partial: the counts reported are n1 <= n2, for the slots where the count is copied back (the record of lower slots is truncated, C30) and while the counter has not wrapped. C88_count_refuted: in the program the count of country ION (slot 1) is 255 after 255 posts and 0 after 256. Proviso of C35 on the 32-bit sequence number. MonotoneDemo: a run of the program's own configuration meeting the hypotheses."
  },
  {
   "property": "C89",
   "status": "partial",
   "theorems": [
    "Starbow.Props.C89_registers",
    "Starbow.Props.C89_estimate_partial",
    "Starbow.Props.C89_last_byte_refuted",
    "Starbow.Props.C89_precision_refuted"
   ],
   "note": "False of the code: C89_last_byte_refuted (any number of values that differ only in the last byte are counted as 2 at every precision) and C89_precision_refuted (the 1315 different airport codes of README.md's example are counted as at most 127 at every precision from 10 to 18). What holds: C89_registers (at a greater precision at least as many registers are used, never more than there are different values) and C89_estimate_partial (while linear counting applies, Count is at least the number of registers used at any smaller precision, and at most u + u^2/(2^q-u), rounded up, for u registers used; so for values that are apart at one precision it becomes exact up to one). Instance two_codes."
  },
  {
   "property": "C90",
   "status": "partial",
   "theorems": [
    "Starbow.Props.C90_answers_concurrent_partial",
    "Starbow.Props.C90_accepted",
    "Starbow.Props.C90_answers_partial",
    "Starbow.Props.C90_later_partial",
    "Starbow.Props.C90_refuted",
    "Starbow.Props.C90_concurrent_partial"
   ],
   "note": "C90_accepted: a history is accepted by a server iff each of its collations alone would accept it. C90_answers_partial: two servers that share a collation and both accept a history answer every query text of it alike. C90_later_partial: collations declared later never affect those before them, whatever they refuse, if every post has one observation (any bytes). Missing and false: histories of which something is refused. C90_refuted: the program refuses 0;country=FR;height=x;tz=Europe/Paris because of the collation country, so tz answers as if it was never sent, while a server with tz alone accepts and counts it. C90_concurrent_partial: collations declared later, with any number of concurrent requests: whatever the server does, the server without them can do, down to the replies about the earlier collations and the bytes in their stores (posts of one observation). C90_answers_concurrent_partial: the same for one collation anywhere in the list, against a server with it alone, for posts of any length, as long as no post is refused."
  },
  {
   "property": "C91",
   "status": "proved",
   "theorems": [
    "Starbow.Props.C91_ignored",
    "Starbow.Props.C91_concurrent"
   ],
   "note": "C91_ignored: equality of all answers and of the final state, accepted or refused, repetitions of used fields kept. Observations written correctly in the sense of Line.Correct. C91_concurrent: the same with any number of concurrent requests in any interleaving: what replies and store memories one list of requests can lead to, the other can; with an instance in UnknownRaceDemo."
  },
  {
   "property": "C92",
   "status": "proved",
   "theorems": [
    "Starbow.Props.C92_together",
    "Starbow.Props.C92_concurrent"
   ],
   "note": "C92_together, with the vocabulary PutTogether; covers refused queries, panics and queries that never return. Queries that select nothing are excluded (they have no single measures). C92_concurrent: the same with any number of concurrent requests: for an answered query there are runs that differ from the given one only in that this query asks for one measure, and its answers there, put together, are the answer."
  },
  {
   "property": "C93",
   "status": "partial",
   "theorems": [
    "Starbow.Props.C93_law",
    "Starbow.Props.C93_keys_partial",
    "Starbow.Props.C93_refuted"
   ],
   "note": "C93_keys_partial: holds for count(*) if there is one criterion for each key field and no other (with the provisos of C48). Otherwise false: C93_law: criteria on other fields, and a second criterion for the same key field, are repeated in the answer but change no result, in any state of any server. C93_refuted: after 0;country=FR;tz=Europe/Paris the program answers count 1 for country='FR' and tz='Asia/Tokyo', and for country='FR' and country='DE'."
  },
  {
   "property": "C94",
   "status": "partial",
   "theorems": [
    "Starbow.Props.C94_extreme_partial",
    "Starbow.Props.C94_refuted",
    "Starbow.Props.C94_concurrent_partial",
    "Starbow.Props.C94_race_refuted"
   ],
   "note": "C94_extreme_partial: holds, over HTTP and in any server, for a key value in its home slot whose reads are neither truncated nor panicking (C59) and without NaN, also when the first observation does not carry the field. False otherwise: C94_refuted: in the program, after a height of LT and the height 5 of ZZ, max(height) of ZZ is 5, and after the height 3 of ZZ it is 3. C94_concurrent_partial: also under concurrent requests, in any interleaving, if the first observation of the key value has been acknowledged before the others are posted. C94_race_refuted: not if the first two are posted at once: max(height) of France is answered 5, then 3."
  },
  {
   "property": "C95",
   "status": "partial",
   "theorems": [
    "Starbow.Props.C95_again_partial",
    "Starbow.Props.C95_refuted",
    "Starbow.Props.C95_concurrent_partial"
   ],
   "note": "C95_again_partial: holds, over HTTP and in any server, for a key value in its home slot whose reads are neither truncated nor panicking (C59), if the first observation with the key carries the field exactly once; whatever else is posted in between. False otherwise: C95_refuted: in the program, after an observation of FR with the airports CDG and TLS, uniquecount(iata) is 2, and after another with CDG it is 3 (only the last value of the first observation is counted). C95_concurrent_partial: also under concurrent requests, if the first observation has been acknowledged before the others are posted."
  },
  {
   "property": "C96",
   "status": "partial",
   "theorems": [
    "Starbow.Props.C96_fit_partial",
    "Starbow.Props.C96_refuted",
    "Starbow.Props.C96_concurrent_partial"
   ],
   "note": "C96_fit_partial: holds, over HTTP and in any server, for a key value in its home slot whose reads are neither truncated nor panicking (C59), if the first observation with the key carries the field at most once and the numbers and their differences are finite; also if the first observation does not carry the field. False otherwise: C96_refuted: in the program, after one observation of FR with the heights 9 and 1, the answer is min 1, mean 5, max 1. C96_concurrent_partial: also under concurrent requests, if the first observation has been acknowledged before the others are posted."
  },
  {
   "property": "C97",
   "status": "proved",
   "theorems": [
    "Starbow.Props.C97_untouched",
    "Starbow.Props.C97_first",
    "Starbow.Props.C97_concurrent"
   ],
   "note": "C97_untouched: over HTTP, for any collations with valid schemas, after any requests (any bytes), for any query text that parses; also when the key is not in its home slot and when reads are truncated or panic (they do so before and after). Observed key: the answer before is not the empty one; a key with the hash 0 is never observed (C40, C58). C97_first: the very first observation of a key does change the answer though it does not carry the field: the program first has nothing on FR, then max(height) 0. Instance: ex_untouched. C97_concurrent: the same of any number of concurrent requests in any interleaving: two queries made after all posts with the fields for that key are acknowledged get the same answer, unless one finds nothing; the fields of refused observations are not covered there (2^32 as in C35), with an instance in UntouchedRaceDemo."
  }
 ]
}