# Formal model of iand/starbow in Lean 4 — design and trusted base

Source: `/repo` (Go 1.15 module, commit pinned by the task; not built, not run, not changed). Everything below is proved about a
*model* of that source. The tie between the model and the code is the reading recorded in the comments: every definition in
`Model/` cites the file and lines it models, and says where it simplifies.

## 1. Layout of `/verif/lean/Verif`

| directory | content |
|---|---|
| `Model/` | executable definitions of the code, function by function |
| `Spec/`  | small independent specifications: the vocabulary the theorem statements are written in |
| `Proof/` | helper lemmas (may be skipped by a reader who trusts the kernel) |
| `Props/` | the property theorems `Cnn_…` and, beside each, an `example` that meets its hypotheses on a concrete case |

Names: `Cnn_x` proves (part of) property `Cnn`; the suffix `_partial` marks a theorem that proves the property only under an extra
hypothesis or only in part; the suffix `_refuted` (or a name such as `_panics`, `_is_two`, `_can_drop`) marks a theorem that proves the
property, as stated, *false of the code*, by a general law or an explicit counterexample. A property is marked `proved` in
`MANIFEST.json` only if it holds in full; a property the code violates is `partial` and has both the strongest positive theorem found and
the refutation.

## 2. Trusted base

### 2.1 Lean
* The kernel of Lean 4.33.0 (and `vcheck`'s replay). No `native_decide`/`bv_decide`, no added axioms.
* Axioms (checked with `#print axioms` for every theorem of the manifest): every one depends on a subset of
  `propext`, `Quot.sound`, `Classical.choice`. `C50_sum_agrees` uses none; `C01_sum`, `C31_late_init`, `C31_double_init`,
  `C33_invalid_key`, `C50_double_refuted` use `propext` only; about a quarter use `propext` and `Quot.sound`; the rest use all three
  (through Mathlib's reals, rationals, finsets and `omega`/`simp`).
* Mathlib 4 as installed, imported module by module.

### 2.2 The reading of Go
* `byte`, `uint16/32/64` are `BitVec 8/16/32/64` and wrap around. `int` is a 64-bit signed integer: where overflow is possible the model
  wraps explicitly (`Basic.lean` `wrap64`), elsewhere it is an `Int` or `Nat` and the comment says why it cannot overflow.
* Slices are lists; a function that writes through a slice returns the new list. Aliasing of a caller's buffer is modelled where a
  property is about it (`storeBack` for `WithBytes`, record buffers inside bufmap).
* A run-time panic is an outcome (`Out.panic`), an `error` is a value (`Err`); "never returns" is an outcome of its own in `Bufmap.Res`.
* Unbounded `for` loops are given fuel and *report running out of fuel as a panic*, so "does not panic" includes termination.
* Strings are byte lists. Go maps are functions to `Option`; iteration order over a map (rough.go) is an arbitrary permutation.
* A nil-pointer, allocation failure, stack overflow or `runtime` fatal error is not modelled.

### 2.3 Floating point
* `Model/F64.lean`: IEEE-754 binary64, round to nearest, ties to even, subnormals, signed zeros, infinities, one NaN. `+ - * /`, comparisons,
  conversions from/to `int`, `uint64` and bits are defined by exact arithmetic followed by one rounding. NaN payloads are not
  distinguished. No fused multiply-add (amd64; the Go specification allows fusing elsewhere). `float64 → int` out of range gives `-2^63`
  (amd64 `CVTTSD2SQ`; the Go specification leaves it implementation-defined).
  `Props/Ieee.lean` checks this file against a separate statement of IEEE 754 (`Spec/Ieee.lean`: which numbers are doubles, and
  round to nearest with ties to even, over the reals): `ieee_add/sub/mul/div/sqrt/ofNat/ofInt/dec` (correctly rounded, overflow
  included), `ieee_compare`, `ieee_toInt64`, `ieee_ceil`, `ieee_ofBits`, `ieee_bits_round_trip`, `ieee_nan/inf/invalid/sign` (special values).
* `math.Log`, `math.Exp`, `math.Pow` are parameters. Where a theorem needs to know something about them it has a hypothesis:
  `LogOk` (relative error ≤ 2^-50 on positive doubles), `ExpOk`, `PowOk` (`Spec/Bloom.lean`), and `log 0 = -Inf` where used.
  `math.Ceil`/`Floor`, `Abs`, `Nextafter`, `Float64bits` are defined by their documented behaviour.
* `strconv.ParseFloat` is a parameter; where needed the hypothesis `ParsesDoubles` says its results are doubles. Number formatting
  (`fmt`'s `%v` of a float) is a parameter of the server model.

### 2.4 Libraries modelled by their documentation
* `io.Reader`/`io.Writer`/`io.ReadFull`: a reader is an arbitrary finite script of chunks and errors; a writer accepts some bytes and
  then fails (`Model/Io.lean`).
* `regexp` leftmost-first semantics for the three expressions of rough.go, matching bytes (justification in `Model/Query.lean`).
* `bufio.Scanner` with `ScanLines` and its 64 KiB token limit; `net/http`'s path dispatch for the two registered patterns, `mime.ParseMediaType`
  and `strconv.Atoi` as contracts/parameters (`Model/Server.lean`).
* `sync.Mutex`, `sync/atomic`: one indivisible step each. Memory is sequentially consistent; the code's unsynchronised byte copies (data
  races by the Go memory model) are modelled as single-byte steps in program order. For C74 the scheduler is fair: every goroutine has its
  turn again and again; nothing is assumed about who gets a free mutex.
* `math/rand.Intn(n)`: any sequence of numbers in `[0,n)`.

### 2.5 What is modelled

| Go file | Lean model | extent |
|---|---|---|
| internal/hash/fnv/fnv.go | `Model/Fnv` | whole file |
| internal/bitbucket/bitbucket.go | `Model/Bitbucket` | whole file |
| internal/summary/bloom/bloom.go | `Model/Bloom`, `Model/BloomEst` | whole file |
| internal/summary/hll/hll.go | `Model/Hll`, `Model/HllEst` | whole file (zero-value `Counter{}` and `Bloom{}`: Props/ZeroValue) |
| internal/summary/stat64/stats.go | `Model/Stat64` | whole file |
| internal/stats/stats.go | `Model/Stats` | whole file |
| internal/collation/{measure,schema,compile}.go | `Model/Collation` | all declared measures; the `DiscreteOutput` branches no measure can enter and the commented-out measures are left out |
| internal/storage/storage.go | `Model/Collation` (namespace `Storage`, one call at a time), `Model/StoreConc` (any interleaving) | whole file |
| internal/bufmap/bufmap.go | `Model/Bufmap` (one call at a time), `Model/BufmapConc` + `Model/Cell` + `Model/ProbeConc` (any interleaving) | whole file, twice |
| internal/incmap/incmap.go | `Model/Incmap`, `Model/IncmapConc` | whole file, twice |
| internal/seqlock/seqlock.go | `Model/Seqlock` + `Model/Cell` | whole file |
| internal/query/rough.go | `Model/Query` | whole file |
| internal/server/server.go | `Model/Server` | `New`, `AddStore`-style registration, `ServeHTTP`, both handlers, `parseRow`, `parseFV`, `queryCollation`; requests one at a time |
| `Server.Serve`, `waitSignal`, `main` | `Model/Lifecycle` | state machine: steps of Serve, signals, requests; sockets and `net/http` only as "accepts requests after `go hs.Serve`" |
| the same, goroutine per request | `Model/ServerConc` | any number of requests at the same time: steps of handlers interleaved with steps inside the stores |
| internal/testutil/{float,rand}.go | `Model/TestUtil` | whole files |
| demo.go, starbow.go | `Model/Demo` | the collations and sizes the program is configured with |

Not modelled: sockets; the text of error messages and of HTTP error bodies; the `Cache-control` header;
`internal/version`; `internal/summary/hll/errest.go` (excluded from the build by a build tag); `internal/collation/record.go` (an empty
declaration); the test files; performance.

## 3. Plan per property

For each property: what is modelled and how it is proved. Status and theorem names are in `MANIFEST.json`.

| id | modelled | how proved |
|---|---|---|
| C01 | every function of fnv.go | induction over call sequences against the FNV fold over naturals (`Spec/Fnv`) |
| C02 | same | the step is a bijection in the state (odd prime invertible mod 2^64) and injective in the byte; four-byte windows by a lattice argument checked by the kernel (`Proof/FnvWindow`) |
| C03, C04 | bit-level get/set/inc | bit-string view of the data; refinement to a list of saturating naturals |
| C05–C08 | serialisation, `Model/Io` | induction over reader scripts; counterexamples by evaluation |
| C09–C11 | bloom Add/Has/Reset, serialisation | set bits are a function of the set of live values |
| C12, C13, C15 | hll Add, serialisation | registers = maximal rank (`Spec/Hll`); the last byte of a value only reaches the low bits of the hash |
| C14, C55–C57 | hll estimators | real-analysis bounds on `log` plus rounding lemmas; loops shown to stop because a rounded sum becomes stationary; counterexample histories by kernel evaluation; rounding is monotone, so the harmonic sum only falls when registers grow; lower bounds on both denominators from the small registers |
| C67 | `HarmonicCount`, `alpha` | relative error of the rounded sum by induction over the registers (`2^-34` for `2^18` of them), constants checked for each of the 15 precisions by kernel evaluation |
| C69 | `PoissonCount`, `sigma`, `tau` | the loops against the two infinite series (tail bounds plus accumulated rounding: `2^-30` relative for `sigma`, `2^-35` absolute for `tau`), the fold by induction, the constant by bounds on `ln 2` |
| C16 | `WithBytes` of hll/bloom on hostile buffers | counterexamples and a partial theorem |
| C17 | stat64 generic in the arithmetic | Welford invariant over the rationals |
| C18–C21, C53, C54 | stat64 on doubles, buffer encoding | exactness, monotonicity, relative-error lemmas for rounding |
| C70 | stat64's buffer handling | list lemmas about slices |
| C71 | `See` of internal/stats | induction over the list: relative error of the accumulated squares, then the quotient and the root; the spec is over the reals |
| C72 | Serve, waitSignal, main | state machine; invariants by induction over the history; the lost signal by an explicit history |
| C22 | max/min | induction over the stream; NaN counterexample |
| C23, C24 | schema compilation | induction over the schema; frame lemmas for disjoint ranges |
| C25–C27 | collator Update/Read | refinement of the record to per-field streams; counterexamples |
| C28, C29 | key computation | permutation lemma; explicit collisions |
| C30–C33, C40 | bufmap, incmap one call at a time | probe-sequence invariant, refinement to a finite map; counterexamples |
| C34–C36 | bufmap under any interleaving; the sequential model and its agreement with solo runs of the concurrent one | inductive invariant over all schedules; serial order and real-time order as history variables; step-by-step simulation |
| C37, C38 | seqlock under any interleaving | as above |
| C39 | incmap under any interleaving; the sequential model and its agreement with solo runs of the concurrent one | inductive invariant; step-by-step simulation |
| C41, C42 | parseRow/parseFV | split/join induction |
| C43, C44 | handlers | induction over lines, stores and requests. C43_concurrent (Props/CancelRace.lean, Proof/ServerCut.lean): invariant over all runs of the concurrent server that each answer to a post was given at a definite place, for one of five reasons, cancelling included |
| C45–C47 | the three regular expressions with leftmost-first matching | induction on the text; exact characterisation of accepted texts; counterexamples |
| C48, C49, C58, C59 | store and whole server | composition of the above; for C59 an exact law for every key wherever it is kept (C59_law, C59_server_law, C48_server_law, C58_law); concrete failures in the program's own configuration by kernel evaluation |
| C73 | the server machine of C68, `recvObservation`, `queryCollation` | the record of a key is the collator run on the completed writes (C66 at one store); the order of the writes is traced back to requests and lines |
| C50 | stats.go | field arithmetic; rounding lemmas; counterexample |
| C51 | rand.go | permutation induction, counting of draw sequences |
| C52 | float.go | rounding lemmas; counterexample for every negative number |
| C64 | Write and Read of the store under any interleaving | the invariants of C34–C36, with the functions the store passes to the map |
| C65 | the same, with the fields' statistics | the serial order of C64 and the fold of stat64 over the cell's bytes, whatever `init` the writers were told |
| C66 | the same, all measures | C31_told_partial/C31_home_partial give `init` exactly to the first write; the record is then a sequential one. Refuted for concurrent first Writes. ServerMeasures.lean lifts it to concurrent requests and any query (max, min, uniquecount) |
| C68 | the server with a goroutine per request | invariant: every call of a store belongs to one line of one request; projection to runs of `Model/StoreConc`, then C64; simulation of the sequential server by a goroutine alone; simulation of any run of a store by requests |
| C74 | bufmap, seqlock, store under infinite schedules | a lexicographic measure (functions not yet called, steps left) drops with every step of a writer, and somebody can move; then the readers' measure drops; fairness does the rest (`Proof/Fair`). Starvation by an explicit infinite run |
| C75 | incmap under any interleaving | a measure of the own steps left, untouched by the others |
| C76 | WithBytes of bit bucket, bloom filter, counter | case split on the header; the wrapping length arithmetic is exact when the size fits; the counters by the bit-level reading of C01 |
| C77 | writers and readers of all measures over any buffer | case split on the measure; the first Size() bytes decide (le64/splice/take lemmas); cardinality by C13/C12 (WriteTo, WithBytes of a counter followed by other bytes) |
| C78 | the concurrent server (Model/ServerConc.lean) | invariant over all runs: replies are to distinct requests nobody works on any more, a post answered 500 stopped at a definite place, a line is given to a store only after those before it (Proof/ServerReplies.lean) |
| C60–C63 | bloom positions, Count, ErrorRate, New, Len | number theory of the probe sequence; real analysis + rounding; counterexamples |
| C79 | ReadFrom/WriteTo of the three structures over every reader and failing writer | what is pending in the reader before = bytes taken ++ what is pending after, through Read, io.ReadFull (induction on its reads) and the three functions; writes compose |
| C80 | concurrent server (Model/ServerConc), runs without new requests under a fair schedule (Spec/ServerRun) | the work outside stores is a decreasing measure; once it stops falling all steps are inside the stores, where returns_of_calm (C74) makes every call return, so a busy goroutine could go on: contradiction |
| C81 | query text → parse → store read → rendered body (serve) | names in a parsed query have no newline (induction over the regular-expression matcher), lines cut at newlines, a result line has its `(` before any `=`, the value starts after the last `)`; concurrent requests: the same of every reply in a run of the server with requests in any interleaving, from the invariant that a reply is made of its own Read |
| C82 | the order is a parameter of the environment; two runs of serve with different orders are compared | the parser groups measures by field with distinct names (invariant), reading fields is independent of the others, so permuting them permutes the results; under concurrent requests (C82_concurrent) by a step-by-step simulation between the servers with the two orders |
| C83 | Store.Read with the panics of bufmap.Get, bitbucket and hll.Count on truncated records | case analysis of the bytes read by Count, layout of the compiled collation, invariants of the store |
| C84 | the whole path of POST /obs: scanner, ParseRow, the compiled writers, bufmap.Update | the writers of different fields work on disjoint cells and commute (Proof/FieldOrder), induction over histories; scanner lemmas for splitting |
| C85 | acceptance, records and answers of the whole server for permuted histories | numbers and values of permuted histories are permutations of each other; exact integer sums (C19), set semantics of the counter (C12), extremes (C25) |
| C86 | the whole path of POST /obs, for all histories; an independent description of linear probing (Spec/Seats.lean) | slot of a key in the table = slot of the description (invariant over writes); the record of a key in its home slot is built iff C25_accepted_iff holds of its observations, elsewhere every observation is treated as the first; induction over histories from the end |
| C87 | bufmap's probing, Store.Write and POST /obs, for all histories | seats of keys (C86's slotAfter) are related to the keys in the table; the refusal law by cases on write; pigeonhole on the candidates of a key for the bounds; the program's twelve countries evaluated by the kernel through the law |
| C88 | the concurrent server, store and map | the log of finished Updates of a slot only grows and keys stay in their slots (steps_mono); each answered Read is explained by the log at its return (C35); prefix of logs gives prefix of writes, monotone count by the count law; stability because with no call under way the log and the table do not change |
| C89 | The registers selected at two precisions are compared through the index (top p bits of the hash), the estimate through the linear counting formula of C14 and `u <= m ln(m/(m-u)) <= u + u^2/(m-u)`; the refutation takes the data of README.md's example (Props/ReadmeData.lean). |
| C90 | The server's state after a history of accepted posts is each store fed on its own (steps_allTake), and a query is answered from the first store of its name only (ask_any, including texts that do not parse). The refutation runs the program's two collations on one line. Concurrent requests: step-by-step simulation of the server by the one without the other collations (PCLater, PCAlone), with none, one or two steps there for each step. |
| C91 | A field the schema does not name gets no writer from Compile (induction over the schema), so the transaction of a row is a function of the used fields; the key depends on the key fields only; lifted through the stores, the loop over the lines and the history. Under concurrent requests (C91_concurrent): a step-by-step simulation between the two servers; the states have equal memories, replies and program points and differ only in unused fields of the rows in hand. |
| C92 | A query with given criteria goes one of three ways that do not depend on the measures (query_ways): a fixed failure, the empty result, or Collator.Read on one buffer, which is the single reads put together (C27_read). Concurrent requests: a family of servers, one for each measure asked for alone, follows the given server step by step (Fam). |
| C93 | Read uses the criteria only through the key (C28_query), the answer repeats them all (render); the positive part is C48_server_partial with agreement on the keys replaced by satisfying the criteria (agree_satisfies). |
| C94 | Apply C59_server_law at both moments: the observations of the key at the first are a prefix of those at the second and the slot is kept (slotAfter_more), then C25_extreme_law: the reported extreme of the prefix is among the numbers bounded by the later one. The refutation uses a key out of its home slot (C59_firsts: max is the last number). Under concurrency: both answers are reads of records built in the same serving order (rising_server, from C66_server_partial at the two moments); the refutation drives the model of three goroutines on one slot through HTTP. |
| C95 | Apply C59_server_law at both moments (as C94), the values of the two records are the same set, so the counters are equal (C12_set_semantics with the precision fixed by the schema, card_ask_all). The refutation computes both estimates: C14_single_is_two and C14_linear_partial with bounds on log(1024/1022). Under concurrency: rising_server with a moment at which all the values have been acknowledged. |
| C96 | C59_server_law gives the record, C25_extreme_law and C25_mean what it says; the reported extremes enclose all numbers (and 0 if the first observation has none), so C53_mean_within applies. The refutation computes the three statistics. Under concurrency: C66_server_partial; the observations served are among those posted (served_subperm). |
| C97 | A write leaves every slot but one alone (write_cases), and in that one the bytes of every cell of another field (leaves_owner, from the layout of C23); a read looks only at the cells of the fields asked for, through the same truncation, so equal bytes give equal answers; lifted through writeStores, recvLoop and serve by a transitive relation between stores. Under concurrent requests (C97_concurrent): both Reads see the record of the same slot, the second with more writes in its log, none of which carries the fields. |

## 4. What the model found (all are theorems)

* **bufmap.Get** slices `values[x*s : x*(s+1)]`: copies only `x` bytes for slot `x` (nothing for slot 0) and panics for the last slots
  (`C30_truncated`, `C30_panics`; over HTTP `C48_server_ioo_refuted`, `C48_server_cet_refuted`).
* **bufmap.Update** signals `init` on every update of a key not stored in its first slot (`C31_displaced_always_init`; in the demo
  data GT/UZ, `C59_gt_uz_refuted`, over HTTP `C59_http_refuted`; what such a record reports is `C59_firsts`); concurrently it may signal it twice or late (`C31_double_init`, `C31_late_init`),
  so that two first Writes of a key at once, both answered nil, can lose one of the observations (`C66_race_refuted`; over HTTP, with two
  concurrent posts both answered 200: `C66_http_refuted`); a panicking function
  leaves the slot locked for ever (`C36_wedged`, `C36_wedged_forever`). Key 0 is refused by Update but found by Get (`C40_*_zero_found`, `C58_refuted`).
* **Collation**: a field first seen after the first row of a record starts from a zeroed, un-initialised measure (`C25_*_refuted`); a rejected
  row is still counted (`C26_counted_refuted`); NaN freezes max/min (`C22_nan_refuted`); key hashing has no separators (`C29_*`).
* **hll**: the last byte of a value does not influence the register (`C15_…`); one value counts as 2 (`C14_single_is_two`); Count can drop
  (`C56_…`) and be -2^63 (`C57_…`); `HarmonicCount` lets an empty register count 1/2 instead of 1 (`C67_…`);
  `PoissonCount` multiplies Ertl's estimate by the wrong constant below 512 registers (`C69_alpha_refuted`); hostile buffers panic (`C16_…`).
* **stats.See**: for fewer than three numbers it returns `-0` or `+Inf` instead of NaN (`C71_few_refuted`).
* **bloom**: ErrorRate uses the number of set bits as the number of items (`C62_…`); a full filter counts -2^63 (`C61_full_refuted`); the probe
  stride need not be coprime to the number of bits (`C60_refuted`); `New(0,p)` is unusable (`C63_zero_refuted`); the promised rate is not met (`C63_rate_refuted`).
* **bitbucket/bloom/hll** readers accept trailing data from readers that return data together with EOF (`C06_trailing_with_eof_accepted`);
  bitbucket headers are not validated (`C07_…`).
* **query**: values with `=`-signs or the word *where* are misread (`C45_*_refuted`); quoted or empty values cannot be queried (`C46_refuted`).
* **server**: a timestamp beyond the 64-bit nanosecond range wraps (`C41_time_refuted`), a 21st digit is taken for the delimiter (`C41_digits_refuted`), a cancelled
  request answers 200 with nothing applied, a truncated body's partial last line is applied (`C43_*_refuted`), a batch is not atomic (`C44_batch_refuted`).
* **server start/stop**: a signal between `signal.Notify` and the receive on the unbuffered channel is lost (`C72_signal_refuted`); a failure to
  listen ends the program with status 0 (`C72_exit_refuted`).
* **stats.Meanvar** returns the population variance where the documentation says sample variance (`C50_refuted`); **Close64** accepts anything for
  negative `a` (`C52_refuted`).
* **hll.WithBytes** accepts a precision of 64 or more: `Count` and `PoissonCount` of such a buffer never return (`C16_hll_count_endless`,
  `C16_hll_poisson_endless`; 12 bytes suffice); a precision of 0 or 1, or a register of 64 or more, makes `PoissonCount` panic.
* **Cardinality's DiscWriter** on a new record shorter than `Size()` cuts the counter off and reports success; every later write to that
  record fails (`C77_cardinality_short_refuted`).
* **server, concurrently**: a query whose record lies in one of the last slots of its map panics in its goroutine and is never answered
  (`C80_silent` in general, `C30_silent` for the map; `C80_silent_refuted`: `GET /collation/country` for CET in the demo program).
* **the body of an answer** repeats the criteria of the query unquoted: a criterion named `count(*)` makes a line that looks like a result, so an answer
  can be forged (`C81_forged_refuted`); and the fields are reported in the order of a map iteration, which differs from run to run (`C82_order` says
  that nothing else differs).
* **query panics for small slot numbers**: `bufmap.Get` copies only x bytes of the record in slot x, so the distinct counter at byte a with 2^p registers is
  cut within its header when 3 <= x-a <= 4+p/8, and `Count` panics with an index out of range (`C83_panics`). It happens with the repository's own sample
  data: Poland has slot 125, the counter of iata starts at byte 120, so `select uniquecount(iata) where country='Poland'` panics (`C83_poland_refuted`,
  `C80_panic_refuted` in the concurrent server). For tz GSH the map iteration order decides between a panic and a 500 (`C82_status`).
* **a refused observation is half recorded**: a line with a value that is no number is answered with 500, but the fields before that value are in the
  record, those after it are not (`C26_trace`), so resending the line with the fields in another order gives other data (`C84_refused_refuted`); the stores
  after the failing one do not see the line at all. A body that ends with an empty line is answered with 500 although all its observations are recorded
  (`C84_blank_refuted`).
* **the order of observations matters**: the field of a uniquecount must be in the first observation of a key value, otherwise later observations that carry it
  are refused with 500 (`C85_unique_refuted`; `C86_server` says exactly what is accepted); max and min start from 0 when the first observation lacks the
  field, so the max of heights {none, -5} is 0 or -5 depending on the order (`C85_extreme_refuted`); float sums depend on it as they must
  (`C85_sum_refuted`).
- Whether observations are accepted can depend on unrelated keys: UZ and then UZ with an airport are refused (the counter of airports was not created with the record),
  but after an observation of GT, which takes the home slot of both, they are accepted, because outside its home slot every observation is treated as the
  first (`C86_gt_uz`).
- A nearly empty table refuses new keys: a key is placed only in its home slot or one of the ten after it, and keys that differ in the last letter have adjacent
  home slots, because FNV-1 only XORs the last byte into the hash. After GT, GU, GV, GW and seven codes U. were accepted, an observation of UZ is answered
  with 500 while 4989 of the 5000 slots are free (`C87_uz_refuted`); `C87_law` says exactly when this happens.
- bloom `New(n, p)` panics for every n when p is 0, negative, NaN or +Inf (its logarithm is not finite, the size becomes -2^63) instead of returning an error
  (`C63_rate_panics`).
- The max of one key can forget observations because of a key it shares its home slot with: LT and ZZ share home slot 4245; once ZZ lives in 4246 every
  observation of it is treated as the first, and the max of 5, 3 is said to be 3 (`C66_twin_refuted`; `C66_displaced` is the general law).
- In the program the count of country ION (home slot 1) is 255 after 255 observations and 0 after 256: only its lowest byte is copied back to a reader
  (`C88_count_refuted`).
- README.md's own example shows the weakness of FNV-1 as the hash of the distinct counter: the 1315 airports of the United States in misc/airports.sh have 1315
  different codes and uniquecount(iata) answers 38, which README.md puts down to the estimate not being precise. `C15_readme_refuted` proves this of the
  program: only 37 of the 1024 registers are selected by any of the codes (the expected error at precision 10 is about 3 percent).
- README.md's advice to increase the precision does not help: values that differ only in the last byte are counted as 2 at every precision
  (`C89_last_byte_refuted`), and the 1315 codes as at most 127 at every precision from 10 to 18 (`C89_precision_refuted`).
- A collation depends on its neighbours: an observation one collation cannot take (in the program, `height=x` for country) is refused and does not reach
  the collations after it, although they would have taken it (`C90_refuted`).
- Criteria on fields that are not keys, and a second criterion for the same key, are repeated in the answer but ignored: `country='FR' and tz='Asia/Tokyo'` is
  answered with the airports of France (`C93_law`, `C93_refuted`).
- A maximum that has been reported can be taken back: max(height) of a country out of its home slot goes from 5 to 3 when the height 3 is posted
  (`C94_refuted`). No collision is needed if the first two observations of a key are posted at once: heights 3 and 5 of France, then
  max(height) is 5 and later 3 (`C94_race_refuted`).
- Repeating a value can raise the number of distinct values: after one observation with the airports CDG and TLS uniquecount is 2, after CDG again it is 3
  (`C95_refuted`: of several values in the first observation of a key only the last is counted).
- The mean can lie outside the reported range: after one observation with the heights 9 and 1 the answer is min 1, mean 5, max 1 (`C96_refuted`);
  with the heights in the other order max is 9 (`C84_values_refuted`).

### Conformance with the documented output

README.md ("Example Queries") prints four numbers that the real program produced from misc/airports.sh: count(*)=1315, min(height)=-54, max(height)=9078,
uniquecount(iata)=38. `C15_readme_refuted` derives the same four numbers from the model: the generated file Props/ReadmeData.lean holds the 1315 lines with
`country=United States` (without the airport's name, which no collation uses), the model's server receives them one POST each and is asked the four
queries. This is the one place where the model's output can be compared with recorded output of the program, and it agrees.

## 5. Testing the theorems

`seeded/LOG.jsonl` has one line per wrong program tried: the definition edited, the edit, the claim it breaks, the theorems that stopped
proving and those that were tightened as a result.
