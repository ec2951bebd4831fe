# Formal model of vivint/rothko in Lean 4 — design

## Approach

`/verif/lean/Verif/` holds four sorts of module, all in the namespace `Rothko`:

* `Model/*` – the model: total Lean functions that compute what a Go function computes, or explicit step relations for concurrent code. Every definition has a comment that cites the Go file and lines it models and
  says what was simplified.
* `Spec/*` – small specifications that say what an English property says and do not use the model's helpers.
* `Lemmas/*` – invariants and helper lemmas.
* `Props/*` – the theorems of the properties (`Cnn_...`), with a concrete, non-trivial case beside them that meets their hypotheses (`Cnn_example...`, or an `example`).

Names: `_refuted` is a theorem that exhibits a concrete execution of the model in which the property as stated is false; `_partial` is what holds of a property that is not true, or not proved, as stated. A property
is *partial* in `MANIFEST.json` when the code does not have it as stated; in every such case but those noted there is a witness, and the theorems say exactly when it holds.

Conventions: a Go `[]byte` or string is `List UInt8`; Go `int` is `Int` or `Nat` unless overflow matters; int64 values that are stored are `Int64` or `UInt64` at the byte level; an error is a value; a Go panic is an explicit result
wherever the modelled code can panic; a loop that might not end takes fuel, with a theorem that enough fuel exists or that none does. Concurrency is a transition relation whose steps are atomic operations, channel operations and
critical sections, any number of goroutines, any interleaving.

## How each property is modelled and proved

| id | model | proof |
|----|-------|-------|
| C01 | `Model/Record`: `record.go` marshal and parse on bytes, CRC-32C bit by bit (`Model/Crc`) | round trip, with any bytes behind |
| C02 | same | inversion of the parser |
| C03 | same | a step of the CRC register is injective, so a change within 4 consecutive bytes changes the sum; a changed size field moves the range covered: witness |
| C04 | `Model/Record`: `numRecords`, `iterateRecords` | induction on the value against `Spec/Split` |
| C05 | `Model/File`, `Model/Meta`, `Model/Proto`: metadata slot, `meta.pb.go` | round trip through the slot |
| C06, C07 | `Model/DataRecord`, `Model/Proto`: `record.pb.go` size, marshal, unmarshal, skip | round trip; measure for termination; crash witness |
| C08–C10 | `Model/Convert`: `convert.go`, data file names | induction on the byte string |
| C11 | `Model/File`: `file_ops.go` search of the head | exact result for every prefix-closed file and any hint |
| C12 | `Model/File`: `file.go` on bytes | splicing of lists |
| C13–C20 | `Model/Metric`: `newMetric`, `acquireLast`, `Write`, `Read` over directory, inodes, handles and handle cache | invariant over all histories (`Lemmas/History`), refinement to a list of values (`Spec/History`, `Spec/Query`) |
| C21 | same, bytes of chosen slots replaced | induction over the walk through the slots (`Spec/Damage`) |
| C22–C24, C61, C64, C65 | `Model/Crash`: every prefix of the byte stores of a write, of a metadata store, of creating a file; then reopening | invariant over histories with crashes (`Lemmas/Durable*`), witnesses, and "for every history" forms of the failures |
| C25 | `Model/Metric`, read path | frame lemma; witness |
| C26–C28 | `Model/Cache`, `Model/FileCache`: `cache.go`, `file_cache.go` over an ownership trace (`Spec/Cache`, `Spec/FileCache`) | invariant over operation lists |
| C29 | `Model/Pcg`: `pcg.go` on `BitVec` | identities; full period of the generator |
| C30 | `Model/LockPool`: `lock_pool.go` | invariant of the step relation |
| C31–C33 | `Model/Queue`: `db_write.go`, `flag.go`: Queue, Run, workers, buffer pool | invariant of the step relation |
| C34 | `Model/SSet`: `sset/set.go` | refinement to a finite set |
| C35, C62 | `Model/Names`: `Metrics`, `PopulateMetrics`, writers | invariant; interleavings as witnesses |
| C36, C37 | `Model/Dirent`, `Model/Names`: `populate`, `dirent*.go` | induction over trees and buffers |
| C38–C40 | `Model/Query`: `api/query` | equivalence with declarative matching (`Spec/Query`) |
| C41–C44 | `Model/Agg`, `Model/AggConc`: `data/agg.go`, `data/writer.go` | serial refinement (`Spec/Writer`); invariants of interleavings; witnesses |
| C45–C47 | `Model/Merge`: `merge` | exact characterisation |
| C48, C49 | `Model/Cdf`: `dist/tdigest/wrapper.go` over any quantile function, floats compared by their bits (`Model/Float`) | invariant of the bisection |
| C50, C51 | `Model/Http`: `api/server.go` | all requests, all outcomes of the handlers |
| C52, C53, C60 | `Model/Assert`, `Model/Registry`, `Model/Config` | runs of calls against a declarative meaning |
| C54 | `Model/Launch`: `junk/launcher.go` | invariant of the step relation |
| C55, C63 | `Model/Canvas`: `draw/common.go`, heatmap, key, observations | address arithmetic; loops set exactly their rectangle |
| C56 | `Model/Graphite`: the line handling of `listener.go` and bufio's scanner | against `StreamLines` |
| C57 | `Model/Dump`: `dump.go` with the database's answers | invariant of the step relation |
| C58 | `Model/Tgzfs` | lookup against the list of archive entries |
| C59 | `Model/Serial`: calls cut into steps under the lock pool | every execution equals a serial one (`Props/SerialDb` puts the calls of the database in) |
| C66 | `Model/Proto`, `Spec/Wire` | every list of known and unknown fields in wire format, mutual induction over nested groups |
| C67 | `Model/Run`: `run.go` | invariant of the step relation |
| C68 | `Model/Listener`: goroutines of the graphite listener | invariant, and progress |
| C69 | `Model/Render`: `serveRender` over the store of C13 and the merger of C46 | composition |
| C70 | `Model/Pipe`: writer, dumper, record codec, store | invariant of the composition against `Spec/Pipe` |
| C71, C72 | `Model/Metric`, `Spec/Space` | invariant of histories under one configuration (`Lemmas/HistoryCfg`) |
| C73–C75 | `Model/Axis`, `Model/Layout`: `draw/axis`, `draw/graph` | arithmetic over any font |
| C76 | `Model/Picture`: `graph.Measured.Draw` and what it calls | composition of C55, C63, C73, C75 |
| C77 | `Model/Response`: `serveRender` down to the picture | composition of C70, C69, C75, C76 |
| C78 | `Model/Maker`: the makers over `Model/Assert` | the paths asked for by each call + C52_exact / C52_err_iff; `entry` is a separate specification |
| C79 | `Model/Maker`: `New`'s tuning; `createFile` of a configuration without cap | arithmetic; refutation by running the model's first write |
| C80 | `Model/Params`: `getInt`, `FormValue`, with `strconv.ParseInt` transcribed | both directions against `Decimal`, a separate specification; the wrapping arithmetic via its bounds |
| C81 | `Model/Params`: `serveQuery` over `Model/Query` and `Model/Names` | C40_result and C35 composed; sortedness splits what is beyond the limit |
| C82 | `Model/Periodic`: `Dumper.Run` around `Model/Dump` | invariant: each dump in progress is a reachable, uncancelled `DSys`; C57 |
| C83 | `Model/Demo`: `addDemoData` with `Queue`'s synchronous callback | invariant over a transition system; induction for the loop's times; refutation by a state that stays |
| C84 | `Model/Ieee`: rounding to doubles as a function on rationals, specified by `Spec/Ieee`; `Model/Heat`: the index arithmetic of `Heatmap.Draw`, `key.Draw` and the samples of `emit` | relative error of two roundings against the gap between a fraction with a bounded denominator and the next integer; induction over the rows; kernel evaluation for the refutations |
| C85 | `Model/Rate`: `ObsSec` in `emit`, the bars and the peak of `observations.Draw`, doubles with infinities and NaN | relative error bounds composed operation by operation, induction over the records |
| C86 | `Model/Scene`: positions, ticks and texts of the axes of a graph in doubles, on top of `Model/Axis` and `Model/Layout`; formats, quantiles and float16 are parameters (`Outside`) | error bounds for each rounding; the loops that drop labels are shown to drop none of the side labels |
| C87 | `Model/Scene`, `Model/Viridis`: loading, resampling, merging, sampling, the colour of each row, the key and the bars filled into the pipeline of C77; the t-digest and float16 libraries are parameters | composition of C77, C84, C85; the colour table by evaluating it in the kernel (it is finite and literal) |
| C88, C89 | `Model/Ui`: the query bar's update function, its commands, timers with times and requests; events in any order | invariant over all runs (every menu is an answer to the bar's text; every timer's text was typed 250 ms before it is due), induction on key presses |
| C90, C91 | `Model/Page`: the page's update function, the address, the window, commands done in any order before the next browser event | an invariant on the shape of the commands under way; one on widths and timers; a measure for the commands |
| C92 | `Model/Url`: percent-encoding, Elm's and Go's reading of queries, the browser's escaping, decimal numbers | induction on texts and parameters; UTF-8 from C40 |
| C93 | `Model/Json`: the JSON encoder for lists of strings | grammar of JSON strings as an inductive specification; uniqueness of reading by induction |
| C94 | `Model/Site`: the template file system over `Model/Tgzfs` | composition with C58 |
| C95 | `Model/Glyph`: the glyph table of the font and `DrawString` with it; put into `Model/Picture` | induction over texts and marks; each step of drawing leaves other texts' pixels alone; the glyphs differ by evaluating the table in the kernel (it is finite and literal) |
| C96 | `Model/Calls`: the calls as programs of steps (acquire, release, evict, remove, look at, change) on one `Model/FileCache` shared by all metrics, under `Model/LockPool`, any schedule | the steps refine Model/Metric; a ghost state of held handles kept by every step; a simulation in which the cache oracle of Model/Metric is chosen from the answers the shared cache gave; C59 for the rest |
| C97 | `Model/Process`: the writer, one dump at a time, the queue, workers and requests, each call as the steps of `Model/Calls`, any schedule | an invariant: the records of a metric are those acknowledged (C96, `HistoryCfg`) and at most one that is on its way; C20 for one configuration makes every write succeed; a measure for `C97_ends` |
| C98 | `Model/Request`: the handler's query as a call of `Model/Process` with the callback of `serveRender`, and what is made of its result | a query is a `visit` of a list (C15), so the call's result determines the callback's variables; then C97's linearisation and C87 for the records written |
| C99 | `Model/Fault`: the steps of `Model/Calls` on one metric with an oracle for each system call that may fail, and what each failure leaves behind | `Model/Metric`'s invariant is kept by each step whatever fails, except when a new file is left half made: then C61's state that no call leaves |
| C100 | `Model/Signal`: `Model/Run` with the goroutine of `WithSignal`, the signal channel and the system's default action, any schedule | an invariant over all steps; C54 and C67 for the launchers |
| C101 | `Model/Serve`: `runServer`, its goroutine and the parts of net/http's `Server` it uses, any schedule | an invariant over all steps; a measure for stopping |
| C102 | `Model/Command`: the actions of the commands over a path that other processes may change | case analysis; C67 for the last part |
| C103 | `Model/Handler`: `serveRender` from the form to what is written, joined to the page (`Model/Page`) and the server (`Model/Http`) | C91 for the page, C92 for the address, the layout computed for 350 pixels and a day, C98 for the picture, C51 for the answer |
| C104 | `Model/Handler` with `Accept: application/json` | C69 over the records of the run (C97), C87 for the values of a column |
| C105 | `Model/Feed`: the process of `Model/Process` whose observations are the calls that the connections of `Model/Graphite` make | permutation invariant over the steps; C56 for what lines mean, C70 and C97 for what is stored |
| C106 | `Model/Kill`: the process of `Model/Calls` at any moment, and what is left of the files when each call at work is cut at its own place | C96: a metric's calls are one after the other, so one call is cut; a program-logic predicate (what holds whenever the call is cut) for each step of Write and Read, the invariant of C64, induction over the killed processes |
| C107 | the program of `Model/Process` and `Model/Feed`, killed as in `Model/Kill` | C97's invariant gives the calls that each life has made; C106 for what a kill leaves of them; C105 for what was sent; induction over the lives |
| C108 | the program of `Model/Process`, with no condition on the clock | the invariant of C97 with the values on their way that will be refused left out; C14 and C20 decide each write |
| C109 | the transition system of C35 (`Model/Names`), with any overlap before a quiet state | an invariant of all schedules (sets sound, on disk, pointers apart); from a quiet state on, simulation of the run by one that owes only what was acknowledged since, where the invariant of C35 holds |
| C110 | `Model/Whole`: the process of C97 and the cache of names of C35 as one system: a worker that has written owes the name before it answers; a new process starts without names, and with what is on disk | an invariant: a metric with something kept was on disk when the process started, or has a value on its way, or is acknowledged, or a worker owes its name; a completed scan acknowledges what was on disk; then C35, C81 and C97 |
| C111 | `Model/Duration`: `time.ParseDuration` and `Duration.String`, transcribed, with `int64` that wraps around and doubles that round; `Spec/Duration`: what a text says, as a rational number | induction on digits and terms; the fraction by error bounds on doubles (exact up to 10^22, three roundings; beyond, the fraction is below 10^10 or 0); written texts are terms whose digits are worth whole nanoseconds |
| C112 | `Model/FaultShared`: the system of C96 (all metrics, goroutines, one file cache) in which each system call may fail as in `Model/Fault` | the invariant of C96 with recorded answers of the cache and the system; refinement to one call after the other in `Model/Fault`; a history does not depend on what the cache answers later |
| C113 | the system of C112; infinite runs (`Spec/Ends`) | a well-founded order on what each goroutine has left (lexicographic: calls, place, rest of the program), lifted to lists; deadlock freedom from the invariants of the lock pool and C112_never_stuck |
| C114 | `Model/Scan`: `populate` as a machine with a stack of activations, each step with the answer of one system call or one directory entry (bytes, `nextDirent`), and arbitrary changes of the tree in between; `Spec/Scan`: what an open directory promises | invariants by induction on runs; per metric: someone still owes it (the kernel, a buffer, a call) or it is found; termination by a number whose digits are what each level has left |
| C115 | `Model/Fmt`: `%0.2f`, `%#.3g` (strconv's decimal digits, %e and %f shapes, fmt's #) and `time.Format` (absDate); `Spec/Numeral`: what a decimal numeral says, the number a double is, days of the calendar one after the other | digits by rounding half to even at the decimal exponent, nearest among three-digit numbers; shapes by cases on digits and exponent; calendar by induction on days; put into the picture with C95 and C86 |
| C116 | `Model/ParseFloat`: `strconv.ParseFloat` (the words, `decimal.set` with its cap on exponents, `floatBits`); `Spec/ParseFloat`: the double nearest to a numeral, lines that clients send | the loop over digits keeps the value; bits of a rounded rational by cases on its exponent; overflow at the half-way point by monotone rounding; the cap by bounds on short numbers; the converse by inversion of each loop; put into C56 and C105 |
| C117 | `Model/FileServer`: `http.FileServer` over the templates over the archive, the warning page; `Spec/FileServer`: sites, RFC 3986 relative references | what is opened at each path from C58; one theorem per kind of address; redirects by computing segments; any address by cases on what is at its cleaned path |
| C118 | `Model/ProcFault`: the process of C97 with the calls of C112, in which system calls may fail; `Spec/ProcFault`: the specification of C97 in which a lost value takes its interval with it | the invariant of C97 with the history of C112 in place of C96's; a half-made file by `Bricked` over the serial history |
| C119 | `Spec/ProcEnds`: infinite runs of `Model/ProcFault`, a scheduler that is not idle for ever, a program at rest | a light invariant of the places of dump, queue, workers and calls; a well-founded rank that each step of the program lowers; no deadlock by cases, from C113 |
| C120 | `Spec/ProcShown`: the picture of some intervals; the requests of `Model/Request` in the process of `Model/ProcFault` | a query that met no error visits exactly the stored values (C118), as a fault-free database that was written with just these does; for that one C87/C98's lemmas apply; a query cut short has an error and the callback has not panicked |
| C121 | `Spec/ProcDrawn`: the picture of some of the intervals before a time; the process of `Model/ProcFault` | a query visits a sublist of the stored values that ended before the time, or is cut short by an error (C99); a database holding just these draws the same picture, for which C87's theorem holds; records that start after the graph's time meet no pixel (`pixRecs_over`) |
| C122 | `Model/BasicAuth`: `req.BasicAuth`, the base64 decoder; `Spec/BasicAuth`: RFC 4648 and RFC 7617 | the decoder reads exactly the texts that spell some bytes (induction over the groups); the server by C50 |
| C123 | `Spec/Address`: what an address says, as relations; `Model/Url.goForm`, `Model/Params`, `Model/Duration`, `Model/ParseFloat` | the form is what the address says by induction over its parameters and escapes; every address has exactly one reading; then C80, C111, C116 |
| C124 | as C121 and C123 | the axes take at most 125 pixels of the width and 50 or 34 of the height (the measures of the texts, C74); then C121 |
| C125 | `Spec/ProcColumns`: the columns of some of the intervals before a time; as C121 | as C121, with C104's columns instead of the picture |
| C126 | `Spec/ProcRead`: what the texts of a picture say of the intervals shown; `Props/Peak`: the range of rates | C125's columns drawn with C115's texts; the greatest computed rate is about the greatest mean rate |
| C127 | C107's kill points; `Spec/ProcShown` for the picture | a query hands the same values to any callback (`query_any`); with C107 the answer is that of a store in which exactly the records shown were written |
| C128 | C127's kill points; `Spec/ProcRead` for the texts and `ColumnsShow` of C98 for the columns | the next process shows exactly a list of true records (`killed_shown`), so its answer is that of a store with just these; `read_core`, of C126, does the rest |
| C129 | `Model/Tabbed`: over any writer with any state and errors | induction over the calls: the state is that of a writer asked for a prefix; splitting inverts joining |
| C130 | `Model/External`: a history of replacements and calls; a method on a nil interface is a panic | induction over the history from its end: `Default` is what was set last |
| C131 | `Model/DumpReport`: the steps of `Model/Dump` with what each says | the lines are, up to order, those of the answers so far; the counters are C57's |
| C132 | `Model/GraphiteLog`: the scanner's loop of `Model/Graphite` with what is logged | the same induction over buffer and packets as C56, with one event for each line |

## The properties, their theorems and the axioms of each

P = `propext`, C = `Classical.choice`, Q = `Quot.sound`: the three standard axioms of Lean. Made with `#print axioms` from the committed sources; no theorem rests on any other axiom.

**C01** Stored chunk codec round-trips — *proved*

`C01_chunk_round_trip` (P, C, Q); `C01_chunk_round_trip_fields` (P, C, Q).

**C02** Parser accepts only well-formed chunks — *proved*

`C02_parse_only_marshalled` (P, C, Q); `C02_rejects` (P, C, Q).

**C03** Corruption of a stored chunk is detected — *partial*

Bursts of at most 32 bits outside the size field are always detected; corruption of the size field is refuted by a witness.

`C03_burst_detected_partial` (P, C, Q); `C03_byte_detected_partial` (P, C, Q); `C03_size_byte_refuted` (P, Q).

**C04** Values are split and reassembled losslessly — *proved*

`C04_split` (P, C, Q); `C04_size_range` (P, C, Q); `C04_injective` (P, C, Q).

**C05** File metadata round-trips in its slot — *proved*

`C05_metadata_round_trip` (P, C, Q); `C05_metadata_too_large` (P, C, Q); `meta_payload_round_trip` (P, C, Q).

**C06** Distribution record encoding round-trips — *proved*

`C06_record_round_trip` (P, C, Q).

**C07** Decoding arbitrary bytes as a Record is safe — *partial*

Termination proved; absence of panics is false (witness) and proved for inputs under the stated bound.

`C07_terminates` (P, C, Q); `C07_no_panic_partial` (P, C, Q); `C07_panic_refuted` (P, Q).

**C08** Metric names map one-to-one to directories — *proved*

For all byte strings; file system name length limits are not modelled.

`C08_dir_round_trip` (P, Q); `C08_dir_injective` (P, Q); `C08_any_database` (P, Q).

**C09** Metric names cannot escape the database directory — *proved*

`C09_path_safe` (P, Q); `C09_empty` (none).

**C10** Data files of distinct (metric, index) pairs are distinct — *proved*

`C10_paths_distinct` (P, C, Q); `C10_scan` (P, C, Q); `C10_names` (P, C, Q); `C10_metricToPath` (P, Q).

**C11** Head recovery works from any stale hint — *proved*

`C11_head_from_any_hint` (P, Q); `C11_terminates` (P, C, Q); `C11_full_hint` (none); `C11_hint_outside_diverges` (P, Q).

**C12** Slots of a data file are isolated — *proved*

`C12_store_slot` (P, C, Q); `C12_store_refused` (P, C, Q).

**C13** Every acknowledged write is stored exactly and in order — *proved*

For every history of writes, queries and restarts of one metric and every behaviour of the handle cache; values that fit an empty file.

`C13_acknowledged_stored` (P, C, Q).

**C14** Writes are accepted only forward in time — *proved*

`C14_only_forward` (P, C, Q).

**C15** Query results are sound and ordered — *proved*

`C15_query_sound` (P, C, Q).

**C16** Query is complete for every bound — *partial*

C16_exact_partial characterises the result exactly (values ending before the bound in the files up to the first without such a value), and says when that is everything. Complete for bounds above some end in the newest file; the full claim is false of the code (witness): a query stops at the first file whose smallest end is not before the bound.

`C16_complete_partial` (P, C, Q); `C16_exact_partial` (P, C, Q); `C16_complete_refuted` (P, Q).

**C17** QueryLatest returns the last accepted write — *proved*

True unless the value ends at MaxInt64, where the full claim is false (witness).

`C17_latest` (P, C, Q); `C17_latest_refuted` (P, Q).

**C18** Disk use per metric is bounded and only the oldest file is dropped — *proved*

`C18_retention` (P, C, Q); `C18_only_oldest_dropped` (P, C, Q).

**C19** A failed oversized write has no lasting effect — *partial*

What a failed oversized write does is characterised exactly; both halves of the claim are false of the code (witnesses).

`C19_oversized_partial` (P, C, Q); `C19_later_write_lost_refuted` (P, Q); `C19_drops_data_refuted` (P, Q).

**C20** A value that fits in an empty file is always accepted — *partial*

True unless exactly one value is stored; false in that case (witness). C20_one_config_partial: under one configuration the exception is only a value that fills a whole file when exactly one value has been acknowledged.

`C20_fits_partial` (P, C, Q); `C20_one_config_partial` (P, C, Q); `C20_fits_refuted` (P, Q).

**C21** Damaged slots lose only their own value — *proved*

`C21_damage` (P, C, Q); `C21_every` (P, C, Q).

**C22** A crash while storing chunks is atomic — *proved*

C22_between_chunks is the property as stated, without assumptions. C22_crash_atomic goes further, to death at any byte inside a chunk, if the half written chunk does not pass its checksum by accident; C22_inside_chunk_refuted shows that this accident can happen. Process kill, no loss of data already handed to the kernel.

`C22_between_chunks` (P, C, Q); `C22_crash_atomic` (P, C, Q); `C22_inside_chunk_refuted` (P, Q).

**C23** Writes acknowledged after crash recovery are readable — *partial*

False of the code as stated (two witnesses). C23_acknowledged_partial: what holds when values fit an empty file and the writes that died were single-chunk writes with at least one byte stored.

`C23_acknowledged_partial` (P, C, Q); `C23_lost_after_crash_refuted` (P, Q); `C23_unlinked_after_crash_refuted` (P, Q).

**C24** A crash during the metadata update keeps the metric readable — *partial*

False of the code: a witness, and for every history (C24_forever_refuted).

`C24_metadata_crash_refuted` (P, Q); `C24_forever_refuted` (P, C, Q).

**C25** Queries do not change what is stored — *partial*

False for a directory that exists only because of a longer metric name (witness).

`C25_read_only_partial` (P, C, Q); `C25_query_creates_refuted` (P, Q).

**C26** Handle cache bookkeeping — *proved*

`C26_conservation` (P, C, Q); `C26_take` (P, C, Q).

**C27** File handle cache returns the right file and does not leak — *proved*

Each call is one atomic step (its work is one critical section of the cache's mutex).

`C27_accounting` (P, C, Q); `C27_acquire` (P, C, Q); `C27_evict_close` (P, C, Q).

**C28** Random eviction index is in range — *proved*

Onto for capacities up to 2^32 (a 32 bit output cannot reach more indices).

`C28_in_range` (P, Q); `C28_onto` (P, Q).

**C29** PCG zero value and seeding — *proved*

`C29_zero_value` (P, Q); `C29_seeding` (P, Q); `C29_period` (P, C, Q); `C29_all_states` (P, C, Q); `C29_new_odd` (P, Q).

**C30** Per-metric locks give mutual exclusion — *proved*

Any number of goroutines, any interleaving of the critical sections and mutex operations.

`C30_exclusive` (P, C, Q); `C30_no_panic` (P, C, Q); `C30_dropped` (P, C, Q); `C30_progress` (P, C, Q).

**C31** Queue completes each value exactly once — *proved*

Any number of Queue and Run calls, any interleaving; C31_example exhibits a non-trivial run.

`C31_at_most_once` (P, C, Q); `C31_answered` (P, C, Q); `C31_rejected` (P, C, Q); `C31_written` (P, C, Q).

**C32** Queued data is isolated from the caller and from other values — *proved*

`C32_exclusive` (P, C, Q); `C32_data` (P, C, Q).

**C33** At most one active Run — *proved*

`C33_single` (P, Q); `C33_refused` (P, Q); `C33_again` (P, Q); `C33_never_stuck` (P, C, Q).

**C34** String set is an ordered set — *proved*

`C34_sets` (P, Q); `C34_nodup` (P, C, Q); `C34_order_unique` (P, C, Q); `C34_iter` (P, Q).

**C35** Metrics lists every metric with an acknowledged write — *partial*

True when calls of Metrics and PopulateMetrics do not overlap, also of the names a completed PopulateMetrics has found (they are in the list owed, a0, as are those of acknowledged writes); false otherwise (witnesses).

`C35_listed_partial` (P, C, Q); `C35_overlap_refuted` (P, Q); `C35_populate_refuted` (P, Q).

**C36** PopulateMetrics finds exactly the stored metrics — *proved*

System call errors and cancellation abort the scan and publish nothing; not part of this theorem.

`C36_scan` (P, Q); `C36_missing` (P, Q); `C36_writes` (P, Q).

**C37** Directory entry decoding — *proved*

linux layout; C37_any says what happens for bytes that are not directory entries (no progress for record length 0, panic for 18).

`C37_names` (P, Q); `C37_step` (P, Q); `C37_any` (P, C, Q).

**C38** Glob matching is correct — *proved*

`C38_glob` (P, C, Q); `C38_terminates` (P, C, Q).

**C39** Dotted search terms match consecutive components — *proved*

`C39_match` (P, C, Q); `C39_plain` (P, C, Q).

**C40** Search returns the first matches in order — *proved*

For limits that are not negative (a negative limit panics).

`C40_result` (P, C, Q); `C40_stops` (P, C, Q); `C40_terms` (P, C, Q).

**C41** Aggregates are exact for serial use — *proved*

The distribution is the list of values it was given (dist/tdigest itself is not modelled); params.New succeeds (otherwise see C42_new_fails_blocks); fewer than 2^63 calls.

`C41_serial` (P, C, Q); `C43_iterate` (P, C, Q).

**C42** Aggregates are exact under concurrency — *partial*

Count and distribution are exact for every interleaving; minimum and maximum are observed values and account for every call that began after the first call returned; false for calls that overlap the first one (witness).

`C42_count` (P, C, Q); `C42_progress` (P, C, Q); `C42_attained` (P, C, Q); `C42_after_first_partial` (P, C, Q); `C42_late_partial` (P, C, Q); `C42_refuted` (P); `C42_new_fails_blocks` (P, Q).

**C43** Captures partition observations and time — *proved*

`C41_serial` (P, C, Q); `C43_iterate` (P, C, Q); `C43_partition` (P); `C43_abut` (P, Q).

**C44** Capturing concurrently with adding is safe — *partial*

At most once holds for every interleaving; a capture can crash on an agg that has not observed yet (witness); no crash and no loss if adds do not overlap captures.

`C44_once` (P, Q); `C44_exclusive_partial` (P, C, Q); `C44_crash_refuted` (P).

**C45** Merging records combines their fields — *partial*

All fields are as stated except MinId and MaxId, which are lost when the first record has the extreme (witness). The t-digest merge and the resampler are a parameter.

`C45_fields` (P, Q); `C45_error` (P); `C45_ids_partial` (P, Q); `C45_ids_refuted` (P, Q).

**C46** Rendered columns tile exactly the covered pixels — *proved*

For times before now and no int64 overflow; a record ending exactly at now is drawn one pixel past the right edge (C46_now_refuted). What is drawn of the merged records is a parameter.

`C46_columns` (P, C, Q); `C46_succeeds` (P, C, Q); `C46_one_column` (P, C, Q); `C46_now_refuted` (P, Q).

**C47** Time to pixel mapping is monotone and in range — *proved*

When the int64 arithmetic does not overflow (PixOk). Pixel 0 also takes everything before the window.

`C47_monotone` (P, C, Q); `C47_range` (P, C, Q); `C47_interval` (P, C, Q); `C47_panics` (P, C, Q).

**C48** Estimated CDF is monotone, in range and accurate — *partial*

As stated except at the maximum of observations that are all equal, where the result is 0 (witness). The t-digest's Quantile is a parameter.

`C48_below` (P, C, Q); `C48_above_partial` (P, C, Q); `C48_above_refuted` (P, C, Q); `C48_range` (P, C, Q); `C48_monotone` (P, C, Q); `C48_accuracy` (P, C, Q); `C48_rank` (P, C, Q).

**C49** CDF reflects every observation — *partial*

True when all observations precede the first CDF call; false otherwise (witness): cached quantiles are never dropped.

`C49_current_partial` (P, C, Q); `C49_refuted` (P, C, Q); `C49_stale` (P, C, Q).

**C50** No content without valid credentials — *partial*

For a configured username, up to collisions of sha256; with only a password configured nothing is checked (witness). C122 has the header.

`C50_refused` (P, C, Q); `C50_accepted` (P, C, Q); `C50_password_only_refuted` (P, C, Q).

**C51** HTTP routing and status codes — *partial*

All as stated except the log: when the server itself sends an error's status, 0 is logged (witness).

`C51_method` (P); `C51_no_metric` (P, C, Q); `C51_not_found` (P); `C51_static` (P); `C51_status` (P, Q); `C51_failure` (P, C, Q); `C51_no_overwrite` (P, Q); `C51_logged_partial` (P, Q); `C51_logged_refuted` (P).

**C52** Config value assertions are all-or-nothing — *proved*

For calls that do not use a negative index (which panics on an array). An index past the end of an array is an error, not absence.

`C52_exact` (P, Q); `C52_err_iff` (P, Q); `C52_sticky` (P, Q); `C52_no_panic` (P, Q); `C52_negative` (P).

**C53** Registry returns the last registration — *proved*

`C53_last` (P, C, Q).

**C54** Task group semantics — *proved*

`C54_waits` (P, C, Q); `C54_result` (P, C, Q); `C54_cancelled` (P, C, Q); `C54_progress` (P, C, Q); `C54_steps_bounded` (P, Q).

**C55** Canvas pixel addressing — *proved*

C55_nested: the origin of a view of a view counts from the canvas, not from the view.

`C55_view` (P, Q); `C55_set` (P, C, Q); `C55_readback` (P, Q); `C55_image` (P); `C55_nested` (none).

**C56** Graphite lines are ingested faithfully — *proved*

For lines shorter than 65536 bytes; a longer line stops the connection and everything after it is lost (C56_long_refuted). strconv.ParseFloat and ParseInt's float parsing are a parameter.

`C56_line` (P, Q); `C56_truncated` (P, Q); `C56_lines_exist` (P, Q); `C56_conn` (P, Q); `C56_long` (P, Q); `C56_long_refuted` (P, Q).

**C57** A dump hands every captured record to the database once and waits — *proved*

As stated; beyond the statement: a value queued after the database's Run returned is never answered, so a dump can wait for ever (C57_answered_refuted).

`C57_once` (P, C, Q); `C57_waits` (P, C, Q); `C57_counts` (P, C, Q); `C57_buffers` (P, C, Q); `C57_again` (P, C, Q); `C57_progress` (P, C, Q); `C57_steps` (P, C, Q); `C57_answered_refuted` (P).

**C58** Embedded static file tree lookups — *partial*

Files and misses are as stated; directory entries without their own header have no info, and repeated Readdir calls repeat or miss entries (witnesses). gzip and tar decoding are not modelled.

`C58_stored` (P, C, Q); `C58_root` (P, C, Q); `C58_default` (P, C, Q); `C58_missing` (P, C, Q); `C58_directory` (P, C, Q); `C58_directory_refuted` (P, C, Q); `C58_index_refuted` (P, C, Q); `C58_listing` (P, C, Q); `C58_readdir_partial` (P, Q); `C58_readdir_refuted` (none); `C58_readdir_negative` (P, Q); `C58_rooted` (P).

**C59** Concurrent operations on the database are serialised per metric — *partial*

C59_serial, C59_order and C59_alone hold for any cutting of the calls into steps; C59_history instantiates them with the calls of the database, so that C13 to C21 hold of concurrent executions. False in one respect: a call on a metric with a longer name can create this metric's directory, which turns a failing query into a succeeding one (C59_isolated_refuted).

`C59_serial` (P, C, Q); `C59_order` (P, C, Q); `C59_alone` (P, C, Q); `C59_history` (P, C, Q); `C59_completes` (P, Q); `C59_isolated_refuted` (P, Q).

**C60** Configuration loading — *proved*

toml decoding is not modelled: the input is the decoded document.

`C60_accepted` (P, Q); `C60_entities` (P, C, Q); `C60_redacted` (none).

**C61** A crash while a data file is being created keeps the metric readable — *partial*

False of the code: a witness, and for every history (C61_forever_refuted).

`C61_creation_crash_refuted` (P, Q); `C61_forever_refuted` (P, C, Q).

**C62** Listing metrics concurrently with writes is safe — *partial*

C62_forever_partial: for every overlap of writes, listings and rescans, and also for sets that were replaced since; it needs that no empty set is published: an empty published set is modified in place (witness).

`C62_forever_partial` (P, C, Q); `C62_forever_example` (P, Q); `C62_published_partial` (P, C, Q); `C62_published_refuted` (P, Q).

**C63** Drawing touches exactly its own rectangle — *proved*

C63_generic: on other canvases a column is cut off at the view's edge and drawn from the top. As stated for columns inside the view; a column wider than the view paints outside it (C63_clip_refuted), and on a canvas that is not an RGB the heatmap is drawn upside down (C63_generic_refuted).

`C63_key` (P, C, Q); `C63_obs` (P, C, Q); `C63_heatmap` (P, C, Q); `C63_generic` (P, C, Q); `C63_generic_example` (P); `C63_clip_refuted` (P); `C63_generic_refuted` (P).

**C64** Readable values stay readable through crashes, restarts and later writes — *proved*

Crashes between chunks need no assumption; for a crash inside a chunk the half written chunk must not pass for a record by accident of the checksum (TornOk), see C22_inside_chunk_refuted.

`C64_next` (P, C, Q); `C64_durable` (P, C, Q); `C64_example` (P, Q).

**C65** A metric still accepts writes after a crash — *partial*

False of the code: a single-chunk write that dies after its first byte leaves the metric refusing writes forever.

`C65_stuck_refuted` (P, C, Q); `C65_example` (P, Q).

**C66** Messages of other versions decode — *proved*

Messages below 2^62 bytes.

`C66_record` (P, C, Q); `C66_meta` (P, C, Q); `C66_unknown` (P, C, Q); `C66_example` (P, C, Q).

**C67** Shutting down loses no observations — *proved*

When run returns without an error; when a service fails no last dump is made and the observations are lost (C67_failed_refuted).

`C67_after_services` (P, C, Q); `C67_before_database` (P, Q); `C67_flushed` (P, C, Q); `C67_failed` (P, C, Q); `C67_failed_refuted` (P); `C67_example` (P).

**C68** A stopped listener is quiet — *proved*

That a closed socket ends Accept and a closed connection ends its scanner is how the steps of the model are defined (net package).

`C68_closed` (P, Q); `C68_quiet` (P, C, Q); `C68_result` (P, Q); `C68_progress` (P, C, Q); `C68_example` (P).

**C69** A graph shows exactly the stored records of its time — *proved*

C69_pixels says for every pixel which records it shows; the leftmost one can also show a record that ended before the graph's time (C69_leftmost_refuted). Loading, measuring the layout and sampling are parameters.

`C69_window` (P, C, Q); `C69_graph` (P, C, Q); `C69_pixels` (P, C, Q); `C69_empty` (P, C, Q); `C69_undecodable` (P, C, Q); `C69_leftmost_refuted` (P, Q); `C69_example` (P, Q).

**C70** What is observed is what is stored — *proved*

Serial composition of writer, dumper, record codec and store; the interleavings inside the components are C41-C43, C57, C31-C33 and C59. Records must fit a file (Fits, shown to follow from a bound on the ids and on the distribution's encoding by C70_fits).

`C70_stored` (P, C, Q); `C70_conserved` (P, C, Q); `C70_fits` (P, Q); `C70_example_hyps` (P, Q); `C70_example` (P, Q).

**C71** Bounded space — *proved*

The bound with the metadata slot holds and is exact; the documented bound leaves that slot out and is exceeded (witness).

`C71_space` (P, C, Q); `C71_documented_refuted` (P, Q); `C72_example` (P, Q).

**C72** Guaranteed history — *proved*

`C72_history` (P, C, Q); `C72_count` (P, C, Q); `C72_example` (P, Q).

**C73** Axes stay inside their measured size and label their ticks — *partial*

The texts of a horizontal axis are spaced except among the first ten pixels, where they can be drawn over each other (C73_overlap_refuted: a graph of a year).

`C73_inside` (P, C, Q); `C73_ticks` (P, Q); `C73_no_bleed` (P, Q); `C73_spaced_partial` (P, Q); `C73_overlap_refuted` (P).

**C74** The time axis is labelled at natural times — *proved*

Zone offsets and the formatting of a time are not modelled.

`C74_unit` (P, Q); `C74_times` (P, Q).

**C75** The parts of a graph do not overlap — *proved*

Under Style.Ok: the font reports one height for all time labels, nonnegative sizes. A width below 100 pixels crashes (C75_crash), as the property's statement does not exclude.

`C75_layout` (P, C, Q); `C75_crash` (P, Q); `C75_example` (P).

**C76** A graph's picture shows its columns — *proved*

For graphs whose colours can be computed: a heatmap of a single row (height 51 with the built-in font) divides by zero and crashes (C76_crash_refuted). The quantile of a column and the colour table are parameters; glyphs are a parameter that stays inside the font's bounds (InkOk), which C95_inside proves of the built-in font.

`C76_picture` (P, C, Q); `C76_example_hyps` (P, Q); `C76_example` (P, C, Q); `C76_one_row` (P); `C76_crash_refuted` (P, C, Q).

**C77** What is observed is what the picture shows — *proved*

The composition of C70, C69, C75 and C76. Not for a heatmap of a single row (C76_crash_refuted); the leftmost column can also show an interval that ended before the graph's time (C69_leftmost_refuted). Loading, merging and sampling distributions and the colour of a sample are parameters here; C87 fills them in.

`C77_store` (P, C, Q); `C77_shown` (P, C, Q); `C77_example` (P, C, Q).

**C78** What the configuration says is what the database, distribution and listener get — *proved*

The toml decoder itself is not modelled; configuration values are trees of the kinds it produces.

`C78_files` (P, Q); `C78_tdigest` (P, C, Q); `C78_graphite` (P, Q); `C78_example` (P).

**C79** An accepted configuration gives a working database — *partial*

Not for every configuration: one without a cap is accepted and the first write divides by zero and crashes (C79_cap_refuted); a negative buffer or number of workers panics on start. The documented default of handles (limit - 1024) differs from the code's (limit - 512), which is what is proved. Sizes too large for memory are left out.

`C79_tuning` (P, Q); `C79_initial` (P, Q); `C79_cap_refuted` (P, Q).

**C80** Request parameters are read as decimal numbers, with defaults — *proved*

strconv.ParseInt is transcribed from the library. The duration and compression parameters (time.ParseDuration, strconv.ParseFloat) are not modelled.

`C80_parse` (P, C, Q); `C80_default` (P, C, Q); `C80_render` (P, C, Q); `C80_example` (P).

**C81** A metric search answers with the first matching stored names — *partial*

For databases whose Metrics and PopulateMetrics calls do not overlap (else names get lost: C35_overlap_refuted, C35_populate_refuted) and results parameters that are not negative (a negative one panics). The JSON encoding of the names is C93.

`C81_answer` (P, C, Q); `C81_query_partial` (P, C, Q); `C81_example` (P, Q).

**C82** Periodic dumps are complete and end with Run — *proved*

For positive periods: a configuration without a duration is accepted and makes Run panic (C82_period_refuted).

`C82_complete` (P, C, Q); `C82_returns` (P, C, Q); `C82_progress` (P, C, Q); `C82_period_refuted` (P, C, Q); `C82_example` (P).

**C83** The demo fills a day and ends — *partial*

For databases that do not drop: the first dropped value (or a cancellation while queueing) blocks the demo for ever, as Queue invokes the callback in the goroutine that would have to receive (C83_drop_refuted). Whether a record was written, or refused as old, is ignored by the demo.

`C83_records` (P, Q); `C83_six` (P, Q); `C83_done` (P, C, Q); `C83_progress` (P, C, Q); `C83_drop_refuted` (none); `C83_example` (none).

**C84** The heatmap's and the key's rows show the values and colours in order — *partial*

All but the top: rounding makes the highest row miss the greatest value for some heights (C84_top_refuted: 31 values, 299 rows) and the highest row of the key the last colour (C84_key_top_refuted: 320 rows). A heatmap of one row crashes (C84_one_row_refuted). The number of values times rows is below 2^50. The quantile function of the t-digest is a parameter.

`C84_rounds` (P, C, Q); `C84_range` (P, C, Q); `C84_row` (P, C, Q); `C84_monotone` (P, C, Q); `C84_bottom` (P, C, Q); `C84_shade` (P, C, Q); `C84_column` (P, C, Q); `C84_key` (P, C, Q); `C84_samples` (P, C, Q); `C84_top_refuted` (P, C, Q); `C84_top_example` (P, C, Q); `C84_one_row_refuted` (P, C, Q); `C84_key_top_refuted` (P, C, Q); `C84_example` (P, C, Q).

**C85** The bars show the observations per second — *proved*

For records that count the records merged into them (at least 1). One from before that field existed has 0 there: its rate is infinite (C85_merged_refuted), and the bars of all other columns turn white (C85_infinite_refuted).

`C85_rate` (P, C, Q); `C85_bar` (P, C, Q); `C85_peak` (P, C, Q); `C85_merged_refuted` (P, C, Q); `C85_infinite_refuted` (P, C, Q); `C85_example` (P, C, Q).

**C86** Ticks and labels stand where their times, ranks and values are — *proved*

For graphs of less than 2^31 columns and 2^25 rows; the tick is within two pixels of the column that shows its time if a pixel lasts at least as many nanoseconds as there are pixels. The texts (fmt, time.Format), quantiles and float16 are parameters.

`C86_positions` (P, C, Q); `C86_times` (P, C, Q); `C86_ranks` (P, C, Q); `C86_example` (P, C, Q).

**C87** The colours of a picture tell the observations — *proved*

For heatmaps of two rows or more, a positive number of samples, and (bars) intervals that lasted. The t-digest and float16 libraries are parameters: a digest that is written must be read back, and merging must not fail. The leftmost column also shows an interval from before the graph's time (C69_leftmost_refuted).

`C87_rows` (P, C, Q); `C87_column` (P, C, Q); `C87_shown` (P, C, Q); `C87_white` (P, C, Q); `C87_distinct` (P, C, Q); `C87_example` (P, C, Q).

**C88** The menu of the query bar is the server's answer to the text in the bar — *proved*

Two things one might expect besides do not hold: an answer that comes after the input was left opens the menu again (C88_reopens_refuted); a text that is typed again is requested 250 milliseconds after it was typed first (C88_early_refuted).

`C88_menu` (P, Q); `C88_requests` (P, Q); `C88_comes` (P, C, Q); `C88_example` (P, Q); `C88_reopens_refuted` (P, Q); `C88_early_refuted` (P, Q).

**C89** Keys and clicks select what they point at — *partial*

All but the last clause: when the server's answer has no completions nothing is seen of a menu, and yet Enter does nothing (C89_enter_refuted).

`C89_selected` (P, Q); `C89_enter` (P, Q); `C89_arrows` (P, Q); `C89_example` (P, Q); `C89_enter_refuted` (P, Q).

**C90** The image follows the window — *proved*

That the address stays is needed for the burst: a timer of an earlier address can be taken for one of the new graph's (C90_burst_refuted).

`C90_size` (P, C, Q); `C90_steady` (P, Q); `C90_burst` (P, C, Q); `C90_example` (P, Q); `C90_burst_refuted` (P, Q).

**C91** The page shows the metric its address names — *proved*

At other paths than the top, where the server serves the page too, a selected name can end with no graph (C91_path_refuted); selecting the metric that is shown does not ask the server again (C91_again_refuted). JavaScript's running each event to completion and Elm's runtime are assumed, but no order of commands.

`C91_address` (P, C, Q); `C91_settles` (P, C, Q); `C91_select` (P, C, Q); `C91_example` (P, Q); `C91_path_refuted` (P, Q); `C91_again_refuted` (P, Q).

**C92** Names survive addresses — *proved*

Elm's Url library, encodeURIComponent, the browser's escaping and Go's net/url are transcribed.

`C92_address` (P, C, Q); `C92_image` (P, C, Q); `C92_completions` (P, C, Q); `C92_example` (P, Q); `C92_by_hand` (P).

**C93** The answer to a query is JSON for the names — *proved*

encoding/json is transcribed for lists of strings. A name that is not UTF-8 is listed as another one, which cannot be drawn (C93_broken_refuted).

`C93_answer` (P, C, Q); `C93_names` (P, C, Q); `C93_completions` (P, C, Q); `C93_example` (P); `C93_broken_refuted` (P).

**C94** The site's pages are filled in, its other files are sent as they are — *partial*

All but missing files whose names do not end in .html: these are answered with the page's template as it stands (C94_raw_refuted). html/template and http.FileServer are parameters.

`C94_stored` (P, C, Q); `C94_missing` (P, C, Q); `C94_preview` (P, Q); `C94_example` (P, Q); `C94_raw_refuted` (P, Q); `C94_preview_example` (P).

**C95** The texts of a graph can be read from its picture — *partial*

Texts under the graph are seen but for their first row of pixels, into which the long ticks reach; those on the sides down to the baseline, so that an underscore there looks like a space (C95_underscore_refuted). The times are side by side if a unit of time is 12 pixels or longer (else those that begin in the first ten pixels overlap: C73_overlap_refuted). Graphs too narrow for the rate (102 pixels) cut it at the left edge of the picture. fmt and time.Format are parameters. font.Drawer, basicfont and image/draw are transcribed.

`C95_inside` (P, C, Q); `C95_seen` (P, C, Q); `C95_read` (P, C, Q); `C95_same` (P, C, Q); `C95_graph` (P, C, Q); `C95_times` (P, C, Q); `C95_scene` (P, C, Q); `C95_example` (P, C, Q); `C95_shape` (P); `C95_underscore_refuted` (P); `C95_left_out` (P).

**C96** Calls of all metrics share the open files safely — *proved*

Errors of the operating system are in C99 (for one metric), files with any content are here. The bound on mappings without those lost by failed calls is false of the code: openFile and createFile leave the file mapped when they fail after mmap, so queries of a metric with a broken file use up a mapping each (C96_bounded_refuted); in a process whose files were never left half written none is lost (C96_none_lost).

`C96_run` (P, Q); `C96_careful` (P, Q); `C96_never_stuck` (P, C, Q); `C96_mapped` (P, C, Q); `C96_not_shared` (P, C, Q); `C96_closed_once` (P, C, Q); `C96_bound` (P, C, Q); `C96_rest` (P, C, Q); `C96_lost` (P, C, Q); `C96_none_lost` (P, C, Q); `C96_serial` (P, C, Q); `C96_history` (P, C, Q); `C96_bounded_refuted` (P, Q); `C96_example` (P, C, Q).

**C97** What is observed is what is stored, whatever the schedule — *proved*

Under C70's conditions on sizes and times; the calls of the database are those of C96, step by step. Adding an observation and capturing a page are single steps here (C41 to C43 are about their interleavings), and the process ends only when its calls have returned (C64 is about crashes).

`C97_call` (P, C, Q); `C97_query` (P, C, Q); `C97_latest` (P, C, Q); `C97_stored` (P, C, Q); `C97_written` (P, C, Q); `C97_ends` (P, C, Q); `C97_example` (P, C, Q); `C70_conserved` (P, C, Q).

**C98** The picture a running program draws — *proved*

What is outside (digest library, texts) is C87's `Outside` and `Library`; sizes and times as for C87. The condition that the records end before the time asked for is needed: a request that reads the clock before a dump whose record begins a new file, and is carried out after it, gets an error (C98_late_refuted, after C16).

`C98_shown` (P, C, Q); `C98_example` (P, C, Q); `C98_late_refuted` (P, C, Q); `C97_call` (P, C, Q); `C87_shown` (P, C, Q).

**C99** A failing system call makes its call fail and nothing else — *partial*

The full claim is false of the code: if fallocate or the first mmap of a new file fails (a full disk), createFile leaves a useless file behind and from then on every query and write of the metric fails, in every state (C99_full_refuted); and a write that fails because the new file cannot be made has already removed the oldest file (C99_dropped_refuted). Proved for all other failures. One metric at a time; a failing munmap or msync, and faults while mapped memory is used, are not modelled.

`C99_none` (P, Q); `C99_kept_partial` (P, C, Q); `C99_write_partial` (P, C, Q); `C99_query_partial` (P, C, Q); `C99_files_partial` (P, C, Q); `C99_oldest_partial` (P, C, Q); `C99_full_refuted` (P, C, Q); `C99_dropped_refuted` (P, Q); `C99_example` (P, Q); `C99_full_example` (P, Q).

**C100** An interrupt ends the program in order — *proved*

The refuted forms are stronger claims: a second SIGINT ends the process also during the last dump, with what is not yet dumped (C100_lost_refuted); once the goroutine has seen the end of the context instead of a signal, signals are swallowed until the program returns (C100_deaf_refuted).

`C100_one` (P, C, Q); `C100_stops` (P, C, Q); `C100_undisturbed` (P, C, Q); `C100_flushed` (P, C, Q); `C100_second_refuted` (P, C, Q); `C100_deaf_refuted` (P); `C100_lost_refuted` (P, C, Q); `C100_example` (P); `C100_deaf_example` (P); `C67_flushed` (P, C, Q).

**C101** The api server stops when told, without an error — *partial*

The last part is false of the code: runServer returns while Shutdown still waits for requests in another goroutine, so the end of the process can cut them off (C101_requests_refuted); the rest is proved. net/http's Server is modelled after its documentation, in both versions of Serve.

`C101_no_error` (none); `C101_freed` (none); `C101_stays` (none); `C101_stops` (P, Q); `C101_waits_partial` (none); `C101_requests_refuted` (none); `C101_example` (none).

**C102** The commands do what their exit status says — *partial*

False of the code where other processes change the path between the look and the write: a configuration made then is overwritten; and a failed write leaves a part that init refuses to replace (C102_overwrites_refuted). The command line library and TOML decoding are parameters.

`C102_init_partial` (P, Q); `C102_status` (P, Q); `C102_flushed` (P, C, Q); `C102_overwrites_refuted` (P); `C102_example` (P).

**C103** What is selected in the browser is what was observed — *proved*

What is outside (digests, texts, png) is C87's `Outside` and `Library` and `Backend`; an empty text is neither a duration nor a number for Go's parsers, and the texts of the axes have at most 4 and 10 characters. Narrow windows are excluded by the claim: below 138 pixels the handler panics (C103_narrow_refuted). Late intervals as for C98.

`C103_seen` (P, C, Q); `C103_example` (P, C, Q); `C103_narrow_refuted` (P, C, Q); `C91_address` (P, C, Q); `C92_image` (P, C, Q); `C98_shown` (P, C, Q).

**C104** The columns as JSON are what was observed — *proved*

The text of the JSON is any function of what is encoded; where it fails (a rate that is not finite has no JSON) the answer is an error. At least one sample; the duration in nanoseconds is at least the width; the room for the heatmap as for C98.

`C104_json` (P, C, Q); `columns_records` (P, C, Q); `C104_example` (P, C, Q).

**C105** What is sent is what is stored — *proved*

strconv.ParseFloat is a parameter. Longer lines end their connection (C56_long_refuted). Conditions on sizes and times as for C97. The time in a line is not used by the program: a value belongs to the interval in which it is handled.

`C105_conserved` (P, C, Q); `C105_order` (P, C, Q); `C105_sent` (P, C, Q); `C105_stored` (P, C, Q); `C105_never` (P, C, Q); `C105_example` (P, C, Q); `C56_conn` (P, Q); `C97_stored` (P, C, Q).

**C106** A killed process loses nothing that was acknowledged — *partial*

False of the code when the process is killed between the two halves of the metadata or while a data file is made: the metric is then lost, with all that was acknowledged (C106_full_refuted; C24, C61). Proved with these places excluded and without accidental checksums of a half written chunk. What is acknowledged after a first crash may be lost by a later one or at once (C23). Loss of power is not modelled.

`C106_acknowledged_partial` (P, C, Q); `C106_durable_partial` (P, C, Q); `C106_next` (P, C, Q); `C106_example` (P, C, Q); `C106_full_refuted` (P, Q).

**C107** Killing the program loses at most the interval in progress — *partial*

False of the code at the places excluded in C106 (C107_full_refuted). Proved with these places excluded. For the first kill of a program started on an empty directory all intervals are accounted for; for later lives it is proved that only true records are shown, in the order of the intervals and none twice if the clock goes forward (C107_order_partial), and that what was shown stays, but not that what the later lives acknowledged is there (C65: after a torn chunk all further writes of the metric fail). A metric of which nothing had been acknowledged may give an error (no directory).

`C107_killed_partial` (P, C, Q); `C107_lives_partial` (P, C, Q); `C107_order_partial` (P, C, Q); `C107_sent_partial` (P, C, Q); `C107_example` (P, C, Q); `C107_sent_example` (P, C, Q); `C107_full_refuted` (P, C, Q).

**C108** A clock that is set back costs only the intervals that end before what is stored — *proved*

C97 without its condition on the clock. A restart here is an orderly one; for kills see C107 (lives), which has no condition on the clock either. After the clock was set back the next interval can begin before the end of the last one stored (C108_example).

`C108_query` (P, C, Q); `C108_latest` (P, C, Q); `C108_stored` (P, C, Q); `C108_call` (P, C, Q); `C108_written` (P, C, Q); `C108_which` (P, C, Q); `C108_example` (P, C, Q).

**C109** Names lost to overlapping listings come back — *proved*

What remains of C35 when calls have overlapped before. Steps are atomic as described in Model/Names; that a set in use may be written to by another goroutine is C62. A completed PopulateMetrics counts as acknowledging what it found.

`C109_again` (P, C, Q); `C109_true` (P, C, Q); `C109_example` (P, Q).

**C110** What is observed and dumped can be found — *proved*

Model/Process and Model/Names in one system (Model/Whole). Without the condition on overlaps the listing can miss names (C35_overlap_refuted, C35_populate_refuted, and C109 for when they come back). C110_typed_refuted: a name with two dots in a row is not found by typing it.

`C110_listed` (P, C, Q); `C110_exact` (P, C, Q); `C110_search` (P, C, Q); `C110_opens` (P, C, Q); `C110_observed` (P, Q); `C110_typed` (P, C, Q); `C110_typed_refuted` (P, C, Q); `C110_example` (P, C, Q).

**C111** A duration is read as it is written — *proved*

time.ParseDuration and Duration.String as they were in the Go of the code's time (int64; later versions also read the least duration). C111_finer_refuted: 0.00000000000750h says exactly 27 ns and is read as 26, so the condition on the last digit cannot be dropped.

`C111_read` (P, C, Q); `C111_exact` (P, C, Q); `C111_zero` (P, C, Q); `C111_only` (P, C, Q); `C111_written` (P, C, Q); `C111_request` (P, C, Q); `C111_finer_refuted` (P, C, Q); `C111_example` (P, C, Q).

**C112** An error of the operating system reaches no further than its metric — *proved*

C96 and C99 together. Whether opening or creating a file fails is chosen at each step of the schedule; whether opening the directory and removing files fails is given with the call. The condition of the last part cannot be dropped: a file left half made by a full disk makes the metric useless (C99_full_refuted).

`C112_never_stuck` (P, C, Q); `C112_mapped` (P, C, Q); `C112_not_shared` (P, C, Q); `C112_closed_once` (P, C, Q); `C112_bound` (P, C, Q); `C112_rest` (P, C, Q); `C112_lost` (P, C, Q); `C112_run` (P, Q); `C112_serial` (P, C, Q); `C112_spared` (P, C, Q); `C112_history` (P, C, Q); `C112_kept` (P, C, Q); `C112_example` (P, C, Q).

**C113** Every call returns — *proved*

Over the system of C112. A run is a function from times to states, each time a step or nothing. Each step of a goroutine lowers, in a well-founded order, what it has left to do; no bound on it is given.

`C113_ends` (P, C, Q); `C113_goes_on` (P, C, Q); `C113_returns` (P, C, Q); `C113_example` (P, C, Q).

**C114** A scan finds what stays, whatever changes meanwhile — *proved*

What getdents promises (POSIX: an entry that is there from open to the end is returned, what is returned was there since open, nothing twice) is the specification Spec/Scan. C114_names discharges what Model/Names takes a scan to be. C114_replaced_refuted: without the last condition a metric that always has a data file can be missed.

`C114_true` (P, C, Q); `C114_fails` (P, Q); `C114_closed` (P, Q); `C114_found` (P, C, Q); `C114_rotated` (P, C, Q); `C114_names` (P, C, Q); `C114_ends` (P, C, Q); `C114_example` (P, C, Q); `C114_replaced_refuted` (P, C, Q).

**C115** The labels of a graph say what they label — *proved*

fmt, strconv and time are modelled from their source, for both ways the flag # has counted digits (before and since Go 1.15). Over C95 (what is drawn can be read, for the rounding of t-digest values to float16 see C84) and C86. C115_twice_refuted: labels repeat when clocks are set back, and after 365 days. The condition that the graph is at least 86 pixels wide and not too long for its unit is C95's.

`C115_scene` (P, C, Q); `C115_value` (P, C, Q); `C115_special` (P, C, Q); `C115_order` (P, C, Q); `C115_rate` (P, C, Q); `C115_rank` (P, C, Q); `C115_ends` (P, C, Q); `C115_time` (P, C, Q); `C115_epoch` (P, C, Q); `C115_distinct` (P, C, Q); `C115_twice_refuted` (P); `C115_texts` (P, C, Q); `C115_example` (P, C, Q); `Says.unique` (P, C, Q); `SaysTime.unique` (P, Q); `goDay_eq` (P, C, Q); `fLt_val` (P, C, Q).

**C116** The value of a graphite line is the number it says — *proved*

strconv.ParseFloat is modelled from its source until Go 1.12 (later versions also read hexadecimal numbers and underscores are refused as here). C116_long_refuted: without the condition on digits and exponent the claim is false, 0.(50000 zeros)1e100000 is read as 0, because digits of the exponent from 10000 on are ignored.

`C116_number` (P, C, Q); `C116_exact` (P, C, Q); `C116_only` (P, C, Q); `C116_word` (P, C, Q); `C116_line` (P, C, Q); `C116_refused` (P, C, Q); `C116_conn` (P, C, Q); `C116_sent` (P, C, Q); `C116_stored` (P, C, Q); `C116_long_refuted` (P, C, Q); `C116_texts` (P, C, Q); `C116_example` (P, C, Q); `Reads.unique` (P, C, Q).

**C117** Every address of the site gives its page — *proved*

http.FileServer is modelled from its source (Go 1.10), for GET requests without Range or If-Modified-Since; templates are any functions. A browser's step is RFC 3986, 5.2, for names without #, %, ?, : and backslash, which Go does not escape in these redirects. The refutations: with an index that cannot be filled in, without an index.html, or without entries for directories, requests panic (net/http then closes the connection).

`C117_file` (P, C, Q); `C117_missing` (P, C, Q); `C117_dir` (P, C, Q); `C117_root` (P, C, Q); `C117_index` (P, Q); `C117_noslash` (P, C, Q); `C117_slash` (P, C, Q); `C117_follow_noslash` (P, Q); `C117_follow_slash` (P, Q); `C117_follow_index` (P, Q); `C117_browse` (P, C, Q); `C117_browse_index` (P, C, Q); `C117_total` (P, C, Q); `C117_warning` (P); `C117_fails_refuted` (P, Q); `C117_noindex_refuted` (P, Q); `C117_nodirs_refuted` (P, Q); `C117_example` (P, Q).

**C118** An error while storing costs only the intervals it hits — *proved*

C97 and C112 together (Model/ProcFault): C97's process over the file system of C112, where any call may fail. The condition that no new data file is left half made is in the property and cannot be dropped: with such a file every later call on the metric fails, also when nothing fails any more (C118_whole_refuted; its hypotheses are met by C99_full_example). Values of a metric without data: a query gives the error that there is no directory or no file.

`C118_stored` (P, C, Q); `C118_lost` (P, C, Q); `C118_spared` (P, C, Q); `C118_never` (P, C, Q); `C118_query` (P, C, Q); `C118_latest` (P, C, Q); `C118_goes_on` (P, C, Q); `C118_whole_refuted` (P, C, Q); `C118_example` (P, C, Q).

**C119** Every dump ends and every request is answered, whatever fails — *proved*

C97_ends and C113 together, over the process of C118. A run is a function from times to states, each time a step or nothing; each step of the program lowers, in a well-founded order, what it has left to do. With infinitely many requests the locks of the model could be given to requests for ever (Go's mutexes are fairer), hence the condition in the first part.

`C119_rest` (P, C, Q); `C119_dump` (P, C, Q); `C119_answered` (P, C, Q); `C119_example` (P, C, Q).

**C120** The picture a running program draws when storing fails — *proved*

C98 over the process of C118. An error is allowed only if the query itself reported one and system calls can fail for the metric. The condition that no new data file is left half made is in the property (C118_whole_refuted).

`C120_shown` (P, C, Q); `C120_example` (P, C, Q).

**C121** A graph up to any time is drawn or fails, and never crashes the request — *proved*

Over the process of C118. That the picture shows all stored intervals is C120, for graphs up to a time after all of them; before that a query may stop early (C16, C98_late_refuted), so here the intervals shown are some of those that ended before. Times are from 1970 to 2262; room for the heatmap is a condition on the size (C75_crash, C76_crash_refuted and C103_narrow_refuted show that smaller pictures panic), met by the page (C121_page).

`C121_any_time` (P, C, Q); `C121_no_panic` (P, C, Q); `C121_page` (P, C, Q); `C121_example` (P, C, Q).

**C122** Signing in over HTTP — *proved*

net/http's BasicAuth and encoding/base64's decoder are transcribed, in the form up to Go 1.11 and the later one that takes the word Basic in any case. sha256 is any function; a request is refused unless what it sends collides with what is configured. Bits left over in the last group of base64 are ignored, so that a header has a few spellings.

`C122_base64` (P, Q); `C122_round_trip` (P, Q); `C122_read` (P, Q); `C122_let_in` (P, C, Q); `C122_refused` (P, C, Q); `C122_colon_refuted` (P, C, Q); `C122_example` (P); `C122_served` (P).

**C123** An address written by hand is read as it says — *proved*

net/url's ParseQuery is transcribed, in the form up to Go 1.16, in which ; separates like & (later versions leave out a parameter with one). Numbers are read by the transcribed strconv.ParseInt, time.ParseDuration and strconv.ParseFloat. Finer durations and longer numbers are left to C111 and C116; inf and nan are accepted as a compression (C116_word).

`C123_form` (P, C, Q); `C123_every` (P, C, Q); `C123_unique` (P, C, Q); `C123_request` (P, C, Q); `C123_search` (P, C, Q); `C123_served` (P, C, Q); `C123_example` (P, C, Q).

**C124** Any graph of usable size is answered — *proved*

A number of samples below 1 is not covered: with -1 a request panics whenever there is something to show (C124_minus_one, C124_samples_refuted); below -1 it panics in make, which is not modelled; with 0 the rank asked for is not a number. With C123 for what the address asks for and C121 for what the picture shows. The t-digest library, the half precision and the text formats are as in C98 (Library, Outside.Ok, Outside.Short; C115 shows that the texts of the formats are so short); memory is left out. The intervals start and end after 1970.

`C124_by_hand` (P, C, Q); `any_room` (P, C, Q); `C124_example` (P, C, Q); `C124_minus_one` (P, C, Q); `C124_samples_refuted` (P, C, Q).

**C125** The columns of any graph as JSON — *proved*

As C124 for sizes and for what is outside; the text of the JSON is any function of what is encoded, which may fail (a rate that is not finite has no JSON). That all stored intervals are shown when the graph's time is after them is C104.

`C125_columns` (P, C, Q); `C125_json` (P, C, Q); `C125_example` (P, C, Q).

**C126** What one reads from the picture a running program draws — *proved*

The formats of the texts are modelled (C115) and so are the glyphs (C95); the t-digest library and the half precision are as in C98. The intervals have a length, start after 1970, and have fewer than 2^53 observations. With C124 for when there is a picture.

`C126_read` (P, C, Q); `C126_asked` (P, C, Q); `peak_shows` (P, C, Q); `C126_example` (P, C, Q).

**C127** The graph after a kill — *proved*

The excluded places are in the property: there the metric is lost (C24, C61, C107_full_refuted). What is outside is as in C98. C127_picture: the first kill of a program started on an empty directory and with a clock that goes forward (ProcOk), with all finished intervals. C127_forward: any number of lives, each ended by a kill, on an empty directory and with dumps in the order of time; what is shown is a part of the intervals of those lives, in their order (that the dumps that ended are all shown is C127_picture, for the first life). C127_again: with any times; what is shown are intervals of those lives, and the picture is theirs if their times descend.

`C127_picture` (P, C, Q); `C127_forward` (P, C, Q); `C127_again` (P, C, Q); `query_any` (P, Q); `killed_records` (P, C, Q); `C127_example` (P, C, Q); `C127_again_example` (P, C, Q); `C127_forward_example` (P, C, Q).

**C128** The columns and the texts after a kill — *proved*

As C127 (the first kill of a program started on an empty directory with a clock that goes forward; C128_forward: any number of lives, as C127_forward) and C126 (texts of Go's libraries; intervals with a length, after 1970, of fewer than 2^53 observations).

`C128_read` (P, C, Q); `C128_forward` (P, C, Q); `columns_same` (P, Q); `killed_shown` (P, C, Q); `C128_example` (P, C, Q).

**C129** A table's rows arrive until the first error, which stays — *proved*

The library's tabwriter is any writer: how it aligns the cells is not modelled, nor is the text errs.Wrap adds to an error.

`C129_error` (P, Q); `C129_stays` (P, Q); `C129_rows` (P, Q); `C129_error_example` (P); `C129_rows_example` (P).

**C130** Log lines and observations go to the resources in force — *proved*

One goroutine: replacing a resource while another calls it is a data race of the code (no lock) and is left out. An interface that holds a nil pointer counts as a resource.

`C130_delivered` (P, C, Q); `C130_all` (P); `C130_example` (none).

**C131** What a dump reports is what happened — *proved*

The database keeps the contract of C57 (the callback is invoked at most once, and never if Queue gives an error; the files database does so: C31). Of lines the facts are modelled, not the texts; where they go is C130. Marshalling does not fail (C06).

`C131_report` (P, C, Q); `C131_during` (P, C, Q); `C131_every` (P, Q); `C131_example` (P).

**C132** Every line sent to a graphite listener is added or logged — *proved*

The connection ends by an end of file; one that breaks hands out what came as a last line and logs an error as a long line does. The number parser is any function (C116 is about Go's). The peer's address and the error's text in a line are left out; where the lines go is C130.

`C132_conn` (P, Q); `C132_long` (P, Q); `C132_adds` (P); `C132_example` (P, Q).

## What is modelled, file by file

| file | modelled | not modelled |
|------|----------|--------------|
| `database/files/record.go`, `convert.go`, `file_ops.go` | all | |
| `database/files/file.go`, `file_helpers.go`, `file_no_debug.go` | creating, opening, metadata, records, bounds | mmap, msync, madvise themselves (their errors: C99); a fault while mapped memory is used; `file_debug.go` |
| `database/files/metric.go` | `newMetric`, `acquireLast`, `Write`, `Read`, `ReadLast`, scanning the directory; their steps on the shared file cache | errors of `munmap` and `msync` (those of the other system calls: C99, C112); the file system's own behaviour in a power failure |
| `database/files/cache.go`, `file_cache.go`, `lock_pool.go`, `internal/sset`, `internal/pcg` | all | |
| `database/files/db.go`, `register.go` | options used by the modelled calls | the resource limit's value |
| `database/files/db_write.go`, `db_read.go` | Queue, Run, workers, write, Query, QueryLatest, Metrics, PopulateMetrics | which error a failing directory system call reports (C114 has all failures) |
| `database/files/internal/system` | `dirent.go`, linux | mmap, fallocate, the darwin files |
| `database/files/internal/meta`, `data/record.pb.go` | size, marshal, unmarshal, skip | String, getters, the registration with protobuf |
| `data/agg.go`, `data/writer.go` | all; a distribution is the list of the values observed (C41–C44) or any encoding (C70) | |
| `data/load`, `dist/tdigest/wrapper.go` | loading; Query, CDF and its cache over any quantile function | the t-digest library |
| `merge` | Merge, Merger, resampling, sampling, pixel arithmetic, rates | what merging two t-digests gives; rounding to float16 |
| `dump/dump.go` | Dump and Run | the texts of log lines |
| `api/server.go`, `api/common.go` | authentication, routing, caching of the handlers, status and log, serveRender, durations (time.ParseDuration) | net/http, png, the static files' handler |
| `api/query` | all | |
| `listener/graphite` | lines, connections, shutting down, `strconv.ParseFloat` as of Go 1.12 (C116) | net, bufio beyond its scanner, hexadecimal numbers |
| `demo.go` | the records' times and their queueing | the observed values |
| `run.go`, `internal/junk` | the order of starting and stopping, launcher, flag, signals, the api server's start and end | loading plugins, templates; of `Tabbed` the library's alignment of the cells |
| `config`, `registry`, `internal/typeassert` | loading the decoded document, redaction, registering, assertions | toml decoding, the text of the initial config |
| `internal/tgzfs` | lookup, Readdir | gzip and tar decoding |
| `draw`, `draw/colors`, `draw/iosevka` | the colour table, canvas, views, heatmap, key, observations, axes, layout of a graph, the float arithmetic behind rows, colours and bars, the font's glyphs and how texts are drawn with them, the formats of the texts (`fmt`, `strconv`, `time.Format` for the formats used) | the time zone database |
| `internal/tmplfs` | `Open`, sizes, closing | html/template; of http.FileServer only GET without ranges and dates |
| `ui/elm` | `QueryBar`, `Graph`, `Main`: messages, updates, commands, addresses; `Api`: addresses | Html, styles, the Elm runtime, the browser's event loop but for running each event to completion |
| `init.go`, `main.go`, `utils.go` | the actions, their order and the exit status | the command line library, the printed texts |
| `external` | all, for one goroutine | the resources themselves |
| `bin`, `internal/assert` | nothing | all |

## What reading and proving found

Each of these is a theorem (`_refuted`, or the exact form of the property) about the model.

* A crash between the two stores of a metadata update, or while a data file is created, makes the metric unusable for ever (C24, C61); a crash inside a single-chunk write makes it refuse writes for ever (C65).
* A torn record whose header, with its checksum, is stored before its data can show a value that was never written (C22).
* A handle of an empty last file is put into the cache, and the file then removed: writes through it go to an unlinked file (C19, C23).
* `Write` refuses a value that fills a file when exactly one small value is stored (C20); an oversized write that fails deletes the oldest data file (C19).
* `Query` stops at the first file without a value before the bound even if an older one has some (C16); `ReadLast` misses a value ending at MaxInt64 (C17).
* A query creates `1.data` in a directory that exists only because of a longer metric's name (C25), and writing a metric creates the directory of another (C59).
* The published set of names is modified in place while it is empty (C62); overlapping listings and scans lose names (C35).
* The first observers of an interval overwrite each other's minimum and maximum (C42); a capture can meet an aggregate without a distribution and crash (C44); a failing distribution constructor leaves a lock held (C42).
* `Merge` loses the first record's extreme ids (C45); a record ending exactly at now is drawn one pixel off the graph (C46); a duration below the width crashes (C47); the leftmost pixel shows records that ended before the graph (C69).
* The CDF is 0 at the only value observed (C48) and its cache is never dropped (C49).
* A configured password without a user name is not checked (C50); the status the server logs for errors is 0 (C51).
* A service that fails at run time loses the observations not yet dumped (C67); a dump after the database stopped hangs (C57).
* A graphite line of 65536 bytes stops its connection (C56). A protobuf length near 2^63 crashes the decoder (C07). A directory record of length 0 is read for ever (C37).
* A width of less than 100 pixels crashes the graph (C75); labels near the left end are drawn over each other (C73); a heatmap column that is too wide paints outside its view (C63).
* The documented bound on the space of a metric forgets the metadata slot (C71).
* In the browser the menu of completions can open again after it was closed, when an answer arrives late (C88), and a retyped text can be asked for early (C88); Enter does nothing while the answer has no completions (C89); a timer of a replaced graph can draw the new one too early (C90); a page opened below the top path loses the selected metric and is served as the unfilled template (C91, C94); choosing the metric that is shown does not load the picture again (C91); a name that is not UTF-8 is listed as another name and cannot be drawn (C93); a window narrower than 138 pixels asks for a width that crashes the handler (C75, C91).
* `openFile` and `createFile` leave the file mapped when they fail after `mmap` (file.go:59-72,98-118), so each query of a broken file uses up a mapping (C96); `system.Munmap` and `Msync` return no error when the system call fails (mmap.go:26-39; found by reading, not modelled).
* A request for a graph that reads the clock before a dump whose record begins a new file, and whose query comes after it, is answered with an error although older records are stored (C98, by C16).
* If the disk is full when a new file is needed, `createFile` leaves a file that cannot be opened (file.go:54-66) and the metric can neither be written nor read any more, for ever (C99). A write that fails to create a file has already removed the oldest one (metric.go:262-277, C99); a file whose removal fails is never removed later (C99).
* A second SIGINT kills the program during its last dump; and signals are swallowed once the program ends by itself (C100). The api server does not wait for requests under way although it gives them a minute (C101). `init` looks first and writes then, so it can overwrite a configuration made meanwhile (C102).
* In a window of less than 138 pixels the image's request makes the handler panic (a division by zero in draw/graph/graph.go:172); net/http recovers and closes the connection (C103).
- A metric whose name has two dots in a row is not found when its name is typed in full: no part of a query matches an empty component (`C110_typed_refuted`; api/query).
- A duration with more digits than nanoseconds can be read one nanosecond short: `0.00000000000750h` is 26 ns, not 27 (`C111_finer_refuted`; library code).
* A scan (`PopulateMetrics`) reads each directory with `getdents`; POSIX lets it miss entries that appear after the directory was opened. If all data files of a metric are replaced while its directory is read, the scan misses the metric although it always has a data file (C114_replaced_refuted). In practice a metric's directory fits in one buffer, and then it is found (C114_rotated).
* Labels of the time axis have no year and no zone: two ticks an hour apart have the same label when clocks are set back, and so have ticks a year apart (C115).
- A number in a graphite line with more than 9000 digits and an exponent of 100000 or more may be read as one quite different (library behaviour; `C116_long_refuted`).
- GET / panics in the handler if the archive has no index.html or its template fails, because the archive's `Readdir(-1)` panics; so does a directory without an entry (`C117_noindex_refuted`, `C117_fails_refuted`, `C117_nodirs_refuted`).
* A configured username with a colon locks everybody out: in the header the name ends at the first colon (C122_colon_refuted; server.go:118-123)
- A graph with `samples=-1` panics whenever there is something to show: its columns have no values and the heatmap reads the first one (`C124_samples_refuted`; server.go:165, merger.go:222, heatmap.go:65)

## Tests of the theorems against wrong programs

`seeded/LOG.jsonl` has one line for each of 632 edits of the model, each made in a copy outside of `/verif` the way a bug would change the program, and rebuilt. A line tells the definition, the edit, the claim it
breaks, the theorems whose proofs failed, those of the claim that were not built because they rest on a failed one, those that still proved, and which theorems were tightened because of it. A few are controls that leave
the claim true: there the proof of an invariant fails although the property still holds, which shows that the invariants say more than the property.

## Trusted base

* Lean 4.33.0's kernel. No `axiom`, no unproved statement, no compiled evaluation (`native_decide`, `bv_decide`): witnesses are computed by the kernel (`decide +kernel`, `rfl`).
* The axioms listed with each theorem: `propext`, `Classical.choice`, `Quot.sound` or fewer.
* Mathlib (its theorems are checked by the kernel like ours) is imported by the modules about rounding: `Ieee`, `Rows`, `Near`, `Heat`, `Rate`, `Scene`, `Ticks`, `SceneMore`, `Shown`.
* That the model says what the Go code does: each definition cites its lines. The Go compiler and runtime, the operating system, and the libraries listed as not modelled are trusted to do what their documentation says. Memory is
  sequentially consistent at the level of atomics, mutexes and channels; code outside of those is taken to be free of data races except where a theorem is about one (C62).
* Crash points are in program order: a store that precedes another in the program reaches the disk first (a process crash, not a power failure).
