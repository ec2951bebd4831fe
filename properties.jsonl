{"id": "C01", "title": "Stored chunk codec round-trips", "statement": "Any chunk (kind, start, end, payload of at most 65535 bytes) marshalled into a slot parses back to exactly the same chunk, whatever bytes follow it in the slot.", "quantifier": "every kind byte, every pair of int64 times, every payload up to 65535 bytes, every trailing byte string", "why_tests_cant": "the payload/time space is unbounded for a test; a test samples a few records", "anchors": ["database/files/record.go:record.Marshal", "database/files/record.go:parse"]}
{"id": "C02", "title": "Parser accepts only well-formed chunks", "statement": "If the parser accepts a byte buffer and returns a chunk, the buffer starts with exactly the marshalled form of that chunk (so nothing but a faithfully written chunk is ever accepted); buffers shorter than header+payload, with another version, or another checksum are all rejected.", "quantifier": "every byte buffer", "why_tests_cant": "the set of buffers is infinite; fuzzing cannot show that no other buffer is accepted", "anchors": ["database/files/record.go:parse", "database/files/record.go:record.MarshalHeader"]}
{"id": "C03", "title": "Corruption of a stored chunk is detected", "statement": "Changing any single byte (more generally any change confined to four consecutive bytes) of a stored chunk makes reading that chunk fail instead of returning altered data.", "quantifier": "every stored chunk, every byte position, every replacement value", "why_tests_cant": "the existing test flips 10000 random bytes of one fixed record; the claim is over all records and positions (and is in fact false for the length field)", "anchors": ["database/files/record.go:parse", "database/files/record_test.go"]}
{"id": "C04", "title": "Values are split and reassembled losslessly", "statement": "For every value and record size that admits a payload, the value is stored as a sequence of chunks whose payloads concatenate to the value, each chunk fits in the record size, carries the value's start/end, the kinds are complete | begin continue* end, and the number of chunks is exactly the number the writer reserves. Record sizes outside the valid range are refused.", "quantifier": "every value, every record size, every start and end", "why_tests_cant": "boundary conditions (multiples of the chunk size, empty values, maximum chunk) are unbounded in number", "anchors": ["database/files/record.go:iterateRecords", "database/files/record.go:numRecords"]}
{"id": "C05", "title": "File metadata round-trips in its slot", "statement": "Writing metadata to a file and reading it back gives the same metadata (including negative head and negative times); when it does not fit it is refused and the slot is not changed.", "quantifier": "every metadata value with int64 fields, every slot size and previous slot contents", "why_tests_cant": "varint lengths depend on all 64 bits of five fields; cannot be enumerated", "anchors": ["database/files/file_helpers.go:writeMetadata", "database/files/file_helpers.go:readMetadata", "database/files/internal/meta/meta.pb.go:Metadata.MarshalTo", "database/files/internal/meta/meta.pb.go:Metadata.Unmarshal"]}
{"id": "C06", "title": "Distribution record encoding round-trips", "statement": "Decoding an encoded distribution Record yields an equal Record (a negative-zero min/max reads back as zero), and the encoder writes exactly the number of bytes Size reports.", "quantifier": "every Record: all int64 fields, all byte strings below 2^31 long, all float64 bit patterns", "why_tests_cant": "ten fields with 64-bit and unbounded domains", "anchors": ["data/record.pb.go:Record.MarshalTo", "data/record.pb.go:Record.Unmarshal", "data/record.pb.go:Record.Size"]}
{"id": "C07", "title": "Decoding arbitrary bytes as a Record is safe", "statement": "Decoding any byte string as a distribution Record terminates and either returns a Record or an error; it never crashes the process.", "quantifier": "every byte string", "why_tests_cant": "arbitrary input; the crashing inputs are a thin set with overlong lengths that random tests do not hit", "anchors": ["data/record.pb.go:Record.Unmarshal", "data/record.pb.go:skipRecord"]}
{"id": "C08", "title": "Metric names map one-to-one to directories", "statement": "Converting a metric name to its directory and back yields the same name, so distinct metrics never share a directory.", "quantifier": "every byte string used as a metric name", "why_tests_cant": "names are unbounded byte strings, with runs of dots, slashes and percent signs in every position", "anchors": ["database/files/convert.go:metricToDir", "database/files/convert.go:dirToMetric"]}
{"id": "C09", "title": "Metric names cannot escape the database directory", "statement": "For every metric name, the directory used is a relative path whose components are non-empty, contain no dot byte (hence are never '.', '..' or '*.data'), and has no leading or trailing slash.", "quantifier": "every byte string used as a metric name", "why_tests_cant": "security property over all attacker-chosen names", "anchors": ["database/files/convert.go:metricToDir"]}
{"id": "C10", "title": "Data files of distinct (metric, index) pairs are distinct", "statement": "The path of data file i of metric m determines both m and i; and scanning a directory that holds exactly files f..l yields first=f, last=l.", "quantifier": "all metric names, all non-negative file indices, all directory listing orders", "why_tests_cant": "directory listing order and index ranges are unbounded", "anchors": ["database/files/convert.go:metricToPath", "database/files/metric.go:filenameBuf.metricFilenameAt", "database/files/metric.go:newMetric"]}
{"id": "C11", "title": "Head recovery works from any stale hint", "statement": "Wherever the metadata hint points inside the file, head recovery returns the slot just before the first stored chunk, provided stored chunks occupy a suffix of the file; and it terminates.", "quantifier": "every capacity, every occupied suffix, every hint", "why_tests_cant": "hints become stale at arbitrary crash points", "anchors": ["database/files/file_ops.go:getHeadPointer"]}
{"id": "C12", "title": "Slots of a data file are isolated", "statement": "Writing slot n makes exactly slot n read back as the written chunk; every other slot and the metadata read the same as before; out-of-range or oversized writes fail and change nothing; writing metadata changes no slot.", "quantifier": "every file geometry, every slot index, every prior content", "why_tests_cant": "all index pairs and contents", "anchors": ["database/files/file.go:file.SetRecord", "database/files/file.go:file.Record", "database/files/file.go:file.SetMetadata", "database/files/file.go:file.HasRecord"]}
{"id": "C13", "title": "Every acknowledged write is stored exactly and in order", "statement": "After any sequence of writes to a metric, the values stored are exactly the accepted writes in order, minus the oldest ones dropped by rotation: each with its own start, end and data, byte for byte.", "quantifier": "every sequence of writes (any times, any data that fits a file), every record size, file capacity and file limit", "why_tests_cant": "unbounded histories with rotation at arbitrary places", "anchors": ["database/files/metric.go:metric.Write", "database/files/metric.go:metric.acquireLast"]}
{"id": "C14", "title": "Writes are accepted only forward in time", "statement": "A write succeeds only if its end is strictly later than the end of the last accepted write; a write with an earlier or equal end reports 'not written', and changes nothing that can be observed.", "quantifier": "every history and every attempted write", "why_tests_cant": "depends on the whole history", "anchors": ["database/files/metric.go:metric.Write", "database/files/db_write.go:DB.Queue"]}
{"id": "C15", "title": "Query results are sound and ordered", "statement": "Query calls back only with values that were written, each ending strictly before the requested end, in strictly decreasing order of end, each at most once, and stops as soon as the callback asks to.", "quantifier": "every history, every query bound, every callback stopping point", "why_tests_cant": "unbounded histories and bounds", "anchors": ["database/files/metric.go:metric.Read", "database/types.go:Source"]}
{"id": "C16", "title": "Query is complete for every bound", "statement": "Query calls back with all stored values that end strictly before the requested end (unless the callback stops it).", "quantifier": "every history, every query bound", "why_tests_cant": "the property fails only when the bound is at or before the oldest value of the newest file and several files exist; existing tests never check that the callback runs", "anchors": ["database/files/metric.go:metric.Read", "database/types.go:Source"]}
{"id": "C17", "title": "QueryLatest returns the last accepted write", "statement": "After at least one accepted write, QueryLatest returns the start, end and data of the most recent one; with none it returns zeros and nil data.", "quantifier": "every history whose last accepted value ends before the largest 64-bit time", "why_tests_cant": "unbounded histories", "anchors": ["database/files/metric.go:metric.ReadLast", "database/files/db_read.go:DB.QueryLatest"]}
{"id": "C18", "title": "Disk use per metric is bounded and only the oldest file is dropped", "statement": "With a positive file limit a metric never has more than files+1 data files, rotation removes only the oldest file, so at least all values in the newest 'files' files survive; with limit 0 nothing is removed.", "quantifier": "every history, every positive or zero limit", "why_tests_cant": "unbounded histories", "anchors": ["database/files/metric.go:metric.Write", "database/files/db.go:Options"]}
{"id": "C19", "title": "A failed oversized write has no lasting effect", "statement": "A write that fails because the value is too large for a file leaves all later behaviour as if it had not been attempted: later acknowledged writes are stored and returned by Query.", "quantifier": "every history containing oversized writes, every cache size", "why_tests_cant": "requires a specific later history (fill the current file) after the failed write, with the handle still cached", "anchors": ["database/files/metric.go:metric.Write", "database/files/metric.go:metric.acquireLast", "database/files/file_cache.go:fileCache.acquireFile"]}
{"id": "C20", "title": "A value that fits in an empty file is always accepted", "statement": "A write with a later end whose value needs at most 'cap' records is accepted in every state of the metric.", "quantifier": "every state, every value of at most cap records", "why_tests_cant": "only fails for one exact fill level of file 1", "anchors": ["database/files/metric.go:metric.Write"]}
{"id": "C21", "title": "Damaged slots lose only their own value", "statement": "If any set of slots becomes unreadable (checksum failures), a query returns exactly the values none of whose chunks is damaged, never a mixture and never altered data.", "quantifier": "every stored history, every subset of damaged slots, every bound", "why_tests_cant": "2^n damage patterns for unbounded n", "anchors": ["database/files/metric.go:metric.Read"]}
{"id": "C22", "title": "A crash while storing chunks is atomic", "statement": "If the process dies after any number of chunk stores of a write (before the metadata update), reopening shows either exactly the previous values, or exactly the previous values plus the complete new one.", "quantifier": "every history, every value, every crash point among the chunk stores", "why_tests_cant": "crash points cannot be enumerated by tests", "anchors": ["database/files/metric.go:metric.Write", "database/files/file_ops.go:getHeadPointer"]}
{"id": "C23", "title": "Writes acknowledged after crash recovery are readable", "statement": "After a crash in the middle of a write and a restart, every write acknowledged afterwards is returned by Query.", "quantifier": "every history, crash point and subsequent history", "why_tests_cant": "needs a particular crash point followed by a smaller value", "anchors": ["database/files/metric.go:metric.Write", "database/files/metric.go:metric.Read", "database/files/file_ops.go:getHeadPointer"]}
{"id": "C24", "title": "A crash during the metadata update keeps the metric readable", "statement": "If the process dies at any point while a write updates the metadata record, earlier values can still be queried after restart.", "quantifier": "every history and every crash point in the metadata update", "why_tests_cant": "crash points in the middle of a memory-mapped update", "anchors": ["database/files/file_helpers.go:writeMetadata", "database/files/file.go:openFile"]}
{"id": "C25", "title": "Queries do not change what is stored", "statement": "Query and QueryLatest never create or modify data files or metrics, whatever name is asked for.", "quantifier": "every database directory, every metric name", "why_tests_cant": "needs the name of a directory that has no data file of its own", "anchors": ["database/files/db_read.go:DB.Query", "database/files/metric.go:newMetric"]}
{"id": "C26", "title": "Handle cache bookkeeping", "statement": "For any sequence of put/take/take-all calls: the cache never holds more than its capacity, a token retrieves exactly the handle put under it or nothing, and every handle put in comes back exactly once (by take, eviction or take-all) or is still inside.", "quantifier": "every sequence of operations, every capacity, every random eviction choice", "why_tests_cant": "unbounded operation sequences and random choices", "anchors": ["database/files/cache.go:cache.Put", "database/files/cache.go:cache.Take", "database/files/cache.go:cache.TakeAll"]}
{"id": "C27", "title": "File handle cache returns the right file and does not leak", "statement": "Under exclusive use per path, acquiring a path after releasing it yields a handle for that same path; every opened handle is at any time in exactly one of: in use, cached, closed; evicting a path closes its cached handle; after Close every handle not in use is closed.", "quantifier": "every sequence of acquire/release/evict/close over all paths, every cache size", "why_tests_cant": "unbounded sequences", "anchors": ["database/files/file_cache.go:fileCache"]}
{"id": "C28", "title": "Random eviction index is in range", "statement": "The scaled random number used for eviction is always a valid index, and every index is produced by some generator output.", "quantifier": "every uint32 and every capacity from 1 to 2^32", "why_tests_cant": "2^32 x 2^32 combinations", "anchors": ["database/files/common.go:fastMod"]}
{"id": "C29", "title": "PCG zero value and seeding", "statement": "The zero-value generator produces the same outputs as New(0,0) forever; New(state,inc) is the documented two-step seeding; the generator's state visits all 2^64 values before repeating.", "quantifier": "every seed, every output position", "why_tests_cant": "period is 2^64", "anchors": ["internal/pcg/pcg.go"]}
{"id": "C30", "title": "Per-metric locks give mutual exclusion", "statement": "Under any interleaving of Lock/Unlock calls, two goroutines are never both between Lock(k) and Unlock(k) for one key; unlocking a held key never panics; a key's state is dropped when nobody uses it; a free key can always be locked.", "quantifier": "every number of goroutines, every key set, every interleaving", "why_tests_cant": "interleavings", "anchors": ["database/files/lock_pool.go:lockPool.Lock", "database/files/lock_pool.go:lockPool.Unlock"]}
{"id": "C31", "title": "Queue completes each value exactly once", "statement": "Each call to Queue has its callback invoked at most once, and exactly once by the time the Run that served its queue has returned (also on cancellation, dropping, or shutdown).", "quantifier": "every interleaving of Queue calls, workers, cancellation and Run shutdown, every buffer size and drop setting", "why_tests_cant": "schedules", "anchors": ["database/files/db_write.go:DB.Queue", "database/files/db_write.go:DB.worker", "database/files/db.go:DB.Run"]}
{"id": "C32", "title": "Queued data is isolated from the caller and from other values", "statement": "The bytes written for a queued value are those passed to Queue at call time, even if the caller's slice or any recycled buffer is modified later: no pooled buffer is ever owned by two users at once.", "quantifier": "every interleaving of Queue, worker and shutdown steps", "why_tests_cant": "schedules and buffer recycling", "anchors": ["database/files/db_write.go:DB.Queue", "database/files/db_write.go:DB.worker", "database/files/db.go:DB.bufs"]}
{"id": "C33", "title": "At most one active Run", "statement": "At any time at most one Run call is past its start check; another call returns an error and disturbs nothing; after it returns Run may be called again.", "quantifier": "every interleaving of Run calls", "why_tests_cant": "schedules", "anchors": ["internal/junk/flag.go", "database/files/db.go:DB.Run"]}
{"id": "C34", "title": "String set is an ordered set", "statement": "For any sequence of Add/Merge/Copy, membership is exactly the added strings, iteration is strictly increasing without duplicates, Len is the cardinality, Merge is union, Copy does not alias.", "quantifier": "every operation sequence over arbitrary strings", "why_tests_cant": "unbounded sequences", "anchors": ["database/files/internal/sset/set.go"]}
{"id": "C35", "title": "Metrics lists every metric with an acknowledged write", "statement": "After a write to a metric has been acknowledged, every later Metrics call reports that metric (exactly once, in sorted order).", "quantifier": "every history and every interleaving of writes, Metrics and PopulateMetrics calls", "why_tests_cant": "races between concurrent calls", "anchors": ["database/files/db_read.go:DB.Metrics", "database/files/db_read.go:DB.PopulateMetrics", "database/files/db_write.go:DB.write"]}
{"id": "C36", "title": "PopulateMetrics finds exactly the stored metrics", "statement": "Scanning a database tree yields exactly the names of the metrics that have at least one data file, whatever the tree shape and listing order.", "quantifier": "every database tree produced by writes, every listing order", "why_tests_cant": "unbounded trees", "anchors": ["database/files/db_read.go:dbPopulator.populate", "database/files/convert.go:dirToMetric"]}
{"id": "C37", "title": "Directory entry decoding", "statement": "Decoding a buffer of kernel directory entries yields, in order, exactly the names of the entries with non-zero inode other than '.' and '..', and always makes progress.", "quantifier": "every sequence of directory entries", "why_tests_cant": "all name lengths, paddings and buffer contents", "anchors": ["database/files/internal/system/dirent.go:NextDirent", "database/files/internal/system/dirent_read_linux.go"]}
{"id": "C38", "title": "Glob matching is correct", "statement": "The glob matcher returns true exactly when the pattern matches a prefix of the name case-insensitively, with '?' one byte and '*' any run of bytes (a trailing '*' needs at least one remaining byte); it always terminates.", "quantifier": "every pattern and every name", "why_tests_cant": "all strings", "anchors": ["api/query/glob.go:glob"]}
{"id": "C39", "title": "Dotted search terms match consecutive components", "statement": "A search term matches a metric exactly when some run of consecutive dot-separated components contains the term's parts, in order, as (wildcarded, case-insensitive) substrings.", "quantifier": "every term and every metric name", "why_tests_cant": "all strings", "anchors": ["api/query/spec.go:spec.Match", "api/query/spec.go:newSpec", "api/query/spec.go:globify"]}
{"id": "C40", "title": "Search returns the first matches in order", "statement": "A search with limit n returns the first n metrics, in database order, that match every whitespace-separated term; never more than n, and stops the scan once full.", "quantifier": "every list of metric names, every query, every limit that is not negative", "why_tests_cant": "unbounded", "anchors": ["api/query/search.go:Search", "api/server.go:serveQuery"]}
{"id": "C41", "title": "Aggregates are exact for serial use", "statement": "For any sequence of Add calls between captures, the captured record has the exact observation count, the minimum and maximum of the added finite values, the ids of a value attaining each, and every finite value was given to the distribution once; NaN and infinities are ignored.", "quantifier": "every sequence of values and ids", "why_tests_cant": "unbounded sequences", "anchors": ["data/agg.go:agg.Observe", "data/agg.go:agg.Finish", "data/writer.go:Writer.Add"]}
{"id": "C42", "title": "Aggregates are exact under concurrency", "statement": "Under any interleaving of Add calls, once all have returned, the record's observation count, minimum and maximum are those of all added values.", "quantifier": "every interleaving of any number of Observe calls", "why_tests_cant": "races in the double-checked min/max update", "anchors": ["data/agg.go:agg.Observe"]}
{"id": "C43", "title": "Captures partition observations and time", "statement": "With captures not overlapping adds, every added value is in exactly one captured record or still pending; consecutive records of a metric abut in time: a capture's end time is the next page's start time.", "quantifier": "every interleaving of whole Add/Capture/Iterate operations", "why_tests_cant": "unbounded histories", "anchors": ["data/writer.go:Writer.Capture", "data/writer.go:Writer.Add", "data/writer.go:newPage"]}
{"id": "C44", "title": "Capturing concurrently with adding is safe", "statement": "A Capture running concurrently with Add calls does not crash, and reports each observation at most once.", "quantifier": "every interleaving of Add and Capture steps", "why_tests_cant": "races", "anchors": ["data/writer.go:Writer.Capture", "data/agg.go:agg.Finish"]}
{"id": "C45", "title": "Merging records combines their fields", "statement": "Merging a non-empty list of records yields the earliest start, latest end, sum of observations, number of originals merged (0 counting as 1), smallest min and largest max, and the ids belonging to those extremes; merging none is an error.", "quantifier": "every list of records", "why_tests_cant": "unbounded lists", "anchors": ["merge/merge.go:Merge"]}
{"id": "C46", "title": "Rendered columns tile exactly the covered pixels", "statement": "For records pushed with decreasing end times, the columns produced are disjoint, in decreasing x order, inside [0,width), every pixel overlapped by some record is in exactly one column, no other pixel is, and the column over a pixel merges exactly the records overlapping that pixel.", "quantifier": "every width, duration and sequence of records with decreasing ends before now (what a query up to now returns), times for which the int64 arithmetic does not overflow", "why_tests_cant": "unbounded sequences and overlap patterns", "anchors": ["merge/merger.go:Merger.Push", "merge/merger.go:Merger.completed", "merge/merger.go:Merger.Finish"]}
{"id": "C47", "title": "Time to pixel mapping is monotone and in range", "statement": "For positive pixel size, later times map to pixels at least as far right, times before now map into [0,width), and each pixel covers exactly one pixel_size interval, the leftmost one also everything earlier.", "quantifier": "every now, width, duration and time for which the int64 arithmetic does not overflow", "why_tests_cant": "64-bit domains", "anchors": ["merge/merger.go:Merger.timeToPixel", "merge/merger.go:Merger.SetWidth"]}
{"id": "C48", "title": "Estimated CDF is monotone, in range and accurate", "statement": "The distribution's CDF is 0 at or below the minimum, 1 at or above the maximum, non-decreasing, always in [0,1], and within 1/128 of a true rank of the value.", "quantifier": "every monotone quantile function and every value", "why_tests_cant": "all distributions", "anchors": ["dist/tdigest/wrapper.go:Wrapper.CDF", "dist/tdigest/wrapper.go:Wrapper.quan"]}
{"id": "C49", "title": "CDF reflects every observation", "statement": "Calls to CDF after an Observe use the distribution including that observation.", "quantifier": "every interleaving of Observe and CDF calls", "why_tests_cant": "needs CDF, Observe, CDF history", "anchors": ["dist/tdigest/wrapper.go:Wrapper.quan", "dist/tdigest/wrapper.go:Wrapper.Observe"]}
{"id": "C50", "title": "No content without valid credentials", "statement": "When credentials are configured, a request without basic auth matching both username and password gets 401 with a challenge and never reaches the database or static content; with matching credentials it is routed normally.", "quantifier": "every request and every configuration", "why_tests_cant": "security property over all requests", "anchors": ["api/server.go:Server.serveHTTP", "api/server.go:Server.validAuth"]}
{"id": "C51", "title": "HTTP routing and status codes", "statement": "Non-GET is 405, unknown paths go to the static handler or 404, unclassified errors are 500, a missing metric is 400, a handler's own status is never overwritten, and the logged status is the one sent.", "quantifier": "every request path, method and handler outcome", "why_tests_cant": "all combinations", "anchors": ["api/server.go:Server.ServeHTTP", "api/common.go:getStatusCode", "api/common.go:respTracker"]}
{"id": "C52", "title": "Config value assertions are all-or-nothing", "statement": "If any accessor in a group finds a value of the wrong type, Err is non-nil from then on and every later accessor returns zero; if Err is nil every accessor returned the exact value present, or zero where absent.", "quantifier": "every config tree and every sequence of accessor calls without negative indexes", "why_tests_cant": "unbounded trees and sequences", "anchors": ["internal/typeassert/asserter.go"]}
{"id": "C53", "title": "Registry returns the last registration", "statement": "NewX uses the maker most recently registered under that kind and name, errors exactly when there is none, and kinds do not interfere.", "quantifier": "every sequence of registrations", "why_tests_cant": "unbounded sequences", "anchors": ["registry/registry.go"]}
{"id": "C54", "title": "Task group semantics", "statement": "Launch returns only after every task has finished; once any task returns all others see cancellation; the result is the first received error, or nil if there is none.", "quantifier": "every set of tasks and every schedule", "why_tests_cant": "schedules", "anchors": ["internal/junk/launcher.go:Launch"]}
{"id": "C55", "title": "Canvas pixel addressing", "statement": "Setting a pixel in a canvas or a view of it changes exactly that pixel of the underlying image, never goes out of bounds for coordinates inside, and reads back the colour.", "quantifier": "every canvas size, view and coordinate", "why_tests_cant": "all sizes and coordinates", "anchors": ["draw/common.go:RGB"]}
{"id": "C56", "title": "Graphite lines are ingested faithfully", "statement": "Each line of three single-space-separated fields with a parsable value adds exactly that value to exactly that metric; every other line adds nothing and does not stop the connection.", "quantifier": "every byte stream whose lines are shorter than 65536 bytes (a longer line ends the connection), however the reads split it", "why_tests_cant": "all lines", "anchors": ["listener/graphite/listener.go:handleLine", "listener/graphite/listener.go:handleConn"]}
{"id": "C57", "title": "A dump hands every captured record to the database once and waits", "statement": "Dump queues each captured record exactly once (until cancelled), returns only after each queued record was reported back, and writes+skips equals the number queued.", "quantifier": "every set of captured metrics, every completion order", "why_tests_cant": "schedules", "anchors": ["dump/dump.go:Dumper.Dump"]}
{"id": "C58", "title": "Embedded static file tree lookups", "statement": "Opening a path returns the file stored under the same cleaned path, else index.html if present, else not-exist; repeated directory reads enumerate each entry exactly once.", "quantifier": "every archive, path and read sequence", "why_tests_cant": "unbounded", "anchors": ["internal/tgzfs/fs.go:FS.getFile", "internal/tgzfs/file.go:fileHandle.Readdir"]}
{"id": "C59", "title": "Concurrent operations on the database are serialised per metric", "statement": "Under any interleaving of workers and queries, the effects on each metric equal some serial order of the individual writes and queries of that metric, and operations on different metrics do not affect each other.", "quantifier": "every interleaving", "why_tests_cant": "schedules", "anchors": ["database/files/db_write.go:DB.write", "database/files/db_read.go:DB.Query", "database/files/lock_pool.go"]}
{"id": "C60", "title": "Configuration loading", "statement": "A config is accepted only with exactly one database and one distribution; the loaded entities carry the given kinds and configs, every listener instance appears, and a redacted config never contains the credentials or key material.", "quantifier": "every parsed config document", "why_tests_cant": "unbounded documents", "anchors": ["config/load.go:Load", "config/config.go:APIConfig.Redact"]}
{"id": "C61", "title": "A crash while a data file is being created keeps the metric readable", "statement": "If the process dies at any point while a write creates the next data file, the values stored before can still be queried after restart and later writes succeed.", "quantifier": "every reachable state and every crash point of file creation", "why_tests_cant": "crash points", "anchors": ["database/files/file.go:createFile", "database/files/file.go:openFile", "database/files/metric.go:newMetric"]}
{"id": "C62", "title": "Listing metrics concurrently with writes is safe", "statement": "The published set of metric names, which writers and listings read without holding a lock, is never modified after it has been published.", "quantifier": "every interleaving of writes, listings and rescans", "why_tests_cant": "data race on unbounded schedules", "anchors": ["database/files/db_read.go:DB.Metrics", "database/files/db_write.go:DB.write", "database/files/internal/sset/set.go:Set"]}
{"id": "C63", "title": "Drawing touches exactly its own rectangle", "statement": "Drawing a heatmap column, the colour key or an observation bar into a view of a canvas sets every pixel of its rectangle to the intended colour and changes no other pixel of the canvas.", "quantifier": "every RGB canvas (the type the program draws on), view, column, key and bar that lies inside the view, and every colour table", "why_tests_cant": "unbounded sizes and positions", "anchors": ["draw/heatmap/heatmap.go:Heatmap.Draw", "draw/key/key.go:Draw", "draw/observations/obs.go:Measured.Draw"]}
{"id": "C64", "title": "Readable values stay readable through crashes, restarts and later writes", "statement": "Whatever values a metric shows, after any further writes, crashes, restarts and queries it still shows them, unchanged and in order, except for whole oldest data files dropped by rotation; nothing that was never given to a write is ever shown.", "quantifier": "every history of writes, queries, restarts and crashes between any two chunk stores of a write; also inside a chunk, unless the half written chunk passes its 32 bit checksum by accident", "why_tests_cant": "crash points times unbounded histories", "anchors": ["database/files/metric.go:metric.Write", "database/files/metric.go:metric.Read", "database/files/file.go:file.SetRecord"]}
{"id": "C65", "title": "A metric still accepts writes after a crash", "statement": "After the process died at any point of a write and was restarted, later writes with larger start times are still accepted.", "quantifier": "every history and every crash point of a write", "why_tests_cant": "crash points times unbounded histories", "anchors": ["database/files/metric.go:metric.Write", "database/files/metric.go:metric.acquireLast", "database/files/file.go:file.Record"]}
{"id": "C66", "title": "Messages of other versions decode", "statement": "A stored record or file metadata whose protobuf fields come in any order, repeated, and mixed with fields of numbers this version does not know (of every wire kind, groups nested to any depth) decodes to what the known fields say, the last of a kind winning.", "quantifier": "every list of fields, every unknown field of every kind and depth", "why_tests_cant": "unbounded messages", "anchors": ["data/record.pb.go:Record.Unmarshal", "data/record.pb.go:skipRecord", "database/files/internal/meta/meta.pb.go:Metadata.Unmarshal"]}
{"id": "C67", "title": "Shutting down loses no observations", "statement": "When rothko run stops and none of its services failed, the last dump happens after every listener, api server and dumper has returned and before the database stops, so that when run returns without an error every observation was handed to the database as part of some record (unless the last dump was interrupted by its timeout).", "quantifier": "every interleaving of the services, the last dump, the database and cancellation, and any number of services", "why_tests_cant": "schedules", "anchors": ["run.go:run", "run.go:runServer", "internal/junk/launcher.go:Launcher.Run", "dump/dump.go:Dumper.Dump"]}
{"id": "C68", "title": "A stopped listener is quiet", "statement": "When the graphite listener's Run has returned, every connection's goroutine has ended, every connection and the listening socket are closed, and nothing more is added to the writer; Run returns nil only after cancellation, else the error of Accept; and after cancellation it does return.", "quantifier": "every interleaving of connections, lines, errors and cancellation", "why_tests_cant": "schedules", "anchors": ["listener/graphite/listener.go:Listener.Run", "listener/graphite/listener.go:handleConn"]}
{"id": "C69", "title": "A graph shows exactly the stored records of its time", "statement": "A graph up to a time after everything stored consists of disjoint columns inside the graph; each pixel but the leftmost is covered exactly if a stored record overlaps the pixel's time, and the column shows exactly the records overlapping it; the leftmost shows those of the records read that start before its right end; a stored value that is needed and cannot be decoded makes the request fail.", "quantifier": "every history of the store, time, duration and width", "why_tests_cant": "unbounded histories", "anchors": ["api/server.go:Server.serveRender", "merge/merger.go:Merger.Push", "database/files/db_read.go:DB.Query"]}
{"id": "C70", "title": "What is observed is what is stored", "statement": "Observations added to the writer, dumped at increasing times into the database and queried back, with restarts in between, come back as exactly one record for each interval between dumps in which the metric was observed and its value was queued, carrying that interval and the count, minimum, maximum, ids and distribution of exactly the observations made in it, newest first, except for whole oldest files dropped by rotation.", "quantifier": "every sequence of adds, dumps, queries and restarts, every set of metrics, every subset of values the queue took, any size of records that fit a file", "why_tests_cant": "unbounded histories through four components", "anchors": ["data/writer.go:Writer.Capture", "dump/dump.go:Dumper.Dump", "database/files/db_write.go:DB.write", "database/files/db_read.go:DB.Query"]}
{"id": "C71", "title": "Bounded space", "statement": "With fixed options Size, Cap and Files > 0, the data files of a metric never take more than (Files + 1) * Size * (Cap + 1) bytes, whatever is written.", "quantifier": "every history of writes, queries and restarts under one configuration", "why_tests_cant": "unbounded histories", "anchors": ["database/files/db.go:Options", "database/files/metric.go:metric.Write", "database/files/file.go:createFile"]}
{"id": "C72", "title": "Guaranteed history", "statement": "With fixed options, a value is dropped only when the newer values that are kept take more than Files * (Cap - K + 1) slots, K being the most slots a value takes; with values of one slot a query shows everything acknowledged or more than Files * Cap newest values.", "quantifier": "every history of writes, queries and restarts under one configuration", "why_tests_cant": "unbounded histories", "anchors": ["database/files/db.go:Options", "database/files/metric.go:metric.Write"]}
{"id": "C73", "title": "Axes stay inside their measured size and label their ticks", "statement": "Drawing an axis sets only pixels inside the size that measuring it gave; every label has its tick at its position; with DontBleed no text of a horizontal axis reaches past its end; texts of a horizontal axis do not overlap.", "quantifier": "every font, list of labels, length, orientation and flip", "why_tests_cant": "unbounded label lists, text sizes and positions", "anchors": ["draw/axis/axis.go:Measure", "draw/axis/axis.go:Measured.Draw"]}
{"id": "C74", "title": "The time axis is labelled at natural times", "statement": "The time labels of a graph are exactly the multiples of the natural unit inside the graph's time, each once, and the unit is the largest of 1, 2, 4, ..., 24 hours below the time of a hundred pixels (an hour if there is none).", "quantifier": "every time from 1970 on, duration and width of at least 100 pixels", "why_tests_cant": "unbounded times and durations", "anchors": ["draw/graph/graph.go:tryMeasure", "draw/graph/common.go:naturalUnits"]}
{"id": "C75", "title": "The parts of a graph do not overlap", "statement": "When measuring a graph succeeds, the observations, axes, heatmap and key lie inside the graph inside the padding, their widths and heights add up to the graph's, and no two of them share a pixel (except that the side axes may run down beside the bottom axis); too small a height is reported and does not crash.", "quantifier": "every style, font, time, width, height and padding", "why_tests_cant": "unbounded sizes", "anchors": ["draw/graph/graph.go:Measure", "draw/graph/graph.go:Measured.Draw"]}
{"id": "C76", "title": "A graph's picture shows its columns", "statement": "Drawing a measured graph does not crash and gives a picture of the requested size plus padding in which every pixel of the heatmap area has the colour of the column over it, its values growing upwards, and is white where there is no column; the key beside it shows the colour scale; the bar above each column has the colour for its number of observations; and no axis, tick or text is painted over any of these.", "quantifier": "every style, font, time, size and padding for which measuring succeeds and leaves the heatmap two rows or more, every list of disjoint columns inside the graph, every colour table", "why_tests_cant": "unbounded sizes, positions and label lists", "anchors": ["draw/graph/graph.go:Measured.Draw", "draw/heatmap/heatmap.go:Heatmap.Draw", "draw/key/key.go:Draw", "draw/observations/obs.go:Measured.Draw", "draw/axis/axis.go:Measured.Draw"]}
{"id": "C77", "title": "What is observed is what the picture shows", "statement": "After any adds, dumps, queries and restarts, the picture a graph request returns for a metric, up to a time after the last dump, has the requested size, and every heatmap pixel has the colour computed from exactly the records over its time (in the leftmost column: and those before it that were read), one for each dumped interval with observations of the metric and holding exactly these observations; white where nothing was observed.", "quantifier": "every sequence of operations, every metric, time, duration, size and padding for which the layout fits and leaves the heatmap two rows or more", "why_tests_cant": "unbounded histories through six components", "anchors": ["api/server.go:Server.serveRender", "data/writer.go:Writer.Add", "dump/dump.go:Dumper.Dump", "database/files/db_read.go:DB.Query", "merge/merger.go:Merger.Push", "draw/graph/graph.go:Measured.Draw"]}
{"id": "C78", "title": "What the configuration says is what the database, distribution and listener get", "statement": "Making a files database, a t-digest or a graphite listener out of its part of the configuration succeeds exactly if every entry it knows is absent or of its type, and then each option is the entry of its name, and zero, empty or false where the entry is absent.", "quantifier": "every configuration value", "why_tests_cant": "unbounded configurations; every wrong type at every key", "anchors": ["database/files/register.go:init", "dist/tdigest/register.go:init", "listener/graphite/register.go:init", "internal/typeassert/asserter.go"]}
{"id": "C79", "title": "An accepted configuration gives a working database", "statement": "A files database made out of an accepted configuration has at least one worker, no negative number of file handles, and accepts writes; the defaults follow the machine; the initial configuration gives one that can store values.", "quantifier": "every configuration, GOMAXPROCS and limit of open files", "why_tests_cant": "machines and configurations are unbounded", "anchors": ["database/files/db.go:New", "database/files/register.go:init", "database/files/file.go:createFile", "config/initial.go"]}
{"id": "C80", "title": "Request parameters are read as decimal numbers, with defaults", "statement": "Each numeric parameter of a request is the 64 bit decimal number the first value of its name spells (with an optional sign), and its default if it is absent or spells anything else, also when it is out of range.", "quantifier": "every request and every byte string as a parameter", "why_tests_cant": "unbounded strings; overflow boundaries", "anchors": ["api/common.go:getInt", "api/common.go:getInt64", "api/server.go:Server.serveRender"]}
{"id": "C81", "title": "A metric search answers with the first matching stored names", "statement": "The answer to a query request is in ascending order without repetition, has only stored names matching every term of the query and at most as many as the results parameter says (10 by default); every matching name that was acknowledged before the request is in it, unless the answer is full of smaller names.", "quantifier": "every query, results parameter, history and schedule of writes, listings and scans", "why_tests_cant": "unbounded names and schedules", "anchors": ["api/server.go:Server.serveQuery", "api/query/search.go:Search.Add", "database/files/db_read.go:DB.Metrics"]}
{"id": "C82", "title": "Periodic dumps are complete and end with Run", "statement": "Every periodic dump hands every record it captured to the database, in order and once, and waits for the answers, also when Run is cancelled meanwhile; Run returns only after cancellation and never during a dump, dumps nothing afterwards, and is never stuck by itself.", "quantifier": "every positive period, schedule of ticks, cancellation and answers", "why_tests_cant": "unbounded schedules", "anchors": ["dump/dump.go:Dumper.Run", "dump/dump.go:Dumper.Dump"]}
{"id": "C83", "title": "The demo fills a day and ends", "statement": "The demo command queues for each of six metrics a hundred records that adjoin each other over the last day, each after the one before it was answered, and returns without an error only when all were answered; it never hangs by itself.", "quantifier": "every schedule of the database's answers, drops and cancellation", "why_tests_cant": "schedules of goroutines", "anchors": ["demo.go:addDemoData", "database/files/db_write.go:DB.Queue"]}
{"id": "C84", "title": "The heatmap's and the key's rows show the values and colours in order", "statement": "In a heatmap of two rows or more, each row shows the value at the row's share of the way through the column's values (up to one place where that is exact), from the first value at the bottom to the last at the top, going up; its colour is the one at the share of the newest record's observations estimated to be below the value, so that greater values never have lesser colours; the key shows all colours the same way, the last on top; a column asked for n samples has the values at the ranks 0, 1/n, ..., 1.", "quantifier": "every list of values, colour table, distribution and height, in IEEE double arithmetic", "why_tests_cant": "rounding errors for every size", "anchors": ["draw/heatmap/heatmap.go:Heatmap.Draw", "draw/key/key.go:Draw", "merge/merger.go:Merger.emit", "dist/tdigest/wrapper.go:Wrapper.CDF"]}
{"id": "C85", "title": "The bars show the observations per second", "statement": "The number shown for a column is the mean over its records of the observations per original record and second, but for rounding; its bar is dark in proportion to the greatest of the graph, black for that one and white for none; the label is over the first column that has the greatest.", "quantifier": "every list of records with counts and times that count the records merged into them (as this version writes them), every list of columns", "why_tests_cant": "rounding errors for every count, time and number of records", "anchors": ["merge/merger.go:Merger.emit", "draw/observations/obs.go:Measured.Draw"]}
{"id": "C86", "title": "Ticks and labels stand where their times, ranks and values are", "statement": "Each natural time inside a graph has a tick on the bottom axis at its share of the way, at most two pixels beside the column that shows that time, and each text under the axis is that of such a tick and starts there (or ends with the axis); the left axis has each 30 rows from the top and at the bottom a tick with the share of observations of that height, the right axis beside it the value of the newest record at that share; none of these is left out.", "quantifier": "every time, duration, size, distribution and text format, in IEEE double arithmetic", "why_tests_cant": "rounding errors for every time and size", "anchors": ["draw/graph/graph.go:tryMeasure", "draw/axis/axis.go:Measured.Draw"]}
{"id": "C87", "title": "The colours of a picture tell the observations", "statement": "After any adds, dumps, queries and restarts, in the picture a graph request returns for a metric each heatmap pixel is white exactly if no stored interval with observations of the metric is over its time; else its colour tells the share of the newest interval's observations estimated to be below the value that the digest merged from exactly the intervals over the pixel (in the leftmost column: and those before it that were read) has at the rank of its row; the key shows the colours in their order; the bar above it is dark in proportion to the mean number of observations per second in these intervals (if they lasted), black for the greatest in the graph.", "quantifier": "every sequence of operations, every metric, time, duration, size and padding for which the layout fits and leaves the heatmap two rows or more, every positive number of samples, any digest library that reads what it wrote", "why_tests_cant": "unbounded histories through eight components, rounding errors", "anchors": ["api/server.go:Server.serveRender", "merge/merger.go:Merger.emit", "merge/merge.go:Merge", "merge/resample.go:resampler.Sample", "draw/heatmap/heatmap.go:Heatmap.Draw", "draw/colors/viridis.go:Viridis"]}
{"id": "C88", "title": "The menu of the query bar is the server's answer to the text in the bar", "statement": "At any time the menu of the web interface's query bar is empty or the server's answer to a request for the very text in the bar; a request is made only for the text in the bar, on entering the bar or 250 milliseconds or more after the text was typed; and once a text was typed and left alone, when the timers have run out and the requests were answered, the menu has the server's answer for it, in whatever order the answers came.", "quantifier": "every sequence of typing, keys, clicks, timers and answers, early, late or failed", "why_tests_cant": "asynchronous answers in every order", "anchors": ["ui/elm/QueryBar.elm:doUpdate", "ui/elm/QueryBar.elm:updateKeyCode"]}
{"id": "C89", "title": "Keys and clicks select what they point at", "statement": "The query bar asks for the graph of nothing but names the server listed, texts that were typed and the page's own text; n+1 presses of the down arrow and k of the up arrow highlight the completion there, never one outside the menu; Enter selects the highlighted completion, puts it into the bar and closes the menu; Enter without a menu draws the text in the bar.", "quantifier": "every sequence of events and every list of completions", "why_tests_cant": "asynchronous events in every order", "anchors": ["ui/elm/QueryBar.elm:updateKeyCode", "ui/elm/QueryBar.elm:doUpdate"]}
{"id": "C90", "title": "The image follows the window", "statement": "Changes of the window, typing and answers leave the image that is seen as it is; as long as the address stays the same, a timer changes it only when the window was left alone for 250 milliseconds, so that a burst of changes asks for one image; when the window's width is known and the timers have run out, the image that is seen is the graph's metric at the window's width less 38 pixels.", "quantifier": "every sequence of events of the page, in every order of its timers and commands", "why_tests_cant": "asynchronous events in every order", "anchors": ["ui/elm/Graph.elm:doUpdate", "ui/elm/Graph.elm:doView", "ui/elm/Main.elm:update"]}
{"id": "C91", "title": "The page shows the metric its address names", "statement": "Whenever no command of the page is under way, the image it shows is of no other metric than the one its address names, and when the window is measured too, it shows that one; commands come to an end in whatever order they are done; a name selected at the top path becomes the address's metric, the bar's text and the graph's metric.", "quantifier": "every sequence of selections, navigations, loads, resizes, timers and answers, every order of commands", "why_tests_cant": "asynchronous events in every order", "anchors": ["ui/elm/Main.elm:init", "ui/elm/Main.elm:update", "ui/elm/Main.elm:parse", "ui/elm/Main.elm:render"]}
{"id": "C92", "title": "Names survive addresses", "statement": "Every text that is put into an address by the web interface comes out unchanged: the address of a selected metric names it when the page is loaded again; the server reads the image's address as a request for that metric at that width with a padding of 5 and the defaults; it reads the request for completions as a query of the typed text for ten results.", "quantifier": "every metric name and text that is UTF-8 (for the server: every byte string), every width", "why_tests_cant": "every character, escape and separator", "anchors": ["ui/elm/Main.elm:parse", "ui/elm/Main.elm:render", "ui/elm/Graph.elm:doView", "ui/elm/Api.elm:queryRequestURLQuery", "api/server.go:Server.serveRender", "api/server.go:Server.serveQuery"]}
{"id": "C93", "title": "The answer to a query is JSON for the names", "statement": "The body of the answer to a query reads as a JSON list of strings in one way only: the names in their order, each as it is if it is UTF-8, else with each byte that begins no character as U+FFFD.", "quantifier": "every list of names, every byte string as a name", "why_tests_cant": "every byte and escape", "anchors": ["api/server.go:Server.serveQuery", "ui/elm/Api.elm:doQuery"]}
{"id": "C94", "title": "The site's pages are filled in, its other files are sent as they are", "statement": "A file of the site whose name ends in .html is sent as what its template writes for the request, whole; any other file is sent as it is; a missing file is answered with the site's page, filled in; a file is closed if its template fails. The preview image in a page is of the metric in its title.", "quantifier": "every archive, path, query and template", "why_tests_cant": "every path and archive", "anchors": ["internal/tmplfs/fs.go:wrapper.Open", "internal/tgzfs/fs.go:FS.Open", "ui/site/index.html"]}
{"id": "C95", "title": "The texts of a graph can be read from its picture", "statement": "In the picture of a graph the rank and value labels beside the side axes, the times under it and the rate above its bars are drawn on white where the layout puts them, each character in its shape and unbroken by ticks, colours or other texts; texts that differ look different: of two printable texts that fit the pixels at a place, one is the beginning of the other.", "quantifier": "every text of printable characters, place, size, padding, time, duration and list of columns for which the layout fits", "why_tests_cant": "every text and layout", "anchors": ["draw/iosevka/font.go:Iosevka", "draw/axis/axis.go:Measured.Draw", "draw/observations/obs.go:Measured.Draw", "draw/graph/graph.go:Measured.Draw"]}
{"id": "C96", "title": "Calls of all metrics share the open files safely", "statement": "However calls on all metrics interleave and whatever the file cache evicts, no call uses a mapping that was closed or that another call uses, none is closed twice, nothing panics, and each call has the result and leaves the files it would alone on its metric. At any time a process has no more mappings than the configured number of handles and two for each call under way, besides those that failed calls lost, at most one each.", "quantifier": "every number of goroutines, metrics, calls and handles, every schedule, every state of the files", "why_tests_cant": "every interleaving of acquiring, evicting and releasing, every path through a call", "anchors": ["database/files/metric.go:metric.Write", "database/files/metric.go:metric.Read", "database/files/metric.go:metric.acquireLast", "database/files/file_cache.go:fileCache.acquireFile", "database/files/file_cache.go:fileCache.releaseFile", "database/files/file_cache.go:fileCache.evictFile", "database/files/file.go:openFile"]}
{"id": "C97", "title": "What is observed is what is stored, whatever the schedule", "statement": "However the goroutines of the program interleave (listeners, the dumper, the workers of the database, requests), a query for everything that returns shows, newest first, one record for each interval between dumps in which the metric was observed and whose value the queue took, up to whole oldest files dropped by rotation; each decodes to the exact count, minimum, maximum and ids of the metric's observations in its interval. While a dump is in progress at most the newest of them may be missing. No worker's write fails, restarts lose nothing that was dumped, and from every state the dump in progress can be finished and every request answered.", "quantifier": "every schedule, number of workers, requests and handles, every sequence of observations, dumps (at increasing times) and restarts", "why_tests_cant": "every interleaving of all goroutines and every history", "anchors": ["dump/dump.go:Dumper.Dump", "data/writer.go:Writer.Capture", "database/files/db_write.go:DB.Queue", "database/files/db_write.go:DB.worker", "database/files/db_read.go:DB.Query", "database/files/db_read.go:DB.QueryLatest", "run.go:run"]}
{"id": "C98", "title": "The picture a running program draws", "statement": "While observations are added, dumps are made, the workers of the database write and other requests are answered, in any interleaving, a request for the graph of a metric gets a picture of the size asked for that shows the intervals stored when its query returns: one for each interval between dumps in which the metric was observed and whose value the queue took (while a dump is in progress, the newest may be missing; whole oldest files may have been dropped by rotation). A pixel of the heatmap is white if none of them is over its time and else has the colour of its row for the observations in those over it; the key shows the colours; the bars are dark in proportion to the mean number of observations per second. It holds if the records end before the time asked for. If nothing is stored the answer is an error.", "quantifier": "every schedule, history of observations, dumps and restarts, metric, time, duration and size", "why_tests_cant": "every interleaving of all goroutines with a request, every history, every pixel", "anchors": ["api/server.go:Server.serveRender", "run.go:run", "dump/dump.go:Dumper.Dump", "database/files/db_read.go:DB.Query", "merge/merger.go:Merger.Push", "draw/graph/graph.go:Draw"]}
{"id": "C99", "title": "A failing system call makes its call fail and nothing else", "statement": "If opening, creating, mapping or removing a file, or making or reading a directory fails during a write or a query, the call reports an error or does what it would have done; what was acknowledged before stays stored and is shown by later queries, newest first and byte for byte; later writes that fit are accepted; a query during which something fails calls back with a beginning of what it would have called back with; only a failed removal of a file lets a metric exceed its file limit, by one file each; a failing write drops at most the oldest file, and only beyond the limit.", "quantifier": "every history of writes, queries and restarts of a metric, every set of failing system calls in each of them", "why_tests_cant": "every combination of failures at every call of a history", "anchors": ["database/files/file.go:createFile", "database/files/file.go:openFile", "database/files/metric.go:newMetric", "database/files/metric.go:metric.acquireLast", "database/files/metric.go:metric.Write", "database/files/metric.go:metric.Read"]}
{"id": "C100", "title": "An interrupt ends the program in order", "statement": "The first SIGINT that comes once the program listens does not end the process: it ends the services' context, after which the services return, a last dump is made and the database stops; when the program then returns without an error and the last dump kept its time, no observation is lost. Nothing else stops the services before one of them returns. A later SIGINT ends the process at once if the first was handled; one that comes after the program began to end by itself does nothing.", "quantifier": "every number and timing of signals, every schedule of the program's goroutines", "why_tests_cant": "signals at every point of every schedule", "anchors": ["internal/junk/signal.go:WithSignal", "run.go:run"]}
{"id": "C101", "title": "The api server stops when told, without an error", "statement": "When its context ends the server stops accepting connections and returns, without an error, whether it had started or not; its address is free then; until then it stays up unless its certificate cannot be loaded or accepting fails; requests under way have up to 60 seconds to be answered.", "quantifier": "every schedule of the server, its shutdown and its connections", "why_tests_cant": "the race between starting and shutting down", "anchors": ["run.go:runServer", "run.go:keepAliveWrapper.Accept"]}
{"id": "C102", "title": "The commands do what their exit status says", "statement": "init exits with 0 exactly if it wrote the whole initial configuration where none was, and never overwrites a file; run exits with 0 exactly if its configuration could be read, loaded and set up and the program ended without an error, and then no observation is lost; a wrong configuration or number of arguments is reported and is no unexpected error.", "quantifier": "every state of the path, every failure of reading and writing, every configuration and every execution of the program", "why_tests_cant": "every failure at every step, other processes", "anchors": ["main.go:Main", "init.go:initCommand", "utils.go:checkArgs", "run.go:runCommand", "demo.go:demoCommand"]}
{"id": "C103", "title": "What is selected in the browser is what was observed", "statement": "Whatever was done on the page: when nothing is under way, its address names a metric and its window has at least 164 pixels, the image it shows is, at any point of any run of the program, answered for that metric: with an error if no interval of it was taken by the queue, and else, if these ended before the request, with a png as wide as the window but for 28 pixels and 360 high, whose heatmap has 300 rows and all but at most 163 pixels of the window's width, and shows in each pixel the observations in the stored intervals over its time.", "quantifier": "every history of the page, every history and schedule of the program, every point of time of the request, every metric name and window of at least 164 pixels", "why_tests_cant": "all histories of two programs at once, all schedules, all pixels", "anchors": ["ui/elm/Graph.elm:doView", "ui/elm/Main.elm:update", "api/server.go:Server.serveRender", "api/common.go:getDuration", "draw/graph/graph.go:Measure"]}
{"id": "C104", "title": "The columns as JSON are what was observed", "statement": "At any point of any run of the program, a request for a graph that accepts application/json is answered with the JSON of the metric, the stored record of the newest interval, the request's time, duration, width, height and padding, and columns that lie apart inside the heatmap: a pixel without a stored interval over it is in none, each other one is in one that has the values at the asked number of ranks of the merged observations over it, and their mean rate; with an error if no interval of the metric was taken, or if the columns have no JSON.", "quantifier": "every form of a request, every history and schedule of the program, every pixel", "why_tests_cant": "all schedules and all pixels", "anchors": ["api/server.go:Server.serveRender", "merge/merger.go:Merger.Finish"]}
{"id": "C105", "title": "What is sent is what is stored", "statement": "Any number of graphite connections send lines, cut into packets in any way and handled in any order while dumps, writes and queries go on. As long as the program runs and its queue takes the metric's values, the finite values of the metric in the well-formed lines (below 64 KiB) are, each as often, those of the intervals stored, those of the interval in progress and those not handled yet, and the lines of a connection keep their order. When all lines are handled and a dump begun after the last is over, the records of the metric divide exactly these values among them, the counts add up to the number of its lines, and a query shows them, up to whole oldest files dropped by rotation. A metric for which nothing was sent has no records, also with restarts.", "quantifier": "every number of connections, every stream of bytes and its packets, every schedule of connections, dumps, workers and queries", "why_tests_cant": "every cut of every stream, every interleaving", "anchors": ["listener/graphite/listener.go:handleConn", "listener/graphite/listener.go:handleLine", "data/writer.go:Writer.Add", "dump/dump.go:Dumper.Dump", "database/files/db_read.go:DB.Query"]}
{"id": "C106", "title": "A killed process loses nothing that was acknowledged", "statement": "A process whose goroutines write and query any metrics is killed at any moment, each call at any place, any number of times in a row. The next process shows, of each metric, everything acknowledged by the first process that was killed and everything that was shown before, newest first and whole, and apart from that only whole values given to writes that were at work or made since; only if writes have a file limit may oldest values be missing, and never all of those acknowledged.", "quantifier": "every number of goroutines and metrics, every schedule, every place at which each of the calls under way is cut, every number of killed processes", "why_tests_cant": "every schedule and every combination of crash points", "anchors": ["database/files/metric.go:metric.Write", "database/files/metric.go:metric.Read", "database/files/file.go:createFile", "database/files/file_helpers.go:writeMetadata", "database/files/lock_pool.go:lockPool.Lock", "database/files/db.go:New"]}
{"id": "C107", "title": "Killing the program loses at most the interval in progress", "statement": "The whole program - connections, aggregation, dumps, workers, queries - is killed at any moment, with every worker at any place of its write. The next start shows, of each metric, the exact records of all intervals whose dump had ended and, of the dump in progress, the record if it had been stored, whole or not at all. What was sent before is in these records, in the one interval being dumped, or in the interval that had not been dumped; nothing is counted twice or invented. Killed again and again, the program only ever shows true records of intervals of one of its lives, and keeps showing what it showed before; only a file limit may drop oldest ones.", "quantifier": "every options, every schedule of connections, dumps, workers and queries, every combination of places at which the writes are cut, every number of kills", "why_tests_cant": "every schedule and every combination of crash points", "anchors": ["run.go:run", "dump/dump.go:Dumper.Dump", "database/files/db_write.go:DB.worker", "database/files/metric.go:metric.Write", "data/writer.go:Writer.Capture", "listener/graphite/listener.go:handleConn"]}
{"id": "C108", "title": "A clock that is set back costs only the intervals that end before what is stored", "statement": "Whatever times the clock gives at observations and dumps, no write of the program fails and the records of each metric in the database are, newest first and exact, those of the intervals that end later than every interval stored before; the write of any other interval is reported as not written and changes nothing. Queries and the latest value show exactly these records during the process (the newest may be missing while its dump is in progress). As soon as the clock is past everything stored, intervals are stored again.", "quantifier": "every sequence of clock readings, every schedule of observations, dumps, workers and queries, every number of restarts", "why_tests_cant": "every schedule and every clock", "anchors": ["run.go:run", "data/writer.go:Writer.Capture", "dump/dump.go:Dumper.Dump", "database/files/db_write.go:DB.worker", "database/files/metric.go:metric.Write"]}
{"id": "C109", "title": "Names lost to overlapping listings come back", "statement": "Overlapping calls of Metrics and PopulateMetrics can lose names from the listing (C35). Whatever happened before: from a moment on at which none of these calls is in progress, if they no longer overlap each other (writes may overlap anything), a later Metrics call lists every metric a write to which was acknowledged since and every name that could be found at that moment. And however calls overlap, a listing is sorted, has each name once, and has only metrics with data.", "quantifier": "every number of workers, writes and calls, every schedule before the moment, every schedule after it in which listing calls do not overlap", "why_tests_cant": "the damage depends on the schedule before; the claim is about all of them and all continuations", "anchors": ["database/files/db_read.go: Metrics, PopulateMetrics", "database/files/db_write.go: write"]}
{"id": "C110", "title": "What is observed and dumped can be found", "statement": "In any schedule of observations, dumps, writes, requests and restarts in which listings (Metrics) and scans (PopulateMetrics) do not overlap each other: a metric that was observed with a finite number and whose value the queue takes at the next dump is kept from then on. A Metrics call that begins while no dump is in progress, in the first process or once a scan was completed in the present one, lists every metric kept so far by this process or an earlier one, sorted and once each, and only metrics that are kept; a query over the listing answers those that match its terms, unless its answer is full of smaller names. What is listed can be opened: exactly of the metrics kept, a query shows records. A name with no empty component matches itself and every piece of itself as a query.", "quantifier": "every number of workers, metrics and calls, every schedule and history of restarts with no overlap among listings and scans, every query and name", "why_tests_cant": "the name reaches the listing on another path than the value reaches its file, in every interleaving", "anchors": ["database/files/db_write.go:worker", "database/files/db_write.go:DB.write", "database/files/db_read.go:DB.Metrics", "database/files/db_read.go:DB.PopulateMetrics", "database/files/db.go:DB.Run", "api/server.go:Server.serveQuery", "api/query/search.go:Search.Add"]}
{"id": "C111", "title": "A duration is read as it is written", "statement": "A duration in a request for a graph or in the configuration - a sign or none, then decimal numbers each with a unit (ns, us, ms, s, m, h) - is read as the sum of what its terms say: exactly if the last digit of every term is worth whole nanoseconds, and within 1.01 nanoseconds per term however many digits there are. A zero needs no unit. Nothing else is read: any other text, and one that says 2^63 nanoseconds or more, is refused, and a request with it is for 24 hours. A duration written by the program is read back as itself, except the least one (-2^63 ns).", "quantifier": "all texts (all bytes, all lengths, all numbers of terms and digits), all durations, all forms", "why_tests_cant": "texts are unbounded, and the rounding of doubles differs with each number of digits", "anchors": ["api/common.go:getDuration", "config/common.go:textDuration.UnmarshalText", "config/common.go:textDuration.MarshalText", "api/server.go:Server.serveRender"]}
{"id": "C112", "title": "An error of the operating system reaches no further than its metric", "statement": "Any number of goroutines write and query any metrics through one file cache, and the operating system may report errors at any time (no file can be opened or created, a directory cannot be made or read, a file cannot be removed). No call panics or gets stuck because of it; no call uses a mapping that is closed or that another call uses, and none is closed twice; the errors lose no mapping, so the bound on mappings holds as without them. The calls on each metric behave as if they were made one after the other on that metric alone, each with its own errors: if none concerns a metric, its calls have the results they have without errors, whatever fails for the others. And as long as no new data file of a metric is left half made, its files hold after all calls exactly the acknowledged values but some of the oldest (all of them without a file limit), newest first and unchanged, and with a limit there are at most limit + 1 files and one more for each call in which removing failed.", "quantifier": "every number of goroutines, metrics, calls and handles, every schedule, every combination of errors at every system call", "why_tests_cant": "every schedule and every place of a failing system call", "anchors": ["database/files/metric.go:metric.Write", "database/files/metric.go:metric.Read", "database/files/metric.go:newMetric", "database/files/file.go:createFile", "database/files/file.go:openFile", "database/files/file_cache.go:fileCache.acquireFile", "database/files/lock_pool.go:lockPool.Lock"]}
{"id": "C113", "title": "Every call returns", "statement": "Any number of goroutines make any finite numbers of writes and queries on any metrics through the lock pool and one file cache, and the operating system may report errors at any time. No call loops for ever or waits for ever: from some time on no goroutine goes on any more; as long as a goroutine has calls to make, some goroutine can go on (no deadlock); and so, unless the scheduler stays idle for ever while a goroutine could go on, all calls of all goroutines return, each goroutine's in the order it made them.", "quantifier": "every number of goroutines, metrics, calls and handles, every infinite run, every combination of errors at every system call", "why_tests_cant": "a deadlock or an endless loop needs one schedule out of infinitely many, and a test cannot wait for ever", "anchors": ["database/files/lock_pool.go:lockPool.Lock", "database/files/metric.go:metric.Write", "database/files/metric.go:metric.Read", "database/files/metric.go:metric.ReadLast", "database/files/file_cache.go:fileCache.acquireFile", "database/files/db_write.go:DB.write", "database/files/db_read.go:DB.Query"]}
{"id": "C114", "title": "A scan finds what stays, whatever changes meanwhile", "statement": "PopulateMetrics scans the database directory with system calls, while writes make directories and data files and remove old ones. Whatever changes, whatever system calls fail and whenever the context is canceled: the scan never panics; a metric with a data file that is there all the time is among the names stored; every name stored had a data file at some time during the scan; the names are sorted and without repetition; a scan that fails or is canceled stores nothing; every descriptor it opened is closed when it returns, and it has at most one open for each level of the tree; and it returns, if the changes end some time and its system calls return. A metric whose data files are replaced during the scan is found if there is always one and its directory is read in one call.", "quantifier": "every tree, every sequence of changes between any two system calls, every way the kernel divides directories into buffers, every failing call, every name", "why_tests_cant": "the scan races with every write; a listing that misses a metric or leaks a descriptor needs one interleaving out of infinitely many", "anchors": ["database/files/db_read.go:DB.PopulateMetrics", "database/files/db_read.go:dbPopulator.populate", "database/files/internal/system/dirent.go:NextDirent", "database/files/internal/system/file.go:Open", "database/files/convert.go:dirToMetric"]}
{"id": "C115", "title": "The labels of a graph say what they label", "statement": "From the picture of a graph one can read: beside the ticks of the left axis the ranks of their rows, rounded to hundredths; beside those of the right axis the values of those ranks, rounded to a nearest number of three decimal digits (never more than half a percent off, a greater value never with a smaller number; what is no number as NaN, +Inf or -Inf); under the graph the month, day, hour and minute of the ticks, in local time by the Gregorian calendar; above the bars the greatest rate, rounded to three digits. A label says one number or time only, and the labels of two ticks of a graph of up to 364 days differ unless the time zone changes between them.", "quantifier": "Every finite double (values), every rank from 0 to 1, every rate, every time and time zone, and every picture that can be drawn.", "why_tests_cant": "There are 2^64 doubles and unboundedly many days; the formats change their shape at powers of ten, rounding carries over, the calendar has exceptions every 4, 100 and 400 years, and tests look at a few labels.", "anchors": ["draw/graph/graph.go tryMeasure", "draw/observations/obs.go Draw", "draw/axis/axis.go Draw"]}
{"id": "C116", "title": "The value of a graphite line is the number it says", "statement": "The second field of a line may be a decimal number: a sign or none, digits with or without a dot, and a power of ten or none. If it has at most 9000 digits or an exponent below 100000, it is read as the nearest double, of two the one with an even last digit, with its sign (also of a zero); a number that is a double is read exactly; one of 2^1024 - 2^970 or more is refused. Nothing else is read but inf, infinity and nan (letters of either case, a sign before the first two), which are never stored. So, with C105: when all lines of all connections are handled, the values of a metric in its intervals are, each as often, the doubles nearest to the numbers its lines say, and after a dump its records divide these among them.", "quantifier": "all texts; all numerals; all connections, packets, orders of handling, dumps, writes and queries", "why_tests_cant": "strconv.ParseFloat is called on any text a client sends: nearness is a claim about all rationals, refusal one about all texts, and the way to the records one about all schedules", "anchors": ["listener/graphite/listener.go:handleLine", "listener/graphite/listener.go:handleConn", "data/writer.go:Add"]}
{"id": "C117", "title": "Every address of the site gives its page", "statement": "The user interface is an archive served by the program. With an archive as tar makes it (an index.html, an entry for each directory), whatever the address of a GET request, its answer is a file of the archive, filled in or not, or a redirect: the path of a file gives its bytes (pages, whose names end in .html, filled in with the query of the request), a directory with a slash at its end gives its index.html or else the site's, filled in, the address of the server gives the site's, and any path that is not there gives the site's as it is. A browser that gets a redirect comes with the next request, with the same query, to the page: slashes at the end are added or removed, index.html is left out. No request lists a directory or gets out of the archive with dots. A build without a user interface shows its warning where the index would be, and nothing else.", "quantifier": "all archives of this kind, all addresses (all bytes), all queries, all templates", "why_tests_cant": "addresses and archives are unbounded, and the answer depends on how the file server, the templates and the archive's default file act together", "anchors": ["internal/tmplfs/fs.go:ServeHTTP", "internal/tmplfs/fs.go:Open", "internal/tgzfs/fs.go:Open", "internal/tgzfs/file.go:Readdir", "run.go:tarballWarning.ServeHTTP"]}
{"id": "C118", "title": "An error while storing costs only the intervals it hits", "statement": "The program runs - observations, dumps, workers, queries, restarts in any schedule - while the operating system may fail any call that makes, opens or removes a file or opens a directory. No worker or request gets stuck or panics because of it. A value that a worker could not store is reported once and not tried again: it is that of the newest interval of its metric. All other intervals are kept: as long as no new data file of a metric is left half made, a query, during the process, at its end or in a later process, shows exactly the records of the metric's intervals whose value was not reported as lost, newest first, with exact contents, but for whole oldest files dropped by rotation; a query that itself meets an error shows a first part of these and the error. A metric for which no call fails loses nothing, whatever fails for others, unless the clock was set back.", "quantifier": "every schedule of observations, dumps, workers, queries and restarts, every number of metrics, workers, clients and handles, every combination of errors at every system call", "why_tests_cant": "every combination of a schedule and errors; each error leaves a state that later calls start from", "anchors": ["run.go:run", "dump/dump.go:Dumper.Dump", "database/files/db_write.go:DB.worker", "database/files/metric.go:metric.Write", "database/files/metric.go:metric.Read", "database/files/file.go:createFile"]}
{"id": "C119", "title": "Every dump ends and every request is answered, whatever fails", "statement": "In a running program in which the operating system may fail any call on the database's files, with any files in the database directory at the start (whole, damaged or missing): a dump that has begun returns, if only finitely many requests come in meanwhile; and if from some time on no dump begins and no request comes in, each value that a worker has taken and each request gets its result, and the program comes to rest: the queue is empty, every worker waits for values, no call is in progress. Observations may come in all the time, and the scheduler may do what it likes as long as it does not leave the program where it is for ever while it can go on.", "quantifier": "every infinite run: every schedule of observations, dumps, workers, requests and restarts, every error at every system call, every state of the files, every number of workers, clients and handles", "why_tests_cant": "an endless wait needs one schedule out of infinitely many, and a test cannot wait for ever", "anchors": ["run.go:run", "dump/dump.go:Dumper.Dump", "database/files/db_write.go:DB.worker", "database/files/db_write.go:DB.Queue", "database/files/lock_pool.go:lockPool.Lock", "database/files/metric.go:metric.Write", "database/files/metric.go:metric.Read"]}
{"id": "C120", "title": "The picture a running program draws when storing fails", "statement": "The program runs - observations, dumps, workers, requests, restarts in any schedule - while the operating system may fail calls on the database's files, as long as no new data file of the metric is left half made. A request for the graph of a metric is answered with the picture of exactly the metric's intervals that were not reported as lost (while a dump is in progress the newest may be missing; whole oldest files may have been dropped by rotation): over an interval that was lost and no other the heatmap is white, and every other pixel, the key and the bars are those of C98. If a call fails for the request itself, the answer is an error, never a picture of a part; without errors for the metric it is never an error. It never panics.", "quantifier": "every schedule, every choice of failing system calls, every history of observations and dumps, every request with times and sizes in range", "why_tests_cant": "tests cannot fail every system call at every point of every schedule and compare every pixel", "anchors": ["api/server.go:(*Server).serveRender", "database/files/db_read.go:(*DB).Query", "database/files/db_write.go:(*DB).worker", "dump/dump.go:(*Dumper).Dump"]}
{"id": "C121", "title": "A graph up to any time is drawn or fails, and never crashes the request", "statement": "The program runs - observations, dumps, workers, requests, restarts in any schedule - with any times from its clock, which may be set back, and while the operating system may fail calls on the database's files, as long as no new data file of the metric is left half made. A request for the graph of a metric up to any time, also one before stored intervals, is answered with the picture of intervals of the metric that were not lost and that ended before that time, as C120 describes it; or with an error, if there are none or the request met one. If the size asked for leaves room for the heatmap, as that of the page in a window of at least 164 pixels does, the answer is a picture of that size or an error, and never a panic.", "quantifier": "every schedule, every failure of a system call, every clock, every time and size of the graph with room for the heatmap, every interval", "why_tests_cant": "a test draws graphs up to now with a clock that only goes on", "anchors": ["run.go: func run", "dump/dump.go: DumpFrom", "api/server.go:Server.serveRender", "merge/merger.go: timeToPixel", "merge/merger.go: Push", "draw/graph/graph.go: Measure, Draw", "database/files/db.go: Query", "database/files/metric.go: Read", "ui/elm/Graph.elm: view"]}
{"id": "C122", "title": "Signing in over HTTP", "statement": "With a username configured, a request whose header Authorization is what clients send for the configured name and password (RFC 7617: the word Basic, a space, base64 of name, colon and password) is handled as if no credentials were needed. Every other request - without the header, with another scheme, with broken base64, or for other bytes - is answered 401 with a challenge and uses nothing behind the server, unless it found a collision of the hash. A header is read exactly if it spells a name without a colon, a colon and a password, for every name and password of any bytes; so nobody can sign in if the configured name has a colon.", "quantifier": "every configured name and password, every header, every request", "why_tests_cant": "the header is any text; a test tries some", "anchors": ["api/server.go: serveHTTP, validAuth, New"]}
{"id": "C123", "title": "An address written by hand is read as it says", "statement": "Whatever follows the question mark of a request for a graph or a search has one reading: parameters separated by & (or ;), each a key, = and a value in which any byte may be written as % and two hexadecimal digits and a space as +; a parameter with a malformed escape is as if it were not there; of a repeated one the first counts. The graph is then of the metric it names, and its width, height, padding, time, samples, duration and compression are the numbers, the duration and the nearest double it says, or 1000, 350, 0, the present, 30, 24 hours and 5 where it says nothing or no such number. A search is for the text it says, with as many results as it says or ten. Without a metric the answer is 400 and nothing is queried.", "quantifier": "every text after the question mark, every way to escape and to order the parameters, every metric", "why_tests_cant": "addresses are any texts, with as many spellings as there are choices of escapes", "anchors": ["api/server.go: serveRender, serveQuery", "api/common.go: getInt64, getInt, getDuration, getFloat64"]}
{"id": "C124", "title": "Any graph of usable size is answered", "statement": "In any schedule of the running program, with any failing system calls that leave no new data file of the metric half made, a request for a graph by any address - any metric, time, duration, compression, at least 126 by 52 pixels, 1 to 2^24 samples, padding not negative, a nanosecond or more for each pixel - is answered with a PNG of exactly the size asked for, of intervals of that metric that were not reported as lost and ended before the time asked for, or, if there is nothing to show or the query met an error, with status 500. It never panics.", "quantifier": "every address, every schedule of observations, dumps, writes and requests, every choice of failing calls, every clock", "why_tests_cant": "the layout depends on the texts of the axes, on the times and on what is stored", "anchors": ["api/server.go: serveRender", "draw/graph/graph.go: Measure, tryMeasure", "merge/merger.go: Push, Finish"]}
{"id": "C125", "title": "The columns of any graph as JSON", "statement": "In any schedule of the running program, with any failing system calls that leave no new data file of the metric half made, a request for a graph of usable size, up to any time, that accepts application/json is answered with the JSON of the newest record and of columns that for each pixel have the values and the rate of the observations over it, of intervals of that metric that were not reported as lost and ended before the time asked for; or with status 500 if there is nothing to show, the query met an error or these have no JSON. It never panics.", "quantifier": "every address, every schedule of observations, dumps, writes and requests, every choice of failing calls, every clock", "why_tests_cant": "which records a query sees depends on the schedule and on failing calls; what each pixel shows on all the times", "anchors": ["api/server.go: serveRender", "merge/merger.go: Push, Finish", "database/files/metric.go: Read"]}
{"id": "C126", "title": "What one reads from the picture a running program draws", "statement": "In any schedule of the running program, with any failing system calls that leave no new data file of the metric half made, from any picture of at least 214 by 52 pixels that a request for a graph is answered with, one reads: on the left the ranks of the rows, to half a hundredth; on the right, for the same rows, the values of the newest interval shown at these ranks, to half a percent of the half-precision value; under the graph the local times of its ticks, to the minute; and above the bars the greatest number of observations per second over any pixel, counted from the observations that were made, to half a percent and the rounding of the sum. All of it is of intervals of that metric that were not reported as lost and ended before the time asked for.", "quantifier": "every address of usable size, every schedule of observations, dumps, writes and requests, every choice of failing calls, every time zone, every picture answered with", "why_tests_cant": "it joins the store, the query, the merging of records, the layout, the text formats and the glyphs; a test compares one picture", "anchors": ["api/server.go:Server.serveRender", "draw/graph/graph.go:Measured.Draw", "draw/axis/axis.go:Measured.Draw", "draw/observations/obs.go:Measured.Draw", "dump/dump.go:Dumper.Dump"]}
{"id": "C127", "title": "The graph after a kill", "statement": "The program is killed at any moment, with every worker at any place of its write except between the two halves of a file's metadata and while a data file is made. A request for the graph of a metric that the next process gets, before it has stored anything new and up to a time after the dumps, is answered with the picture, as C98 describes it, of all intervals of the metric whose dump had ended and, of the dump in progress, the interval if its record had been stored; nothing half written is drawn. Only if there is a file limit may oldest intervals be missing, and never all. Whatever callback a query is given, it gets the same values until it stops. After any number of such lives, with dumps in the order of time, the picture is that of some of their intervals, in their order.", "quantifier": "every schedule of observations, dumps, writes and requests, every moment and place of the kill outside the excluded ones, every size, time and duration of the graph, every callback", "why_tests_cant": "a test kills at a few places; the torn record, the order of the stores and the drawing must agree for all of them", "anchors": ["run.go:run", "database/files/metric.go: Read", "api/server.go:Server.serveRender", "merge/merger.go:Merger.Push"]}
{"id": "C128", "title": "The columns and the texts after a kill", "statement": "The program is killed as in C127. A request for the graph of a metric that the next process gets, up to a time after the dumps, is answered, as JSON, with the newest record and with columns that for each pixel have the values and the rate of the intervals over it, of the intervals that C127 says are shown; and from its picture, at least 214 pixels wide, one reads the ranks, values, times and the greatest rate of these intervals, to the precision of the texts.", "quantifier": "every schedule of observations, dumps, writes and requests, every moment and place of the kill outside the excluded ones, every size, time and duration of the graph", "why_tests_cant": "a test kills at a few places; that a rate or a value of half a record never gets into a text or a column must hold at all of them", "anchors": ["run.go:run", "database/files/metric.go: Read", "api/server.go:Server.serveRender", "draw/graph/graph.go: Draw"]}
{"id": "C129", "title": "A table's rows arrive until the first error, which stays", "statement": "Rows written to a table and flushes of it reach the writer below in order, each row as one line with its cells separated by tabs, until the writer first gives an error; from then on nothing more reaches it, and Error gives that first error ever after. If there is none, Error gives none and, for cells without tabs and newlines, the text is read back as the rows, cell by cell.", "quantifier": "every sequence of rows and flushes, every writer, every place and kind of its errors", "why_tests_cant": "the first failure may be at any call, and cells are any texts", "anchors": ["internal/junk/tabwriter.go:Tabbed"]}
{"id": "C130", "title": "Log lines and observations go to the resources in force", "statement": "At any time a plugin may replace the logger and the monitor, or remove them. Calling the package's functions never panics, also when there is no logger or no monitor; and every line logged and every value observed reaches exactly the logger or monitor that is in force at the call, once and in order, and none if there is none.", "quantifier": "every sequence of calls and replacements, with resources missing or not", "why_tests_cant": "the resource in force depends on the whole history", "anchors": ["external/common.go:Infow, Errorw, Observe", "external/resources.go:Resources"]}
{"id": "C131", "title": "What a dump reports is what happened", "statement": "When a dump has returned, it has logged one line, with the metric and whether it was written and had an error, for exactly the records that were not written or had an error, and none for any other; and then observed, once each, its duration and the numbers of records written, not written, and with an error, and logged a line with the same numbers. The first two numbers add up to the records handed to the database, which are all that were captured unless the dump was cancelled. Nothing but such lines of records is logged before that.", "quantifier": "every set of captured records, every answer of the database and every order and time of its answers, every moment of cancelling", "why_tests_cant": "the answers come from other goroutines in any order; a test sees one", "anchors": ["dump/dump.go:Dumper.Dump", "external/common.go:Observe"]}
{"id": "C132", "title": "Every line sent to a graphite listener is added or logged", "statement": "However a connection's bytes arrive, for every line, in order, exactly one thing happens: its value is added to its metric, if it is a metric, a value and a third field with single spaces between them; or it is logged as invalid with its text, a trailing carriage return taken off. Nothing else is logged for a connection that ends, unless a line has 65536 bytes or more: at the first such line one error of the connection is logged, after what the lines before it are owed, and nothing of it or after it is added or logged.", "quantifier": "every stream of bytes, every way to cut it into packets, every line", "why_tests_cant": "lines end anywhere in packets, and the long line can be anywhere", "anchors": ["listener/graphite/listener.go:handleConn, handleLine, handleListener"]}
