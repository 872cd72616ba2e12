# Formal model of C5T/Current — design

The model is written in Lean 4 (project `/verif/lean`). Each area has a *model* file (`…/Model.lean`,
definitions only, each citing file:lines in `/repo`), a *lemmas* file and a *property* file (`…/Props.lean`),
which holds the theorems claimed in `MANIFEST.json` and, beside each, an `example` that meets its hypotheses.

## Conventions

* `uint64_t` indexes and sizes are `Nat`; the sentinel `static_cast<uint64_t>(-1)` is a separate constructor/`none`.
  Microsecond timestamps are `Int`. No counter in the modelled code is ever near 2^63 in a run, so wrap-around is out of scope
  unless stated.
* A C++ exception is an explicit error value, a failing `CURRENT_ASSERT` (always on, it terminates: `port.h:282-291`)
  or undefined behaviour is its own outcome; they are never folded into a default.
* A mutex-protected section is one atomic step. Code that takes a lock twice is two steps, and other threads may run
  between them. Threads are modelled as a transition relation and every theorem about them is an induction over *all*
  schedules.
* Where the code violates the English property, the negation is proved with a concrete witness execution
  (`…_violated`/`not_…`), and what does hold is proved under the suffix `_partial` or under an explicit hypothesis.

## Trusted base

* Lean 4.33.0's kernel, and the axioms `propext`, `Classical.choice` and `Quot.sound` (checked with `#print axioms` on every
  claimed theorem; most concrete witnesses use `decide +kernel` or `rfl`, which add none). No axioms of our own, no compiled
  evaluation.
* The reading of the C++ sources: each definition of a model file cites the lines it models; the code was not run.
* The statements: the specifications used in them are in the same files under the heading "Specification".
* Standard library behaviour is taken from the C++ standard (containers, `std::mutex`, `std::condition_variable` with spurious
  wake-ups, streams); `char` is signed and `int` has 32 bits where it matters (URLs); memory is sequentially consistent for
  the mutex-protected sections, which is what the standard gives for data-race free programs. Where the code *has* a data race
  or a use after free, that is stated as a finding, not modelled away.

## What is modelled, property by property

| id | modelled code | how |
|----|----------|-------|
| C01–C05 | `blocks/persistence/memory.h`: publish, head, iteration, lower/upper bound search (`Persist/Model`) | induction over call histories; exact specifications of the halving search |
| C06 | the two critical sections of the time-range `Iterate` as two steps with publications in between | witness (violated) + what holds of every schedule |
| C07–C09, C12 | `blocks/persistence/file.h` on a byte list: append, offsets, in-place head rewrite, replay on open, signature (`Persist/FileModel`) | simulation between bytes and an abstract log, for every lawful JSON codec; a concrete lawful codec is exhibited (`Codec`) |
| C10 | every prefix of an appended line (`Persist/Crash`) | theorem for every cut; witness for the acknowledged entry lost after reopening |
| C11 | `open` on arbitrary bytes | inversion of the replay |
| C13–C16, C45–C47 | `blocks/mmq/mmq.h` ring buffer; threads as program counters, mutex, condition variables (`MMQ/*`) | inductive invariant over all interleavings; ranking function for termination; witnesses |
| C17–C18 | `blocks/mmq/mmpq.h` (`MMPQ/*`) | same |
| C19–C23, C48 | `stream/stream.h` subscriber thread, `blocks/ss/pubsub.h`, `signature.h`, typed dispatch (`Stream/*`) | transition system with publisher steps at any point; invariants; ranking for catch-up; witnesses |
| C24, C49–C51 | `bricks/sync/owned_borrowed.h`, `stream/stream.h` master/following publisher hand-over (`Own/*`) | invariants over histories of borrows, moves, destruction |
| C25–C27 | `stream/pubsub.h`, HTTP subscription parameters and response (`Http/*`) | exactness theorems; induction over entries |
| C28–C29 | `bricks/net/http` chunk handling of `stream/replicator.h`, follower, server response (`Replicate/*`) | induction over chunk lists; network that cuts anywhere; end-to-end theorem over the file/HTTP models |
| C30 | `MasterFlipController` (`Replicate/Flip`, `Replicate/Chain`) | decision logic exactly; histories of attempts; induction on the length of the chain of followers |
| C31–C34 | `storage/container/*.h` with all index maps (`Storage/Maps…Containers`) | representation invariants + refinement to an abstract relation |
| C35–C38 | `storage/transaction*.h`, journals, persister, replay, following storages (`Storage/Fields, Txn, TxnProps`) | inverse operation per mutation; induction over bodies and over histories with restarts and hand-overs |
| C39 | `bricks/util/base64.h` (`Util/Base64*`) | the bit-level RFC 3548 text as the specification |
| C40–C42 | `blocks/url/url.h` (`Url/*`) | round-trip theorems; exact description of what happens to other bytes |
| C43 | `bricks/strings/split.h`, `join.h` (`Strings/Split`) | exact specification by fields |
| C44 | `utils/operational_transformation/ot.h` (`Util/OT`) | relational specification of an edit script |
| C52 | `bricks/time/chrono.h` real and mock clock (`Time/Now`) | every atomic step of every thread; invariant on histories |
| C53–C54 | `bricks/sync/waitable_atomic.h` (`Sync/*`) | transition system with mutex and both condition variables; fair infinite executions for termination |
| C55–C57 | `bricks/net/http/impl/server.h` (parser, response writer, chunked sender), `blocks/http/impl/posix_client.h` (request writer) (`Net/{Model,Stream,Wire,RoundTrip,Props}`) | buffer machine fed by an adversarial segmentation, simulation to a parser of the whole stream; round trips by computation on texts |
| C58 | `bricks/net/http/headers/headers.h` (`Net/{Headers,Cookies}`) | map, list and heap of header objects; invariant "list = map, all live" |
| C59 | `posix_server.h` routes, `accumulative_scoped_deleter.h` (`Routes/{Model,Table,Scopes}`) | association lists seen as a partial function of (path, count); invariant over all sequences of calls |
| C60 | `FindHandler`, `URLPathArgs` (`Routes/Find`, `Routes/Static`) | specification by decompositions of the path, loop invariant |
| C61 | `ServeStaticFilesFrom`, `StaticFileServer` (`Routes/Static`, `Routes/Props`) | loop over the files with the accumulated scope; release theorem of C59 |
| C62 | (Text: see C65, C66; `Json/RealCodec.lean` shows that this JSON meets the assumptions `Codec.Lawful` and `Wire.Lawful` of the log and replication theorems.) `Json/Model.lean`: a universe of type codes (`Ty`) with their values (`Ty.den`), `ser`/`des` following each `SerializeImpl`/`DeserializeImpl`; documents are `J`. Round trip by mutual structural induction over types. | `parse_of_json`, `json_injective` |
| C63 | `des_indep`: the result of `des` does not depend on the destination, by mutual induction. | `parse_overwrites` |
| C64 | `des` in patch mode; `Untouched`, `mix` state what a patch does to each field. | `patch_leaves_unmentioned`, `patch_sets_mentioned`, `patch_with_whole`, `patch_empty` |
| C65 | `Json/Text.lean`: RapidJSON's recursive descent reader function by function (with fuel for the call stack, shown to suffice). `Json/Grammar.lean`: RFC 8259 as inductive predicates, the specification. Floating point conversion is a parameter. | completeness by mutual induction on derivations, soundness by induction on fuel: `parseText_iff`, `parse_error_iff`, `isText_unique` |
| C66 | `Json/Text.lean`: RapidJSON's `Writer` with its stack of levels, `WriteString`, `dtoa`, `Prettify`. `Grisu2` is a parameter with assumptions `GrisuOk` (which C154 proves of the real one). | the writer equals a recursive printer (`resultingJSON_eq`), whose output is in the grammar (`json_is_text`) and has no control characters (`json_is_one_line`); `prettify_spec` over the rationals; `nan_unreadable` |
| C67 | `bricks/strings/distance.h` with the memo tables and the `size_t` arithmetic (`Strings/Distance*`) | specification by sequences of single edits and by matchings; the recurrence is the least cost of a matching (Lipschitz lemma), every table entry is unset or right |
| C68–C69 | `bricks/strings/util.h` conversions, `fixed_size_serializer.h` (`Strings/Convert`); `istream >>` after libstdc++; floating point is not modelled | digit strings; equal lengths are ordered like their values |
| C70 | `util.h` text functions, `escape.h` (`Strings/Text`) | RFC 3629 encoder as the specification; uniqueness of the trimmed text |
| C71 | `group_by_lines.h` (`Strings/Lines`), callback with arbitrary exceptions | invariant over all sequences of calls; the decomposition into lines is unique |
| C72 | `chunk.h` (`Strings/Chunks`) over a byte memory; the hash function is not modelled | order by first difference; invariant of the table |
| C73 | `fncas/fncas/node.h`: the node table, the recording operators, `eval_node` with its manual stack and cache (`Fncas/Node`, `Fncas/Eval`), generic in the numbers | a recorded node denotes an expression tree; invariant of the cache; potential of the stack |
| C74 | `fncas/fncas/differentiate.h` (`Fncas/Diff`, `Fncas/DiffProps`, `Fncas/Derivative`, `Fncas/Approx`) over Mathlib's reals | every rule preserves "denotes the derivative"; invariant of the table of derivatives; `HasDerivAt` of Mathlib as the specification |
| C75 | the number of iterations of the two loops (`Fncas/Cost`) | exact count for every recorded function, then the family y = y * y |
| C76 | `fncas/fncas/optimize.h`, `mathutil.h` (`Fncas/Optimize`) over an ordered field with NaN; objective and gradient are parameters | loop invariants; a concrete run in the rationals for the negative result |
| C77 | `BuildResponseWithCollection` with 64-bit unsigned arithmetic, the text of the links, the query parameters, previews of rows (`Rest/Pages`) | loop invariant of the scan; induction over the walk |
| C78 | `api.h` `generic_data_handler`, `api_types.h`, the four handlers of `plain.h`, `structured.h`/`hypermedia.h` as transactions of the storage model of C31–C38 (`Rest/Model`); JSON, keys, dates, `InitializeOwnKey` are parameters | the behaviour of each method from the specifications of the containers' operations and of two-step transactions (`Rest/Props`, `Rest/Get`), then facts about every request (`Rest/General`) and round trips (`Rest/Cond`) |
| C79 | the same, with histories of calls and of requests (`Rest/Cond`) | invariant of a history: an entry is as it was, or its modification time is later |
| C80 | the same: `exportText`, `inShard` (`Rest/Get`) | a listing of the field is split by the hash |
| C81 | `chrono.h:159-312`, `ParseHTTPDate`, with `gmtime_r`, `timegm`, `strftime`, `strptime` after glibc in the "C" locale and `system_clock` in nanoseconds as in libstdc++ (`Time/HttpDate`); UTC only | the calendar as an inductive relation day by day from 1970-01-01, `gmtime` and `timegm` proved against it (`Time/Calendar`); texts (`Time/DateText`); conditional requests (`Rest/Dates`) |
| C82 | all of `compact_tsv.h` with the callback taking `std::vector<std::string>` (`Tsv/Model`), little-endian | the loop of `Unpack` over the bytes each call appended (`Does`), offsets as an invariant (`Tsv/Props`, `Tsv/Round`, `Tsv/Total`) |
| C83 | `infer.h` from parsed documents to the generated declarations (`Infer/Model`), and what the compiler needs of them (`evalDecls`); floating point sums left out | the schema describes all the values of its place (`Infer/Spec.Describes`), by induction over schemas through `Reduce` and over documents (`Infer/ReduceProps`, `Infer/Infer`); parsing with the deserializer of C45 (`Infer/Parse`); names are distinct because paths are (`Infer/Compile`). Partial: false of the code in the cases witnessed in `Infer/Props` |
| C84 | same | soundness from `Describes`, completeness by induction on schemas (`Infer/Complete`, `Infer/File`) |
| C85 | `DescribeSchema` as a list of lines (`Infer/Table`), means and deviations left out | from `Describes` at every path. Partial: the number of unset values depends on the order of the lines (`unset_depends_on_order`), only whether it is zero is right |
| C86 | `ParseFlags` and the conversions, flags of floating point types left out (`Flags/Model`); `exit` is an outcome | command lines as lists of items, `parse_iff`, uniqueness of the reading (`Flags/Props`). Partial: false for `int8_t` and `uint8_t` (`byte_flag_wrong`) |
| C87 | `ReadFile` on the contents of the file (`Files/Csv`), `FromString` a parameter | `getline` and `Split` on the text of a table. Partial: false with empty cells (`empty_cell_shifts`) |
| C88 | the constructor, `Reload`, `Update` and `WriteStringToFile` with all the ways it can fail (`Files/Config`); JSON a parameter | induction over updates; names of the history by the calendar of C81. Partial: false of the code in the cases of the witnesses |
| C89 | a flow of any number of stages as a transition system: user classes as state machines with lists of calls, a queue with its head, mutex, counters and thread per stage, the thread that builds and destroys the flow (`Rip/Model`) | specification without threads (`Rip/Spec`: `input`); an invariant relating what a stage has sent, what is in the queue and what the next stage has handled (`Rip/Inv`); induction along the flow (`Rip/Props`) |
| C90 | the same model | no deadlock (`never_stuck`, from the last busy stage), a measure that grows by one at every step and is bounded (`every_run_ends`). Partial: false with `schedule` (`equal_schedules_hang_join`, `far_schedule_hangs_join`) |
| C91 | any number of threads inside `emit` on one queue (`Rip/Emitters`) | a permutation invariant. Partial: false (`concurrent_emit_is_lost`, `concurrent_emits_swap`); proved: delivered or reported |
| C92 | `A + B` as a combinator of user classes, expressions as trees (`Rip/Par`) | induction over messages and over expressions |
| C93 | types as a graph, cycles being recursive types; the traverser with its cache per top-level type, both orders of argument evaluation (`Schema/Model`) | structural ids as an inductive relation (`HasId`, `Schema/TypeIds`); the cache always agrees with it; termination from the number of uncached types. The ids the repository's own test expects come out of the model (`Schema/IdExamples`) |
| C94 | `CalculateTypeID` with its arithmetic modulo 2^64 | arithmetic. Partial: false (`fields_64_apart`, `enum_underlying_type_does_not_count`, `array_id_of_another_kind`, `recursive_id_depends_on_the_compiler`) |
| C95 | the reflector's map and the schema traverser | the traverser simulates a depth-first search (`Schema/Dfs`); its result is compared with a specification by reachability (`SchemaOf` in `Schema/SchemaProps`). Partial: false for `std::array` and template arguments (`Schema/SchemaExamples`) |
| C96 | the table and the loop of `CRC32` | the bitwise definition as the specification (`Schema/Crc`, `Schema/CrcProps`) |
| C97 | the emitted bytes (`Jit/Gen`: all opcodes, `jit_compile_node`, prologue and epilogue), run by a model of the processor written from the Intel manual: decoder, instructions, calls of the System V convention (`Jit/X64`). Doubles are 64-bit words, `addsd` etc. and the library functions are parameters | decoding lemmas for each opcode with any displacement that fits (`Jit/Instr`); an invariant between nodes (`Jit/Body`); induction over the expression with the set of nodes already in the heap (`Jit/Props`, `Jit/Main`). Hypotheses: the vectors are aligned, do not overlap, and have fewer than 2^28 - 16 elements |
| C98 | `g_compiled_x64_native_jit` in the same model | the same, and induction over the components |
| C99 | `Go` with the URL model of C41 and the request model of C56; a server is any function of the requests made so far (`Net/Redirect`) | `Chain` and `Truthful` as the specification; induction over the iterations; termination by counting distinct URLs. Partial: false for servers with endlessly many URLs, relative locations without a slash and `location` in lower case (witnesses) |
| C100 | Karl's HTTP thread, state update thread and constructor/destructor as a transition system whose steps are the critical sections (`Karl/Model`) | invariants (`Karl/Inv`), then `Karl/Props`. Partial: a service that leaves can still be marked as timed out (`deregistered_overwritten`), and one whose keepalive was just accepted as disconnected (`accepted_then_disconnected`) |
| C101 | the same system with a clock; ghost `lag` counts the time the thread could run and did not | bound `2*timeout+1+lag` by invariant (`Karl/Bound`), shown to be tight; the destructor by a measure. Partial: false after a restart (`restart_never_drops`) |
| C102 | `ServeSnapshot` and the cache of indexes (`Karl/Snapshot`) | the exact answer for every history. Partial: false, see `snapshot_of_another_service` |
| C103 | `BuildStatusAndRespondWithIt` over the persister model of C05 (`Karl/Report`) | the report is characterised by `LastWith`, `DependsOn`, `Split`; induction over the log. Partial: the name of the service can be an old one (`report_old_service`) |
| C104 | Claire's thread, `Register`, any number of `ForceSendKeepalive` calls and the destructor as a transition system with a clock (`Karl/Claire`) | invariants (`Karl/ClaireInv`). Partial: `Register` can end the program (`register_after_force_exits`), a waiting call during destruction is stuck (`wait_in_destruction_stuck`) |
| C105 | the connection, its `responded_` flag, the sender of chunks, the destructors and the server's loop; a handler is any list of operations (`Net/Once`) | invariant of the wire over the operations; `OneResponse` as the specification. Partial: a silent client or a foreign exception stops the server, a failing socket gets a second response (witnesses) |
| C106 | `BlockingRead`, with its `do ... while (false)` and `errno`, and `BlockingWrite`, with its `int`, over a kernel that answers as it likes (`Net/Tcp`) | invariant over all runs: wire = parts of the buffers, delivered = prefix of the wire. Partial: FillFullBuffer and `EAGAIN` do not read on (witnesses) |
| C107 | `ReserveLocalPortImpl` with any shuffles and any answers of bind (`Net/Ports`) | induction over the loop with the index modulo 4001; the object's invariant over calls. Partial: after the first call the search can miss a free port (witness) |
| C108 | the objects, their sockets, the log of opens and closes (`Net/Handles`) | invariant over all sequences of operations. Partial: assignment and half-failed constructors leak (witnesses) |
| C109 | the resolution of `Evolve<...>` as a typed tree `Ev a b` over the types of `Verif/Json`, its `Go` with the destination that is modified, the generated natural evolvers (`Evolve/Model`) | structural induction over evolvers: `go = evolved`, a specification without destination; over types: natural evolution is the identity. Partial: maps are not cleared, dropped cases keep the old value (witnesses) |
| C110 | `Optional` of non-POD types with its two pointers over a heap, every constructor and assignment, the user's objects for bare pointers (`Value/Optional`); POD kind, operators, `ImmutableOptional`'s implicit move (`Value/OptionalOrder`) | ownership invariant by induction over programs; refinement to variables that hold plain values; operators equal to the order of Mathlib's `WithBot T`. Partial: a move of an `Optional` with a bare pointer loses the value (witness) |
| C111 | `VariantImpl` with its owning pointer over a heap: every constructor, assignment, `Call`, `Exists<X>`, `Value<X>`, the RTTI dispatcher, conversions by copy and by move, `BypassVariantTypeCheck` (`Value/Variant`); the build with compile-time checks | ownership invariant and refinement to variables that hold plain values, by induction over programs. Partial: a `const` variant argument is converted where a listed variant should be nested (witness, by C++ overload resolution), bypassing the check (witness) |
| C112 | registration, parsing and the two handlers of CQS, two-step read-only transactions (`Rest/Cqs`), atop the storage model; the user's types and handlers are parameters | histories of events simulated by histories of storage calls, then C35/C37/C38; the reply by cases |
| C113 | `GenerateRowOrColHandler`, `MatrixContainerProxy` and the iterators over single and multiple dimensions, the GET of half a key in both flavours (`Rest/Rows`) | from the invariant of the indexes of a matrix (C33), generically for rows and columns |
| C114 | the constructor of `RESTfulStorage`, the routes of every field, `RegisterAlias`, `SwitchHTTPEndpointsTo503s`, the destructor, the top level routes (`Rest/Life`), over the routing table of C59 | the routes registered equal a specification of documented routes; an invariant over histories ties every route to one scope, one owner (`Rest/LifeInv`, `LifeStep`, `LifeProps`); false after an alias that throws, witnessed |
| C115 | `RemoteSubscriberThread`: the thread, `OnHeader`, `OnChunk`, `TerminateSubscription` called by the destructor and by the owner of the remote stream, with the mutex and the condition variable of `subscription_id_`, as a transition system (`Replicate/Remote`) | an invariant over all interleavings, against a specification of what may be seen from outside; a decreasing measure and a no-deadlock theorem for the end (`Replicate/RemoteInv`, `RemoteProps`); false for `Wait` and for two concurrent destructors, witnessed |
| C116 | the methods of `MasterFlipController` and its flip request handler as a transition system over the publisher of the stream, `mutex_`, `remote_follower_`, `borrowed_publisher_` (`Replicate/Ctl`) | an inductive invariant over all disciplined interleavings (`Replicate/CtlProps`), a separate specification of the history of roles, no-deadlock and step bound (`Replicate/CtlThms`); false without the discipline, witnessed |
| C117 | what `ProgressLine` and `MultilineProgress` write, and a terminal that interprets it, escape sequences included (`Xterm/Progress`) | the written text is run through the terminal; an invariant over all sequences of statuses and over all interleavings of updates (`Xterm/ProgressProps`, `ProgressThms`); false when a line is created while another is updated, witnessed |
| C118 | `RoundDoubleToString`, with exact rational and real arithmetic in place of doubles, the logarithm included (`Strings/Rounding`) | the printed text is read back by a separate reader; induction over the printing loop (`Strings/RoundingProps`, `RoundingThms`); the format is false just below a power of ten, witnessed |
| C119 | programs that generate HTML as blocks with RAII objects, their execution with exceptions, the scopes (`Html/Html`) | induction over programs, against a recogniser of balanced HTML that reads characters (`Html/HtmlProps`); false for attribute values with quotes, witnessed |
| C120 | the trie and stack of each thread, `Guarded`, reports and resets; the clock readings of each call are parameters (`Profiler/Profiler`) | invariant relating the trie to the history of the thread (`Profiler/ProfilerInv`, `ProfilerThms`), then the report against the integral over time of "the thread is inside" (`ProfilerReport`); two clauses are false, witnessed |
| C121 | nginx configurations, their construction and printing (`Nginx/Config`) | a reader of nginx configuration files written after the rules of nginx, as specification; induction over configurations and programs (`Nginx/ConfigProps`, `ConfigBuild`) |
| C122 | `UpdateConfig` with everything around it (file system, reload, polls) as an arbitrary environment (`Nginx/Update`) | every word nginx reads occurs in the text, so a fresh secret answer identifies the text; induction over the polls |
| C123 | schema blocks with their implementation types, the `static` implementation objects with the functions they captured, evaluation by callbacks over an arbitrary state with typed exceptions (`NLP/Model`) | a relation "matches" and the ordered list of results as specification; induction over expressions: evaluation is the loop of the callback over the list, as exceptions of a block cannot meet a handler of a smaller one (`NLP/Props`, `NLP/Eval`, `NLP/Thms`) |
| C124 | `AnnotateQuery` and the registered annotators (`NLP/Model`) | folding over the annotators of a key, on top of the fields theorem for `Split` (`NLP/Thms`) |
| C125 | the two dictionaries of the storage, the traversal with all its errors, and the handlers of GET and PUT; random keys are arbitrary parameters (`Flow/Model`). Not modelled: JSON of requests and responses, `/up`, `/healthz` | a file system as a function from paths is the specification; refinement through "node k is reached by path p", with the invariant that the storage is a tree with distinct names (`Flow/Props`, `Flow/Thms`, `Flow/Refine`) |
| C126 | the stream as a durable list with timestamps, the dictionary in memory, the follower, the two publications of a POST with a crash before, between and after them, replay on restart (`EventStore/Model`). Not modelled: JSON, torn writes (C10) | invariant relating dictionary, log and follower; statements on all histories (`EventStore/Props`, `EventStore/Thms`). "Announced exactly once" is false of the code if the process dies between the two publications |
| C127 | the two threads with their critical sections as steps, the clock as strictly increasing input (`Collector/Model`) | invariant by induction over the interleaving (`Collector/Thms`). "Timestamps increase" is false of the code: the clock is read before the mutex is taken |
| C128 | the type-level computation of who waits for whom, the counters, the threads with their local variables and chunks, the buffer as bytes, workers as arbitrary functions (`Pipeline/Model`). Reading a counter without the mutex yields any value not above the current one. Not modelled: `Join`, `ForceStop`, wake-ups of `WaitableAtomic` (C-properties of its own), overflow of the counters | layout of stages (`Pipeline/Layout`), counter invariant (`Pipeline/Count`), data invariant: each blob in the window is as the workers which have passed it left it (`Pipeline/Data`), statements (`Pipeline/Theorems`) |
| C129 | the templates as recursive functions over lists of type names, with a compilation error as `none`, accumulators and overload sets as in the code (`TypeLists/Model`) | induction over the lists; the union invariant is that the accumulator is the list of first occurrences of what was consumed (`TypeLists/Theorems`) |
| C130 | the stream as a list, the subscriber thread as reading the last index and applying an entry in two steps, requests with the check of the flag and the read of the map in two steps (`EmbeddedDb/Model`). Not modelled: JSON, `/schema.*`, `/data` (C-properties of the stream) | invariant over all interleavings (`EmbeddedDb/Theorems`). "Whole log" is false of the code: all but the last entry; and it may never get ready |
| C131 | the subset with its colours and the pointers as positions, `std::partition` as any function which partitions, callbacks as functions on the state and a world (`Gbt/Subset`). Not modelled: callbacks which throw (the state is not restored then), `n = 0` | the vector in three segments, frame lemma, induction over programs of nested partitions |
| C132 | `BuildTreeRecursively` with the features vector, its swaps and the nodes vector, over `Partition` of C131; integers without bounds and rationals in place of doubles, weights one (`Gbt/Tree`). The dump is not modelled | induction over the number of features left; inductive specification `IsTree`. "Minimises the spread" is false of the code: the denominator is wrong |
| C133 | the transposition loop, the division in two sets given the shuffled orders, the two ways of summing up scores, the curve with rationals (`Gbt/Curve`). Plots and files are not modelled | induction over the loops; two parts are false of the code |
| C134 | `IsPrime` with the overflow of `int` as no result, the three services as steps over their streams, the construction of the subscriber as steps of two threads (`KarlTest/Primes`). HTTP and JSON are those of other properties | loop invariant and primes of Mathlib; invariant over all schedules. Two parts are false of the code |
| C135 | `DoWork` of the three workers as functions from a state and a chunk to a state and the part of the chunk gone over, driven by an arbitrary list of chunk sizes (`Pipeline/Workers`). Files are lists of blobs; buffering of `fwrite` and failing calls are not modelled | each worker is shown to be the iteration of a function of one blob, for every sequence of chunks; then induction over the blobs |
| C136 | `fgets` and `ReadLine` on the output as a list of characters, the status of a child as `wait` has it, the files of one temporary directory with the removers and exceptions of `JITCPPCompiler`, the compiler and the loader as arbitrary functions (`Util/Syscalls`). Errors of writing files are not modelled | induction over the output; the files after each exit computed for all of them. Three parts are false of the code |
| C137 | `Serve` and `HandleUpload` of both services as functions of the handlers and a request, the compiler as an arbitrary function at each request, the hash as an arbitrary function; the construction of the members as steps (`CodeService/Serve`) | induction over histories. Two parts are false of the code |
| C138 | the whole program on lines of text, with `ParseJSON` of numbers as arbitrary functions and reading past an end as an outcome (`Tsv/ToJson`). Printing of JSON is that of other properties | induction over rows and columns. Three parts are false of the code |
| C139 | `AsDOT` character by character, the map of nodes ordered by keys which live in the nodes, an unordered map as undefined behaviour; the specification is a lexer and a parser of DOT (`Dot/Graphviz`). Running `dot` is not modelled | every piece of text is lexed and parsed to its statements whatever follows; invariant of the numbering. Three parts are false of the code |
| C140 | the script character by character, the setters of `GNUPlot` and `WithMeta`; the specification reads settings, counts inline sources outside quotes, and cuts the data at lines which begin with `e` (`Dot/Gnuplot`). Formatting of numbers and running `gnuplot` are not modelled | induction over parameters, plots and points. Titles with backslashes are false of the code |
| C141 | the rewriting pass and the look-up by name; the specification is a regular expression as a list of tokens, with the numbering of groups by their openings (`Strings/NamedRegex`). `std::regex` itself is not modelled: the texts of the groups of a match are arbitrary | induction over tokens. Four kinds of expressions are not understood by the code |
| C142 | types as heads applied to types, the three formats of names, and the registration of cases by name (`Schema/TypeName`). Namespaces are not in names: an environment says what each name is | unique reading of names followed by an end, by mutual induction over types and lists; the other parts are false of the code and characterised |
| C143 | objects `FutureImpl` with their `f_` and `used_`, tasks which deliver once, and a log of the calls with what came out; `std::future` by its contract (`Util/Future`) | invariant which relates the objects to the log; all statements are over the log alone |
| C144 | the tracker with its loop, `State` with `std::nth_element` as any function which meets its contract, the two threads with the deques, the connection as a queue without loss (`Util/Latency`) | invariant: the deques are what is left of all that was noted after the pairs measured; windows by filtering all measurements |
| C145 | the table of a service piece by piece, the construction of the graph with `services` and the addresses of nodes; the text and the reader are those of C139 (`Karl/FleetGraph`) | composition with the theorem of C139: the graph meets its conditions, brackets are counted through the pieces, and its description is the picture |
| C146 | the processor function by function on top of `OT` of C44 (`Util/PadHistory`); dates and intervals are kept as numbers | induction over the snapshots with the state of the processor; the marked snapshots are the only solution of `Due` (`due_unique`) |
| C147 | `ExtractTimestampFunctor` and `UpdateTimestampFunctor` on objects of structs, variants and the two leaves, with the uninitialized variable as an outcome (`Value/Timestamp`) | induction over the object; the spec is the relation `Stamped` and "the same but for the timestamp" |
| C148 | `ThreadImpl` round by round with the signal at any round; the texts of the entries with their `uint32_t` (`Replicate/FakeStream`) | invariant over the rounds, a measure for termination; composition with the reassembly of C28 |
| C149 | `Push` with its requests, the parser and the service as parameters, and the handlers of exceptions with the hierarchy (`Util/Integrations`) | case analysis; the answer of the service is described by `verdict`, the request by `Asked` |
| C150 | the text of the URL (`Util/Integrations`); parsing is that of C41 and C42 | the URL is split into a base without marks and composed parameters; a lemma on URLs without a scheme |
| C151 | the exceptions of all the `DoDeserialize`, clause by clause with the path collected (`Json/Blame`), next to the model of C62–C64 | mutual structural induction over types, three times: that the two models agree on when parsing fails; that the path leads to the value (`Leads`, an independent description of paths); that the words are not true of the value (`Says`). The text of paths: unique decoding |
| C152 | all of `3rdparty/stephan-brumme/sha256.h`: the eight unrolled lines, the schedule extended between rounds, `add` with its buffer, the padding with its two buffers, the hexadecimal text (`Util/Sha256`), on a little-endian machine; size_t as a natural number, the 64-bit counter as it is | equality with an independent statement of FIPS 180-4 (`Fips`): the message schedule by recursion, the compression function, padding by the formula. Every constant is proved to be the first 32 bits of the fractional part of the cube (square) root of its prime. The state after any operations is an invariant: whole blocks in the hash, the rest in the buffer |
| C153 | all of `internal/itoa.h`, the constructors of numbers with their flags, `Accept` (`Json/Itoa`), on a little-endian machine; an index past the end of the table would be `none` | decomposition into digits by division; the branches on magnitude are exhaustive. Bits by extensionality. Together with `parseNumber_complete` (C65): the round trip |
| C154 | all of `Grisu2` (`Json/Grisu`): `DiyFp` with its 64-bit products, the boundaries, the table of 87 powers, the index computed in floating point (any rounding function with relative error 2^-53 that is exact on integers), `DigitGen`, `GrisuRound`; then `Prettify` and `dtoa` of C66 | an invariant of the two loops of `DigitGen` (what is left of the number, scaled); each entry of the table is a power of ten to the nearest, by evaluation in the kernel over the 87 entries; the index and the shift over the 2098 exponents likewise; then inequalities in the rationals put the digits strictly between the half-way points of an independent definition of IEEE 754 (`ieee`). Loops on `fuel` are shown to end before it does |
| C155 | the double path of `ParseNumber` (`Json/Strtod`): the integral digits in 32 and 64 bits and then in a `double`, the fraction, the exponent with its limits, `StrtodNormalPrecision`, `FastPath` and `Pow10`; every floating point operation is the exact one followed by a rounding to the nearest `double`, ties either way, infinity from 2^1024 − 2^970 on | the digits and a power of ten up to 10^22 are exact, so one rounding is left, and C154 says the printed number is nearest to the `double` it came from; the bound of the table by following the exponent; the counterexample by evaluation with the half-way points as bounds. The exponent is an unbounded integer: texts shorter than 200 MB |
| C156 | the model of C155 | an interval of factors (1 + 2^-53)^k around the exact value of the digits read so far, kept through the digits in 64 bits, in a `double`, and the digits left out after the seventeenth; the exact value is at least 2^53·10^j after j digits in a `double`, which bounds their number; then the scaling, in one or two steps, where a result above 2^-1022 shows that nothing before it was subnormal; without that (`StrtodSmall.lean`), every number on the way is within a factor of something which is within 2^-1074 of the result: the second scaling divides what the first one lost by at least 9 |
| C157 | `bricks/strings/time.h`, with the arithmetic of C155 | the bits of the literal 1e-6 from the nearest `double`, its error, and the distance from a whole number to the `double` below it; a reader of the text that adds up numbers times units |
| C158 | `bricks/util/waitable_terminate_signal.h` | transition system of the waiting thread, with `wait_for` unfolded as the standard prescribes, and an arbitrary environment; invariants; a rank of the thread's own steps, and fair infinite executions; the set of the bulk notifier by induction on the history |
| C159 | `bricks/strings/printf.h` | both buffers as lists of bytes with arbitrary previous contents, `vsnprintf` as C specifies it; induction on the calls |
| C160 | `bricks/util/random.h`, `singleton.h` | generator and distribution as parameters; the singletons of every thread as a state; runs of interleaved calls project to one thread, then induction on its calls |
| C161 | `bricks/util/comparators.h` | 64-bit vectors; the combination is cancelled step by step; truncated division for durations |
| C162 | `bricks/util/singleton.h` | the table of every thread, addresses given out once; induction on the nesting of constructors, then on the calls |
| C163 | `bricks/util/lazy_instantiation.h` | arguments as values or references to variables, programs of assignments and requests; induction on the program |

### Not modelled

In the theorems on logs, storages and replication JSON is a lawful codec (a parameter); `Json/RealCodec.lean` shows that the JSON
modelled in `Verif/Json` (C62–C66) is one. Binary and other serialization formats; floating point arithmetic (a parameter with
stated laws where it occurs); sockets below `recv`/`send`, TLS; wall-clock time (a clock is an input); `std::thread`
scheduling fairness (liveness theorems are stated as "no step possible means …" plus a bound on the number of steps);
memory exhaustion; the build of templates (instantiation choices such as blocking/dropping are parameters of the model).
Each model file lists its own simplifications at its definitions.

## Findings

Places where the code does not do what the property (or its own comment) says; each has a theorem.

* Persistence: time-range iteration racing with a publisher yields entries later than `till`; a crash in the middle of an
  append makes the next entry glue to the fragment and be lost on reopening; raw lines are not checked beyond the index.
* MMQ: in blocking mode timestamps can decrease; the destructor loses accepted messages; `Publish` can return the index of
  another message.
* MMPQ: messages with equal timestamps are silently lost; a late publication breaks the order; `Publish` returns the head's
  timestamp; the destructor loses due messages despite its comment.
* Stream: busy loop while `from_us` is above the head; head updates before the first entry are not noticed; busy loop after
  `Terminate()` was answered with `Wait`; `from_us` does not filter entries.
* Ownership: `notify_one` after unlocking is a use after free; move-assignment over a live `Borrowed` leaks a registration and
  hangs the owner forever; callbacks may run after their borrower is gone; late borrowers are never told.
* Publisher hand-over: `BecomeMaster`/`BecomeFollowing` deadlock with a thread inside `Publish`; the reference returned by
  `Publisher()` can dangle.
* HTTP: `recent` overrides `since`; `tail=0` overrides `i`; a head update defeats `i` with `since`; the array is left unclosed
  when a head update ends the response; termination before the first entry emits no brackets.
* Replication: a lost reply leaves no master; an empty follower escapes `max_index_diff`; the counter of malformed chunks is
  uninitialised (read as any value).
* Storage: a two-step transaction may report a rollback after persisting and may call its second step twice; a patch that
  changes keys breaks replay; a failed `BecomeMasterStorage` leaves the follower unsubscribed; `PublisherUsed()` lets anyone
  publish ahead, after which the next commit ends the process.
* Strings: literal separators also split at `\0`; leading separators of key-value pairs are ignored.
* Base64: a release build reads out of bounds on bytes above 127 and decodes garbage silently.
* URLs: bytes from 128 on are encoded as `%FFFFFFxx`; a path containing `://` is parsed as scheme and host; an empty host is
  composed as a path that may be parsed as another host; ports are taken modulo 65536 and `atoi` may overflow.
* OT: edits past the end are undefined behaviour; members are applied in textual order, not by timestamp.
* Time: the mock clock after `SetNow(us)` with the default maximum repeats its value, so it is not strictly increasing.
* WaitableAtomic: the last client of an intrusive object may call `notify_one()` on it after its destructor returned;
  `WaitFor` of an intrusive object ignores its destruction; an accessor marked unmodified after a change loses wake-ups.
- C55: the chunk size of a chunked HTTP body is parsed with `std::stoi(…, 16)` and cast to `size_t`. `-2B` at the right offset makes `recv` write up to 2^64 bytes past the read buffer (`negative_chunk_size_overruns`): a remote heap overflow. Other negative sizes end in `std::length_error`, sizes over 2^31 in `std::out_of_range`, neither of them caught by the parser. A zero byte in the header area stops line detection for good (`zero_byte_never_ends`). Read off the code, not modelled: `Connection::BlockingRead` says it keeps reading on EAGAIN and on short reads, but its loop is `do { … continue; } while (false)`, which never repeats.
- C57: header values are not checked for line ends (`header_injection`).
- C58: `Headers::Remove` under another spelling and `Headers::operator=(const Headers&)` over a container with a common header free a header that the list still points to (`remove_other_spelling_dangles`, `assignment_dangles`); `Response::Headers(h)` and copy assignment of a `Response` are affected. Assignment also keeps the old headers. Cookies with `=` in their value, or with an empty value, are lost or cut (`cookies_lost`).
- C59: `UnRegister` that throws has already removed the routes below the first missing one (`unregister_throws`); a route unregistered by hand makes the destructor of its scope throw, i.e. terminates the program (`unregister_then_release_terminates`). Read off the code, not modelled: a handler that ends the scope of its own route, or updates it, waits for itself while holding the server's mutex.
- C61: two index files in one directory throw (`two_index_files_throw`), while the options promise "first found will be served"; the MIME type is checked before hidden directories are skipped, so that any file of unknown type under `.git` throws (`hidden_unknown_type_throws`). Read off the code: `handlers_` is read without the mutex there; recursive `ScanDirUntil` does not stop when the callback returns false inside a subdirectory.
- JSON (C62–C64). `CheckIntegrity` calls `CheckIntegrityImpl`, which no type implements: the integrity check after parsing never fires. `IS_EMPTY_CURRENT_STRUCT` counts own fields only, so in the F# format a Variant case with inherited fields only loses them (`fsharp_inherited_fields_lost`). `map.h` and `unordered_map.h` ask `JSONPatchMode` of the wrong template parameter, so a patch that leaves out a map throws (`patch_fails_on_absent_map`); a set left out is emptied (`patch_clears_absent_set`); a Variant left out throws in the Current format (`patch_fails_on_absent_variant`). Patching a `std::map<std::string, V>` leaks fields from one entry to the next (`patch_map_leaks`); patching an Optional struct starts from a default-constructed one (`patch_optional_restarts`). There are no `JSONPatcher<NewtonsoftFSharp>` specializations, so F# patches expect pairs and Optionals in the generic shape. `ParseJSON<T, J>(const std::string&, T&)` drops `J` and always uses the Current format. The size of a `std::array` is not checked (`parse_short_array`, `parse_long_array`). Numbers too large for a narrow field are truncated (`parse_truncates`). An uninitialized Variant is written as null and cannot be read back (`uninitialized_variant_unreadable`).
- JSON text (C65, C66). A NaN or an infinity anywhere makes `JSON()` return a text cut short, without an error, since the result of `Accept` is ignored: `{"x":` (`nan_unreadable`). Bytes are not checked to be UTF-8, neither when written nor when read. `-0` is read as the integer 0. Text after a zero byte is ignored. Nesting is limited by the C++ stack only (no depth check), so a long text of `[` crashes the program. Numbers are read without `kParseFullPrecisionFlag`, so a `double` may come back one ulp off; this is why `DblOk` is a hypothesis per number.
- Strings (C67–C72). `FastEditDistance` with a `max_offset` of 2^63 or more returns `size_t(-1)` or throws (`fast_huge_offset`, `fast_max_offset_throws`). `FromString<int8_t>("")` and `FromString<uint8_t>("")` return an uninitialized variable (`fromStringByte_uninitialized`), and numbers that do not fit are truncated there instead of giving zero. `FromString` of an enum stored in a byte takes the first digit for the value: of the 256 values only 53 survives `FromString(ToString(e))` (`byteEnum_not_read`). `FromString<unsigned>("-1")` is the largest number. `FromString<char>(" ")` is zero. `EscapeForCPlusPlus` does not escape backslashes (`escapeForCPlusPlus_not_injective`). `Feed(const std::string&)` loses what is after a zero byte (`feed_loses_after_zero`). `UniqueChunk::operator==` compares the pointers to the bytes, so two chunks of different lengths that start at the same place compare as equal (`unique_chunks_confused`), contrary to the comment. `ExpungePrefix` ends the program for a chunk that is not followed by a zero (`expungePrefix_aborts`).
- fncas (C73–C76). A default-constructed term is the variable `x[0]`, not zero (`default_term_is_x0`). Constants are shared by `operator==`, under which `0.0` and `-0.0` are equal, and recording the second one overwrites the first: an already recorded `1/0.0` turns into `1/-0.0` (`signed_zero_rewrites_an_earlier_expression`). `differentiate_node` does not look at its table of derivatives for inner nodes, so that it visits the expression as a tree: `y = y * y` repeated k times takes 3·2^k − 2 iterations and at least 2^k − 1 new nodes (`differentiation_is_exponential`), while the evaluation is linear. The backtracking and the conjugate gradient optimizers may return a point worse than the starting one: when the line search runs out of attempts, its last point is taken unconditionally; for 10^12 x² from 1 with the default parameters both end up more than 10^4 times worse (`backtracking_optimizers_may_end_up_worse`). The parameter `step_factor` of `GradientDescentOptimizer` is read but never used. The rule of `tan` for a constant denominator (1/b instead of 1/b²) is wrong but unreachable.
- REST (C77–C80). The last page of a walk is moved to the left to be full, so that it repeats records (`last_page_overlaps`); a page of size 0 links to itself as the next one (`empty_page_loops`); `?n=` larger than memory throws, which is a 500 (`huge_page_fails`). A conditional PUT is not refused if the entry was deleted in the meantime: it is created again, with 201 (`put_after_delete`). A PUT or POST to a one-to-one or one-to-many container erases the entries in the way, without looking at `If-Unmodified-Since` and without a word in the response (`put_erases_others`). A response that cannot be sent does not undo the transaction (`unsent_response`). Read off the code: keys are put into URLs of records without URL encoding; `publishing_mutex` is held while the response is sent, so that a slow client stops all writes.
- HTTP dates (C81; the examples at the end of `Time/DateText.lean`). `If-Unmodified-Since` cannot see modifications within the second of the date (`no_lost_update_date` says exactly which updates may be lost). The weekday is not compared with the date and 31 February is 3 March. Of the three formats RFC 7231 obliges servers to accept, `asctime` is refused. Times go through 64-bit nanoseconds, so a date after April 2262, such as the customary `Fri, 31 Dec 9999 23:59:59 GMT`, overflows. With `SecondsToMicrosecondsPadding::Lower` the first second of 1970 is taken for an error. Before 1970 formatting rounds up to the next second.
- CompactTSV (C82). `Unpack` uses offsets and lengths in its input unchecked, and reads lengths before checking that they are inside: malformed input is read out of bounds (`unpack_reads_outside`).
- Schema inference (C83-C85; witnesses in `Infer/Props.lean`). An empty array is taken for a missing field, so that `{"a":1}` and `{"a":[]}` give a struct which does not parse the second; an array of nothing but nulls gives `std::vector<>`, although there is an exception meant for it; struct names are paths joined with `_`, so that `{"a":{"b":{}},"a_b":{}}` defines one struct twice; duplicate keys give duplicate fields; C++ keywords other than `true` and `false` are accepted as field names; ignoring `[0].x` ignores a field of the first element only. A field which first appears in line `n` is counted as unset once, not `n - 1` times. The bounds for microseconds are midnights of the Pacific time zone. `DescribeSchema` prints the number of nulls of an all-null field in the column of set values, and prints one example even if none were asked for. For an empty file the schema is an empty `Variant`, on which `Call` throws.
- Command line flags (C86). A flag of type `int8_t` or `uint8_t` is read as a character: `--x=5` sets it to 53. What follows a number is ignored (`--timeout=12ms` is 12), a negative number for an unsigned flag wraps around. A boolean flag without `=` takes the next argument if that is `0`, `1`, `yes`, `no`, `true` or `false`, also if it was meant as an argument of its own.
- CSV (C87). `Split` skips empty fields: `1,,2` under the header `a,b` is read as `1,2`, and `1,` is refused. What is not a number is zero.
- Self-modifying config (C88). The files are written in place and not by renaming, as the comment at the top says. A process killed during the second write leaves a config which cannot be read, and every start fails until someone copies the historical file. `WriteStringToFile` leaves the last buffer to the destructor of the stream, which reports no errors, so that with a full disk `Update` (and any other user of `WriteStringToFile` for less than a buffer) loses everything silently. If the second write throws, `Config()` is the new config although the file is not. Two updates within a second overwrite the history.
- RipCurrent and `schedule` (C90). Two messages scheduled for the same microsecond: the queue is a set ordered by timestamp, so the second one disappears without an error, and since it has been counted `Join()` waits for it for ever. The same happens with a message scheduled for a time to which the head is never moved.
- RipCurrent and threads (C91). `emit` takes the time, moves the head and publishes in three separate steps. Of two threads that emit at the same time, the one that took the time first may find the head already past it: its message is lost and the error handler called, which by default terminates the program. `((A | B) + (C | D)) | E` is enough, with no threads in user code. If both get past the head, the messages may be delivered against their timestamps.
- C30 (chains): a flip request to a node that itself follows another one is refused by that node's restrictions only after the node has taken over the mastership: the refused client stays a follower, the old master has yielded, and the node in the middle is now the master (`refused_chain_changes_roles`). The flip key of the node asked is not checked in that case, only the key of the end of the chain (`key_of_the_node_asked_is_not_checked`).
- Type ids (C94). Swapping two fields that are 64 places apart does not change a struct's id; the underlying type of an enum takes no part in its id; the id of an array of 2^46 elements has the prefix of a vector (the size is added after the remainder has been taken). The id of a type that contains a pair or a map of mutually recursive types depends on the order in which the compiler evaluates the two arguments of `ReflectedType_Pair(...)`, so GCC and Clang may give the same declarations different ids.
- The schema (C95). A `std::array<T, N>` is given the id of `std::vector<T>` (`reflection.h:388-394`): the field that has the array's own id then refers to no type in the schema, and if the vector is used as well the array takes its place, or the other way round. The argument of a `CURRENT_STRUCT_T` is not traversed (`schema.h:1498-1510`): if nothing else uses it the schema mentions its id but does not contain it, and the printed schema says `UNKNOWN_TYPE_...`.
- The native JIT (C97). `X64_JIT_ASSERT` is `assert` only if `NDEBUG` is defined and nothing otherwise (`x64_native_jit.h:45-50`), so it never checks anything: from 2^28 - 16 nodes on the displacement becomes negative and the code accesses memory 2 GB before the heap (`displacement_wraps`). `call_function_from_rdx_pointers_array_by_index` is documented for indexes below 31 but right only up to 14 (`call_index_limit`); there are 12 functions. Read but not modelled: `mmap` reports failure by `MAP_FAILED`, not by a null pointer, so `if (!buffer_)` never fires (the following `mprotect` then fails and exits); the heap is a `mutable` member, so that two threads must not call the same compiled function at once although `operator()` is `const`; the move constructor of `compiled_expression` (the other backends) does not move `gradient_indexes_`.
- Redirects (C99). There is no limit on their number (`endless_redirects`). `Location` is compared with its case, so that `location:` is not followed and the redirect itself is returned (`lower_case_location_is_ignored`). `Location: other.html` connects to the host `other.html` (`relative_location_is_a_host`). After a 303 a POST is repeated with its body; the caller's headers and cookies are sent to whatever host the redirect names; the fragment is sent to the server; `Host` lacks the port (`redirect_sends_everything_elsewhere`).
- Karl (C100, C101). The state update thread picks the services that have timed out and marks them in two critical sections. A `DELETE` in between is overwritten by "disconnected by timeout", with `OnTimedOut` after `OnDeregistered` (`deregistered_overwritten`); a keepalive in between is accepted and the service marked as disconnected all the same (`accepted_then_disconnected`). The thread sleeps until the *most recent* keepalive expires, so that a service is dropped up to twice the timeout after its last keepalive (`bound_is_tight`). The constructor fills the cache without the mutex and without waking the thread, which may be waiting without a limit already: services that died while Karl was down then stay active for ever, whatever the others send (`restart_never_drops`, `restart_keepalive_no_wake`).
- The snapshot of a service (C102). `latest_keepalive_index_plus_one_` is assigned the index, not the index plus one: after a keepalive the snapshot shows the entry *before* it, which is an older one or that of another service (`snapshot_of_another_service`, `snapshot_is_stale`). Not modelled: the age shown is negative (`e.idx_ts.us - Now()`).
- The fleet report (C103). A codename that has reported under several service names in the window is listed under the greatest of them, with the contents of the last keepalive (`report_old_service`). With `active_only` the services that are missing in the storage are listed too (`demo_report`). `to=0` is no upper bound at all. Not modelled: "ahead by -0.5s" (the sign is printed twice).
- Claire (C104). `ForceSendKeepalive`, `SetKarlLocator` and the HTTP requests behind them start the keepalive thread; a later `Register` finds it running and calls `exit(-1)` (`register_after_force_exits`): anybody who can send a POST to a service that has not registered yet can end it. `ForceSendKeepalive(Wait)` during destruction never returns, and with it the destructor (`wait_in_destruction_stuck`). Not modelled: a status generator that throws ends the program; `Register` with confirmation holds the mutex while Karl calls back, so that a request to Claire's HTTP thread that needs the mutex at that moment blocks Claire and Karl.
- The HTTP server (C105). One thread serves all clients of a port: a client that connects and sends nothing blocks all others, and the destructor, for ever (`silent_client_blocks`). An exception that is not a `current::Exception` leaves the thread and ends the process (`foreign_exception_ends`). When the socket fails in the middle of a response, `responded_` is still false and the destructor writes a second response after the part (`part_then_500`). The sender of chunks has a reference to the connection and must not outlive the request (`sender_outlives_request`).
- TCP (C106). The loop of `BlockingRead` is `do { ... continue; ... } while (false)`: `continue` ends it. So `FillFullBuffer` does not read on when `recv` returns early, but throws and loses what it has (`full_does_not_read_on`), and `EAGAIN` is not retried (`again_is_not_retried`). The end of the stream is told from a reset by a stale `errno` (`eof_reported_as_reset`). A write of 2 GiB that succeeds throws `SocketWriteException` (`two_gib_write`).
- Ports (C107). When the search wraps around it shuffles the order it is in the middle of: a free port may never be tried, and the process exits with "Failed to pick an available local port" (`gives_up_too_early`).
- Socket objects (C108). Move assignment does not close the socket of the target (`assign_leaks`); a failing `setsockopt` or, in `Accept`, `getsockname` leaks the descriptor (`failed_constructor_leaks`); with descriptor zero the destructor throws and the process terminates (`descriptor_zero`).
- Type evolution (C109). The evolver of `std::map` uses `into[key]` and does not clear `into`: entries of the destination stay (`map_merges`), also those a default constructor puts there, so that natural evolution of a vector of such structs is not the identity (`default_map_merges`); keys that evolve to the same key are evolved onto each other (`keys_collide`). `CURRENT_DROP_CASE` keeps what the destination held (`drop_keeps_old`).
- `Optional` (C110). The move constructor and move assignment take only the owned pointer: an `Optional` made from a bare pointer loses its value when moved, while a copy keeps it (`optional_move_of_bare_loses`). `x = std::move(x)` empties `x` (`optional_self_move_empties`, in both kinds). `ImmutableOptional` has an implicit move constructor that copies the bare pointer: what was moved from still exists, and dangles once the new one is destroyed (`immutable_moved_from_still_exists`).
- `Variant` (C111). The constructor from `const VariantImpl<RHS...>&` is not disabled for a variant type that is itself in the list, unlike the one from `VariantImpl<RHS...>&&`: a `const` lvalue of a nested variant type is converted, i.e. throws or loses the nesting, where a non-`const` one is nested (`const_nested_variant_throws`; the overload resolution is ours, read off the standard, and is part of the model). After `BypassVariantTypeCheck` a variant may hold an unlisted type: visiting and copying throw, moving within the variant type works (`variant_unchecked`).
- CQS (C112). The handlers hold the publishing mutex of the stream and the mutex of the registrations while the user's code runs: registering a query or a command from within one deadlocks (not in the model, where a request is one step). On a follower, commands are refused with a 503 whatever the method and the name; on a master the method of a command is tested before its name, for queries the name comes first.
- C114: `RegisterRoute` records a route before it registers it. A `RegisterAlias` that throws because its path is taken leaves the path recorded, and `SwitchHTTPEndpointsTo503s` then replaces the route of the other owner by 503s (`failed_alias_takes_a_foreign_route_down`), or throws half way and leaves routes up (`failed_alias_breaks_the_switch`). Routes of the alias registered before the exception stay. An alias registered after the switch is served (`alias_after_switch_is_live`).
- C114 (not in the model): the members of `RESTfulStorage::Data` are destroyed in reverse order of declaration, so that the CQS maps and their mutex, which the CQS handlers use by reference, are gone before the routes are; a CQS request at that moment uses destroyed objects.
- C115: `OnChunk` ignores everything once the end is requested, and `ThreadImpl` then reconnects for ever if the subscriber answered `TerminationResponse::Wait`: such a subscriber is never given another entry and its destructor never returns (`wait_never_ends`, for every state and every behaviour of the server). A local subscription does what `Wait` says.
- C115: `~UniqueInstance` copies the callbacks and calls them without a lock: if the remote stream and the scope of a subscription are destroyed at the same time, the callback can be called for a scope that is gone (`callback_of_a_destroyed_scope`). One after the other is safe (`owner_first_is_safe`).
- C115: a `current::Exception` thrown by the subscriber is swallowed, and the same entry is offered again after a reconnect, for ever; any other exception terminates the program (`demo_history`, `foreign_exception_crashes`). `consecutive_malformed_chunks_count_` is never initialised.
- C116: `FollowRemoteStream` checks `remote_follower_` before it locks, and `FlipToMaster` does not lock at all. Two concurrent `FollowRemoteStream` calls leave the second waiting, with the mutex, for a publisher its own follower holds (`two_follows_hang`, `two_follows_hang_for_ever`); `FlipToMaster` during a flip requested by another node uses a null `remote_follower_` (`flip_during_request_crashes`); `FlipToMaster` during `FollowRemoteStream` waits for ever while nobody is a master (`flip_during_follow_hangs`).
- C116: if the diff of a flip requested through a chain cannot be sent, the node that followed becomes a master: the "original state" is not restored (the second example; the remote master has yielded by then).
- Read, not modelled: in `FollowRemoteStream` the order in which `BecomeFollowingStream()` and `Data()->Size()` are evaluated, arguments of one call, is unspecified: entries published in between would be requested again. `~MasterFlipController` destroys `mutex_` and `remote_follower_` before the routes (`exposed_via_http_` is declared before them), so a request in progress can use them.
- C117: `MultilineProgress::operator()` counts the line before it takes the mutex and writes the line break, and `DoUpdate` calls `up_()` before it takes the mutex: if a line is created while another thread updates one, as `blocks/xterm/multiline.cc` does, a status goes to the wrong row and overwrites what is there (`race_writes_elsewhere`, and its second form). `total_` is a plain `int`: this is a data race too.
- C118: the `1e-10` added to the logarithm makes `dim` one too large for values closer to the next power of ten than about 2.3e-10 of it, and `RoundDoubleToString` then prints a superfluous zero in front and one digit less: `09.99999999991` (`leading_zero`; only with more than nine digits).
- C119: attribute values are written unescaped between single quotes: a quote in a value (a URL, user input in `value(…)` of an `input`) ends the attribute (`attributes_not_escaped`).
- C119: if the generation of a page throws, its `HTMLGeneratorHTTPResponseScope` answers `200 OK` with what was generated so far, and the caller cannot answer with an error any more (the example `demo`).
- C120: the record of a thread is created after the time of its first call has been read (`f(post_mutex_lock, state_.per_thread[...])`), so while a thread is in its first scope every report gives the scope more time than the thread, and the assertion `subscope_total <= output.us` fails (`root_children_exceed`).
- C120: `RecursiveReset` sets `entries = 1` also for scopes which are not being visited: after `?reset` they are reported with one visit that never happened (`entries_wrong_after_reset`).
- C121: `http.Add(ServerDirective(port))` is not checked for duplicate ports, unlike `CreateServer` (`add_not_checked`).
- C122: called with a variable, `UpdateConfig` changes it (`SERVER_DIRECTIVE` is deduced as a reference): every call leaves one more secret location in the variable of the caller and in the files written later (`lvalue_changed`).
- C122: when the reload fails the refused configuration stays in the file, so the next start of nginx fails, and `GetMagicNumbers` returns numbers nginx does not serve (`failed_reload_keeps_file`).
- C123: `MapHelper` and `FilterHelper` keep their function in a function-local `static` keyed by the types only, so the second `Map` or `Filter` over the same block (and output type) silently runs the function of the first one (`second_filter_ignored`). The theorems assume that there are no two such (`Coherent`).
- C123: a `Map` to `Unit` can report several `Unit`s, on which sequences rely not to happen: results are then repeated (`map_to_unit_repeats`). The theorems exclude it (`Proper`).
- C124: terms are compared after lower-casing, so a `Keyword` or a dictionary key with a capital letter never matches (`keyword_upper_never`).
- C125: a random key of a new node or blob is not checked against those in use: a collision silently replaces another file, possibly elsewhere in the tree (`colliding_key_loses_a_file`, `colliding_blob_shared`); the theorems assume fresh keys. Directories draw their keys with `GenerateRandomFileKey`; `GenerateRandomDirKey` is never used, so the key range does not tell files from directories.
- C126: the event store publishes the announcement before the transaction is persisted. If the process dies in between then subscribers have seen an event which is not stored, and the key can be created again with other contents, which are announced as well (`crash_announces_twice`).
- C127: the event collector reads the clock before taking the mutex, so a tick can overtake a request and the timestamps in the log go back (`log_goes_back`).
- C128: the threads of a pipeline read the counters through a `volatile` reference without the mutex, which is a data race for the language (the model takes such a read to give some earlier or the current value); workers of a `ParallelPipeline` which change blobs make the results depend on the schedule (`parallel_writers_depend_on_the_schedule`), and nothing in the types prevents it; `Join()` only returns if somebody calls `ForceStop()`, and the second of two concurrent calls returns without waiting.
- C129: `TypeListUnion` of a single list, and `TypeListCat` of a single list, do not look at duplicates at all (`union_of_one_keeps_duplicates`), unlike those of two or more; "is contained" does not compile on a list with duplicates.
- C130: the read model of the embedded DB compares `current.index + 1` with the *index* of the last entry, not with the number of entries: it reports that it is ready one entry early, and answers with stale data then (`ready_one_early`); on an empty log with the entries coming one at a time it never gets ready, however many entries it has processed (`never_ready`).
- C132: the "baseline penalty" of a node is computed as `(s2 - s1 * s1) / n` instead of `s2 - s1 * s1 / n` (train.h:193). It is negative wherever the goals are positive, and then the feature which leaves the *most* spread is chosen (`positive_goals_choose_the_worst`; in `useless_feature` a feature which says nothing about the goal is preferred to one which says everything); where it is zero there is no split at all (`no_split`). An empty selection of features means all of them.
- C133: with neither `M` nor `feature_names` given, the number of features is always zero: the maximum starts from `uint32_t(-1)` (`derived_number_is_zero`); the program then writes out of bounds. The scores of `evaluate.cc` differ from those of the training: `int64_t += double` truncates the sum, `Apply` truncates each value (`scores_differ`). `--test_set_fraction` is the fraction of the *training* set (`fraction_is_of_the_training_set`). `split.cc` drops the weights.
- C134: `IsPrime` overflows an `int` for every prime from 2147395600 (46340 squared) on, and for no other number (`isPrime_eq`, `int_max_overflows`). `HTTPStreamSubscriber` declares `thread_` before `terminate_id_`: the thread may assign the id before the string is constructed; the id is lost and the destructor then waits for a stream which does not end (`subscriber_may_lose_its_id`).
- C135: the saver opens with `"wb"`: after a restart in the middle of a file what was in it is lost (`restart_loses`); it does not check that indexes are consecutive, and of a chunk with a gap the blobs go to the file of the first (`gap_misfiled`). The last file is not closed by a destructor.
- C136: each `JITCompiledCPP` leaves its directory with `current.h` in `/tmp`: there is no remover for the header and so the directory can not be removed (`what_is_left`). The compiler is taken to have failed iff it printed something (`jit_ok_iff`). `SystemCall` compares a wait status with 127, which it never is, and asks `::system("")` where it means `::system(nullptr)`: with a shell the exception says that there is none (`systemCall_returns`, `no_shell_iff`). A line of exactly `max_line_length - 1` characters is followed by an empty one; with `max_line_length` 1 reading does not end; zero characters hide the rest of a line. `GenTmpFileName` asks for a random number from 0 to `~0`, that is -1.
- C137: in the taxi service any code can be PUT under the id of other code, and code with ten characters of the hash in common has the same id: the other is then "already available" and not what runs (`other_code_runs`). `Accept: ;` makes `.front()` of an empty vector, for any method (`accept_crash`). The form and POST have ids of different lengths for the same code (`form_compiles_again`). In both services `routes_` is declared before `handlers_`: requests may come before the map is constructed and after it is destroyed (`request_too_early`, `request_too_late`). Methods like DELETE run the code.
- C138: `tsv2json` does not push missing values of a column of numbers but reads by the number of the row: with a missing value above a number the numbers are those of later rows and the last is read past the end of the vector (`missing_value_is_undefined`, `numbers_shift`). With `--require_dense=false` short rows are read past their end before their size is checked (`sparse_is_undefined`). Names of the header may be the same, as a note in the code says (`header_collides`); they are not if no identifier ends with a digit (`headerNames_distinct_partial`).
- C139: a node added twice, with another added between, makes the map of nodes unordered: undefined behaviour (`added_twice_is_undefined`). An edge to a node which was not added does not always make a `node0`, as a note in the code says: the key left in the node by an earlier rendering (or not initialised) makes it stand for another node (`stranger_from_an_earlier_graph`, `stranger_is_node_zero`). A backslash in a title or in an attribute which is not a label is read as two (`backslash_is_doubled`).
- C140: `Escape` of gnuplot.h does not escape backslashes, so that a title which ends with one has no end (`backslash_at_the_end`). `LineWidth` after `AsPoints` makes lines (`points_then_width`). A point which begins with `e` ends the data of its plot (`data_cut_short`).
- C141: `NamedRegexCapturer` counts a parenthesis in a character class and a negative look-ahead as capture groups (`class_is_counted`, `negative_shifts`), so that names give the text of the next group or nothing; does not count a group after an escaped backslash (`escaped_backslash_hides`); and changes the text after an escaped parenthesis (`text_is_changed`).
- C142: identifiers of different types may be the same (`identifiers_collide`), and all instances of a template have one name in the format which is the key of a case of a `Variant` in minimalistic and F# JSON: a value of `Foo<A>` in `Variant<Foo<A>, Foo<B>>` is read as `Foo<B>` (`instances_have_one_name`, `case_is_read_iff`, `instance_is_mistaken`). A comment in the code says "This is oh so wrong here".
- C143: `FutureImpl<void>::Go()` only waits: an exception set by the task is lost (`void_swallows_the_exception`). A future which has been waited for and is then moved must be used again or the process exits (`waited_then_moved_exits`); a strict future moved to a forgiving one is not checked any more (`forgiving_hides`).
- C144: one lost or reordered confirmation ends the measurements for ever, and the deques grow (`stuck_for_ever`). A negative width of the window is undefined behaviour at the first measurement (`negative_width`), and the average of a negative sum would be nonsense (`negative_average`; latencies are positive).
- C145: nothing is escaped in the tables of Karl's picture: one service of which the name, branch, commit or codename has an angle bracket makes the whole page fail (`bracket_in_a_name_breaks_the_picture`; `dot` is then found to fail by an assertion, or a file which does not exist is read).
- C146: `history.cc` takes a timestamp of zero for "not seen yet": a pad with relative timestamps which begin with zero is reported as started twice, and its times are counted from the second state (`zero_timestamp_starts_twice`).
- C148: with `--fake_stream_chunk_size=0` the fake stream sends empty chunks for ever (`zero_chunk_never_ends`); a file of which the last directive has no newline makes it spin without looking at the signal of termination, since `npos + 1` is zero (`cut_directive_never_ends`). The condition on line 214 is always true, so its other branch is dead. In the client, `entries_replicated_` and `count_of_a_letters_` are not initialized (`replication_client.cc:54`).
- C149: `Push` is documented to throw on terrible errors, but its own exceptions are caught by the outermost `catch (const Exception&)` as if they were errors of HTTP: it never throws, and returns `false` when the notification went to several devices (`push_never_throws`, `terrible_errors_are_swallowed`). A negative number of recipients is success (`negative_recipients`).
- C150: nothing is escaped in the URL of a conversion event: an identifier with `&` adds a parameter (`identifier_adds_a_parameter`).
- C151: the path in the message leaves out the keys and indexes of maps and the sides of pairs (`key_left_out`), so that it may name another value, one which is fine (`wrong_value_pointed_at`). The messages for enums over signed and unsigned types are swapped: −1 for an unsigned enum is refused with "Expected enum as signed integer, got: -1" (`enum_messages_swapped`).
- C155: `ParseJSON` does not ask RapidJSON for full precision, so that a `double` which `JSON()` has printed may change by a bit or two when read: 8562898463574399.0 becomes 8562898463574398.0 (`not_round_trip`). Everything persisted or replicated as JSON is subject to it: what a follower or a replayed storage holds may differ from what the master holds. Fields which hold money or keys as `double` should be printed with at most fifteen digits. `0e400` is refused as too big.
- `TimeIntervalAsHumanReadableString`: intervals between minus a second and zero are printed as `-0s`; for `-2^63` microseconds the negation overflows (undefined; with wrap-around, endless recursion); from about 2^53 microseconds on, an interval just short of a whole second may be printed as that second (`seconds_not_exact`: 2^43 seconds less a microsecond). (C157)
- `WaitableTerminateSignal`: `SignalExternalTermination` does not take the mutex, so its notification may be missed (`lost_wakeup`): only the time-out of 25 ms ends the wait then, as a comment in the code suspects. Two `Scope`s of a bulk notifier for one signal: when the first is destroyed, the signal is not notified any more (`second_scope_forgotten`). (C158)
- `Printf` cuts texts at 1048575 characters without saying so (`printf_cut`), and at an embedded NUL. (C159)
- `SetRandomSeed` after the first draw of a thread is silently without effect (`late_seed_ignored`), and it seeds the calling thread only; threads that first draw at the same (mock) time share their sequence (`same_time_same_values`). (C160)
