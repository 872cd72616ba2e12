{"id": "C01", "title": "Persisted log is gap-free and strictly ordered", "statement": "After any history of Publish, PublishUnsafe and UpdateHead calls on a persister, the entries it holds carry the indexes 0,1,2,... in publication order, their timestamps strictly increase, and CurrentHead() is never below the timestamp of the last entry.", "quantifier": "every history (any length, any timestamps, accepted or rejected calls) of the in-memory persister", "why_tests_cant": "tests try a few histories; ordering and index bookkeeping must survive every interleaving of accepted and rejected calls", "anchors": ["blocks/persistence/memory.h: PersisterPublishImpl, PersisterPublishUnsafeImpl, PersisterUpdateHeadImpl", "blocks/ss/persister.h: EntryPersister"]}
{"id": "C02", "title": "Log is append-only and failed calls have no effect", "statement": "Once Publish returned index i, every later read of index i returns the same entry and timestamp whatever is called afterwards; a Publish/PublishUnsafe/UpdateHead call that throws leaves the persister exactly as it was.", "quantifier": "every reachable persister state, every continuation of the history", "why_tests_cant": "the continuation after a read is unbounded; a test only checks a short one", "anchors": ["blocks/persistence/memory.h: PersisterPublishImpl, PersisterUpdateHeadImpl"]}
{"id": "C03", "title": "Publish accepts exactly the timestamps above the head", "statement": "Publish(entry, ts) succeeds iff ts > CurrentHead(), and then returns (Size() before the call, ts), Size() grows by one and CurrentHead() becomes ts; otherwise it throws InconsistentTimestamp naming head+1 as the least acceptable timestamp. UpdateHead(ts) has the same acceptance rule and adds no entry.", "quantifier": "every state and every signed timestamp, including the boundary ts = head and the empty persister (head = -1us)", "why_tests_cant": "off-by-one at the boundary for any reachable head value", "anchors": ["blocks/persistence/memory.h: PersisterPublishImpl, PersisterUpdateHeadImpl"]}
{"id": "C04", "title": "Index-range iteration is exact", "statement": "Iterate(begin, end) yields exactly the entries with begin <= index < end in order; end = -1 means 'until the current size'; it throws InvalidIterableRange iff end > size, or end < begin, or begin >= size with begin != end; an empty range never throws when begin == end <= size.", "quantifier": "all begin/end in uint64, all log contents", "why_tests_cant": "argument space and log contents are unbounded; the error conditions overlap", "anchors": ["blocks/persistence/memory.h: PersisterIterateImpl", "blocks/persistence/file.h: PersisterIterateImpl"]}
{"id": "C05", "title": "Time-range iteration is exact (no concurrent publisher)", "statement": "Iterate(from, till) with till > 0 and from <= till yields exactly the entries with from <= timestamp <= till, in order; with till <= 0 it yields exactly those with timestamp >= from; it throws iff 0 < till < from.", "quantifier": "all log contents reachable by any history, all from/till", "why_tests_cant": "depends on binary-search boundaries for every content", "anchors": ["blocks/persistence/memory.h: PersisterIndexRangeByTimestampRangeImpl, PersisterIterateImpl(from, till)"]}
{"id": "C06", "title": "Time-range iteration under concurrent publishing", "statement": "A time-range Iterate(from, till) that races with publishers yields only entries with from <= timestamp <= till.", "quantifier": "every schedule that publishes entries between the two critical sections of one Iterate call", "why_tests_cant": "needs a publish scheduled exactly between two lock acquisitions", "anchors": ["blocks/persistence/memory.h: PersisterIterateImpl(from, till)", "blocks/persistence/file.h: PersisterIterateImpl(from, till)"]}
{"id": "C07", "title": "A file-persisted log survives close and reopen unchanged", "statement": "For every history of Publish, PublishUnsafe and UpdateHead calls on a file persister, closing it and opening the same file succeeds and gives the same entries, indexes, timestamps, size and head, and the same behaviour for later UpdateHead calls; this holds for any number of reopenings anywhere in the history.", "quantifier": "every history with reopenings at arbitrary points, every entry payload (whose JSON has no line break)", "why_tests_cant": "byte-level file contents after arbitrary histories, including in-place head rewrites", "anchors": ["blocks/persistence/file.h: FilePersisterImpl::ValidateFileAndInitializeHead, PersisterPublishImpl, PersisterUpdateHeadImpl"]}
{"id": "C08", "title": "File and memory persisters are interchangeable", "statement": "Given the same sequence of calls, the file persister and the memory persister return the same results: acceptance or the same exception, returned index/timestamp, Size, CurrentHead, LastPublishedIndexAndTimestamp, and the entries iterated.", "quantifier": "every sequence of calls", "why_tests_cant": "two implementations must agree on every history", "anchors": ["blocks/persistence/file.h: FilePersister", "blocks/persistence/memory.h: MemoryPersister"]}
{"id": "C09", "title": "In-place head rewriting never damages entries", "statement": "UpdateHead on a file persister never changes, moves or hides a previously written entry, and any number of consecutive UpdateHead calls keep at most one head line after the last entry, so the file does not grow with them.", "quantifier": "every history and every number of head updates", "why_tests_cant": "the rewrite position depends on the whole history and on reopenings", "anchors": ["blocks/persistence/file.h: PersisterUpdateHeadImpl, head_offset_"]}
{"id": "C10", "title": "Crash during an append loses at most the entry being appended", "statement": "If the process dies while a line is being appended, so that only a prefix of its bytes reached the file, then reopening either succeeds with every earlier acknowledged entry intact or reports an error, and entries published after such a reopen survive the next reopen.", "quantifier": "every history, every crash point (byte offset within the last appended line), every continuation", "why_tests_cant": "crash points are byte offsets within any append", "anchors": ["blocks/persistence/file.h: ValidateFileAndInitializeHead, IteratorOverFileOfPersistedEntries::ProcessNextEntry"]}
{"id": "C11", "title": "Opening never accepts an inconsistent file", "statement": "If opening a file succeeds then, whatever bytes it held, the entry lines in it carry contiguous indexes from 0 and strictly increasing timestamps above every preceding head line, head lines increase, and a signature line occurs only at the very start and matches.", "quantifier": "every possible file content", "why_tests_cant": "the set of corrupted files is unbounded", "anchors": ["blocks/persistence/file.h: ValidateFileAndInitializeHead, ProcessNextEntry"]}
{"id": "C12", "title": "Raw-line publishing keeps the log well formed", "statement": "PublishUnsafe(line) is accepted iff the line is `idxts TAB body` with index = Size() and us > CurrentHead(); an accepted raw line is afterwards readable at that index and survives reopening.", "quantifier": "every raw line and every state", "why_tests_cant": "raw lines are arbitrary strings", "anchors": ["blocks/persistence/file.h: PersisterPublishUnsafeImpl", "blocks/persistence/memory.h: PersisterPublishUnsafeImpl"]}
{"id": "C13", "title": "Message queue delivers in order, exactly once, no gaps", "statement": "The consumer of an MMQ is called with exactly the accepted messages, in the order their indexes were allocated, each once, with its own index and timestamp, and never with a message whose publisher has not finished writing it, for any interleaving of any number of publisher threads with the consumer thread.", "quantifier": "all interleavings, all queue sizes >= 1, any number of publishers and messages", "why_tests_cant": "interleavings are unbounded", "anchors": ["blocks/mmq/mmq.h: CircularBufferAllocate, CircularBufferCommit, ConsumerThread"]}
{"id": "C14", "title": "Bounded queue: capacity and drop rule", "statement": "At most `buffer size` messages are undelivered at any time; in dropping mode a message is dropped iff the buffer holds that many undelivered messages at that moment; in blocking mode no message is dropped before destruction.", "quantifier": "all interleavings, all buffer sizes", "why_tests_cant": "interleavings are unbounded", "anchors": ["blocks/mmq/mmq.h: CircularBufferAllocate (both specialisations)"]}
{"id": "C15", "title": "Queue timestamps strictly increase", "statement": "Timestamps delivered to the MMQ consumer strictly increase with the index, for every schedule of publishers.", "quantifier": "all interleavings of publishers in both modes", "why_tests_cant": "needs two publishers blocked on a full buffer", "anchors": ["blocks/mmq/mmq.h: CircularBufferAllocate (blocking), TimestampAsMicroseconds check"]}
{"id": "C16", "title": "Destruction delivers everything accepted", "statement": "Every message whose Publish call returned before the destructor started is passed to the consumer before the destructor returns (as the class comment says).", "quantifier": "every schedule of consumer vs destructor", "why_tests_cant": "depends on which thread wins at destruction", "anchors": ["blocks/mmq/mmq.h: ~MMQImpl, ConsumerThread"]}
{"id": "C17", "title": "Priority queue delivers in timestamp order and only up to the head", "statement": "The MMPQ consumer receives messages in strictly increasing timestamp order within each head period and only messages with timestamp <= the head set by UpdateHead; a message is delivered at most once.", "quantifier": "every history of Publish/UpdateHead/consumer steps", "why_tests_cant": "histories and interleavings are unbounded", "anchors": ["blocks/mmq/mmpq.h: PublishImpl, UpdateHeadImpl, ConsumerThread"]}
{"id": "C18", "title": "Priority queue loses nothing", "statement": "Every message accepted by an MMPQ is delivered once the head has passed its timestamp.", "quantifier": "every multiset of message timestamps", "why_tests_cant": "needs equal timestamps", "anchors": ["blocks/mmq/mmpq.h: Entry::operator<, std::set"]}
{"id": "C19", "title": "Stream subscriber sees every entry exactly once, in order", "statement": "A subscriber started at index k receives exactly the entries k, k+1, k+2, ... of the stream, each once, in order, with its true index and timestamp, whatever the interleaving of publishers and the subscriber thread.", "quantifier": "all interleavings, all k, any number of publishers", "why_tests_cant": "interleavings are unbounded", "anchors": ["stream/stream.h: SubscriberThreadInstance::ThreadImpl, PassEntriesToSubscriber"]}
{"id": "C20", "title": "Head notifications are ordered with entries", "statement": "Head notifications passed to a subscriber strictly increase, and each exceeds the timestamp of every entry passed before it and is below the timestamp of every entry passed after it.", "quantifier": "all interleavings of Publish/UpdateHead with the subscriber thread", "why_tests_cant": "needs interleavings between the head snapshot and the size snapshot", "anchors": ["stream/stream.h: ThreadImpl"]}
{"id": "C21", "title": "A subscriber catches up", "statement": "Once publishing stops, a subscriber is passed every remaining entry and the last head within finitely many of its own steps and then waits without spinning.", "quantifier": "every reachable subscriber/stream state", "why_tests_cant": "liveness over all schedules", "anchors": ["stream/stream.h: ThreadImpl wait predicate"]}
{"id": "C22", "title": "from_us is honoured by in-process subscriptions", "statement": "Subscribe(subscriber, begin, from_us) does not pass entries with timestamp below from_us.", "quantifier": "all begin, from_us and histories", "why_tests_cant": "combination of parameters", "anchors": ["stream/stream.h: Subscribe, ThreadImpl"]}
{"id": "C23", "title": "Type-filtered subscription is exactly the matching subsequence", "statement": "A subscriber for a type T of a variant stream is passed exactly the entries that hold T, in order, each once; for the other entries it is asked for a decision only when no more entries are available at that time.", "quantifier": "all entry sequences, all type assignments", "why_tests_cant": "sequences unbounded", "anchors": ["blocks/ss/pubsub.h: PassEntryToSubscriberIfTypeMatches"]}
{"id": "C24", "title": "At most one publisher of a stream", "statement": "Through any history of BecomeMaster/BecomeFollowing, borrowing and moving publishers, publishing is possible only via the stream's current publisher object; a publisher handed out before a flip cannot publish after the flip, and a following stream refuses Publisher()/BorrowPublisher().", "quantifier": "every history of ownership operations", "why_tests_cant": "ownership histories unbounded", "anchors": ["stream/stream.h: BecomeFollowingStream, BecomeMasterStream, Publisher, BorrowPublisher"]}
{"id": "C25", "title": "HTTP subscription starts at the right entry", "statement": "The first entry served over HTTP is the least index satisfying all of i, tail, since and recent given in the query; with no such parameter it is 0; tail=0 means 'only new entries'; an index range beyond the stream with nowait yields an empty response.", "quantifier": "all parameter combinations and stream contents", "why_tests_cant": "parameter combinations x contents", "anchors": ["stream/stream.h: ServeDataViaHTTP", "stream/pubsub.h: ParsePubSubHTTPRequest"]}
{"id": "C26", "title": "HTTP subscription limits are honoured", "statement": "With n=K exactly min(K, available) entries are served and then the response ends; with period=P no entry with timestamp above the first timestamp + P is served; with nowait the response ends at the entry that was last when it was served; with stop_after_bytes the response ends with the first entry that reaches the limit.", "quantifier": "all entry sequences and parameter combinations", "why_tests_cant": "sequence x parameter space", "anchors": ["stream/pubsub.h: PubSubHTTPEndpointImpl::operator()"]}
{"id": "C27", "title": "HTTP array responses are well formed", "statement": "With `array` the full response body is `[` newline, entries separated by `,` newline, and a final `]`, for any number of entries (including zero).", "quantifier": "all entry sequences and ways the response ends", "why_tests_cant": "sequences unbounded", "anchors": ["stream/pubsub.h: PubSubHTTPEndpointImpl, destructor / Terminate"]}
{"id": "C28", "title": "Replication is independent of network chunking", "statement": "The sequence of log lines a remote subscriber extracts from an HTTP response depends only on the concatenation of the received chunks, not on where the network split them: it is the non-empty lines that are newline-terminated.", "quantifier": "every byte stream, every split into chunks", "why_tests_cant": "2^(n-1) splits for each stream", "anchors": ["stream/replicator.h: PassChunkToSubscriber"]}
{"id": "C29", "title": "Replica is always a prefix of the master", "statement": "Whatever the sequence of disconnects, partial responses and reconnects, the follower's log is always a prefix of the remote log with the same indexes and timestamps: no duplicates, no gaps.", "quantifier": "every pattern of connects/disconnects at any byte and every master history", "why_tests_cant": "disconnects at any byte", "anchors": ["stream/replicator.h: RemoteStreamSubscriber, StreamReplicatorImpl"]}
{"id": "C30", "title": "Master flip transfers the complete log", "statement": "When a master flip succeeds, the follower that becomes master holds exactly the old master's entries and the old master accepts no publications from that moment; if any check fails neither role changes. A wrong key blocks further attempts, with a delay that doubles on every wrong key.", "quantifier": "all histories and flip requests", "why_tests_cant": "state x request space", "anchors": ["stream/replicator.h: MasterFlipController"]}
{"id": "C31", "title": "Dictionary behaves as a map", "statement": "After any sequence of Add/Erase/Patch the Dictionary returns for each key the last value added (with patches applied) unless it was erased later, and iterates over each present key exactly once.", "quantifier": "every operation sequence, all keys and values", "why_tests_cant": "op sequences unbounded", "anchors": ["storage/container/dictionary.h: Add, Erase, Patch, operator[]"]}
{"id": "C32", "title": "OneToOne keeps rows and columns unique", "statement": "In a OneToOne matrix no two entries share a row and no two share a column after any sequence of operations; Add(e) removes exactly the entries that conflict with e; lookups by row, by column and by (row, col) agree.", "quantifier": "every operation sequence", "why_tests_cant": "op sequences unbounded; three indexes must stay consistent", "anchors": ["storage/container/one_to_one.h"]}
{"id": "C33", "title": "OneToMany keeps columns unique", "statement": "In a OneToMany matrix every column belongs to at most one row; Add(e) with an occupied column moves the column; row-wise, column-wise and (row, col) lookups agree.", "quantifier": "every operation sequence", "why_tests_cant": "op sequences unbounded", "anchors": ["storage/container/one_to_many.h"]}
{"id": "C34", "title": "ManyToMany indexes agree", "statement": "In a ManyToMany matrix the row view, the column view and (row, col) lookup describe the same set of entries, and rows/columns with no entries do not appear.", "quantifier": "every operation sequence", "why_tests_cant": "op sequences unbounded", "anchors": ["storage/container/many_to_many.h"]}
{"id": "C35", "title": "Rolling back a transaction restores the exact previous state", "statement": "If a read-write transaction ends in a rollback (explicit or by exception), every container's contents, indexes and last-modified times are exactly what they were before the transaction, and nothing is published.", "quantifier": "every sequence of container operations inside a transaction, on any prior state", "why_tests_cant": "op sequences x states", "anchors": ["storage/base.h: MutationJournal::Rollback", "storage/container/*.h rollback lambdas"]}
{"id": "C36", "title": "Replaying the log rebuilds the storage", "statement": "A storage rebuilt by replaying the persisted transactions has exactly the same container contents and last-modified times as the live storage had after its last committed transaction.", "quantifier": "every sequence of transactions (committed and rolled back)", "why_tests_cant": "histories unbounded", "anchors": ["storage/persister/stream.h: PersistJournal, SyncReplayStream, ApplyMutations", "storage/container/*.h operator()"]}
{"id": "C37", "title": "Transactions are atomic", "statement": "A read-write transaction either publishes exactly one log entry containing all its mutations in order (iff it made any mutation) and reports commit, or publishes nothing and reports rollback; the result of a transaction run after graceful shutdown started is an error and changes nothing.", "quantifier": "all transaction bodies and outcomes", "why_tests_cant": "bodies unbounded", "anchors": ["storage/transaction_policy.h: Synchronous::Transaction"]}
{"id": "C38", "title": "Two-step transactions report what happened", "statement": "A two-step transaction reports 'committed' iff its mutations were persisted.", "quantifier": "all outcomes of both steps, including exceptions", "why_tests_cant": "needs the second step to throw", "anchors": ["storage/transaction_policy.h: two-step Transaction"]}
{"id": "C39", "title": "Base64 round-trip", "statement": "Base64Decode(Base64Encode(s)) = s and Base64URLDecode(Base64URLEncode(s)) = s; the encoding has length 4*ceil(len/3) and uses only alphabet characters and up to two trailing '='.", "quantifier": "every byte string", "why_tests_cant": "input space unbounded", "anchors": ["bricks/util/base64.h: EncodeInto, DecodeInto"]}
{"id": "C40", "title": "URI component encoding round-trip", "statement": "DecodeURIComponent(EncodeURIComponent(s)) = s, and the encoding contains only unreserved characters, '%' and hex digits.", "quantifier": "every byte string", "why_tests_cant": "input space unbounded; bytes >= 0x80", "anchors": ["blocks/url/url.h: EncodeURIComponent, DecodeURIComponent"]}
{"id": "C41", "title": "URL parse/compose round-trip", "statement": "Parsing the URL composed from (scheme, host, port, path) gives back the same components, for hosts and schemes without separators; composing omits exactly default ports.", "quantifier": "all component strings", "why_tests_cant": "input space unbounded", "anchors": ["blocks/url/url.h: ParseURLWithoutParameters, ComposeURL"]}
{"id": "C42", "title": "Query parameter round-trip", "statement": "Query parameters composed into a URL and parsed back give the same map, for any keys and values; the fragment is not part of the parameters.", "quantifier": "all parameter maps", "why_tests_cant": "input space unbounded", "anchors": ["blocks/url/url.h: ComposeParameters, ExtractURLParametersFromURL"]}
{"id": "C43", "title": "Split and Join are inverse", "statement": "Join(Split(s, sep, keep-empty), sep) = s for every s; Split(Join(v, sep), sep) = v for every list v of strings not containing sep (non-empty strings when empty fields are skipped); the field count equals the returned value.", "quantifier": "all strings and lists", "why_tests_cant": "input space unbounded", "anchors": ["bricks/strings/split.h: Split", "bricks/strings/join.h: Join"]}
{"id": "C44", "title": "Operational transformation edits", "statement": "Applying an edit script to a document keeps all characters that are not erased, in order, inserts exactly the scripted text at the caret, and consumes the document exactly when the script covers it.", "quantifier": "all documents and scripts", "why_tests_cant": "input space unbounded", "anchors": ["utils/operational_transformation/ot.h"]}
{"id": "C45", "title": "MMQ Publish returns the index of its own message", "statement": "The index and timestamp returned by a successful MMQ Publish() are those with which the consumer receives that very message.", "quantifier": "all interleavings of any number of publishers and the consumer, all buffer sizes", "why_tests_cant": "the window between committing a slot and reading it back is a few instructions wide", "anchors": ["blocks/mmq/mmq.h: DoPublish"]}
{"id": "C46", "title": "MMQ never deadlocks or loses a wake-up", "statement": "Without new calls the queue does only boundedly many internal steps, and when no step is possible every Publish call has returned, every accepted message has been delivered and the consumer is waiting; once destruction began, no step possible means the consumer thread has terminated.", "quantifier": "all interleavings, both overflow policies, all buffer sizes", "why_tests_cant": "a lost wake-up needs one specific interleaving", "anchors": ["blocks/mmq/mmq.h: DoPublish, ConsumerThread, ~MMQImpl"]}
{"id": "C47", "title": "MMQ keeps each publishing thread's order", "statement": "Messages published by one thread one after another are accepted, and therefore delivered, in that thread's order.", "quantifier": "all interleavings and numbers of publishing threads", "why_tests_cant": "schedule space unbounded", "anchors": ["blocks/mmq/mmq.h: DoPublish"]}
{"id": "C48", "title": "A subscriber is told to end once and hears nothing after it ended", "statement": "Terminate() is called at most once and only after the subscription was asked to end; after the subscriber answered Done, or anything but Wait to Terminate(), it receives no further call; and once asked to end, an agreeing subscriber ends within a constant number of steps of its thread.", "quantifier": "all interleavings and all answers", "why_tests_cant": "schedules and answer sequences unbounded", "anchors": ["stream/stream.h: ThreadImpl, PassEntriesToSubscriber"]}
{"id": "C49", "title": "A borrowed object outlives its borrowers", "statement": "While some Borrowed refers to an object the object is not destroyed; no operation on a borrower, including its own destructor, touches the object after its destruction; operator bool is true exactly for a borrower not moved away whose owner is not being destroyed.", "quantifier": "all histories of borrowing, copying, moving and releasing by any number of threads, interleaved with the owner's destruction", "why_tests_cant": "use after free shows up only on rare interleavings", "anchors": ["bricks/sync/owned_borrowed.h: UniqueInstance, WeakBorrowed, Owned, Borrowed"]}
{"id": "C50", "title": "The owner terminates when its borrowers are gone", "statement": "Once the Owned is being destroyed and the last borrower has gone, the destructor returns: no wake-up is lost and no registration survives its borrower.", "quantifier": "all interleavings and histories of moves", "why_tests_cant": "liveness over unbounded histories", "anchors": ["bricks/sync/owned_borrowed.h: UniqueInstance, WeakBorrowed, Owned, Borrowed"]}
{"id": "C51", "title": "Termination callbacks", "statement": "The callback of each borrower that exists when the owner starts its destruction is called exactly once, during the destruction, and only while that borrower still exists.", "quantifier": "all interleavings", "why_tests_cant": "a race window of a few instructions", "anchors": ["bricks/sync/owned_borrowed.h: UniqueInstance, WeakBorrowed, Owned, Borrowed"]}
{"id": "C52", "title": "Time only moves forward", "statement": "current::time::Now() never returns the same value twice; a call that begins after another one has returned, in whatever thread, returns a strictly larger value, whatever the system clock does (stand still, jump back); a call that has to retry does so only because another call succeeded; an undisturbed call returns the system time if it is ahead of everything returned so far. The mock clock never goes back (except by ResetToZero), refuses SetNow() to the past and returns exactly what was set.", "quantifier": "all interleavings of calls from any number of threads, all sequences of system clock readings, all sequences of mock operations", "why_tests_cant": "races of a few instructions between load and exchange; clock jumps cannot be produced in a test", "anchors": ["bricks/time/chrono.h: Now, EpochClockGuaranteeingMonotonicity, MockNowImpl, SetNow, ResetToZero"]}
{"id": "C53", "title": "WaitableAtomic: atomic access, truthful waits, no lost wake-ups", "statement": "Between the beginning and the end of MutableUse/ImmutableUse/SetValueIf/GetValue/an accessor nobody else changes the data. Wait(p) and WaitFor(p) return true only if p held of the data at that moment; WaitFor returns false only if it did not. Whenever nobody holds the object, no thread sleeps in a wait whose predicate holds; hence, if the predicate holds for good, every wait returns.", "quantifier": "all interleavings of any number of threads, all data types and predicates, all spurious wake-ups and time-outs, all fair infinite schedules", "why_tests_cant": "lost wake-ups need a particular interleaving; termination of every wait is a statement about infinite schedules", "anchors": ["bricks/sync/waitable_atomic.h: WaitableAtomicImpl::BasicImpl, IntrusiveImpl::Wait, ScopedAccessorImpl, NotifyIfMutable"]}
{"id": "C54", "title": "Intrusive WaitableAtomic: destruction waits for its clients", "statement": "The destructor of an intrusive waitable atomic makes every Wait() return false, hands out no further clients, and returns only after every client handed out has given up its reference; it does not sleep through the last notification.", "quantifier": "all interleavings of clients, waiters and the destructor", "why_tests_cant": "the window between the last decrement and the notification is a few instructions", "anchors": ["bricks/sync/waitable_atomic.h: IntrusiveImpl, IntrusiveClient"]}
{"id": "C55", "title": "HTTP parsing depends only on the bytes", "statement": "The outcome of parsing an HTTP message from a connection (method, path, headers in order, chunks, body; or which refusal) is determined by the bytes the peer sends, whatever the pieces in which they arrive, the initial buffer size and its growth; parsing always ends once the peer has closed; no buffer is accessed out of bounds. A stream cut off at any byte is refused or has the same outcome. Without Content-Length and chunked encoding POST, PUT and PATCH are refused; a Content-Length over the limit is refused at once.", "quantifier": "every byte stream, every way of cutting it into reads, every initial buffer size of at least 2 and growth", "why_tests_cant": "The number of segmentations of one message is exponential in its length, and the buffer arithmetic (growth, two memmoves) depends on all of them.", "anchors": ["bricks/net/http/impl/server.h:GenericHTTPRequestData", "bricks/net/http/body_requirement.h", "bricks/net/http/constants.h"]}
{"id": "C56", "title": "HTTP requests arrive as sent", "statement": "The method, the path with parameters, the headers in their order and the body the client is asked to send are what the server reads from the connection, byte for byte; bytes after the request are not taken for a part of it.", "quantifier": "every method, target, list of headers without line ends, and body up to the payload limit, every segmentation", "why_tests_cant": "Ranges over all texts and all segmentations; tests fix a handful of requests over a fast loopback.", "anchors": ["blocks/http/impl/posix_client.h:Go", "bricks/net/http/impl/server.h:GenericHTTPRequestData"]}
{"id": "C57", "title": "HTTP responses arrive as sent, also chunked", "statement": "The code, headers, cookies and body of a response are what the client reads. For a chunked response the client gets the data of each Send call as one chunk and their concatenation as the body, whatever the cache size and the flush flags; after a Send that flushes all data sent so far is on the wire; the cache never overflows; a response cut off at any byte is never taken for a complete, different one.", "quantifier": "every response, sequence of Send calls with flags, cache size, segmentation and cut-off point", "why_tests_cant": "The cache has a state per history of sends; tests cover some sizes.", "anchors": ["bricks/net/http/impl/server.h:PrepareHTTPResponseHeader", "bricks/net/http/impl/server.h:ChunkedResponseSender", "blocks/http/impl/posix_client.h:Go"]}
{"id": "C58", "title": "Header container", "statement": "Headers set under names that differ only in case or in - and _ are one header, kept at the place and under the spelling first seen, with values joined by \", \"; lookup works with any spelling; Remove deletes exactly that header; copies are equal and independent; no operation leaves a reference to freed memory. Headers and cookies the client sets are those the handler on the server finds.", "quantifier": "every sequence of Set, assignment, Remove and copy, every spelling", "why_tests_cant": "Aliasing between the map and the list of pointers depends on the whole history; a dangling pointer is usually invisible in tests.", "anchors": ["bricks/net/http/headers/headers.h:Headers", "blocks/http/response.h:Response"]}
{"id": "C59", "title": "HTTP routes belong to scopes", "statement": "Register succeeds iff the path is valid and none of the routes (path, number of arguments) it names exists (or, when updating, all of them exist); it adds or replaces exactly these routes, all of them or none. UnRegister succeeds iff all routes it names exist, and removes exactly them. In a program that leaves unregistering to the scopes it was given, ended in any order and merged at will, the server serves exactly the routes of the scopes alive, no destructor throws, and PathHandlersCount() is the number of paths with a route.", "quantifier": "every sequence of Register, scope merge and scope end, every path, mask and handler", "why_tests_cant": "the sequences are unbounded and the masks overlap in arbitrary ways", "anchors": ["blocks/http/impl/posix_server.h:HTTPServerPOSIX::Register", "blocks/http/impl/posix_server.h:HTTPServerPOSIX::UnRegister", "bricks/util/accumulative_scoped_deleter.h:AccumulativeScopedDeleter"]}
{"id": "C60", "title": "HTTP dispatch picks the longest base path", "statement": "A request reaches a handler iff its path can be read as a registered base path followed by as many components as the route takes arguments; among these the longest base path wins. The handler sees the base path as url.path and the decoded components, in order, as url_path_args; repeated and trailing slashes after the base do not count. If no reading is registered the answer is 404. For paths without empty components and escapes ComposeURLPath() gives the path back.", "quantifier": "every route table and every request path", "why_tests_cant": "all paths and tables", "anchors": ["blocks/http/impl/posix_server.h:HTTPServerPOSIX::FindHandler", "blocks/http/request.h:Request", "blocks/url/url.h:URLPathArgs"]}
{"id": "C61", "title": "ServeStaticFilesFrom serves a directory, all or nothing", "statement": "If ServeStaticFilesFrom throws at any file, the server serves exactly what it served before. If it succeeds, every file that is not hidden is served under its path, index files under their directory too (with a redirect to the path with a trailing slash), no other route changes, and the end of the returned scope restores the previous routes. Its assertions hold for every directory.", "quantifier": "every directory tree, options and previous route table, every file at which it may fail", "why_tests_cant": "all trees and failure points", "anchors": ["blocks/http/impl/posix_server.h:HTTPServerPOSIX::ServeStaticFilesFrom", "blocks/http/impl/posix_server.h:StaticFileServer"]}
{"id": "C62", "title": "A value written as JSON is read back unchanged", "statement": "For every type the serializer supports (primitives, enums, durations, strings, TypeIDs, vectors, arrays, pairs, tuples, sets, maps, Optional, structs with inheritance, Variants, nested in any way) and every value of it, ParseJSON<T,J>(JSON<J>(x)) equals x, in each of the four JSON formats; what the Current, Minimalistic and JavaScript formats write, the Minimalistic and JavaScript parsers read. Two different values have different JSON.", "quantifier": "All types of the type system, all values (with initialized Variants), all four formats, all previous contents of the destination.", "why_tests_cant": "Types nest without bound and values are unbounded; a test covers a few types and values.", "anchors": ["typesystem/serialization/json/json.h: JSON, ParseJSON", "typesystem/serialization/json/*.h: SerializeImpl, DeserializeImpl"]}
{"id": "C63", "title": "Parsing into an existing object overwrites all of it", "statement": "ParseJSON(json, object) gives the same object, or the same exception, whatever the object held before the call (in the Current and F# formats).", "quantifier": "All types, all JSON documents, all previous contents.", "why_tests_cant": "It is a statement about all pairs of previous contents.", "anchors": ["typesystem/serialization/json/json.h: ParseJSON", "typesystem/serialization/json/*.h: DeserializeImpl"]}
{"id": "C64", "title": "A JSON patch changes the fields it mentions and no others", "statement": "After PatchObjectWithJSON(object, json) succeeds, each field named in the patch has the value given there and each other field holds what it held; an empty patch changes nothing; a patch that is the whole JSON of y makes the object equal y.", "quantifier": "All struct types (with the exceptions noted), all objects, all subsets of fields in the patch.", "why_tests_cant": "All subsets of fields of all types of all depths.", "anchors": ["typesystem/serialization/json/json.h: PatchObjectWithJSON, JSONPatcher", "typesystem/serialization/json/*.h: DeserializeImpl"]}
{"id": "C65", "title": "ParseJSON accepts exactly the texts that are JSON", "statement": "ParseJSON throws InvalidJSONException if and only if the text (up to its first zero byte) is not JSON by the grammar of RFC 8259, with escaped surrogates in pairs and no number too big for a double; for every text that is JSON the document it is given is the one the grammar assigns to it: white space does not matter, escapes (including surrogate pairs) are decoded to UTF-8, integers that fit 64 bits are kept exactly, any nesting depth.", "quantifier": "All texts, of any length and nesting depth.", "why_tests_cant": "The grammar is infinite and recursive, and number limits, escapes and white space combine in every position; a test tries a few texts.", "anchors": ["3rdparty/rapidjson/reader.h: GenericReader::Parse, ParseValue, ParseObject, ParseArray, ParseStringToStream, ParseNumber", "typesystem/serialization/json/json.h: JSONParser, ParseJSON"]}
{"id": "C66", "title": "What JSON() writes is JSON, on one line", "statement": "For every value without NaNs and infinities, JSON(x) is a text of the RFC 8259 grammar that stands for the document of x; it has no control characters (no line break, tab or zero), whatever the strings in x are; a double is printed as a number that denotes exactly the decimal digits computed for it, within the 25 bytes reserved. A value with a NaN or an infinity is cut short, and the text is never accepted by ParseJSON.", "quantifier": "All documents, all strings, all numbers.", "why_tests_cant": "Strings hold arbitrary bytes and documents nest without bound; which bytes need an escape, and where commas go, has to be right everywhere. Log files and replication rely on entries being single lines.", "anchors": ["3rdparty/rapidjson/writer.h: Writer, WriteString, Prefix", "3rdparty/rapidjson/internal/dtoa.h: Prettify, dtoa", "typesystem/serialization/json/json.h: ResultingJSON"]}
{"id": "C67", "title": "Edit distances", "statement": "SlowEditDistance(a, b) is the least number of insertions, deletions and replacements of single characters that turn a into b. FastEditDistance(a, b, max_offset) is the least cost of a letter by letter matching in which the strings never get more than max_offset apart, size_t(-1) if the lengths are further apart than that, and equals the edit distance if either is at most max_offset.", "quantifier": "all pairs of strings shorter than 2^63 and all max_offset below 2^59", "why_tests_cant": "minimality over all edit sequences cannot be tested by examples", "anchors": ["bricks/strings/distance.h: SlowEditDistance, FastEditDistance"]}
{"id": "C68", "title": "ToString and FromString round-trip", "statement": "FromString<T>(ToString(x)) == x for all integers and booleans (also with white space before and other text after a number); FromString returns a value of the type for every text, and zero for texts that are no number or do not fit.", "quantifier": "all integer types, all their values, all texts", "why_tests_cant": "limits of every type and every text", "anchors": ["bricks/strings/util.h: ToString, FromString"]}
{"id": "C69", "title": "Fixed-size packing keeps the order", "statement": "PackToString gives all values of an unsigned type the same number of characters, UnpackFromString inverts it, and packed values compare as strings like the numbers.", "quantifier": "all values and pairs of values of uint16_t, uint32_t, uint64_t", "why_tests_cant": "2^128 pairs", "anchors": ["bricks/strings/fixed_size_serializer.h: PackToString, UnpackFromString"]}
{"id": "C70", "title": "Trim, case, UTF-8 length, escaping", "statement": "Trim removes exactly the white space around a text; ToLower and ToUpper change exactly the letters; UTF8StringLength of UTF-8 text is the number of code points; EscapeForCPlusPlus leaves no line break, tab or bare quote; EscapeForMarkdown leaves no line break or table separator.", "quantifier": "all texts, all sequences of code points", "why_tests_cant": "every text", "anchors": ["bricks/strings/util.h: Trim, ToLower, ToUpper, UTF8StringLength", "bricks/strings/escape.h"]}
{"id": "C71", "title": "GroupByLines delivers lines whatever the pieces", "statement": "Feeding a text in any pieces calls the callback with its lines, in order, each once; the unfinished last line, if not empty, is delivered by Done() or the destructor. Once the callback threw it is never called again. After Done(), Feed and Done throw; a forgotten Done() is reported by the destructor.", "quantifier": "all texts, all ways to cut them, all points at which the callback throws, all sequences of calls", "why_tests_cant": "all cuts and all exception points", "anchors": ["bricks/strings/group_by_lines.h: GenericStatefulGroupByLines"]}
{"id": "C72", "title": "Chunk and ChunkDB", "statement": "HasPrefix, ExpungePrefix and the comparators of Chunk agree with the texts; the order is the total lexicographical order of the bytes. ChunkDB returns the same UniqueChunk exactly for equal texts, so that comparing UniqueChunks compares texts.", "quantifier": "all memory contents, all chunks, all sequences of calls", "why_tests_cant": "every sequence of calls and every aliasing of chunks", "anchors": ["bricks/strings/chunk.h: Chunk, UniqueChunk, ChunkDB"]}
{"id": "C73", "title": "fncas records and evaluates what the function computes", "statement": "A function written over fncas numbers, when recorded and evaluated at a point, gives exactly what the same function computes on plain numbers at that point, with the same operations in the same order, and evaluation takes a number of steps linear in the size of what was recorded; a cache left by an earlier evaluation at the same point does not change the result, and recording more does not change what is already recorded.", "quantifier": "all expressions, all points, all number systems (IEEE doubles as much as reals), all contents of the cache and of the node table", "why_tests_cant": "every expression and every earlier history of the per-thread node table", "anchors": ["fncas/fncas/node.h: eval_node, GenericV, X, DECLARE_OP, DECLARE_FUNCTION", "fncas/fncas/base.h"]}
{"id": "C74", "title": "fncas derivatives are the derivatives", "statement": "The symbolic derivative and gradient of a recorded function evaluate to its mathematical partial derivatives wherever the function is differentiable by the rules (arguments of sqrt, log, asin, acos, division, ramp in the open domain); a function with unit_step is refused with an exception; the numerical gradient of a differentiable function converges to the derivative.", "quantifier": "all expressions in the twelve functions and four operations, all points in the domain, all variables", "why_tests_cant": "every expression: the rules interact with constant folding and with the table of derivatives", "anchors": ["fncas/fncas/differentiate.h: d_add, d_sub, d_mul, d_op, d_f, differentiate_node, g_impl, approximate_derivative"]}
{"id": "C75", "title": "Cost of symbolic differentiation", "statement": "Evaluation of a recorded function takes time linear in the number of nodes; differentiation should too, as it keeps a table of the derivatives.", "quantifier": "all recorded functions", "why_tests_cant": "a family of inputs of unbounded size", "anchors": ["fncas/fncas/differentiate.h: differentiate_node", "fncas/fncas/node.h: eval_node"]}
{"id": "C76", "title": "Optimizers", "statement": "The optimizers return a point together with the objective at that point; the value is not worse than at the starting point; backtracking line search returns a point satisfying the Armijo condition.", "quantifier": "all objective functions, starting points, parameters and numbers of iterations", "why_tests_cant": "every objective function and every course of the iteration", "anchors": ["fncas/fncas/optimize.h: GradientDescentOptimizer, GradientDescentOptimizerBT, ConjugateGradientOptimizer, Backtracking"]}
{"id": "C77", "title": "Pages of a collection", "statement": "A page of a collection requested over the hypermedia API has the requested records in order, with their position, their number and the size of the collection, and links to its neighbours exactly when there are more records; following the links from the first page ends and shows every record, each once.", "quantifier": "all collections, positions and page sizes", "why_tests_cant": "every collection, page size and walk along the links; 64-bit arithmetic wraps", "anchors": ["storage/rest/hypermedia.h: BuildResponseWithCollection", "storage/rest/structured.h", "storage/api_types.h"]}
{"id": "C78", "title": "Effects of REST requests on a storage", "statement": "Every request to the REST API of a storage is answered. GET never changes the storage. PUT, POST, PATCH and DELETE do what they say to the one entry in one transaction, and only if the response says so (200 or 201): a request refused for a bad key, a bad body, a bad header, a failed precondition, a conflict, follower mode or shutdown leaves everything as it was. What was put is what GET returns, with the modification time that was reported; what was deleted is not found.", "quantifier": "all requests, all reachable states of the storage, all field types, all clocks, whether or not the response can be delivered", "why_tests_cant": "every history of the storage, every request and every failure of the connection", "anchors": ["storage/api.h: PerFieldRESTfulHandlerGenerator", "storage/rest/plain.h", "storage/rest/structured.h", "storage/api_types.h"]}
{"id": "C79", "title": "Conditional requests prevent lost updates", "statement": "A client that got an entry with its modification time and sends this time back in X-Current-If-Unmodified-Since with a PUT, PATCH or DELETE never overwrites or deletes something it has not seen, whatever happened in the meantime: transactions, requests of other clients, restarts, a follower taking over.", "quantifier": "all histories between the two requests in which the clock moves on", "why_tests_cant": "every interleaving of other clients, transactions and restarts", "anchors": ["storage/rest/structured.h: ExtractIfUnmodifiedSinceOrRespondWithError, RESTfulDataHandler<PUT>, RESTfulDataHandler<PATCH>, RESTfulDataHandler<DELETE>", "storage/container/dictionary.h", "storage/container/many_to_many.h"]}
{"id": "C80", "title": "Exports and their shards", "statement": "A follower asked to export a field returns every entry exactly once; asked for the shards 0 to n-1 of n, it returns every entry in exactly one of them. With details, the text is one JSON array in a line. A master refuses.", "quantifier": "all fields, all numbers of shards, all hash functions", "why_tests_cant": "every content of the field and every number of shards", "anchors": ["storage/rest/structured.h: RunForFullOrPartialKey", "storage/api.h", "storage/api_types.h: FieldExportParams"]}
{"id": "C81", "title": "HTTP dates", "statement": "A time formatted as an HTTP date, in either format, and parsed back is the last microsecond of the second it was in, whatever text follows the date; the text is that of the Gregorian calendar. Used as If-Unmodified-Since, the text of Last-Modified passes exactly the modification times that are not in a later second. Text that does not begin with a weekday is refused.", "quantifier": "all times from 1677 to 2262, all dates of the calendar, all texts after the date", "why_tests_cant": "every microsecond of six hundred years", "anchors": ["bricks/time/chrono.h: FormatDateTime, FormatDateTimeAsIMFFix, FormatDateTimeAsRFC850, DateTimeStringToTimestamp", "bricks/net/http/headers/headers.h: ParseHTTPDate", "storage/rest/structured.h: ExtractIfUnmodifiedSinceOrRespondWithError"]}
{"id": "C82", "title": "CompactTSV round-trip", "statement": "Rows of strings packed with CompactTSV are unpacked as they were, in order, whatever bytes the strings have. Every table of up to 254 columns and strings of up to 65535 bytes is packed if it fits into 4 GB, and its packed size is a byte per row, five bytes per cell that differs from the one above, and each distinct string once. Packing more rows only appends.", "quantifier": "all tables", "why_tests_cant": "every table, all sharing patterns of strings", "anchors": ["compact_tsv/compact_tsv.h: CompactTSV"]}
{"id": "C83", "title": "Inferred structs parse the documents", "statement": "The structs generated from a file of JSON documents compile, and the top-level one parses every document of the file, whatever the destination object held before.", "quantifier": "all lists of documents, all nesting, all sets of ignored paths", "why_tests_cant": "every document", "anchors": ["utils/json_schema/infer.h: JSONSchemaAsCurrentStructs, RecursivelyInferSchema, Reduce, SchemaToCurrentStructPrinter"]}
{"id": "C84", "title": "When inference succeeds", "statement": "Schema inference succeeds exactly when every document has acceptable keys and no array with nothing but empty arrays in it, and the values at every place which is not ignored are, over all documents, of one kind (string, number, boolean, array, object) or null. The schema is that of all values together: the order of the lines changes neither success nor any type.", "quantifier": "all lists of documents, all permutations of the lines", "why_tests_cant": "every document, every order", "anchors": ["utils/json_schema/infer.h: SchemaFromOneJSONPerLineFile, RecursivelyInferSchema, Reduce, IsValidCPPIdentifier"]}
{"id": "C85", "title": "Schema table", "statement": "Every line of the human-readable schema has the type, the number of values, the number of unset values, the number of trues and falses and the most common strings of the values found at its path in all the documents; every path where a value was seen has a line.", "quantifier": "all lists of documents", "why_tests_cant": "every document", "anchors": ["utils/json_schema/infer.h: DescribeSchema, HumanReadableSchemaExporter"]}
{"id": "C86", "title": "Command line flags", "statement": "A program goes on after ParseDFlags exactly if its arguments can be read as flags (--name=value, --name value, --name for booleans, one dash or two) and other arguments, and there is only one way to read them; then each flag has the value last given for it, or its default, and the other arguments are left in order. A flag of an integer type has the number written. --help is recognized wherever a flag can be.", "quantifier": "all argument lists, all sets of flags", "why_tests_cant": "every argument list", "anchors": ["bricks/dflags/dflags.h: ParseFlags, FromStringSupportingStringAndBool, ParseValue"]}
{"id": "C87", "title": "CSV files", "statement": "A file of comma-separated cells with a header is read row by row and cell by cell, with either kind of line ends, with or without an end of the last line; every row has as many cells as the header, or an exception is thrown.", "quantifier": "all files", "why_tests_cant": "every file", "anchors": ["utils/csv/csv.h: CSV::ReadFile"]}
{"id": "C88", "title": "Self-modifying config", "statement": "After an update the config in memory and in the file is the new one, and the config it replaced is kept in a file named after the time; the history is complete. If an error occurs an exception is thrown and the config is unchanged. If the process is killed at any point of an update, no config is lost and the next start finds the old one or the new one.", "quantifier": "all sequences of updates, all fates of the writes, all crash points", "why_tests_cant": "every crash point", "anchors": ["blocks/self_modifying_config/config.h: SelfModifyingConfig", "bricks/file/file.h: WriteStringToFile"]}
{"id": "C89", "title": "A flow computes the same thing under every schedule", "statement": "In a RipCurrent flow A | B | C | ... whose blocks emit (or post at growing times), each block is called with exactly the messages the block before it sends, each once and in the order sent, whatever the interleaving of the threads; what each block receives is a function of the blocks alone. The error handler is not called. When the threads of a running flow have nothing left to do, everything sent so far has been handled.", "quantifier": "all flows of any length, all user classes, all schedules, all clocks", "why_tests_cant": "every interleaving of a thread per block", "anchors": ["ripcurrent/ripcurrent.h: SharedSequenceImpl, MMPQWrapper, CallsGeneratingBlock", "blocks/mmq/mmpq.h: MMPQImpl"]}
{"id": "C90", "title": "Join waits for everything, and returns", "statement": "RipCurrentScope::Join() returns, and when it does everything sent by any block, from its constructor, f or destructor, has been handled by the next one.", "quantifier": "all flows, all schedules, all calls of emit, post, schedule and head", "why_tests_cant": "termination and deadlock freedom under every schedule", "anchors": ["ripcurrent/ripcurrent.h: RipCurrentScope::Join, SharedSequenceImpl::Scope, ~MMPQWrapper", "blocks/mmq/mmpq.h: ~MMPQImpl"]}
{"id": "C91", "title": "Several threads may emit", "statement": "Messages emitted concurrently by several threads into the same block (a block with threads of its own, or the two pipelines of ((A | B) + (C | D)) | E) are all delivered, each once, those of each thread in order.", "quantifier": "all numbers of threads, all interleavings", "why_tests_cant": "every interleaving", "anchors": ["ripcurrent/ripcurrent.h: emit, OnThreadUnsafeEmitted, PassOnToNextA, PassOnToNextB"]}
{"id": "C92", "title": "Combining blocks", "statement": "In A + B each side handles exactly the messages of its own types, in order, and the block sends what A and B send; parenthesizing A + B + C or A | B | C | ... differently changes nothing: not the order of construction and destruction, nor where the messages go. Pass sends what it receives, Drop nothing.", "quantifier": "all expressions, all blocks, all messages", "why_tests_cant": "every expression and every message sequence", "anchors": ["ripcurrent/ripcurrent.h: SharedParallelImpl, SharedSequenceImpl, PassImpl, DropImpl"]}
{"id": "C93", "title": "Type ids depend on the types alone", "statement": "CurrentTypeID<T>() returns the same id whenever and in whichever thread it is called, whatever ids were computed before, also for recursive types; for a type without recursion the id is computed from its name, the names of its fields and the ids of its parts, so that the same declarations in another program, compiled by another compiler, have the same ids.", "quantifier": "all graphs of types, all call histories, all threads, both orders of argument evaluation", "why_tests_cant": "the space of type graphs and call orders is infinite", "anchors": ["typesystem/reflection/reflection.h: CurrentTypeID, InternalCurrentTypeID, RecursiveTypeTraverser", "typesystem/reflection/types.h: CalculateTypeID"]}
{"id": "C94", "title": "Type ids tell types apart", "statement": "The first three digits of a type id tell the kind of the type. Renaming an enum or a struct by a character changes its id; different declarations have different ids.", "quantifier": "all names, fields, bases and parts", "why_tests_cant": "all names and declarations", "anchors": ["typesystem/reflection/types.h: CalculateTypeID, TypePrefix"]}
{"id": "C95", "title": "The exported schema is complete and sorted", "statement": "The schema of a set of types holds every type used by them, directly or not, once, with its name and the ids of its parts, and nothing else; its order lists the types that are not primitive, a type after the types it is made of unless they are mutually recursive. Adding more types only appends.", "quantifier": "all graphs of types, recursive ones included, all sequences of AddType", "why_tests_cant": "the space of type graphs is infinite", "anchors": ["typesystem/schema/schema.h: StructSchema, TypeTraverser", "typesystem/reflection/reflection.h: ReflectorImpl::ReflectType"]}
{"id": "C96", "title": "CRC32 is CRC-32", "statement": "CRC32(s) is the CRC-32 of zlib and Ethernet; continuing from the CRC of a prefix gives the CRC of the whole; two strings that differ in one byte have different CRCs.", "quantifier": "all strings", "why_tests_cant": "all strings", "anchors": ["bricks/util/crc32.h: CRC32"]}
{"id": "C97", "title": "The x64 JIT-compiled function is the function", "statement": "A function compiled by the native x64 JIT and called at a point returns, bit for bit, what the interpreter returns for the same recorded function at that point: for every recorded function and every contents of the memory and the registers. It returns to its caller with the registers that belong to the caller and all memory but its own heap and the free stack unchanged, and calls library functions with the stack aligned.", "quantifier": "all recorded functions, all inputs, all addresses and contents of memory and registers, all behaviours of the library functions that the calling convention allows", "why_tests_cant": "the space of functions, memory layouts and register contents is infinite; a violation of the calling convention usually goes unnoticed", "anchors": ["fncas/x64_native_jit/x64_native_jit.h: CallableVectorUInt8, opcodes", "fncas/fncas/jit.h: JITCodeGenerator, f_compiled_x64_native_jit"]}
{"id": "C98", "title": "The x64 JIT-compiled gradient is the gradient", "statement": "The vector returned by a gradient compiled by the native x64 JIT holds, in order, the values of the components of the gradient at the given point; components that share subexpressions do not disturb each other.", "quantifier": "all gradients (lists of recorded expressions), all inputs, memory layouts and register contents", "why_tests_cant": "the space of functions and layouts is infinite", "anchors": ["fncas/fncas/jit.h: JITCodeGenerator, g_compiled_x64_native_jit", "fncas/x64_native_jit/x64_native_jit.h"]}
{"id": "C99", "title": "The HTTP client follows redirects", "statement": "With AllowRedirects the client returns the response at the end of the chain of redirects and the URL it came from; every request of the chain goes where the Location header of the previous response points (relative to the URL that was asked for), no URL is asked for twice, a loop is reported if and only if there is one, and the call returns. Without AllowRedirects exactly one request is sent, and a redirect is an exception.", "quantifier": "all servers (also ones that keep a state), all chains of redirects, all requests", "why_tests_cant": "chains of redirects are unbounded and servers arbitrary", "anchors": ["blocks/http/impl/posix_client.h: GenericHTTPClientPOSIX::Go, HTTPRedirectHelper", "blocks/url/url.h: MakeRedirectedURL, MakeURLWithDefaults, ComposeURL"]}
{"id": "C100", "title": "Karl knows which services are registered", "statement": "After a keepalive its service is Active in the storage, at the address it came from; after DELETE it is Deregistered; it becomes DisconnectedByTimeout only together with OnTimedOut, and only if it had been silent for longer than the timeout; every active service is watched; a service that has left stays Deregistered until its next keepalive.", "quantifier": "all interleavings of keepalives, DELETEs, the state update thread and the passage of time", "why_tests_cant": "the races are between three threads and exist for single instants only", "anchors": ["karl/karl.h: AcceptKeepaliveViaHTTP, StateUpdateThread", "karl/schema_karl.h: ClaireRegisteredState"]}
{"id": "C101", "title": "Karl notices silent services in time", "statement": "A service that has been silent for longer than service_timeout_interval is marked as disconnected within a bounded time, also after Karl has been restarted, and the destructor of Karl returns.", "quantifier": "all timeouts, all histories of keepalives, all schedules", "why_tests_cant": "the time until a service is dropped depends on the whole history of all other services", "anchors": ["karl/karl.h: GenericKarl, ~GenericKarl, StateUpdateThread, services_keepalive_time_cache_"]}
{"id": "C102", "title": "The snapshot of a service is its last keepalive", "statement": "GET /snapshot/<codename> shows the last keepalive of the service, and says that there is none exactly if the service has never sent one.", "quantifier": "all histories of keepalives, snapshots and restarts", "why_tests_cant": "the answer depends on a cache filled by earlier requests", "anchors": ["karl/karl.h: ServeSnapshot, latest_keepalive_index_plus_one_"]}
{"id": "C103", "title": "The fleet report is exact", "statement": "The report of Karl lists exactly the services that have sent a keepalive in the window asked for (with active_only: except those known not to be active), each under the machine it is on, with the last of its keepalives in the window, marked up exactly if that is younger than the timeout, and with each dependency resolved to the service that was the last to report from that address; a window that ends before it begins is an error.", "quantifier": "all logs of keepalives, all windows, all contents of the storage", "why_tests_cant": "the report is a function of an unbounded log", "anchors": ["karl/karl.h: BuildStatusAndRespondWithIt"]}
{"id": "C104", "title": "Claire sends keepalives as promised", "statement": "Claire begins an attempt to send a keepalive at most 22 s after the previous one began (or at once if that took longer) and, unless asked, not earlier than 18 s after it; ForceSendKeepalive is never lost, ForceSendKeepalive(Wait) returns only after an attempt that began after the call has ended, and it does return; Register succeeds whatever was called before; the destructor returns.", "quantifier": "all interleavings of Register, ForceSendKeepalive, the keepalive thread, the destructor and time, all random intervals", "why_tests_cant": "concurrency and time", "anchors": ["karl/claire.h: KeepaliveThread, ForceSendKeepalive, Register, StartKeepaliveThread, ~GenericClaire"]}
{"id": "C105", "title": "Every HTTP request is answered exactly once", "statement": "Whatever a handler does with its request - answers it, answers it twice, throws, forgets it, streams, hands it to another thread - exactly one response is sent: its first answer, or 500; each further attempt throws and sends nothing. Every client that connects is answered, in order, and the server goes on.", "quantifier": "all handlers (sequences of operations on the request, on any threads), all sequences of clients", "why_tests_cant": "handlers are arbitrary programs and exceptions can occur anywhere in them", "anchors": ["bricks/net/http/impl/server.h: GenericHTTPServerConnection, ChunkedResponseSender", "blocks/http/request.h: Request", "blocks/http/impl/posix_server.h: Thread"]}
{"id": "C106", "title": "A TCP connection carries the written bytes in order", "statement": "What calls of BlockingRead return is, in order and without gap or repetition, the beginning of what calls of BlockingWrite were given; a BlockingWrite that returns has sent all of its buffer, one that throws a beginning of it. BlockingRead(buffer, n) returns between 1 and n bytes, with FillFullBuffer exactly n; if it cannot, it throws, and an exception named Empty... has taken nothing from the stream.", "quantifier": "all sequences of reads and writes of all sizes, all ways the kernel may cut, delay and fail them", "why_tests_cant": "the kernel decides how much each call transfers, and the interesting cuts are rare", "anchors": ["bricks/net/tcp/impl/posix.h: Connection::BlockingRead, Connection::BlockingWrite"]}
{"id": "C107", "title": "ReserveLocalPort returns a port it has bound, and gives up only if none is free", "statement": "A call ends after at most 4002 attempts. The port returned was bound by the call (all earlier attempts failed); it is the hint, which is tried first, or is between 25000 and 29000. The process is ended only if every port of the range was tried and is taken.", "quantifier": "all histories of calls in a thread, all shuffles, all states of the ports of the system and changes of it during the search", "why_tests_cant": "depends on random shuffles and on which ports other processes hold", "anchors": ["bricks/net/tcp/impl/posix.h: ReserveLocalPortImpl::DoIt, ReserveLocalPort"]}
{"id": "C108", "title": "Each socket is closed exactly once", "statement": "Whatever is done with socket objects - moved, assigned, used after a move, destroyed in any order, constructed with failures - no descriptor is closed twice, no two objects share one, a moved-from object throws when used, and when all objects are gone all descriptors are closed.", "quantifier": "all sequences of operations on any number of objects", "why_tests_cant": "a double close hits an unrelated file only under an unlucky reuse of the descriptor", "anchors": ["bricks/net/tcp/impl/posix.h: SocketHandle, ReservedLocalPort, Connection, Socket"]}
{"id": "C109", "title": "Type evolution is structural", "statement": "Evolving a value from one version of a schema into another applies the evolver of each type at every place where the type occurs, at any depth, and leaves the rest as it is: natural evolution into the same types is the identity; the outcome does not depend on what was in the destination; a value with an empty variant makes it throw.", "quantifier": "all types, all evolvers a user may define, all values, all contents of the destination", "why_tests_cant": "types nest without bound, and tests evolve into fresh objects only", "anchors": ["typesystem/evolution/type_evolution.h", "typesystem/evolution/macros.h", "typesystem/schema/schema.h: the generated natural evolvers"]}
{"id": "C110", "title": "Optional<T> is a value", "statement": "An Optional variable behaves as the value it holds: a copy is independent of the original, a write through one variable is seen by no other, a move leaves the source empty, every object has one owner and is deleted exactly once; comparisons are those of T with \"no value\" as the least element, and a plain value compares as an Optional that holds it.", "quantifier": "all sequences of constructions, assignments, moves, writes and destructions of any number of variables, all T, all addresses the allocator may choose", "why_tests_cant": "histories of several variables are not bounded, and aliasing shows only with particular ones", "anchors": ["typesystem/optional.h: Optional, ImmutableOptional, the operators"]}
{"id": "C111", "title": "Variant<...> is a value of one of its types", "statement": "A Variant holds nothing or one object of a type of its list, as a value: copies are deep, a moved-from variant is empty, every object has one owner; Call visits the object with its exact type and throws exactly if the variant is empty; a conversion between variant types succeeds exactly if the target lists the type of the object, and an operation that throws changes neither side.", "quantifier": "all sequences of constructions, conversions, assignments, moves, visits and destructions of any number of variables of any variant types", "why_tests_cant": "type lists, conversions and histories combine without bound", "anchors": ["typesystem/variant.h: VariantImpl", "bricks/template/rtti_dynamic_call.h", "typesystem/helpers.h: Exists, Value"]}
{"id": "C112", "title": "Queries read, commands write atomically", "statement": "CQS over REST: a GET of a registered query runs it in a read-only transaction and changes nothing, on masters and followers alike; a POST, PUT or PATCH of a registered command runs it on the master only, in one transaction: if it returns, its mutations are published as one entry marked with its name before the client gets its response; if it rolls back or throws, nothing is changed, and the client gets the value of the rollback or an error. Anything else is refused with its own code and changes nothing. The first registration of a name stands; registering it again throws.", "quantifier": "all histories of registrations, requests and other transactions, all user handlers, all requests", "why_tests_cant": "handlers, histories and request fields combine without bound", "anchors": ["storage/api.h: AddCQSQuery, AddCQSCommand, ParseCQSRequest, RegisterCQSHandlers", "storage/transaction_policy.h: read-only two-step transactions", "storage/rest/plain.h: RESTfulCQSHandler"]}
{"id": "C113", "title": "Rows and columns of a matrix over REST", "statement": "A GET of a row (column) of a matrix gets exactly the entries of the row, each once, or a 404 if there are none; a GET of all rows gets every row that is not empty, once, with the number of its entries; in hypermedia the same page by page, rows with a preview of up to three entries. This is so for matrices of every kind, whether a row holds one entry or many; other methods are refused, and nothing is changed.", "quantifier": "all kinds of matrices, histories, requests and flavours of the API", "why_tests_cant": "contents, histories and keys are unbounded", "anchors": ["storage/api.h: GenerateRowOrColHandler", "storage/api_types.h: MatrixContainerProxy, GenericMatrixIterator", "storage/rest/plain.h, structured.h: RunForFullOrPartialKey", "storage/rest/hypermedia.h: PopulateCollectionRecord"]}
{"id": "C114", "title": "Routes of a RESTful storage from constructor to destructor", "statement": "A RESTfulStorage either is constructed, and then serves exactly the documented routes of its fields, its commands and queries and its top level, or throws and leaves the port as it was; with valid names it throws exactly if one of the routes is taken. An alias serves the endpoints of its target under its name. SwitchHTTPEndpointsTo503s makes all the routes of the storage, and no others, answer 503. The destructor removes all of them, and no others. Calls to one storage do not change what another one serves; no route ever leads to an object that is gone.", "quantifier": "all histories of constructions, aliases, switches and destructions of any number of storages on a port, and of other registrations", "why_tests_cant": "histories, fields, names and prefixes are unbounded", "anchors": ["storage/api.h: RESTfulStorage, RegisterAlias, SwitchHTTPEndpointsTo503s, RegisterRoute, RegisterAdditionalFieldDataHandlers", "storage/rest/structured.h: RegisterTopLevel", "storage/rest/plain.h: RESTfulSchemaHandler"]}
{"id": "C115", "title": "Ending a subscription to a remote stream", "statement": "A remote subscription offers its subscriber the entries one by one in order from the start index, each until it is accepted, across any reconnects. It can be ended at any time by destroying its scope (or the remote stream first): nothing is delivered beyond the chunk in progress, no new request is made except a subscription request whose schema check was under way, the current subscription on the server is terminated, Terminate() is called at most once, the done callback is called exactly once as the last thing that happens, and the destructor returns after a bounded number of steps once the HTTP calls in progress return, for every interleaving. A subscriber that answers Wait is given entries until it is done.", "quantifier": "all interleavings of the subscription thread, the destructor, the destruction of the remote stream, and all behaviours of server, network and subscriber", "why_tests_cant": "schedules and network behaviours are unbounded", "anchors": ["stream/replicator.h: RemoteSubscriberThread, TerminateSubscription", "bricks/sync/waitable_atomic.h: Wait, MutableScopedAccessor", "bricks/sync/owned_borrowed.h: ~UniqueInstance"]}
{"id": "C116", "title": "Who may publish, when calls of a MasterFlipController overlap", "statement": "Provided FollowRemoteStream and FlipToMaster are not called at the same time, and FlipToMaster not during a flip requested by another node, then for any number of overlapping calls and flip requests: the calls that have returned form a history of roles (master, yielded, following) in which each starts in the role the previous one left and ends in the role its result says; a failed call leaves the role as it was; at any moment at most one party holds the right to publish, and exactly one when no call is in progress; every call returns after a bounded number of its own steps and some call can always go on, once borrowers give the publisher up.", "quantifier": "all interleavings of any number of threads calling the controller and of flip requests, all answers of remote nodes", "why_tests_cant": "schedules are unbounded", "anchors": ["stream/replicator.h: MasterFlipController::FollowRemoteStream, FlipToMaster, MasterFlipRequest, ExposeViaHTTP, StopExposingViaHTTP", "stream/stream.h: BecomeFollowingStream, BecomeMasterStream"]}
{"id": "C117", "title": "Progress lines show their statuses", "statement": "On a terminal, a ProgressLine shows exactly the text of its last status after the place where the cursor was, whatever the sequence of statuses, colours and lengths, touches nothing else, and leaves the terminal exactly as it was when destroyed. The lines of a MultilineProgress, each used by a thread of its own, show each the text of its own last status in its own row, for all interleavings, and nothing above them is touched.", "quantifier": "all sequences of statuses (texts without control characters, any escape codes), any number of lines, all interleavings of their updates", "why_tests_cant": "unbounded sequences and schedules; the effect depends on the terminal", "anchors": ["blocks/xterm/progress.h: ProgressLine, Status, MultilineProgress", "blocks/xterm/vt100.h: operator<<"]}
{"id": "C118", "title": "RoundDoubleToString prints the nearest number", "statement": "RoundDoubleToString(value, n) prints a decimal number that differs from the value by at most half a unit of the last of its n significant digits, with the right sign, without superfluous zeros before it or after the decimal point and without a trailing point, for every value of at least 1e-16 and every n; smaller values are printed as 0.", "quantifier": "all values (as exact rationals) and all numbers of digits", "why_tests_cant": "infinitely many values; the corner cases are at powers of ten", "anchors": ["bricks/strings/rounding.h: RoundDoubleToString"]}
{"id": "C119", "title": "Generated HTML is balanced", "statement": "For every program that generates HTML with nested blocks, tags and scopes, throwing and catching exceptions anywhere: every tag opened is closed exactly once in the right order in every stream and in every page sent, the active scope is restored, a request given to an HTTP scope is answered exactly once, a block without scopes writes exactly its page up to the exception it throws, and writing without a scope or opening a scope inside another one throws and writes nothing.", "quantifier": "all programs (arbitrarily nested blocks, any exceptions), all texts without tags, attribute values without quotes", "why_tests_cant": "programs are unboundedly many", "anchors": ["blocks/html/html.h: HTMLGeneratorThreadLocalSingleton, HTMLGeneratorOStreamScope", "blocks/html/tags.h: CURRENT_HTML_TAG, CURRENT_HTML_START_ONLY_TAG", "blocks/html/html_http.h: HTMLGeneratorHTTPResponseScope"]}
{"id": "C120", "title": "The profiler reports what happened", "statement": "For every interleaving of scopes entered and left by any threads, reports and resets: a report lists exactly the threads and, as a tree sorted by time, exactly the scopes each has entered, with the number of visits and the time inside since the last reset, to the microsecond and visits in progress included; times nest; overheads are the times the calls took; and no assertion of the profiler fails.", "quantifier": "all sequences of calls by all threads, all clock readings consistent with a strictly increasing clock, all nestings of scopes", "why_tests_cant": "schedules, nestings and clock readings are unboundedly many", "anchors": ["profiler/profiler.h: Profiler::StateMaintainer::EnterScope, LeaveScope, Report, Guarded, GenerateReport, RecursiveReset, ComputeTotalMicroseconds"]}
{"id": "C121", "title": "nginx reads the configuration that was built", "statement": "For every sequence of Add, CreateServer, CreateLocation and CreateProxyPassLocation calls with plain names and parameters that are sequences of (possibly quoted) words, nginx reads from the printed text exactly these directives, parameters and blocks in this order; http has exactly one server, which begins with its listen, for every port CreateServer was called with, and CreateServer throws exactly when there is one already.", "quantifier": "all programs building a configuration, all nestings, names and parameters", "why_tests_cant": "configurations are unboundedly many", "anchors": ["utils/nginx/config.h: BlockDirective, ServerDirective, HttpDirective::CreateServer, FullConfig, ConfigPrinter"]}
{"id": "C122", "title": "UpdateConfig returns when nginx runs the new configuration", "statement": "Whatever nginx, the network and the file system do: if NginxManager::UpdateConfig returns, nginx was running exactly the configuration given plus the secret location when it answered; it throws exactly when the file cannot be written or the reload fails, and otherwise returns at the first of 100 polls that gives the secret answer, or ends the process.", "quantifier": "all behaviours of nginx, network and file system; all configurations", "why_tests_cant": "the environment can behave in unboundedly many ways", "anchors": ["utils/nginx/nginx.h: NginxManager::UpdateConfig, NginxManagerMagicNumbers"]}
{"id": "C123", "title": "A schema finds exactly the ways it matches the query", "statement": "For every schema of keywords, dictionaries, None, Void, |, &, >>, <<, Map and Filter, and every query: MatchQueryIntoVector returns exactly the values with which the schema matches all terms of the query, in the documented order (alternatives left to right, shorter left parts first, then the outer operand), a Unit block at most once; JustMatchQuery returns the first of them, or nothing if there are none; nothing is thrown and no term outside of the query is read.", "quantifier": "all schema expressions, all programs defining several of them, all queries, all callbacks", "why_tests_cant": "schemas nest without bound, and evaluation is by nested callbacks and exceptions", "anchors": ["nlp/nlp.h: UnitImpl, OrImpl, AndImpl, SeqImpl, MapImpl, FilterImpl, SchemaBlock, MatchQueryIntoVector, JustMatchQuery", "nlp/nlp_schema_begin.inl"]}
{"id": "C124", "title": "Query annotation", "statement": "For every query and every set of dictionaries: the annotated terms are the maximal non-blank parts of the query, in order; each is normalized to lower case; its field of a dictionary is set exactly if the normalized term is a key of that dictionary, to the value of that key.", "quantifier": "all queries and dictionaries", "why_tests_cant": "queries and dictionaries are unbounded", "anchors": ["nlp/nlp.h: AnnotateQuery, StaticQueryTermAnnotators, DefaultAnnotateQueryTerm", "nlp/nlp_schema_begin.inl: DictionaryAnnotation"]}
{"id": "C125", "title": "The flow tool is a file system", "statement": "For every sequence of GET and PUT requests to the tree of a new flow tool, in which every random key drawn is not in use yet: the responses are exactly those of a file system which starts with an empty root, where PUT creates a file or a directory in an existing directory or replaces the contents of a file and nothing else changes, never turns a file into a directory or vice versa, never changes the root, and reports the first component of the path which is missing or is a file; a directory lists each of its entries exactly once in the order of creation; no request reports a broken storage (500).", "quantifier": "all request sequences, paths, bodies and (fresh) random keys", "why_tests_cant": "histories, paths and tree depths are unbounded", "anchors": ["examples/flow_tool/flow_tool.h: FlowTool::ServeTree, FindNodeFromWithinTransactionImpl", "examples/flow_tool/schema.h: Node, Blob, FlowToolDB"]}
{"id": "C126", "title": "The event store keeps what it has acknowledged and announces what it stores", "statement": "For every history of POSTs, GETs, restarts and crashes at any point: an event acknowledged with 201 is returned by GET for good, and its key is never created again or changed (the same event is reported as already published, another one as a conflict, and nothing is published); GET answers exactly what the log stores, at most one event per key; each stored event is announced right before it is stored, and announced exactly once; /subscribe shows the announcements of the log in order, as they arrive, and its follower never fails.", "quantifier": "all histories, events, timestamps, crash points", "why_tests_cant": "a crash can come between any two publications; histories are unbounded", "anchors": ["examples/event_store/event_store.h: EventStore, EventStore::EndpointEvent", "storage/transaction_policy.h: Synchronous"]}
{"id": "C127", "title": "The event collector logs every request once, and ticks when it is silent", "statement": "For every interleaving of the HTTP thread and the timer thread: every answered request has exactly one line in the log, written before the response, in the order of the responses; the callback is called for every line in the order of the log, and the counter is the number of lines; a tick comes at least the interval after the line before it, is written at the latest at the wake-up just after the interval of silence, and never without an interval or after the destructor; the timestamps of the log increase.", "quantifier": "all request sequences, clock readings, intervals and interleavings of the two threads", "why_tests_cant": "the race of the two threads depends on the schedule", "anchors": ["examples/event_collector/event_collector.h: EventCollectorHTTPServer"]}
{"id": "C128", "title": "A pipeline over a circular buffer shows each worker the sequential stream, without races and without getting stuck", "statement": "For every pipeline (workers and groups of parallel workers), every buffer size, every input and every schedule of the source and worker threads, with chunks of any sizes and counters read late: each worker is given every blob of the input once, in order, as it is after all the workers of the stages before (for workers which modify blobs only outside parallel groups); no place of the buffer is ever in the hands of two threads of different stages, or of a worker and the source; some thread always has something to do; the reported total never exceeds what any worker has done and never goes down; the buffer is rounded up to a power of two, less than twice what was asked for.", "quantifier": "all pipelines, buffer sizes, inputs, workers, chunk sizes and schedules", "why_tests_cant": "the threads share the buffer without locks; only all schedules together show that no blob is overwritten, skipped or seen too early", "anchors": ["examples/streamed_sockets/latencytest/dsl/dsl.h: Pipeline, ParallelPipeline, PipelineState, PipelineWorkerThread, PipelineSourceThread, PipelineRunContext"]}
{"id": "C129", "title": "Type lists: concatenation, union, flattening and access do what they say for every list", "statement": "For all lists of types, of any length and nesting: asking whether a type is contained compiles exactly if the list has no duplicates, and then is right; TypeListCat is the concatenation and compiles exactly if no type is repeated; TypeListUnion and SlowTypeList have each type once, at its first occurrence, however nested the arguments, and building in steps makes no difference; Flatten, EvensOnly, TypeListElement, filter, reduce and generate_indexes are what their names say, including what does not compile.", "quantifier": "all type lists", "why_tests_cant": "the static_asserts in the headers are examples; the templates recurse over lists of any length", "anchors": ["bricks/template/typelist.h: TypeListContains, TypeListCat, TypeListUnion, Flatten, SlowTypeList, EvensOnly, TypeListElement", "bricks/template/mapreduce.h: filter, reduce", "bricks/template/variadic_indexes.h: generate_indexes"]}
{"id": "C130", "title": "The read model of the embedded event log answers from a growing beginning of the log, once it has replayed it", "statement": "For every log and every interleaving of publications, the subscriber thread and requests: each /nickname answer is that of the last UserAdded of the user in a beginning of the log, later answers never go back to a shorter one; no answer but \"still replaying\" is given before the whole log that was there at the start has been gone over; in a quiet system the model gets ready; it never becomes unready again.", "quantifier": "all logs and interleavings", "why_tests_cant": "the race between publishing, following and asking depends on the schedule; logs are unbounded", "anchors": ["examples/embedded_db/db.cc: UserNicknamesReadModel", "stream/stream.h: SubscriberThreadInstance::PassEntriesToSubscriber"]}
{"id": "C131", "title": "Nested partitions of an iterable subset see the right points", "statement": "For every number of points, every nesting of Partition calls by any predicates and whatever order std::partition leaves: inside each callback, iteration gives exactly the points of the current set, each once, size() is their number and operator[] answers membership; after the calls the set is what it was before.", "quantifier": "all sizes, predicates and nestings", "why_tests_cant": "nesting is unbounded and the order left by std::partition is unspecified", "anchors": ["examples/gradient_boosted_trees/iterable_subset.h: IterableSubset::Partition"]}
{"id": "C132", "title": "The tree builder builds the trees it says it does, and they can be applied", "statement": "For every sequence of BuildTree calls with any goals, depths, points and features: one tree per call; leaves have the mean goal of the training points which reach them, at least one each; no feature is used twice on a path, no path is longer than the depth; a split is by the feature which minimises the spread of the two sides; earlier trees are untouched; Apply terminates for every point and gives the mean of the training points which agree with it on the path.", "quantifier": "all data, goals, depths and sequences of calls", "why_tests_cant": "trees and data are unbounded; the builder permutes shared state and must restore it", "anchors": ["examples/gradient_boosted_trees/train.h: TreeBuilder"]}
{"id": "C133", "title": "The input of the gradient boosting example is transposed and divided correctly, scores agree, and the area under the curve is a fraction", "statement": "For every input: the transposed lists and the matrix agree with the examples; every example is in exactly one of the training set and the test set; the number of features is the greatest index plus one if not given; an example has the same score in the evaluation as while training; the area under the precision/recall curve is in [0, 1], and 1 for perfect scores.", "quantifier": "all inputs, shuffles, scores and labels", "why_tests_cant": "inputs are unbounded", "anchors": ["examples/gradient_boosted_trees/gbt.cc: main, ComputeAreaUnderPrecisionRecallCurve", "examples/gradient_boosted_trees/evaluate.cc: main", "examples/gradient_boosted_trees/schema.h: GetNumberOfFeatures"]}
{"id": "C134", "title": "The pipeline of Karl's test services sorts the numbers into primes and composites", "statement": "For every schedule of the generator, the annotator and the filter: the stream of primes has exactly the primes below some number, in order and once each, that of composites the other numbers below it; once the services are idle every published number is in one of them; IsPrime is right for every int; a subscriber whose constructor has returned can be destroyed.", "quantifier": "all schedules, all ints", "why_tests_cant": "three services run concurrently without bound; 2^31 inputs of IsPrime; the order of member construction races with the thread", "anchors": ["karl/test_service/is_prime.h: IsPrime", "karl/test_service/{generator,annotator,filter}.h", "karl/test_service/http_subscriber.h: HTTPStreamSubscriber"]}
{"id": "C135", "title": "The latency test's indexer, processor and saver do the same whatever the sizes of the chunks they get", "statement": "However the blobs come in, in chunks of any sizes: the indexer numbers them one after another with no gap; the processor answers exactly the requests of the latency test, in order, each once, and exits only if indexes are not consecutive; of the files of the blobs the saver went over, those kept have exactly the blobs of their numbers in order, the others are removed and no other file is touched.", "quantifier": "all inputs, all sequences of chunk sizes, all file sizes and numbers of files kept", "why_tests_cant": "the chunks depend on the timing of other threads", "anchors": ["examples/streamed_sockets/latencytest/workers/indexer.h: IndexingWorker", "examples/streamed_sockets/latencytest/workers/processor.h: ProcessingWorker", "examples/streamed_sockets/latencytest/workers/saver.h: SavingWorker"]}
{"id": "C136", "title": "System calls, pipes and code compiled at run time report what happened and leave nothing behind", "statement": "For every output of a command: reading a pipe line by line until it ends gives all the text, each line which fits the buffer as it is; SystemCall returns the status of the command and throws only if there is no child, with the right reason; JITCompiledCPP is constructed iff the compiler succeeded and the library loads, and after it is gone, or its constructor has thrown, the files are as before.", "quantifier": "all outputs of commands, all buffer sizes, all ways for a command to end, all sources and compilers", "why_tests_cant": "outputs and failures of other programs can not be enumerated", "anchors": ["bricks/system/syscalls.h: SystemCallReadPipe, SystemCall, JITCPPCompiler, JITCompiledCPP", "bricks/file/file.h: ScopedRmFile, RmFile"]}
{"id": "C137", "title": "The services which compile and run the code they are sent run exactly the code which an id stands for", "statement": "For every history of requests: what runs for an id has been compiled from code posted with this hash, and code which has been accepted can be run ever after; a reply says exactly what the request has done; an id is not taken over without X-Overwrite, nor by code which does not compile; every request gets a defined reply, also while the service is constructed or destroyed.", "quantifier": "all histories of requests, all sources, all hash functions, all outcomes of the compiler", "why_tests_cant": "histories and header values are unbounded, the construction races with the server", "anchors": ["examples/dynamic_dlopen/impl.h: DynamicDLOpenIrisExampleImpl", "examples/datafest_talk/tier5_online_tool/nyc_taxi_dataset_service.h: NYCTaxiDatasetServiceImpl"]}
{"id": "C138", "title": "tsv2json prints each value of the table under the name of its column, with the right type", "statement": "For every table: the result has a row for each row and a value for each value, null for those which stand for no value, an integer if all the others of the column are integers, else a number if all are numbers, else the text; columns without a header have the names of spreadsheets; names from a header are identifiers and different from each other.", "quantifier": "all inputs, flags, tables and positions", "why_tests_cant": "tables are unbounded, and the defects need particular arrangements of missing values", "anchors": ["utils/json_schema/tsv2json.cc: main, ExcelColName, MakeValidIdentifier"]}
{"id": "C139", "title": "A graph rendered for GraphViz is read by GraphViz as that graph", "statement": "For every graph, whatever characters are in its title, labels and attributes: AsDOT() gives a text which, by the rules of the DOT language, has exactly the added nodes in their order with their labels and attributes, the groups with their nodes, and the edges between the right nodes.", "quantifier": "all graphs, labels, attributes, and histories of the nodes in other graphs", "why_tests_cant": "labels are arbitrary text, and the numbering depends on what was rendered before", "anchors": ["bricks/dot/graphviz.h: Escape, Node, Edge, Group, GenericGraph::AsDOT"]}
{"id": "C140", "title": "A plot script sets what was asked for and gives each plot its own points", "statement": "For every sequence of setters and every list of plots: the script sets each parameter as its last setter said and no other, names one inline source per plot, and the lines of the i-th source are the points of the i-th plot; names and titles are read as given.", "quantifier": "all sequences of setters, titles, names, plots and points", "why_tests_cant": "the script is read by another program, by rules about quotes and ends of data which depend on the text", "anchors": ["bricks/graph/gnuplot.h: Escape, Plotter, WithMeta, GNUPlot"]}
{"id": "C141", "title": "A named group of a regular expression gives the text of that group", "statement": "For every regular expression with named groups: the expression used for matching is the same without the names, TotalCaptures() and the names are those of its capture groups in their order, and for every match operator[] and Has() by a name speak of the group of that name, and of nothing for other names or when there is no match.", "quantifier": "all regular expressions, matches and names", "why_tests_cant": "expressions are unbounded texts, and the rewriting looks at characters, not at the structure", "anchors": ["bricks/strings/regex.h: NamedRegexCapturer, MatchResult, Iterable"]}
{"id": "C142", "title": "Different types have different names", "statement": "For all types, however nested: CurrentTypeName<T>() of different types are different if different declarations have different names; as an identifier the name is a valid identifier; and a value of a Variant, read by the name under which it was written, is of the case it was.", "quantifier": "all types, environments of declarations, and lists of cases", "why_tests_cant": "types are nested without bound, and a collision is a property of pairs of types", "anchors": ["typesystem/typename.h: CurrentTypeName, CurrentTypeNameImpl, JoinTypeNames", "typesystem/serialization/json/variant.h: JSONVariantPerStyleRegisterer"]}
{"id": "C143", "title": "A strict future is used or ends the process", "statement": "For every sequence of calls on futures: a Strict future ends the process at the end of its lifetime exactly if Go, Wait or Detach was never called on it and it was not moved from; Go() blocks until the task delivers and then gives its value or exception, once in all; and if the process goes on, no result held by strict futures was left unused.", "quantifier": "all sequences of constructions, moves, Go, Wait, Detach and destructions over any number of tasks and futures, and all times and results of delivery", "why_tests_cant": "which object is left with a result depends on the whole history of moves and calls", "anchors": ["bricks/util/future.h: FutureImpl, Go, Wait, Detach, ~FutureImpl", "storage/transaction_policy.h: TransactionFromLockedSection"]}
{"id": "C144", "title": "The latency test measures the latencies of the requests", "statement": "Under every interleaving of the sender and the listener: each request of which sending and confirmation have been noted is measured exactly once, in order, as the time of its own confirmation minus the time it was written, which is positive; the reports give number, average and percentiles of exactly those measured within the last window of time.", "quantifier": "all schedules of the two threads, all times between readings of the clock, all widths of the window not negative, all implementations of nth_element", "why_tests_cant": "a confirmation can come before its request is noted, and the window moves with every measurement", "anchors": ["examples/streamed_sockets/latencytest/generator.cc: LatencyTracker, RelaxQueues, main"]}
{"id": "C145", "title": "Karl's picture shows the fleet", "statement": "For every status of a fleet: the text which Karl gives to dot is read, by the rules of DOT, as a graph with exactly one node for each service, with its table, one cluster for each machine with exactly its services, and one arrow for each dependency of a shown service on a shown service.", "quantifier": "all statuses: any number of machines, services and dependencies, and all texts in them", "why_tests_cant": "names, branches and addresses are texts from elsewhere, and the number of a node depends on all services before it", "anchors": ["karl/render.h: RenderFleetGraph, RenderServiceDependencies, RenderServiceGroupsByMachines", "karl/karl.h: BuildStatusAndRespondWithIt", "bricks/dot/graphviz.h: GenericGraph"]}
{"id": "C146", "title": "The history of a pad shows what is due", "statement": "For every history of a pad with positive timestamps: given a minute, the history program prints exactly one text, the first state of the pad at or after that minute (or the final one if the pad was finished before); without one, and with timestamps in order, it prints the first state, after it exactly those states which are the interval or more later than every state printed before, in order and each with its time since the start, and at last the final text.", "quantifier": "all documents of operational transformation, all flags", "why_tests_cant": "which states are printed depends on all those printed before, and timestamps are arbitrary", "anchors": ["utils/operational_transformation/history.cc: main, Processor", "utils/operational_transformation/ot.h: OT"]}
{"id": "C147", "title": "A timestamp is read as it was set", "statement": "For every object with a timestamp, through any nesting of structs and variants: MicroTimestampOf gives its timestamp and never a value which was not set; SetMicroTimestamp changes the timestamp and nothing else, what is set is read, the last one set counts, and setting what is read changes nothing; both throw exactly if a variant on the way is uninitialized, and then the object is unchanged.", "quantifier": "all objects, of any depth, and all timestamps", "why_tests_cant": "the nesting is arbitrary, and that nothing else changes is a statement about all fields", "anchors": ["typesystem/timestamp.h: MicroTimestampOf, SetMicroTimestamp", "typesystem/struct.h: CURRENT_USE_FIELD_AS_TIMESTAMP", "typesystem/variant.h: Call"]}
{"id": "C148", "title": "The fake stream sends the file", "statement": "For every file of a stream, every size of chunks and every moment of termination: the fake stream of the replication benchmark has sent at any moment a beginning of the file without its directive lines, it comes to an end, and if it is not terminated it has sent all, so that a client gets exactly the lines of the entries; and each generated entry has, with its newline, exactly the asked number of bytes.", "quantifier": "all files, chunk sizes, moments of termination, lengths and numbers of entries", "why_tests_cant": "where chunks are cut depends on the size and the file, and termination may come at any time", "anchors": ["examples/benchmark/replication/replication_server.cc: FakeStream::SubscriberThreadInstance::ThreadImpl", "examples/benchmark/replication/generate_stream.h: GenerateStream", "stream/replicator.h: PassChunkToSubscriber"]}
{"id": "C149", "title": "A push notification is reported as it went", "statement": "For every message, counter and behaviour of the service: a push with nothing to send posts nothing; any other posts exactly one request, for exactly the one device, with the text, the counter or the silent mark that was asked for; it reports success exactly if the service answers that one device was notified, and throws, as its documentation says, if the answer makes no sense or more than one device was notified.", "quantifier": "all messages, counters, devices, and all answers and failures of the service", "why_tests_cant": "the answers of the service are arbitrary, and exceptions pass through several handlers", "anchors": ["integrations/onesignal/ios_notifications_sender.h: IOSPushNotificationsSender, Push", "integrations/exceptions.h: IntegrationException"]}
{"id": "C150", "title": "A conversion event carries its parameters", "statement": "For every conversion and device: the request which the sender of conversion events makes goes to the proxy on its port and to the path of the conversion, and its query is read as exactly the four parameters with their values; the event is reported as sent exactly if the answer has the code 200.", "quantifier": "all conversions, labels, bundles and device identifiers, all ports and answers", "why_tests_cant": "the values are put into the text of a URL, which is parsed on the other side", "anchors": ["integrations/adwords/conversion_tracking.h: AdWordsMobileConversionEventsSender", "bricks/url/url.h: URL"]}
{"id": "C151", "title": "The message about a wrong JSON is true", "statement": "For every type, format and JSON: when parsing (or patching) throws the exception about a wrong schema, its message says what was expected, where, and what is there: the path in the message, followed from the root of the JSON, leads to the very value which the message shows (or to a member which is missing), this value is not what the message says was expected, and the path can be read back from its text. And parsing throws exactly if there is such a fault to report (or an uninitialized variant, or a failed assertion).", "quantifier": "all types of all depths, all formats, all JSON documents", "why_tests_cant": "the path is collected while descending into values of any depth, through all the kinds of containers", "anchors": ["typesystem/serialization/json/exceptions.h: JSONSchemaException", "typesystem/serialization/json/json.h: JSONParser::Inner, JSONParser::Path", "typesystem/serialization/json/*.h: DoDeserialize"]}
{"id": "C152", "title": "SHA256 is SHA-256", "statement": "For every string of bytes, SHA256(s) returns the 64 lower-case hexadecimal digits of the digest which FIPS 180-4 defines, whatever the memory held before. The pieces in which the bytes are added, the hashes read in the middle, and what was added before a reset make no difference.", "quantifier": "all byte strings of all lengths, all splits into pieces, all interleavings of add, getHash and reset, all contents of uninitialized memory", "why_tests_cant": "a wrong constant, rotation or padding branch shows on some lengths and bytes only; buffers are reused between calls", "anchors": ["bricks/util/sha256.h: SHA256", "3rdparty/stephan-brumme/sha256.h: SHA256"]}
{"id": "C153", "title": "Integers are written in JSON exactly", "statement": "Every integer of 32 and 64 bits, signed or not, is written in JSON as its decimal digits (with a minus if negative, no leading zeros), within the buffers reserved for it and the bounds of the table of digits; different integers are written differently; and what is written is read back as the same integer whatever follows it, with the types it is said to fit in being those it does fit in.", "quantifier": "all integers of 32 and 64 bits, all texts which may follow", "why_tests_cant": "the digits are produced by branches on the magnitude, with a table of pairs of digits; a mistake shows for some magnitudes only", "anchors": ["3rdparty/rapidjson/internal/itoa.h: u32toa, i32toa, u64toa, i64toa", "3rdparty/rapidjson/document.h: GenericValue(int), GenericValue(unsigned), GenericValue(int64_t), GenericValue(uint64_t), Accept", "3rdparty/rapidjson/writer.h: WriteInt, WriteUint, WriteInt64, WriteUint64", "typesystem/serialization/json/primitives.h"]}
{"id": "C154", "title": "A double printed in JSON identifies the double", "statement": "For every finite double, the text that JSON() prints is a number of the JSON grammar which is strictly nearer to that double than to every double of another value (infinity counted as 2^1024), so that every reader which rounds correctly gets the same double back; two different doubles (zero and minus zero included) are never printed the same; the digits are at most 17, without a leading zero, and the computation terminates. They are not always the fewest possible.", "quantifier": "all bits of finite doubles, every way of rounding the three floating point operations within IEEE 754 bounds", "why_tests_cant": "there are 2^64 doubles; the digits come from 64-bit products with rounded powers of ten, and an error of one unit at a boundary shows for a handful of them", "anchors": ["3rdparty/rapidjson/internal/dtoa.h: GrisuRound, CountDecimalDigit32, DigitGen, Grisu2, dtoa", "3rdparty/rapidjson/internal/diyfp.h: DiyFp, GetCachedPower, GetCachedPowerByIndex", "3rdparty/rapidjson/internal/ieee754.h: Double"]}
{"id": "C155", "title": "A short number in JSON is read to the nearest double; a long one may not be", "statement": "For every JSON number with a fraction or an exponent whose digits make a number below 2^53 (or representable and below 10^16), scaled by at most 10^22 up or down, ParseJSON yields the double nearest to the number: in particular a double for which JSON() printed such a text (fifteen digits at most always are) is read back with all its bits. No text makes ParseJSON read its table of powers of ten out of bounds. This does not extend to all doubles: the integer 8562898463574399 in a double is printed as 8562898463574399.0, and read as 8562898463574398.", "quantifier": "all number texts, all doubles, every way of breaking ties when rounding to nearest", "why_tests_cant": "round trips of a few values such as 0.5 or 3.14 are exact; about one random double in seven is not", "anchors": ["3rdparty/rapidjson/reader.h: ParseNumber", "3rdparty/rapidjson/internal/strtod.h: FastPath, StrtodNormalPrecision", "3rdparty/rapidjson/internal/pow10.h: Pow10"]}
{"id": "C156", "title": "A double read from JSON is within a few roundings of the number in the text", "statement": "For every JSON number with a fraction or an exponent, of n digits without the zeros in front, which ParseJSON reads as a double above 2^-1022, this double has the sign of the text and is off from the number in the text by at most 6 roundings, plus 2 for every digit from the seventeenth on (a rounding being a factor of 1 + 2^-53 either way): at most 9/2^53 of the number for up to seventeen digits. Doubles below that (subnormal, or zero), read of at most 190 digits, are off by at most another 2^-1074, the smallest positive double. Numbers of at most 190 digits below 2^1024 (by that margin) with an exponent of at most 308 are accepted. Hence every finite double between 2^-1000 and 10^308 in magnitude is accepted when it is read from the text JSON() printed for it, with its sign and an error of at most nine roundings (for up to seventeen digits).", "quantifier": "all number texts, all doubles, every way of breaking ties when rounding to nearest", "why_tests_cant": "the error depends on how the digits fall into 64 bits, on the digits left out and on the powers of ten: a sample of numbers shows typical errors, not the greatest", "anchors": ["3rdparty/rapidjson/reader.h: ParseNumber", "3rdparty/rapidjson/internal/strtod.h: FastPath, StrtodNormalPrecision", "3rdparty/rapidjson/internal/pow10.h: Pow10"]}
{"id": "C157", "title": "A time interval is printed with its sign and its whole seconds", "statement": "TimeIntervalAsHumanReadableString prints every interval shorter than 2^53 microseconds (285 years) as its exact number of whole seconds (rounded towards zero), in days, hours, minutes and seconds, the last three below 24, 60 and 60 and no unit greater than needed in front, after a minus sign if it is negative; two intervals are printed alike exactly if they have the same sign and the same whole seconds. For any longer interval the seconds may be one off. TimeDifferenceAsHumanReadableString says \"just now\" exactly for less than fifty milliseconds, and otherwise prints the magnitude followed by whether it is past or future.", "quantifier": "all intervals in microseconds but -2^63, every way of breaking ties when rounding to nearest", "why_tests_cant": "the seconds are computed in floating point, with a constant that is not exact: whether they are right at each of the 2^53 intervals, in particular next to whole seconds, is beyond testing", "anchors": ["bricks/strings/time.h: TimeIntervalAsHumanReadableString, TimeDifferenceAsHumanReadableString"]}
{"id": "C158", "title": "A wait with a terminate signal ends, truthfully", "statement": "WaitUntil of a WaitableTerminateSignal returns true only after SignalExternalTermination, and false only if the condition holds at that moment, with the mutex locked (given that the condition is changed under this mutex). After SignalExternalTermination, and whenever the condition holds from some time on, it returns, even if every notification is missed; the mutex is locked whenever the condition is evaluated and when it returns. NotifyAllOfExternalWaitableEvent of a bulk notifier reaches exactly the signals whose Scope is alive, if no signal has two scopes at a time.", "quantifier": "all schedules of the waiting thread and any number of others, all times of notifications, time-outs and spurious wake-ups, all histories of scopes", "why_tests_cant": "whether a notification falls between the evaluation of the condition and the blocking depends on the schedule, and a test cannot wait for ever", "anchors": ["bricks/util/waitable_terminate_signal.h: WaitableTerminateSignal, WaitableTerminateSignalBulkNotifier"]}
{"id": "C159", "title": "Printf returns the formatted text, whatever was printed before", "statement": "Printf returns the formatted text whole if it is shorter than 2^20 characters and contains no NUL, and otherwise its first 2^20 - 1 characters up to the first NUL; it reads and writes inside its buffers, and nothing of what earlier calls in the thread left in the static buffer shows up. (For texts shorter than 2^31 - 1 for which vsnprintf does not fail; not on Windows.)", "quantifier": "all texts, all sequences of calls in a thread", "why_tests_cant": "one character around either limit, or a long text before a short one, is enough to lose or to leak characters; the lengths and histories are without number", "anchors": ["bricks/strings/printf.h: Printf"]}
{"id": "C160", "title": "Random numbers of a thread depend on the seed it set before the first of them, and on nothing else", "statement": "In every process, the values that a thread gets from RandomInt, RandomDouble and so on are those of one mt19937_64 generator, seeded with the last value the thread passed to SetRandomSeed before its first draw, or, if there was none, with the time of that draw; the other threads have no influence, and SetRandomSeed after the first draw has no effect. With BRICKS_RANDOM_FIX_SEED all threads get the values of the same generator, whatever seeds are set. What the distribution guarantees of every value (its bounds) holds in every history.", "quantifier": "all interleavings of calls of all threads, all seeds, times and requests, all generators", "why_tests_cant": "seeding is state of a thread: whether another thread, or an earlier draw, interferes depends on the history, of which tests fix one", "anchors": ["bricks/util/random.h: SetRandomSeed, mt19937_64_tls, RandomIntegral, RandomReal", "bricks/util/singleton.h: ThreadLocalSingleton"]}
{"id": "C161", "title": "Keys that are equal have equal hashes, and the cells of a row collide only if their columns do", "statement": "GenericHashFunction gives equal durations the same hash, in whatever units they are given; different values of an enum have different hashes; and two pairs with the same first element have the same hash exactly if their second elements have, at any depth of nesting (every value is reached: for each pair and each other first element there is a hash of the second which collides). Durations are hashed by their microseconds, so that finer ones of the same microsecond collide. The comparator of enums is a strict total order.", "quantifier": "all keys, all hashes of the elements, all seeds, all units and counts", "why_tests_cant": "whether two of 2^64 hashes collide is not seen on samples; unequal hashes of equal keys would lose entries of unordered containers", "anchors": ["bricks/util/comparators.h: HashCombine, GenericHashFunction, CurrentComparator"]}
{"id": "C162", "title": "Every thread has exactly one object of each type of ThreadLocalSingleton", "statement": "In every interleaving of calls by all threads, two calls of ThreadLocalSingleton<T>() return the same object exactly if they are of the same thread and the same type; no type is constructed twice in a thread; what one thread does changes nothing of the singletons of another; and when a constructor asks for other singletons, these exist when it ends, at every depth. Singleton<T>() returns the same object to all. (For constructors that do not come back to their own type.)", "quantifier": "all sequences of calls by all threads, all ways in which constructors ask for other singletons", "why_tests_cant": "an object made twice, or shared between threads, shows only for particular orders of first calls and of constructors inside constructors", "anchors": ["bricks/util/singleton.h: Singleton, ThreadLocalSingleton", "bricks/util/singleton.h: ThreadLocalSingletonsFactory::DoGetInstance"]}
{"id": "C163", "title": "Objects made late are made of the arguments given early", "statement": "Every object that a LazilyInstantiated makes, whenever it is asked for and whatever is assigned to variables meanwhile, is made of the values the arguments had when DelayedInstantiate was called, preceded by the extra parameter given for this object, if any; only arguments given as std::ref are read when the object is made. Every object that is asked for is new, except that the shared one is made at most once until its pointer is reset, and all requests return it.", "quantifier": "all arguments, all histories of assignments and requests", "why_tests_cant": "between the call and the making of the object anything may happen; tests fix one history", "anchors": ["bricks/util/lazy_instantiation.h: DelayedInstantiate, DelayedInstantiateWithExtraParameter", "bricks/util/lazy_instantiation.h: LazilyInstantiated::InstantiateAsSharedPtr, InstantiateAsUniquePtr"]}
