# Design

Formal model of ovis-hpc/ovis (source in /repo, read as text) in Lean 4.33.0.
Modules live in `lean/Verif/`. Each subject has a model file (definitions with
file/line citations), a specification where one is needed, and a file of property theorems.

## Trusted base

* Lean's kernel (re-checked by `vcheck`).
* Axioms: at most `propext`, `Classical.choice`, `Quot.sound` (Lean's own). No axioms are added; no `sorry`, `native_decide`, `bv_decide`.
* The hand translation from C to Lean. Each definition cites the lines it models and says what it leaves out.

## Plan per property

* **C01** mm pool: live allocations never overlap and stay inside the pool. `Verif/Mm/` (shared core in `Verif/Alloc/`) pool model: chunk list keyed by start grain; `mm_alloc` best fit + split, `mm_free` glb/lub coalescing. Invariant by induction over op lists.
* **C02** mm pool: no grain is lost and free neighbours are always merged. Same model; the invariant is that free ++ live is a permutation of a tiling of [0,N), no two free chunks touch; corollary for the all-freed state.
* **C03** mm pool: allocation fails exactly when no free chunk is large enough, and picks the tightest. Same model; iff statement about the result of `alloc` in every reachable state.
* **C04** set heap: list entries of a set never overlap, are conserved and change the heap generation. `Verif/LHeap/`: the same style of model with the 4-byte prefix, 8-byte signature and generation counter. The in-bounds claim is false (chunk region overruns by the signature): witness + `_partial`.
* **C05** ordered tree: rbt behaves as an ordered multiset. `Verif/Rbt/`: tree with colours; insert and delete follow the C cases on a functional zipper; refinement to a sorted list of nodes.
* **C06** ordered tree: rbt stays balanced. Same model: RB invariants preserved; height bound.
* **C07** ovis_heap: pop returns the smallest element. `Verif/OvisHeap/`: array heap; multiset theorem; min property is false (wrong parent index): witness.
* **C08** event scheduler: the next timer fired is the earliest one. `Verif/Sched/` (shared array-heap core in `Verif/BinHeap/`): array heap with stored index; order invariant for insert/pop/update; removal defect witness.
* **C09** periodic timers fire on the phase-aligned grid, never in the past, never skipping a slot. `Verif/Sched/`: arithmetic of the next wakeup in microseconds.
* **C10** idx: radix index behaves as a finite map. `Verif/Idx/`: 256-ary trie; refinement to a partial map on byte lists.
* **C11** hash table and string map behave as finite maps. `Verif/Htbl/`: bucket array with arbitrary hash; refinement to an association map.
* **C12** reference counting frees exactly once, exactly at the last put. `Verif/Ref/`: multi-thread transition system, invariant count = outstanding references.
* **C13** event worker: each accepted post is delivered exactly once and in order. `Verif/Evw/`: worker state machine with immediate list, timer tree, posted flags; exactly-once by trace counting.
* **C14** send credits never exceed the peer's limit under any interleaving. `Verif/Credit/`: small-step interleaving model of the CAS loop for any number of threads; conservation invariant.
* **C15** rate credits bound the bytes sent per second. `Verif/Credit/`: same; sequential bound as `_partial`; interleaving counterexample as a theorem.
* **C16** rail connection: CONNECTED is reported exactly once, when all endpoints are connected, and exactly one terminal event follows. `Verif/RailConn/`: counters + state machine over endpoint event traces.
* **C17** streams: a published message of any length arrives whole. `Verif/StreamFrag/`: sender loop with fuel, receiver reassembly; theorem for messages that fit; divergence theorem otherwise.
* **C18** streams: each message reaches every current matching subscriber exactly once. `Verif/StreamSub/`: subscription registry; exactly-once count for every history.
* **C19** daemon messages: fragmentation then reassembly is the identity. `Verif/MsgBuf/`: sender buffer state machine and gatherer; round trip by induction.
* **C20** request attributes: what is encoded is what is found. `Verif/ReqAttr/`: byte-level encoder/decoder; round trip.
* **C21** schema digest strings round-trip and malformed ones are refused. `Verif/Digest/`: byte/hex conversion; round trip; acceptance defect witness.
* **C22** metric storage: metrics of a set never overlap and lie inside the set. `Verif/Layout/`: offset computation; disjointness and bounds; record-array defect witness.
* **C23** transactions: readers see the last committed snapshot. `Verif/Txn/`: ring of buffers; snapshot theorem.
* **C24** list metrics behave as sequences. `Verif/LList/`: doubly linked list over offsets; refinement to sequence; re-append defect witness.
* **C25** set info: local values override remote ones and are restored on unset. `Verif/SetInfo/`: two association lists; map semantics.
* **C26** timestamp differences are exact. `Verif/Timestamp/`: 32-bit arithmetic.
* **C27** access checks grant exactly what the permission bits allow. `Verif/Access/`: decision logic over bit masks.
* **C28** attribute-value lists: first match wins, tokenising preserves the pairs. `Verif/Av/`: tokenizer and lookups.
* **C29** JSON dictionaries: lookup finds the attribute with exactly that name. `Verif/JsonDict/`: bucketed dictionary with prefix compare; counterexample and `_partial`.
* **C30** transport thread statistics: the sliding window sum equals the sum of the window. `Verif/ThrStat/`: ring window; counterexample for reset and `_partial` without.
* **C31** endpoints are spread over io threads. `Verif/IoPool/`: list of threads with counts; balance invariant.
* **C32** configuration objects: names are unique per type and lookups are consistent. `Verif/CfgObj/`: registry with reference counts.
* **C33** stream publish credentials cannot be forged. `Verif/Cred/`: decision logic.
* **C34** configuration command parsing stays inside its buffers and keeps every argument. `Verif/CfgArgs/`: snprintf-into-buffer model with an out-of-bounds outcome.
* **C35** schema: metric names are unique and map to their index. `Verif/Schema/`: metric list.
* **C36** joined strings are complete or refused. `Verif/JoinBuf/`: buffer writer.
* **C37** memory-size and time strings are converted to the right magnitude. `Verif/MemSize/`: number parser with suffix.
* **C38** relocatable tree: a byte copy of a set's tree is the same tree. `Verif/Rrbt/`: memory = base + offset map; reads through base are translation invariant.
* **C39** set directory: names are unique, deleted sets disappear. `Verif/SetDir/`: registry state machine.
* **C40** updater and producer lifecycles reject out-of-order commands. `Verif/Lifecycle/`: producer/updater/storage-policy state machines.
* **C41** mm pool: realloc. `Verif/Mm/`: the property is false; two concrete histories, plus what does hold.
* **C42** set heap size: `Verif/LHeap/`: the size function against the allocator; counting argument over all insert histories.
* **C43** received requests: `Verif/ReqAttr/`: the validation loop and the handlers' walk over the same bytes; acceptance implies every later access is inside.
* **C44** name tables: `Verif/NameTab/`: sorted arrays with bsearch / linear tables as in the source; recognition is exactly membership.
* **C45** records and lists: `Verif/LList/`: pointer-level list with record back links.
* **C46** set info updates: `Verif/SetInfo/`: message encoder / decoder and the two dictionaries.
* **C47** ring of data copies pulled by a consumer: `Verif/RingUpd/`: producer and consumer as a transition system.
* **C48** environment variables in values: `Verif/Av/`: substitution loop at character level.
* **C49** daemon tasks: `Verif/Task/`: task, callback thread and callers as a transition system.
* **C50** synchronous tasks: `Verif/Task/`: arithmetic of the first wakeup.
* **C51** relocatable tree as multimap: `Verif/Rrbt/`: pointer-level programs in a state monad with faults; heap predicate `Rep`, Hoare-style rules, refinement to `Verif/Rbt`, frame by `Local`.
* **C52** remote memory access over the socket transport: `Verif/ZapRdma/`: two processes, maps, keys and the read/write/share handlers as a transition system; exactness and confinement of every remote access, defects as concrete histories.
* **C53** socket messages: `Verif/ZapFrame/`: byte-level encoder, send queue, receive buffer and handlers' field reads; a simulation between posted messages and the byte stream under any split and interleaving; for any peer an invariant of the receive buffer; defects as concrete streams.
* **C54** completions on a socket endpoint: `Verif/ZapIo/`: the queues of operations, work requests and finished sends with the peer as a FIFO of whole messages (justified by C53); an invariant that the operation queue is responses, then requests on the way, then unwritten requests; drain lemmas give completion on loss and on a healthy link; the hang of `zap_close` is a theorem about all continuations.
* **C55** life of a socket endpoint: `Verif/ZapEp/`: states, epoll registration, threads, references and events of an active and a passive endpoint with the channel between them; shapes of reachable endpoints and an invariant of what is on the way by how far each side has come; the order of events is a small automaton in the specification; impolite peers and early losses as defects.
* **C56** authentication of transports: `Verif/XprtAuth/`: one transport as a transition system over zap events, messages of an arbitrary peer and calls of the application; what is said of identity in terms of what the peer has shown in the history; any number of transports with an intruder who only repeats digests it has heard; two honest ends over an ordered connection. Digest and MUNGE are parameters.
* **C57** collecting and storing: `Verif/Pipeline/`: any number of producer sets and storage policies as a transition system, one step per critical section (directory, tick of an updater, callbacks of lookups and updates, one policy of the store loop, one set of a start or stop, loss of a set). Stored samples are compared with the samples the callbacks brought (a fold over the history); attachment and reference counts by invariants. Regular expressions, plugin opens and transport refusals are parameters.
* **C58** locks of the aggregator: `Verif/LockOrder/`: each routine is the sequence of mutexes it takes and releases along a path, with the visited objects as arguments; any number of threads run routines in any interleaving; joining a task is taking a pseudo-lock its callback has. No deadlock by an order of the locks; deadlocks of the routines that break the order are exhibited as runs. The mutexes of the libraries below and of failover are not represented.
* **C59** failover: `Verif/Failover/`: one daemon as a transition system whose events are the runs of the failover task, connection events, answers, requests of the peer and user commands; outcomes of sending, starting, stopping, deleting and the clock are arguments of the events. Causes of a takeover by an invariant that links the deadline in the state to the history; progress along runs in which the peer is silent; aborts are explicit. Two daemons are a product in which pings are answered with what the other one says. The values carried by the configuration messages are not represented.
* **C60** decomposition: `Verif/Decomp/`: the three decompositions as functions from a state (metric positions resolved per digest, row configurations per row schema name) and a set to rows. Sets are lists of named metrics (values, lists, record arrays); a read outside a record, a null member name and failed assertions are `crash`. The specification gives for a column a value per row and for a row schema the number of rows; the loop over rows is shown to agree by a relation between the walked column and the rest of its values, and the caches by an invariant over the history. Parsing of the JSON configuration is not represented.
* **C61** rows as JSON: `Verif/RowJson/`: the string buffers and the three printers over them (a piece that never fits is a run that needs more than any amount of fuel); the specification is an independent reader of RFC 8259 texts and the value of a row; reading back by induction over pieces, hanging and unescaped characters as defects.
* **C62** JSON texts: `Verif/JsonText/`: the scanner (longest match, first rule), the grammar, dictionaries in bucket order, the printing buffer with its address (a use of the old address is `none`) and the copier; the specification is the same RFC 8259 reader as for C61; completeness of the parser by induction over that reader, refusal of cut texts by a bracket count, printing by induction over entities.
* **C63** the directory: `Verif/Dir/`: the printing of a set piece by piece into a bounded buffer, the loop of the reply with its restarts (names may have lost their set; iterations bounded by a number the theorems quantify over), updates, and the peer that parses (with the model of C62) and decodes; the specification `shown` lists the fields of a set without JSON; proved by an invariant on the buffer (header and whole entries) and a round trip per set.
* **C64** lookups: `Verif/Lookup/`: the daemon asked as a function from the tree of sets to locks, unlocks and messages; the daemon that asks as a state machine of messages and ends of reads in any order, with the contexts of request and rail as things that can be freed; regular expressions, access and failures are parameters. The specification is a `Query` and what it wants; the client is proved by an invariant over sets told, being read and to come.
* **C65** pushes: `Verif/Push/`: a daemon with a set (bytes of metadata and of a ring of data), its registered peers and a history of writes, pushes, registrations and cancellations; a peer that copies what comes. The specification `expect` lists the memory of the daemon at each push the peer is registered for; proved by an invariant over histories and by putting the parts of a push together; any beginning of the messages is covered because calls only grow.
* **C66** CSV texts: `Verif/Csv/`: headers and lines as texts, from sets with lists of records and from rows. The specification is a reader of CSV by RFC 4180 that gives each field its name, and the cells expected of a set; proved by induction over fields, metrics, entries and the history. What breaks the table is shown by witnesses and, for lists, in general.
* **C67** CSV files: `Verif/CsvFile/`: the handle with its counters, the files by the times in their names, what the C library holds back, roll-over by rows, bytes and time, and crashes. The specification is the log of rows stored; invariants over all histories relate files, what is held back and the log. Sleeping times by arithmetic. Rows here are texts with a size; their content is C66.
* **C68** configuration files: `Verif/CfgFile/`: lines as `getline` gives them, cutting comments and spaces, joining lines in a buffer with a size, the two readings before and after initialisation, and includes with a fuel for their depth; the command language is a parameter. The specification describes a file by what the user writes (`Item`) and executions by lists of commands; induction over items, lines and nesting. Includes skipped in the second reading, self-inclusion, lost last commands, split commands and the one-byte overrun are proved as defects.
* **C69** requests in progress: `Verif/ReqTab/`: the tree of contexts as a list searched with `msg_comparator` (its 32-bit arithmetic included), records of requests and responses, reference counts, requests sent on for others, ends of connections. Specification: what is seen about one request against the events that concern it. Simulation by a machine for a single key for isolation; an invariant over the table and the outputs for forwarding; counterexample histories for the defects.
* **C70** values of metrics: `Verif/Mval/`: sets as bytes, with the byte order of the host as a parameter; the typed and generic setters and getters of scalars, arrays, strings, user data and members of records. Specification: the value read is the value set, the bytes of other metrics are unchanged (`SameValue`), one new generation. Proof: bytes of a number and back, areas of values that do not overlap; that sets of C22 have such areas (`mval_laid_partial`). The big endian and string defects by witnesses.
* **C71** sets and schedules of an updater: `Verif/UpdSel/`: one updater, producers, sets with hints and states, tasks and the events that change them; regular expressions are a parameter. Specification: the sets covered (`Mine`), the schedule they are due by (`Due`) and what they need (`Needs`); the requests of a run are exactly these, once. By an invariant over all histories every covered set with a hint has exactly one schedule.
* **C72** logging: `Verif/Log/`: subsystems with levels and reference counts, the queue of the logging thread, the file it writes to, names of levels. Specification: a log that writes at once (`S`), compared over all legal histories (`Run`); the set of levels a name or a list of names stands for. Undefined behaviour (unknown subsystem, a stream closed before) is explicit.
* **C73** deletion of a shared set: `Verif/SetDel/`: the set, its reference count, its connections (who listed it, pending notices), the processes at the other ends, the cleaning thread. Specification: `Run` over `Legal` steps; invariants per connection and a count of references. Use after free (`crash`) and the endless loop (`hang`) are explicit results.
* **C74** samples and jobs: `Verif/JobLabel/`: the slots, the tree of jobs and the slot list of the multi-tenant SLURM sampler, one event at a time, and the part of the sampler base that finds a job set and reads it. Specification: `Hist`, the jobs that are followed and the one started last; an invariant relates it to the slots. Reads are made one by one (`slotLabel` takes the set at each read), so a sample can overlap an event. Failed assertions and NULL pointers are explicit.
* **C75** Set groups: members as set information (on top of the `SetInfo` model) and the recursion of the updater over groups, as a function with a bound on the depth. Members by induction over the requests; the end of the recursion by counting ready sets, for any membership graph; which sets are updated by an invariant relating reachability before and after a visit; references by an invariant over histories of visits and answers.
* **C76** Owner of a sampler's set: `strtol` and the parsing of uid, gid, perm and component id as functions on bytes; numbers as people write them (`numeral`) are a separate specification, the parser is proved to read every one of them by induction over the numeral; composed with the access check of C27.
* **C77** Model the policy table and the plugin table with every strgp request, the failed-add clean-up, failover's policies, `load`/`term`, opening a store and the flush clock. A relation `Change` says what one step can do to one policy; unique names, distinct metrics and the plugin reference counts are invariants over all histories. The interval text, and the samples that flush, are specified in nanoseconds.
* **C78** Model `dump_cfg` as a writer of lines and the start of a daemon as a reader of the same text, down to bytes: comment and continuation handling (CfgFile), cutting into words, the attribute table (NameTab), environment expansion (Av), number texts, and the handlers. Prove for all configurations of single-word values that reading gives a daemon described without the file (`Again`), by induction over producers, plugins, updaters and policies; derive what is kept and what is not.
* **C79** (PeerCfg): messages as lists of attributes, text of numbers by the C conversions; the transfer is computed for all configurations by induction over producers, updaters, policies (per object lemmas `prdcr_made`, `updtr_made`, `pol_made`), own objects by an invariant over all histories, take-over and reset by induction over the trees of names.
* **C80** (Secret): bytes of the file, `fgets` with its buffer, `strtok_r`; the file system is a function for `stat` and one for `fopen`; induction over the lines of the file against a specification by lines; pigeonhole for repeated challenges; SHA-224 is an arbitrary function.
* **C81** (ProcSamp): bytes of the file, `fgets`/`sscanf` on lines, sets as names and values in the order of indices; `ldms_metric_set` beyond the end ends the process; pointers left by `base_del` are explicit.  What a file says is a separate relation (`Says`, `NetSays`).  Induction over the lines and over the history of samples.
* **C82** (Dstr): the block of the string with its bytes, the length, the capacity and the flag; `malloc` is an argument of each call (success and the bytes of the block); writes outside of a block are a fault.  Refinement to a client's view (text, dead) by an invariant that the block is as large as the capacity says; induction over the history of calls.
* **C83** (label sets): the translations of label-set.c as functions on byte lists, with the loop that never ends as a fault, the hash of a label as an arbitrary function and the map as a list of pairs. Uniqueness by induction over the history; alphabets, lengths and the injectivity of the text of the hash by lemmas about each translation. Directory `LabelSet`.
* **C84** Statistics of streams and clients: `StreamStat` models subscription, close, delivery and the reads and resets of the counters, with a history as ghost state. The counters of a report are compared with the messages of the history since the last reset (`Tally`, `rxOf`, `srcOf`, `clientOf`, `pairOf` in `StreamStat/Spec.lean`); an invariant over all actions gives every report. Three defects are proved with witnesses.
* **C85** `BlobFile`: the writer of stream messages to files as a transition system over configuration commands, messages and unloading, with a file system that maps names (directory, spooled, kind, second) to bytes. A ghost list of openings and their messages is the specification's history; an invariant says that the files of each opening hold the magic word and the records of its messages. Induction over the history; offsets by arithmetic on lengths; the repeated-opening, missing-path and same-second defects by general proof or witness.
* **C86** `DStream`: the older stream interface of the daemon as a state machine over calls; the specification (`subs`, `heard`, `rxOf`, `txOf`, `pxOf`) is recursive over the history of calls and shares nothing with the model. Lookups of a stream after each call give one lemma per call, and induction over the history gives the rest. Threads between finding a stream missing and making it are separate small steps, joined to the calls by `alone`.
* **C87** `FlatFile`: opening, storing and closing of the flat file store with an index of open records, handles of policies and files of lines; undefined behaviour is `none`. The specification reads files off the history (`owned`, `linesOf`, `written`). An invariant ties each policy's handle to a live record with the files of its metrics; the defects of reopening, sharing and naming by general proof or witness.
* **C88** (`PlugAttr`): the lists of options, the index of instances, banned and deprecated names and the lines of the options file as functions; what a line means is a relation on its words (`RowOf`, `FileOf`), and reading the file is proved sound and complete for it; queries are compared with the list of places they look at. Numbers (`Num`) are compared with the integer a string denotes; entries are proved to stay under any history of additions. Nine deviations are proved as `_defect`.
* **C89** (`PlugAttr/CanonModel`, `PlugAttr/Canon`): the two loops over the text of the options file as functions of its characters; the logical lines are a relation on lines (`Joined`), comments a predicate; the text left is proved to be the text of the cleared logical lines. Access outside the buffer is proved for two kinds of files.
* **C90** (`OvisMap`): the elements in the order of the tree, with any function as the hash; insertion keeps them ordered, ordered search is membership, and by induction on the history a key is found with its first value. A snapshot of length 0 is proved to write outside of its array.

## What is modelled

One directory of `lean/Verif` per subject; the citations in each `Model.lean` give files and lines.

| Source | Model | Not modelled there |
|---|---|---|
| `lib/src/mmalloc/mmalloc.c` | Alloc, Mm | locking, huge pages |
| `lib/src/coll/rbt.c`, `idx.c`, `htbl.c`, `str_map.c`, `heap.c` | Rbt, Idx, Htbl, OvisHeap | `rbt_verify`, `rbt_print`; labels, fnv hash is an arbitrary function |
| `lib/src/ovis_event/ovis_event.c` | Sched, Task, ThrStat | epoll, pipes; callbacks are arbitrary |
| `lib/src/ev/*` | Evw | thread creation, condition variables are fair waits |
| `lib/src/ovis_ref/ref.h` | Ref | debug trace of names |
| `lib/src/ovis_util/util.c` | Access, Av, JoinBuf, MemSize | file system helpers, `spooler`, process helpers |
| `lib/src/ovis_json/ovis_json.c`, `ovis_json_lexer.l`, `ovis_json_parser.y` | JsonDict, JsonText | tables flex and bison generate, line numbers in errors, merging of dictionaries |
| `lib/src/zap/zap.c` | IoPool, ThrStat | the `rdma`, `ugni` and `fabric` transports |
| `ldms/src/core/ldms_xprt_auth.c`, `ldms_zap_cb`, `ldms_zap_auto_cb`, `recv_cb` of `ldms/src/core/ldms_xprt.c`, `ldms/src/auth` | XprtAuth | strength of the digest and of MUNGE, failures of `ldms_xprt_sockaddr` and `munge_encode`, the callback of a rail beyond which events it gets, handlers of requests beyond whom they run for |
| `lib/src/zap/sock/zap_sock.c` | ZapRdma, ZapFrame, ZapIo, ZapEp | epoll registration, socket options, allocation failure |
| `ldms/src/core/ldms.c`, `ldms_core.h` | Schema, Layout, Txn, LList, SetInfo, SetDir, Digest, Timestamp, NameTab | printing of sets, file-backed sets |
| `ldms/src/core/ldms_heap.c`, `rrbt.c` | LHeap, Rrbt | `rrbt_verify` |
| `ldms/src/core/ldms_rail.c`, `ldms_stream.c` | Credit, RailConn, StreamFrag, StreamSub, Cred | statistics, quota of remote rails |
| `ldms/src/core/ldms_xprt.c` | RingUpd, SetInfo (messages), XprtAuth, Dir (directory), Lookup, Push | notifications of sets, deletion of remote sets, statistics |
| `ldms/src/ldmsd/ldmsd_request*.c` | MsgBuf, ReqAttr, CfgArgs, Access (gate), NameTab | the ~100 command handlers |
| `ldms/src/ldmsd/ldmsd_cfgobj.c`, `ldmsd_prdcr.c`, `ldmsd_updtr.c`, `ldmsd_strgp.c`, `ldmsd.c` | CfgObj, Lifecycle, Task, Pipeline, LockOrder | connection handling, storage plugins, pushed sets, the hint tree |
| `ldms/src/ldmsd/ldmsd_failover.c` | Failover | contents of the configuration messages, status command, locking |
| `ldms/src/ldmsd/ldmsd_decomp.c` | RowJson | loading of decomposers, allocation failure, formatting of floating point numbers |
| `ldms/src/decomp/` | Decomp | parsing of the configuration, `release_rows`, `generic`/`flex` registration, allocation failure |
| `ldms/src/store/store_csv.c`, `ldms/src/store/store_csv_common.c` | Csv (headers and lines), CsvFile (files, roll-over, buffering) | configuration, file of types, renaming and permissions of files, failure to open or write them |
| `ldms/src/ldmsd/ldmsd_config.c` (configuration files) | CfgFile (`__process_config_file`, `find_comment`, `include_handler`, the loops of `main`) | parsing of a line into a request (parameter; see ReqAttr, CfgArgs), failure of allocation and reading, deferral for failover |
| `ldms/src/ldmsd/ldmsd_request.c` (table of requests) | ReqTab (`msg_comparator`, `find_req_ctxt`, `alloc_req_ctxt`, `req_ctxt_ref_put`, `alloc_req_cmd_ctxt`, `free_req_cmd_ctxt`, `ldmsd_process_config_request`, `ldmsd_process_config_response`, `ldmsd_xprt_term`) | the handlers (which connections they send to is given), failure of allocation, records handled at the same time in several threads, the bytes of messages (see MsgBuf, ReqAttr), balance of the tree (see Rbt) |
| `ldms/src/core/ldms.c` (values of metrics) | Mval (`__mval_to_set`, `__mval_to_get`, `ldms_metric_set*`, `ldms_metric_get*`, `ldms_metric_array_*`, `ldms_metric_user_data_*`, `ldms_record_set*`, `ldms_record_get*`, `ldms_record_array_*`, `ldms_record_metric_set`, `ldms_record_metric_array_set`) | floating point arithmetic (values are bits), `ldms_mval_*` on bare values, lists (see LList), `ldms_metric_modify`, threads |
| `ldms/src/ldmsd/ldmsd_updtr.c`, `ldmsd_prdcr.c` (sets and hints) | UpdSel (`schedule_updates`, `schedule_prdcr_updates`, `ldmsd_updtr_tasks_update`, `updtr_tasks_create`, `__updtr_task_tree_cleanup`, `ldmsd_updtr_start`, `__ldmsd_updtr_stop`, `ldmsd_updtr_prdcr_add`, `ldmsd_updtr_prdcr_del`, `ldmsd_updtr_match_add`, `ldmsd_updtr_match_del`, `ldmsd_updtr_schedule_cmp`, `_add_cb`, `prdcr_dir_cb_upd`, `prdcr_dir_cb_del`, `__update_set_info`, `ldmsd_prd_set_updtr_task_update`, `ldmsd_strgp_update`) | push and group updaters, lookups and updates that fail at once, counters, the order of the trees (a tree is searched for an element that compares equal), parsing of the numbers of a hint, the lock-free window of a stop |
| `lib/src/ovis_log/ovis_log.c` | Log (`ovis_log_register`, `ovis_log_destroy`, `ovis_log_set_level*`, `ovis_vlog`, `ovis_log_open`, `ovis_log_close`, `log_actor`, `__log`, `__log_open`, `__log_reopen`, `__log_close`, `__cache_stdout_stderr`, `ovis_log_str_to_level`, `ovis_log_level_to_str`, `is_level_valid`) | the format of lines and time stamps, levels passed to syslog, failure of allocation, `ovis_log_list`, logging before `ovis_log_init` (without thread), calls from several threads between the lock regions |
| `ldms/src/core/ldms.c` (deletion), `ldms_xprt.c` (deletion notices) | SetDel (`__ldms_set_delete`, `__destroy_set`, `delete_proc`, `ldms_xprt_set_delete`, `__ldms_dir_del_set`, `process_set_delete_request`, `process_set_delete_reply`, `__set_delete_cb`, `__add_lookup_peer`, `__ldms_xprt_release_sets`, `handle_rendezvous_push` listing) | zap memory maps and their own references, failure of allocation, one set only, the copy at the other end as a flag |
| `ldms/src/sampler/slurm/slurm_sampler.c`, `ldms/src/sampler/sampler_base.c` (job data) | `JobLabel` | task arrays, sizes, names, uid and gid of jobs, the parsing of events, failed allocations, warnings, a read inside the handling of an event (an event is one step), several events during one sample, `slurm_sampler2.c` itself |
| `ldms/src/ldmsd/ldmsd_group.c`, `ldms/src/ldmsd/ldmsd_updtr.c` (groups, lookups and updates), `setgroup_ins/rm` handlers | `SetGroup` | push updaters; the second after a lookup; sets that are deleted or disconnected during a call; storage policies; concurrency inside a call (the producer's lock is held) |
| `base_auth_parse`, `base_auth_set`, component id (`sampler_base.c`), `ldms_set_default_authz`, `set_default_authz_handler` | `SetOwner` | the C library's `strtol` is modelled for 64-bit `long` in the C locale, without `0b` prefixes; user databases are arbitrary functions; errors of the lookup other than "unknown" |
| `strgp_add_handler` and the other strgp handlers, `ldmsd_strgp_start/stop/del/metric_*/prdcr_*`, `strgp_decompose`'s flush clock, `ldmsd_timespec_from_str`, `failover_cfgstrgp_handler`, plugin `load`/`term` reference counts | Strgp | Regular expression matching and compilation (`regexOk` is a parameter), floating point products outside exact integers (parameter `fp`), what a decomposition does (Decomp), the memory of rows and metric arrays, locks |
| `dump_cfg_handler`, `process_config_file`'s loop, `ldmsd_parse_config_str`, `prdcr_add/start/subscribe`, `updtr_add/prdcr_add/match_add/start`, `config`, `load` handlers as far as the file uses them | Dump | The lines `option`, `auth_add`, `listen` and `start`; regular expression matching (`rx`, `regexOk` are parameters), host names, plugins' own configuration (`takes`), attributes the file never has |
| `ldmsd_failover.c`: sending (`__failover_send_*`), the handlers of `CFGPRDCR`, `CFGUPDTR`, `CFGSTRGP`, `__peercfg_start/stop/delete/reset` | PeerCfg | the connection of the pair, pings (see Failover), references of sets to producers, subscription over a live transport |
| `ovis_auth/auth.c` (all), `__auth_ovis_new` | Secret | SHA-224 itself, `random_r` itself, failures of memory, reading errors in the middle of a file |
| samplers `meminfo.c`, `vmstat.c`, `procnetdev.c`, `procnetdev2.c`, `loadavg.c` (config, create_metric_set, sample, term) | ProcSamp | job data of `base_sample_begin`, the heap of a list in bytes (a number of records instead), floating point of loadavg (abstract), failures of memory, files that fail in the middle |
| `ovis_util/dstring.c` (all) | Dstr | NULL arguments, a text that is in the string itself (aliasing), `big_dstring.h` (the same with another size) |
| `coll/label-set.c` (insert, own, insert_pair, size, all translations), `third/b62encode.c` (8 bytes) | `LabelSet` | the tree of ovis-map.c, ownership of the texts, out of memory, get_label, get_id and the iterator (not implemented in the code) |
| `ldms/src/core/ldms_stream.c` statistics: `__stream_deliver`, `__counters_update`, `__stream_get_stats`, `ldms_stream_stats_tq_get`, `ldms_stream_client_stats_tq_get`, `ldms_stream_n_client_stats_reset` | StreamStat | interleaving of threads within a delivery, failing `malloc`, the JSON text of the statistics, order of streams and clients in the reports |
| `ldms/src/sampler/blob_stream/blob_stream_writer.c` | `BlobFile` | several streams sharing one lock, failures of directory, open, rename and memory calls, permissions, debug output, names of streams with slashes |
| `ldms/src/ldmsd/ldmsd_stream.c` | `DStream` | messages to the peer (see `MsgBuf`), `ldmsd_stream_publish_file`, text of the reports, failing allocations, overflow of counters |
| `ldms/src/store/store_flatfile/store_flatfile.c` | `FlatFile` | root directory and its configuration, buffering and flush, failing calls, formats of numbers, arrays (which the code leaves out) |
| `ldms/src/ldmsd/ldmsd_plugattr.c` | `PlugAttr` | the syntax of numbers (a parameter), `f64` and `szt`, NUL characters in files, logging, allocation failure, I/O errors; environment variables are a parameter (see `Av`) |
| `lib/src/coll/ovis-map.c` | `OvisMap` | the balancing of the tree (see `Rbt`), the hash function (a parameter), `ovis_map_insert_fast`, `ovis_map_visit`, `ovis_map_destroy`, allocation failure |

Samplers, store plugins, Python bindings, `ldms_ls` and `ldmsctl` front ends are not modelled.

## Ground rules of the models

* Undefined behaviour, a failed assertion, an abort and an access outside an object are explicit outcomes (`none` or a fault), never totalised away.
* Loops of the source are structural recursion on the data, or recursion on a fuel; where there is a fuel, theorems show how much is enough.
* Concurrency is a transition system whose steps are the critical sections (or single atomic instructions) of the source; theorems quantify over all interleavings and any number of threads.
* A theorem whose name ends in `_defect` proves that the property fails, with a concrete witness; the part that does hold is a theorem ending in `_partial` or has the excluded case in its hypotheses.

<!-- axioms:begin (generated) -->
## Axioms each manifest theorem depends on

Output of `#print axioms`, grouped; names without the leading `Verif.`.

**no axioms** (40):
BlobFile: dropped_defect, second_defect, stale_defect; Cred: cred_default; Credit: stream_publish_failure_leaks_credit_defect; CsvFile: csvfile_again_defect, csvfile_altheader_lost_defect, csvfile_empty_rolled_defect, csvfile_second_header_defect; Dstr: dead_stays; LList: append_array_count_defect, append_record_twice_defect, append_record_two_lists_defect; Lifecycle: updater_start_race_defect; Log: descriptors_defect; ProcSamp: config_once, term_good; ReqTab: reqtab_again_defect, reqtab_invalid_defect, reqtab_key_order_defect, reqtab_peer_gone_defect, reqtab_wrap_defect; RingUpd: mid_transaction_lost_defect, ring_skips_defect; Sched: sched_periodic_refires_defect, sched_periodic_skips_slot_defect; SetInfo: lookup_stale_defect, message_defect, message_key_defect, set_enomem_defect, set_null; Task: call_after_join_defect, first_slot_skipped_defect, resched_cancels_stop_defect, start_lost_defect; Txn: list_uncommitted_defect, meta_uncommitted_defect, single_uncommitted_defect, unset_metric_reverts_defect; UpdSel: updsel_order_defect.

**propext** (148):
Access: access_many_groups_defect, access_two_rights_defect; CfgFile: cfgfile_depth, cfgfile_first_error, cfgfile_pass, cfgfile_spaces, cfgfile_startup_partial; CfgObj: cfgobj_del_leaks_defect; Cred: stale_groups_defect; Credit: credit_acquire_finishes_alone, rate_clock_back_defect, rate_interleaving_defect, rate_refused_iff, rate_release_defect, rate_unlimited; DStream: buffer_defect; Digest: str_digest_accepts_junk_defect; Dump: asynchronous_defect, mode_defect, policies_kept_partial, schedule_kept_partial, updaters_kept_partial; Failover: both_collect_defect, refused_config_defect, stop_aborts_defect, stopped_pairs_defect; FlatFile: colon_defect, comp_defect, mixed_defect; Idx: idx_add_empty_key_defect; JobLabel: joblabel_app_of_other_job_defect, joblabel_app_sign_defect, joblabel_empty_list_crash_defect, joblabel_no_app_crash_defect, joblabel_reconfigured_abort_defect, joblabel_reconfigured_defect, joblabel_running_job_unlabelled_defect, joblabel_stale_set_defect; JoinBuf: join_buf_zero_defect; LList: append_last; Layout: late_member_array_defect, meta_misaligned_defect, record_array_type_defect, record_type_defect; Lifecycle: bad_interval_defect, producer_no_abort, producer_start_refused_partial, refused_start_defect, stuck_disconnected_defect, updater_start_second; Log: close_unopened_defect, default_level_all_defect, log_after_second_close_defect, log_passes_iff, open_after_syslog_defect, stdout_is_mark_defect; Lookup: lookup_access_defect, lookup_error_told, lookup_failed_defect, lookup_held_defect, lookup_lock_defect, lookup_midway_defect, lookup_sync_defect; Mval: big_endian_array_defect, big_endian_index_defect, big_endian_record_defect, mval_generation, string_end_defect, wrong_type_defect; OvisMap: insert_new; PlugAttr: deprecated_defect, empty_key_defect, last_comment_defect, plugin_key_defect; ProcSamp: term_failed_defect; Push: push_array_defect, push_failed_defect, push_not_writable, push_others_defect, push_overrun_defect, push_owner_defect, push_shown_defect, push_unregistered, push_wrap_defect; ReqTab: reqtab_disconnect_defect, reqtab_file_term_defect, reqtab_term; Sched: sched_sleep_overflow_defect; Schema: duplicate_member_defect; SetDel: setdel_cancel_notify_defect, setdel_late_answer_defect, setdel_loss_race_defect, setdel_never_released_defect, setdel_patience, setdel_push_loop_defect, setdel_user_defect; SetDir: expired_hidden_defect, publish_deleted_defect, reference_freed_defect; SetGroup: group_half_ins_defect, group_ins_null_defect, group_lookup_stuck_defect, group_name_too_long, group_second_lookup_defect, group_start_member_defect, group_stuck_defect; SetInfo: traverse_all, unset_notifies; SetOwner: lax_defect, sampler_perm_cut_defect; StreamStat: all_reset, drops_defect, null_defect, read_pure, uninit_defect; StreamSub: stream_bad_json_stops_defect, stream_concurrent_close_defect; ThrStat: reset_sum_defect; UpdSel: updsel_async_hint_defect, updsel_hint_partial; XprtAuth: approved_iff_told_partial, connected_needs_proof, connected_needs_verified, crash_defect, different_secrets_refused, handled_as_partial, late_auth_defect, nobody_before_connected, nothing_before_connected, one_attempt, op_table_defect, refusal_told, told_in_order, told_once_partial, unapproved_request_defect; ZapEp: accept_connects, ack_first_defect, early_loss_defect, only_early_loss_crashes, reference_dropped, repeated_request_defect, second_connect_defect, stray_connect_defect; ZapFrame: data_length_defect, huge_length_defect, short_message_defect; ZapIo: stray_response_defect, xid_zero_defect.

**Quot.sound** (1):
Cred: cred_refuse.

**propext, Quot.sound** (263):
Access: check_any; Av: add_spec, env_overflow_defect, env_result, idx_of, tokenize_words, value_first, words_exist; BlobFile: all_heard, all_written_partial, files_hold, later_defect, read_back_partial, result_defect; CfgArgs: kept_round_trip, words_spec; CfgFile: cfgfile_bad_line, cfgfile_bounds_partial, cfgfile_last_line, cfgfile_lines_partial, cfgfile_overrun_defect; Cred: cred_accept_partial; Credit: credit_unlimited_never_refused, link_bounded, link_conservation, link_send_result, rate_bound_partial, rate_sends_bounded_partial; CsvFile: csvfile_again, csvfile_altheader, csvfile_altheader_there_partial, csvfile_daily, csvfile_daily_defect, csvfile_daily_next, csvfile_flush_defect, csvfile_header_first, csvfile_header_once_partial, csvfile_roll_below_partial, csvfile_roll_size_partial, csvfile_rolled_partial, csvfile_rows; DStream: alone, calls_exact, overall_defect, pub_counts, race_defect, recv_counts, reset_defect, subscribe_result, subscriber_count; Digest: digest_str_ok; Dstr: huge_defect, init2_failed_defect, no_memory; Dump: flush_defect, limits_lost_defect, match_defect, metrics_lost_defect, not_started_defect, owner_lost_defect, producers_kept_partial; Evw: ev_cancel_twice_defect, ev_flush_before_start_lost_defect, ev_flush_misses_immediate_defect, ev_flush_status_partial, ev_post_refused_iff_flushing, ev_repost_hides_flush_defect, ev_timer_earliest, ev_timer_early_defect; Failover: connect_pairs, giving_back_is_told, objects_come_from_peer, old_object_kept_defect; FlatFile: files_partial, long_defect, more_defect, reopen_defect, shared_defect; JobLabel: joblabel_list, joblabel_no_crash_partial, joblabel_plain, joblabel_reference_leak_defect, joblabel_unusable, joblabel_unused; JoinBuf: join_buf_complete; JsonDict: json_prefix_add_defect, json_prefix_lookup_defect; JsonText: copy_partial, json_accepted, member_found_partial, string_raw; LList: append_record_busy_partial; LabelSet: fresh, last_resort_defect, no_hash_defect, pairs, pairs_defect, refused, small_limit_defect; Layout: data_aligned, instances_disjoint, late_member_overlap_defect, layout_complete, long_instance_name_defect, long_schema_name_defect, members_disjoint, meta_aligned_partial, record_array_misaligned_defect, record_array_overflow_defect; Lifecycle: producer_del, producer_stop, producer_stop_lasting_partial, stop_undone_defect, updater_requests; LockOrder: close_leaves_locked_defect, peer_request_deadlock_defect, policy_command_deadlock_defect, start_all_deadlock_defect, two_commands_deadlock_defect; Log: level_list_all; Lookup: lookup_bad, lookup_more_defect, lookup_name_error, lookup_no_name, lookup_refused, lookup_sets, lookup_sound; MemSize: mem_size_partial, mem_size_plain, mem_size_tera_defect; Mm: mm_alloc_overflow_defect, mm_alloc_small_grain_defect, mm_alloc_truncation_defect, mm_realloc_hangs_defect, mm_realloc_overlap_defect; MsgBuf: msg_send_framed; Mval: mval_bad_elem_partial, mval_bad_metric, mval_kinds, mval_record_bad_elem_partial, mval_user, user_data_generation_defect; NameTab: scalar_type_partial; OvisHeap: heap_pop_not_min_defect, heap_remove_wrong_node_defect; OvisMap: find_first, insert_unique, snapshot_partial, snapshot_zero_defect; Pipeline: count_after_stop_defect, failed_open_binds_defect, gone_set_stops_defect, group_leaks_defect, late_member_crash_defect, never_crashes, one_at_a_time, ready_after_storing, ready_again, stopped_is_closed, stored_in_order, stored_once, updated_again; PlugAttr: blank_first_defect, multi_defect, range_code_defect, u64_negative_defect, u64_partial, value_first; ProcSamp: config_says, full_table_defect, la_schema_inj, nd2_failed_defect, nd_missing_defect, nd_twice_defect; Push: push_fits; RailConn: rail_connect_after_reject_aborts_defect, rail_early_disconnect_silent_defect; Ref: ref_get_without_holding_double_free; ReqAttr: hton_ntoh_identity, swap_round_trip, validate_in_bounds_partial, validate_overflow_defect, validate_sound; RowJson: array_text, hang_is_forever, name_hang_defect, no_overrun, string_hang_defect; Rrbt: base_node_defect; Sched: sched_del_breaks_order_defect; Schema: duplicate_eexist, index_stable, metric_add, names_unique; Secret: challenge_bits_defect, concatenation_defect, lines_exist, long_comment_defect, named_file, pack_bytes, pack_unpack, rabbit_size_defect, race_defect, replies_differ, system_file, user_file; SetDel: setdel_late_lookup_defect, setdel_lost_reference_defect, setdel_rail_defect, setdel_starts, setdel_timeout_partial, setdel_transport_kept_defect; SetDir: reap_only_expired; SetGroup: group_leak_defect, group_lookup_members, lookup_answered, update_answered; SetInfo: message_roundtrip_partial; SetOwner: component_large_defect, defaults_perm_cut_defect, sampler_not_a_number_defect, uid_cut_defect; StreamFrag: stream_large_message_loops_defect; StreamStat: read_ok, stream_reset_partial; StreamSub: begin_closed; Strgp: add_without_name_defect, failed_add_without_permission_defect, no_interval_no_flush, peer_policy_unload_defect; Task: delay_grid, delay_next_slot, joined_quiet_partial, stays_stopped_partial, stop_takes_effect; ThrStat: scheduler_swapped_defect, stat_spec_partial, time_conserved; Timestamp: diff_earlier_partial, diff_exact, diff_wrap_defect; Txn: begin_gn, end_gn, set_gn; UpdSel: updsel_codes, updsel_one_schedule, updsel_only_fire, updsel_policy, updsel_start, updsel_steady, updsel_stop_race_defect; XprtAuth: another_holder_partial, other_plugin_refused, secret_was_used; ZapEp: active_in_order_partial, end_is_final, loss_ends, pair_in_order; ZapFrame: bad_connect_spins_defect; ZapRdma: address_wrap_defect, key_order_defect, other_peer_defect, short_write_defect.

**propext, Classical.choice, Quot.sound** (547):
Access: access_right_partial, command_gate; Av: env_expand_partial, to_string_empty_defect, to_string_tokenize; CfgArgs: args_kept, args_only_attrs_defect, args_overrun_defect, args_prefix_refused_defect, auth_add_args_partial, config_name_only_defect, default_auth_args_partial, default_auth_plugin_only_defect, env_args_partial, listen_args_partial, plugin_config_args_partial; CfgFile: cfgfile_backslash_end_defect, cfgfile_comment_in_command_defect, cfgfile_include_defect, cfgfile_self_include_defect; CfgObj: cfgobj_spec, iteration; Credit: credit_conservation, credit_refused_only_when_short; Csv: csv_array_defect, csv_empty_list_defect, csv_first_empty_defect, csv_long_name_defect, csv_mixed_list_defect, csv_mixed_records_defect, csv_numbers, csv_quote_defect, csv_rows_first_defect, csv_rows_schemas_defect, csv_rows_table_partial, csv_table_partial, csv_two_lists; CsvFile: csvfile_buffer, csvfile_crash_partial, csvfile_unbuffered; DStream: heard_partial, object_given, overall_pub, overall_recv_partial, overall_sums, parse_defect, publ_partial; Decomp: array_truncated_defect, as_is_empty_list_defect, as_is_rows_partial, as_is_short_digest_defect, as_is_type_defect, commit_count, fill_length_defect, flex_count_defect, flex_fail, flex_rows_partial, member_of_value_defect, mixed_records_defect, named_like_phony_defect, no_member_defect, short_name, short_record_defect, static_always_false, static_cells, static_history_partial, static_record_rows, static_rows_partial, static_type_mismatch, wrong_member_defect; Digest: digest_round_trip, str_digest_accepts, str_digest_parse_partial; Dir: dir_comma_defect, dir_complete_partial, dir_enomem_defect, dir_hang_defect, dir_lost_defect, dir_one_message, dir_quote_defect, dir_size_defect, dir_sound, update_access_defect, update_large, update_shown, update_unasked; Dstr: concat, dstring; Dump: any_file_sound, dot_defect, keyword_defect, never_started_defect, path_defect, path_whole, plugins_kept_partial, refused_config_defect, reload_again_partial; Evw: ev_defined, ev_exactly_once, ev_immediate_fifo, ev_no_lost_wakeup, ev_post_busy_iff, ev_timer_not_early_partial, ev_worker_drains; Failover: answer_gives_back, answer_is_true, copy_is_fresh_partial, last_eight_round_trips, manual_stop_defect, never_answered_defect, no_abort_partial, no_overlap_at_answer, own_is_started, own_never_stopped, own_start_has_cause, own_started_once, pairing_gives_back, policies_never_run, stop_cleans_partial, stop_command_gives_back, takeover_has_cause, takeover_partial; Htbl: htbl_count_correct, htbl_find_correct, htbl_iteration_correct, htbl_other_keys, str_map_get_correct, str_map_insert_result, str_map_remove_result; Idx: idx_add_result, idx_delete_aborts_defect, idx_delete_aborts_iff, idx_delete_result, idx_find_correct, idx_traverse_complete; IoPool: assign_choice, balanced, pool_spec; JobLabel: joblabel_complete, joblabel_during, joblabel_id_partial, joblabel_slot_sample, joblabel_slots, joblabel_sound; JsonDict: json_count_rem_partial, json_find_partial; JsonText: accepts_defect, copy_defect, cut_defect, cut_refused_partial, dump_json, dump_long_defect, dump_parse_partial, dump_same_partial, dump_scalar, dump_short, escape_defect, escape_dump_defect, parse_reads_partial, prefix_defect, range_defect; LHeap: lheap_all_freed_restores, lheap_alloc_best_fit, lheap_alloc_fails_iff, lheap_alloc_misaligned, lheap_blocks_disjoint_partial, lheap_calls_defined, lheap_coalesced, lheap_conservation, lheap_free_makes_room, lheap_gn_counts, lheap_overrun_defect, lheap_sized_for_k_holds_k, list_heap_holds_k; LList: list_history, purge_empty, remove_erase; LabelSet: alphabet, ascii_defect, barred, clean, digit_defect, hexadecimal, label_set_partial, length_partial, no_underscore_partial, served_partial, shortened, underscore_defect; Layout: heap_room, layout_disjoint_partial; Lifecycle: producer_start, strgp_requests; LockOrder: all_can_finish_partial, alone_finishes, done_holds_nothing, no_deadlock_partial, no_endless_run, one_holder, stuck_means_done_partial; Log: level_list_exact, level_list_refused, level_name_quiet, level_name_threshold, level_name_unknown, level_text_round_trip, log_by_name_answer, log_content_partial, log_default_followed, log_level_refused, log_level_set, log_names_unique, log_register_partial, log_safe_partial, log_table_exact, log_work_progress, quiet_in_list_defect, register_again_defect, set_by_regex_answer_defect, set_by_regex_invalid_defect; Lookup: lookup_error_reported, lookup_lock, lookup_name, lookup_name_told, lookup_none, lookup_prefix, lookup_told_partial; MemSize: mem_size_garbage_defect, mem_size_unknown, time_str_msec_defect, time_str_negative, time_str_unit_junk_defect, time_str_units_partial; Mm: mm_all_freed_restores, mm_alloc_best_fit, mm_alloc_fails_iff, mm_alloc_never_grain_aligned, mm_blocks_disjoint, mm_calls_defined, mm_coalesced, mm_conservation, mm_free_makes_room; MsgBuf: config_split_framed, msg_gather_framed, msg_round_trip, msg_send_needs_room; Mval: mval_elem_partial, mval_footprint, mval_laid_partial, mval_laid_record, mval_meta, mval_others, mval_range_partial, mval_record_elem_partial, mval_record_generic, mval_record_partial, mval_record_range_partial, mval_scalar, mval_str_partial, mval_txn; NameTab: attr_meaning, attr_recognised, record_inst_name_defect, scalar_type_overrun_defect, setgroup_mod_unreachable_defect, type_recognised, type_round_trip_partial, verb_meaning, verb_recognised; OvisHeap: heap_contents, heap_insert_fails_iff, heap_pop_min_partial, heap_pop_removes_one; PeerCfg: again_defect, all_run_partial, auth_defect, auto_defect, bridge_defect, drop_connected_defect, drop_policy_defect, long_name_defect, matches_defect, names_kept, offset_defect, own_kept, policies_partial, producers_partial, push_defect, reconnect_defect, regex_policy_defect, reset_partial, short_interval_defect, stopped_defect, stream_defect, takeover_partial, transfer_partial, updaters_partial; Pipeline: collected_is_attached_partial, collected_is_stored_partial, error_ends_updates_defect, exists_iff_used, refusal_ends_updates_defect, stopped_stores_nothing, stops_when_told_partial, stored_metrics; PlugAttr: add_partial, bool_spec, canonical_partial, check_count, create_complete, create_sound, deprecated_partial, entries_stay, file_deprecated_defect, key_collision_defect, kw_any, multi_partial, num_exact, single_word_defect; ProcSamp: la_faithful, la_leftover_defect, la_select, la_unknown, long_name_defect, many_names_defect, mem_config_cut, mem_config_dup, mem_faithful, mem_position, more_lines_defect, nd2_faithful, nd2_whole, nd_faithful, torn_defect, vm_config_bad, vm_config_dup, vm_faithful, vm_position, wrong_row_defect; Push: push_element, push_history_partial; RailConn: rail_abort_only_after_reject, rail_connected_iff, rail_terminal_at_most_once, rail_terminal_exactly_once_partial, rail_terminal_kind; Rbt: intCmp_lawful, rbt_balanced, rbt_find_correct, rbt_find_glb_correct, rbt_find_lub_correct, rbt_iteration_correct, rbt_refines_sorted_list, rbt_step_preserves; Ref: ref_count_wraps_defect, ref_free_at_most_once, ref_free_exactly_once, ref_nothing_after_free, ref_put_zero_iff_last, ref_puts_le; ReqAttr: error_reply_refused_defect, request_hton, request_lookup, validate_well_formed, validated_safe; ReqTab: reqtab_afresh, reqtab_answers_partial, reqtab_duplicate, reqtab_isolation, reqtab_key_order_partial, reqtab_no_start, reqtab_numbers, reqtab_outstanding_partial, reqtab_released_partial, reqtab_response_whole_partial, reqtab_whole; RingUpd: delivered_in_order, update_catches_up, update_lossless; RowJson: always_reads_back_false, array_reads_back_partial, avro_einval, avro_len_defect, avro_name_defect, avro_name_illegal_defect, avro_reads_back_partial, nan_defect, newline_defect, object_injective_partial, object_reads_back_partial, other_einval, quote_defect; Rrbt: copy_same, history_same, tree_history, tree_search_steps, tree_step; Sched: sched_add_result, sched_del_earliest_safe, sched_del_result, sched_fire_partial, sched_holds_exactly_the_live_timers, sched_periodic_first_slot_partial, sched_periodic_next_slot, sched_periodic_on_grid, sched_periodic_refires, sched_sleep_length, sched_sleeps_only_when_none_due_partial, sched_timeout_exact, sched_top_earliest_partial; Schema: metric_by_name, type_accepted, type_checks; Secret: carriage_return_defect, comment_defect, cut_word_defect, long_word_defect, rabbit_gives_partial, rabbit_inside, rabbit_partial, rabbit_space_defect, repeat_defect, reply_text, rest_ignored, secret_iff_partial, secret_protected; SetDel: setdel_all_considered, setdel_considered, setdel_free_after_partial, setdel_gone, setdel_no_early_free_partial, setdel_notice, setdel_program_told_partial, setdel_released_partial, setdel_safe_partial, setdel_told; SetDir: deleted_gone, dir_exact, names_unique, reap_all_expired_partial, reap_returned, set_calls_partial, set_refs_partial; SetGroup: group_members, group_members_follow, group_members_peer, group_other_info, group_safe_partial, group_stuck_forever_defect, group_update_ends, group_update_members, group_update_once; SetInfo: dir_transfers, info_history, lookup_end_to_end_partial, lookup_transfers, set_enomem_frame, set_notifies, traverse_spec; SetOwner: component_number, defaults_refused, defaults_set, sampler_default, sampler_owner, sampler_readers, sampler_refused, sampler_trailing_defect; StreamFrag: stream_delivered_partial, stream_large_message_never_delivered_defect, stream_second_fragment_aborts_defect; StreamStat: client_reset, client_stats, deliver_history, stream_stats; StreamSub: stream_at_most_once, stream_delivery_progress, stream_entries_iff, stream_exactly_once_partial, stream_only_subscribers; Strgp: add_accepted, add_makes, add_refused, changed_with_permission_partial, failed_add_deletes_defect, flush_means, flush_refused, flushed_iff, metric_added, metric_removed, metrics_are_distinct, names_are_unique, never_crashes_partial, opening_keeps, other_policies_untouched, peer_policy_deletion_defect, plugin_stays_partial, prdcr_added, prdcr_removed, refused_changes_nothing_partial, running_is_frozen, started, stopped_and_deleted, unflushed_is_recent, unloaded_iff_unused_partial; Timestamp: duration_exact; Txn: consistent_iff, end_duration, reader_sees_committed_partial, ring_keeps_history; UpdSel: updsel_config, updsel_covered_partial, updsel_fire, updsel_fire_state, updsel_order_partial, updsel_task_goes_on; XprtAuth: no_crash_partial, reflection_defect, rejected_means, same_secret_connects; ZapEp: passive_in_order_partial, sides_agree; ZapFrame: any_patch_level, buffer_never_overruns_partial, everything_arrives_partial, long_send_defect, received_in_order_partial, round_trip, stays_up_partial, stream_is_cut_by_length_partial; ZapIo: at_most_once, close_hangs_defect, completes_in_order, disconnected_is_final, flush_means_lost, healthy_completes_everything, loss_completes_everything, never_crashes_partial, refused_unless_connected, request_id_recorded, response_matches_partial, status_is_true; ZapRdma: no_undefined_behaviour_partial, remote_confined, remote_read_exact, remote_write_exact, share_announces_key, unmap_ends_access.
<!-- axioms:end -->
