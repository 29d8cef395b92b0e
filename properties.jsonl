{"id": "C01", "title": "mm pool: live allocations never overlap and stay inside the pool", "statement": "After any sequence of mm_alloc and mm_free calls on a pool created by mm_init, every pair of blocks returned and not yet freed are disjoint byte ranges, each block is at least as large as requested, lies wholly inside the pool, and starts a fixed prefix after a grain boundary.", "quantifier": "every pool size and grain accepted by mm_init and every finite history of mm_alloc/mm_free calls (frees only of live blocks)", "why_tests_cant": "Overlap depends on the exact split/coalesce history; the number of histories is unbounded.", "anchors": ["lib/src/mmalloc/mmalloc.c: mm_init, mm_alloc, mm_free"]}
{"id": "C02", "title": "mm pool: no grain is lost and free neighbours are always merged", "statement": "At every point the free chunks and live blocks partition the pool, no two free chunks are adjacent, and once every live block has been freed the pool is again one free chunk of the original size.", "quantifier": "every pool and every finite history of mm_alloc/mm_free calls", "why_tests_cant": "Leak or fragmentation appears only for particular release orders; all orders must be covered.", "anchors": ["lib/src/mmalloc/mmalloc.c: mm_alloc, mm_free"]}
{"id": "C03", "title": "mm pool: allocation fails exactly when no free chunk is large enough, and picks the tightest", "statement": "mm_alloc returns NULL if and only if no free chunk has at least the rounded request size; otherwise it takes the front of a smallest sufficient free chunk and leaves the rest free.", "quantifier": "every reachable pool state and every request size", "why_tests_cant": "Spurious failure requires particular free-list shapes, of which there are unboundedly many.", "anchors": ["lib/src/mmalloc/mmalloc.c: mm_alloc", "lib/src/coll/rbt.c: rbt_find_lub"]}
{"id": "C04", "title": "set heap: list entries of a set never overlap, are conserved and change the heap generation", "statement": "After any sequence of ldms_heap_alloc and ldms_heap_free on an initialised set heap the live entries are pairwise disjoint and at least as large as requested, free chunks and live entries partition the managed region, free neighbours are merged, and each successful alloc or free increments the heap generation number by one. Every entry lies inside the memory the set reserved for the heap.", "quantifier": "every heap size and grain and every finite history of heap operations", "why_tests_cant": "Depends on unbounded allocation histories and on the boundary arithmetic of every size.", "anchors": ["ldms/src/core/ldms_heap.c: ldms_heap_init, ldms_heap_alloc, ldms_heap_free, ldms_heap_size, ldms_heap_alloc_size", "ldms/src/core/ldms.c: ldms_set_create"]}
{"id": "C05", "title": "ordered tree: rbt behaves as an ordered multiset", "statement": "rbt_ins, rbt_del, rbt_find, rbt_find_lub, rbt_find_glb, rbt_min, rbt_max, rbn_succ and rbn_pred on a tree behave like the same operations on a sorted list: traversal returns all inserted-and-not-deleted nodes in non-decreasing key order, equal keys in insertion order, find succeeds exactly when a node with that key is present, lub/glb return a node with the least key >= / greatest key <= the argument, and the cardinality equals the number of nodes.", "quantifier": "every totally ordered key type, every finite history of insertions and deletions, every lookup key", "why_tests_cant": "Rebalancing has many shape-dependent cases; histories and trees are unbounded.", "anchors": ["lib/src/coll/rbt.c", "lib/src/coll/rbt.h"]}
{"id": "C06", "title": "ordered tree: rbt stays balanced", "statement": "After any history of rbt_ins and rbt_del the root is black, no red node has a red child, and every root-to-leaf path carries the same number of black nodes; hence a lookup visits at most 2*log2(n+1) nodes.", "quantifier": "every finite history of insertions and deletions", "why_tests_cant": "Imbalance after delete shows only in specific shapes of unbounded size.", "anchors": ["lib/src/coll/rbt.c: rbt_ins, rbt_del, delete_case1..delete_case6"]}
{"id": "C07", "title": "ovis_heap: pop returns the smallest element", "statement": "ovis_heap_pop returns an element no larger than any other in the heap, removes exactly that element, and ovis_heap_insert adds exactly one element, failing with ENOMEM only when the heap is full.", "quantifier": "every finite history of inserts and pops", "why_tests_cant": "Heap order violations depend on the insertion order; all orders must be covered.", "anchors": ["lib/src/coll/heap.c: ovis_heap_insert, ovis_heap_pop, float_up, sink_down"]}
{"id": "C08", "title": "event scheduler: the next timer fired is the earliest one", "statement": "The event at the top of the scheduler heap always has the least expiry among all registered timers, after any history of adds, deletions, expirations and updates, and adding or removing an event changes exactly that event.", "quantifier": "every finite history of ovis_scheduler_event_add / event_del / dispatch operations", "why_tests_cant": "Wrong order after a removal needs a specific heap shape.", "anchors": ["lib/src/ovis_event/ovis_event.c: ovis_event_heap_insert, ovis_event_heap_remove, ovis_event_heap_update, ovis_event_heap_sink, ovis_event_heap_float"]}
{"id": "C09", "title": "periodic timers fire on the phase-aligned grid, never in the past, never skipping a slot", "statement": "After a periodic event is scheduled at time `now`, its next wakeup is congruent to the phase modulo the period, is not in the past, and is at most one period ahead; a relative timeout fires exactly the requested time later.", "quantifier": "every current time, period and phase (phase < period)", "why_tests_cant": "Boundary cases (now exactly on the grid, second/microsecond carry) form an infinite set.", "anchors": ["lib/src/ovis_event/ovis_event.c: __get_ev_period_wakeup, ovis_event_time_diff"]}
{"id": "C10", "title": "idx: radix index behaves as a finite map", "statement": "idx_find returns the object most recently added for the key and not deleted since, idx_add fails with EEXIST exactly when the key is present and changes nothing then, idx_delete returns the removed object, and operations on one key never affect another key.", "quantifier": "every set of non-empty byte-string keys, including keys that are prefixes of each other, and every finite history", "why_tests_cant": "Interference between keys depends on shared prefixes of arbitrary length.", "anchors": ["lib/src/coll/idx.c: idx_find, idx_add, idx_delete"]}
{"id": "C11", "title": "hash table and string map behave as finite maps", "statement": "htbl_find returns an entry with the requested key iff one is present, htbl_ins/htbl_del change only that entry, the iterator visits every entry once, and str_map_insert/get/remove return EEXIST/ENOENT exactly when the key is/is not present.", "quantifier": "every key, every table size, every hash function, every finite history", "why_tests_cant": "Collisions make behaviour history dependent; hash functions and histories are unbounded.", "anchors": ["lib/src/coll/htbl.c", "lib/src/coll/str_map.c", "lib/src/coll/fnv_hash.c"]}
{"id": "C12", "title": "reference counting frees exactly once, exactly at the last put", "statement": "An object under ref_init/ref_get/ref_put runs its destructor exactly once, on the put that matches the last outstanding get, under any interleaving of threads that each only put references they hold.", "quantifier": "every number of threads and every interleaving of gets and puts", "why_tests_cant": "Schedules are unbounded.", "anchors": ["lib/src/ovis_ref/ref.h: ref_init, ref_get, ref_put"]}
{"id": "C13", "title": "event worker: each accepted post is delivered exactly once and in order", "statement": "An event accepted by ev_post (return 0) is delivered to its actor exactly once, either at/after its time with status OK or during a flush with status FLUSH; a second post before delivery is refused with EBUSY; immediate events are delivered in posting order.", "quantifier": "every finite interleaving of posts, worker steps, flushes and clock advances", "why_tests_cant": "Loss or duplication depends on the schedule.", "anchors": ["lib/src/ovis_ev/ev.c: ev_post, ev_cancel, ev_flush", "lib/src/ovis_ev/evw.c: worker_proc, process_immediate_events, process_to_events"]}
{"id": "C14", "title": "send credits never exceed the peer's limit under any interleaving", "statement": "With credits initialised to the receiver's limit L, the number of bytes sent and not yet credited back never exceeds L, credits in hand plus bytes outstanding always equal L, a send is refused with ENOBUFS only when credits are insufficient, and an unlimited endpoint is never refused.", "quantifier": "every number of concurrent senders, every interleaving of the acquire compare-and-swap loop with releases", "why_tests_cant": "Races on the CAS loop are schedule dependent.", "anchors": ["ldms/src/core/ldms_rail.c: __credit_acquire, __credit_release, __rail_send, __rail_process_send_credit"]}
{"id": "C15", "title": "rate credits bound the bytes sent per second", "statement": "Within one clock second an endpoint with rate limit R grants acquisitions of at most R bytes in total.", "quantifier": "every history and interleaving of rate-credit acquire and release and every clock behaviour", "why_tests_cant": "The violation needs a specific interleaving across a second boundary.", "anchors": ["ldms/src/core/ldms_rail.c: __rate_credit_acquire, __rate_credit_release"]}
{"id": "C16", "title": "rail connection: CONNECTED is reported exactly once, when all endpoints are connected, and exactly one terminal event follows", "statement": "For a connecting rail of n endpoints the application sees a CONNECTED event iff all n endpoints connected, and sees exactly one terminal event (REJECTED, ERROR or DISCONNECTED) after every endpoint has gone down, never before.", "quantifier": "every n >= 1 and every order of endpoint events", "why_tests_cant": "Orders of endpoint events grow factorially with n.", "anchors": ["ldms/src/core/ldms_rail.c: __rail_cb, __rail_ev_prep, __rail_cut"]}
{"id": "C17", "title": "streams: a published message of any length arrives whole", "statement": "For every stream name, message and transport message limit, the fragments sent by a publisher, processed in order by the receiver, yield exactly one delivery whose name and data equal those published.", "quantifier": "every message length, name length and maximum message size larger than the fragment header", "why_tests_cant": "Depends on the relation between three unbounded lengths.", "anchors": ["ldms/src/core/ldms_stream.c: __part_send, __process_stream_msg, __rep_publish"]}
{"id": "C18", "title": "streams: each message reaches every current matching subscriber exactly once", "statement": "A message published on a stream is delivered exactly once to each client whose subscription (exact name or pattern) matches and is open, and to no other, whether the client subscribed before or after the stream first appeared.", "quantifier": "every history of subscribe, close and publish and every matching predicate", "why_tests_cant": "Order of subscriptions relative to stream creation creates unboundedly many histories.", "anchors": ["ldms/src/core/ldms_stream.c: __stream_get, __client_subscribe, __stream_deliver, ldms_stream_close"]}
{"id": "C19", "title": "daemon messages: fragmentation then reassembly is the identity", "statement": "Whatever sequence of buffer appends an ldmsd sender makes between start-of-message and end-of-message, the records it emits are each no longer than the transport limit, only the first carries SOM, only the last carries EOM, and gathering them in order returns one message whose payload is the concatenation of the appended data; every record but the last reports 'more to come'.", "quantifier": "every buffer size larger than the header and every sequence of appends of every length", "why_tests_cant": "Off-by-one at buffer boundaries depends on unbounded length combinations.", "anchors": ["ldms/src/ldmsd/ldmsd_request_util.c: ldmsd_msg_buf_send, ldmsd_msg_gather, ldmsd_parse_config_str"]}
{"id": "C20", "title": "request attributes: what is encoded is what is found", "statement": "Looking up an attribute id in a request built from a list of attributes returns the first one with that id, or nothing if there is none; converting a request to network byte order and back is the identity.", "quantifier": "every list of attributes with every value length", "why_tests_cant": "Walking a packed variable-length encoding must be right for every combination of lengths.", "anchors": ["ldms/src/ldmsd/ldmsd_request_util.c: add_attr_from_attr_str, ldmsd_req_attr_get_by_id, ldmsd_hton_req_msg, ldmsd_ntoh_req_msg"]}
{"id": "C21", "title": "schema digest strings round-trip and malformed ones are refused", "statement": "Formatting any 32-byte digest and parsing it back returns the same digest; a string that is not exactly 64 hexadecimal digits is refused; a buffer shorter than 65 bytes is refused.", "quantifier": "every digest value and every string", "why_tests_cant": "2^256 digests; all strings.", "anchors": ["ldms/src/core/ldms.c: ldms_digest_str, ldms_str_digest"]}
{"id": "C22", "title": "metric storage: metrics of a set never overlap and lie inside the set", "statement": "In any set created from any schema, the storage of two different metrics, of their descriptors and of the set header, names and list heap are disjoint and lie within the bytes allocated for the set; every value is 8-byte aligned.", "quantifier": "every schema (any number, type, flag and length of metrics) and all names within the length limits", "why_tests_cant": "Layout arithmetic must hold for every combination of metric kinds.", "anchors": ["ldms/src/core/ldms.c: compute_set_sizes, ldms_set_create, __make_mdesc, __ldms_value_size_get"]}
{"id": "C23", "title": "transactions: readers see the last committed snapshot", "statement": "Between ldms_transaction_begin and ldms_transaction_end a reader of an array-backed set gets exactly the values committed by the previous transaction, and after end gets the new ones; other buffers keep their history; the transaction duration equals end minus begin and the data generation increases.", "quantifier": "every ring size, every sequence of transactions and metric updates", "why_tests_cant": "Buffer reuse depends on the number of transactions modulo the ring size.", "anchors": ["ldms/src/core/ldms.c: ldms_transaction_begin, ldms_transaction_end, __mval_to_get, __mval_to_set"]}
{"id": "C24", "title": "list metrics behave as sequences", "statement": "ldms_list_append_item, remove_item, purge, first, next and len on a list metric act as on a finite sequence: append adds at the end, remove deletes exactly that entry and preserves the order of the others, traversal yields each entry once, len is the number of entries.", "quantifier": "every finite history of list operations", "why_tests_cant": "Linked-list corruption depends on position and history.", "anchors": ["ldms/src/core/ldms.c: ldms_list_append_item, ldms_list_remove_item, ldms_list_purge, ldms_list_append_record, ldms_list_first, ldms_list_next, ldms_list_len"]}
{"id": "C25", "title": "set info: local values override remote ones and are restored on unset", "statement": "ldms_set_info_get returns the locally set value for a key if there is one, otherwise the value received from the peer, otherwise nothing; setting or unsetting one key never affects another.", "quantifier": "every history of set/unset operations and every key", "why_tests_cant": "Histories are unbounded.", "anchors": ["ldms/src/core/ldms.c: ldms_set_info_set, ldms_set_info_unset, ldms_set_info_get, __set_info_find"]}
{"id": "C26", "title": "timestamp differences are exact", "statement": "ldms_difftimestamp(after, before) equals after minus before in seconds when after is not earlier, and 0 otherwise; the duration a transaction reports is the time from its begin to its end.", "quantifier": "every pair of 32-bit second/microsecond timestamps", "why_tests_cant": "2^128 input pairs with borrow boundaries.", "anchors": ["ldms/src/core/ldms.c: ldms_difftimestamp, ldms_transaction_end, ldms_transaction_duration_get"]}
{"id": "C27", "title": "access checks grant exactly what the permission bits allow", "statement": "A request for access bits on an object is granted iff every requested right is permitted to the requester through ownership, group or other bits (root may do anything); a daemon command received over a transport runs only if its permission bits let the peer execute it.", "quantifier": "every requester uid/gid, owner uid/gid, permission mask and requested mask", "why_tests_cant": "The full space of uids, gids and masks.", "anchors": ["lib/src/ovis_util/util.c: ovis_access_check, __uid_gid_check", "ldms/src/core/ldms_xprt_auth.c: ldms_access_check", "ldms/src/ldmsd/ldmsd_request.c: ldmsd_handle_request"]}
{"id": "C28", "title": "attribute-value lists: first match wins, tokenising preserves the pairs", "statement": "Tokenising a command string yields its whitespace-separated words in order, split at the first '='; av_value returns the value of the first pair with that name and NULL iff there is none; av_idx_of identifies unique names.", "quantifier": "every command string and name", "why_tests_cant": "All strings.", "anchors": ["lib/src/ovis_util/util.c: tokenize, av_value, av_idx_of, av_add"]}
{"id": "C29", "title": "JSON dictionaries: lookup finds the attribute with exactly that name", "statement": "After any sequence of json_attr_add and json_attr_rem on a dictionary, json_attr_find(name) returns the last value added under exactly that name and not removed, and nothing otherwise; other names are unaffected.", "quantifier": "every history and every attribute name", "why_tests_cant": "Hash collisions between related names are rare in tests.", "anchors": ["lib/src/ovis_json/ovis_json.c: json_attr_find, json_attr_add, json_attr_rem, attr_cmp"]}
{"id": "C30", "title": "transport thread statistics: the sliding window sum equals the sum of the window", "statement": "At any time the accumulated wait and processing time reported for an io thread equals the sum of the most recent samples held in the window, including after a statistics reset.", "quantifier": "every sequence of samples and resets and every window size", "why_tests_cant": "Needs more samples than the window plus a reset; unbounded.", "anchors": ["lib/src/zap/zap.c: zap_thrstat_reset, zap_thrstat_wait_start, zap_thrstat_wait_end, zap_accumulate"]}
{"id": "C31", "title": "endpoints are spread over io threads", "statement": "A new endpoint goes to an idle io thread if there is one, otherwise to a new thread while the limit allows, otherwise to a thread with the fewest endpoints; so without releases thread loads never differ by more than one, no more than the limit of threads is created, and every endpoint is on exactly one thread.", "quantifier": "every history of endpoint assign and release and every thread limit", "why_tests_cant": "Histories are unbounded.", "anchors": ["lib/src/zap/zap.c: zap_io_thread_ep_assign, zap_io_thread_ep_release"]}
{"id": "C32", "title": "configuration objects: names are unique per type and lookups are consistent", "statement": "ldmsd_cfgobj_new fails with EEXIST iff an object of that type and name exists; find returns exactly the object created and not deleted; iteration visits all objects in name order; an object is destroyed exactly when its last reference is put.", "quantifier": "every finite history of new/find/put/del across object types", "why_tests_cant": "Histories are unbounded.", "anchors": ["ldms/src/ldmsd/ldmsd_cfgobj.c"]}
{"id": "C33", "title": "stream publish credentials cannot be forged", "statement": "A message carrying a claimed uid/gid different from the sender's is accepted only if the claimed uid is one of the sender's ids or it has CAP_SETUID, and likewise for the gid with supplementary groups and CAP_SETGID; otherwise EPERM.", "quantifier": "every credential, group list and capability set", "why_tests_cant": "The whole credential space.", "anchors": ["ldms/src/core/ldms_stream.c: __publish_cred_check"]}
{"id": "C34", "title": "configuration command parsing stays inside its buffers and keeps every argument", "statement": "For every configuration line, encoding its plugin arguments writes only inside the allocated buffer and the encoded string contains exactly the arguments given (apart from the filtered ones) in order.", "quantifier": "every attribute list", "why_tests_cant": "Buffer arithmetic for all argument lists.", "anchors": ["ldms/src/ldmsd/ldmsd_request_util.c: __ldmsd_parse_plugin_config, __ldmsd_parse_env, __ldmsd_parse_listen_req"]}
{"id": "C35", "title": "schema: metric names are unique and map to their index", "statement": "Adding a metric whose name is already in the schema fails with EEXIST and changes nothing; otherwise it returns the next index; ldms_metric_by_name of that name returns that index in every set created from the schema.", "quantifier": "every sequence of metric additions", "why_tests_cant": "All schemas.", "anchors": ["ldms/src/core/ldms.c: __schema_mdef_add, ldms_metric_by_name, ldms_schema_metric_add_template"]}
{"id": "C36", "title": "joined strings are complete or refused", "statement": "ovis_join_buf writes the path components joined by the separator, never exceeding the buffer and always terminated, and reports E2BIG exactly when it does not fit.", "quantifier": "every component list, separator and buffer length >= 1", "why_tests_cant": "All strings and lengths.", "anchors": ["lib/src/ovis_util/util.c: ovis_join_buf"]}
{"id": "C37", "title": "memory-size and time strings are converted to the right magnitude", "statement": "ovis_get_mem_size of a decimal number with suffix b/k/m/g/t is the number times 1, 2^10, 2^20, 2^30, 2^40; ovis_time_str2us of a number with a documented unit is that time in microseconds; a malformed string is refused.", "quantifier": "every number and suffix", "why_tests_cant": "All strings.", "anchors": ["lib/src/ovis_util/util.c: ovis_get_mem_size, ovis_time_str2us"]}
{"id": "C38", "title": "relocatable tree: a byte copy of a set's tree is the same tree", "statement": "The offset-based tree embedded in a set gives the same lookups, minima, maxima and successors after the memory holding it is copied to any other base address, and insertions/deletions through one mapping are seen through any other.", "quantifier": "every base address, every tree, every history", "why_tests_cant": "All base addresses and trees.", "anchors": ["ldms/src/core/rrbt.c", "ldms/src/core/rrbt.h"]}
{"id": "C39", "title": "set directory: names are unique, deleted sets disappear", "statement": "Creating a set with an existing instance name fails with EEXIST; a set is visible in the directory exactly between publish and unpublish/delete; delete removes it from lookups by name and id while outstanding references stay valid.", "quantifier": "every finite history of create, publish, unpublish, delete, get and put", "why_tests_cant": "Histories are unbounded.", "anchors": ["ldms/src/core/ldms.c: __record_set, ldms_set_publish, ldms_set_unpublish, ldms_set_delete, ldms_set_by_name"]}
{"id": "C40", "title": "updater and producer lifecycles reject out-of-order commands", "statement": "A producer or updater can be started only when stopped, stopped only when running, and deleted only when stopped and unreferenced; every other request returns EBUSY/EALREADY-style errors and leaves the object unchanged.", "quantifier": "every history of start/stop/del requests and connection events", "why_tests_cant": "Histories are unbounded.", "anchors": ["ldms/src/ldmsd/ldmsd_prdcr.c", "ldms/src/ldmsd/ldmsd_updtr.c", "ldms/src/ldmsd/ldmsd_strgp.c"]}
{"id": "C41", "title": "mm pool: realloc gives a block of the new size", "statement": "mm_realloc returns, in finitely many steps, a block of at least the new size that overlaps no other live block and keeps the old contents, or NULL leaving the old block in place.", "quantifier": "every reachable pool state, every live block and every new size", "why_tests_cant": "Depends on the neighbours of the block in every possible pool history.", "anchors": ["lib/src/mmalloc/mmalloc.c:mm_realloc"]}
{"id": "C42", "title": "set heap: a heap sized for k entries holds k entries", "statement": "A list heap whose size came from ldms_list_heap_size_get for k entries of a type always has room for k entries of that type, in whatever order entries were appended and removed before.", "quantifier": "every entry type and length, every k, every history with at most k live entries", "why_tests_cant": "Needs the absence of fragmentation for every history.", "anchors": ["ldms/src/core/ldms.c:ldms_list_heap_size_get", "ldms/src/core/ldms_heap.c:ldms_heap_alloc"]}
{"id": "C43", "title": "received messages: what validation accepts is safe to handle", "statement": "Every request or response a daemon accepts after validation can be converted to host order and searched for any attribute without reading outside the received bytes, every value found ends with a NUL; validation itself never reads outside the message; well-formed messages with NUL-terminated values are accepted.", "quantifier": "every byte string received, every attribute id", "why_tests_cant": "the input is an arbitrary byte string chosen by the peer; the failing cases need a length field that wraps 32-bit arithmetic", "anchors": ["ldms/src/ldmsd/ldmsd_request.c: validate_ldmsd_req, ldmsd_process_config_request, ldmsd_send_error_reply", "ldms/src/ldmsd/ldmsd_request_util.c: ldmsd_ntoh_req_msg, ldmsd_req_attr_get_by_id"]}
{"id": "C44", "title": "names of commands, attributes and metric types are recognised exactly", "statement": "A configuration verb, an attribute name or a metric type name (the latter in any case) is recognised if and only if it is one of the listed names, and yields the listed id; the printed name of every metric type is recognised as that type; the scalar type of an array type is its element type.", "quantifier": "every string; every metric type", "why_tests_cant": "unknown and near-miss strings are unbounded; binary search over an unsorted table fails only for some keys", "anchors": ["ldms/src/ldmsd/ldmsd_request_util.c: ldmsd_req_str2id, ldmsd_req_attr_str2id", "ldms/src/core/ldms.c: ldms_metric_str_to_type, ldms_metric_type_to_str, ldms_metric_type_to_scalar_type"]}
{"id": "C45", "title": "a record is in at most one list", "statement": "ldms_list_append_record puts a record instance at the end of a list if it is in no list, and refuses it with EBUSY, changing nothing, if it is already in a list.", "quantifier": "every history of list operations and every record and list", "why_tests_cant": "Whether the check works depends on the position of the record among the other entries, so on the history.", "anchors": ["ldms/src/core/ldms.c: ldms_list_append_record, ldms_record_alloc, __list_append"]}
{"id": "C46", "title": "consumers are told the set information the producer shows", "statement": "When a consumer looks up a set or receives its directory entry, the information it holds for the set afterwards gives for every key exactly the value ldms_set_info_get shows at the producer; the lookup message is written inside its buffer and read back unchanged.", "quantifier": "every history of set/unset at the producer, every previous state of the consumer, all keys and values", "why_tests_cant": "Depends on the overriding of remote by local values, on removed keys and on string lengths.", "anchors": ["ldms/src/core/ldms_xprt.c: __copy_set_info_to_lookup_msg, __get_set_info_sz, __process_lookup_set_info, __process_dir_set_info", "ldms/src/core/ldms.c: ldms_set_info_get"]}
{"id": "C47", "title": "A consumer receives a producer's snapshots in order, once each, and catches up", "statement": "For a set backed by an array of n buffers, updating from a remote producer delivers snapshots in strictly increasing order, none twice, and, once the producer is between transactions, one update call ends with the newest snapshot, having delivered every snapshot the consumer was missing if it was at most n behind.", "quantifier": "every n >= 2, every interleaving of producer transactions with consumer reads, every number of snapshots the consumer is behind", "why_tests_cant": "The order depends on how reads interleave with transactions and on where the ring wraps; tests only exercise a few positions and timings.", "anchors": ["ldms/src/core/ldms_xprt.c:__ldms_remote_update", "ldms/src/core/ldms_xprt.c:__handle_update_data", "ldms/src/core/ldms.c:ldms_transaction_begin"]}
{"id": "C48", "title": "Environment variables in attribute values are replaced by their values", "statement": "Reading an attribute value returns the value text with every ${name} replaced, from left to right, by the value of that environment variable (nothing if it is not set); values are not expanded again and all other text is copied unchanged.", "quantifier": "every value string and every environment", "why_tests_cant": "The positions and number of references are unbounded; tests use one or two.", "anchors": ["lib/src/ovis_util/util.c:str_repl_env_vars", "lib/src/ovis_util/util.c:get_env_var", "lib/src/ovis_util/util.c:av_value"]}
{"id": "C49", "title": "A stopped and joined daemon task does not run until it is started again", "statement": "After a daemon task has been asked to stop and a join on it has returned, its callback is not running and does not run again until the task is started or rescheduled; a stop request is not lost.", "quantifier": "every interleaving of start, stop, join and reschedule requests with the scheduler thread that pops the event and runs the callback", "why_tests_cant": "the windows between the scheduler popping an event and marking it running are a few instructions wide", "anchors": ["ldms/src/ldmsd/ldmsd.c: ldmsd_task_start, ldmsd_task_stop, ldmsd_task_join, ldmsd_task_resched, task_cb_fn", "lib/src/ovis_event/ovis_event.c: ovis_event_heap_process"]}
{"id": "C50", "title": "Synchronous tasks run at the interval grid plus the offset", "statement": "The delay computed for a synchronous task leads to the next instant that is a multiple of the interval plus the offset, never a past one, and never more than one interval ahead.", "quantifier": "every current time, interval and offset that the daemon accepts", "why_tests_cant": "arithmetic over all times, intervals and offsets", "anchors": ["ldms/src/ldmsd/ldmsd.c: resched_task"]}
{"id": "C51", "title": "The relocatable tree in a shared region is a sorted multimap", "statement": "For every history of inserting nodes that are not in the tree, deleting nodes that are in it, and searching (exact, greatest not above, least not below, first, last, next, previous), each done by a program that has the region mapped at its own address, no operation faults; every search returns what the same search in a sorted list would return; the region then holds a red-black tree with exactly the nodes inserted and not deleted, ordered by key with equal keys in order of insertion; nodes that are not in the tree and not being inserted are not touched; a search looks at no more than 2*log2(n+1) nodes.", "quantifier": "every total-preorder comparator, key type, region size up to 2^63, every legal history of any length, every choice of mapping address per operation", "why_tests_cant": "the set of tree shapes, deletion cases and histories is unbounded, and a wrong link or colour often shows only several operations later", "anchors": ["ldms/src/core/rrbt.c:rrbt_ins", "ldms/src/core/rrbt.c:rrbt_del", "ldms/src/core/rrbt.c:rrbt_find", "ldms/src/core/rrbt.c:rrbt_find_lub", "ldms/src/core/rrbt.c:rrbt_find_glb", "ldms/src/core/rrbt.c:rrbn_succ", "ldms/src/core/rrbt.c:rrbn_pred", "ldms/src/core/rrbt.h:rrbn_ptr"]}
{"id": "C52", "title": "A peer reaches only memory that was shared, in range and with the access granted", "statement": "With the socket transport, a remote read or write request of any peer succeeds exactly when the addressed bytes lie inside a region that is mapped now, was shared under the key named in the request and grants that access; then a read returns the current bytes and a write stores exactly the bytes sent. Every other request changes nothing, returns no data and is answered with the reason (no such map, out of range, not permitted). When the last reference of a region is dropped, its key reaches nothing any more.", "quantifier": "every history of mapping, sharing, referencing and unmapping regions and every sequence of requests with arbitrary keys, addresses, lengths and data", "why_tests_cant": "a peer is not trusted: the request space (2^32 keys, 2^64 addresses, 2^32 lengths) times the histories of the key table cannot be enumerated", "anchors": ["lib/src/zap/sock/zap_sock.c:z_key_alloc", "lib/src/zap/sock/zap_sock.c:z_sock_map_key_access_validate", "lib/src/zap/sock/zap_sock.c:process_sep_msg_read_req", "lib/src/zap/sock/zap_sock.c:process_sep_msg_write_req", "lib/src/zap/sock/zap_sock.c:z_sock_share", "lib/src/zap/sock/zap_sock.c:z_sock_unmap", "lib/src/zap/zap_priv.h:z_map_access_validate", "lib/src/zap/zap.c:zap_unmap"]}
{"id": "C53", "title": "Messages over a socket arrive whole, once and in order", "statement": "With the socket transport, the receiver handles exactly the messages the sender posted, in posting order, each once and with its payload, transaction id and context, whatever pieces the kernel takes and returns and however posting, writing and reading interleave; without a socket error nothing posted is lost. For any peer, the received bytes are cut into messages by their announced lengths, nothing is stored outside the receive buffer, and handlers use only received bytes.", "quantifier": "every sequence of posted messages of every kind and size, every split of the byte stream by send and read, every interleaving, and every byte stream of a peer", "why_tests_cant": "the splits and interleavings are chosen by the kernel and the network, and a hostile peer chooses the bytes; tests over loopback see only large pieces", "anchors": ["lib/src/zap/sock/zap_sock.c:sock_write", "lib/src/zap/sock/zap_sock.c:__recv_msg", "lib/src/zap/sock/zap_sock.c:sock_read", "lib/src/zap/sock/zap_sock.c:__sock_send_msg_nolock", "lib/src/zap/sock/zap_sock.c:z_sock_send2", "lib/src/zap/sock/zap_sock.c:z_sock_send_mapped", "lib/src/zap/sock/zap_sock.c:process_sep_msg_connect", "lib/src/zap/sock/zap_sock.h:struct sock_msg_hdr"]}
{"id": "C54", "title": "Every accepted operation on a connection completes exactly once, in order, with its own context", "statement": "On a socket endpoint every send, mapped send, read and write whose call returned success completes exactly once, with its own kind and context; sends complete in posting order, and so do reads and writes; a non-flushed completion carries the status the peer answered to that very request; when the connection is lost at any moment all outstanding operations complete before DISCONNECTED, which is delivered once, after which nothing is delivered or accepted.", "quantifier": "every interleaving of posts from any thread, partial writes, answers of a conforming peer, closes from callbacks or other threads, and loss of the connection at any point", "why_tests_cant": "completion bookkeeping spans three queues, two threads and the peer; tests see only a few interleavings and rarely lose the connection between two given steps", "anchors": ["lib/src/zap/sock/zap_sock.c:sock_write", "lib/src/zap/sock/zap_sock.c:sock_send_complete", "lib/src/zap/sock/zap_sock.c:sock_event", "lib/src/zap/sock/zap_sock.c:process_sep_msg_read_resp", "lib/src/zap/sock/zap_sock.c:process_sep_msg_write_resp", "lib/src/zap/sock/zap_sock.c:z_sock_close"]}
{"id": "C55", "title": "Connection events come in the documented order and a connection ends exactly once", "statement": "On socket endpoints the active application sees CONNECTED, then messages, then DISCONNECTED, or REJECTED, or CONNECT_ERROR; the passive one sees CONNECT_REQUEST, then CONNECTED, messages, DISCONNECTED, or CONNECT_ERROR; each exactly once and nothing after the terminal event. CONNECTED and REJECTED at one side mean that the other application accepted or rejected. A lost connection always ends with a terminal event, and setup, rejection and loss never crash the process or leak the connection's reference.", "quantifier": "every history of both endpoints: setup, answers given at once or later, data, closes by either side, read errors, losses at any step, and any peer that keeps the order of CONNECT and ACK", "why_tests_cant": "the order depends on which thread handles which epoll event and on losses between any two steps of a three-way handshake", "anchors": ["lib/src/zap/sock/zap_sock.c:sock_read", "lib/src/zap/sock/zap_sock.c:sock_ev_cb", "lib/src/zap/sock/zap_sock.c:sock_event", "lib/src/zap/sock/zap_sock.c:z_sock_connect", "lib/src/zap/sock/zap_sock.c:z_sock_accept", "lib/src/zap/sock/zap_sock.c:z_sock_reject", "lib/src/zap/zap.c:zap_io_thread_ep_release"]}
{"id": "C56", "title": "A peer is trusted only after it has authenticated, and the application is told of every outcome", "statement": "The application of a transport is told CONNECTED only after the peer has shown what the configured authentication asks for (nothing, a claimed user, the digest of a fresh challenge with the shared secret, a MUNGE credential); until then the peer is nobody and gets only what everybody may have, and nothing the application asks for leaves. A peer has one attempt. Every outcome is told once: REJECTED, ERROR, or CONNECTED and later DISCONNECTED. Two ends with the same secret and plugin always come to CONNECTED; with different secrets never.", "quantifier": "every history of connection events, messages of an arbitrary peer, requests of the application, and every interleaving of two honest ends or of an intruder who relays between any number of holders of the secret", "why_tests_cant": "an intruder chooses every byte and their order, and what is refused depends on how far each of two concurrent handshakes has come", "anchors": ["ldms/src/core/ldms_xprt_auth.c:ldms_xprt_auth_begin", "ldms/src/core/ldms_xprt_auth.c:ldms_xprt_auth_end", "ldms/src/core/ldms_xprt.c:ldms_zap_cb", "ldms/src/core/ldms_xprt.c:ldms_zap_auto_cb", "ldms/src/core/ldms_xprt.c:recv_cb", "ldms/src/core/ldms_xprt.c:process_auth_msg", "ldms/src/auth/ldms_auth_ovis.c:__auth_ovis_xprt_recv_cb", "ldms/src/auth/ldms_auth_naive.c:__auth_xprt_recv_cb", "ldms/src/auth/ldms_auth_munge.c:__auth_munge_xprt_recv_cb"]}
{"id": "C57", "title": "What is collected is stored, once and in order", "statement": "When an aggregator collects a set and a storage policy that applies to it is running, every consistent sample with a new generation number that arrives is handed to the policy's store exactly once and in the order of arrival, with the metric indexes that belong to that set; nothing is stored for a stopped policy; policies start and stop only when told; a set is freed exactly when it is no longer listed and no lookup or update of it is outstanding, and it is looked up and updated by one request at a time.", "quantifier": "all interleavings of directory updates, lookups, updates, store calls, start and stop of policies, losses of sets and failures of requests, any number of sets and policies", "why_tests_cant": "the interleavings of callbacks, commands and losses are unbounded, and a lost or doubled sample shows only in a particular one", "anchors": ["ldms/src/ldmsd/ldmsd_updtr.c:updtr_update_cb,__ldmsd_prdset_lookup_cb,schedule_prdcr_updates,schedule_set_updates", "ldms/src/ldmsd/ldmsd_strgp.c:ldmsd_strgp_update,ldmsd_strgp_update_prdcr_set,strgp_open,strgp_update_fn,__ldmsd_strgp_start,__ldmsd_strgp_stop", "ldms/src/ldmsd/ldmsd_prdcr.c:ldmsd_prdcr_update,prdcr_reset_set,ldmsd_prdcr_set_ref_put"]}
{"id": "C58", "title": "The aggregator does not hang on its own locks", "statement": "Whatever an aggregator's threads are doing at the same time (collecting, looking up sets, receiving directories, losing and regaining connections, carrying out commands), they never wait for each other's locks for ever: every operation that began can come to its end, and none leaves a lock behind.", "quantifier": "every number of threads, every interleaving, every history of operations and every set of producers, updaters, sets and policies they visit", "why_tests_cant": "a deadlock needs two or three threads to stop between particular instructions; tests see a few of the unboundedly many interleavings", "anchors": ["ldms/src/ldmsd/ldmsd_cfgobj.c:ldmsd_cfg_lock", "ldms/src/ldmsd/ldmsd_prdcr.c:ldmsd_prdcr_update,prdcr_dir_cb,ldmsd_prd_set_updtr_task_update,prdcr_connect_cb", "ldms/src/ldmsd/ldmsd_updtr.c:updtr_update_cb,__ldmsd_prdset_lookup_cb,updtr_tasks_create", "ldms/src/ldmsd/ldmsd_strgp.c:__ldmsd_strgp_start,ldmsd_strgp_update,ldmsd_strgp_close", "ldms/src/ldmsd/ldmsd_config.c:ldmsd_cfgobjs_start,ldmsd_recv_msg"]}
{"id": "C59", "title": "Failover takes over, gives back, and does neither without cause", "statement": "With failover in use, a daemon starts the producers and updaters of its peer by itself only when the peer's answers to pings are overdue by the documented time, and then it starts all of them; when the peer answers again it stops them; its own configuration is started once, when the peer is gone or has said that it does not run it; what it tells its peer about itself is true; after a stop nothing of the peer runs or remains; and the service never brings the daemon down.", "quantifier": "every run of a daemon: every order of timer ticks, connections and their ends, answers, requests of the peer and commands of the user, every clock, and every outcome of sending, starting, stopping and deleting", "why_tests_cant": "Takeover depends on timing, on when a connection ends relative to each message, and on failures of the rest of the daemon; tests run a handful of scripted orders with fixed delays.", "anchors": ["ldms/src/ldmsd/ldmsd_failover.c:__try_start_peercfg", "ldms/src/ldmsd/ldmsd_failover.c:__failover_active_routine", "ldms/src/ldmsd/ldmsd_failover.c:__failover_task", "ldms/src/ldmsd/ldmsd_failover.c:__on_ping_resp", "ldms/man/ldmsd_failover.man"]}
{"id": "C60", "title": "Rows stored of a set", "statement": "A storage policy with a decomposition stores, for every update of a set, exactly the rows the configuration describes: as many as the longest list among the columns has elements (at least one), the r-th with the r-th element of every list, scalar metrics repeated, missing metrics and ended lists as the fill value, with the indices over the cells of that row; which sets were stored before does not matter; a cell of the wrong type keeps all rows from being stored; flex stores the rows of all chosen decompositions in order, or none.", "quantifier": "All configurations (row schemas, columns, indices), all metric sets and all histories of sets decomposed before, for static, as_is and flex decompositions", "why_tests_cant": "Metric positions are cached per digest and list contents vary from update to update, so the result depends on the whole history of sets and on all combinations of list lengths, record types and column definitions", "anchors": ["ldms/src/decomp/static/decomp_static.c:__decomp_static_decompose", "ldms/src/decomp/static/decomp_static.c:__decomp_static_resolve_mid", "ldms/src/decomp/as_is/decomp_as_is.c:__decomp_as_is_decompose", "ldms/src/decomp/as_is/decomp_as_is.c:__get_row_cfg", "ldms/src/decomp/flex/decomp_flex.c:__decomp_flex_decompose", "ldms/src/ldmsd/ldmsd_strgp.c:strgp_decompose"]}
{"id": "C61", "title": "Rows printed as JSON", "statement": "A row printed as a JSON array or object is a JSON text that any JSON reader reads back as the values (and column names) of the row, in order, so that two different rows never print the same; the Avro schema printed for a row is a JSON text describing each column under a legal name with its type; a row that cannot be printed is refused with EINVAL; printing terminates and stays within its buffers.", "quantifier": "All rows: any number of columns, any names, any integers, strings, arrays, times and (with the text of libc) floating point values, of any length", "why_tests_cant": "Whether printing is right depends on every character and on the length of every piece against the buffer size; samples of short plain strings pass although others do not read back or never end", "anchors": ["ldms/src/ldmsd/ldmsd_decomp.c:ldmsd_row_to_json_array", "ldms/src/ldmsd/ldmsd_decomp.c:ldmsd_row_to_json_object", "ldms/src/ldmsd/ldmsd_decomp.c:ldmsd_row_to_json_avro_schema", "ldms/src/ldmsd/ldmsd_decomp.c:strbuf_printf", "ldms/src/store/kafka/store_kafka.c:commit_rows"]}
{"id": "C62", "title": "What JSON texts and entities keep", "statement": "A JSON text that is parsed gives an entity holding exactly what the text says, with every member of an object found under its name; an entity printed is a JSON text that says what the entity says and is parsed back as the same; a copy has the contents of the original; a text cut short or that is no JSON is refused; printing uses no memory that was given up.", "quantifier": "All texts (any length, nesting and spacing) and all entities, of any size", "why_tests_cant": "Longest-match scanning, hash buckets that compare only the beginning of names and a buffer that moves when it is full make the result depend on every character, on which names fall into one bucket and on total length; tests with short plain objects pass although longer ones do not", "anchors": ["lib/src/ovis_json/ovis_json_lexer.l:json_parse_buffer", "lib/src/ovis_json/ovis_json_parser.y:value", "lib/src/ovis_json/ovis_json.c:json_entity_dump", "lib/src/ovis_json/ovis_json.c:jbuf_append_str", "lib/src/ovis_json/ovis_json.c:json_entity_copy", "lib/src/ovis_json/ovis_json.c:json_value_find", "lib/src/ovis_json/ovis_json.c:json_verify_string"]}
{"id": "C63", "title": "What a peer is shown of the directory", "statement": "A peer that asks for the directory is told of every set it may read, once, each with its name, schema, digest, flags, sizes, owner, permissions, counts, generation numbers, times and information as they are, and of no other set; a directory too large for one message comes in parts of which only the last says that there is no more, and the end always comes. A peer that asked for updates is told of a changed set in the same way.", "quantifier": "All sets, numbers of sets, permissions, message sizes and sets that disappear while the reply is made", "why_tests_cant": "The reply is cut at boundaries that depend on the length of every printed field, on the order of the names and on which sets the peer may read; off-by-a-few lengths, sets that vanish and characters that need escapes are met only by chance", "anchors": ["ldms/src/core/ldms_xprt.c:process_dir_request", "ldms/src/core/ldms_xprt.c:__process_dir_reply", "ldms/src/core/ldms_xprt.c:send_dir_update", "ldms/src/core/ldms_xprt.c:dir_update", "ldms/src/core/ldms.c:__ldms_format_set_meta_as_json"]}
{"id": "C64", "title": "Looking sets up", "statement": "A lookup by name, schema or expression gives the application every set asked for that it may read and no other, each once, in the order of names, with the flag that more come on all but the last, and ends: whatever fails, whichever sets the peer may read or already has, and in whatever order replies and reads end, the application is told once of the end and nothing freed is used; the daemon asked takes and releases the lock of its sets by the rules.", "quantifier": "All trees of sets, permissions, expressions, failures and orders of replies and completions", "why_tests_cant": "The flag depends on which later sets match and may be read, the release of the request on the order in which replies, errors and reads end; tests use sets that are all readable and replies that come one at a time", "anchors": ["ldms/src/core/ldms_xprt.c:process_lookup_request_re", "ldms/src/core/ldms_xprt.c:__send_lookup_reply", "ldms/src/core/ldms_xprt.c:handle_rendezvous_lookup", "ldms/src/core/ldms_xprt.c:__handle_lookup", "ldms/src/core/ldms_xprt.c:process_lookup_reply", "ldms/src/core/ldms_rail.c:__rail_lookup_cb"]}
{"id": "C65", "title": "Pushed sets arrive as they were", "statement": "A peer that registered for a set is called once for each push, and, if it registered for changes, once for each end of a transaction, in order, with the set at the peer equal to the set at the daemon at that push, metadata and the data the set shows, whatever the size of the set and of messages and however many peers come, go and fail; it is not called after it cancelled, and nothing outside the set is written.", "quantifier": "All histories of writes, pushes, registrations and cancellations, sizes of sets, rings and messages, failures of sends and delays of messages", "why_tests_cant": "The metadata travel only when a remembered generation number differs, in parts that depend on sizes; which push carries what depends on the whole history and on failures of other peers", "anchors": ["ldms/src/core/ldms_xprt.c:__ldms_xprt_push", "ldms/src/core/ldms_xprt.c:process_push_reply", "ldms/src/core/ldms_xprt.c:handle_rendezvous_push", "ldms/src/core/ldms_xprt.c:process_cancel_push_request", "ldms/src/core/ldms.c:ldms_transaction_end"]}
{"id": "C66", "title": "CSV files hold what was stored", "statement": "A file of the CSV store, read by the rules of CSV, is a table: its first line names the columns, every other line has a field for each name, and each set or row stored is found there, in the order stored, with each value under the name of its metric: a set with a list has a line for each entry of the list with the number of the entry. This holds for all types of values, for arrays expanded or not, with and without user data and quotes; storing a set ends.", "quantifier": "All histories of sets of a schema and of rows of a decomposition, values, names, lengths of arrays, strings and lists, and configurations of the store.", "why_tests_cant": "Alignment of headers and lines depends on every combination of types, lengths and options, and loops over lists end only by a count that a sample does not cover.", "anchors": ["ldms/src/store/store_csv.c:store", "ldms/src/store/store_csv.c:store_metric", "ldms/src/store/store_csv.c:store_row", "ldms/src/store/store_csv.c:store_col", "ldms/src/store/store_csv_common.c:csv_row_format_header", "ldms/src/store/store_csv_common.c:csv_format_header_common"]}
{"id": "C67", "title": "Rows of the CSV store are kept over files", "statement": "Every row given to the CSV store is in exactly one of its files when the store is closed, in the order of storing, however often files are rolled over, flushed, closed and opened again; after a crash at any moment only the last rows are missing, no more than the buffer setting says (none with buffer=0); every file with rows begins with a header or has one beside it; files are rolled at the limit of rows or bytes and at the times configured, and empty files only if rollempty says so.", "quantifier": "all configurations of roll-over, buffering and headers, and all histories of opening, storing, rolling, flushing, partial writing, crashes and clock steps", "why_tests_cant": "The loss depends on where in the history a crash or a roll-over falls, and counters carry over between files; tests roll once or twice.", "anchors": ["ldms/src/store/store_csv.c:roll_cb", "ldms/src/store/store_csv.c:rolloverThreadInit", "ldms/src/store/store_csv.c:store", "ldms/src/store/store_csv.c:store_row", "ldms/src/store/store_csv.c:csv_store_handle_get", "ldms/src/store/store_csv_common.c:config_buffer"]}
{"id": "C68", "title": "Configuration files are executed as written", "statement": "A configuration file made of blank lines, comments (# at the beginning of a line or after a space) and commands, which may go over several lines by a backslash at the end of each but the last, is read as exactly those commands, each once, in the order of the file, with the words the user wrote; the last line need not have an end. At start-up the commands with priority of all files and of the files they include are executed first, then all other commands of all files and included files, each once and in order. The first command that fails ends the start-up, is reported with the number of its line, and nothing after it is executed. A line that is no command in any file of the command line means no command without priority is executed. Reading never writes beyond its buffer.", "quantifier": "every text of blank lines, comments and commands of any length and number of lines; every command language, set of files, nesting of includes and outcome of commands", "why_tests_cant": "Tests try a few files; what matters is every combination of comments, spaces, continuation lines, lengths near the buffer size, includes and failing commands.", "anchors": ["ldms/src/ldmsd/ldmsd_config.c:__process_config_file", "ldms/src/ldmsd/ldmsd_config.c:find_comment", "ldms/src/ldmsd/ldmsd_config.c:process_config_file", "ldms/src/ldmsd/ldmsd_request.c:include_handler", "ldms/src/ldmsd/ldmsd_request.c:is_req_id_priority", "ldms/src/ldmsd/ldmsd.c:main"]}
{"id": "C69", "title": "Requests in progress do not mix", "statement": "Requests that arrive in several records, from any number of clients and configuration files at once, are told apart by connection and message number: each is handled once, when its last record has come, as the whole of its own records in order, whatever else arrives in between. A record that begins a message already in progress is refused (EADDRINUSE) and does it no harm; a record of a message that never began is refused (ENOENT); after the end of a connection its numbers can be used anew. If handling a request sends requests to other daemons, each response is passed on to the request for which it was asked, nothing that was freed is used, and nothing is kept once all is answered.", "quantifier": "every history of records of requests and responses, requests of the daemon itself, and ends of connections, with any numbers, cuts and contents", "why_tests_cant": "The interleavings of clients, of parts of messages, of responses and of disconnects are unbounded; tests send one message at a time.", "anchors": ["ldms/src/ldmsd/ldmsd_request.c:msg_comparator", "ldms/src/ldmsd/ldmsd_request.c:find_req_ctxt", "ldms/src/ldmsd/ldmsd_request.c:alloc_req_ctxt", "ldms/src/ldmsd/ldmsd_request.c:req_ctxt_ref_put", "ldms/src/ldmsd/ldmsd_request.c:alloc_req_cmd_ctxt", "ldms/src/ldmsd/ldmsd_request.c:ldmsd_process_config_request", "ldms/src/ldmsd/ldmsd_request.c:ldmsd_process_config_response", "ldms/src/ldmsd/ldmsd_request.c:ldmsd_xprt_term"]}
{"id": "C70", "title": "Values are read as they were written", "statement": "A value set for a metric is the value that is read from it, by a host of the same or the other byte order, and nothing else in the set changes: all other metrics, elements and members keep their values. Each change makes one new generation of the data or of the meta data it is in. Ranges of elements and strings are set as given, cut at the end of the array. A metric number or an index out of range is refused. Inside a transaction readers get the values from before it; after its end the new ones. User data is kept per metric.", "quantifier": "every set made from a schema, every metric, member, element, type, value, range, string, transaction state, copy of the ring and byte order of writer and reader", "why_tests_cant": "The combinations of layouts, types, values and byte orders are unbounded; tests set a few values of a few sets on one machine and do not look at the rest of the set.", "anchors": ["ldms/src/core/ldms.c:__mval_to_set", "ldms/src/core/ldms.c:__mval_to_get", "ldms/src/core/ldms.c:ldms_metric_set", "ldms/src/core/ldms.c:__metric_set", "ldms/src/core/ldms.c:__metric_array_set", "ldms/src/core/ldms.c:ldms_metric_array_set", "ldms/src/core/ldms.c:ldms_metric_array_set_str", "ldms/src/core/ldms.c:ldms_metric_user_data_set", "ldms/src/core/ldms.c:__record_metric_get", "ldms/src/core/ldms.c:ldms_record_metric_array_set", "ldms/src/core/ldms.h:ldms_metric_set_u64"]}
{"id": "C71", "title": "Which sets an updater updates, and by which schedule", "statement": "When a schedule of a running updater is due, an update is asked for exactly those sets of its connected producers that satisfy its match list, have this schedule as their hint (or any hint if automatic intervals are off), were looked up a second ago or more and are not being updated, and a lookup for exactly those not looked up yet; nothing is asked twice even if several entries of the match list fit, and nothing at other times. A running updater with automatic intervals has, for every set with a hint that it covers, exactly one schedule, equal to the hint, whatever sets, producers and hints came and went; a schedule ends just when no set has it. The producers and match list change only by commands, which are refused while the updater runs. A storage policy covers exactly the producers and schemas its expressions select.", "quantifier": "every history of commands, connections, directory messages, lookups, updates and runs of tasks, any producers, sets, hints and regular expressions", "why_tests_cant": "Sets come and go in any order relative to the tasks, each match list and hint combination is possible, and a set left out of all schedules is only noticed as missing data.", "anchors": ["ldms/src/ldmsd/ldmsd_updtr.c: schedule_updates, schedule_prdcr_updates, ldmsd_updtr_tasks_update, updtr_tasks_create, ldmsd_updtr_start, ldmsd_updtr_match_add, ldmsd_updtr_prdcr_add, ldmsd_updtr_schedule_cmp", "ldms/src/ldmsd/ldmsd_prdcr.c: _add_cb, prdcr_dir_cb_upd, __update_set_info, prdcr_hint_tree_update, ldmsd_prd_set_updtr_task_update", "ldms/src/ldmsd/ldmsd_strgp.c: ldmsd_strgp_update", "ldms/src/ldmsd/ldmsd.c: ldmsd_task_start, task_cb_fn"]}
{"id": "C72", "title": "Log messages: which are written, where, in which order", "statement": "After the logging thread has caught up, the log holds exactly the messages whose severity the level of their subsystem (its own, or the default one's) let through when they were logged, in the order of the calls, each with the name of its subsystem and in the file that was open at that point of the order; a subsystem destroyed in between still has its messages written, and is given back afterwards. A level name stands for that severity and those above it, a comma list for exactly those named, other words are refused, and a level printed as text is read back as the same level. Levels set by number, name or regular expression apply to exactly those subsystems.", "quantifier": "every history of register, destroy, level, log, open and close calls and of steps of the logging thread; every text", "why_tests_cant": "The queue and the thread make the order of calls and of writing independent; tests see few interleavings and few of the level texts.", "anchors": ["lib/src/ovis_log/ovis_log.c:ovis_log_register,ovis_log_destroy,ovis_vlog,log_actor", "lib/src/ovis_log/ovis_log.c:ovis_log_str_to_level,ovis_log_level_to_str,ovis_log_set_level_by_regex,__log_open,__log_close"]}
{"id": "C73", "title": "Deletion of a shared set", "statement": "When a program deletes a set, its memory stays until the deletion is done, the program has given back its own references and every connected peer that looked the set up has answered the notice of the deletion (or is gone); then it is given back, after a timeout at the latest. A peer is told exactly if it asked for changes of the directory and is connected, at most once per connection, and no thread uses the set after it was given back or stays in a loop.", "quantifier": "every interleaving of lookups, registrations, deletion, notices, answers, losses of connections, program references and runs of the cleaning thread, for any number of connections and processes", "why_tests_cant": "the outcome depends on the order of steps of four threads and of several processes; a test sees one schedule", "anchors": ["ldms/src/core/ldms.c:__ldms_set_delete", "ldms/src/core/ldms.c:delete_proc", "ldms/src/core/ldms_xprt.c:ldms_xprt_set_delete", "ldms/src/core/ldms_xprt.c:process_set_delete_request", "ldms/src/core/ldms_xprt.c:process_set_delete_reply", "ldms/src/core/ldms_xprt.c:__add_lookup_peer", "ldms/src/core/ldms_xprt.c:__ldms_xprt_release_sets"]}
{"id": "C74", "title": "Samples are labelled with the job that runs", "statement": "A sampler that is given a job set stores, with every sample, the id and application id of the job that runs in the second of the sample, and 0 when none does: for a set of one job, for the slots of the multi-tenant SLURM sampler (the job started last) and for a list of jobs. A label is always that of a job that was started by then and has not ended before; a job that there is room for and that was started last is found; every followed job has a slot of its own; a sample taken while an event is handled has the id of before or after it; no history of events ends the daemon.", "quantifier": "all histories of job events with any ids and times, any number of slots, all sample times, all interleavings of one event with the reads of a sample, all histories of job sets appearing, changing and disappearing around a sampler", "why_tests_cant": "which job a slot shows depends on the whole history of starts and ends and on slot reuse; races with readers and set re-creation are not reached by unit tests", "anchors": ["ldms/src/sampler/slurm/slurm_sampler.c: config, slurm_recv_cb, handle_job_init, handle_step_init, handle_job_exit, alloc_job_data, release_job_data", "ldms/src/sampler/sampler_base.c: init_job_data, base_sample_begin, __set_init"]}
{"id": "C75", "title": "Set groups: members and their update", "statement": "A set group's members are the names put in with setgroup_ins and not taken out later with setgroup_rm, each once; other set information does not matter; an aggregator that looks the group up, or gets a directory update, sees the same members. An update of a group ends whatever the groups contain, including cycles; it asks once for each ready set that belongs to the group directly or through ready groups, and for no other set; no set ever has two lookups or updates outstanding; reference counts stay right in every history.", "quantifier": "every sequence of setgroup requests with any names; every membership graph of any size including cycles; every return code of the transport; every interleaving of updater rounds and answers", "why_tests_cant": "tests use one or two small groups in one order; cycles, shared members, refused calls and interleavings of answers need proof over all graphs and histories", "anchors": ["ldms/src/ldmsd/ldmsd_group.c:ldmsd_group_set_add,ldmsd_group_iter", "ldms/src/ldmsd/ldmsd_updtr.c:schedule_set_updates,__setgrp_members_lookup,__ldmsd_prdset_lookup_cb,updtr_update_cb", "ldms/src/ldmsd/ldmsd_request.c:setgroup_ins_handler,setgroup_rm_handler"]}
{"id": "C76", "title": "Who owns a sampler's set and who may read it", "statement": "A sampler's set belongs to the user and the group, and has the permissions, that its configuration names (numbers, names of users or groups, octal permissions); what the configuration does not name is the default set with metric_sets_default_authz, or else the daemon's own user and group with 0440. Unknown names and permissions outside 1..777 are refused. A peer can read the set exactly when these allow it. A refused metric_sets_default_authz changes no default. component_id is the number given, with any text before it.", "quantifier": "every number, name, number of leading zeros, user database, previous default, peer and peer's groups", "why_tests_cant": "tests try a few names and modes; the parsing (C library number syntax, truncations, leading zeros) and its composition with the access check must be right for every text", "anchors": ["ldms/src/sampler/sampler_base.c:base_auth_parse,base_auth_set,base_config", "ldms/src/core/ldms.c:ldms_set_default_authz,ldms_set_new", "ldms/src/ldmsd/ldmsd_request.c:set_default_authz_handler"]}
{"id": "C77", "title": "Requests change a storage policy as asked, and only for those who may write to it", "statement": "A storage policy is what strgp_add asked for: its name, store, container, schema or schema pattern, decomposition, flush interval, owner and permissions. Names stay unique and a policy's metrics stay distinct. Every request that succeeds changes exactly the policy it names and exactly as asked; a running policy's configuration, and its existence, cannot be changed; only users with write permission on a policy change it. A refused request changes nothing. A store plugin that a policy uses is never unloaded and one that no policy uses can be. No request crashes the daemon. Samples flush the store exactly when the configured interval has passed since the last flush.", "quantifier": "all sequences of strgp_add, del, start, stop, prdcr_add/del, metric_add/del, load, term, failover-sent policies, set openings and samples, for all users, permissions, names, strings and clock readings", "why_tests_cant": "the claims range over every history of requests by every user and every clock reading; tests show single requests", "anchors": ["ldms/src/ldmsd/ldmsd_request.c:strgp_add_handler,strgp_del_handler,strgp_prdcr_add_handler,strgp_metric_add_handler,strgp_start_handler,strgp_stop_handler", "ldms/src/ldmsd/ldmsd_strgp.c:strgp_decompose,ldmsd_strgp_start,ldmsd_strgp_stop,ldmsd_strgp_del,ldmsd_strgp_metric_add", "ldms/src/ldmsd/ldmsd_failover.c:failover_cfgstrgp_handler"]}
{"id": "C78", "title": "Reloading a dumped configuration", "statement": "A daemon started with the file that dump_cfg wrote has the producers (kind, host, port, transport, reconnect interval, authentication, streams), plugins with their configurations, updaters (producers, interval, offset, running state) and storage policies (plugin, container, schema, decomposition, producers, running state) of the daemon that wrote it, with their owners, permissions, modes, matches, flush intervals and metrics, and the file is written under the directory, host and port asked for.", "quantifier": "every daemon state reachable by configuration (any number of producers, plugins, updaters and policies), every environment, user and set of regular expressions", "why_tests_cant": "the space of configurations is unbounded, and the writer and the reader must agree on every combination of optional settings and on their order; tests compare a few configurations", "anchors": ["ldms/src/ldmsd/ldmsd_request.c: dump_cfg_handler, prdcr_add_handler, updtr_add_handler, strgp_add_handler, plugn_config_handler", "ldms/src/ldmsd/ldmsd_request_util.c: ldmsd_parse_config_str", "ldms/src/ldmsd/ldmsd_config.c: process_config_file"]}
{"id": "C79", "title": "A failover peer gets the whole configuration, and gives it up again", "statement": "When a daemon of a failover pair sends its configuration, the other daemon has each of its producers, updaters and storage policies under a prefixed name, with the same parameters, and nothing else; objects that were received are not sent back. Whatever is received and however often the work of the peer is taken over, given back or dropped, the daemon's own objects do not change. On take-over all producers and updaters of the peer are started; dropping the peer's configuration leaves the daemon as it was.", "quantifier": "all configurations of both daemons, all messages, all histories of messages, take-overs, stops, resets and connections", "why_tests_cant": "Configurations and histories are unbounded; tests use one pair with a few objects, and do not compare all fields or see freed memory.", "anchors": ["ldms/src/ldmsd/ldmsd_failover.c:__failover_send_prdcr", "ldms/src/ldmsd/ldmsd_failover.c:__failover_send_updtr", "ldms/src/ldmsd/ldmsd_failover.c:failover_cfgprdcr_handler", "ldms/src/ldmsd/ldmsd_failover.c:failover_cfgupdtr_handler", "ldms/src/ldmsd/ldmsd_failover.c:__peercfg_start", "ldms/src/ldmsd/ldmsd_failover.c:__peercfg_reset"]}
{"id": "C80", "title": "The shared secret is read from the right, protected file, and replies tell it apart", "statement": "The secret word of the ovis authentication is taken only from an absolute path whose file gives no permission to group and others; it is the word after secretword= in the first such line, and between 8 and 512 bytes. A file named by conf, or else by the environment, or else in the user's directory, or else the system's is the only one used; if it gives no secret there is none. Replies to a challenge under different words differ unless the digest collides; challenges do not repeat and survive packing.", "quantifier": "all files, paths, modes, file systems, words, challenges and digests", "why_tests_cant": "Files and words are unbounded; tests read a handful of files.", "anchors": ["lib/src/ovis_auth/auth.c:ovis_auth_get_secretword", "lib/src/ovis_auth/auth.c:ovis_auth_encrypt_password", "lib/src/ovis_auth/auth.c:ovis_auth_gen_challenge", "lib/src/ovis_auth/auth.c:ovis_get_rabbit_secretword", "ldms/src/auth/ldms_auth_ovis.c:__auth_ovis_new"]}
{"id": "C81", "title": "The sets of the samplers of /proc say what the files say", "statement": "After config and any number of samples, the set of meminfo and vmstat has under each name of the file the number that the last file read has for it, is marked consistent, keeps distinct names and its component id. procnetdev gives each configured interface the 16 counters of its line, whatever the order of the lines and other interfaces; interfaces that are not in the file keep their values. procnetdev2 gives one record per requested interface, all from one reading of the file. loadavg collects exactly the fields that are named, each under its name. config returns 0 only if there is a set.", "quantifier": "every file content, every list of names and every sequence of samples", "why_tests_cant": "The contents of /proc depend on the machine and change between samples; names, order and number of lines are unbounded.", "anchors": ["ldms/src/sampler/meminfo/meminfo.c: config, create_metric_set, sample, term", "ldms/src/sampler/vmstat/vmstat.c: config, create_metric_set, sample, term", "ldms/src/sampler/procnetdev/procnetdev.c: config, create_metric_set, sample", "ldms/src/sampler/procnetdev2/procnetdev2.c: config, sample", "ldms/src/sampler/loadavg/loadavg.c: parse_metrics, make_schema_name, sample"]}
{"id": "C82", "title": "A dynamic string is the text its client built", "statement": "A dynamic string that was initialised never writes or reads outside of its memory; after any history of set, append (all, a part, a number), cut, free and extract, with any failures of memory in between, its value and length are those of the text so built, each call returns that text or NULL with the text unchanged, and NULL only for a dead string, a text of INT_MAX bytes or more, or memory that is needed and not there. Below 200 bytes no memory is needed.", "quantifier": "every history of calls, every text and number, every pattern of failing allocations, every content of fresh memory", "why_tests_cant": "The capacity depends on the whole history, failures of memory can come at any call, and texts reach up to INT_MAX bytes.", "anchors": ["lib/src/ovis_util/dstring.c: dstr_init, dstr_init2, dstr_set, dstr_set_int, dstrcat, dstrcat_int, dstrcat_uint, dstr_trunc, dstr_free, dstr_extract", "lib/src/ovis_util/dstring.h: dstring_t"]}
{"id": "C83", "title": "Label sets give each label its own identifier, legal in the set's language", "statement": "A label set made with ovis_label_set_create gives an identifier to each label that ovis_label_set_insert or ovis_label_set_own is called with. However many labels are inserted, each label has at most one identifier, no two labels share one, the set has exactly the labels that were given one with what was returned for them, and a pair once given never changes. Identifiers consist of the bytes that their language allows, keep to the length limit of the set, are the label itself where that is legal and free, and every new label is given one.", "quantifier": "all labels, languages, length limits, hash functions and histories of insertions", "why_tests_cant": "uniqueness has to hold for any history of labels and any collision of translations or hashes; tests try a handful of labels", "anchors": ["lib/src/coll/label-set.c:ovis_label_set_insert", "lib/src/coll/label-set.c:ovis_label_to_id_language", "lib/src/third/b62encode.c:b62_encode"]}
{"id": "C84", "title": "Statistics of streams count the messages that came and went", "statement": "The statistics of a stream that an administrator reads give, for every history of subscriptions, closes, deliveries and resets, the number, the total length (in 64 bits) and the earliest and latest time of the messages of the stream since its statistics were last reset, the same for each source (at level 2), and for exactly the open clients that want the stream what they took and what they refused; the statistics of clients list exactly the open clients with their own totals and one entry for each stream they want; reading without reset changes nothing, a reset concerns what was asked for only, and reading never faults.", "quantifier": "all sequences of subscriptions by name or expression, closes, deliveries with any result of the clients' functions, levels, reads and resets", "why_tests_cant": "counters depend on the whole history since the last reset, on clients that came and went and on clocks that go back; tests fix a few messages", "anchors": ["ldms/src/core/ldms_stream.c:__stream_deliver", "ldms/src/core/ldms_stream.c:__counters_update", "ldms/src/core/ldms_stream.c:__stream_get_stats", "ldms/src/core/ldms_stream.c:ldms_stream_client_stats_tq_get", "ldms/src/core/ldms_stream.c:ldms_stream_n_client_stats_reset"]}
{"id": "C85", "title": "Stream messages written to files can be read back", "statement": "After a complete command names a stream for the blob writer, each message of the stream is appended whole to the data file of the current opening, with one offset, one time stamp and one type letter in the files of that opening, whether the files stay or are moved to the spool directory; reading the data file at the recorded offsets gives back the messages in their order.", "quantifier": "all sequences of configuration commands, messages (any bytes, type, time, short writes) and unloading, for any stream", "why_tests_cant": "tests write a few messages to one opening of the files; the offsets, the names and the move to the spool directory must fit for every sequence of commands and messages", "anchors": ["ldms/src/sampler/blob_stream/blob_stream_writer.c: stream_cb, stream_data_open, fclose_and_spool, reset_paths, set_paths, add_stream, config, stream_data_close, term"]}
{"id": "C86", "title": "Messages of the daemon's streams reach their subscribers and are counted", "statement": "A message delivered on a stream is given once, in order, to each client subscribed to the stream then, and to no other; a client that wants JSON parsed gets the object. A function and context can be subscribed to a stream only once. The statistics of the stream, of its publishers and of all streams together count the messages delivered and published since the last reset.", "quantifier": "all histories of new, subscribe, close, flag changes, deliveries, publications and resets over any streams, and the interleavings of threads that find a stream missing", "why_tests_cant": "tests subscribe one or two clients to one stream and never race two threads; which clients are called and what is counted must hold for every history, and the losses only show for particular orders", "anchors": ["ldms/src/ldmsd/ldmsd_stream.c: ldmsd_stream_new, ldmsd_stream_subscribe, ldmsd_stream_close, ldmsd_stream_flags_set, ldmsd_stream_deliver, ldmsd_stream_publish, ldmsd_stream_subscriber_count, ldmsd_stream_dir_dump, ldmsd_stream_stats_reset_all"]}
{"id": "C87", "title": "Flat files hold each stored value once, in order, in the file of its metric", "statement": "For all storage policies that use the flat file store, each value of a stored sample is one line, with the sample's time, producer and component, in the file of the policy's container, schema and metric; lines are in the order of the samples, and no file holds anything else. Closing and opening again continues the files.", "quantifier": "all histories of opening, storing and closing by any number of policies with any containers, schemas, metrics and samples", "why_tests_cant": "tests run one policy with one schema; files must be right for every number of policies, and for every order of their starts and stops", "anchors": ["ldms/src/store/store_flatfile/store_flatfile.c: open_store, store, close_store"]}
{"id": "C88", "title": "The options of a plugin are those given, from the right place", "statement": "An option of a plugin instance has the first value given for it in, in this order, the line of the instance in the options file, the configuration command and the line of the plugin in the file; keywords are looked for in the same places, and repeated options return as many values as the first place that has them gives. The file is accepted exactly if each line names an instance by its key attributes or the plugin, no key comes twice and nothing banned is used, and then holds exactly its lines; a later addition for a new key adds its entry and changes no other, and everything else is refused without effect. Checking a configuration counts exactly the names that are not allowed. Entries once there stay as they are under all later additions. A conversion to a number succeeds exactly if the option is a number that fits in the type, stores that number, and otherwise stores nothing.", "quantifier": "all option files, commands, lists of banned and deprecated names, additions and queries", "why_tests_cant": "files, lists of names and the order and repetition of options are unbounded; tests use a few well-formed lines", "anchors": ["ldms/src/ldmsd/ldmsd_plugattr.c:ldmsd_plugattr_create", "ldms/src/ldmsd/ldmsd_plugattr.c:ldmsd_plugattr_add", "ldms/src/ldmsd/ldmsd_plugattr.c:ldmsd_plugattr_value", "ldms/src/ldmsd/ldmsd_plugattr.c:ldmsd_plugattr_multivalue", "ldms/src/ldmsd/ldmsd_plugattr.c:ldmsd_plugattr_kw", "ldms/src/ldmsd/ldmsd_plugattr.c:ldmsd_plugattr_bool", "ldms/src/ldmsd/ldmsd_plugattr.c:ldmsd_plugattr_config_check"]}
{"id": "C89", "title": "Comments and continuation lines of an options file mean what they say", "statement": "A line of an options file whose last character but for white space is a backslash is one line with the next; a logical line whose first character but for white space is # has no meaning; all other lines are read as they are, in their order, and nothing outside the text of the file is read or written.", "quantifier": "all files of lines, blank or not, with comments and continuations anywhere", "why_tests_cant": "the number of lines, the chains of continuations and the white space in them are unbounded, and reading outside the buffer is not seen by tests", "anchors": ["ldms/src/ldmsd/ldmsd_plugattr.c:canonical", "ldms/src/ldmsd/ldmsd_plugattr.c:ldmsd_plugattr_create"]}
{"id": "C90", "title": "Maps with strings as keys find what was inserted, whatever the hash", "statement": "A key is found in a map exactly if it was inserted, with the value that was inserted first, even if the hashes of keys collide; inserting a key that is there is refused and changes nothing; the size is the number of different keys; a snapshot holds each key once with its value, or is refused with the length that is needed.", "quantifier": "all histories of insertions, all hash functions, all keys and array lengths", "why_tests_cant": "collisions of a 64-bit hash cannot be provoked by tests, and histories are unbounded", "anchors": ["lib/src/coll/ovis-map.c:ovis_map_insert", "lib/src/coll/ovis-map.c:ovis_map_insert_new", "lib/src/coll/ovis-map.c:ovis_map_find", "lib/src/coll/ovis-map.c:ovis_map_size", "lib/src/coll/ovis-map.c:ovis_map_snapshot"]}
