{"id": "C01", "title": "RB tree holds exactly the live nodes, in comparator order", "statement": "After any sequence of aosl_rb_insert_node / aosl_rb_remove / aosl_rb_erase on a tree with a consistent comparator, an in-order walk yields exactly the nodes inserted and not yet removed, sorted by the comparator, nodes that compare equal appearing in insertion order.", "quantifier": "all finite histories of inserts and removals, all key types with a total preorder comparator, all tree shapes", "why_tests_cant": "rebalancing has many shape-dependent cases that only occur for particular histories; tests sample a few of them", "anchors": ["lib/rbtree.c: aosl_vfind_rb_links, aosl_rb_insert_color, aosl_rb_erase, aosl_rb_insert_node, aosl_rb_remove", "include/api/aosl_rbtree.h"]}
{"id": "C02", "title": "RB tree stays balanced", "statement": "After any history the tree satisfies the red-black rules (root black, no red node with a red child, equal black count on all paths), so its height is at most 2*log2(n+1) and every lookup takes at most that many comparisons.", "quantifier": "all finite histories of inserts and removals", "why_tests_cant": "balance must survive every rotation/recolouring path; a single bad case may only show as a slow lookup", "anchors": ["lib/rbtree.c: aosl_rb_insert_color, __rb_erase_color, aosl_rb_erase"]}
{"id": "C03", "title": "RB tree count is the number of nodes", "statement": "The count kept in the root equals the number of nodes in the tree after any history of successful inserts and removals.", "quantifier": "all finite histories", "why_tests_cant": "a drift needs a specific history to show", "anchors": ["lib/rbtree.c: aosl_rb_insert_color, aosl_rb_erase, aosl_rb_remove"]}
{"id": "C04", "title": "RB tree lookup is complete and sound", "statement": "aosl_find_rb_node returns a node exactly when the tree holds a node comparing equal to the sought key, and then returns such a node.", "quantifier": "all trees reachable by the API, all keys, all consistent comparators", "why_tests_cant": "must hold for every tree shape and key", "anchors": ["lib/rbtree.c: aosl_vfind_rb_node, aosl_find_rb_node"]}
{"id": "C05", "title": "RB tree removal affects one node only", "statement": "aosl_rb_remove of an absent key returns NULL and leaves the tree unchanged; of a present key it returns a node with that key and the tree then holds exactly the other nodes, in unchanged relative order.", "quantifier": "all reachable trees, all keys", "why_tests_cant": "erase has four structural cases times recolouring cases", "anchors": ["lib/rbtree.c: aosl_rb_remove, aosl_rb_erase"]}
{"id": "C06", "title": "RB tree iteration visits successive nodes", "statement": "Starting from aosl_rb_first and following aosl_rb_next until NULL visits every node exactly once in comparator order; aosl_rb_last/aosl_rb_prev visit them in the reverse order.", "quantifier": "all trees", "why_tests_cant": "successor logic climbs through parents: shape dependent", "anchors": ["lib/rbtree.c: aosl_rb_first, aosl_rb_last, aosl_rb_next, aosl_rb_prev"]}
{"id": "C07", "title": "RB tree traversals visit each node once and stop early", "statement": "The three traversals (pre-, in-, post-order) call the callback once per node, in the respective order, and after the callback first returns non-zero no further node is visited.", "quantifier": "all trees, all callbacks", "why_tests_cant": "for all trees and all stopping points", "anchors": ["lib/rbtree.c: aosl_rb_traverse_dlr, aosl_rb_traverse_ldr, aosl_rb_traverse_lrd"]}
{"id": "C08", "title": "Intrusive list operations keep a well-formed ring", "statement": "For every well-formed list, add/add_tail/del/del_init/move/move_tail/splice_tail_init/remove_head/remove_tail leave well-formed rings whose contents are the expected sequences, and touch no node outside the lists involved.", "quantifier": "all lists, all nodes, all memory layouts", "why_tests_cant": "pointer aliasing cases (empty list, singleton, neighbours) for unbounded lists", "anchors": ["include/api/aosl_list.h: aosl_list_add, aosl_list_add_tail, aosl_list_del, aosl_list_del_init, aosl_list_move, aosl_list_move_tail, aosl_list_splice_tail_init, aosl_list_remove_head, aosl_list_remove_tail"]}
{"id": "C09", "title": "Packet buffer geometry invariant", "statement": "After any sequence of reserve/put/get/push/pull/reset calls with lengths below 2^31 the data window lies inside the buffer and headroom + data length + tailroom equals the buffer size.", "quantifier": "all buffer sizes, all finite call sequences, all lengths below 2^31", "why_tests_cant": "unbounded sequences of pointer moves", "anchors": ["lib/psbuff.c", "include/kernel/psbuff.h"]}
{"id": "C10", "title": "Packet buffer calls are all-or-nothing", "statement": "put/get/push/pull/reserve either succeed and move exactly the requested number of bytes, or fail (NULL / -1) and leave the buffer state untouched; success happens exactly when the room/data suffices.", "quantifier": "all buffer states, all lengths below 2^31", "why_tests_cant": "boundary for every length/size pair", "anchors": ["include/kernel/psbuff.h: psb_put, psb_get, psb_push, psb_pull, psb_reserve"]}
{"id": "C11", "title": "Packet buffer preserves payload bytes", "statement": "Bytes written through put are read back by get/pull in the same order regardless of how writes and reads are chunked and interleaved; push places bytes before the existing payload.", "quantifier": "all byte strings, all chunkings", "why_tests_cant": "all chunkings", "anchors": ["include/kernel/psbuff.h: psb_put, psb_get, psb_push", "lib/psbuff.c"]}
{"id": "C12", "title": "aosl_psb_push rejects any length exceeding the headroom", "statement": "aosl_psb_push(psb, len) fails for every len greater than the headroom, so the data pointer never leaves the buffer.", "quantifier": "all psb states and all size_t lengths", "why_tests_cant": "the failing region is lengths of 2^31 and more", "anchors": ["include/kernel/psbuff.h: psb_push", "lib/psbuff.c: aosl_psb_push"]}
{"id": "C13", "title": "User-supplied buffers are never freed by the library", "statement": "A buffer attached with aosl_psb_attach_buf remains owned by the caller: no later library call frees it; library buffers are freed exactly once.", "quantifier": "all sequences of alloc/attach/detach/free", "why_tests_cant": "ownership history", "anchors": ["lib/psbuff.c: aosl_psb_attach_buf, aosl_psb_detach_buf, aosl_free_psb_list, free_psb"]}
{"id": "C14", "title": "Chain length and list free", "statement": "aosl_psb_total_len equals the sum of the data lengths over the chain; aosl_psb_reset empties every segment of the chain.", "quantifier": "all chains", "why_tests_cant": "unbounded chains", "anchors": ["lib/psbuff.c: aosl_psb_total_len, aosl_psb_reset"]}
{"id": "C15", "title": "Bitmap behaves as a set of indices", "statement": "For every index below the declared bit count, a bit reads 1 exactly when the last operation on it was set; setting or clearing one bit changes no other; out-of-range set/clear are ignored.", "quantifier": "all bitmap sizes, all indices, all histories", "why_tests_cant": "byte/bit arithmetic for all indices", "anchors": ["lib/bitmap.c: bitmap_set, bitmap_clear, bitmap_get, bitmap_create, bitmap_reset"]}
{"id": "C16", "title": "First zero bit search is exact", "statement": "bitmap_find_first_zero_bit returns the least clear index, and -1 exactly when all bits are set.", "quantifier": "all bitmap contents and sizes", "why_tests_cant": "for all contents incl. partial last byte", "anchors": ["lib/bitmap.c: bitmap_find_first_zero_bit"]}
{"id": "C17", "title": "Bitmap copy grows without losing bits", "statement": "Copying into a bitmap at least as large preserves every source bit and leaves all further bits clear; copying into a smaller one is refused.", "quantifier": "all pairs of sizes/contents", "why_tests_cant": "all sizes", "anchors": ["lib/bitmap.c: bitmap_copy"]}
{"id": "C18", "title": "Handles are unique among live objects", "statement": "At any time two distinct live ref objects (queues, timers) have distinct handles, and looking up a live object's handle yields that object.", "quantifier": "all histories of create/destroy/lookup", "why_tests_cant": "histories with slot recycling and life-id wrap", "anchors": ["kernel/refobj.c: refobj id table", "kernel/timer.c", "kernel/mpq.c"]}
{"id": "C19", "title": "Stale handles do not resolve", "statement": "After an object is destroyed its handle never resolves to another object created in its slot, as long as fewer than 65535 further objects have been created in that table since.", "quantifier": "all histories with fewer than 65535 reuses of one slot", "why_tests_cant": "ABA needs specific recycling histories", "anchors": ["kernel/refobj.c: __obj_id_alloc, refobj_get", "kernel/timer.c", "kernel/mpq.c"]}
{"id": "C20", "title": "Handle table capacity", "statement": "Creation succeeds whenever fewer objects are live than the table's configured maximum.", "quantifier": "all histories of create/destroy", "why_tests_cant": "needs hundreds of live objects and interleavings", "anchors": ["kernel/refobj.c", "lib/bitmap.c: bitmap_create"]}
{"id": "C21", "title": "Marshal then unmarshal is the identity", "statement": "For every type descriptor and every value of it within the documented size limits, marshalling into a packet-buffer chain and unmarshalling it yields an equal value, consuming exactly the bytes produced.", "quantifier": "all type descriptors (nested to any depth), all values, all chain segmentations", "why_tests_cant": "recursive descriptors and unbounded values", "anchors": ["lib/marshalling.c: _____marshal, _____unmarshal"]}
{"id": "C22", "title": "Unmarshalling rejects truncated data", "statement": "Unmarshalling any strict prefix of a marshalled value fails with an error instead of succeeding or reading beyond the data.", "quantifier": "all descriptors, values and cut points", "why_tests_cant": "every cut point of every value", "anchors": ["lib/marshalling.c: _____unmarshal"]}
{"id": "C23", "title": "Unmarshalling is independent of segmentation", "statement": "The result of unmarshalling depends only on the concatenation of the segments' bytes, not on where segment boundaries fall.", "quantifier": "all byte strings, all segmentations, all descriptors", "why_tests_cant": "all splits", "anchors": ["lib/marshalling.c: bytes extraction across psb chain"]}
{"id": "C24", "title": "Variable-length counts never overflow the receiver's array", "statement": "When unmarshalling variable arrays/bytes, a received count greater than the receiver's declared capacity is refused and nothing beyond the capacity is written.", "quantifier": "all input bytes", "why_tests_cant": "adversarial inputs", "anchors": ["lib/marshalling.c: _____unmarshal VAR_BYTES/VAR_ARRAY"]}
{"id": "C25", "title": "Dynamic array append semantics", "statement": "Appending n elements to a dynamic array of m elements yields the old elements followed by the new ones when m+n stays below 10240, otherwise fails with E2BIG and leaves the array unchanged.", "quantifier": "all arrays, all counts, all histories", "why_tests_cant": "boundary and growth for all sizes", "anchors": ["lib/marshalling-base-obj.c: add_elems, aosl_dynamic_array_add_data"]}
{"id": "C26", "title": "Dynamic string semantics", "statement": "strcpy/strcat on dynamic strings yield the concatenation of the arguments, NUL terminated; strcpy_out copies at most buf_sz-1 characters plus a NUL.", "quantifier": "all strings, all histories, all buffer sizes >= 1", "why_tests_cant": "all lengths", "anchors": ["lib/marshalling-base-obj.c: strcat, strcpy, strcpy_out"]}
{"id": "C27", "title": "Dynamic array comparison is a total order", "statement": "The comparison of dynamic byte arrays is reflexive, antisymmetric, transitive and total, and zero exactly for equal contents.", "quantifier": "all triples of arrays", "why_tests_cant": "quantifies over triples", "anchors": ["lib/marshalling-base-obj.c: compare"]}
{"id": "C28", "title": "Timers fire in expiry order, FIFO among equals", "statement": "Within a queue, due timers are invoked in non-decreasing expiry time; timers with the same expiry fire in the order they were scheduled.", "quantifier": "all sets of timers and schedules", "why_tests_cant": "all schedules", "anchors": ["kernel/timer.c: timer base, __add_timer, run_timers"]}
{"id": "C29", "title": "No timer fires early", "statement": "A timer callback runs only when the current tick has reached its scheduled expiry.", "quantifier": "all schedules and clock readings (expiry within 2^63 of now)", "why_tests_cant": "all clock readings", "anchors": ["kernel/timer.c"]}
{"id": "C30", "title": "One-shot timers fire at most once", "statement": "A one-shot timer that is not rescheduled fires exactly once when due and is inactive afterwards.", "quantifier": "all schedules", "why_tests_cant": "all schedules", "anchors": ["kernel/timer.c"]}
{"id": "C31", "title": "Periodic timers do not drift", "statement": "A periodic timer's k-th expiry is start + k*interval no matter how late each run is, provided time does not advance during the run loop itself.", "quantifier": "all clock sequences", "why_tests_cant": "unbounded runs", "anchors": ["kernel/timer.c: __run_timers"]}
{"id": "C32", "title": "Cancelled or killed timers never fire", "statement": "After cancel or kill returns on the owning queue, the timer's callback is not invoked again unless it is rescheduled (cancel only); cancelling one timer does not affect the others.", "quantifier": "all histories", "why_tests_cant": "all interleavings of cancel with runs", "anchors": ["kernel/timer.c: aosl_mpq_cancel_timer, aosl_mpq_kill_timer"]}
{"id": "C33", "title": "Timer destructor runs exactly once", "statement": "A timer's destructor runs exactly once, when the timer has been killed and the last concurrent user has released it.", "quantifier": "all interleavings of get/put/kill", "why_tests_cant": "reference-count interleavings", "anchors": ["kernel/timer.c: timer_put, kill"]}
{"id": "C34", "title": "Ref object destructor runs exactly once, after the last reference", "statement": "The destructor of a ref object runs exactly once, never while any thread holds a reference, and always once the object is destroyed with delete and all references are released.", "quantifier": "all interleavings of hold/put/destroy by any number of threads", "why_tests_cant": "interleavings", "anchors": ["kernel/refobj.c: refobj_get, refobj_put, aosl_ref_destroy"]}
{"id": "C35", "title": "Destroyed ref objects reject read and write", "statement": "Once aosl_ref_destroy has returned successfully, aosl_ref_read and aosl_ref_write on that ref never run the callback with the object; deletion happens at most once and later destroy calls report an error.", "quantifier": "all histories", "why_tests_cant": "histories and races", "anchors": ["kernel/refobj.c: aosl_ref_destroy, aosl_ref_read, aosl_ref_write"]}
{"id": "C36", "title": "Ref object readers and writers exclude each other", "statement": "At no time do a write callback and another thread's read or write callback run on the same ref object.", "quantifier": "all interleavings, any number of threads", "why_tests_cant": "interleavings", "anchors": ["kernel/refobj.c: refobj lock operations", "kernel/thread.c: k_rwlock"]}
{"id": "C37", "title": "Object table life cycle: id freed only after destructor", "statement": "A slot of a handle table is reused only after the previous object's destructor has finished.", "quantifier": "all interleavings", "why_tests_cant": "interleavings", "anchors": ["kernel/refobj.c"]}
{"id": "C38", "title": "Queued functions run in FIFO order", "statement": "Functions queued to one queue run in the order in which the queueing calls took effect.", "quantifier": "all interleavings of any number of producers with the consumer", "why_tests_cant": "schedules", "anchors": ["kernel/mpq.c: ____add_f, __check_and_call_funcs"]}
{"id": "C39", "title": "Queued functions run exactly once", "statement": "Every function whose queueing call reported success is invoked exactly once (with the object or free-only), and a function whose queueing failed is never invoked.", "quantifier": "all interleavings, including queue destruction", "why_tests_cant": "schedules and crash of the queue", "anchors": ["kernel/mpq.c: ____add_f, __process_fo, __q_wait_destroy"]}
{"id": "C40", "title": "Queue bound is respected", "statement": "A non-blocking queue never holds more than its configured maximum of pending functions except for internal completions, and adding to a full one reports EAGAIN without side effect.", "quantifier": "all histories", "why_tests_cant": "schedules", "anchors": ["kernel/mpq.c: ____add_f"]}
{"id": "C41", "title": "Synchronous call returns only after execution", "statement": "aosl_mpq_call returns success only after the function has been executed on the target queue; calling on the own queue runs it inline.", "quantifier": "all schedules", "why_tests_cant": "schedules", "anchors": ["kernel/mpq.c: __mpq_call_argv"]}
{"id": "C42", "title": "Completion functions follow the main function", "statement": "When a done queue is given, the completion runs once on the done queue after the function ran, or free-only locally when the done queue is gone; it does not run when the function itself was free-only.", "quantifier": "all schedules", "why_tests_cant": "schedules", "anchors": ["kernel/mpq.c: __invoke_f"]}
{"id": "C43", "title": "Functions bound to a destroyed ref are invoked free-only", "statement": "A queued function with a ref that was destroyed before execution is invoked with the free-only object, never with the object itself.", "quantifier": "all interleavings of destroy and run", "why_tests_cant": "schedules", "anchors": ["kernel/mpq.c: mpq_invoke_refobj_get"]}
{"id": "C44", "title": "Destroying a queue drains it", "statement": "When queue destruction completes, every function accepted by the queue has been invoked and the handle no longer resolves.", "quantifier": "all schedules", "why_tests_cant": "schedules", "anchors": ["kernel/mpq.c: __q_wait_destroy"]}
{"id": "C45", "title": "No lost wake-up", "statement": "A queue thread never blocks in its poll forever while a function is pending: whenever a function is added, a wake-up is pending or the thread will examine the queue before sleeping.", "quantifier": "all interleavings of producers with the poll loop", "why_tests_cant": "the race window is a few instructions", "anchors": ["kernel/osmp.c: os_poll_dispatch, os_mp_kick", "kernel/mpq.c"]}
{"id": "C46", "title": "Argument limits of the queue calls", "statement": "Calls with more than the maximum of arguments fail with E2BIG and data longer than 8192 bytes fails with EMSGSIZE, without queueing anything.", "quantifier": "all argument counts and lengths", "why_tests_cant": "all values", "anchors": ["kernel/mpq.c"]}
{"id": "C47", "title": "Pool never exceeds its size", "statement": "A queue pool never holds more queues than its configured size and allocations are spread to a queue with minimal load.", "quantifier": "all histories of alloc/free/queue/shrink", "why_tests_cant": "histories", "anchors": ["kernel/mpqp.c"]}
{"id": "C48", "title": "Pool tail-queue runs once after all queues", "statement": "A function queued with pool tail queueing runs exactly once, after every queue of the pool has executed everything queued to it before.", "quantifier": "all pool sizes and schedules", "why_tests_cant": "schedules", "anchors": ["kernel/mpqp.c: pool_tail_queue"]}
{"id": "C49", "title": "Pool usage accounting", "statement": "Freeing a pool queue more often than it was allocated is refused, and the pool only shrinks queues nobody has allocated.", "quantifier": "all histories", "why_tests_cant": "histories", "anchors": ["kernel/mpqp.c: aosl_mpq_free, __mpqp_shrink"]}
{"id": "C50", "title": "Written bytes reach the fd in order, without loss or duplication", "statement": "For an fd whose low-level write takes an arbitrary prefix of what it is offered, the bytes that reached the fd plus the bytes still queued are always exactly the concatenation of the accepted writes.", "quantifier": "all sequences of writes and writability events, all partial write results", "why_tests_cant": "all partial-write patterns", "anchors": ["kernel/iofd.c: ____write, __iofd_write_data"]}
{"id": "C51", "title": "Write queue bound", "statement": "The write queue never holds more than 128 KiB; a write exceeding the space fails with EAGAIN, one exceeding the limit with EMSGSIZE, both without queueing anything.", "quantifier": "all histories", "why_tests_cant": "histories", "anchors": ["kernel/iofd.c: ____write, w_queue_space"]}
{"id": "C52", "title": "Packet reassembly is independent of read boundaries", "statement": "With a packet-check function, the sequence of packets delivered depends only on the received byte stream, not on how it was split into reads; each delivered packet is contiguous and no byte is lost or delivered twice.", "quantifier": "all byte streams, all splits, all deterministic check functions", "why_tests_cant": "all splits", "anchors": ["kernel/iofd.c: __iofd_read_data"]}
{"id": "C53", "title": "Receive buffer never overflows", "statement": "The read loop never asks the low-level read for more bytes than remain in the receive buffer.", "quantifier": "all streams, all max packet sizes", "why_tests_cant": "all sizes", "anchors": ["kernel/iofd.c: __iofd_read_data, __iofd_better_move_buffer"]}
{"id": "C54", "title": "One registration per fd", "statement": "An fd can be registered with at most one queue at a time; a second registration fails with EEXIST (EBUSY when two registrations race) and disturbs nothing; after removal it can be registered again; the file object is destroyed exactly once after its last user releases it.", "quantifier": "all histories", "why_tests_cant": "histories and interleavings", "anchors": ["kernel/fileobj.c", "kernel/iofd.c"]}
{"id": "C55", "title": "Read-write lock excludes writers", "statement": "At no time does a writer hold an aosl rwlock together with a reader or another writer.", "quantifier": "all interleavings of any number of threads over lock/trylock/unlock", "why_tests_cant": "interleavings", "anchors": ["lib/rwlockimpl.c", "include/kernel/rwlock-generic.h"]}
{"id": "C56", "title": "Upgrading read locks is atomic with respect to other writers", "statement": "Between the read section and the write section of aosl_rwlock_rd2wrlock no other thread obtains the write lock.", "quantifier": "all interleavings", "why_tests_cant": "interleavings", "anchors": ["kernel/thread.c: k_rwlock_rd2wrlock, k_rwlock_wrlock"]}
{"id": "C57", "title": "Event semantics", "statement": "A set event lets every wait through until reset; a pulse wakes at most one waiter or is consumed by the next wait; wait does not return without set or pulse.", "quantifier": "all interleavings", "why_tests_cant": "interleavings", "anchors": ["kernel/thread.c: k_event_set, k_event_pulse, k_event_wait, k_event_reset"]}
{"id": "C58", "title": "Static lock initialises once", "statement": "However many threads race on aosl_static_lock_init, the underlying lock is initialised once and every caller returning success finds it initialised.", "quantifier": "all interleavings", "why_tests_cant": "interleavings", "anchors": ["kernel/thread.c: k_static_lock_init"]}
{"id": "C59", "title": "Thread-local values are private and die with the key", "statement": "A thread reads under a key exactly the value it last stored under that key since the key was created, NULL otherwise; other threads' stores and stores under earlier incarnations of the key slot are never visible.", "quantifier": "all histories over all threads and keys without deleting a key twice", "why_tests_cant": "histories with key recycling", "anchors": ["lib/tls.c"]}
{"id": "C60", "title": "Library lifecycle reference count", "statement": "aosl_ctor/aosl_dtor nest: the subsystem initialisation runs on the first ctor only and finalisation on the matching last dtor only; unmatched dtor calls have no effect.", "quantifier": "all histories", "why_tests_cant": "histories", "anchors": ["kernel/mpq.c: aosl_ctor, aosl_dtor"]}
{"id": "C61", "title": "Main queue can be restarted after a failed start", "statement": "If aosl_main_start fails, a later aosl_main_start can succeed.", "quantifier": "all histories of start attempts", "why_tests_cant": "needs injected resource exhaustion", "anchors": ["kernel/mpq.c: aosl_main_start"]}
{"id": "C62", "title": "Memory accounting is exact", "statement": "With memory statistics enabled the used-memory counter equals the sum of the sizes (plus bookkeeping) of the live allocations after any history, and returns to its initial value when all are freed.", "quantifier": "all histories of malloc/calloc/realloc/free", "why_tests_cant": "histories", "anchors": ["mm/mm.c"]}
{"id": "C63", "title": "Byte order conversion is an involution", "statement": "ntohl(htonl(x)) = x and ntohs(htons(x)) = x for every x on both endiannesses, and the in-memory bytes of htonl(x) are the big-endian digits of x.", "quantifier": "all 16/32/64-bit values", "why_tests_cant": "2^64 values", "anchors": ["include/kernel/swab.h", "include/kernel/byteorder/generic.h", "net/sk_utils.c: aosl_htonl"]}
{"id": "C64", "title": "IPv4 text conversion round-trips", "statement": "Parsing the text produced for any IPv4 address yields that address; the parser accepts exactly canonical dotted quads.", "quantifier": "all addresses, all strings", "why_tests_cant": "2^32 addresses and all strings", "anchors": ["net/inet.c: inet_ntop4, inet_pton4"]}
{"id": "C65", "title": "IPv6 text conversion round-trips", "statement": "Parsing the text produced for any IPv6 address yields that address.", "quantifier": "all 2^128 addresses", "why_tests_cant": "2^128 addresses", "anchors": ["net/inet.c: inet_ntop6, inet_pton6"]}
{"id": "C66", "title": "Address text buffers never overflow", "statement": "The conversion to text writes at most the given size including the NUL and fails with ENOSPC otherwise; the internal temporary never overflows.", "quantifier": "all addresses and sizes", "why_tests_cant": "all", "anchors": ["net/inet.c: inet_ntop4, inet_ntop6"]}
{"id": "C67", "title": "IPv4/IPv6 socket address mapping round-trips", "statement": "Mapping an IPv4 socket address to IPv6 with the queue's prefix (or the NAT64 prefix) and back preserves address and port; addresses without a known prefix are refused.", "quantifier": "all addresses, ports, prefixes", "why_tests_cant": "all", "anchors": ["net/ipv6.c: ipv6_sk_addr_from_ipv4, ipv6_sk_addr_to_ipv4"]}
{"id": "C68", "title": "IPv6 prefix comparison", "statement": "ipv6_prefix_equal(a,b,n) holds exactly when the first n bits agree.", "quantifier": "all addresses, all n <= 128", "why_tests_cant": "all", "anchors": ["include/kernel/ipv6.h: ipv6_prefix_equal"]}
{"id": "C69", "title": "Network event classification", "statement": "For every sequence of route observations the reported events are exactly: DOWN on valid-to-none, UP / UP_CHANGED on none-to-valid depending on the last valid route, SWITCH on a changed route, RT_CNT_CHANGED when only the count changed, and none otherwise.", "quantifier": "all observation sequences", "why_tests_cant": "sequences", "anchors": ["net/route.c: check_report_def_rt_change_event"]}
{"id": "C70", "title": "One net event subscriber", "statement": "At most one queue is subscribed; only the subscribing queue can unsubscribe.", "quantifier": "all histories", "why_tests_cant": "histories", "anchors": ["net/route.c: aosl_subscribe_net_events"]}
{"id": "C71", "title": "Interface cache is a map", "statement": "After any sequence of updates and deletions, looking up an interface index yields the latest added data for that index, or nothing when deleted.", "quantifier": "all histories", "why_tests_cant": "histories, hash collisions", "anchors": ["net/netifs.c: update_netifs, netif_by_index"]}
{"id": "C72", "title": "User arguments reach the callbacks of *_on_q registrations", "statement": "The variadic user arguments given to aosl_mpq_connect_on_q / listen_on_q / add_*_socket_on_q are delivered unchanged, in number and order, to the callbacks.", "quantifier": "all argument lists", "why_tests_cant": "all argument counts", "anchors": ["net/sk_utils.c: __mpq_connect_on_q_args, ____target_q_connect, aosl_mpq_listen_on_q"]}
{"id": "C73", "title": "Wrap-around comparison is a strict order in a half window", "statement": "aosl_uintN_after/before order any set of counters lying within a half window consistently with their distance from the window start, across wrap-around.", "quantifier": "all N-bit counters", "why_tests_cant": "2^N values", "anchors": ["include/api/aosl_integer_wrappings.h"]}
{"id": "C74", "title": "Error convention", "statement": "Every API returning via return_err gives -1 with aosl_errno = e exactly when the internal result is -e with 1 <= e <= 4095, and the unchanged result otherwise.", "quantifier": "all machine words", "why_tests_cant": "2^64", "anchors": ["include/kernel/err.h: return_err, IS_ERR_VALUE"]}
{"id": "C75", "title": "Asynchronous resolve replies once", "statement": "An accepted asynchronous resolve invokes the reply function exactly once, with at most addr_count addresses stored, also when the requesting queue is gone (then free-only).", "quantifier": "all resolver results, all schedules", "why_tests_cant": "schedules", "anchors": ["net/dns.c"]}
{"id": "C76", "title": "IPv6 text is canonical", "statement": "The text produced for an IPv6 address is the canonical one: lower-case groups without leading zeros, the first longest run of at least two zero groups replaced by '::' and no other, IPv4-compatible and IPv4-mapped addresses ending in a dotted quad.", "quantifier": "all 2^128 addresses", "why_tests_cant": "2^128 addresses; the choice among several zero runs has many cases", "anchors": ["net/inet.c: inet_ntop6"]}
{"id": "C77", "title": "Address string API round-trips for both families", "statement": "aosl_inet_addr_from_string accepts exactly canonical dotted quads (returning 4) and RFC 4291 IPv6 texts (returning 16), and applied to the text written by aosl_inet_addr_str gives back the address and its size.", "quantifier": "all addresses of both families, all strings, all buffer sizes from 46 bytes to 2 GiB", "why_tests_cant": "infinitely many strings; the two grammars must not overlap", "anchors": ["net/sk_utils.c: aosl_inet_addr_str, aosl_inet_addr_from_string", "net/inet.c"]}
{"id": "C78", "title": "Dual-stack sockets reach a destination through the right socket", "statement": "aosl_ip_sk_sendto / aosl_mpq_ip_sk_connect use the socket of the destination's family with the destination unchanged when it is open, otherwise the other socket with the mapped destination, and fail with EINVAL exactly when neither socket is open, the family is unknown, or an IPv6 destination without known prefix would have to go through an IPv4 socket.", "quantifier": "all socket pairs, destinations and queue prefixes", "why_tests_cant": "the destination space is 2^128 and the queue prefix arbitrary", "anchors": ["net/sk_utils.c: aosl_ip_sk_sendto, aosl_mpq_ip_sk_connect, aosl_mpq_ip_sk_connect_on_q"]}
{"id": "C79", "title": "IPv6 address classification", "statement": "The type and scope computed for an IPv6 address are those of the most specific address range it belongs to (unspecified, loopback, v4-compatible, v4-mapped, link local, site local, multicast with its scope, otherwise global unicast), on both byte orders.", "quantifier": "all 2^128 addresses, both endiannesses", "why_tests_cant": "2^128 addresses", "anchors": ["net/ipv6.c: __ipv6_addr_type", "include/kernel/ipv6.h"]}
{"id": "C80", "title": "IPv6 prefix extraction and replacement", "statement": "Taking a prefix of n bits keeps exactly the first n bits and clears the rest; replacing a prefix changes exactly the first n bits; masked comparison reports a difference exactly when a bit selected by the mask differs.", "quantifier": "all addresses, masks and prefix lengths", "why_tests_cant": "2^128 addresses times 129 lengths", "anchors": ["include/kernel/ipv6.h: ipv6_addr_prefix, ipv6_addr_prefix_copy, ipv6_masked_addr_cmp, ipv6_addr_equal"]}
{"id": "C81", "title": "Setting the IPv6 prefix of a queue takes effect", "statement": "After aosl_mpq_set_ipv6_prefix_on_q (q, a) has succeeded, IPv4 addresses are mapped on that queue with the first 96 bits of a, and with 64:ff9b::/96 after NULL, until the next such call.", "quantifier": "all histories of prefix settings", "why_tests_cant": "histories are unbounded", "anchors": ["net/ipv6.c: ____q_update_ipv6_prefix, ipv6_sk_addr_from_ipv4"]}
{"id": "C82", "title": "Socket address helpers", "statement": "aosl_sk_addr_ip_equal compares family and address bytes only and is symmetric and transitive; the port given to aosl_ip_sk_addr_init_with_port is read back by aosl_ip_sk_addr_port on both byte orders; aosl_set_socket_dscp passes on exactly the values 0..63.", "quantifier": "all socket addresses, ports and dscp values", "why_tests_cant": "2^128 addresses", "anchors": ["net/sk_utils.c: aosl_sk_addr_ip_equal, aosl_ip_sk_addr_init_with_port, aosl_ip_sk_addr_port, aosl_set_socket_dscp"]}
{"id": "C83", "title": "Dual-stack socket life cycle", "statement": "aosl_ip_sk_create opens sockets for exactly the families with a valid default route and returns the number opened or -1; aosl_ip_sk_bind binds exactly the open sockets with a given address; aosl_ip_sk_close closes each open socket once and a second close does nothing.", "quantifier": "all outcomes of the system calls and all socket pairs", "why_tests_cant": "outcomes of system calls cannot be enumerated by unit tests", "anchors": ["net/route.c: aosl_ip_sk_create", "net/sk_utils.c: aosl_ip_sk_bind, aosl_ip_sk_close"]}
{"id": "C84", "title": "The route text never overflows the buffer", "statement": "aosl_def_rt_str (rt, buf, size) writes only into the size bytes of buf and, when the text fits, returns the text of the valid routes separated by '; '.", "quantifier": "all routes and buffer sizes", "why_tests_cant": "lengths are unbounded", "anchors": ["net/route.c: aosl_def_rt_str"]}
{"id": "C85", "title": "The reported default route is the kernel's preferred one", "statement": "Among the default routes the kernel lists, the one reported is the first with the least metric (a missing metric counting as 0), and the reported number is the number of routes listed.", "quantifier": "all route dumps", "why_tests_cant": "dumps are unbounded", "anchors": ["kernel/rt_monitor.c: __af_get_default_rt"]}
{"id": "C86", "title": "Unmarshalled strings are NUL-terminated", "statement": "A string delivered by aosl_unmarshal (STRING or BYTES_WITH_NIL) is terminated within the memory that holds it.", "quantifier": "all input bytes", "why_tests_cant": "an unterminated result needs 64 KiB of input of one exact shape; only a proof covers every length", "anchors": ["lib/marshalling.c: _____unmarshal STRING, BYTES_WITH_NIL, SAFE_STRSIZE"]}
{"id": "C87", "title": "The marshalled form does not depend on the machine", "statement": "Integers are marshalled in network byte order, as aosl_marshalling.h documents, so that machines of different byte order understand each other.", "quantifier": "all integers, both byte orders", "why_tests_cant": "one test machine has one byte order", "anchors": ["lib/marshalling.c: __encode_intN, __decode_intN", "include/api/aosl_marshalling.h: aosl_encode_int16"]}
{"id": "C88", "title": "Dynamic arrays own their memory", "statement": "In every history of operations on dynamic arrays, byte buffers and strings, no operation reads or writes outside a live block or frees a block twice, and once every array is released nothing remains allocated.", "quantifier": "all histories, all sizes, all allocation failures", "why_tests_cant": "leaks and stale pointers depend on the order of appends, copies, transfers and failures", "anchors": ["lib/marshalling.c: aosl_dynamic_array_add_elems, aosl_dynamic_array_take, aosl_dynamic_bytes_copy, aosl_dynamic_array_init_with"]}
{"id": "C89", "title": "A queue never sleeps past its earliest timer", "statement": "The time a queue may block in its poll is unlimited exactly when it has no active timer, and otherwise is the time remaining to the earliest expiry, zero if that has passed.", "quantifier": "all timer histories and clock readings (expiries within 2^63 ms)", "why_tests_cant": "a wrong sleep shows only for particular combinations of timers and clock values", "anchors": ["kernel/mpq.c: mpq_max_wait_time", "kernel/timer.c"]}
{"id": "C90", "title": "Killing a timer is safe against concurrent use of its handle", "statement": "Whatever timer calls other threads make on the same handle, the queue never touches a timer that has been freed.", "quantifier": "all interleavings of create/resched/cancel/kill/query calls with the queue thread", "why_tests_cant": "needs one particular interleaving of a kill and another call", "anchors": ["kernel/timer.c: aosl_mpq_kill_timer, aosl_mpq_resched_timer, __resched_timer"]}
{"id": "C91", "title": "A timer's arguments live while its callback runs", "statement": "While a timer callback is running, the argument vector passed to it stays allocated and its destructor has not run.", "quantifier": "all histories, including callbacks that use the timer API on their own timer", "why_tests_cant": "depends on what the callback does", "anchors": ["kernel/timer.c: __check_and_run_timers, __kill_timer_on_q"]}
{"id": "C92", "title": "Read-write lock loses no wake-up", "statement": "If every thread is outside the lock or blocked waiting for it, then no thread is blocked: a lock nobody holds is never left with sleeping waiters.", "quantifier": "all interleavings of any number of threads over lock/trylock/unlock/downgrade", "why_tests_cant": "A lost wake-up needs one particular interleaving of counter updates with list updates; tests hang only by luck.", "anchors": ["include/kernel/rwlock-generic.h", "lib/rwlockimpl.c: __rwlock_do_wake, rwlock_read_lock_failed, rwlock_write_lock_failed"]}
{"id": "C93", "title": "Waking a reader does not touch its dead stack", "statement": "The unlocking thread never uses the event of a waiting reader after that reader may have returned from its lock call and destroyed the event.", "quantifier": "all interleavings of a waking thread with the woken reader", "why_tests_cant": "The window is a few instructions wide and the damage is silent.", "anchors": ["lib/rwlockimpl.c: __rwlock_do_wake, rwlock_read_lock_failed"]}
{"id": "C94", "title": "Lock upgrade aborts only on competing upgrades", "statement": "k_rwlock_rd2wrlock aborts the process only if another thread is upgrading the same lock at that moment.", "quantifier": "all interleavings of lock, upgrade, downgrade and unlock", "why_tests_cant": "The abort needs an earlier upgrade given back with wrunlock and a writer in a window of a few instructions.", "anchors": ["kernel/thread.c: k_rwlock_rd2wrlock, k_rwlock_wrunlock"]}
{"id": "C95", "title": "Condition variable signals reach distinct waiters", "statement": "k signals sent while at least k threads wait let k threads go on; a broadcast lets all waiting threads go on; no thread goes on without a signal.", "quantifier": "all interleavings of waits, signals and broadcasts", "why_tests_cant": "Whether the signalled thread has already left the list depends on the schedule.", "anchors": ["lib/cond.c"]}
{"id": "C96", "title": "Self-deadlocks on a ref object are detected", "statement": "A thread that calls aosl_ref_destroy on an object while it itself keeps the object from being destroyed (inside its own read or write callback, or inside a queue function bound to a synchronous object) is stopped by abort instead of waiting for itself forever.", "quantifier": "all interleavings, both kinds of destroy", "why_tests_cant": "A hang needs the particular nesting of calls, and a test that hangs proves nothing about all the others.", "anchors": ["kernel/refobj.c: aosl_ref_destroy, refobj_thread_wrlock"]}
{"id": "C97", "title": "Caller-free objects are freed by the deleting thread", "statement": "With caller_free and without modify_async, the destructor of a deleted ref object runs on the thread that called aosl_ref_destroy, and has run by the time this thread has left its calls on the object, whatever other threads do.", "quantifier": "all interleavings of any number of threads, including deletion while the deleting thread holds the object itself", "why_tests_cant": "Which thread drops the last reference depends on the schedule.", "anchors": ["kernel/refobj.c: aosl_ref_destroy, refobj_get, refobj_put"]}
{"id": "C98", "title": "A queue outlives the calls made on it", "statement": "A queue object is not freed while any thread is inside a queueing, calling or destroying call that found it (including threads blocked on the full queue or waiting for a synchronous call), and the queue does not run its finalisation before they have left.", "quantifier": "all interleavings of any number of threads with destruction", "why_tests_cant": "A use after free needs a particular interleaving of lookup, blocking and destruction.", "anchors": ["kernel/mpq.c: __mpq_get, __mpq_put, __q_wait_destroy"]}
{"id": "C99", "title": "Producers blocked on a full queue are released", "statement": "A call that blocks because a blocking queue is full is woken up and completes once the queue has processed functions; no wake-up is lost, whatever other producers and queue destructions do.", "quantifier": "all interleavings of any number of blocked producers with the consumer", "why_tests_cant": "Lost wake-ups and self-blocking depend on the schedule.", "anchors": ["kernel/mpq.c: ____add_f, __check_and_call_funcs, __mpq_destroy"]}
{"id": "C100", "title": "Waiting pool shrinks finish", "statement": "A call that shrinks a pool and waits returns: the queue taken out of the pool ends, whoever made the call and whatever the other queues of the pool do at the time (the pool's own idle shrinking runs in the queues' threads).", "quantifier": "all interleavings of shrink calls, idle timers and pool functions", "why_tests_cant": "needs two idle timers to fire within microseconds", "anchors": ["kernel/mpqp.c: __mpqp_shrink, __mpqp_shrink_all, __mpqp_q_check_shrink"]}
{"id": "C101", "title": "A destroyed pool is not touched", "statement": "After aosl_mpqp_destroy has freed a pool, no queue of the pool accesses it.", "quantifier": "all histories of pool calls and queue steps", "why_tests_cant": "use after free is silent and depends on the schedule", "anchors": ["kernel/mpqp.c: aosl_mpqp_destroy, __mpqp_q_fini"]}
{"id": "C102", "title": "A registered write function sees every byte", "statement": "For an fd registered with its own write function, every byte of every accepted write reaches the fd through that function.", "quantifier": "all histories of writes and writability events, all partial write results", "why_tests_cant": "all partial-write patterns", "anchors": ["kernel/iofd.c: ____write, __iofd_write_data"]}
{"id": "C103", "title": "Writes on a connecting socket are held", "statement": "Writes on a socket that is still connecting are queued and nothing is sent before the connection is established; afterwards they are sent in order; if the time-out fires first, the fd is closed with a time-out error, and a time-out that fires after establishment has no effect.", "quantifier": "all histories", "why_tests_cant": "histories and timing", "anchors": ["kernel/iofd.c: ____write, __iofd_write_data, __chk_conn_timeout"]}
{"id": "C104", "title": "A write that was not performed never reports success", "statement": "If the write function of the API could not be run on the fd's queue, or the write was refused, the result is negative; otherwise it is the number of bytes taken, between 0 and the length given.", "quantifier": "all writes, all outcomes of the call into the queue", "why_tests_cant": "all failure points of the cross-queue call", "anchors": ["kernel/iofd.c: aosl_write, aosl_send, aosl_sendto"]}
{"id": "C105", "title": "Datagrams are delivered one by one, whole and in order", "statement": "On a datagram fd (no packet-check function), each received datagram is delivered in exactly one callback with exactly its bytes, in order, and the processing of a readability event ends.", "quantifier": "all sequences of datagrams, all buffer sizes", "why_tests_cant": "all sizes and sequences", "anchors": ["kernel/iofd.c: __iofd_read_data, __recvfrom_data"]}
{"id": "C106", "title": "End of stream is reported exactly once and only at the end", "statement": "On a stream fd the data callback gets an empty packet exactly once, when the peer has closed the stream, after all complete packets.", "quantifier": "all streams, all splits into reads", "why_tests_cant": "all splits", "anchors": ["kernel/iofd.c: __iofd_read_data"]}
{"id": "C107", "title": "No callback after close or removal from within a callback", "statement": "When a data callback closes or unregisters its own fd, no further callback is made for that fd, even if complete packets are still buffered.", "quantifier": "all streams, all positions of the closing callback", "why_tests_cant": "every position in every stream", "anchors": ["kernel/iofd.c: __iofd_read_data, aosl_mpq_del_fd, aosl_close"]}
{"id": "C108", "title": "Deleting a TLS key that does not exist is refused without effect", "statement": "aosl_tls_key_delete of a key that was never created or was already deleted returns an error and has no effect: no other key becomes invalid or available twice.", "quantifier": "all histories of key creation and deletion, all threads", "why_tests_cant": "every history", "anchors": ["lib/tls.c: k_tls_key_create, k_tls_key_delete"]}
{"id": "C109", "title": "Up to the documented number of TLS keys can exist at once", "statement": "aosl_tls_key_create gives distinct keys as long as fewer than TLS_KEY_ID_MAX_SIZE (512) exist, and only fails when the limit is reached; keys given out and not deleted are pairwise distinct.", "quantifier": "all histories of key creation and deletion", "why_tests_cant": "every history up to and beyond the limit", "anchors": ["lib/tls.c: TLS_KEY_ID_MAX_SIZE, k_tls_key_create"]}
{"id": "C110", "title": "aosl_errno belongs to its thread and its memory is released", "statement": "aosl_errno in a thread is the value this thread stored last (0 at first), whatever other threads store or whenever they first use it; after aosl_dtor every block allocated for it has been freed, each once.", "quantifier": "all interleavings of first uses and stores of any number of threads (thread ids not reused)", "why_tests_cant": "every interleaving of first uses", "anchors": ["lib/errno.c: aosl_errno_ptr, k_errno_fini"]}
{"id": "C111", "title": "Allocated blocks have the size asked for", "statement": "aosl_calloc (n, size) gives a zeroed block of n * size bytes or fails; aosl_strdup gives an exact copy in a block of its own; neither ever gives a smaller block.", "quantifier": "all sizes", "why_tests_cant": "overflowing products cannot be enumerated", "anchors": ["mm/mm.c: aosl_calloc_impl, aosl_strdup_impl"]}
{"id": "C112", "title": "aosl_memdump_r stays in its buffer", "statement": "aosl_memdump_r writes only inside buf[0..len), leaves there a C string with the lines of as many call sites as fit, in order, separated by comma and newline, and counts them.", "quantifier": "all buffer sizes from 1, all tables of call sites", "why_tests_cant": "all sizes against all tables", "anchors": ["mm/mm.c: aosl_memdump_r, __mm_pos_walk_r"]}
{"id": "C113", "title": "A queue's poll ends in time for its earliest timer", "statement": "However far away the earliest timer of a queue is and whatever signals interrupt the wait, the wait of its thread ends by itself when that time is over, and never if there is no timer.", "quantifier": "all timeouts in ms, all numbers and instants of interruptions", "why_tests_cant": "weeks of waiting cannot be tested", "anchors": ["kernel/mpq.c: __mpq_loop", "kernel/poll_mp.c: os_mp_wait_poll", "platform/src/linux/aosl_hal_iomp.c: aosl_hal_poll, aosl_hal_epoll_wait"]}
{"id": "C114", "title": "Timed waits end at their deadline", "statement": "aosl_cond_timedwait and aosl_hal_sem_timedwait with ms milliseconds ask the OS for exactly the instant now + ms, given as a valid timespec.", "quantifier": "all clock values, all ms", "why_tests_cant": "carries of the nanosecond part for all clock values", "anchors": ["platform/src/linux/aosl_hal_thread.c: aosl_hal_cond_timedwait, aosl_hal_sem_timedwait"]}
{"id": "C115", "title": "A wait reports exactly the events asked for", "statement": "One wait of a queue using poll or select reports, for its own wake-up pipe and for its registered fds in order, exactly the directions that are armed and ready, at most as many as fit, and disarms exactly what it reports.", "quantifier": "all sets of registrations, all results of the OS", "why_tests_cant": "all combinations of interest and readiness", "anchors": ["kernel/poll_mp.c: os_mp_wait_poll", "kernel/select_mp.c: os_mp_wait_select", "platform/src/linux/aosl_hal_iomp.c: aosl_hal_poll, aosl_hal_select"]}
{"id": "C116", "title": "No ready fd starves", "statement": "An fd that stays ready and armed is served sooner or later, whatever the other fds of its queue do.", "quantifier": "all numbers of fds, all histories of readiness", "why_tests_cant": "starvation is a property of infinite histories", "anchors": ["kernel/poll_mp.c: os_mp_wait_poll", "kernel/select_mp.c: os_mp_wait_select"]}
{"id": "C117", "title": "Errors and hang-ups of an fd are noticed", "statement": "When the OS reports an error or a hang-up for a registered fd, its callbacks or its event callback run; the queue does not spin on it.", "quantifier": "all fds, all results of the OS", "why_tests_cant": "peers that vanish at any instant", "anchors": ["kernel/poll_mp.c: os_mp_wait_poll", "platform/src/linux/aosl_hal_iomp.c: aosl_hal_poll"]}
{"id": "C118", "title": "An idle queue sleeps instead of spinning", "statement": "A queue with no pending functions that may sleep goes to sleep for the time allowed within one round of its loop, and asleep it runs again only when its time is over, an fd is ready or another thread adds a function or destroys it.", "quantifier": "all states of the loop, all schedules", "why_tests_cant": "spinning costs only time; all schedules", "anchors": ["kernel/osmp.c: os_poll_dispatch", "kernel/mpq.c: __mpq_loop"]}
{"id": "C119", "title": "Accepted output does not get stuck", "statement": "When a write to a registered fd was accepted but not sent at once, the rest is sent as soon as the peer makes room: an event for it is always due, and each such event makes progress.", "quantifier": "all histories of writes, events and peer reads, both waiting modes, all user write functions", "why_tests_cant": "depends on the interleaving of peer reads with arming of events", "anchors": ["kernel/iofd.c: ____write, __iofd_write_data", "kernel/et_mp.c: os_add_event_fd_epoll", "kernel/poll_mp.c"]}
{"id": "C120", "title": "An event reaches the registration it is for", "statement": "An event reported by the OS runs the callbacks of the registration the OS reported it for, on that registration's queue, or nothing; never those of a later registration using the same fd number.", "quantifier": "all batches of events, all closes and registrations by other threads and earlier callbacks of the batch", "why_tests_cant": "needs number reuse between wait and dispatch", "anchors": ["kernel/et_mp.c: os_mp_dispatch_epoll", "kernel/poll_mp.c: os_mp_dispatch_poll", "kernel/iofd.c: iofd_get, __q_del_f"]}
{"id": "C121", "title": "A queue can wait for a queue it has destroyed", "statement": "When a queue has been destroyed from another queue's thread, it is never left blocked in a call that queues a function to that other queue, full as it may be: the blocked call returns EINTR. So waiting for its end does not deadlock.", "quantifier": "all schedules, all destroyers", "why_tests_cant": "needs one queue to block on the other at the moment of destruction", "anchors": ["kernel/mpq.c: __mpq_destroy, ____add_f"]}
{"id": "C122", "title": "The end of a registered fd is announced once and last", "statement": "When reading from or writing to a registered fd fails, when its packet check refuses the data, or when a connect gets no answer in time, the event callback is told the error exactly once, it is the last callback for that fd, and the fd is closed. After the user closed the fd nothing more is written to it, writes are refused and the next events of that fd number reach no callback of it.", "quantifier": "all sizes, check functions, callbacks (including ones that close the fd), read and write results, all histories", "why_tests_cant": "needs every interleaving of failures with callbacks and closes", "anchors": ["kernel/iofd.c: f_event_and_close, __iofd_read_data, __iofd_write_data, __iofd_not_ready_timeout, __this_q_close_f"]}
{"id": "C123", "title": "Unregistering an fd from its own callback takes effect at once", "statement": "When a callback unregisters its fd with aosl_mpq_del_fd, no further callback runs for it and AOSL does not touch the fd number any more, so the user can close it or hand it on.", "quantifier": "all callbacks, all amounts of buffered data", "why_tests_cant": "needs data still buffered when the callback unregisters", "anchors": ["kernel/iofd.c: __iofd_read_data, __mpq_del_fd"]}
{"id": "C124", "title": "A listening socket keeps accepting", "statement": "A socket registered with aosl_mpq_listen delivers every pending connection and goes on accepting later ones until the user closes it.", "quantifier": "all numbers and arrival times of connections", "why_tests_cant": "the socket dies only after the pending connections were taken", "anchors": ["net/sk_utils.c: __default_accept, kernel/iofd.c: __iofd_read_data, platform/src/linux/aosl_hal_socket.c: aosl_hal_sk_accept"]}
{"id": "C125", "title": "Platform failures are translated faithfully", "statement": "A failed socket call reports EAGAIN, EINTR or EINPROGRESS exactly when the operating system said so and the general platform error otherwise; aosl_errno holds the same code; no failure looks like success and successes are passed on unchanged.", "quantifier": "all results and errno values of the operating system", "why_tests_cant": "unbounded set of errno values and results", "anchors": ["platform/src/linux/aosl_hal_errno.c, include/kernel/err.h: aosl_hal_set_error, net/sk_utils.c: __default_recv, __do_connect"]}
{"id": "C126", "title": "A failed connect is never announced as success", "statement": "When a connection attempt made with aosl_mpq_connect fails, the event callback is told an error and never 0; when it succeeds it is told 0 once, before any data.", "quantifier": "all results of the attempt, all poll modes, all events reported together", "why_tests_cant": "needs each combination of events and poll mode", "anchors": ["kernel/poll_mp.c, kernel/et_mp.c, kernel/iofd.c: __iofd_write_data, net/sk_utils.c: __do_connect"]}
{"id": "C127", "title": "After aosl_close no callback runs for the fd", "statement": "Once aosl_close was called on an fd from the queue it is registered with, neither its check, read, write, data nor event functions are called for it any more.", "quantifier": "all callbacks that may close, all combinations of events", "why_tests_cant": "needs the close inside one callback while other events of the same round are pending", "anchors": ["kernel/et_mp.c, kernel/poll_mp.c, kernel/iofd.c: __iofd_read_data, __iofd_write_data"]}
{"id": "C128", "title": "Socket addresses cross the platform boundary unchanged", "statement": "The kernel gets exactly the IPv4 or IPv6 address the user passed to bind, connect or sendto (anything else is refused), the user gets exactly the address the kernel reported, and name resolution stores the first IP addresses of the answer in order without writing past the array.", "quantifier": "all addresses, ports, scopes, all resolver answers and array sizes", "why_tests_cant": "every address and every answer list", "anchors": ["platform/src/linux/aosl_hal_socket.c: conv_addr_to_os, conv_addr_to_aosl, get_addrlen, aosl_hal_gethostbyname"]}
{"id": "C129", "title": "aosl_get_sockaddr returns the socket's local address", "statement": "For a bound or connected socket aosl_get_sockaddr returns the address and port the socket is bound to.", "quantifier": "all bound addresses of both families, all routing configurations", "why_tests_cant": "depends on the host's default route", "anchors": ["net/sk_utils.c: aosl_get_sockaddr, platform/src/linux/aosl_hal_socket.c: aosl_hal_sk_get_local_ip"]}
{"id": "C130", "title": "aosl_bind_device binds to the named device or fails", "statement": "When aosl_bind_device returns 0 the socket is bound to the device whose name was passed; when it fails the binding did not happen.", "quantifier": "all device names, all sets of existing devices", "why_tests_cant": "needs every name length and every set of devices", "anchors": ["net/sk_utils.c: aosl_bind_device, platform/src/linux/aosl_hal_socket.c: aosl_hal_sk_bind_device"]}
{"id": "C131", "title": "Every error code has its own description", "statement": "aosl_strerror gives each public error code its own name, and \"Unknown Error\" for anything else.", "quantifier": "all int values", "why_tests_cant": "2^32 values", "anchors": ["lib/errno.c: aosl_strerror, include/api/aosl_errno.h"]}
{"id": "C132", "title": "Calls on a ref object never deadlock each other", "statement": "Threads that hold, read, write, destroy or run queue functions with the same object, none of them from inside one of its own callbacks, never block each other forever: whenever calls are in flight, at least one can go on (one inside its callback goes on when the callback returns).", "quantifier": "all numbers of threads, all schedules, all object options", "why_tests_cant": "needs every combination of blocked calls", "anchors": ["kernel/refobj.c: refobj_rdlock, refobj_wrlock, aosl_ref_destroy, kernel/mpq.c: mpq_invoke_refobj_get"]}
{"id": "C133", "title": "Try and timed calls report their outcome as documented", "statement": "aosl_lock_trylock, aosl_rwlock_tryrdlock, aosl_rwlock_trywrlock and aosl_static_lock_trylock return 0 exactly if the lock was acquired and a negative value otherwise; aosl_cond_timedwait and aosl_event_timedwait return 0 if signalled and a negative value on a time-out. So threads that test for 0 exclude each other.", "quantifier": "all lock states, callers, and interleavings of any number of threads that use the result to enter a critical section", "why_tests_cant": "a wrong convention shows only under contention, and a test written from the code repeats its mistake", "anchors": ["lib/thread_api.c: aosl_lock_trylock, aosl_rwlock_tryrdlock, aosl_rwlock_trywrlock, aosl_static_lock_trylock, aosl_cond_timedwait, aosl_event_timedwait", "kernel/thread.c: k_lock_trylock, k_static_lock_trylock, k_event_timedwait", "include/api/aosl_thread.h"]}
{"id": "C134", "title": "aosl_rwlock_trywrlock does not block", "statement": "aosl_rwlock_trywrlock returns without waiting for another thread, whatever the state of the lock.", "quantifier": "all reachable states of a read-write lock with any number of threads", "why_tests_cant": "blocking depends on what the other threads do during the call", "anchors": ["kernel/thread.c: k_rwlock_trywrlock, k_rwlock_wrlock"]}
{"id": "C135", "title": "Starting a thread works or fails visibly", "statement": "The creation of a queue's thread returns: with success once the thread has taken over its arguments (it never uses the creator's stack afterwards and runs its entry exactly once with the given argument), with an error if the system cannot create a thread.", "quantifier": "all interleavings of the creator and the new thread, spurious wake-ups, and both outcomes of the OS call", "why_tests_cant": "the hand-over races with the return of the creator; a failing pthread_create cannot be provoked in a unit test", "anchors": ["kernel/thread.c: k_thread_create, k_os_thread_entry", "platform/src/linux/aosl_hal_thread.c: aosl_hal_thread_create"]}
{"id": "C136", "title": "Identity strings stay in their buffer", "statement": "aosl_get_uuid and aosl_os_version store a terminated string within buf_sz bytes or fail; with room for 33 bytes the uuid has all its characters.", "quantifier": "all buffer sizes of size_t and all contents of the kernel's files", "why_tests_cant": "the size is converted to int; tests use one size", "anchors": ["lib/utils.c: aosl_get_uuid, aosl_os_version", "platform/src/linux/aosl_hal_utils.c"]}
{"id": "C137", "title": "aosl_rand_bytes fills the whole buffer", "statement": "When aosl_rand_bytes(buf, len) returns 0, all len bytes have been filled with random data, and nothing beyond.", "quantifier": "all lengths of size_t, all splits and interruptions of the reads", "why_tests_cant": "short reads, interruptions and huge lengths do not occur in tests", "anchors": ["lib/utils.c: aosl_rand_bytes", "platform/src/linux/aosl_hal_utils.c: aosl_hal_rand_bytes"]}
{"id": "C138", "title": "File results are exact", "statement": "aosl_fsize returns the size of the file or a negative value, aosl_fread/aosl_fwrite the number of bytes moved; aosl_mkdir returns 0 only if the directory exists afterwards.", "quantifier": "all file sizes and transfer counts, all kinds of existing paths", "why_tests_cant": "files above 2 GiB are not part of unit tests", "anchors": ["kernel/file.c", "platform/src/linux/aosl_hal_file.c", "include/api/aosl_file.h"]}
{"id": "C139", "title": "aosl_msleep sleeps at least as long as asked", "statement": "aosl_msleep(ms) does not return before ms milliseconds have passed (signals aside).", "quantifier": "all 64-bit durations", "why_tests_cant": "a test cannot sleep for more than an hour", "anchors": ["kernel/time.c: aosl_msleep", "platform/src/linux/aosl_hal_time.c: aosl_hal_msleep"]}
{"id": "C140", "title": "Clocks and the text of the time", "statement": "The millisecond tick never decreases and follows the clock within a millisecond, the microsecond tick counts microseconds; seconds and milliseconds agree; aosl_time_str stores 'date time.mmm' with the right milliseconds, within its buffer.", "quantifier": "all clock readings, dates and buffer lengths", "why_tests_cant": "depends on the moment of the call and on the length", "anchors": ["kernel/time.c", "platform/src/linux/aosl_hal_time.c"]}
{"id": "C141", "title": "Atomic operations do what they say under concurrency", "statement": "Each aosl_atomic call has the documented result and effect; reference counts kept with aosl_atomic_inc/aosl_atomic_dec_and_test tell exactly the call that drops the last reference; of competing aosl_atomic_cmpxchg calls exactly one wins.", "quantifier": "all values and all interleavings of the calls of any number of threads", "why_tests_cant": "a lost update or a doubled last reference shows only in some interleavings", "anchors": ["lib/atomic.c", "include/kernel/atomic.h", "platform/src/linux/aosl_hal_atomic.c"]}
{"id": "C142", "title": "Log messages are filtered exactly", "statement": "In any history of log calls a message is handed exactly once to the log function in force if its level is at most the level in force, and otherwise not at all; invalid levels are ignored; aosl_printf always gets through.", "quantifier": "all histories of aosl_set_vlog_func, aosl_set_log_level, aosl_log, aosl_printf calls", "why_tests_cant": "the result depends on the whole history of settings", "anchors": ["kernel/log.c"]}
{"id": "C143", "title": "Thread priority classes are ordered", "statement": "For every priority range of the scheduler the classes low, normal, high, highest, real-time are mapped to non-decreasing priorities strictly inside the range.", "quantifier": "all scheduler ranges", "why_tests_cant": "a test sees the one range of its machine", "anchors": ["platform/src/linux/aosl_hal_thread.c: __get_os_priority"]}
{"id": "C144", "title": "Everything an event reports is served", "statement": "When a wait reports several things for an fd at once (writable, readable, hang-up), all of them are served in that order: ready-for-writing is announced, all data up to the point where a read would block is delivered even while output is blocked, then the hang-up is announced once and the fd closed.", "quantifier": "every combination of reported conditions, every content of the fd, every packet check, epoll and poll/select dispatch", "why_tests_cant": "a test covers a few combinations of conditions and contents", "anchors": ["kernel/et_mp.c:os_mp_dispatch_epoll", "kernel/poll_mp.c:os_mp_dispatch_poll", "kernel/iofd.c:__iofd_read_data"]}
{"id": "C145", "title": "Fds that were accepted do not bring the process down", "statement": "After aosl_mpq_add_fd has returned success for any set of fds, the queue's wait goes on working: it neither ends the process nor writes outside its memory.", "quantifier": "every number of registered fds and every fd number, in the three kinds of waiting", "why_tests_cant": "limits are reached only with more than a thousand fds or high fd numbers", "anchors": ["kernel/poll_mp.c:os_mp_wait_poll", "kernel/select_mp.c:os_mp_wait_select", "platform/src/linux/aosl_hal_iomp.c:aosl_hal_fdset_set", "kernel/mpq.c:__mpq_loop"]}
{"id": "C146", "title": "Queues can be created as long as the system has resources", "statement": "Creating a queue succeeds as long as the OS can provide sockets and a local port is free, and a creation that fails leaves no socket open.", "quantifier": "every history of creating and destroying queues on platforms that wake queues through a socket pair, every behaviour of the OS", "why_tests_cant": "needs long histories of creations and deletions", "anchors": ["kernel/osmp.c:os_socket_pipe", "kernel/osmp.c:os_fini_sigp"]}
{"id": "C147", "title": "The default route reported is the system's", "statement": "When the kernel answers the request for its routes with any list of well-formed messages, in any number of datagrams, the default route stored is the one with the best metric among the unicast default routes of the requested family that have an output interface: its interface, its gateway and the number of default routes; and none is reported exactly if the kernel's answer has none.", "quantifier": "every list of messages with any attributes in any order, every division into datagrams, both address families, any earlier contents of the buffer", "why_tests_cant": "the kernel decides how many routes there are and how they are divided into datagrams; a test machine has few routes", "anchors": ["kernel/rt_monitor.c:__af_get_default_rt", "kernel/rt_monitor.c:parse_rtattrs", "kernel/rt_monitor.c:os_get_def_rt"]}
{"id": "C148", "title": "Malformed messages cannot make the monitor read or write outside its buffers", "statement": "Whatever bytes arrive on the netlink sockets, the monitor reads only bytes it received and writes only inside the structures it fills, and it finishes.", "quantifier": "every sequence of datagrams of arbitrary bytes, any earlier contents of the buffer", "why_tests_cant": "all byte strings of up to 16384 bytes", "anchors": ["kernel/rt_monitor.c:parse_rtattrs", "kernel/rt_monitor.c:__af_get_default_rt", "kernel/rt_monitor.c:update_ifinfos", "kernel/rt_monitor.c:afnetlink_init_netifs"]}
{"id": "C149", "title": "The interface table is what the kernel reported", "statement": "After subscribing to network events, the name and type known for an interface index are those of the last message about it in the kernel's link dump; deleted interfaces are unknown.", "quantifier": "every list of link messages, every division into datagrams, any earlier contents of the table", "why_tests_cant": "the list of interfaces and its division into datagrams is the kernel's", "anchors": ["kernel/rt_monitor.c:afnetlink_init_netifs", "kernel/rt_monitor.c:update_ifinfos", "net/netifs.c:update_netifs"]}
{"id": "C150", "title": "Every route notification is acted upon", "statement": "Each message of a notification datagram that announces an added or removed route leads to one check of the default route, each link message updates the interface table, in the order of the messages, and the processing of a datagram ends.", "quantifier": "every notification datagram of any number of messages, any earlier contents of the receive buffer", "why_tests_cant": "several messages in one datagram and unaligned lengths do not occur on demand", "anchors": ["kernel/rt_monitor.c:__process_rtmsg", "kernel/rt_monitor.c:__on_af_netlink_data"]}
{"id": "C151", "title": "The monitoring socket is closed exactly once", "statement": "Subscribing to and unsubscribing from network events, with any number of errors on the monitoring socket in between, closes each socket the monitor created exactly once and no other descriptor.", "quantifier": "every history of subscriptions, socket errors and failures to create, bind or register the socket", "why_tests_cant": "needs failures of socket calls and other threads opening descriptors", "anchors": ["kernel/rt_monitor.c:__create_and_attach_af_netlink", "kernel/rt_monitor.c:__on_af_netlink_event", "kernel/rt_monitor.c:os_unsubscribe_net_events"]}
{"id": "C152", "title": "Initialising and finalising a typed object frees nothing", "statement": "aosl_init_typed_obj makes any memory a valid object: aosl_fini_typed_obj after it is safe and frees nothing; calling aosl_fini_typed_obj again after it has returned is safe and frees nothing.", "quantifier": "every type description and every content of the memory", "why_tests_cant": "descriptions and memory contents are unbounded", "anchors": ["lib/marshalling.c:smart_init_typed_obj", "lib/marshalling.c:smart_fini_typed_obj"]}
{"id": "C153", "title": "A received object is freed completely, once", "statement": "After a successful aosl_unmarshal into an initialised (or finalised) object, aosl_fini_typed_obj is safe and frees exactly the memory aosl_unmarshal allocated, each block once; this holds for any number of receive-and-finalise rounds on one object.", "quantifier": "every type description, every message in every segmentation, every number of rounds", "why_tests_cant": "descriptions, nesting and messages are unbounded", "anchors": ["lib/marshalling.c:_____unmarshal", "lib/marshalling.c:smart_fini_typed_obj"]}
{"id": "C154", "title": "A failed receive can be cleaned up", "statement": "After a failed aosl_unmarshal (truncated or malformed data, no memory) into an initialised object, aosl_fini_typed_obj is safe and frees exactly what aosl_unmarshal had allocated.", "quantifier": "every type description, every message, every point at which the receive fails", "why_tests_cant": "failure points and descriptions are unbounded", "anchors": ["lib/marshalling.c:_____unmarshal", "lib/marshalling.c:smart_fini_typed_obj"]}
{"id": "C155", "title": "The received value is what memory holds", "statement": "After a successful aosl_unmarshal, following the pointers and counts in the object's memory yields exactly the value that was encoded; if memory does not run out, every well-formed message is received.", "quantifier": "every type description, message, segmentation and previous content of the memory", "why_tests_cant": "descriptions and messages are unbounded", "anchors": ["lib/marshalling.c:_____unmarshal"]}
{"id": "C156", "title": "A post-order walk may erase and free the node it is given", "statement": "aosl_rb_traverse_lrd may be used with a callback that removes and frees the node it is called with (as the reference objects do with the records of threads that have been idle for a minute): the walk never touches a freed node, ends, calls the callback at most once per node and never after it returned non-zero, and leaves a valid tree with exactly the other nodes; nodes in use are never removed. The pre-order and in-order walks are not safe with such a callback. A cleanup should free every idle record: it does not, most of them can be skipped.", "quantifier": "all trees the API can build, all callbacks (stateful, erasing any subset, stopping anywhere), all sets of thread records", "why_tests_cant": "rebalancing during the walk moves nodes between subtrees still to be visited and subtrees already visited; which nodes move depends on the shape of the whole tree and on the order of the erasures", "anchors": ["lib/rbtree.c:aosl_rb_traverse_lrd", "lib/rbtree.c:aosl_rb_erase", "kernel/refobj.c:refobj_lock_threads_cleanup", "kernel/refobj.c:__check_erase_node"]}
{"id": "C157", "title": "A thread's lock bookkeeping on a reference object is never lost", "statement": "Every thread that uses a reference object has its own record of what it holds. The record is there for as long as the thread holds a lock or a reference, however long that is, it always shows exactly what that thread itself did last, so that an unlock or put never fails for lack of a record; idle records freed by other threads are never touched afterwards, and all records are freed with the object.", "quantifier": "all schedules of any number of threads that lock, unlock, get, put and clean up, with any passage of time", "why_tests_cant": "the usage count of a record is changed without a lock by its own thread while another thread may be freeing idle records; only the passage of a minute separates the two", "anchors": ["kernel/refobj.c:robj_this_thread_node_get", "kernel/refobj.c:__thread_node_put", "kernel/refobj.c:__check_erase_node", "kernel/refobj.c:refobj_thread_rdunlock"]}
{"id": "C158", "title": "The subscription to network events ends with its queue", "statement": "When the queue that subscribed to network events has ended, or the library has been shut down and started again, another queue can subscribe: a running queue can subscribe exactly when there is no running subscriber. The monitoring socket and the interface records go with the subscription, and no descriptor that the library did not open is ever closed.", "quantifier": "all histories of starting and shutting down the library, creating and ending queues, subscribing and unsubscribing, and of other users opening and closing descriptors", "why_tests_cant": "the subscription is kept in static variables that outlive queues and the library's own shutdown; a test would have to combine the end of a queue with a later subscription and with reuse of descriptor numbers", "anchors": ["net/route.c:aosl_subscribe_net_events", "net/route.c:k_route_fini", "kernel/rt_monitor.c:os_unsubscribe_net_events", "kernel/iofd.c:mpq_fini_iofds"]}
{"id": "C159", "title": "The handle a pool call returns is the handle of the queue it chose", "statement": "Every call that returns the handle of a queue returns the same value for the same queue, that value resolves to the queue for as long as it lives, it is not invalid in the sense of aosl_mpq_invalid, and the value returned for a failure is. In particular the value returned by aosl_mpqp_queue and aosl_mpqp_call can be used to queue to the same queue again.", "quantifier": "all histories of creating and destroying queues, all pointer widths from 32 bits, all queues alive afterwards", "why_tests_cant": "the value passes through a type of 32 bits; whether that matters depends on how many queues have been created since the process started", "anchors": ["kernel/mpqp.c:__mpqp_best_q_queue", "kernel/mpqp.c:aosl_mpqp_queue", "kernel/mpq.c:make_mpq_obj_id", "kernel/mpq.c:__mpq_get", "include/api/aosl_mpq.h:aosl_mpq_invalid"]}
{"id": "C160", "title": "A running function can ask for its own arguments, data, completion queue and object", "statement": "While a function runs on a queue, aosl_mpq_run_func_argv and aosl_mpq_run_func_data return exactly the arguments or data it was invoked with (an argument number that does not exist gives ENOENT, the wrong kind of question EINVAL), aosl_mpq_run_func_done_qid its completion queue, and aosl_mpq_running_refobj tells exactly whether a function now running on this queue was invoked with the object. After a nested invocation the answers are again those of the outer function; outside of any function there is no answer (EPERM).", "quantifier": "all bodies of functions and all nestings of invocations on the own queue, of any depth", "why_tests_cant": "the answers come from fields of the queue that are saved and restored around each invocation; a test covers a few nestings", "anchors": ["kernel/mpq.c:q_invoke_f", "kernel/mpq.c:refobj_on_this_q", "kernel/mpq.c:aosl_mpq_run_func_arg", "kernel/mpq.c:aosl_mpq_run_func_data", "kernel/mpq.c:aosl_mpq_running_refobj"]}
{"id": "C161", "title": "Measured times are the times that passed", "statement": "aosl_mpq_last_costs reports how long the queue waited last and how long it worked between the last two waits, and a performance callback is told how long the function waited and ran, each up to the resolution of the clock.", "quantifier": "all sequences of waits and all points of time", "why_tests_cant": "the clock behind the measurement is a different function from the one the rest of the library uses; a test without a reference clock cannot tell a constant from a fast machine", "anchors": ["kernel/mpq.c:aosl_mpq_last_costs", "kernel/mpq.c:q_invoke_f", "kernel/osmp.c:os_mp_wait", "kernel/time.c:aosl_tick_us"]}
{"id": "C162", "title": "The idle check of a pool ends idle queues only", "statement": "In a pool with max_idles, a queue that has executed nothing for that many seconds is ended and the pool emptied after twice as many; a queue that has work is not ended by the check, and nothing but the check and an explicit shrink takes a queue out of the pool.", "quantifier": "all values of max_idles and all interleavings of creating queues, queueing, executing, handling events and the one-second checks of all queues", "why_tests_cant": "the check of one queue acts on another one; the outcome depends on which queue was idle, which is newest, and on minutes of timing", "anchors": ["kernel/mpqp.c:__mpqp_q_check_shrink", "kernel/mpqp.c:__mpqp_q_init", "kernel/mpqp.c:__mpqp_shrink", "kernel/mpqp.c:__mpqp_shrink_all"]}
{"id": "C163", "title": "Waiting for the end of a queue returns exactly when it has ended", "statement": "aosl_mpq_wait and aosl_mpq_destroy_wait return only after the queue's fini callback was called (once), its handle no longer resolves and its memory is freed; once the end was asked for and no other user holds the queue, every waiting call returns; no waiter, user or the queue's thread touches freed memory or the entry of a waiter that has returned; waiting from the queue itself is refused.", "quantifier": "all interleavings of any number of waiting and destroying threads, other users by handle, the queue's thread and spurious wake-ups", "why_tests_cant": "A test runs a few schedules of a few threads; lost wake-ups and late accesses need all of them.", "anchors": ["kernel/mpq.c:mpq_do_wait", "kernel/mpq.c:__q_wait_destroy", "kernel/mpq.c:__mpq_destroy"]}
{"id": "C164", "title": "Creating a queue answers truthfully and safely", "statement": "aosl_mpq_create returns a valid handle exactly when the queue could be made and its init callback succeeded, otherwise an error after fini was called and everything was freed; fini is called once per created queue; the creating call itself touches no freed memory.", "quantifier": "all interleavings of the creating call with the life of the queue, including a queue that ends at once", "why_tests_cant": "The window between telling the creator and its reading the handle is a few instructions.", "anchors": ["kernel/mpq.c:__mpq_create", "kernel/mpq.c:mpq_thread_entry", "kernel/mpq.c:__mpq_create_flags"]}
{"id": "C165", "title": "The flags of a queue can be changed without harming it", "statement": "aosl_mpq_change_flags sets, clears or toggles the bits it is given and says so, refuses operations that do not exist, leaves reserved flags alone (a protected queue stays protected, another can be destroyed) and keeps the queue able to wake up; aosl_mpq_get_flags answers the flags and is negative only for errors.", "quantifier": "all flags, all sequences of changes with all operations and bits", "why_tests_cant": "The effects show only with particular bits and in later calls.", "anchors": ["kernel/mpq.c:aosl_mpq_change_flags", "kernel/mpq.c:aosl_mpq_get_flags", "kernel/mpq.c:__mpq_create_flags", "kernel/osmp.c:os_init_sigp"]}
{"id": "C166", "title": "The performance callback of a running queue never changes", "statement": "aosl_perf_set_callback is refused with EPERM while a queue exists and otherwise succeeds; as long as a queue exists the callback stays the one set when it began, so that no execution is reported without its starting time or to a callback being taken away.", "quantifier": "all interleavings of any number of setters with queues beginning and ending", "why_tests_cant": "The race between the test of the count and the creation of a queue cannot be provoked.", "anchors": ["kernel/mpq.c:aosl_perf_set_callback", "kernel/mpq.c:get_unused_mpq_id", "kernel/mpq.c:__put_unused_mpq_id"]}
{"id": "C167", "title": "Making a timer works the same on the current and on a given queue", "statement": "aosl_mpq_create_timer, create_oneshot_timer, set_timer and set_oneshot_timer make the documented timer, or report why not, and their _on_q variants accept and refuse the same arguments.", "quantifier": "all intervals, times, numbers of user arguments, queues and failures", "why_tests_cant": "The variants differ only for particular numbers of arguments and times.", "anchors": ["kernel/timer.c:aosl_mpq_create_timer", "kernel/timer.c:mpq_create_timer_on_q_args", "kernel/timer.c:mpq_set_timer_on_q_args", "kernel/timer.c:aosl_mpq_set_oneshot_timer_on_q"]}
{"id": "C168", "title": "Rescheduling with the same interval keeps it", "statement": "aosl_mpq_resched_timer with AOSL_INVALID_TIMER_INTERVAL leaves the interval of the timer unchanged; with another interval, or aosl_mpq_resched_oneshot_timer, the change lasts until the next one.", "quantifier": "all timers and all interleavings of rescheduling calls", "why_tests_cant": "Two calls must overlap in a window of the synchronous call.", "anchors": ["kernel/timer.c:aosl_mpq_resched_timer", "kernel/timer.c:__resched_timer"]}
{"id": "C169", "title": "The handle of a timer made on another queue is read from an existing timer", "statement": "aosl_mpq_set_timer_on_q and its relatives return the handle of the timer they made without touching freed memory, also if the timer fires at once and is killed, or its queue ends.", "quantifier": "all interleavings of the making call with the timer's callback and the end of its queue", "why_tests_cant": "The window is a few instructions.", "anchors": ["kernel/timer.c:mpq_create_timer_on_q_args", "kernel/timer.c:mpq_set_timer_on_q_args", "kernel/timer.c:__kill_timer_on_q"]}
{"id": "C170", "title": "A thread's own queue lives until its loop returns", "statement": "aosl_mpq_current gives the calling thread one queue, always the same and shared with no other thread, until aosl_mpq_loop on it has returned; the loop returns only after the end of the queue was asked for, the queue is freed then, and no queue is used after it was freed or left behind.", "quantifier": "all histories of aosl_mpq_current, aosl_mpq_create, aosl_mpq_loop, aosl_mpq_destroy and thread ends, on any number of threads", "why_tests_cant": "The histories are unbounded; the bad ones need a nested loop or a thread that ends without a loop.", "anchors": ["kernel/mpq.c:aosl_mpq_current", "kernel/mpq.c:aosl_mpq_loop", "kernel/mpq.c:aosl_mpq_this_destroyed", "kernel/mpq.c:____q_loop"]}
{"id": "C171", "title": "The execution counters count what was executed", "statement": "aosl_mpq_exec_counters gives the numbers of functions executed, timers fired and descriptor events handled by the queue so far.", "quantifier": "all histories of a queue and all moments of asking", "why_tests_cant": "A sum over unbounded histories.", "anchors": ["kernel/mpq.c:aosl_mpq_exec_counters", "kernel/mpq.c:____q_loop", "kernel/osmp.c:os_mp_wait"]}
{"id": "C172", "title": "Waking waiters wakes the right number of them", "statement": "On a port without native condition variables (ac791n), aosl_cond_signal wakes one waiting thread if there is one, aosl_cond_broadcast wakes all the threads waiting at that moment, a thread that starts waiting later is not woken by an earlier wake-up, and a wait ends at the latest at its time-out.", "quantifier": "all interleavings of any number of waiting, timing out, signalling and broadcasting threads", "why_tests_cant": "The condition variable is built from counting semaphores; lost and stolen wake-ups depend on the interleaving.", "anchors": ["platform/src/ac791n/aosl_hal_thread.c:aosl_hal_cond_timedwait", "platform/src/ac791n/aosl_hal_thread.c:aosl_hal_cond_signal", "platform/src/ac791n/aosl_hal_thread.c:aosl_hal_cond_broadcast", "kernel/thread.c:k_cond_wait"]}
{"id": "C173", "title": "Threads can be started and ended over and over", "statement": "On every port, the records a port keeps for a thread created by the library are released once it has ended, never twice and never while in use, so that queues can be created and destroyed without limit.", "quantifier": "all interleavings of creating, running, detaching, joining and ending any number of threads", "why_tests_cant": "The limit shows after many threads, the double release needs a thread that ends before it is detached.", "anchors": ["platform/src/windows/aosl_hal_thread.c:aosl_hal_thread_create", "platform/src/xr872/aosl_hal_thread.c:aosl_hal_thread_create", "platform/src/tw82x/aosl_hal_thread.c:aosl_hal_thread_create", "platform/src/ac791n/aosl_hal_thread.c:aosl_hal_thread_create", "platform/src/ipro7/aosl_hal_thread.c:aosl_hal_thread_create", "kernel/thread.c:k_thread_create"]}
{"id": "C174", "title": "Each thread has its own identity", "statement": "On every port, aosl_thread_self gives the same value during the life of a thread and different values to different living threads.", "quantifier": "all histories of threads made by the library and by others", "why_tests_cant": "A clash needs threads the library did not create or more threads than a table has entries.", "anchors": ["platform/src/windows/aosl_hal_thread.c:aosl_hal_thread_self", "platform/src/xr872/aosl_hal_thread.c:aosl_hal_thread_self", "platform/src/ac791n/aosl_hal_thread.c:aosl_hal_thread_self"]}
{"id": "C175", "title": "A thread gets the stack asked for", "statement": "On every port the thread of a queue created with a stack size gets at least that much stack (up to one machine word), or the creation fails.", "quantifier": "all sizes and all ports", "why_tests_cant": "The size is cut only from a certain value on; an overflowing stack corrupts memory elsewhere.", "anchors": ["platform/src/esp32/aosl_hal_thread.c:aosl_hal_thread_create", "platform/src/rtl8713/aosl_hal_thread.c:aosl_hal_thread_create", "platform/src/bk725x/aosl_hal_thread.c:aosl_hal_thread_create", "platform/src/ac791n/aosl_hal_thread.c:aosl_hal_thread_create", "kernel/thread.c:k_thread_create"]}
{"id": "C176", "title": "Time-outs and sleeping mean what they say on every port", "statement": "A wait with a time-out of some milliseconds ends after that time and not before, whatever the port and the time, and aosl_msleep sleeps that long.", "quantifier": "all times, all ports, all settings of the clock during the wait", "why_tests_cant": "The conversions go wrong only for long times, and for changes of the clock in a window.", "anchors": ["platform/src/windows/aosl_hal_thread.c:aosl_hal_sem_timedwait", "platform/src/rtl8713/aosl_hal_thread.c:aosl_hal_sem_timedwait", "platform/src/ac791n/aosl_hal_thread.c:aosl_hal_sem_timedwait", "platform/src/esp32/aosl_hal_thread.c:aosl_hal_cond_timedwait", "platform/src/rtl8713/aosl_hal_time.c:aosl_hal_msleep", "kernel/time.c:aosl_msleep"]}
{"id": "C177", "title": "The tick never runs backwards and timers fire on every port", "statement": "aosl_tick_ms gives the milliseconds since a fixed moment, never less than before, for as long as the device runs, and a timer fires when its time has passed.", "quantifier": "all ports, all times since the start, all intervals", "why_tests_cant": "The failures come after 24 to 497 days.", "anchors": ["platform/src/bk725x/aosl_hal_time.c:aosl_hal_get_tick_ms", "platform/src/rtl8713/aosl_hal_time.c:aosl_hal_get_tick_ms", "platform/src/xr872/aosl_hal_time.c:aosl_hal_get_tick_ms", "kernel/timer.c:__check_and_run_timers", "kernel/time.c:aosl_tick_ms"]}
{"id": "C178", "title": "Atomic operations are atomic on every port", "statement": "Each aosl_atomic operation takes effect at one instant between its call and its return and returns the value of that instant; of several users that give up their reference to a counter exactly one is told that it was the last.", "quantifier": "all operations, all interleavings of any number of threads, all ports", "why_tests_cant": "The window is one instruction.", "anchors": ["platform/src/spreadtrum-8910ff/aosl_hal_atomic.c:aosl_hal_atomic_cmpxchg", "platform/src/tw82x/aosl_hal_atomic.c:aosl_hal_atomic_sub", "platform/src/windows/aosl_hal_atomic.c:aosl_hal_atomic_add", "platform/src/linux/aosl_hal_atomic.c:aosl_hal_atomic_sub", "lib/atomic.c:aosl_atomic_dec_and_test"]}
{"id": "C179", "title": "A resolved host name gives whole addresses on every port", "statement": "Resolving a host name stores the IPv4 and IPv6 addresses the system found in the caller's array, in order, as many as there is room for, returns their number, leaves the rest of the array alone and writes no other memory, whatever the port.", "quantifier": "all ports, all answers of the system, all array sizes", "why_tests_cant": "Needs each port with IPv6 answers and with more answers than room.", "anchors": ["platform/src/bk725x/aosl_hal_socket.c:aosl_hal_gethostbyname", "platform/src/xr872/aosl_hal_socket.c:aosl_hal_gethostbyname", "platform/src/esp32/aosl_hal_socket.c:aosl_hal_gethostbyname"]}
{"id": "C180", "title": "What a socket call reports as done has been done on every port", "statement": "On every port a socket is of the family asked for, aosl_bind binds to the address given, aosl_bind_device to the device named and aosl_set_socket_dscp sets the DSCP given, or the call fails and changes nothing.", "quantifier": "all ports, addresses, names, DSCP values and answers of the system", "why_tests_cant": "A call that does nothing and returns 0 looks like success.", "anchors": ["platform/src/ipro7/aosl_hal_socket.c:translate_loopback_addr", "platform/src/windows/aosl_hal_socket.c:aosl_hal_sk_bind_device", "platform/src/xr872/aosl_hal_socket.c:conv_domain_to_os", "net/sk_utils.c:aosl_set_socket_dscp"]}
{"id": "C181", "title": "A connect under way is waited for, a failed one reported, on every port", "statement": "On every port aosl_mpq_connect waits for a non-blocking connect that is under way and fails for one that failed; a failing socket call is reported as a failure with its kind (would block, interrupted, other).", "quantifier": "all ports and all answers of the system", "why_tests_cant": "The codes differ between systems.", "anchors": ["platform/src/spreadtrum-t117/aosl_hal_errno.c:aosl_hal_errno_convert", "platform/src/windows/aosl_hal_socket.c:aosl_hal_sk_connect", "net/sk_utils.c:__do_connect"]}
{"id": "C182", "title": "The wait of a queue lasts as long as asked on every port", "statement": "On every port a queue waits for events as long as its timers allow: a negative time-out means for ever, another one the number of milliseconds given.", "quantifier": "all time-outs and ports", "why_tests_cant": "Time-outs are converted to other units.", "anchors": ["platform/src/spreadtrum-t117/aosl_hal_iomp.c:aosl_hal_select", "platform/src/darwin/aosl_hal_iomp.c:aosl_hal_epoll_wait"]}
{"id": "C183", "title": "The poller watches exactly the registered fds on macOS and iOS", "statement": "After any sequence of registering and unregistering fds, the system watches each registered fd for exactly what was asked and no other fd; a refused registration leaves nothing behind; an fd's events are reported to it and say what happened.", "quantifier": "all histories of registrations, all answers of the system", "why_tests_cant": "Needs fds of every kind and failures between two filters.", "anchors": ["platform/src/darwin/aosl_hal_iomp.c:aosl_hal_epoll_ctl", "kernel/et_mp.c:os_add_event_fd_epoll"]}
{"id": "C184", "title": "The memory dump shows exactly what is held, by call site", "statement": "With memory statistics and dumps built in, after any sequence of allocations, resizings and frees through the library, aosl_memdump prints one line for each call site (function, line) that has live blocks and none for others, in the order of name and line, with the number of the site's live blocks and their bytes; aosl_memused is the bytes of the live blocks plus the bookkeeping; when everything is given back both are empty, whatever was allocated before the library started or after it ended.", "quantifier": "every sequence of aosl_malloc/calloc/strdup/realloc/free from any call sites, with the library started and ended in between", "why_tests_cant": "a test has a few sites; the aggregate must stay equal to the live blocks under every interleaving of sites, moves by realloc, and start and end of recording", "anchors": ["mm/mm.c:mm_insert_ptr_dbg", "mm/mm.c:mm_remove_ptr", "mm/mm.c:__mm_pos_cmp", "mm/mm.c:aosl_memdump"]}
{"id": "C185", "title": "Callbacks see their own queue as the current one", "statement": "Every callback the library makes on the thread of a queue - its init and fini functions, queued functions, timer and descriptor functions, timer destructors - finds that queue when it asks for the current one (aosl_mpq_this).", "quantifier": "all lives of a queue's thread: every order of creation, init result, functions, timers, kills, drain and end", "why_tests_cant": "the order of clearing the current queue and of the callbacks at the end matters only for callbacks that look, at the end of a queue with timers left", "anchors": ["kernel/mpq.c:mpq_thread_entry,__q_wait_destroy,__q_destroy,aosl_mpq_this", "kernel/timer.c:mpq_fini_timers"]}
{"id": "C186", "title": "What callbacks make is cleaned up when their queue ends", "statement": "Every timer a callback of a queue makes on the current queue has its destructor run exactly once by the time the queue's thread has ended, and the thread brings no other queue into being.", "quantifier": "all lives of a queue's thread and all numbers of timers made in every callback", "why_tests_cant": "leaks appear only when callbacks at the very end make something, which no test of ordinary use does", "anchors": ["kernel/mpq.c:__get_or_create_current,__q_wait_destroy,mpq_thread_entry", "kernel/timer.c:mpq_fini_timers,mpq_create_timer"]}
{"id": "C187", "title": "A static lock excludes, from its first use, on every port", "statement": "On every port, a lock declared with the static initialiser can be used by any number of threads without an explicit initialisation: however their first calls interleave, at most one thread has it at a time going by what lock, trylock and unlock returned, no call touches a mutex that was never made, a trylock fails only while another thread has the lock, and lock returns only with the lock.", "quantifier": "every port, every number of threads, every interleaving of init, lock, trylock, unlock and fini", "why_tests_cant": "the first use is a race of several threads on one state word, and most of the ports cannot be run", "anchors": ["kernel/thread.c k_static_lock_init", "kernel/thread.c k_static_lock_lock", "lib/thread_api.c aosl_static_lock_lock", "platform/src/*/aosl_hal_thread.c aosl_hal_static_mutex_init"]}
{"id": "C188", "title": "init and fini of a queue decide what runs", "statement": "A queue whose init callback reports a failure runs no timer and no descriptor callback, even ones that init set up; one whose init succeeds goes on until its end is asked for, and fini has not run before; fini, where there is one, has run exactly once when the thread is gone, also when creation itself failed.", "quantifier": "every history of a queue's thread: creation that works or fails, any callbacks in any order, timers made in any of them", "why_tests_cant": "the histories are unbounded and the failure paths of creation are not reached by tests", "anchors": ["kernel/mpq.c mpq_thread_entry", "kernel/mpq.c __q_wait_destroy", "include/api/aosl_mpq.h aosl_mpq_create"]}
{"id": "C189", "title": "A text becomes the socket address it names, and back", "statement": "aosl_ip_sk_addr_from_string accepts exactly the dotted quads and, when built with IPv6, the RFC 4291 texts; it then fills in the socket address of that IP and port (family, port and address bytes in their places, the rest 0) and returns its size; any other text gives 0 and leaves an address of no family; text and port of an address give back an address with the same family, port and IP.", "quantifier": "all texts, addresses, ports, byte orders and previous contents of the memory", "why_tests_cant": "the space of texts is infinite and that of addresses 2^128", "anchors": ["net/sk_utils.c aosl_ip_sk_addr_from_string", "net/sk_utils.c aosl_ip_sk_addr_str", "net/sk_utils.c aosl_ip_sk_addr_port", "net/sk_utils.c aosl_sk_addr_ip_equal"]}
{"id": "C190", "title": "The debugging allocator of a port reports what there is", "statement": "In a build with AOSL_MM_DEBUG (bk725x, spreadtrum) the reported number and size of the blocks are those of the blocks the user has, every block is as large as asked for, and no correct sequence of malloc, calloc, realloc and free calls, including ones that fail, stops the program.", "quantifier": "all histories of allocator calls, all sizes, all answers of the platform", "why_tests_cant": "unbounded histories, allocation failures and sizes near 2^32", "anchors": ["platform/src/bk725x/aosl_hal_memory.c aosl_hal_realloc", "platform/src/spreadtrum-t117/aosl_hal_memory.c aosl_hal_realloc"]}
{"id": "C191", "title": "calloc gives all the bytes asked for or nothing", "statement": "On every port aosl_hal_calloc (nmemb, size) returns nmemb * size zero bytes, the true product, or NULL.", "quantifier": "all ports, all pairs of numbers", "why_tests_cant": "2^64 pairs, most ports cannot be run", "anchors": ["platform/src/rtl8713/aosl_hal_memory.c aosl_hal_calloc", "platform/src/bk725x/aosl_hal_memory.c aosl_hal_calloc", "platform/src/spreadtrum-t117/aosl_hal_memory.c aosl_hal_calloc"]}
{"id": "C192", "title": "Calls between queues come back unless queues wait for each other in a circle", "statement": "When functions running on queues call other queues (synchronously, or blocked on a full queue), every call under way comes back with exactly one result after a bounded number of steps, in whatever order the threads run, provided the functions return and the queues do not wait for each other in a circle. Queues that call each other synchronously in a circle never come back, not even when they are destroyed; queues in a circle of full queues come back only after one of them has been destroyed.", "quantifier": "all numbers of queues and threads, all call graphs, all schedules, all queue sizes", "why_tests_cant": "a dead-lock or live-lock shows only under some interleavings of several threads, and the absence of one is a statement about all of them", "anchors": ["kernel/mpq.c:____add_f", "kernel/mpq.c:__process_fo", "kernel/mpq.c:__check_and_call_funcs"]}
{"id": "C193", "title": "Making a queue is all or nothing", "statement": "A call of aosl_mpq_create or aosl_mpq_create_flags that fails, at whatever step, leaves no memory, descriptor, lock, id or thread behind; one that succeeds owns exactly its own, and the end of the queue gives all of it back, once.", "quantifier": "all histories of create and destroy calls, every combination of failures of the platform, all three ways of waiting, pipes and socket pairs", "why_tests_cant": "error paths need failures that a test cannot cause at will, and each one has its own set of things to give back", "anchors": ["kernel/mpq.c: __q_create, __mpq_create, __q_destroy", "kernel/osmp.c: os_mp_init, os_init_sigp, os_fini_sigp, os_pipe", "kernel/et_mp.c: os_mp_init_epoll"]}
{"id": "C194", "title": "A create call that fails says why", "statement": "When aosl_mpq_create fails aosl_errno is not 0 afterwards and names the reason.", "quantifier": "all arguments and all failures of the platform", "why_tests_cant": "the failures are hard to cause, and a stale number looks like a reason", "anchors": ["kernel/mpq.c: __mpq_create, mpq_thread_entry", "kernel/thread.c: k_thread_create", "kernel/osmp.c: os_mp_init"]}
{"id": "C195", "title": "fini is called for every create", "statement": "The fini callback given to aosl_mpq_create is called exactly once, whether the queue was made or not, so that it may release arg.", "quantifier": "all arguments and all failures of the platform", "why_tests_cant": "as above", "anchors": ["kernel/mpq.c: __mpq_create, mpq_thread_entry, __q_wait_destroy"]}
{"id": "C196", "title": "Destroyed queues end", "statement": "After aosl_mpq_destroy has found a queue, the queue runs what is left in it and ends, whatever other threads and queues do, unless its own thread waits in a call for another queue that never gets on.", "quantifier": "all schedules of any number of threads and queues, all histories of calls before and after the destroy", "why_tests_cant": "a queue that hangs at its end needs a schedule in which references, full queues and calls between queues meet", "anchors": ["kernel/mpq.c: mpq_destroy, __mp_queue_poll_loop, __q_wait_destroy, ____add_f"]}
{"id": "C197", "title": "A registration call answers truthfully and leaves nothing behind", "statement": "aosl_mpq_add_fd, aosl_mpq_connect, aosl_mpq_listen, aosl_mpq_add_dgram_socket, aosl_mpq_add_stream_socket and their _on_q variants answer 0 exactly if the fd, which was not registered, is now registered with the queue and watched by its poller and by no other; otherwise they answer a negative value and leave registrations, memory, timers, pollers and the fd as they were. Every fd value is either registered or refused, and a call that has everything it takes succeeds.", "quantifier": "all histories of registrations and events, all fds and arguments, all failures of memory, poller, timer, socket and queue", "why_tests_cant": "the failures of the platform cannot be provoked one by one by a test, and their combination with the history is unbounded", "anchors": ["kernel/iofd.c: __mpq_add_fd_argv, aosl_mpq_add_fd, aosl_mpq_add_fd_on_q", "net/sk_utils.c: aosl_mpq_connect, aosl_mpq_listen, aosl_mpq_add_stream_socket, aosl_mpq_add_dgram_socket, ____target_q_add_dgram_sk, ____target_q_add_stream_sk", "kernel/fileobj.c: install_fd"]}
{"id": "C198", "title": "The time-out of a connect comes when it is due, once, and only then", "statement": "After aosl_mpq_connect with a time-out of t milliseconds returned 0, the event function is told -AOSL_ETIMEDOUT and the fd is closed if and only if the connection was still under way when t milliseconds had passed; it is told so at most once and nothing else before or after.", "quantifier": "all histories before the call, all time-outs, all sequences of readiness, errors, closes and times after it", "why_tests_cant": "the order of the socket's events and the timer is a schedule", "anchors": ["kernel/iofd.c: __iofd_not_ready_timeout, __iofd_write_data, f_event_and_close", "net/sk_utils.c: __this_q_connect_argv, __do_connect"]}
{"id": "C199", "title": "A device id is 32 hex digits within its buffer on every port", "statement": "On every port aosl_get_uuid with a buffer of more than one byte returns; it answers 0 with the first bytes of an id of 32 lower-case hex digits and a terminating zero in the buffer, or -1 with the buffer as it was, and never touches a byte outside the buffer.", "quantifier": "all ports, buffer sizes, clocks, chip numbers and random values", "why_tests_cant": "each port has its own code, and the bad sizes and clock values are few among billions", "anchors": ["lib/utils.c: aosl_get_uuid", "platform/src/*/aosl_hal_utils.c: aosl_hal_get_uuid, format_to_uuid"]}
{"id": "C200", "title": "Device ids tell devices apart", "statement": "Two calls of aosl_get_uuid on two devices with different chip numbers, hardware random words or system random bytes give different ids.", "quantifier": "all ports and all pairs of environments", "why_tests_cant": "a test sees one device; equal ids need two devices started alike", "anchors": ["platform/src/*/aosl_hal_utils.c: aosl_hal_get_uuid, random_a4, os_get_uuid", "lib/utils.c: aosl_get_uuid"]}
{"id": "C201", "title": "Random bytes fill exactly the buffer on every port", "statement": "On every port aosl_rand_bytes answers 0 only after exactly len bytes of the buffer were filled with fresh bytes of the generator, none used twice and none skipped; on ports without a generator it answers -1 and leaves the buffer alone.", "quantifier": "all ports, all lengths, all generators", "why_tests_cant": "the last partial word and lengths beyond int are boundary cases; random contents cannot be compared", "anchors": ["lib/utils.c: aosl_rand_bytes", "platform/src/esp32/aosl_hal_utils.c: aosl_hal_rand_bytes", "platform/src/windows/aosl_hal_utils.c: aosl_hal_rand_bytes"]}
{"id": "C202", "title": "File and directory calls answer truthfully on every port", "statement": "aosl_mkdir, aosl_rmdir, aosl_file_create, aosl_file_delete and aosl_file_rename answer 0 exactly if what their name says has happened — and nothing else has changed — and a negative value if nothing has changed; aosl_fexist answers non-zero exactly if something is there; aosl_fsize the size of a file, negative if nothing is there. A file that is there keeps its contents when created again.", "quantifier": "all ports, all histories, all paths, all failures of the platform", "why_tests_cant": "one test runs on one port with a few paths; paths with trailing slashes, existing files and moves between directories are easily left out", "anchors": ["kernel/file.c", "platform/src/*/aosl_hal_file.c"]}
{"id": "C203", "title": "What is written to a file is read back", "statement": "After aosl_fopen for writing or appending the file holds exactly the bytes the answers of aosl_fwrite counted, after what was there when appending; after aosl_fclose answered 0, aosl_fread in any portions gives these bytes in their order and tells their number.", "quantifier": "all ports with streams, all histories, mode strings, chunks, portions and amounts the disk takes", "why_tests_cant": "disks that fill up, portions and mode strings are unbounded", "anchors": ["kernel/file.c: aosl_fopen, aosl_fwrite, aosl_fread, aosl_fclose", "platform/src/*/aosl_hal_file.c"]}
{"id": "C204", "title": "Removing a directory with all in it ends and stays inside", "statement": "Where aosl_rmdir removes a directory with its contents (xr872), the call ends; after the answer 0 the directory and all below it are gone; nothing outside it is touched.", "quantifier": "all trees, names and depths", "why_tests_cant": "the failing trees need texts of more than 258 characters", "anchors": ["platform/src/xr872/aosl_hal_file.c: aosl_hal_rmdir", "kernel/file.c: aosl_rmdir"]}
{"id": "C205", "title": "The wall clock on every port", "statement": "aosl_time_ms gives the milliseconds since 1970 and aosl_time_sec the seconds, and they do not go back while the system's clock is not set back.", "quantifier": "all ports, all moments of the next 36000 years, all states of the tick counter", "why_tests_cant": "A test cannot wait for every moment, and a test on one port says nothing about the others; a tick counter passes a test of differences.", "anchors": ["platform/src/*/aosl_hal_time.c: aosl_hal_get_time_ms", "kernel/time.c: aosl_time_ms, aosl_time_sec"]}
{"id": "C206", "title": "The text of the time on every port", "statement": "aosl_time_str writes the local date and time as yyyy-mm-dd hh:mm:ss.xxx, cut to the buffer and closed by a NUL inside it; it refuses a null pointer or a length of 0 without writing.", "quantifier": "all ports, all local times, all buffer lengths and contents", "why_tests_cant": "A test takes a few buffer sizes at one moment on one port.", "anchors": ["platform/src/*/aosl_hal_time.c: aosl_hal_get_time_str", "kernel/time.c: aosl_time_str"]}
{"id": "C207", "title": "Accept on every port", "statement": "On every port, a listening socket registered with aosl_mpq_listen hands the application exactly the connections the system accepted, each once and in order, and no others, and one pass over the pending connections ends.", "quantifier": "all ports, all answers of the system, all behaviours of the application", "why_tests_cant": "the extra descriptors appear only after the pending connections were taken, on three ports only", "anchors": ["net/sk_utils.c: __default_accept", "kernel/iofd.c: __iofd_read_data", "platform/src/*/aosl_hal_socket.c: aosl_hal_sk_accept"]}
{"id": "C208", "title": "Addresses to and from the system on every port", "statement": "On every port an address given to connect or sendto reaches the system with the same family, port, address, flow and scope, with the size of its family, or the call is refused; an address the system reports in accept, recvfrom or getsockname reaches the caller the same way, whatever the caller's structure held.", "quantifier": "all ports and builds, all addresses, all old contents", "why_tests_cant": "the lost parts matter only for link-local addresses and for builds without IPv6", "anchors": ["platform/src/*/aosl_hal_socket.c: conv_addr_to_os, conv_addr_to_aosl, get_addrlen, aosl_hal_sk_sendto, aosl_hal_sk_recvfrom"]}
{"id": "C209", "title": "The address of a socket on every port", "statement": "On every port aosl_get_sockaddr gives the port the socket is bound to and the IPv4 address of the machine's default interface, and fails only when there is none or the socket is not IPv4.", "quantifier": "all ports, all machines, all sockets", "why_tests_cant": "depends on the set and the order of interfaces of the machine", "anchors": ["net/sk_utils.c: aosl_get_sockaddr", "platform/src/*/aosl_hal_socket.c: aosl_hal_sk_get_local_ip, aosl_hal_sk_get_sockname"]}
{"id": "C210", "title": "Priority classes on every port", "statement": "On every port a thread of a queue created with a higher priority class runs with a strictly higher priority than one of a lower class; a class that is not documented is refused.", "quantifier": "all ports, all pairs of classes, all priority ranges of the system", "why_tests_cant": "depends on the priorities of the system and on permissions; a test sees one machine", "anchors": ["kernel/thread.c: k_thread_create, k_os_thread_entry", "platform/src/*/aosl_hal_thread.c: aosl_hal_thread_create, aosl_hal_thread_set_priority"]}
{"id": "C211", "title": "Log lines on every port", "statement": "On every port a log line that passes the filter is printed whole when no log function of the user is set, and formatting it never writes outside its buffer.", "quantifier": "all ports, all lines", "why_tests_cant": "a line is cut only beyond a length and on some ports", "anchors": ["kernel/log.c: ____default_vlog", "platform/src/*/aosl_hal_log.c: aosl_hal_printf"]}
{"id": "C212", "title": "The subscriber knows the network", "statement": "After any history of subscriptions, route messages and unsubscriptions, the subscriber that only keeps the route of the last network event it got knows the current default routes of both families and how many there are, also when the last change produced no event; aosl_network_is_down agrees with what it knows and says down whenever nobody is subscribed; UP and UP_CHANGED come only while it knows of no network, DOWN, SWITCH and CNT_CHANGED only while it knows one, and the old route these pass is the one it knows.", "quantifier": "all histories of subscriptions and observations, with and without IPv6", "why_tests_cant": "the difference between what was last reported and what is current can only build up over a history", "anchors": ["net/route.c: check_report_def_rt_change_event, aosl_network_is_down, aosl_subscribe_net_events", "kernel/rt_monitor.c: os_get_def_rt"]}
{"id": "C213", "title": "Mobile network", "statement": "After any history aosl_is_mobile_net answers about the default route last observed for the subscriber: 1 exactly when, on Android, its interface is not a wlan interface, and -1 with EINVAL when the family has no default route, when nobody is subscribed, for IPv6 without IPv6 support and for any other family.", "quantifier": "all histories of subscriptions and observations, all interface names, all families", "why_tests_cant": "the flag survives in one of two buffers from older observations; which one is current depends on the history", "anchors": ["net/route.c: aosl_is_mobile_net, check_report_def_rt_change_event, route_clear", "kernel/rt_monitor.c: __af_get_default_rt"]}
{"id": "C214", "title": "Pool calls return", "statement": "A call on a queue pool that takes the pool's lock (queue, call, alloc, tail queue, shrink, free) returns, whatever the other threads do and whatever the init functions given to the pools do.", "quantifier": "all numbers of pools and threads, all histories of calls, all init functions and schedules", "why_tests_cant": "the pool's lock is held while a new queue's thread is started and its init function runs; deadlocks depend on what init functions call and on the schedule", "anchors": ["kernel/mpqp.c: __mpqp_best_q_get, __mpqp_best_entry_get_or_alloc, __mpqp_pool_tail_queue_argv, __mpqp_q_init", "kernel/mpq.c: __mpq_create"]}
{"id": "C215", "title": "The prefix a queue reports can be read", "statement": "aosl_mpq_get_ipv6_prefix returns NULL when no prefix is in force on the calling queue and otherwise a pointer to an address that holds the prefix in force and can be read as its type says until the prefix is changed.", "quantifier": "all histories of settings and resets, all addresses, all times of reading", "why_tests_cant": "the validity of a pointer over all later histories and reads past an allocation do not show in test results", "anchors": ["net/ipv6.c: aosl_mpq_get_ipv6_prefix, ____q_update_ipv6_prefix, aosl_mpq_set_ipv6_prefix_on_q", "kernel/mpq.c: __q_destroy"]}
{"id": "C216", "title": "Resolving a name does not redirect other destinations", "statement": "The answer to a resolve request does not change where the requester's other packets go: IPv4 destinations of a queue are mapped with the prefix the user set, or 64:ff9b::/96, whatever hosts were resolved.", "quantifier": "all histories of settings and resolve answers, all addresses, all destinations", "why_tests_cant": "a wrong destination shows only in an IPv6-only network after particular answers", "anchors": ["net/dns.c: __queue_resolve_async_reply", "net/ipv6.c: aosl_mpq_set_ipv6_prefix_on_q, ipv6_sk_addr_from_ipv4"]}
{"id": "C217", "title": "Encoded integers are in network byte order", "statement": "For every value of 16, 32 or 64 bits, aosl_encode_intN gives a word whose bytes in memory are the value's digits, most significant first, aosl_decode_intN reads such a word back, and a value encoded on one machine decodes to itself on any other.", "quantifier": "all values of each width, both byte orders on either side", "why_tests_cant": "A test on one machine only sees the round trip, which holds whatever the order is; the order in memory and the transfer between machines need a statement about all values on both kinds of machine.", "anchors": ["lib/marshalling.c:aosl_encode_int16,aosl_encode_int32,aosl_encode_int64,aosl_decode_int16,aosl_decode_int32,aosl_decode_int64", "include/api/aosl_marshalling.h"]}
{"id": "C218", "title": "A part of a dynamic array or string can be added or assigned to it", "statement": "Calling add_elems, add_data, copy_data, strcat or strcpy on a dynamic array, byte buffer or string with a source inside a dynamic array's own memory has the effect it would have with the source copied out first; this holds for the array's own elements as for those of another array.", "quantifier": "all contents, parts, capacities and allocation results; source in the same or in another array", "why_tests_cant": "Whether the source is still there when it is read depends on the spare capacity left by the history of the array; a test with one length sees the lucky case, or reads freed memory unnoticed.", "anchors": ["lib/marshalling.c:aosl_dynamic_array_add_elems,aosl_dynamic_bytes_add_data,aosl_dynamic_bytes_copy_data,aosl_dynamic_string_strcat,aosl_dynamic_string_strcpy"]}
{"id": "C219", "title": "Queueing into a pool comes to an end", "statement": "A call of aosl_mpqp_queue (or any of its variants) returns once the chosen queue has worked off what was queued before it, however many threads call at the same time and whatever limit the pool was created with; with AOSL_MPQ_FLAG_NONBLOCK it fails only if the queue is full.", "quantifier": "all limits, all interleavings of any number of callers of the pool and of the queue itself with the queue's thread, blocking and not", "why_tests_cant": "The callers have to meet in a window of a few instructions, as many as the limit; tests use large limits and few threads.", "anchors": ["kernel/mpqp.c:__mpqp_best_q_get,__mpqp_best_q_put,__mpqp_best_q_queue", "kernel/mpq.c:____add_f,__process_fo,__check_and_call_funcs"]}
{"id": "C220", "title": "The queued count is the number of functions queued and not finished", "statement": "aosl_mpq_queued_count answers, at every moment, the number of functions that were queued to the queue and have not finished.", "quantifier": "all histories of a queue, in a pool or not, any limit", "why_tests_cant": "A test compares the count when nothing else is going on; the claim is about every moment of every interleaving.", "anchors": ["kernel/mpq.c:aosl_mpq_queued_count,____add_f,__process_fo", "kernel/mpqp.c:__mpqp_best_q_get"]}
{"id": "C221", "title": "Code can tell whether it runs on the main queue", "statement": "aosl_mpq_is_main answers 1 exactly when called on the running main queue: never on another queue or thread, and always on the main queue from its init callback to its fini callback; aosl_mpq_main gives the handle of the queue on which it answers 1, and aosl_main_started says yes only while there is one.", "quantifier": "all interleavings of threads that start, use and end main queues and others, with failing init callbacks and refused starts", "why_tests_cant": "The moments between the creation of the queue and the store of its handle are too short to be met by a test.", "anchors": ["kernel/mpq.c:aosl_mpq_is_main,aosl_mpq_main,aosl_main_start,__q_destroy,mpq_thread_entry", "include/api/aosl_mpq.h:aosl_main_started"]}
{"id": "C222", "title": "The main queue can be started again after it ended", "statement": "Once aosl_main_exit_wait has returned, aosl_mpq_main gives the ended queue no more and a new aosl_main_start is not refused, unless another start is going on; starting never reads a queue that is freed already.", "quantifier": "all histories of starts, exits and failures and all interleavings of the starter with the life of the queue", "why_tests_cant": "Only particular interleavings, in which the queue ends before its starter runs again, tell the difference.", "anchors": ["kernel/mpq.c:aosl_main_start,aosl_main_exit_wait,__q_destroy,__q_wait_destroy"]}
{"id": "C223", "title": "A datagram arrives with the address of its sender", "statement": "Every datagram that is read from a registered datagram socket is given to the data callback once, in order, whole if it has at most max_pkt_size bytes and cut to max_pkt_size otherwise, with the address of its own sender; no memory but the socket's own block is touched.", "quantifier": "all sizes, numbers of arguments, word sizes, contents of the memory, and all sequences of datagrams and senders", "why_tests_cant": "The layout depends on sizes, arguments and alignment; a test with a few sizes does not show an overlap.", "anchors": ["kernel/iofd.c:__iofd_read_data,__mpq_add_fd_argv", "net/sk_utils.c:__default_recvfrom,__this_q_add_dgram_sk_argv"]}
{"id": "C224", "title": "Data that waits keeps its flags and its destination", "statement": "What aosl_send and aosl_sendto could not write at once is offered to the system later with exactly the flags and the destination given, the bytes that are left and nothing else, in however many pieces the system takes it; no memory outside the block of the waiting data is touched.", "quantifier": "all data, flags, destinations, kinds of descriptors, word sizes and all sequences of partial writes", "why_tests_cant": "Sockets in tests hardly ever take data in pieces.", "anchors": ["net/sk_utils.c:____send,____sendto,__default_send,__default_sendto", "kernel/iofd.c:____write,__iofd_write_data,__default_write"]}
{"id": "C225", "title": "Waiting for the main queue to end comes to an end", "statement": "aosl_main_exit_wait returns from whatever thread or function it is called, and the main queue ends once it is told to and the functions on the queues return.", "quantifier": "all numbers of queues in and outside the default pools, all functions queued to them, all schedules", "why_tests_cant": "It needs the wait inside a pool function at the end of the process, where a hang is taken for slowness.", "anchors": ["kernel/mpq.c:aosl_main_exit_wait,__main_auto_exit,mpq_do_wait,__q_destroy,aosl_shrink_resources", "kernel/mpqp.c:mpqp_shrink_pools,__mpqp_shrink_all"]}
{"id": "C226", "title": "An accepted message can be forwarded", "statement": "A program that decodes an object from received bytes and encodes what it got produces as many bytes as were consumed, the same bytes, and any other receiver decodes the same object from them.", "quantifier": "all byte strings, whoever made them, all segmentations, all descriptor graphs, all chains encoded into", "why_tests_cant": "ranges over all byte strings a peer can send, not only those this library produced", "anchors": ["lib/marshalling.c:_____unmarshal,_____marshal,SAFE_STRSIZE"]}
{"id": "C227", "title": "Decoding accounts for its bytes", "statement": "A successful decode consumes exactly the number of bytes it returns, from the front of the chain; these bytes alone decide the object; any shorter part of them is refused with EMSGSIZE.", "quantifier": "all byte strings, all segmentations, all descriptor graphs, all bytes that follow", "why_tests_cant": "ranges over all messages and all continuations of each", "anchors": ["lib/marshalling.c:_____unmarshal,SAFE_STRSIZE"]}
{"id": "C228", "title": "A created lock excludes", "statement": "A lock that aosl_lock_create returned lets at most one thread in at a time, going by what lock, trylock and unlock returned; lock returns once nobody is inside and trylock fails only while somebody is; no call hands something that is not a mutex to the operating system; after aosl_lock_destroy nothing of it is left. If no such lock can be made, create returns NULL.", "quantifier": "every port, every failure of an allocation or of the system during a creation, every number of threads, every history of create, lock, trylock, unlock and destroy that takes a lock only without having it and gives back only what it has", "why_tests_cant": "a creation fails only when a resource has run out, and most ports cannot be run", "anchors": ["lib/thread_api.c aosl_lock_create", "kernel/thread.c k_lock_init, k_lock_lock", "platform/src/*/aosl_hal_thread.c aosl_hal_mutex_create"]}
{"id": "C229", "title": "Waiting for a condition comes to an end", "statement": "Threads that wait in the documented way (lock, while the condition does not hold aosl_cond_wait, unlock) all come out once another thread has made the condition true under the lock and called aosl_cond_broadcast; none comes out before, and never do two threads have the lock. If no such condition variable can be made, create returns NULL.", "quantifier": "every number of waiting threads, every interleaving, any number of spurious wake-ups, whether or not the port could make the variable; ports with native condition variables and ac791n", "why_tests_cant": "needs every schedule; a creation fails only when a resource has run out", "anchors": ["lib/thread_api.c aosl_cond_create, aosl_cond_wait, aosl_cond_broadcast", "kernel/thread.c k_cond_init, k_cond_wait", "platform/src/*/aosl_hal_thread.c aosl_hal_cond_create, aosl_hal_cond_wait"]}
{"id": "C230", "title": "A pool tail call says whether it queued", "statement": "aosl_mpqp_pool_tail_queue and its variants answer 0 when the function has been queued behind everything queued to every queue of the pool, and otherwise -1 with an error number, having changed nothing.", "quantifier": "all pools, also ones without a queue yet, all functions, all failures of memory, of threads and of the pool's init function", "why_tests_cant": "The failures are hard to cause, and a test has to look at every queue.", "anchors": ["kernel/mpqp.c:__mpqp_pool_tail_queue_argv,__pool_create_mpq", "kernel/mpq.c:__mpq_create"]}
{"id": "C231", "title": "Queueing into a pool and allocating from it say what they did", "statement": "aosl_mpqp_queue and its variants answer the handle of the one queue that got the function, the others being unchanged, or -1 with an error number, no queue having got it; aosl_mpq_alloc answers the handle of a queue of the pool it has counted as used once more, or -1 with an error number, nothing having changed. They choose a queue with the least to do and make one exactly when all are busy and there is room. No answer of the pool's init function makes them crash.", "quantifier": "all pools, all functions, all answers of the creation of a queue and error numbers left by it", "why_tests_cant": "All pools and all failures have to be covered.", "anchors": ["kernel/mpqp.c:__mpqp_best_q_get,__mpqp_best_entry_get_or_alloc,__pool_create_add_mpq_locked,__mpqp_best_q_queue", "include/kernel/err.h:ERR_PTR,IS_ERR_OR_NULL"]}
{"id": "C232", "title": "Whoever asks for the write lock gets it", "statement": "A thread in aosl_rwlock_wrlock gets the lock within a bounded time if nobody keeps the lock for long, readers included that come after it.", "quantifier": "all numbers of threads, all interleavings in which everybody makes progress and gives back what he took", "why_tests_cant": "Starvation is a property of unbounded histories; a test ends.", "anchors": ["kernel/thread.c:k_rwlock_wrlock,k_rwlock_rdlock", "lib/thread_api.c:aosl_rwlock_wrlock"]}
{"id": "C233", "title": "The function of a pool tail call and its completion", "statement": "The function given to aosl_mpqp_pool_tail_queue is invoked once, with the words given, after every queue of the pool has come to its turn; if a done queue was given and the object is still there, it is then queued once to the done queue for the same object, or invoked once more with the mark to free if that queue has gone. What the call allocated is freed once and not used afterwards.", "quantifier": "all numbers of queues, all interleavings of their threads, all fates of the object and of the done queue meanwhile", "why_tests_cant": "Which queue is last, and what has gone by then, depends on the schedule.", "anchors": ["kernel/mpqp.c:____each_pool_promise_f,__mpqp_pool_tail_queue_argv"]}
{"id": "C234", "title": "What closing and unregistering an fd answers is true", "statement": "aosl_close answers a value that is not negative exactly if it closed the fd and took it out of its queue, and otherwise -1 with an error number, the fd being as open as before; aosl_mpq_del_fd answers 0 if the fd is not registered any more and otherwise -1 with an error number, and never closes it. No other fd is affected, and of two threads that close the same registered fd only one is told that it did.", "quantifier": "all fds, registered or not, all calling threads, everything other threads do before the owner's thread gets to it, all failures of the hand-over and of the platform", "why_tests_cant": "The failure of the hand-over and the moment of the other close cannot be arranged by a test.", "anchors": ["kernel/iofd.c:aosl_close,aosl_mpq_del_fd,__iofd_close,__iofd_del,__this_q_close_f,__q_del_f", "kernel/fileobj.c:remove_fd"]}
