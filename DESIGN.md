# Formal model of AOSL in Lean 4 — design

The code modelled is `/repo` (AgoraIO-Community/aosl, pinned). Everything lives in `lean/Verif/`.
Each model module cites file:lines of the C code it transcribes. Each property theorem is named `Cxx_…`
after its property and stands in a `…Props`/`…More` module, apart from the model, with a small
specification that does not mention the model's helpers, and with a concrete `example` that meets its
hypotheses. A suffix `_partial` marks a theorem that proves only part of its property; the note in
the table below says what is missing. Where the code violates a property, the *negation* is proved: a
theorem exhibits a run of the model that breaks the claim (listed in "Disagreements" below), and the
`_partial` theorem states the strongest restriction that holds.

This file is generated by `tools/gen_design.py` from `tools/design_head.md`, `properties.jsonl`,
`MANIFEST.json` and the output of `Lean.collectAxioms`.

## How the models are built

* **Sequential code** (containers, conversions, codecs) is a total function on explicit state. Memory
  that matters is explicit (byte arrays, heaps with ownership); an access outside it, a NULL dereference,
  a double free or an abort (`BUG_ON`, `assert`) is a separate outcome, never totalised away.
  C integer types are `BitVec n` or `Nat`/`Int` with explicit `% 2^n`.
* **Concurrent code** is a transition system: a state with one program counter (or stack) per thread, for
  any number of threads, and one action per atomic operation or critical section. Theorems are
  inductive invariants over all reachable states, i.e. all schedules; history is a ghost log.
  "Eventually" claims are proved as: a measure that decreases with every step of the thread concerned
  and a proof that this thread can always step (no fairness assumption is hidden in the step relation).
* **The operating system** (readiness, results of read/write/malloc, time) is an input: theorems
  quantify over every behaviour it may have, except where a property needs an assumption; this is
  then a hypothesis of the theorem.
* **Layers**: Mpq, RefObj and KLocks use abstract locks. That the lock implementation satisfies that
  interface is proved separately (C55, C56, C92). The trees of Timer, TimerRef, Tls, Mm and FdTab are maps or ordered
  lists; that lib/rbtree.c behaves as one is C01–C07. Sequential consistency is assumed throughout (the
  code uses full-barrier atomics).

## Modules: what is modelled and what is left out

| Module | Code | Left out / simplified |
|---|---|---|
| RBTree | lib/rbtree.c complete: descent, insert fix-up, four erase cases, erase fix-up, replace, iteration, traversals | parent pointers are a zipper; one C loop iteration = one zipper step |
| DList | include/api/aosl_list.h on a heap of next/prev cells, poison values | iteration macros other than for_each, for_each_prev |
| Psb | lib/psbuff.c, include/kernel/psbuff.h | – |
| Bitmap | lib/bitmap.c | allocation failure, destroy |
| IdTable | the id tables of kernel/refobj.c, timer.c, mpq.c (bitmap growth, life ids) | one atomic step per call under the table lock |
| Marshal | lib/marshalling.c: size, encode, decode over descriptors (recursive ones too), segments | byte values rather than heap layout of user structs; `aosl_fini_typed_obj` only for dynamic arrays (DynArray) |
| DynArray | lib/marshalling.c:22-200 on an explicit heap | arguments aliasing the array |
| Timer, TimerRef | kernel/timer.c: base as ordered list, run loop, re-insertion, cancel, kill, reference counts, argument vectors | – |
| RefObj | kernel/refobj.c: id, usage count, destroyed flag, locks, nested calls, per-thread nodes | abstract rw lock (C55/C56) |
| Mpq (+Inv, Use, Log, Tok, Sync, Cause, Block, Go, Calls, Esc) | kernel/mpq.c: add, process, drain, done queue, call, destroy, wait, blocking on full queues | statistics; the thread main wrapper; one action per critical section |
| Wakeup | the need_kicking / kick counter / pipe and event handshake of kernel/mpq.c, osmp.c | – |
| Pool (+Tail, Wait) | kernel/mpqp.c | thread names; load statistics |
| IoWrite | aosl_write/send/sendto, write queue, drain, not-ready timeout: kernel/iofd.c, net/sk_utils.c | bytes taken by the OS are an input |
| IoRead (+Lemmas, More, IoErrProps) | __iofd_read_data, buffer moves, f_event_and_close | post_f (always NULL in the code base) |
| IoBoth | dispatch of one event with write and read part, accept, connect | builds on IoRead |
| Iomp | poll_mp.c, select_mp.c, et_mp.c waiting with the Linux HAL | other platforms' HALs |
| Arm | when POLLOUT is armed, edge- and level-triggered | bytes are counted only |
| Dispatch | batch dispatch against a changing fd table | – |
| FdTab | kernel/fileobj.c and the add/delete/close/fini functions of iofd.c | life_id (never read) |
| RwLock (+Inv, Live) | lib/rwlockimpl.c atomic operation by atomic operation, with waiter events | – |
| KLocks (+More) | k_rwlock, k_event, k_static_lock of kernel/thread.c; lib/cond.c | pthread objects abstract, spurious wake-ups included |
| Tls | lib/tls.c | – |
| Errno | lib/errno.c | thread id reuse (see Tls) |
| Mm, MemApi | mm/mm.c accounting; allocation API, memdump | – |
| Lifecycle | aosl_ctor/dtor reference count, main queue start/stop | – |
| WaitTime | deadlines and time-outs: kernel/osmp.c, lib/cond.c, HAL semaphores' timespec | – |
| Words | byte order, wrap-around comparison, error convention | – |
| Inet | net/inet.c character by character | – |
| NetUtil | net/ipv6.c, address helpers of net/sk_utils.c, dual-stack sockets | – |
| Route, Netifs | net/route.c event machine, net/netifs.c cache | – |
| Netlink (+Props, Links) | kernel/rt_monitor.c byte by byte: attribute parser, route dump, link dump, notifications, the monitoring socket | wireless flag and interface name of the result; little-endian, 64-bit |
| MarshalMem (+Props) | lib/marshalling.c:310-1165 with the memory it allocates: init, unmarshal into an existing object, fini, every free an operation on a heap of blocks | any allocation may fail; contents of blocks are cells; the marshalling side is in Marshal |
| OnQ | argument forwarding of the *_on_q functions, net/dns.c | – |
| ThreadApi | lib/thread.c and the HAL's locks, conditions, threads: API level | pthread objects abstract |
| SysApi | kernel/log.c, file.c, time, atomics, random numbers, panic | libc calls are inputs |
| RBWalk | lib/rbtree.c:536-608 on the pointer graph, with a callback that may remove the node; kernel/refobj.c:229-255 | rotations are RBTree's |
| RefNode | kernel/refobj.c:195-419: per-thread nodes with their expiry | clock is an input |
| NetSub | net/route.c:375-450, kernel/rt_monitor.c:466-536, iofd.c:598-608, mpq.c:1880-1941: who is subscribed, over queue ends and library restarts | contents of events (Route) |
| QHandle | handles as machine words: mpq.c:177-260, 1805-1811, mpqp.c:282-380, 635-729 | the table is IdTable's |
| RunQuery | mpq.c:518-566, 1159-1231, 1568-1583, osmp.c:79-111: questions of a running function, measured times | – |
| PoolIdle | mpqp.c:97-170, 883-987: which queues of a pool are taken down when idle | waiting for the end is QWait's |
| QWait | mpq.c:799-1062, 1639-1764: the life of one queue with its creator and any number of waiting threads | what the queue executes (Mpq) |
| QFlags | mpq.c:147-175, 285-345, 1050-1127, osmp.c:84-111, 179-184, 317-339: flags of a queue, the performance callback | – |
| TimerApi | timer.c:545-889, 920-998: making and rescheduling timers: arguments, overlapping calls, the returned handle | what timers do (Timer, TimerRef) |
| CurQ | mpq.c:766-851, 1129-1156, 1586-1628: a thread's own queue, nested loops, the execution counters | the queue's content (Mpq, QWait) |
| CondSim | platform/src/ac791n/aosl_hal_thread.c:193-292: the condition variable made from semaphores | spurious wake-ups; the semaphore itself |
| PortThread | the thread bookkeeping of windows, xr872, tw82x, ac791n, ipro7 (aosl_hal_thread.c) under create-and-detach (kernel/thread.c:74-119) | the RTOS calls are outcomes; each record's memory is a flag |
| PortTime | the conversions of stack sizes, time-outs, sleeping times and ticks in all ports (aosl_hal_thread.c, aosl_hal_time.c) | the RTOS takes the converted number as documented |
| PortAtomic | aosl_hal_atomic.c of all ports: intrinsics, LDREX/STREX loops, tw82x's pairs of accesses | sequentially consistent memory; one variable |
| PortSock | platform/src/*/aosl_hal_socket.c, aosl_hal_errno.c other than linux: resolving, binding, device, DSCP, family, error codes | the system's answers are parameters; a write outside an object is a distinct outcome |
| PortIomp | time-outs of aosl_hal_select of all ports; the kqueue emulation of epoll on darwin with the dispatch of IoBoth | kevent applies changes up to the first failure; a failed connect is EVFILT_WRITE with EV_EOF |
| MmPos | mm/mm.c with CONFIG_AOSL_MEM_DUMP: the table of call sites, aosl_memdump, start and end of recording, the `_dbg` allocation calls | one call at a time (Mm interleaves); trees are lists |
| QEnd | the thread of a queue from creation to end: phases, the current queue seen by each callback, timers made by callbacks (kernel/mpq.c:733-975, 1131-1146; kernel/timer.c:449-485) | one thread; making timers and queues succeeds |
| SkAddr | socket addresses as bytes: net/sk_utils.c:1176-1286 | the text functions are Inet's; snprintf of an unknown family is not cut |
| PortMem | platform/src/*/aosl_hal_memory.c: debugging allocator, calloc | the platform's malloc, calloc and realloc are the C standard's; a call is one step |
| MpqDead | kernel/mpq.c:371-491, 624-703 (who waits for whom: synchronous calls and full queues between queues), on the model of Mpq | functions that run on queues return; spurious wake-ups stop; no other simplification than those of Mpq |
| QMake | kernel/mpq.c:720-758, 854-1072, kernel/osmp.c:196-360, kernel/et_mp.c:24-59, kernel/thread.c:73-118 | handles are numbers given once; the creator's own lock and condition, and what a running queue has, are left out; a thread that cannot be started is reported |
| MpqEnd | kernel/mpq.c:769-853, 1639-1691 (the model is Mpq's) | as Mpq |
| FdReg | kernel/iofd.c:63-72, 211-248, 275-494, 496-597, net/sk_utils.c:210-628, kernel/fileobj.c:44-83 | reference counts are FdTab's; buffers and callbacks are IoRead's and IoWrite's; one call is one step of the queue's thread |
| PortUtil | lib/utils.c:13-36, platform/src/{ac791n,asr1606,bk725x,darwin,esp32,harmony,ipro7,rtl8713,spreadtrum-*,tw82x,windows,xr872}/aosl_hal_utils.c | what the platform answers is an environment; `rand` is any function of the seed; the loop of rtl8713 has fuel |
| PortFile | kernel/file.c, platform/src/*/aosl_hal_file.c | the platform's file system is a list of paths and nodes with documented effects; failures are arguments; streams are tied to paths; memory does not run out |
| PortClock | aosl_hal_get_time_ms, aosl_hal_get_time_str in all ports (aosl_hal_time.c) | the clocks, the calendar and snprintf are the system's; the buffer is the caller's memory, a store outside it a distinct outcome |
| PortIo | aosl_hal_sk_accept, conv_addr_to_os, conv_addr_to_aosl, get_addrlen, aosl_hal_sk_get_local_ip in the ports other than linux; __default_accept, aosl_get_sockaddr (net/sk_utils.c); the read loop of a listening socket (kernel/iofd.c) | the system's answers are parameters; listing the interfaces succeeds; families by name, not by each system's number |
| PortPrio | the priority given by aosl_hal_thread_create and aosl_hal_thread_set_priority in the ports other than linux, as used by k_thread_create; aosl_hal_printf | priority ranges, permissions and the SDK's constants are parameters; formatting is the C library's |
| RouteKnow | what a subscriber that keeps the last event's route knows; aosl_is_mobile_net and the cellular flag of the two buffers, on top of Route | the interface names are given with each observation (the table of interfaces is modelled in Netifs) |
| PoolInit | mpqp.c:136-261, 766-821, 883-981, mpq.c:1001-1046: pool locks held across the creation of a queue, any pools, threads and init functions | the rest of a pool call is Pool's; functions that call aosl_mpq_call or wait for other queues inside an init function are not modelled |
| PrefixGet | ipv6.c:159-227, mpq.c:748-749, 866: the memory behind the prefix of a queue | one queue; settings made through aosl_mpq_call are applied in the queue's thread, one at a time |
| DnsPrefix | dns.c:99-141 with ipv6.c:159-216: the prefix of a queue after resolve answers | one queue; the resolver itself is OnQ's |
| EncInt | marshalling.c:203-225, 1195-1223: the exported integer encoders, both byte orders | the marshaller itself is Marshal's |
| DynSelf | marshalling.c:40-80, 135-186 with the source in memory (block, offset), on DynArray's heap | sources outside dynamic arrays are DynArray's values |
| PoolFull | mpqp.c:207-228, 263-331 with mpq.c:429-485, 636-703, 1551-1565: callers of a pool at one of its queues, the limit and the queued count | one queue; callers whose own queue is not being destroyed; allocation succeeds |
| MainQ | mpq.c:1629-1637, 1780-1830, 731-761, 800-851, 950-998, 1003-1043: aosl_main_qid, its readers and writers, one step per access | handles are never used twice (C159); functions, waiting and kicking are in other models |
| PktMem | iofd.c:74-203, 222-238, 322-346, 740-757, sk_utils.c:104-110, 145-208, 652-667, 741-755: the blocks of memory behind packets and waiting data, byte by byte | the platform's calls are Hal's; order and completeness are IoRead's and IoWrite's |
| MainEnd | mpq.c:733-761, 800-851, 1721-1760, 1768-1776, 1818-1833, mpqp.c:929-995: the end of the main queue, the end of the default pools, those who wait | functions return or wait for the main queue (calls between queues are MpqGo's); the four pools are destroyed in one step |
| MarshalFwd | the models of Marshal, from the bytes: what any accepted message means, is, and becomes when it is encoded again | as Marshal |
| PortLock | thread_api.c:48-81, kernel/thread.c:131-172, aosl_hal_mutex_* of the 18 ports | a mutex of the system is its owner; taking a lock twice is left to the system (a critical section of windows allows it) |
| PortCond | thread_api.c:161-193, kernel/thread.c:174-206, aosl_hal_cond_* of linux, darwin, esp32, ipro7, harmony, bk725x, windows, ac791n: waiting in a loop, one broadcast | the variable of the system wakes all sleepers and gives the mutex back in one step; ac791n's own construction is CondSim's; lib/cond.c is KLocks' |
| PoolCall | mpqp.c:57-85, 180-261, 273-331, 760-821, 1037-1046, err.h:25-47: what a call on a pool answers | one call is one step; the creation of a queue is an answer; errors passed in pointers as in err.h |
| RwWait | thread.c:215-218, 225-254, 267-276: waiting for the write lock | the raw lock is one step (RwLock); upgrades are KLocks' |
| PoolDone | mpqp.c:727-758, 760-821: the promise of a pool tail call as the queues run it | what a queue's reference leads to is an input; the invocation is one step |
| CloseApi | kernel/iofd.c:496-527, 544-580, 617-714, fileobj.c:69-100, err.h:50-84: what aosl_close and aosl_mpq_del_fd answer | put_fd_f (C197); reference counts are FdTab's; the hand-over to the queue is a success or an error number |
| StatLock | kernel/thread.c:390-507, lib/thread_api.c:81-103, aosl_hal_static_mutex_init of the ports | a platform mutex call is one atomic step; threads use the lock correctly; fini only when nobody is inside a call |
| SockPipe | the socket pair of kernel/osmp.c on platforms without pipes | TCP/UDP loopback delivers |
| Hal | Linux HAL: errno translation, address conversion, resolver, device binding; lib/errno.c strerror | other platforms |

Not modelled: platform directories other than `linux`, except what SockPipe, CondSim, PortThread, PortTime, PortAtomic, PortSock and PortIomp say; version.c; `test/`; build
files. Weak-memory effects, compiler behaviour and the pthread/libc
implementations are outside every model.

## Trusted base

* Lean 4.33.0's kernel. No axioms are added; no proof uses compiled evaluation. The axioms each property theorem depends
  on are listed in the last section (all are among `propext`, `Classical.choice`, `Quot.sound`).
* The correspondence of the models with the C code is by reading (the code is neither built nor run here). Every
  definition cites the lines it transcribes. Linux HAL and LP64 are assumed where a platform matters;
  C55 is also proved for the 32-bit counter layout.
* The models were tested against wrong programs: `seeded/LOG.jsonl` (see there for edits, failing theorems and the theorems that
  were tightened as a result).

## Properties

234 properties: 95 proved, 139 partial. "Status" is the status of the property *as stated*; a partial one is usually false of the code, and then its violation is a theorem.

| Id | Property | Module | Status | Method | Theorems | Note |
|---|---|---|---|---|---|---|
| C01 | RB tree holds exactly the live nodes, in comparator order | RBTree | proved | refinement to a stable sorted list; red-black invariant by induction on the zipper path | `C01_contents` |  |
| C02 | RB tree stays balanced | RBTree | proved | refinement to a stable sorted list; red-black invariant by induction on the zipper path | `C02_balanced` |  |
| C03 | RB tree count is the number of nodes | RBTree | proved | refinement to a stable sorted list; red-black invariant by induction on the zipper path | `C03_count` |  |
| C04 | RB tree lookup is complete and sound | RBTree | proved | refinement to a stable sorted list; red-black invariant by induction on the zipper path | `C04_lookup` |  |
| C05 | RB tree removal affects one node only | RBTree | proved | refinement to a stable sorted list; red-black invariant by induction on the zipper path | `C05_remove`, `C05_erase_replace` |  |
| C06 | RB tree iteration visits successive nodes | RBTree | proved | refinement to a stable sorted list; red-black invariant by induction on the zipper path | `C06_iteration` |  |
| C07 | RB tree traversals visit each node once and stop early | RBTree | proved | refinement to a stable sorted list; red-black invariant by induction on the zipper path | `C07_traverse`, `C07_early_stop` |  |
| C08 | Intrusive list operations keep a well-formed ring | DList | proved | representation predicate for disjoint rings, induction over histories | `C08_rings`, `C08_queries`, `C08_deleted` |  |
| C09 | Packet buffer geometry invariant | Psb | proved | invariant over call histories, refinement to a byte queue | `C09_geometry` | for buffers below 4 GiB: psb_headroom/tailroom return unsigned int |
| C10 | Packet buffer calls are all-or-nothing | Psb | proved | invariant over call histories, refinement to a byte queue | `C10_all_or_nothing` |  |
| C11 | Packet buffer preserves payload bytes | Psb | proved | invariant over call histories, refinement to a byte queue | `C11_payload` |  |
| C12 | aosl_psb_push rejects any length exceeding the headroom | Psb | partial | invariant over call histories, refinement to a byte queue | `C12_push_partial`, `C12_push_escapes`, `C12_push_truncates` | false for lengths >= 2^31 (signed comparison) and >= 2^32 (truncation); the violations are proved |
| C13 | User-supplied buffers are never freed by the library | Psb | partial | invariant over call histories, refinement to a byte queue | `C13_ownership_partial`, `C13_attach_then_free_violates`, `C13_effects` | false when a user buffer is attached to a library psb; the violation is proved |
| C14 | Chain length and list free | Psb | proved | invariant over call histories, refinement to a byte queue | `C14_chain` |  |
| C15 | Bitmap behaves as a set of indices | Bitmap | proved | refinement to a set of indices | `C15_bitmap_set`, `C15_get_at_count` | bitmap_get with index = bit count passes the assertion (off by one); stated as C15_get_at_count |
| C16 | First zero bit search is exact | Bitmap | proved | refinement to a set of indices | `C16_first_zero` |  |
| C17 | Bitmap copy grows without losing bits | Bitmap | proved | refinement to a set of indices | `C17_copy` |  |
| C18 | Handles are unique among live objects | IdTable | proved | invariant over histories | `C18_unique_handles` |  |
| C19 | Stale handles do not resolve | IdTable | proved | invariant over histories | `C19_stale_handles`, `C19_alias_after_65535` | the bound 65535 is tight: C19_alias_after_65535 |
| C20 | Handle table capacity | IdTable | partial | invariant over histories | `C20_capacity_partial`, `C20_capacity_violated` | false as stated: the bitmap size is passed as uint8_t, so at most 248 objects fit whatever the configured maximum; the violation is proved, and success below 248 is proved |
| C21 | Marshal then unmarshal is the identity | Marshal | partial | mutual structural induction over descriptors and values | `C21_marshal`, `C21_unmarshal`, `C21_round_trip_partial`, `C21_sequence_partial`, `C21_uninitialised` | Proved for every descriptor graph (recursive ones too), every value and segmentation, under the assumption that the uninitialised helper_type.is_have is NULL; otherwise undefined behaviour (proved). |
| C22 | Unmarshalling rejects truncated data | Marshal | partial | mutual structural induction over descriptors and values | `C22_truncated_partial` | As C21: assumes the uninitialised helper_type.is_have is NULL. |
| C23 | Unmarshalling is independent of segmentation | Marshal | partial | mutual structural induction over descriptors and values | `C23_segmentation_partial`, `C23_violated` | False for chains with an empty segment behind the first (proved); proved for all others. |
| C24 | Variable-length counts never overflow the receiver's array | Marshal | proved | mutual structural induction over descriptors and values | `C24_capacities`, `C24_refused`, `C24_string_refused`, `C24_unknown` |  |
| C25 | Dynamic array append semantics | DynArray | proved | functional refinement on an explicit heap | `C25_append`, `C25_histories`, `C25_deterministic`, `C25_init` | Explicit heap; allocation failures included. Arguments aliasing the array's own memory are not modelled. |
| C26 | Dynamic string semantics | DynArray | proved | functional refinement on an explicit heap | `C26_strcat`, `C26_strcpy`, `C26_copy`, `C26_strcpy_out`, `C26_strcpy_out_zero`, `C26_failed_strcpy` | buf_sz = 0 overruns (outside the claim, proved); a failing strcpy leaves an empty string whose C text is the old one (proved). |
| C27 | Dynamic array comparison is a total order | DynArray | proved | functional refinement on an explicit heap | `C27_total_order` |  |
| C28 | Timers fire in expiry order, FIFO among equals | Timer | proved | invariants over histories of the timer base | `C28_order`, `C28_nondecreasing`, `C28_no_ub` | Red-black tree and linked list of the timer base modelled; the comparison is unsigned, so a timer with expiry 2^64-1 (see C29_zero_expiry) counts as last. |
| C29 | No timer fires early | Timer | proved | invariants over histories of the timer base | `C29_not_early`, `C29_history`, `C29_zero_expiry` | expire_time 0 passed to aosl_mpq_set_oneshot_timer_on_q is stored as 2^64-1, outside the range of the claim, and fires at once (proved). |
| C30 | One-shot timers fire at most once | Timer | proved | invariants over histories of the timer base | `C30_at_most_once`, `C30_exactly_once` |  |
| C31 | Periodic timers do not drift | Timer | proved | invariants over histories of the timer base | `C31_no_drift`, `C31_lag`, `C31_burst` | The comment at kernel/timer.c:522 says bursts of catch-up calls are avoided; they are not (C31_burst). |
| C32 | Cancelled or killed timers never fire | Timer, TimerRef | partial | invariants over histories of the timer base | `C32_cancel`, `C32_kill_partial`, `C32_kill_race` | False when a reschedule by another thread overlaps the kill (proved); proved for calls executed on the owning queue with nothing in flight. |
| C33 | Timer destructor runs exactly once | TimerRef | proved | transition system of handles, references and queue steps | `C33_dtor_once`, `C33_dead_stays_dead`, `C33_no_fire_before_set`, `C33_oneshot_once`, `C33_callback_not_reentered` |  |
| C34 | Ref object destructor runs exactly once, after the last reference | RefObj | proved | inductive invariant, any number of threads | `C34_no_use_after_free`, `C34_destructor`, `C34_callbacks_may_call` | one object, any number of threads with nested calls, over an abstract read-write lock (C55, C56) |
| C35 | Destroyed ref objects reject read and write | RefObj | proved | inductive invariant, any number of threads | `C35_no_callback`, `C35_once`, `C35_after_delete` | a mark-only destroy may be followed by one successful delete, as documented in the code |
| C36 | Ref object readers and writers exclude each other | RefObj | proved | inductive invariant, any number of threads | `C36_exclusion`, `C36_no_upgrade_abort` | hold callbacks and functions run with asynchronous objects take no lock and are exempt |
| C37 | Object table life cycle: id freed only after destructor | IdTable | proved | invariant over histories | `C37_slot_reuse`, `C37_destructor_once` |  |
| C38 | Queued functions run in FIFO order | Mpq | proved | inductive invariants over all interleavings, ghost log | `C38_fifo`, `C38_call_order` | any number of threads and queues; interleaving model of kernel/mpq.c, one action per critical section |
| C39 | Queued functions run exactly once | Mpq | proved | inductive invariants over all interleavings, ghost log | `C39_at_most_once`, `C39_refused`, `C39_accepted`, `C39_freed`, `C39_progress` | safety for every schedule; the 'eventually' part is that the queue's own thread can always get any accepted function invoked by its own steps alone, and that a freed queue has invoked everything |
| C40 | Queue bound is respected | Mpq | proved | inductive invariants over all interleavings, ghost log | `C40_bound`, `C40_config`, `C40_full`, `C40_room`, `C40_capacity`, `C40_capacity_range` | bound counted from the log: accepted minus retired functions |
| C41 | Synchronous call returns only after execution | Mpq | proved | inductive invariants over all interleavings, ghost log | `C41_after`, `C41_frame`, `C41_inline` |  |
| C42 | Completion functions follow the main function | Mpq | proved | inductive invariants over all interleavings, ghost log | `C42_once`, `C42_after`, `C42_free_only`, `C42_exactly_one`, `C42_local` |  |
| C43 | Functions bound to a destroyed ref are invoked free-only | RefObj | proved | inductive invariant, any number of threads | `C43_free_only`, `C35_no_callback` |  |
| C44 | Destroying a queue drains it | Mpq | proved | inductive invariants over all interleavings, ghost log | `C44_destroyed`, `C44_stale`, `C44_progress` |  |
| C45 | No lost wake-up | Wakeup | proved | inductive invariant + decreasing measure | `C45_no_lost_wakeup`, `C45_kick_arrives`, `C45_never_stuck`, `C45_executed_bounded`, `C45_exit_only_terminated`, `C45_exit_only_destroyed`, `C45_conserved`, `C45_destroy_terminates`, `C45_terminates` | interleaving model of need_kicking/kick_q_count/pipe or event handshake, any number of producers; sequential consistency assumed (the code has full barriers) |
| C46 | Argument limits of the queue calls | Mpq | proved | inductive invariants over all interleavings, ghost log | `C46_limits`, `C46_refused` |  |
| C47 | Pool never exceeds its size | Pool | proved | inductive invariants over all interleavings | `C47_bounded`, `C47_entries`, `C47_least_loaded`, `C47_least_allocated`, `C47_create` | interleaving of pool critical sections and queue steps, any number of threads |
| C48 | Pool tail-queue runs once after all queues | Pool | proved | inductive invariants over all interleavings | `C48_at_most_once`, `C48_after_all`, `C48_invoked` | log-based; queues shrunk away or destroyed in between included; per-queue FIFO execution is taken from the queue model (C38-C42) |
| C49 | Pool usage accounting | Pool | partial | inductive invariants over all interleavings | `C49_free_partial`, `C49_shrink_partial`, `C49_alloc_crashes` | proved for a pool that exists; the public aosl_mpq_alloc/aosl_mpq_free work on gen_pool, which k_mpqp_init never creates: null dereference (C49_alloc_crashes) |
| C50 | Written bytes reach the fd in order, without loss or duplication | IoWrite | partial | refinement to a byte stream | `C50_stream_partial`, `C50_oom_partial`, `C50_oom_torn`, `C50_wire_grows`, `C50_flush`, `C50_drains` | Exact for all histories without allocation failure; with allocation failures only a write reporting ENOMEM can leave a strict prefix of its bytes in the stream (C50_oom_partial), and it does (C50_oom_torn), so the full statement is false |
| C51 | Write queue bound | IoWrite | proved | refinement to a byte stream | `C51_bound`, `C51_refuse`, `C51_accept`, `C51_conservative` | a partially written message counts in full (C51_conservative), so a write can be refused although the unsent bytes leave room; the bound and the refusals hold |
| C52 | Packet reassembly is independent of read boundaries | IoRead | proved | invariant of the read loop, refinement to packet splitting | `C52_lossless`, `C52_packets`, `C52_split_independent`, `C52_prefix` | for check functions that are deterministic, stable under more input and whose packets fit the registered size (Good); C52_lossless holds for every check function |
| C53 | Receive buffer never overflows | IoRead | proved | invariant of the read loop, refinement to packet splitting | `C53_no_overflow`, `C53_sizes` | all sizes, check functions, callbacks and read results |
| C54 | One registration per fd | FdTab | partial | inductive invariant over histories | `C54_single_partial`, `C54_lookup`, `C54_second_refused_partial`, `C54_readd`, `C54_destroyed_once_partial`, `C54_fini_partial`, `C54_orphan`, `C54_fini_spin`, `C54_addfail_uaf` | proved for histories in which no removal through a stale object hits a later registration of the same number (NoStale) and no failing registration frees an object another thread has got (NoHeldAbort); both conditions are needed: C54_orphan, C54_fini_spin, C54_addfail_uaf |
| C55 | Read-write lock excludes writers | RwLock | proved | inductive invariant over atomic steps, any number of threads | `C55_exclusion`, `C55_exclusion_64`, `C55_exclusion_32`, `C55_no_overflow` | raw lock, atomic operations interleaved, fast and slow paths; fewer than 2^32 (2^16 on 32-bit) threads |
| C56 | Upgrading read locks is atomic with respect to other writers | KLocks | proved | inductive invariants over atomic steps | `C56_upgrade_atomic`, `C56_no_writer`, `C56_downgrade_atomic`, `C56_exclusion` | k_rwlock over an abstract raw lock (whose exclusion is C55) |
| C57 | Event semantics | KLocks | partial | inductive invariants over atomic steps | `C57_set_lost`, `C57_pulse_two`, `C57_spurious`, `C57_pulse_not_all`, `C57_set_partial`, `C57_pulse_partial`, `C57_single_partial`, `C57_conserved_partial`, `C57_set_releases_partial`, `C57_no_early_partial` | false in general (four proved counterexamples); holds without pulse on a set event, without spurious wake-ups of the condition variable, and for one waiter |
| C58 | Static lock initialises once | KLocks | partial | inductive invariants over atomic steps | `C58_init_once`, `C58_false_success`, `C58_success_partial`, `C58_conserved`, `C58_stays` | the second half is false when the underlying initialisation fails (proved) |
| C59 | Thread-local values are private and die with the key | Tls | partial | refinement to a map | `C59_refines_partial`, `C59_id_reuse` | holds while thread ids are not reused; a new thread with the id of an ended one sees that one's values (C59_id_reuse) |
| C60 | Library lifecycle reference count | Lifecycle | proved | inductive invariant | `C60_serial`, `C60_exclusive`, `C60_nesting`, `C60_reverse`, `C60_progress` |  |
| C61 | Main queue can be restarted after a failed start | Lifecycle | partial | inductive invariant | `C61_stuck`, `C61_restart_partial`, `C61_results` | false once a creation has failed: every later aosl_main_start fails with EEXIST (C61_stuck); holds in all histories without a failed creation |
| C62 | Memory accounting is exact | Mm | partial | invariant, concrete violating runs | `C62_exact_partial`, `C62_zero_partial`, `C62_no_realloc`, `C62_race`, `C62_tree_choice`, `C62_realloc_zero` | exact for serial histories in which realloc does not reach a pointer another thread re-records; false for the realloc race (C62_race) and realloc to size 0 (C62_realloc_zero) |
| C63 | Byte order conversion is an involution | Words | proved | bit-vector arithmetic | `C63_network_order`, `C63_all_widths`, `C63_bswap_mem` |  |
| C64 | IPv4 text conversion round-trips | Inet | proved | induction over characters | `C64_ipv4_text` |  |
| C65 | IPv6 text conversion round-trips | Inet | proved | induction over characters | `C65_ipv6_round_trip`, `C65_parser_grammar` |  |
| C66 | Address text buffers never overflow | Inet | proved | induction over characters | `C66_bounded_output` |  |
| C67 | IPv4/IPv6 socket address mapping round-trips | NetUtil | proved | case analysis over all addresses | `C67_mapping`, `C67_ipv4_source_reads_beyond` | for IPv6 sources; the API also accepts an AF_INET source and then reads bytes 20..23 (proved, recorded in DESIGN.md) |
| C68 | IPv6 prefix comparison | NetUtil | proved | case analysis over all addresses | `C68_prefix_equal` |  |
| C69 | Network event classification | Route | partial | induction over route events | `C69_events_ipv4`, `C69_events_partial`, `C69_first_check`, `C69_spurious_count_event` | Full for builds without IPv6; with IPv6 a spurious 'count changed' event exists (proved), everything else is exact. |
| C70 | One net event subscriber | Route | proved | induction over route events | `C70_one_subscriber` |  |
| C71 | Interface cache is a map | Netifs | proved | refinement to a map | `C71_cache_is_a_map`, `C71_no_leak` | netifs.c complete; lists as sequences. |
| C72 | User arguments reach the callbacks of *_on_q registrations | OnQ | partial | case analysis, induction over arguments | `C72_user_args_partial`, `C72_invalid_queue`, `C72_connect_loses_last`, `C72_connect_without_args_ub` | Proved for add_fd, listen, add_dgram, add_stream, create_timer, set_timer; false of aosl_mpq_connect_on_q, which loses the last argument and reads out of bounds without arguments (both proved). |
| C73 | Wrap-around comparison is a strict order in a half window | Words | proved | bit-vector arithmetic | `C73_half_window`, `C73_asymmetric` |  |
| C74 | Error convention | Words | proved | bit-vector arithmetic | `C74_return_err`, `C74_return_ptr_err` |  |
| C75 | Asynchronous resolve replies once | OnQ | proved | case analysis, induction over arguments | `C75_resolve_replies_once`, `C75_argument_limit` |  |
| C76 | IPv6 text is canonical | Inet | proved | induction over characters | `C76_canonical_text` |  |
| C77 | Address string API round-trips for both families | Inet | proved | induction over characters | `C77_from_string`, `C77_round_trip`, `C77_small_buffer_untouched` | with a too small buffer the call leaves the buffer unwritten and still returns it (proved as C77_small_buffer_untouched) |
| C78 | Dual-stack sockets reach a destination through the right socket | NetUtil | proved | case analysis over all addresses | `C78_dispatch` |  |
| C79 | IPv6 address classification | NetUtil | proved | case analysis over all addresses | `C79_classification` |  |
| C80 | IPv6 prefix extraction and replacement | NetUtil | proved | case analysis over all addresses | `C80_prefix_bits`, `C80_masked_cmp` |  |
| C81 | Setting the IPv6 prefix of a queue takes effect | NetUtil | partial | case analysis over all addresses | `C81_prefix_in_force_partial`, `C81_special_prefix_ignored` | false for v4-mapped and NAT64 prefixes, which are ignored (violation proved) |
| C82 | Socket address helpers | NetUtil | proved | case analysis over all addresses | `C82_ip_equal`, `C82_port_round_trip`, `C82_dscp` |  |
| C83 | Dual-stack socket life cycle | NetUtil | proved | case analysis over all addresses | `C83_dual_socket_life`, `C83_bind` |  |
| C84 | The route text never overflows the buffer | Route | partial | induction over route events | `C84_def_rt_str_partial`, `C84_def_rt_str_overflow`, `C84_truncated_partial` | False of the code: for every buffer size of at least 2 an overflow exists (proved). Proved when both texts fit. |
| C85 | The reported default route is the kernel's preferred one | Route | partial | induction over route events | `C85_select_partial`, `C85_default_metric_loses`, `C85_max_metric_ignored`, `C85_first_without_metric_partial` | False for entries without metric attribute (metric 0), which lose; proved when every entry carries a metric below the maximum. |
| C86 | Unmarshalled strings are NUL-terminated | Marshal | partial | mutual structural induction over descriptors and values | `C86_terminated_partial`, `C86_unterminated` | False for strings of 65536 bytes and more (proved); proved for shorter ones. |
| C87 | The marshalled form does not depend on the machine | Marshal | partial | mutual structural induction over descriptors and values | `C87_big_endian_partial`, `C87_byte_order` | False of little-endian machines, which send little-endian data (proved). |
| C88 | Dynamic arrays own their memory | DynArray | partial | functional refinement on an explicit heap | `C25_histories`, `C88_no_leak_partial`, `C88_init_with_leaks` | False for init_with of a multiple of 65536 elements (proved); proved for histories where init_with gets less than 65536. |
| C89 | A queue never sleeps past its earliest timer | Timer | proved | invariants over histories of the timer base | `C89_sleep` |  |
| C90 | Killing a timer is safe against concurrent use of its handle | TimerRef | partial | transition system of handles, references and queue steps | `C90_safe_partial`, `C90_uaf` | False: a reschedule that overlaps a kill leaves a freed timer in the timer base (proved); proved when no reschedule reaches the queue after the kill. |
| C91 | A timer's arguments live while its callback runs | TimerRef | partial | transition system of handles, references and queue steps | `C91_partial`, `C91_freed_in_callback` | False when the callback kills its own timer (proved). |
| C92 | Read-write lock loses no wake-up | RwLock | proved | inductive invariant over atomic steps, any number of threads | `C92_no_lost_wakeup`, `C92_downgrade` | same model as C55, with the events of the waiters |
| C93 | Waking a reader does not touch its dead stack | RwLock | partial | inductive invariant over atomic steps, any number of threads | `C93_uaf`, `C93_writer_partial`, `C93_partial` | false in general: C93_uaf is a run that pulses a destroyed event; it holds for writers, and for readers already blocked in the event wait |
| C94 | Lock upgrade aborts only on competing upgrades | KLocks | partial | inductive invariants over atomic steps | `C94_abort`, `C94_partial` | false when an upgraded lock is released with wrunlock (proved); holds if it is given back with wr2rdlock |
| C95 | Condition variable signals reach distinct waiters | KLocks | partial | inductive invariants over atomic steps | `C95_signal_lost`, `C95_broadcast_partial`, `C95_signal_partial`, `C95_no_spurious` | false for signals: two signals can wake one of two waiters (proved) |
| C96 | Self-deadlocks on a ref object are detected | RefObj | partial | inductive invariant, any number of threads | `C96_abort_partial`, `C96_no_false_abort_partial`, `C96_self_deadlock`, `C96_two_upgrades_partial` | false for the write callback: the thread waits for itself forever (proved) |
| C97 | Caller-free objects are freed by the deleting thread | RefObj | proved | inductive invariant, any number of threads | `C97_caller_free` |  |
| C98 | A queue outlives the calls made on it | Mpq | proved | inductive invariants over all interleavings, ghost log | `C98_users` |  |
| C99 | Producers blocked on a full queue are released | Mpq | partial | inductive invariants over all interleavings, ghost log | `C99_no_lost_wakeup_partial`, `C99_not_empty_partial`, `C99_self_deadlock`, `C99_self_deadlock_reached` | No wake-up is lost (proved for every schedule). The full statement is false: a function running on a blocking queue that queues to its own full queue blocks the only thread that could make room, for ever (C99_self_deadlock, reached by a concrete schedule). |
| C100 | Waiting pool shrinks finish | Pool | partial | inductive invariants over all interleavings | `C100_deadlock`, `C100_ends_partial` | fails: two idle timers of a pool of three queues deadlock (C100_deadlock); proved when no pool function itself waits for a shrink |
| C101 | A destroyed pool is not touched | Pool | partial | inductive invariants over all interleavings | `C101_uaf`, `C101_uaf_shrunk`, `C101_destroy_partial` | fails for wait = 0 and for queues still ending from an earlier shrink; proved for a waiting destroy from outside when the others have ended |
| C102 | A registered write function sees every byte | IoWrite | partial | refinement to a byte stream | `C102_bypass`, `C102_queued_partial` | false: the first attempt of a write on an empty queue calls the HAL write directly (C102_bypass); everything queued goes through the registered function |
| C103 | Writes on a connecting socket are held | IoWrite | proved | refinement to a byte stream | `C103_held`, `C103_timeout` | order after establishment: C50_stream_partial, C50_flush |
| C104 | A write that was not performed never reports success | IoWrite | partial | refinement to a byte stream | `C104_positive`, `C104_ran_partial` | false when the call into the fd's queue fails: a positive error number is returned (C104_positive); holds whenever the function ran |
| C105 | Datagrams are delivered one by one, whole and in order | IoRead | partial | invariant of the read loop, refinement to packet splitting | `C105_datagrams_partial`, `C105_truncated`, `C105_spin` | holds for datagrams up to the registered size; larger ones are cut (C105_truncated), and the event loop does not end while reads return 0 (C105_spin) |
| C106 | End of stream is reported exactly once and only at the end | IoRead | partial | invariant of the read loop, refinement to packet splitting | `C106_no_false_eof_partial`, `C106_reported_partial`, `C106_final`, `C106_spurious`, `C106_spurious_reachable`, `C106_repeated` | holds for check functions whose packets fit; an incomplete packet filling the buffer is taken for the end of the stream (C106_spurious), and the end is reported again at every later event (C106_repeated) |
| C107 | No callback after close or removal from within a callback | IoRead | partial | invariant of the read loop, refinement to packet splitting | `C107_close_partial`, `C107_del_continues` | holds for aosl_close; aosl_mpq_del_fd from a callback does not stop the loop (C107_del_continues) |
| C108 | Deleting a TLS key that does not exist is refused without effect | Tls | partial | refinement to a map | `C108_revived`, `C108_broken`, `C108_out_partial` | false for a second delete: it succeeds and corrupts the key bookkeeping (C108_revived, C108_broken); keys out of range are refused |
| C109 | Up to the documented number of TLS keys can exist at once | Tls | partial | refinement to a map | `C109_create_partial`, `C109_limit`, `C109_never_more` | only 240 keys can exist: the 241st create fails (C109_limit); up to 240 keys it holds |
| C110 | aosl_errno belongs to its thread and its memory is released | Errno | partial | inductive invariant over interleavings | `C110_private`, `C110_no_double_free`, `C110_leak`, `C110_freed_partial`, `C110_fini_twice` | the values are private and nothing is freed twice in every interleaving; a block leaks when two first uses race (C110_leak); without such a race all is freed |
| C111 | Allocated blocks have the size asked for | MemApi | partial | arithmetic case analysis | `C111_calloc_partial`, `C111_calloc_overflow`, `C111_strdup` | false for products that overflow size_t (C111_calloc_overflow) |
| C112 | aosl_memdump_r stays in its buffer | MemApi | partial | arithmetic case analysis | `C112_dump_partial`, `C112_one`, `C112_nothing` | false for a buffer of one character (C112_one) and if there is nothing to print (C112_nothing); holds otherwise |
| C113 | A queue's poll ends in time for its earliest timer | WaitTime | partial | arithmetic, induction over interruptions | `C113_exact_partial`, `C113_infinite`, `C113_early`, `C113_sleeps_forever` | Proved for timeouts below 2^31 ms, all interruptions. False beyond: the HAL takes an int, and half of the longer timeouts become 'no timeout' (C113_sleeps_forever). |
| C114 | Timed waits end at their deadline | WaitTime | proved | arithmetic, induction over interruptions | `C114_deadline` | The timespec given to the OS is valid and is exactly now + ms. |
| C115 | A wait reports exactly the events asked for | Iomp | partial | functional characterisation for every readiness | `C115_poll_partial`, `C115_select`, `C115_once`, `C115_junk` | Proved for select, and for poll if the uninitialised events field happens to be zero. False for poll otherwise (C115_junk). |
| C116 | No ready fd starves | Iomp | partial | functional characterisation for every readiness | `C116_served_partial`, `C116_starves` | Proved when at most 64 events are due. False with more: 64 always-ready fds registered first starve the rest (C116_starves). |
| C117 | Errors and hang-ups of an fd are noticed | Iomp | partial | functional characterisation for every readiness | `C117_error_ignored` | False for poll: an fd with only an error makes every wait return at once with no event, so the queue spins (C117_error_ignored). |
| C118 | An idle queue sleeps instead of spinning | Wakeup | proved | inductive invariant + decreasing measure | `C118_idle_sleeps`, `C118_stays_asleep` | On the wake-up model; an fd that is ready but never served (C117) is not part of it. |
| C119 | Accepted output does not get stuck | Arm | partial | inductive invariant | `C119_event_due_partial`, `C119_progress`, `C119_chunks_stall`, `C119_null_stalls`, `C119_null_crashes`, `C119_conserved` | Proved for the default write function in both waiting modes. False for a custom write function that passes on only part of its data in edge-triggered mode (C119_chunks_stall) and for a registration without a write function (C119_null_stalls, C119_null_crashes). |
| C120 | An event reaches the registration it is for | Dispatch | partial | induction over the batch with arbitrary changes in between | `C120_right_partial`, `C120_all`, `C120_wrong_thread`, `C120_wrong_close` | Proved when no fd number of the batch is registered anew during the dispatch of the batch. False with a reused number (C120_wrong_thread, C120_wrong_close). |
| C121 | A queue can wait for a queue it has destroyed | Mpq | partial | inductive invariants over all interleavings, ghost log | `C121_released`, `C121_dterm`, `C121_eintr`, `C121_third_party`, `C121_third_party_reached` | Proved when the queue that waits is the one that calls destroy. False when a third thread destroys the queue while the first one waits for it: destroying wakes only the waiters of the destroyer's own queue (C121_third_party). |
| C122 | The end of a registered fd is announced once and last | IoRead, IoWrite, IoBoth | proved | invariant of the read loop, refinement to packet splitting | `C122_error_last`, `C122_announced`, `C122_read_fails`, `C122_bad_check`, `C122_close`, `C122_close_in_callback`, `C122_write_closed`, `C122_write_error_last`, `C122_write_fails`, `C122_connect_timeout`, `C122_whole_events` | read side and write side are two models of the same fd; C122_close_in_callback assumes no callback unregisters without closing (that case is C123) |
| C123 | Unregistering an fd from its own callback takes effect at once | IoRead | partial | invariant of the read loop, refinement to packet splitting | `C123_goes_on`, `C123_next_event_partial` | FALSE in the code: C123_goes_on: the read loop goes on delivering buffered data and reads the fd number again; _partial: from the next event on nothing happens |
| C124 | A listening socket keeps accepting | IoBoth | partial | invariant of the dispatch on top of IoRead | `C124_listen_dies`, `C124_error` | FALSE in the code: accept's EAGAIN is reported as a platform error, so after each batch the listening socket is announced dead and closed; the pending connections of that batch are delivered |
| C125 | Platform failures are translated faithfully | Hal | proved | exhaustive case analysis over the tables | `C125_translation`, `C125_window`, `C125_connect`, `C125_constants` | Linux errno values; accept is excluded (it has no error code, see C124) |
| C126 | A failed connect is never announced as success | IoBoth, PortIomp | partial | invariant of the dispatch on top of IoRead | `C126_epoll_partial`, `C126_poll_announces_success`, `C126_immediate`, `C126_results`, `darwin_connect_announces_success` | FALSE with poll and select: writability of a failed attempt is announced as success (C126_poll_announces_success); holds with epoll |
| C127 | After aosl_close no callback runs for the fd | IoBoth, IoRead | partial | invariant of the dispatch on top of IoRead | `C127_check_after_close`, `C127_read_after_close`, `C127_partial`, `C122_close`, `C122_close_in_callback`, `C127_closed`, `C127_del`, `C127_hup_after_del` | FALSE: when the ready callback closes the fd and the same event is also readable, check, read and data functions still run; _partial: holds if the close happened before the event or in the read part |
| C128 | Socket addresses cross the platform boundary unchanged | Hal | proved | exhaustive case analysis over the tables | `C128_to_kernel`, `C128_from_kernel`, `C128_reply`, `C128_resolve`, `C128_resolve_bound` | Linux HAL; the resolver part assumes ai_family is the family of ai_addr |
| C129 | aosl_get_sockaddr returns the socket's local address | Hal | partial | exhaustive case analysis over the tables | `C129_wrong_address`, `C129_v6_fails`, `C129_partial` | FALSE: the address of the default-route interface is returned whatever the socket is bound to; IPv6 sockets always fail; the port is right |
| C130 | aosl_bind_device binds to the named device or fails | Hal | partial | exhaustive case analysis over the tables | `C130_other_device`, `C130_partial`, `C130_empty_partial` | FALSE for names longer than 15 characters: they are cut and may name another device |
| C131 | Every error code has its own description | Hal | partial | exhaustive case analysis over the tables | `C131_unnamed`, `C131_names_partial`, `C131_distinct_partial` | FALSE for EHAL and EWOULDBLOCK, which have no name; all others are exact |
| C132 | Calls on a ref object never deadlock each other | RefObj | proved | inductive invariant, any number of threads | `C132_no_deadlock` | calls made from inside the object's own callbacks are the subject of C96 |
| C133 | Try and timed calls report their outcome as documented | ThreadApi | partial | case analysis, transition systems | `C133_lock_inverted`, `C133_two_inside`, `C133_rd_inverted`, `C133_wr_inverted`, `C133_timeout_positive`, `C133_static_partial`, `C133_lock_result_partial`, `C133_exclusion_partial`, `C133_timed_partial`, `C133_wr_excludes`, `C133_event_zero` | FALSE in the code: the three lock try calls return 1 for success and 0 for failure, the opposite of the documentation (two threads that follow it are inside together, C133_two_inside); time-outs and busy static locks are positive. Proved: the actual results, and exclusion for threads that take 1 for success |
| C134 | aosl_rwlock_trywrlock does not block | ThreadApi | partial | case analysis, transition systems | `C134_blocks`, `C134_prompt_partial` | FALSE in the code: the call waits for the internal mutex, which a writer holds for as long as it has the lock; prompt if no thread writes or upgrades |
| C135 | Starting a thread works or fails visibly | ThreadApi | partial | case analysis, transition systems | `C135_safe_partial`, `C135_progress_partial`, `C135_bounded`, `C135_hangs`, `C135_would_show` | FALSE when pthread_create fails: its positive error is taken for success and the creator waits for ever (C135_hangs); everything holds when the thread can be created |
| C136 | Identity strings stay in their buffer | SysApi | proved | arithmetic and case analysis | `C136_in_buffer`, `C136_uuid` |  |
| C137 | aosl_rand_bytes fills the whole buffer | SysApi | partial | arithmetic and case analysis | `C137_filled_partial`, `C137_truncated` | FALSE from 2^32 on: the length is cut to int and success is reported for the low part (C137_truncated); holds below 2^31 |
| C138 | File results are exact | SysApi | partial | arithmetic and case analysis | `C138_size_partial`, `C138_looks_failed`, `C138_wrong_size`, `C138_count_partial`, `C138_mkdir_on_file`, `C138_mkdir_partial`, `C138_failures` | FALSE from 2 GiB on, and for aosl_mkdir on an existing regular file |
| C139 | aosl_msleep sleeps at least as long as asked | SysApi | partial | arithmetic and case analysis | `C139_sleep_partial`, `C139_short`, `C139_one_more` | FALSE for every duration above 4294967 ms (usleep takes 32 bits); exact below |
| C140 | Clocks and the text of the time | SysApi | partial | arithmetic and case analysis | `C140_tick_partial`, `C140_sec`, `C140_time_str`, `C140_digits`, `C140_tick_us_stopped`, `C140_ranges`, `C140_year_10000` | FALSE for aosl_tick_us, which is always 0; the rest is proved (clock below 2^54 s, years up to 9999) |
| C141 | Atomic operations do what they say under concurrency | SysApi | proved | arithmetic and case analysis | `C141_calls`, `C141_last_reference`, `C141_one_winner` | calls are atomic (the HAL uses sequentially consistent builtins); 64-bit intptr_t |
| C142 | Log messages are filtered exactly | SysApi | proved | arithmetic and case analysis | `C142_messages`, `C142_range` |  |
| C143 | Thread priority classes are ordered | SysApi | proved | arithmetic and case analysis | `C143_ordered`, `C143_range_22` | for non-negative ranges; a range that begins or ends at 22 is refused as if it were EINVAL (C143_range_22) |
| C144 | Everything an event reports is served | IoBoth | proved | invariant of the dispatch on top of IoRead | `C144_served` | one event of one fd whose callbacks leave it open; events with an error are C126, callbacks that close are C122 and C127 |
| C145 | Fds that were accepted do not bring the process down | Iomp | partial | functional characterisation for every readiness | `C145_waits_partial`, `C145_poll_aborts`, `C145_select_overflows` | FALSE with poll (more than 1024 fds end the process) and with select (an fd number from 1024 on is written outside the set); holds with epoll and within these limits |
| C146 | Queues can be created as long as the system has resources | SockPipe | partial | invariant over histories | `C146_at_most_25`, `C146_create_partial`, `C146_refused`, `C146_leaks` | FALSE: at most 25 queues at a time, a creation can fail with one queue alive, and a failure can leave a socket open; what decides success is proved |
| C147 | The default route reported is the system's | Netlink | partial | refinement of the byte parser to lists of messages; invariants for arbitrary bytes | `C147_one_datagram`, `C147_done_inside`, `C147_last_decides_partial`, `C147_any_dump_partial`, `C147_spans_datagrams`, `C147_other_family` | proved for dumps in one datagram and when the last datagram decides; existence and number for all dumps; false in general: the pointers kept across recv calls point into overwritten data (witness), and routes of the other family are accepted (witness) |
| C148 | Malformed messages cannot make the monitor read or write outside its buffers | Netlink | partial | refinement of the byte parser to lists of messages; invariants for arbitrary bytes | `C148_attributes`, `C148_links`, `C148_route_partial`, `C148_route_short`, `C148_gateway_overflow`, `C148_name_unterminated` | attribute parser and link dump: proved for all bytes; route dump: at most 8 bytes too far; witnesses for the read past a short route message, the gateway overflow and the unterminated name |
| C149 | The interface table is what the kernel reported | Netlink | proved | refinement of the byte parser to lists of messages; invariants for arbitrary bytes | `C149_link_dump` | refinement of the byte parser to the interface map (uses C71) |
| C150 | Every route notification is acted upon | Netlink | partial | refinement of the byte parser to lists of messages; invariants for arbitrary bytes | `C150_notifications_partial`, `C150_unpadded` | proved for padded messages (what the kernel sends); an unpadded last message makes the unsigned length wrap and the loop run on, possibly for ever (witness) |
| C151 | The monitoring socket is closed exactly once | Netlink | partial | refinement of the byte parser to lists of messages; invariants for arbitrary bytes | `C151_closed_once_partial`, `C151_double_close`, `C151_stale_descriptor` | proved when the socket can always be set up; double close on failure and a stale descriptor after a failed recreation (witnesses) |
| C152 | Initialising and finalising a typed object frees nothing | MarshalMem | proved | invariant by induction over types and wire, refinement to an ownership relation | `C152_init_fini`, `C152_fini_twice`, `C152_init_zero`, `C152_fini_empty` | ownership invariant over cell trees; needs get_type_size to return (Sane) |
| C153 | A received object is freed completely, once | MarshalMem | partial | invariant by induction over types and wire, refinement to an ownership relation | `C153_no_leak_partial`, `C153_rounds_partial`, `C153_violated_optional`, `C153_violated_string`, `C153_reuse_leaks` | false for optional pointer fields inside allocated objects (uninitialised pointer freed) and for DYNAMIC_STRINGs of 65535 bytes (leak); proved otherwise |
| C154 | A failed receive can be cleaned up | MarshalMem | partial | invariant by induction over types and wire, refinement to an ownership relation | `C154_failed_receive_partial`, `C154_violated`, `C154_violated_ptr`, `C154_violated_var`, `C154_leaked` | false: finalising after a truncated message frees uninitialised pointers (witnesses for dynamic arrays, pointers, var arrays); proved when allocated objects contain no pointers |
| C155 | The received value is what memory holds | MarshalMem | proved | invariant by induction over types and wire, refinement to an ownership relation | `C155_memory`, `C155_received` | refinement of the memory model to the value model of C21-C24 (which assumes the uninitialised helper_type.is_have to be NULL) |
| C156 | A post-order walk may erase and free the node it is given | RBWalk | partial | induction over trees and the pointer graph | `C156_post_order`, `C156_reachable`, `C156_visits_root`, `C156_all_when_unchanged`, `C156_pre_order_unsafe`, `C156_in_order_unsafe`, `C156_cleanup_partial`, `C156_cleanup_leaves_idle`, `C156_skips`, `C156_idle_exact`, `C156_small` | Memory safety, termination, exact contents and validity of the tree hold for every tree and callback. That a cleanup frees every idle record is false of the code (C156_cleanup_leaves_idle: 15 of 65); the clock is read once per walk in the model. |
| C157 | A thread's lock bookkeeping on a reference object is never lost | RefNode | partial | inductive invariant over histories | `C157_safe_partial`, `C157_exact_partial`, `C157_kept_partial`, `C157_no_leak_partial`, `C157_cleanup_condition`, `C157_month`, `C157_uaf`, `C157_flags` | Proved for all schedules in which no thread is suspended for a minute between finding its record and letting go of it; without that assumption a freed record is read (C157_uaf). Records idle for 25 to 49 days are not collected (C157_month). |
| C158 | The subscription to network events ends with its queue | NetSub | partial | inductive invariant over histories | `C158_disciplined_partial`, `C158_stuck`, `C158_lost`, `C158_foreign`, `C158_recover`, `C158_running`, `C158_grant` | Holds in every history in which the subscribed queue unsubscribes before it ends and before shutdown. Otherwise it is false of the code: nobody can subscribe or unsubscribe any more (C158_stuck), interface records leak (C158_lost), a foreign descriptor can be closed (C158_foreign). |
| C159 | The handle a pool call returns is the handle of the queue it chose | QHandle | partial | bit-vector arithmetic on top of the invariant of IdTable | `C159_direct`, `C159_pool_partial`, `C159_pool_broken`, `C159_after_32767`, `C159_main_partial`, `C159_main_starting` | True of the handles the queue calls return, and of those the pool calls return with 32-bit pointers or for the first 32767 queues; false of the code with wider pointers for later queues (C159_pool_broken): the value is sign-extended from an int and no longer resolves. |
| C160 | A running function can ask for its own arguments, data, completion queue and object | RunQuery | partial | mutual induction over nested invocations | `C160_answers_partial`, `C160_restored`, `C160_null_args`, `C160_null_data` | True for every nesting of invocations that have a pointer to their arguments; false of the code for synchronous calls without arguments or data (C160_null_args, C160_null_data), which are told EPERM as if no function were running. |
| C161 | Measured times are the times that passed | RunQuery | partial | mutual induction over nested invocations | `C161_logic_partial`, `C161_costs_zero`, `C161_perf_wrong` | The arithmetic is right for a working microsecond clock (C161_logic_partial); false of the code because aosl_tick_us always returns 0: costs are always 0, the execution time reported is always 0 and the waiting time is minus the time of queueing. |
| C162 | The idle check of a pool ends idle queues only | PoolIdle | partial | refinement to a list function, counterexample | `C162_taken_partial`, `C162_empties`, `C162_busy_taken`, `C162_events_ignored`, `C162_size` | The idle seconds are counted exactly and a check takes queues only after that time, but it is false of the code that the queues taken are the idle ones: the newest queue is taken (C162_busy_taken), and events and timers do not count as work (C162_events_ignored). |
| C163 | Waiting for the end of a queue returns exactly when it has ended | QWait | proved | inductive invariant over all interleavings, termination measure | `C163_safe`, `C163_not_stuck`, `C163_terminates`, `C163_all_return`, `C163_admission` | mpq.c:799-998, 1639-1764 |
| C164 | Creating a queue answers truthfully and safely | QWait | partial | inductive invariant over all interleavings, termination measure | `C164_partial`, `C164_answer`, `C164_result`, `C164_uaf` | the creating call reads the handle from the queue object without a reference: false when the queue ends at once (C164_uaf); holds when nobody asks for the end before the creating call has read the handle |
| C165 | The flags of a queue can be changed without harming it | QFlags | partial | bitwise induction over changes; inductive invariant over interleavings | `C165_partial`, `C165_exact`, `C165_create`, `C165_protection`, `C165_wakeup`, `C165_bad_op`, `C165_negative` | false of the code for changes of other bits than NONBLOCK: protection and wake-up flag can be changed, unknown operations are accepted, protected flags look like errors |
| C166 | The performance callback of a running queue never changes | QFlags | proved | bitwise induction over changes; inductive invariant over interleavings | `C166_constant`, `C166_stable`, `C166_answer` |  |
| C167 | Making a timer works the same on the current and on a given queue | TimerApi | partial | case analysis over all arguments; induction over histories | `C167_current`, `C167_on_q_partial`, `C167_many_args`, `C167_zero_expiry` | the _on_q calls refuse 60 (61) to 64 user arguments and accept the time 0 |
| C168 | Rescheduling with the same interval keeps it | TimerApi | partial | case analysis over all arguments; induction over histories | `C168_sequential_partial`, `C168_keep_lost`, `C168_oneshot_lost` | false for overlapping calls: the interval is read on the caller's thread |
| C169 | The handle of a timer made on another queue is read from an existing timer | TimerApi | partial | case analysis over all arguments; induction over histories | `C169_partial`, `C169_uaf`, `C169_end` | false if the timer is killed by its callback, or its queue ends, before the making call has returned |
| C170 | A thread's own queue lives until its loop returns | CurQ | partial | inductive invariant over histories; induction over events | `C170_partial`, `C170_stable`, `C170_nested`, `C170_orphan`, `C170_this_destroyed`, `C170_this_destroyed_none` | proved without nested loops; a nested aosl_mpq_loop uses the queue after it was freed; a thread that ends without a loop leaves its queue behind |
| C171 | The execution counters count what was executed | CurQ | partial | inductive invariant over histories; induction over events | `C171_exact`, `C171_partial`, `C171_kicks`, `C171_lag` | wake-ups are counted as descriptor events, synchronous calls on the queue itself are not counted, a running batch is counted when it is finished |
| C172 | Waking waiters wakes the right number of them | CondSim | partial | inductive invariant, counting argument over histories | `C172_accounting_partial`, `C172_timeout`, `C172_broadcast_partial`, `C172_signal_partial`, `C172_signal_stolen`, `C172_broadcast_lost`, `C172_left_over`, `C172_ticks`, `C172_zero_forever` | proved as long as nobody starts waiting after the wake-up; otherwise a late comer takes it |
| C173 | Threads can be started and ended over and over | PortThread | partial | inductive invariants over all interleavings; exact counting | `C173_windows_safe`, `C173_windows_released`, `C173_windows_detach`, `C173_windows_exit`, `C173_xr872`, `C173_tw82x_limit`, `C173_tw82x_exact`, `C173_ac791n_leak`, `C173_ipro7_partial`, `C173_ipro7_double_free`, `C173_ipro7_uaf` | true on windows (threads that return) and xr872; tw82x starts 32 threads in all, ac791n leaks, ipro7 races |
| C174 | Each thread has its own identity | PortThread | partial | inductive invariants over all interleavings; exact counting | `C174_windows`, `C174_xr872_partial`, `C174_xr872_foreign`, `C174_ac791n_exact`, `C174_ac791n_clash` | true on windows and for the library's threads on xr872; false for foreign threads on xr872 and after 16 threads on ac791n |
| C175 | A thread gets the stack asked for | PortTime | partial | arithmetic over all numbers | `C175_asked`, `C175_rtos_exact`, `C175_cut`, `C175_fixed` | true on windows, asr1606, tw82x, ac791n; cut to 16 bits on esp32, rtl8713, xr872; ignored on bk725x, ipro7, spreadtrum |
| C176 | Time-outs and sleeping mean what they say on every port | PortTime | partial | arithmetic over all numbers | `C176_windows_partial`, `C176_windows_cut`, `C176_rtos_partial`, `C176_rtos_cut`, `C176_spreadtrum`, `C176_ac791n`, `C176_ac791n_zero`, `C176_deadline`, `C176_negative`, `C176_realtime_partial`, `C176_realtime_set`, `C176_sleep_rtl`, `C176_sleep_ac`, `C176_sleep_windows` | exact conversions within stated ranges; false for long times (windows, rtl8713, xr872), for 0 (ac791n) and when the clock is set (real-time deadlines) |
| C177 | The tick never runs backwards and timers fire on every port | PortTime | partial | arithmetic over all numbers | `C177_exact_partial`, `C177_timer_partial`, `C177_wraps`, `C177_never_32`, `C177_never_xr872` | true up to the limit of each port's counter; false beyond: the tick starts again and timers set before the limit never fire |
| C178 | Atomic operations are atomic on every port | PortAtomic | partial | linearisation: inductive invariant over all interleavings, replay | `C178_intrinsics`, `C178_exclusive`, `C178_progress`, `C178_last`, `C178_tw82x_value`, `C178_tw82x_alone_partial`, `C178_tw82x_twice`, `C178_tw82x_same` | proved for all ports but tw82x, whose add, sub, inc and dec are two accesses: results are wrong when threads overlap (the value is not) |
| C179 | A resolved host name gives whole addresses on every port | PortSock | partial | induction over the results; case analysis over ports | `resolves_right_partial`, `addrinfo_resolve`, `spreadtrum_resolve`, `asr1606_resolve`, `addrinfoTmp_resolve_v4build`, `addrinfoTmp_resolve_v4only`, `addrinfoTmp_overruns`, `addrinfoTmp_not_right`, `rtl8713_resolve`, `rtl8713_counts_unset`, `xr872_resolve`, `xr872_not_right`, `ac791n_resolve`, `ac791n_keeps_port`, `filled_rest`, `ac791n_gives_up` | FALSE on bk725x, ipro7, tw82x with IPv6 (stack overrun at the first IPv6 address that fits), and on xr872, rtl8713, ac791n for families they do not handle; proved on the others and for IPv4 answers everywhere |
| C180 | What a socket call reports as done has been done on every port | PortSock | partial | induction over the results; case analysis over ports | `honest_ports_partial`, `refused_changes_nothing`, `dscp_refused`, `bind_device_ignored`, `dscp_ignored`, `xr872_family`, `ipro7_loopback_open`, `ac791n_bind_v6`, `not_honest`, `device_bound_or_refused` | true on darwin, esp32 and harmony; false on every other port (not_honest), in the ways the other theorems name |
| C181 | A connect under way is waited for, a failed one reported, on every port | PortSock | partial | induction over the results; case analysis over ports | `connects_right_partial`, `spreadtrum_connect_fails`, `spreadtrum_not_right`, `failure_is_negative`, `again_is_told_apart`, `intr_is_told_apart`, `no_reason_is_success`, `connect_result`, `codes` | true on every port but spreadtrum, where a connect under way is a failure; a failure without a reason is reported as success |
| C182 | The wait of a queue lasts as long as asked on every port | PortIomp | partial | arithmetic; refinement of the filter set by induction over histories | `tv_right_partial`, `kq_right_partial`, `sprd_zero_or_forever`, `sprd_not_right`, `sprd_positive_partial` | true on every port but spreadtrum, where waiting for ever and not waiting are one call and times are cut to 100 ms |
| C183 | The poller watches exactly the registered fds on macOS and iOS | PortIomp | partial | arithmetic; refinement of the filter set by induction over histories | `agrees_partial`, `agrees_false`, `add_exact`, `del_clean_iff`, `del_others`, `writeonly_stays`, `refused_add_stays`, `mod_stays`, `report_faithful`, `darwin_half_close_closes`, `linux_half_close_stays` | true for fds that are read; an fd registered for writing only stays watched, a registration refused for writing leaves reading watched |
| C184 | The memory dump shows exactly what is held, by call site | MmPos | proved | refinement: the table is a function of the live blocks, by induction over histories | `C184_table`, `C184_used`, `C184_dump`, `C184_off`, `C184_none_left`, `C184_order`, `C184_total`, `C184_ignored` | calls one at a time; the realloc race and realloc to size 0 are C62 |
| C185 | Callbacks see their own queue as the current one | QEnd | partial | invariant over the lives of the thread; negation for the end | `C185_this_partial`, `C185_not_at_end` | proved for every callback but two; false of the code for timer destructors run at the end of the queue and for fini after a failed creation (proved) |
| C186 | What callbacks make is cleaned up when their queue ends | QEnd | partial | invariant over the lives of the thread; negation for the end | `C186_accounting`, `C186_clean_partial`, `C186_orphan`, `C186_orphan_fini` | exact accounting; holds when the callbacks at the end make nothing; false of the code otherwise (proved) |
| C187 | A static lock excludes, from its first use, on every port | StatLock | partial | invariant over interleavings; witnesses for the ports where it fails | `C187_excludes_partial`, `C187_result_partial`, `C187_no_deadlock_partial`, `C187_false_bad_ports`, `C187_false_first_lock`, `C187_false_tw82x`, `C187_false_gives_up`, `C187_seven_ports_partial`, `C187_fini_partial`, `C187_init_any_time_partial` | proved for the ports whose static initialiser makes a mutex in place, as long as making it does not fail; false on asr1606, rtl8713, spreadtrum and ipro7, on tw82x when making the mutex fails, and lock can return without the lock after 100 looks at a first use under way (all proved) |
| C188 | init and fini of a queue decide what runs | QEnd | proved | invariant over the lives of the thread; negation for the end | `C188_failed_init`, `C188_runs_on`, `C188_fini_once` |  |
| C189 | A text becomes the socket address it names, and back | SkAddr | proved | refinement to a byte layout; round trip | `C189_v4`, `C189_v6`, `C189_refused`, `C189_round_trip`, `C189_equal`, `C189_other_family` |  |
| C190 | The debugging allocator of a port reports what there is | PortMem | partial | invariant over histories; witnesses | `C190_counts_partial`, `C190_failed_realloc`, `C190_huge`, `C190_header`, `C190_realloc_partial` | proved as long as no realloc fails and sizes leave room for the header; a failed realloc takes the block off the report and the next call with it fails the assertion; a size within 16 of 2^32 gives a block smaller than its header (both proved) |
| C191 | calloc gives all the bytes asked for or nothing | PortMem | partial | invariant over histories; witnesses | `C191_calloc_partial`, `C191_overflow`, `C191_ten_ports_partial` | proved where the product is a size_t and, always, on the ports that leave the product to the platform; false on bk725x, rtl8713 and spreadtrum when the product overflows (proved) |
| C192 | Calls between queues come back unless queues wait for each other in a circle | Mpq | proved | inductive invariants over all interleavings, ghost log | `C192_bounded`, `C192_settles`, `C192_back_or_circle`, `C192_ordered`, `C192_circle`, `C192_circle_reached`, `C192_full_circle`, `C192_full_circle_reached` | for every history of the queue model: the internal work is bounded, every history settles, and in a settled state a call that has not come back is part of (or waits for) a circle of queues; circles are reachable (proved) |
| C193 | Making a queue is all or nothing | QMake | partial | invariant over histories of create and destroy (permutations of the handles); witnesses for the false parts | `C193_histories_partial`, `C193_failed_partial`, `C193_made`, `C193_leak`, `C193_twice` | all histories and all failures but one; false of the code when the second socket of a wake-up pair cannot be made: the first one stays open (proved) |
| C194 | A create call that fails says why | QMake | partial | invariant over histories of create and destroy (permutations of the handles); witnesses for the false parts | `C194_says_why_partial`, `C194_priority`, `C194_silent`, `C194_codes` | false of the code: bad priorities leave aosl_errno as it was; no memory, no pipe and no event set it to 0 (proved) |
| C195 | fini is called for every create | QMake | partial | invariant over histories of create and destroy (permutations of the handles); witnesses for the false parts | `C195_fini_partial`, `C195_not_called` | holds once the thread runs; false of the code for refused arguments and threads that cannot be started (proved) |
| C196 | Destroyed queues end | Mpq | proved | inductive invariants over all interleavings, ghost log | `C196_ends`, `C196_all_end`, `C196_circle_never` | in every state in which the library's own steps are exhausted (C192 proves that such a state is always reached) a destroyed queue has ended, or its thread waits for a queue; a circle of synchronous calls never ends |
| C197 | A registration call answers truthfully and leaves nothing behind | FdReg | partial | invariant over histories; induction over what happens to the fd; witnesses for the false parts | `C197_current_partial`, `C197_other_queue_partial`, `C197_succeeds`, `C197_positive`, `C197_invalid_fd`, `C197_fd_changed`, `C197_too_many`, `C197_connect_on_q`, `C197_reasons` | all histories, failures and arguments with an fd other than -1; false of the code for fd -1, for add_fd_on_q refused by the queue, and for the mode of the fd (proved) |
| C198 | The time-out of a connect comes when it is due, once, and only then | FdReg | partial | invariant over histories; induction over what happens to the fd; witnesses for the false parts | `C198_only_late`, `C198_comes_partial`, `C198_never` | never early, at most once, after every history; comes if the timer can be made; false of the code when it cannot (proved) |
| C199 | A device id is 32 hex digits within its buffer on every port | PortUtilProps | partial |  | `C199_port_id_partial`, `C199_rtl_ends_exactly_partial`, `C199_rtl_hangs`, `C199_darwin_partial`, `C199_darwin_overflows`, `C199_violated`, `C199_size_zero`, `C199_small_refused` | proved for all ports but darwin and rtl8713; on these two false of the code (proved), with the exact sizes and clock values for which it fails |
| C200 | Device ids tell devices apart | PortUtilProps, PortUtil | partial |  | `C200_bytes_partial`, `C200_version4_partial`, `C200_words_partial`, `C200_chip_partial`, `C200_esp_words_partial`, `C200_ac_partial`, `C200_tw82x_same`, `C200_sprd_same`, `C200_asr_same`, `C200_ipro7_same`, `C200_violated`, `C200_ac_form` | per port, what the id tells apart; false of the code on tw82x, asr1606, ipro7 and four spreadtrum chips (proved) |
| C201 | Random bytes fill exactly the buffer on every port | PortUtilProps | partial |  | `C201_fills_partial`, `C201_truncated`, `C201_violated` | all lengths below 2^31; false of the code for lengths of 2^32 and more, which are cut to int (proved) |
| C202 | File and directory calls answer truthfully on every port | PortFile | partial | invariant (the tree stays a tree), effect of each call on every path, induction over chunks and over nested directories; witnesses for the false parts | `C202_tree`, `C202_posix_partial`, `C202_asr_partial`, `C202_asr_files`, `C202_asr_rmdir_file`, `C202_mkdir_file`, `C202_ac_partial`, `C202_ac_rename_stays`, `C202_create_empties`, `C202_xr_exist_inverted`, `C202_xr_mkdir_never`, `C202_xr_partial`, `C202_stub_nothing`, `C202_violated`, `C202_size` | per port what holds of all trees and histories; false of the code on every port in the cases named (proved) |
| C203 | What is written to a file is read back | PortFile | partial | invariant (the tree stays a tree), effect of each call on every path, induction over chunks and over nested directories; witnesses for the false parts | `C203_write_read`, `C203_append_partial`, `C203_xr_append_denied`, `C203_xr_violated`, `C203_stub`, `C203_open_creates`, `C203_wrong_direction` | writing: all ports with streams; appending: all but xr872, where it is false of the code (proved) |
| C204 | Removing a directory with all in it ends and stays inside | PortFile | partial | invariant (the tree stays a tree), effect of each call on every path, induction over chunks and over nested directories; witnesses for the false parts | `C204_removes_tree_partial`, `C204_endless`, `C204_violated_endless`, `C204_violated_beside`, `C204_others_refuse` | all trees whose printed paths have at most 259 characters; false of the code beyond (proved) |
| C205 | The wall clock on every port | PortClock | partial | the time of day and its text as functions of the system clocks; one statement per port, shown to hold exactly for the ports listed; digits by the base-10 recursion of Nat.toDigits | `tells_time_partial`, `tells_time_iff`, `tick_ports_ignore_the_clock`, `no_clock_is_zero`, `time_monotone`, `tick_value` | Proved exactly for linux, darwin, esp32, harmony, tw82x, windows and xr872 (tells_time_iff); ac791n, asr1606, bk725x, ipro7, rtl8713 and spreadtrum give the tick, which does not depend on the clock (proved). |
| C206 | The text of the time on every port | PortClock | partial | the time of day and its text as functions of the system clocks; one statement per port, shown to hold exactly for the ports listed; digits by the base-10 recursion of Nat.toDigits | `right_partial`, `right_iff`, `closed_in_bounds`, `text_exists`, `no_date`, `ac791n_null`, `negative_length`, `windows_negative_length`, `year_10000`, `tick_text` | Proved exactly for the seven ports with a calendar, years 0 to 9999 (right_iff); the others write a number or the uptime; ac791n stores through a null pointer, a negative length overruns the buffer, from the year 10000 a digit is lost (all proved). |
| C207 | Accept on every port | PortIo | partial | induction over the rounds of the accept loop; case analysis over the ports; induction over the interfaces; universal refutations for the ports that are wrong | `C207_real_partial`, `C207_ends_partial`, `C207_violated_invented`, `C207_violated_never_told` | Proved for all ports but ac791n, asr1606 and tw82x, where it is false of the code (proved: the pass never ends). |
| C208 | Addresses to and from the system on every port | PortIo | partial | induction over the rounds of the accept loop; case analysis over the ports; induction over the interfaces; universal refutations for the ports that are wrong | `C208_to_system_partial`, `C208_from_system_partial`, `C208_answer_partial`, `C208_violated_scope`, `C208_violated_length`, `C208_violated_no_v6`, `C208_violated_stale`, `C208_other_families`, `C208_v4_rest` | Proved for IPv4 on all ports and for IPv6 where it is converted, but for asr1606 (scope) and xr872 (length); false of the code there and where IPv6 is not converted (proved). |
| C209 | The address of a socket on every port | PortIo | partial | induction over the rounds of the accept loop; case analysis over the ports; induction over the interfaces; universal refutations for the ports that are wrong | `C209_port`, `C209_answers`, `C209_whose_partial`, `C209_found`, `C209_violated_never`, `C209_violated_default`, `C209_violated_esp32`, `C209_violated_zero`, `C209_esp32_fallback` | Port and family on all ports, the default interface on rtl8713 and xr872; false of the code on the others (proved). |
| C210 | Priority classes on every port | PortPrio | partial | case analysis over ports and classes with the ranges of the system as variables | `C210_refused`, `C210_strict_partial`, `C210_tw82x_partial`, `C210_rr_partial`, `C210_violated_ignored`, `C210_violated_denied`, `C210_violated_narrow`, `C210_default`, `C210_ignored_value` | Proved for ac791n, rtl8713, windows, xr872, for tw82x under an order of the SDK's constants, and for darwin and harmony with a range of at least 11 and permission; false of the code on the others and in narrow ranges (proved). |
| C211 | Log lines on every port | PortPrio | partial | case analysis over ports and classes with the ranges of the system as variables | `C211_whole_partial`, `C211_prefix`, `C211_violated_cut` | Proved for all ports that print directly and for lines of up to 511 characters; false of the code for longer lines on the ports with a buffer (proved, exactly which). |
| C212 | The subscriber knows the network | RouteKnow | proved | simulation invariant between the two buffers, the specification of the network and what the subscriber keeps, by induction over histories; a second invariant for the flags | `C212_subscriber_knows`, `C212_order` |  |
| C213 | Mobile network | RouteKnow | proved | simulation invariant between the two buffers, the specification of the network and what the subscriber keeps, by induction over histories; a second invariant for the flags | `C213_mobile`, `C213_unreported` | C213_unreported: the flag is not part of the comparison that produces events. |
| C214 | Pool calls return | PoolInit | partial | invariant over steps, induction over the rank of pools, decreasing cost for termination, permanence of the deadlock by invariant | `C214_progress_partial`, `C214_finish_partial`, `C214_self_use`, `C214_closed`, `C214_dichotomy`, `C214_exclusive` | False in general: a call that creates a queue of a pool whose init function uses the same pool never returns (C214_self_use, for every history and schedule), because the pool's lock is held while the init function runs. Proved for pools that can be ranked so that init functions use pools of smaller rank only. Waiting for a queue's end is C100. |
| C215 | The prefix a queue reports can be read | PrefixGet | partial | refinement to the prefix in force, invariant over the blocks by induction over histories | `C215_prefix_partial`, `C215_follows_partial`, `C215_memory`, `C215_violated_whole`, `C215_violated_dangling` | Proved for the first 96 bits. False of the whole address: only 12 of its 16 bytes are allocated (C215_violated_whole, every history), and an older pointer dangles after a reset (C215_violated_dangling). |
| C216 | Resolving a name does not redirect other destinations | DnsPrefix | partial | induction over histories and answers | `C216_untouched_partial`, `C216_violated`, `C216_violated_sends`, `C216_reset` | False: every ordinary IPv6 address in an answer becomes the queue's NAT64 prefix, and IPv4 destinations are mapped into that host's /96 network (C216_violated, all histories). Proved without IPv6 and when no answer has an ordinary IPv6 address. |
| C217 | Encoded integers are in network byte order | EncInt | partial | bytes of the encoded words compared with digits; extensionality on bytes; universal statement about a pair of machines | `C217_roundtrip`, `C217_network_partial`, `C217_little`, `C217_violated`, `C217_between` | False on little-endian machines: encoding is the identity there (exact condition C217_little; C217_violated; between machines C217_between). Proved: the round trip everywhere and network order on big-endian machines. |
| C218 | A part of a dynamic array or string can be added or assigned to it | DynSelf | partial | frame lemma for the reallocation; exact condition for undefined behaviour, otherwise equality with the operation on values | `C218_append_partial`, `C218_other`, `C218_assign_partial`, `C218_strcat_partial`, `C218_strcpy_partial`, `C218_violated` | False: appending a part reads freed memory exactly when the array must grow, assigning an own part overlaps exactly when it starts before its own length (exact conditions proved for arrays, buffers and strings; witness C218_violated). Proved for every other case and for parts of other arrays. |
| C219 | Queueing into a pool comes to an end | PoolFull | partial | invariants over all histories; a decreasing potential; a quiescence argument under the hypothesis of fewer callers than the limit; universal refutation for every limit | `C219_stuck`, `C219_violated`, `C219_one`, `C219_bounded`, `C219_returns_partial`, `C219_direct` | False: as many callers at once as the limit block each other and all later callers for ever, for every limit (C219_violated, C219_stuck); limit 1 never works (C219_one). Proved with fewer callers than the limit at any time: every run of the calls under way is finite and ends with all of them returned. |
| C220 | The queued count is the number of functions queued and not finished | PoolFull | partial | invariants over all histories; a decreasing potential; a quiescence argument under the hypothesis of fewer callers than the limit; universal refutation for every limit | `C220_exact`, `C220_queued_partial`, `C220_violated`, `C220_limit` | False for queues of pools: calls under way are counted too (C220_exact, C220_violated). Proved whenever no call into the pool is under way. |
| C221 | Code can tell whether it runs on the main queue | MainQ | partial | one invariant over all steps, uniqueness of the starter included; violations by concrete histories and an absorbing set of states | `C221_others`, `C221_main_partial`, `C221_iff`, `C221_init_broken`, `C221_early_broken` | Others are never told they are on the main queue, and exactly the main queue whose aosl_main_start has returned is; the init callback and functions that run earlier are always told no (violated by the code), and aosl_mpq_main gives 0 then. |
| C222 | The main queue can be started again after it ended | MainQ | partial | one invariant over all steps, uniqueness of the starter included; violations by concrete histories and an absorbing set of states | `C222_forgotten`, `C222_restart_partial`, `C222_safe_partial`, `C222_stale_broken`, `C222_uaf_broken`, `C222_failed_broken`, `C222_histories` | Holds while no start failed and the protection of no main queue is removed; violated otherwise: witnesses where starts are refused for ever and where freed memory is read. |
| C223 | A datagram arrives with the address of its sender | PktMem | partial | memory as addressed bytes with bounds, disjointness of writes, induction over packets and over partial writes | `C223_packets_partial`, `C223_size_broken`, `C223_stale_broken` | Order, wholeness, senders and memory for all packets with an address; longer packets are cut at max_pkt_size rounded up to whole words, and packets without an address get an earlier one (both violated by the code). |
| C224 | Data that waits keeps its flags and its destination | PktMem | proved | memory as addressed bytes with bounds, disjointness of writes, induction over packets and over partial writes | `C224_kept` | For one waiting piece of data; the queue of them is IoWrite's. |
| C225 | Waiting for the main queue to end comes to an end | MainEnd | partial | a circle of waits as an absorbing property of all steps; termination by a measure that every step of the queues lowers, and a case analysis of the states without steps | `C225_ends_partial`, `C225_violated`, `C225_stuck`, `C225_reached`, `C225_in_order`, `C225_all_taken` | Holds under every schedule as long as no function on a queue of a default pool waits for the main queue; violated there: a deadlock no continuation resolves. |
| C226 | An accepted message can be forwarded | MarshalFwd | partial | every accepted call is the decoding of a wire form: induction over the recursion depth, with the reading relation of Marshal; the theorems of C21 do the rest | `C226_forward_partial`, `C226_same_partial`, `C226_flag_violated`, `C226_long_violated` | False: flag bytes other than 0 and 1 are accepted and sent on as 1 (C226_flag_violated), and texts of 64 KiB and more are cut (C226_long_violated). Proved below 64 KiB or without text: same number of bytes, same bytes but for such flags, same object; the same bytes without pointers and strings. Assumes helper_type.is_have is NULL, as C21. |
| C227 | Decoding accounts for its bytes | MarshalFwd | partial | every accepted call is the decoding of a wire form: induction over the recursion depth, with the reading relation of Marshal; the theorems of C21 do the rest | `C227_accounted_partial`, `C226_long_violated` | Proved for messages below 64 KiB and for descriptors without text, for every byte string; false for longer texts, where bytes behind the consumed ones decide (C226_long_violated). Assumes helper_type.is_have is NULL, as C21. |
| C228 | A created lock excludes | PortLock | partial | a relation between what the callers saw and the lock, kept by every call, by induction over the history; refutations for every port by cases | `C228_excludes_partial`, `C228_good_excludes`, `C228_nothing_left`, `C228_violated`, `C228_two_inside`, `C228_breaks`, `C228_never_got`, `C228_checked` | False on every port when no mutex can be made: create returns a lock all the same. Proved on every port and for every history: exclusion and no needless waiting or failing when a mutex can be made whenever the lock object can; nothing left after destroy, however the creations go. C228_checked: with the missing check (not in the code) it holds always. |
| C229 | Waiting for a condition comes to an end | PortCond | partial | an invariant of all interleavings; a measure that every step but a spurious wake-up lowers; without a variable, the one step left is shown by cases | `C229_safe`, `C229_goes_on_partial`, `C229_ends_partial`, `C229_violated` | Proved for objects with a variable behind them: exclusion and no early return in every interleaving, some step is always possible until everybody is out, and at most 9 n + 5 steps plus three for every spurious wake-up. False when the port cannot make the variable: create returns an object all the same and the waiting thread keeps the lock for ever (C229_violated). |
| C230 | A pool tail call says whether it queued | PoolCall | partial | case analysis over the choice of the queue, itself by induction over the table; universal refutations for the error numbers that are lost | `C230_partial`, `C230_has_queue`, `C230_fails` | Proved when memory for the counter is there and a failed creation left an error number, and for pools that have a queue whatever fails. Refuted otherwise: the call answers 0 and nothing is queued (C230_fails). |
| C231 | Queueing into a pool and allocating from it say what they did | PoolCall | partial | case analysis over the choice of the queue, itself by induction over the table; universal refutations for the error numbers that are lost | `C231_queue_partial`, `C231_alloc_partial`, `C231_choice`, `C231_grows`, `C231_fails`, `C231_room`, `C231_full` | Proved when a failed creation of the first queue left an error number from 1 to 4095. Refuted otherwise: 0 makes the call leave no error number, other numbers are used as addresses (C231_fails). |
| C232 | Whoever asks for the write lock gets it | RwWait | partial | a measure lowered by every step of the waiting threads; the starving history is a loop repeated by induction | `C232_partial`, `C232_kept_out`, `C232_readers`, `C232_starves`, `C232_fails`, `C232_alone`, `C232_stays` | Proved once no reader is in and none comes: one of the waiting threads is in after a number of steps bounded by their work. Refuted in full: readers that relieve each other starve a writer for as many rounds as one likes (C232_starves). |
| C233 | The function of a pool tail call and its completion | PoolDone | proved | an invariant of all interleavings: nobody was last yet, or one was and the rest is through; a measure for the end | `C233`, `C233_ends`, `C233_done_queue` | For every order of the steps of the pool's queues. |
| C234 | What closing and unregistering an fd answers is true | CloseApi | partial | case analysis over the ways of the call, for every interference of the other threads; the negation with a call that does not get through | `C234_close_true_partial`, `C234_close_refused`, `C234_close_others`, `C234_close_exact`, `C234_close_through`, `C234_close_false`, `C234_not_truthful`, `C234_del_true_partial`, `C234_del_exact`, `C234_second_close`, `C234_errors` | Proved unless the call to the owner's queue does not get through: then the code answers a positive number and has done nothing, and the claim is refuted. |

## Disagreements between the code and what its users may expect

Backed by theorems (name in parentheses, see the table above for the exact scope):

* lib/psbuff.c: push with a length ≥ 2^31 passes the headroom check (C12_push_escapes), ≥ 2^32 is truncated (C12_push_truncates);
  a user buffer attached to a library psb is freed by the library (C13_attach_then_free_violates).
* lib/bitmap.c: bitmap_get accepts index = bit count (C15_get_at_count). The size parameter is a uint8_t, so id tables hold at most 248
  objects whatever the configured maximum (C20_capacity_violated). A handle aliases after 65535 reuses (C19_alias_after_65535).
* lib/marshalling.c: uninitialised helper_type.is_have (C21_uninit…); empty segments (C23_violated); strings ≥ 65536 bytes
  unterminated (C86_unterminated); host byte order on the wire (C87_byte_order); init_with of 65536·k elements leaks (C88_init_with_leaks).
* kernel/timer.c: expiry 0 fires at once (C29_zero_expiry); catch-up bursts although the comment denies them (C31_burst); reschedule racing with
  kill fires or touches a dead timer (C32_kill_race, C90_uaf); a callback killing its own timer loses its arguments (C91_freed_in_callback).
* kernel/mpq.c: a queue function that adds to its own full queue blocks for ever (C99_self_deadlock); waiting for a queue destroyed by a third party (C121_third_party).
* kernel/mpqp.c: the general pool is never created (C49_alloc_crashes); idle shrinking deadlocks (C100_deadlock); use after destroy (C101_uaf, C101_uaf_shrunk).
* kernel/iofd.c: the first write bypasses the registered write function (C102_bypass); positive error numbers (C104_positive); torn message on ENOMEM (C50_oom_torn);
  truncated datagrams and endless loop on zero-length reads (C105_truncated, C105_spin); incomplete packet filling the buffer reported as EOF (C106_spurious), EOF
  repeated (C106_repeated); del_fd / close in a callback does not stop the dispatch (C107_del_continues, C123_goes_on, C127_*);
  stale close orphans a new registration and makes the final clean-up loop for ever (C54_orphan, C54_fini_spin); failing registration frees an object in use (C54_addfail_uaf).
* kernel/poll_mp.c, select_mp.c, et_mp.c: uninitialised poll events (C115_junk); starvation beyond 64 fds (C116_starves); errors ignored (C117_error_ignored); failed connect
  announced as success (C126_poll_announces_success); events of a reused fd number (C120_wrong_thread, C120_wrong_close); stuck output (C119_*_stall(s), C119_null_crashes);
  listening sockets die after the first batch (C124_listen_dies); time-outs above 2^31 ms (C113_sleeps_forever).
* locks: a waker pulses a destroyed event (C93_uaf); event pulse/set anomalies (C57_*); a static lock's waiter gets success after a failed
  initialisation (C58_false_success); upgrade then wrunlock leaves the counter (C94_abort); cond signals coincide (C95_signal_lost); destroy in one's own
  write callback deadlocks (C96_self_deadlock).
* lib/tls.c: deleting a key twice (C108_revived, C108_broken), 240 instead of 512 keys (C109_limit), values survive thread-id reuse (C59_id_reuse). lib/errno.c: unlocked list (C110_leak).
* mm/mm.c: calloc overflow (C111_calloc_overflow); memdump (C112_one, C112_nothing); realloc accounting race (C62_race).
* net: connect_on_q loses an argument (C72_connect_loses_last); get_sockaddr returns the default interface's address (C129_*); device names cut (C130_other_device);
  prefix setting ignored (C81_special_prefix_ignored); def_rt_str overflow (C84_def_rt_str_overflow); metric-less routes lose (C85_default_metric_loses); spurious count event (C69_spurious_count_event);
  ipv4 source reads beyond (C67_ipv4_source_reads_beyond); error codes without name (C131_unnamed).
* thread API: try-lock results are inverted with respect to the documentation, so two threads are inside (C133_*); trywrlock blocks (C134_*); aosl_thread_create hangs when the OS
  refuses the thread, and its error is positive (C135_*); nested upgrades by two queue functions abort (C96_two_upgrades_partial).
* system services: values truncated at 2^32 (C137_*); aosl_file_size is wrong from 2 GiB, mkdir on a file reports success (C138_*); msleep above 4294967 ms is too short (C139_*);
  aosl_tick_us does not advance (C140_*); see C143 for the range.
* waiting: more than 1024 fds with poll abort, select with fd ≥ 1024 writes outside (C145_*); at most 25 queues where a queue needs a socket pair, refused even when one is alive, sockets leaked (C146_*).
* kernel/rt_monitor.c: a dump in several datagrams gives a route that does not exist (C147_spans_datagrams); routes of the other family are taken (C147_other_family); short route messages are read beyond
  (C148_route_short), the gateway attribute's length is not checked (C148_gateway_overflow), names need not be terminated (C148_name_unterminated); an unaligned notification never ends (C150_unpadded);
  the socket is closed twice (C151_double_close, C151_stale_descriptor).
* typed objects: after a failed aosl_unmarshal, aosl_fini_typed_obj frees pointers that were never set (C154_violated, _ptr, _var), also for optional pointers in received structures (C153_violated_optional);
  a string of 65535 characters is leaked since its allocated size is 16 bits (C154_leaked, C153_violated_string); receiving twice into one object leaks (C153_reuse_leaks).
* aosl_mpq_del in the "ready for writing" callback: a hang-up in the same event is still announced (C127_hup_after_del).
* aosl_time_str overruns its array for a date text of 24 characters or more (C140_year_10000).
* refobj.c thread nodes: removing nodes inside the post-order traversal leaves some of the idle ones (C156_cleanup_leaves_idle); it would be unsafe in the other two orders (C156_pre_order_unsafe, C156_in_order_unsafe);
  a thread suspended for a minute between finding its record and using it reads freed memory (C157_uaf); records idle for 25 to 49 days are not collected (C157_month).
* network events: a subscription survives its queue (C158_stuck), its socket is lost (C158_lost), a descriptor of somebody else is closed (C158_foreign).
* pool calls and aosl_mpq_main pass the handle through an int: from the 32768th queue on it does not resolve with 64-bit pointers (C159_pool_broken, C159_main_partial, C159_main_starting).
* questions of a running function: EPERM for synchronous calls without arguments or data (C160_null_args, C160_null_data). Measured times are 0 or nonsense (C161_costs_zero, C161_perf_wrong).
* pools: the idle check ends the newest queue, busy or not, and does not count events or timers as work (C162_busy_taken, C162_events_ignored).
* aosl_mpq_change_flags takes reserved bits: protection can be taken off the main queue and off pools' queues, and put on ordinary ones (C165_protection); changing
  the wake-up flag makes the next kick dereference NULL or get lost (C165_wakeup); unknown operations succeed (C165_bad_op); flags of protected queues are negative (C165_negative).
* timers: the _on_q calls take 4 or 5 user arguments less (C167_many_args); aosl_mpq_set_oneshot_timer_on_q takes the time 0 and fires at once (C167_zero_expiry); "keep the interval"
  reads it on the caller's thread and undoes an overlapping change (C168_keep_lost, C168_oneshot_lost); the _on_q calls read the handle from a timer that may be freed (C169_uaf, C169_end).
* aosl_mpq_loop called by a function that a queue executes: the inner loop frees the queue and returns into the outer one, which uses it (C170_nested). A thread that got a queue from aosl_mpq_current and ends without running the loop leaves it behind for ever (C170_orphan). Wake-ups are counted as descriptor events, functions of the running batch are counted late, synchronous calls on the queue itself never (C171_kicks, C171_lag, C171_exact).
* ports: ac791n's condition variable gives wake-ups to late comers (C172_signal_stolen, C172_broadcast_lost, C172_left_over), a zero time-out waits for ever (C172_zero_forever); tw82x can start 32 threads
  in all (C173_tw82x_limit); ac791n never releases a thread's record and gives every thread after the 16th the identity of the first (C173_ac791n_leak, C174_ac791n_exact, C174_ac791n_clash); ipro7 frees a record twice or
  uses it freed if a thread ends while it is being detached (C173_ipro7_double_free, C173_ipro7_uaf); windows leaks a record with aosl_hal_thread_exit (C173_windows_exit); on xr872 all foreign threads have the identity NULL (C174_xr872_foreign).
* ports: a stack of 65536 words (64 KB on esp32) is cut to nothing (C175_cut), bk725x, ipro7 and spreadtrum ignore the size (C175_fixed); long time-outs come at once or never on windows, rtl8713, xr872
  (C176_windows_cut, C176_rtos_cut), 0 is for ever on ac791n (C176_ac791n_zero), setting the clock changes waits on four ports (C176_realtime_set); the tick starts again after 24.8 days (xr872), 49.7 days (bk725x, spreadtrum, ipro7,
  rtl8713), 248 (asr1606) or 497 days (ac791n), and timers set before never fire (C177_wraps, C177_never_32, C177_never_xr872); tw82x: both of two threads are told to have dropped the last reference (C178_tw82x_twice).
* bk725x, ipro7 and tw82x built with IPv6 copy a 28 byte sockaddr_in6 over a 16 byte variable on the stack when a host name has an IPv6 address (`addrinfoTmp_overruns`).
* ipro7 binds a socket asked for 127.x.x.x to 0.0.0.0 (`ipro7_loopback_open`); xr872 makes IPv4 sockets when asked for IPv6; ac791n drops the address of an IPv6 bind; ac791n, spreadtrum, windows and xr872 report
  a device as bound that they ignore, and eight ports report a DSCP as set that they ignore.
* spreadtrum reports a connect under way as failed if the system says EINPROGRESS, and its select cannot tell waiting for ever from not waiting (`sprd_not_right`).
* darwin: a failed connect is announced as ready for writing first (`darwin_connect_announces_success`); a peer that ends its sending closes the connection in both directions; an fd registered for writing only stays
  watched after it was unregistered, because the change list stops at the missing read filter (`writeonly_stays`).
* The destructors of the timers left at the end of a queue run after the current queue has been cleared: aosl_mpq_this gives them nothing, and a timer such a destructor makes (or one that fini makes after a failed creation) is put on a new queue, created for a thread that is about to end: neither is ever run or freed (C185_not_at_end, C186_orphan, C186_orphan_fini).
* Static locks (C187): on asr1606 the bytes of the lock hold the *handle* of a mutex made elsewhere while the lock calls pass the address of the bytes as if it were one; on rtl8713, spreadtrum and ipro7 aosl_hal_static_mutex_init does nothing and returns success. The first lock of a static lock there is undefined. On tw82x, where it can fail, a thread that was waiting for the failing thread goes on to a mutex that was never made (the loop k_static_lock_init:414-420 only looks whether the word is still `initializing`). Everywhere a caller that looks 100 times while the first user is preempted (10 ms apart) comes back with a failure although nobody has the lock; test/aosl_test.c:1462 ignores the result.
* Port allocators (C190, C191): with AOSL_MM_DEBUG a failed realloc has already wiped the block's header and taken it off the counts, so the next call with the (still valid) block fails the assertion; aosl_hal_calloc multiplies without a check on bk725x, rtl8713 and spreadtrum.
* Two queues whose functions call each other with aosl_mpq_call block for ever, and destroying them does not help: the EINTR way out of `____add_f` exists only for producers of full queues (C192_circle, reached by C192_circle_reached). Two full queues whose functions queue to each other block until one of them is destroyed (C192_full_circle). Without such circles every call comes back (C192_back_or_circle).
* aosl_mpq_create with a priority that is not allowed fails without setting aosl_errno; with no memory for the queue, no pipe or no event it fails and sets aosl_errno to 0, the value of the new thread (mpq.c:952-953, 1038; osmp.c:242, 310) (C194).  When the arguments are refused or no thread can be started fini is not called, in every other failure it is (mpq.c:1006-1026) (C195).
* Registration: fd -1 (a failed socket call) is not refused: __mpq_add_fd_argv fetches a function pointer from variadic arguments nobody passes and calls it (C197_invalid_fd); aosl_mpq_add_fd_on_q
  answers a positive error number when the queue refuses the call (C197_positive); a failed call leaves the fd non-blocking and listening (C197_fd_changed); a connect whose time-out timer
  cannot be made answers 0 and never times out (C198_never).
* aosl_get_uuid on darwin writes its terminating zero one byte behind the buffer for every even size from 2 to 32: snprintf's answer 2 is added although it had room for
  one digit only (C199_darwin_overflows).  On rtl8713 the call never returns if the low 32 bits of the clock are 2^31 or 9, 11, 13 or 15 times 2^28: the seed's loop
  multiplies by 7 and stays above RAND_MAX; for every other value it ends (C199_rtl_hangs, C199_rtl_ends_exactly_partial).  ac791n and spreadtrum answer 0 for a buffer of
  no bytes (C199_size_zero).
* Device ids on tw82x depend on the milliseconds since start alone, on asr1606, ipro7 and four spreadtrum chips on little more: two devices started alike have the same id
  (C200_tw82x_same and others).
* Files on xr872: aosl_fexist answers the opposite (C202_xr_exist_inverted), therefore aosl_mkdir never creates a directory and answers 0 (C202_xr_mkdir_never);
  a file opened with "a" takes no byte (C203_xr_append_denied); aosl_rmdir removes the contents too, prints paths into 260 bytes and with longer ones calls itself for ever
  (C204_endless) or deletes a file outside the directory (C204_violated_beside).
* Files elsewhere: tw82x and the stub ports answer 0 to every call and do nothing (C202_stub_nothing); aosl_rmdir on asr1606 deletes files (C202_asr_rmdir_file); a rename on
  ac791n cannot leave the directory but answers 0 (C202_ac_rename_stays); aosl_file_create empties an existing file on ac791n and xr872, keeps it elsewhere
  (C202_create_empties); aosl_mkdir where a file is answers 0 everywhere (C202_mkdir_file).
* aosl_time_ms and aosl_time_sec give the tick instead of the time on ac791n, asr1606, bk725x, ipro7, rtl8713 and spreadtrum (C205: `tells_time_iff`, `tick_ports_ignore_the_clock`).
* aosl_time_str writes a number or the uptime on the ports without a calendar, stores through a null pointer on ac791n, takes a negative length for a large one and overruns the buffer on all ports but windows, and loses a digit of the seconds from the year 10000 on (C206: `right_iff`, `ac791n_null`, `negative_length`, `year_10000`).
* On ac791n, asr1606 and tw82x aosl_hal_sk_accept answers the converted error, not -1, and __default_accept takes it for a connection: once the pending connections are taken the application is handed descriptor -2001 over and over and the queue's thread never leaves the loop (C207).
* asr1606 drops the scope of IPv6 addresses both ways; xr872 hands an IPv6 address over with the size of an IPv4 one; ac791n and builds without IPv6 hand the system zeros for an IPv6 destination instead of refusing, and leave the caller's structure stale for an IPv6 peer (C208).
* aosl_get_sockaddr always fails on asr1606, bk725x, ipro7, tw82x and spreadtrum; on darwin, harmony, windows, esp32 and ac791n it does not look at the default interface; esp32 picks the interface with the lowest route priority; rtl8713, xr872 and esp32 succeed with 0.0.0.0 before there is an address (C209).
* Priority classes have no effect on asr1606, bk725x, esp32, ipro7 and spreadtrum, nor on darwin and harmony without permission for real-time priorities (the failure is ignored); in narrow ranges "high" and "highest" equal "low" (C210).
* bk725x, rtl8713, spreadtrum, tw82x and ipro7 (without its own log) cut log lines after 511 characters (C211).
* The cellular and wireless flags of a default route are not compared when deciding about an event (net/route.c:71-83): an interface that keeps number, type and gateway but is renamed changes the answer of aosl_is_mobile_net without any event (`C213_unreported`).
* mpqp.c creates a queue, and so runs the user's init function in the new thread, while it holds the pool's lock: an init function that uses its own pool, or pools whose init functions use each other, block for ever (C214_self_use; circles of any length: C214_closed; nothing else: C214_dichotomy).
* aosl_mpq_get_ipv6_prefix: the pointer is typed as a 16-byte address but 12 bytes are allocated (C215_violated_whole); it dangles after the prefix is reset (C215_violated_dangling).
* net/dns.c:122-130 makes every IPv6 address it resolves the NAT64 prefix of the requester's queue, also those of hosts with native IPv6: IPv4 destinations are then mapped into that host's network (C216_violated, C216_violated_sends).
* lib/marshalling.c:203-213, 1195-1223: aosl_encode_intN is documented to give network byte order; on a little-endian machine it is the identity, on a big-endian one too, so encoded integers (and marshalled ones) do not travel between machines of different byte order (C217_violated, C217_between).
* lib/marshalling.c:57-77: adding a part of an array to itself reads the freed block whenever the array has to grow; copy_data and strcpy of an own part copy between overlapping regions unless the part starts at or behind its own length (C218).
* mpqp.c:223-224 raises the chosen queue's count for every caller before the limit is checked: as many callers at once as the limit block each other for ever at an idle queue (C219_violated, every limit; fewer never do: C219_returns_partial), a pool with limit 1 never takes any function (C219_one), and aosl_mpq_queued_count counts callers as functions (C220_violated).
* mpq.c:1780-1802 stores the handle of the main queue after the queue runs: in the init callback, always, and in functions that run before the starter is scheduled again, aosl_mpq_is_main answers 0, aosl_mpq_main gives 0, which is no queue but passes for a valid handle, and aosl_main_exit fails (C221_init_broken, C221_early_broken). After a failed start aosl_main_started says yes for ever (C222_failed_broken). With its protection removed (C165) the queue can end before its handle is stored: the handle read out of freed memory, or a dead handle for ever (C222_uaf_broken, C222_stale_broken).
* iofd.c:323 rounds max_pkt_size up to whole words before the buffer is read into: a datagram callback may get up to 7 bytes more than max_pkt_size (C223_size_broken). A packet without a sender's address comes with the address of the packet before (C223_stale_broken).
* mpq.c:754: the main queue, when it ends, waits for all queues of the default pools before it tells those who wait for it. A function on such a queue that calls aosl_main_exit_wait, or exit() (mpq.c:1768-1776), waits for ever, and the main queue never ends (C225_violated, C225_stuck).
* marshalling.c:741-775, 791-820: a flag byte of any value is accepted and sent on as 1 (C226_flag_violated); for texts of 64 KiB and more the number of bytes reported does not say which bytes decided (C226_long_violated).
* thread_api.c:48-56, kernel/thread.c:131-134: aosl_lock_create does not look whether a mutex could be made. Such a lock lets everybody in on windows, tw82x, ac791n and spreadtrum (C228_two_inside), hands NULL to the system on the others (C228_breaks), and can never be had by trylock (C228_never_got). Checking and returning NULL would be enough (C228_checked).
* kernel/thread.c:175-179: k_cond_init does not look whether a condition variable could be made. aosl_cond_wait then returns at once and keeps the lock, so the usual loop keeps everybody else out for ever, the thread that would set the condition included (C229_violated); the library's own waits (mpq.c:416, 1018, 1700) are such loops.
* mpqp.c:781-784: aosl_mpqp_pool_tail_queue on a pool without a queue answers 0 with nothing queued when the first queue cannot be made and no error number was left (an init function of the pool that just returns -1 leaves 0 in a new thread; a thread that cannot be started leaves the caller's old one); the function is then never invoked (C230_fails). mpqp.c:195-198 pass that number in a pointer: a number outside 1..4095 left by the init function is taken for the address of a queue (C231_fails).
* kernel/thread.c:225-254: k_rwlock_wrlock only ever tries the raw lock, once in a millisecond, so it never queues there and nothing holds later readers back: readers that relieve each other keep a writer out for ever, although each of them stays but shortly (C232_starves).
* kernel/iofd.c:655, 702: when the call to the owner's queue fails (no memory, queue going down), aosl_close and aosl_mpq_del_fd return the positive
  aosl_errno instead of -1, although the fd is neither closed nor unregistered (C234_close_false, C234_not_truthful). A close the platform refuses
  leaves the fd open but unregistered (C234_close_exact).
* aosl_mpq_create reads the new handle out of the queue object without a reference: freed memory if the queue ends at once (C164_uaf). fini is not called
  when the arguments are invalid or the thread cannot be started (mpq.c:1006-1029, 1050-1057).
* aosl_main_start: once a start has failed every later one fails with EEXIST (C61_stuck).

Seen while reading, outside the models:

* lib/marshalling.c: FIXED_ARRAY with array_size ≥ 65536 never terminates (uint16 index); unknown child type reports success; aosl_decode_intN calls the encoder;
  strcat(s, s.c_str) is a use after free.
* net: dns.c does not copy the host name and accepts 56..64 arguments that are refused later; aosl_ip_sk_bind returns a
  count; aosl_bind sets no errno; ____sendto copies sizeof(addr) bytes from dest_addr.
* iofd.c: EINTR in read or drain closes the fd; install_fd failure leaks the fd obtained from get_fd_f; an fd invalid after get_fd_f reports success; failing timer creation silently
  disables the connect time-out; HUP is announced with the positive value 2 although documented as ≤ -20000.
* iomp: any negative dispatch result aborts the process; select with a stale descriptor (EBADF) aborts.
* locks/threads: aosl_lock_create returns a lock with a NULL mutex if creation fails; a failing pthread_setschedparam is reported as 0; unlocking an uninitialised static lock initialises and unlocks it;
  aosl_event_create allocates with aosl_malloc_impl.
* files/time: aosl_file_create keeps existing contents ("a+"); aosl_time_str with a negative length writes 24 bytes.
* lib/cond.c's infinite wait passes -1 to the HAL semaphore wait, which returns at once on Linux; rand_bytes loops for ever on read()==0.
* refobj.c: nested queue functions take the raw read lock twice.
* mpqp.c: aosl_mpq_alloc reads the entry after unlocking; aosl_mpq_free sets a negative errno; the limit of max_idles differs from its comment.
* tls/mm: thread nodes are never removed; the MALLOC of mm_ptr_node is unchecked; os_socket_pipe leaks the server socket when the client socket fails.

## Axioms of each property theorem

Produced by `Lean.collectAxioms` on every theorem named `C<digit>…`.

* `[]` (32): FdReg.C197_fd_changed, Hal.C125_constants, Hal.C131_unnamed, IoBoth.C126_immediate, IoBoth.C127_check_after_close, IoBoth.C127_read_after_close, IoRead.C107_del_continues, IoRead.C123_goes_on, IoWrite.C102_bypass, IoWrite.C104_positive, Iomp.C115_junk, KLocks.Cond.C95_signal_lost, KLocks.Event.C57_pulse_not_all, KLocks.Event.C57_pulse_two, KLocks.Event.C57_set_lost, KLocks.Event.C57_spurious, KLocks.StaticLock.C58_false_success, Lifecycle.C60_reverse, PktMem.C223_size_broken, PktMem.C223_stale_broken, PortMem.C190_header, PortThread.Ipro.C173_ipro7_double_free, PortThread.Ipro.C173_ipro7_uaf, PortTime.C175_fixed, Psb.C13_attach_then_free_violates, SysApi.C139_one_more, SysApi.C140_ranges, SysApi.C140_tick_us_stopped, SysApi.C142_range, ThreadApi.C133_lock_result_partial, ThreadApi.C133_two_inside, TimerApi.C169_uaf

* `[propext]` (121): Arm.C119_chunks_stall, Arm.C119_null_crashes, Arm.C119_null_stalls, CurQ.C170_this_destroyed, CurQ.C170_this_destroyed_none, Dispatch.C120_all, Dispatch.C120_wrong_close, Dispatch.C120_wrong_thread, Errno.C110_fini_twice, FdReg.C197_too_many, Hal.C128_from_kernel, Hal.C128_reply, Hal.C128_to_kernel, Hal.C129_partial, Hal.C129_v6_fails, Hal.C129_wrong_address, Hal.C130_empty_partial, Hal.C130_partial, Inet.C77_small_buffer_untouched, IoBoth.C126_epoll_partial, IoBoth.C126_poll_announces_success, IoBoth.C126_results, IoBoth.C127_closed, IoBoth.C127_del, IoBoth.C127_hup_after_del, IoBoth.C127_partial, IoBoth.C144_served, IoRead.C106_repeated, IoRead.C122_close, IoRead.C122_read_fails, IoRead.C123_next_event_partial, IoWrite.C103_timeout, IoWrite.C122_connect_timeout, IoWrite.C122_write_fails, IoWrite.C50_oom_torn, Iomp.C115_once, Iomp.C145_poll_aborts, KLocks.Rw.C94_abort, MainEnd.C225_all_taken, MainEnd.C225_in_order, MainEnd.C225_reached, MainEnd.C225_stuck, MainEnd.C225_violated, MainQ.C221_early_broken, MainQ.C222_uaf_broken, Mpq.C121_dterm, Mpq.C121_third_party_reached, Mpq.C192_circle_reached, Mpq.C192_full_circle_reached, NetSub.C158_grant, NetSub.C158_stuck, NetUtil.C83_bind, Netlink.C147_other_family, Netlink.C147_spans_datagrams, Netlink.C148_gateway_overflow, Netlink.C148_name_unterminated, Netlink.C148_route_short, OnQ.C72_invalid_queue, Pool.C49_alloc_crashes, PoolCall.C230_has_queue, PortAtomic.Excl.C178_exclusive, PortAtomic.Tw.C178_tw82x_alone_partial, PortAtomic.Tw.C178_tw82x_same, PortAtomic.Tw.C178_tw82x_twice, PortAtomic.Tw.C178_tw82x_value, PortFile.C202_mkdir_file, PortFile.C202_xr_exist_inverted, PortFile.C202_xr_mkdir_never, PortFile.C203_wrong_direction, PortFile.C204_endless, PortFile.C204_others_refuse, PortIo.C207_violated_invented, PortIo.C208_from_system_partial, PortIo.C208_to_system_partial, PortIo.C208_v4_rest, PortIo.C208_violated_length, PortIo.C208_violated_scope, PortIo.C208_violated_stale, PortMem.C191_calloc_partial, PortMem.C191_ten_ports_partial, PortPrio.C210_default, PortPrio.C210_refused, PortPrio.C211_whole_partial, QWait.C163_admission, RBTree.C07_early_stop, RBTree.C07_traverse, RefNode.C157_uaf, Route.C70_one_subscriber, Route.C85_default_metric_loses, Route.C85_max_metric_ignored, RunQuery.C160_null_args, RunQuery.C160_null_data, RunQuery.C160_restored, RunQuery.C161_costs_zero, RwWait.C232_alone, RwWait.C232_kept_out, RwWait.C232_readers, RwWait.C232_stays, SysApi.C138_failures, SysApi.C138_mkdir_on_file, SysApi.C138_mkdir_partial, SysApi.C143_range_22, ThreadApi.C133_event_zero, ThreadApi.C133_exclusion_partial, ThreadApi.C133_static_partial, ThreadApi.C133_wr_inverted, ThreadApi.C134_prompt_partial, ThreadApi.Start.C135_would_show, TimerApi.C168_sequential_partial, TimerRef.C32_kill_race, TimerRef.C33_callback_not_reentered, TimerRef.C90_uaf, TimerRef.C91_freed_in_callback, Tls.C108_broken, Tls.C108_out_partial, Tls.C108_revived, Tls.C109_limit, Tls.C59_id_reuse, Wakeup.C45_destroy_terminates, Wakeup.C45_exit_only_terminated, Wakeup.C45_terminates

* `[propext, Quot.sound]` (286): Arm.C119_conserved, Arm.C119_event_due_partial, Arm.C119_progress, Bitmap.C15_get_at_count, CloseApi.C234_close_false, CloseApi.C234_close_through, CloseApi.C234_del_exact, CloseApi.C234_not_truthful, CloseApi.C234_second_close, CondSim.C172_broadcast_lost, CondSim.C172_left_over, CondSim.C172_signal_stolen, CondSim.C172_timeout, CondSim.C172_zero_forever, CurQ.C170_nested, CurQ.C170_orphan, CurQ.C170_stable, Dispatch.C120_right_partial, DynArray.C26_strcpy_out_zero, DynArray.C88_init_with_leaks, EncInt.C217_between, EncInt.C217_network_partial, EncInt.C217_roundtrip, EncInt.C217_violated, Errno.C110_leak, Errno.C110_private, FdReg.C197_connect_on_q, FdReg.C197_invalid_fd, FdReg.C197_positive, FdReg.C197_reasons, FdTab.C54_addfail_uaf, FdTab.C54_fini_spin, FdTab.C54_orphan, Hal.C125_connect, Hal.C125_translation, Hal.C128_resolve, Hal.C128_resolve_bound, Hal.C131_distinct_partial, Hal.C131_names_partial, IoBoth.C124_error, IoBoth.C124_listen_dies, IoRead.C106_spurious, IoRead.C106_spurious_reachable, IoRead.C122_bad_check, IoRead.C53_sizes, IoWrite.C102_queued_partial, IoWrite.C103_held, IoWrite.C122_write_closed, IoWrite.C122_write_error_last, IoWrite.C50_flush, IoWrite.C50_oom_partial, IoWrite.C50_stream_partial, IoWrite.C50_wire_grows, IoWrite.C51_accept, IoWrite.C51_bound, IoWrite.C51_conservative, IoWrite.C51_refuse, Iomp.C115_poll_partial, Iomp.C115_select, Iomp.C116_served_partial, Iomp.C116_starves, Iomp.C117_error_ignored, Iomp.C145_select_overflows, Iomp.C145_waits_partial, KLocks.Cond.C95_broadcast_partial, KLocks.Cond.C95_no_spurious, KLocks.Cond.C95_signal_partial, KLocks.Event.C57_no_early_partial, Lifecycle.C60_exclusive, Lifecycle.C60_nesting, Lifecycle.C60_serial, Lifecycle.C61_restart_partial, Lifecycle.C61_results, Lifecycle.C61_stuck, MainEnd.C225_ends_partial, MainQ.C222_histories, Marshal.C21_uninitialised, Marshal.C23_segmentation_partial, Marshal.C23_violated, Marshal.C24_capacities, Marshal.C24_refused, Marshal.C24_unknown, Marshal.C87_byte_order, MarshalFwd.C226_flag_violated, MarshalMem.C152_fini_empty, MarshalMem.C152_fini_twice, MarshalMem.C152_init_zero, MarshalMem.C153_reuse_leaks, MarshalMem.C153_violated_optional, MarshalMem.C153_violated_string, MarshalMem.C154_leaked, MarshalMem.C154_violated, MarshalMem.C154_violated_ptr, MarshalMem.C154_violated_var, Mm.C62_race, Mm.C62_realloc_zero, Mm.C62_tree_choice, MmPos.C184_total, Mpq.C121_eintr, Mpq.C192_bounded, Mpq.C40_room, Mpq.C42_local, Mpq.C46_limits, Mpq.C99_self_deadlock_reached, NetSub.C158_foreign, NetSub.C158_lost, NetUtil.C67_ipv4_source_reads_beyond, NetUtil.C82_ip_equal, NetUtil.C82_port_round_trip, NetUtil.C83_dual_socket_life, Netlink.C150_unpadded, Netlink.C151_closed_once_partial, Netlink.C151_double_close, Netlink.C151_stale_descriptor, OnQ.C72_connect_without_args_ub, OnQ.C75_argument_limit, Pool.C101_uaf, Pool.C101_uaf_shrunk, PoolCall.C230_fails, PoolCall.C230_partial, PoolCall.C231_fails, PoolCall.C231_full, PoolCall.C231_room, PoolDone.C233_ends, PoolFull.C219_direct, PoolIdle.C162_busy_taken, PoolIdle.C162_empties, PoolIdle.C162_events_ignored, PoolIdle.C162_size, PortAtomic.C178_last, PortAtomic.Excl.C178_progress, PortCond.C229_ends_partial, PortCond.C229_safe, PortCond.C229_violated, PortFile.C202_stub_nothing, PortFile.C202_violated, PortFile.C203_stub, PortFile.C203_xr_violated, PortFile.C204_violated_beside, PortFile.C204_violated_endless, PortIo.C207_ends_partial, PortIo.C207_violated_never_told, PortIo.C208_answer_partial, PortIo.C208_other_families, PortIo.C208_violated_no_v6, PortMem.C190_huge, PortMem.C191_overflow, PortPrio.C210_ignored_value, PortPrio.C210_violated_denied, PortPrio.C210_violated_ignored, PortPrio.C210_violated_narrow, PortPrio.C211_prefix, PortPrio.C211_violated_cut, PortThread.Ipro.C173_ipro7_partial, PortThread.Tw.C173_tw82x_exact, PortThread.Tw.C173_tw82x_limit, PortThread.Xr.C174_xr872_foreign, PortTime.C175_asked, PortTime.C175_cut, PortTime.C176_ac791n, PortTime.C176_ac791n_zero, PortTime.C176_deadline, PortTime.C176_realtime_partial, PortTime.C176_realtime_set, PortTime.C176_rtos_cut, PortTime.C176_rtos_partial, PortTime.C176_sleep_rtl, PortTime.C176_sleep_windows, PortTime.C176_spreadtrum, PortTime.C176_windows_cut, PortTime.C176_windows_partial, PortUtilProps.C199_darwin_overflows, PortUtilProps.C199_rtl_hangs, PortUtilProps.C199_size_zero, PortUtilProps.C199_small_refused, PortUtilProps.C199_violated, PortUtilProps.C200_ac_form, PortUtilProps.C200_ac_partial, PortUtilProps.C200_asr_same, PortUtilProps.C200_bytes_partial, PortUtilProps.C200_chip_partial, PortUtilProps.C200_esp_words_partial, PortUtilProps.C200_ipro7_same, PortUtilProps.C200_sprd_same, PortUtilProps.C200_tw82x_same, PortUtilProps.C200_version4_partial, PortUtilProps.C200_violated, PortUtilProps.C200_words_partial, PortUtilProps.C201_fills_partial, PortUtilProps.C201_truncated, PortUtilProps.C201_violated, Psb.C11_payload, Psb.C12_push_escapes, Psb.C12_push_truncates, Psb.C14_chain, QEnd.C186_orphan_fini, QEnd.C188_failed_init, QEnd.C188_runs_on, QFlags.C165_bad_op, QFlags.C165_create, QFlags.C165_exact, QFlags.C165_partial, QFlags.C165_protection, QFlags.C165_wakeup, QFlags.C166_answer, QMake.C193_made, QMake.C193_twice, QMake.C194_priority, QMake.C194_says_why_partial, QMake.C194_silent, QWait.C164_uaf, RBTree.C01_contents, RBTree.C03_count, RBTree.C04_lookup, RBTree.C05_erase_replace, RBTree.C05_remove, RBWalk.C156_all_when_unchanged, RBWalk.C156_cleanup_leaves_idle, RBWalk.C156_in_order_unsafe, RBWalk.C156_skips, RBWalk.C156_small, RBWalk.C156_visits_root, RefNode.C157_flags, Route.C84_def_rt_str_overflow, Route.C84_def_rt_str_partial, Route.C85_first_without_metric_partial, Route.C85_select_partial, RunQuery.C161_logic_partial, RunQuery.C161_perf_wrong, RwLock.C93_uaf, RwWait.C232_fails, RwWait.C232_partial, RwWait.C232_starves, SkAddr.C189_equal, SockPipe.C146_leaks, SockPipe.C146_refused, StatLock.C187_false_bad_ports, StatLock.C187_false_first_lock, StatLock.C187_false_gives_up, StatLock.C187_false_tw82x, SysApi.C136_in_buffer, SysApi.C136_uuid, SysApi.C137_filled_partial, SysApi.C137_truncated, SysApi.C138_looks_failed, SysApi.C138_size_partial, SysApi.C138_wrong_size, SysApi.C139_short, SysApi.C139_sleep_partial, SysApi.C140_year_10000, SysApi.C141_last_reference, SysApi.C141_one_winner, ThreadApi.C133_lock_inverted, ThreadApi.C133_timed_partial, ThreadApi.C133_timeout_positive, ThreadApi.C133_wr_excludes, ThreadApi.Start.C135_bounded, ThreadApi.Start.C135_hangs, ThreadApi.Start.C135_progress_partial, ThreadApi.Start.C135_safe_partial, Timer.C29_zero_expiry, Timer.C31_burst, TimerApi.C167_on_q_partial, TimerApi.C167_zero_expiry, TimerApi.C168_keep_lost, TimerApi.C168_oneshot_lost, TimerApi.C169_end, TimerRef.C33_dead_stays_dead, TimerRef.C33_dtor_once, TimerRef.C33_no_fire_before_set, TimerRef.C33_oneshot_once, TimerRef.C90_safe_partial, TimerRef.C91_partial, WaitTime.C113_early, WaitTime.C113_exact_partial, WaitTime.C113_infinite, WaitTime.C113_sleeps_forever, WaitTime.C114_deadline, Wakeup.C118_idle_sleeps, Wakeup.C118_stays_asleep, Wakeup.C45_conserved, Wakeup.C45_executed_bounded, Words.C63_all_widths, Words.C63_bswap_mem, Words.C63_network_order, Words.C73_asymmetric

* `[propext, Classical.choice, Quot.sound]` (444): Bitmap.C15_bitmap_set, Bitmap.C16_first_zero, Bitmap.C17_copy, CloseApi.C234_close_exact, CloseApi.C234_close_others, CloseApi.C234_close_refused, CloseApi.C234_close_true_partial, CloseApi.C234_del_true_partial, CloseApi.C234_errors, CondSim.C172_accounting_partial, CondSim.C172_broadcast_partial, CondSim.C172_signal_partial, CondSim.C172_ticks, CurQ.C170_partial, CurQ.C171_exact, CurQ.C171_kicks, CurQ.C171_lag, CurQ.C171_partial, DList.C08_deleted, DList.C08_queries, DList.C08_rings, DnsPrefix.C216_reset, DnsPrefix.C216_untouched_partial, DnsPrefix.C216_violated, DnsPrefix.C216_violated_sends, DynArray.C25_append, DynArray.C25_deterministic, DynArray.C25_histories, DynArray.C25_init, DynArray.C26_copy, DynArray.C26_failed_strcpy, DynArray.C26_strcat, DynArray.C26_strcpy, DynArray.C26_strcpy_out, DynArray.C27_total_order, DynArray.C88_no_leak_partial, DynSelf.C218_append_partial, DynSelf.C218_assign_partial, DynSelf.C218_other, DynSelf.C218_strcat_partial, DynSelf.C218_strcpy_partial, DynSelf.C218_violated, EncInt.C217_little, Errno.C110_freed_partial, Errno.C110_no_double_free, FdReg.C197_current_partial, FdReg.C197_other_queue_partial, FdReg.C197_succeeds, FdReg.C198_comes_partial, FdReg.C198_never, FdReg.C198_only_late, FdTab.C54_destroyed_once_partial, FdTab.C54_fini_partial, FdTab.C54_lookup, FdTab.C54_readd, FdTab.C54_second_refused_partial, FdTab.C54_single_partial, Hal.C125_window, Hal.C130_other_device, IdTable.C18_unique_handles, IdTable.C19_alias_after_65535, IdTable.C19_stale_handles, IdTable.C20_capacity_partial, IdTable.C20_capacity_violated, IdTable.C37_destructor_once, IdTable.C37_slot_reuse, Inet.C64_ipv4_text, Inet.C65_ipv6_round_trip, Inet.C65_parser_grammar, Inet.C66_bounded_output, Inet.C76_canonical_text, Inet.C77_from_string, Inet.C77_round_trip, IoBoth.C122_whole_events, IoRead.C105_datagrams_partial, IoRead.C105_spin, IoRead.C105_truncated, IoRead.C106_final, IoRead.C106_no_false_eof_partial, IoRead.C106_reported_partial, IoRead.C107_close_partial, IoRead.C122_announced, IoRead.C122_close_in_callback, IoRead.C122_error_last, IoRead.C52_lossless, IoRead.C52_packets, IoRead.C52_prefix, IoRead.C52_split_independent, IoRead.C53_no_overflow, IoWrite.C104_ran_partial, IoWrite.C50_drains, KLocks.Event.C57_conserved_partial, KLocks.Event.C57_pulse_partial, KLocks.Event.C57_set_partial, KLocks.Event.C57_set_releases_partial, KLocks.Event.C57_single_partial, KLocks.Rw.C56_downgrade_atomic, KLocks.Rw.C56_exclusion, KLocks.Rw.C56_no_writer, KLocks.Rw.C56_upgrade_atomic, KLocks.Rw.C94_partial, KLocks.StaticLock.C58_conserved, KLocks.StaticLock.C58_init_once, KLocks.StaticLock.C58_stays, KLocks.StaticLock.C58_success_partial, Lifecycle.C60_progress, MainQ.C221_iff, MainQ.C221_init_broken, MainQ.C221_main_partial, MainQ.C221_others, MainQ.C222_failed_broken, MainQ.C222_forgotten, MainQ.C222_restart_partial, MainQ.C222_safe_partial, MainQ.C222_stale_broken, Marshal.C21_marshal, Marshal.C21_round_trip_partial, Marshal.C21_sequence_partial, Marshal.C21_unmarshal, Marshal.C22_truncated_partial, Marshal.C24_string_refused, Marshal.C86_terminated_partial, Marshal.C86_unterminated, Marshal.C87_big_endian_partial, MarshalFwd.C226_forward_partial, MarshalFwd.C226_long_violated, MarshalFwd.C226_same_partial, MarshalFwd.C227_accounted_partial, MarshalMem.C152_init_fini, MarshalMem.C153_no_leak_partial, MarshalMem.C153_rounds_partial, MarshalMem.C154_failed_receive_partial, MarshalMem.C155_memory, MarshalMem.C155_received, MemApi.C111_calloc_overflow, MemApi.C111_calloc_partial, MemApi.C111_strdup, MemApi.C112_dump_partial, MemApi.C112_nothing, MemApi.C112_one, Mm.C62_exact_partial, Mm.C62_no_realloc, Mm.C62_zero_partial, MmPos.C184_dump, MmPos.C184_ignored, MmPos.C184_none_left, MmPos.C184_off, MmPos.C184_order, MmPos.C184_table, MmPos.C184_used, Mpq.C121_released, Mpq.C121_third_party, Mpq.C192_back_or_circle, Mpq.C192_circle, Mpq.C192_full_circle, Mpq.C192_ordered, Mpq.C192_settles, Mpq.C196_all_end, Mpq.C196_circle_never, Mpq.C196_ends, Mpq.C38_call_order, Mpq.C38_fifo, Mpq.C39_accepted, Mpq.C39_at_most_once, Mpq.C39_freed, Mpq.C39_progress, Mpq.C39_refused, Mpq.C40_bound, Mpq.C40_capacity, Mpq.C40_capacity_range, Mpq.C40_config, Mpq.C40_full, Mpq.C41_after, Mpq.C41_frame, Mpq.C41_inline, Mpq.C42_after, Mpq.C42_exactly_one, Mpq.C42_free_only, Mpq.C42_once, Mpq.C44_destroyed, Mpq.C44_progress, Mpq.C44_stale, Mpq.C46_refused, Mpq.C98_users, Mpq.C99_no_lost_wakeup_partial, Mpq.C99_not_empty_partial, Mpq.C99_self_deadlock, NetSub.C158_disciplined_partial, NetSub.C158_recover, NetSub.C158_running, NetUtil.C67_mapping, NetUtil.C68_prefix_equal, NetUtil.C78_dispatch, NetUtil.C79_classification, NetUtil.C80_masked_cmp, NetUtil.C80_prefix_bits, NetUtil.C81_prefix_in_force_partial, NetUtil.C81_special_prefix_ignored, NetUtil.C82_dscp, Netifs.C71_cache_is_a_map, Netifs.C71_no_leak, Netlink.C147_any_dump_partial, Netlink.C147_done_inside, Netlink.C147_last_decides_partial, Netlink.C147_one_datagram, Netlink.C148_attributes, Netlink.C148_links, Netlink.C148_route_partial, Netlink.C149_link_dump, Netlink.C150_notifications_partial, OnQ.C72_connect_loses_last, OnQ.C72_user_args_partial, OnQ.C75_resolve_replies_once, PktMem.C223_packets_partial, PktMem.C224_kept, Pool.C100_deadlock, Pool.C100_ends_partial, Pool.C101_destroy_partial, Pool.C47_bounded, Pool.C47_create, Pool.C47_entries, Pool.C47_least_allocated, Pool.C47_least_loaded, Pool.C48_after_all, Pool.C48_at_most_once, Pool.C48_invoked, Pool.C49_free_partial, Pool.C49_shrink_partial, PoolCall.C231_alloc_partial, PoolCall.C231_choice, PoolCall.C231_grows, PoolCall.C231_queue_partial, PoolDone.C233, PoolDone.C233_done_queue, PoolFull.C219_bounded, PoolFull.C219_one, PoolFull.C219_returns_partial, PoolFull.C219_stuck, PoolFull.C219_violated, PoolFull.C220_exact, PoolFull.C220_limit, PoolFull.C220_queued_partial, PoolFull.C220_violated, PoolIdle.C162_taken_partial, PoolInit.C214_closed, PoolInit.C214_dichotomy, PoolInit.C214_exclusive, PoolInit.C214_finish_partial, PoolInit.C214_progress_partial, PoolInit.C214_self_use, PortAtomic.C178_intrinsics, PortCond.C229_goes_on_partial, PortFile.C202_ac_partial, PortFile.C202_ac_rename_stays, PortFile.C202_asr_files, PortFile.C202_asr_partial, PortFile.C202_asr_rmdir_file, PortFile.C202_create_empties, PortFile.C202_posix_partial, PortFile.C202_size, PortFile.C202_tree, PortFile.C202_xr_partial, PortFile.C203_append_partial, PortFile.C203_open_creates, PortFile.C203_write_read, PortFile.C203_xr_append_denied, PortFile.C204_removes_tree_partial, PortIo.C207_real_partial, PortIo.C209_answers, PortIo.C209_esp32_fallback, PortIo.C209_found, PortIo.C209_port, PortIo.C209_violated_default, PortIo.C209_violated_esp32, PortIo.C209_violated_never, PortIo.C209_violated_zero, PortIo.C209_whose_partial, PortLock.C228_breaks, PortLock.C228_checked, PortLock.C228_excludes_partial, PortLock.C228_good_excludes, PortLock.C228_never_got, PortLock.C228_nothing_left, PortLock.C228_two_inside, PortLock.C228_violated, PortMem.C190_counts_partial, PortMem.C190_failed_realloc, PortMem.C190_realloc_partial, PortPrio.C210_rr_partial, PortPrio.C210_strict_partial, PortPrio.C210_tw82x_partial, PortThread.Ac.C173_ac791n_leak, PortThread.Ac.C174_ac791n_clash, PortThread.Ac.C174_ac791n_exact, PortThread.Win.C173_windows_detach, PortThread.Win.C173_windows_exit, PortThread.Win.C173_windows_released, PortThread.Win.C173_windows_safe, PortThread.Win.C174_windows, PortThread.Xr.C173_xr872, PortThread.Xr.C174_xr872_partial, PortTime.C175_rtos_exact, PortTime.C176_negative, PortTime.C176_sleep_ac, PortTime.C177_exact_partial, PortTime.C177_never_32, PortTime.C177_never_xr872, PortTime.C177_timer_partial, PortTime.C177_wraps, PortUtilProps.C199_darwin_partial, PortUtilProps.C199_port_id_partial, PortUtilProps.C199_rtl_ends_exactly_partial, PrefixGet.C215_follows_partial, PrefixGet.C215_memory, PrefixGet.C215_prefix_partial, PrefixGet.C215_violated_dangling, PrefixGet.C215_violated_whole, Psb.C09_geometry, Psb.C10_all_or_nothing, Psb.C12_push_partial, Psb.C13_effects, Psb.C13_ownership_partial, QEnd.C185_not_at_end, QEnd.C185_this_partial, QEnd.C186_accounting, QEnd.C186_clean_partial, QEnd.C186_orphan, QEnd.C188_fini_once, QFlags.C165_negative, QFlags.C166_constant, QFlags.C166_stable, QHandle.C159_after_32767, QHandle.C159_direct, QHandle.C159_main_partial, QHandle.C159_main_starting, QHandle.C159_pool_broken, QHandle.C159_pool_partial, QMake.C193_failed_partial, QMake.C193_histories_partial, QMake.C193_leak, QMake.C194_codes, QMake.C195_fini_partial, QMake.C195_not_called, QWait.C163_all_return, QWait.C163_not_stuck, QWait.C163_safe, QWait.C163_terminates, QWait.C164_answer, QWait.C164_partial, QWait.C164_result, RBTree.C02_balanced, RBTree.C06_iteration, RBWalk.C156_cleanup_partial, RBWalk.C156_idle_exact, RBWalk.C156_post_order, RBWalk.C156_pre_order_unsafe, RBWalk.C156_reachable, RefNode.C157_cleanup_condition, RefNode.C157_exact_partial, RefNode.C157_kept_partial, RefNode.C157_month, RefNode.C157_no_leak_partial, RefNode.C157_safe_partial, RefObj.C132_no_deadlock, RefObj.C34_callbacks_may_call, RefObj.C34_destructor, RefObj.C34_no_use_after_free, RefObj.C35_after_delete, RefObj.C35_no_callback, RefObj.C35_once, RefObj.C36_exclusion, RefObj.C36_no_upgrade_abort, RefObj.C43_free_only, RefObj.C96_abort_partial, RefObj.C96_no_false_abort_partial, RefObj.C96_self_deadlock, RefObj.C96_two_upgrades_partial, RefObj.C97_caller_free, Route.C69_events_ipv4, Route.C69_events_partial, Route.C69_first_check, Route.C69_spurious_count_event, Route.C84_truncated_partial, RouteKnow.C212_order, RouteKnow.C212_subscriber_knows, RouteKnow.C213_mobile, RouteKnow.C213_unreported, RunQuery.C160_answers_partial, RwLock.C55_exclusion, RwLock.C55_exclusion_32, RwLock.C55_exclusion_64, RwLock.C55_no_overflow, RwLock.C92_downgrade, RwLock.C92_no_lost_wakeup, RwLock.C93_partial, RwLock.C93_writer_partial, SkAddr.C189_other_family, SkAddr.C189_refused, SkAddr.C189_round_trip, SkAddr.C189_v4, SkAddr.C189_v6, SockPipe.C146_at_most_25, SockPipe.C146_create_partial, StatLock.C187_excludes_partial, StatLock.C187_fini_partial, StatLock.C187_init_any_time_partial, StatLock.C187_no_deadlock_partial, StatLock.C187_result_partial, StatLock.C187_seven_ports_partial, SysApi.C138_count_partial, SysApi.C140_digits, SysApi.C140_sec, SysApi.C140_tick_partial, SysApi.C140_time_str, SysApi.C141_calls, SysApi.C142_messages, SysApi.C143_ordered, ThreadApi.C133_rd_inverted, ThreadApi.C134_blocks, Timer.C28_no_ub, Timer.C28_nondecreasing, Timer.C28_order, Timer.C29_history, Timer.C29_not_early, Timer.C30_at_most_once, Timer.C30_exactly_once, Timer.C31_lag, Timer.C31_no_drift, Timer.C32_cancel, Timer.C32_kill_partial, Timer.C89_sleep, TimerApi.C167_current, TimerApi.C167_many_args, TimerApi.C169_partial, Tls.C109_create_partial, Tls.C109_never_more, Tls.C59_refines_partial, Wakeup.C45_exit_only_destroyed, Wakeup.C45_kick_arrives, Wakeup.C45_never_stuck, Wakeup.C45_no_lost_wakeup, Words.C73_half_window, Words.C74_return_err, Words.C74_return_ptr_err
