# Formal model of AOSL in Lean 4 — design

The code modelled is `/repo` (AgoraIO-Community/aosl, pinned). Everything lives in `lean/Verif/`.
Each model module cites file:lines of the C code it transcribes. Each property theorem is named `Cxx_…`
after its property and stands in a `…Props`/`…More` module, apart from the model, with a small
specification that does not mention the model's helpers, and with a concrete `example` that meets its
hypotheses. A suffix `_partial` marks a theorem that proves only part of its property; the note in
the table below says what is missing. Where the code violates a property, the *negation* is proved: a
theorem exhibits a run of the model that breaks the claim (listed in "Disagreements" below), and the
`_partial` theorem states the strongest restriction that holds.

This file is generated by `tools/gen_design.py` from `tools/design_head.md`, `properties.jsonl`,
`MANIFEST.json` and the output of `Lean.collectAxioms`.

## How the models are built

* **Sequential code** (containers, conversions, codecs) is a total function on explicit state. Memory
  that matters is explicit (byte arrays, heaps with ownership); an access outside it, a NULL dereference,
  a double free or an abort (`BUG_ON`, `assert`) is a separate outcome, never totalised away.
  C integer types are `BitVec n` or `Nat`/`Int` with explicit `% 2^n`.
* **Concurrent code** is a transition system: a state with one program counter (or stack) per thread, for
  any number of threads, and one action per atomic operation or critical section. Theorems are
  inductive invariants over all reachable states, i.e. all schedules; history is a ghost log.
  "Eventually" claims are proved as: a measure that decreases with every step of the thread concerned
  and a proof that this thread can always step (no fairness assumption is hidden in the step relation).
* **The operating system** (readiness, results of read/write/malloc, time) is an input: theorems
  quantify over every behaviour it may have, except where a property needs an assumption; this is
  then a hypothesis of the theorem.
* **Layers**: Mpq, RefObj and KLocks use abstract locks. That the lock implementation satisfies that
  interface is proved separately (C55, C56, C92). The trees of Timer, TimerRef, Tls, Mm and FdTab are maps or ordered
  lists; that lib/rbtree.c behaves as one is C01–C07. Sequential consistency is assumed throughout (the
  code uses full-barrier atomics).

## Modules: what is modelled and what is left out

| Module | Code | Left out / simplified |
|---|---|---|
| RBTree | lib/rbtree.c complete: descent, insert fix-up, four erase cases, erase fix-up, replace, iteration, traversals | parent pointers are a zipper; one C loop iteration = one zipper step |
| DList | include/api/aosl_list.h on a heap of next/prev cells, poison values | iteration macros other than for_each, for_each_prev |
| Psb | lib/psbuff.c, include/kernel/psbuff.h | – |
| Bitmap | lib/bitmap.c | allocation failure, destroy |
| IdTable | the id tables of kernel/refobj.c, timer.c, mpq.c (bitmap growth, life ids) | one atomic step per call under the table lock |
| Marshal | lib/marshalling.c: size, encode, decode over descriptors (recursive ones too), segments | byte values rather than heap layout of user structs; `aosl_fini_typed_obj` only for dynamic arrays (DynArray) |
| DynArray | lib/marshalling.c:22-200 on an explicit heap | arguments aliasing the array |
| Timer, TimerRef | kernel/timer.c: base as ordered list, run loop, re-insertion, cancel, kill, reference counts, argument vectors | – |
| RefObj | kernel/refobj.c: id, usage count, destroyed flag, locks, nested calls, per-thread nodes | abstract rw lock (C55/C56) |
| Mpq (+Inv, Use, Log, Tok, Sync, Cause, Block, Go, Calls, Esc) | kernel/mpq.c: add, process, drain, done queue, call, destroy, wait, blocking on full queues | statistics; the thread main wrapper; one action per critical section |
| Wakeup | the need_kicking / kick counter / pipe and event handshake of kernel/mpq.c, osmp.c | – |
| Pool (+Tail, Wait) | kernel/mpqp.c | thread names; load statistics |
| IoWrite | aosl_write/send/sendto, write queue, drain, not-ready timeout: kernel/iofd.c, net/sk_utils.c | bytes taken by the OS are an input |
| IoRead (+Lemmas, More, IoErrProps) | __iofd_read_data, buffer moves, f_event_and_close | post_f (always NULL in the code base) |
| IoBoth | dispatch of one event with write and read part, accept, connect | builds on IoRead |
| Iomp | poll_mp.c, select_mp.c, et_mp.c waiting with the Linux HAL | other platforms' HALs |
| Arm | when POLLOUT is armed, edge- and level-triggered | bytes are counted only |
| Dispatch | batch dispatch against a changing fd table | – |
| FdTab | kernel/fileobj.c and the add/delete/close/fini functions of iofd.c | life_id (never read) |
| RwLock (+Inv, Live) | lib/rwlockimpl.c atomic operation by atomic operation, with waiter events | – |
| KLocks (+More) | k_rwlock, k_event, k_static_lock of kernel/thread.c; lib/cond.c | pthread objects abstract, spurious wake-ups included |
| Tls | lib/tls.c | – |
| Errno | lib/errno.c | thread id reuse (see Tls) |
| Mm, MemApi | mm/mm.c accounting; allocation API, memdump | – |
| Lifecycle | aosl_ctor/dtor reference count, main queue start/stop | – |
| WaitTime | deadlines and time-outs: kernel/osmp.c, lib/cond.c, HAL semaphores' timespec | – |
| Words | byte order, wrap-around comparison, error convention | – |
| Inet | net/inet.c character by character | – |
| NetUtil | net/ipv6.c, address helpers of net/sk_utils.c, dual-stack sockets | – |
| Route, Netifs | net/route.c event machine, net/netifs.c cache | – |
| Netlink (+Props, Links) | kernel/rt_monitor.c byte by byte: attribute parser, route dump, link dump, notifications, the monitoring socket | wireless flag and interface name of the result; little-endian, 64-bit |
| MarshalMem (+Props) | lib/marshalling.c:310-1165 with the memory it allocates: init, unmarshal into an existing object, fini, every free an operation on a heap of blocks | any allocation may fail; contents of blocks are cells; the marshalling side is in Marshal |
| OnQ | argument forwarding of the *_on_q functions, net/dns.c | – |
| ThreadApi | lib/thread.c and the HAL's locks, conditions, threads: API level | pthread objects abstract |
| SysApi | kernel/log.c, file.c, time, atomics, random numbers, panic | libc calls are inputs |
| RBWalk | lib/rbtree.c:536-608 on the pointer graph, with a callback that may remove the node; kernel/refobj.c:229-255 | rotations are RBTree's |
| RefNode | kernel/refobj.c:195-419: per-thread nodes with their expiry | clock is an input |
| NetSub | net/route.c:375-450, kernel/rt_monitor.c:466-536, iofd.c:598-608, mpq.c:1880-1941: who is subscribed, over queue ends and library restarts | contents of events (Route) |
| QHandle | handles as machine words: mpq.c:177-260, 1805-1811, mpqp.c:282-380, 635-729 | the table is IdTable's |
| RunQuery | mpq.c:518-566, 1159-1231, 1568-1583, osmp.c:79-111: questions of a running function, measured times | – |
| PoolIdle | mpqp.c:97-170, 883-987: which queues of a pool are taken down when idle | waiting for the end is QWait's |
| QWait | mpq.c:799-1062, 1639-1764: the life of one queue with its creator and any number of waiting threads | what the queue executes (Mpq) |
| QFlags | mpq.c:147-175, 285-345, 1050-1127, osmp.c:84-111, 179-184, 317-339: flags of a queue, the performance callback | – |
| TimerApi | timer.c:545-889, 920-998: making and rescheduling timers: arguments, overlapping calls, the returned handle | what timers do (Timer, TimerRef) |
| CurQ | mpq.c:766-851, 1129-1156, 1586-1628: a thread's own queue, nested loops, the execution counters | the queue's content (Mpq, QWait) |
| CondSim | platform/src/ac791n/aosl_hal_thread.c:193-292: the condition variable made from semaphores | spurious wake-ups; the semaphore itself |
| PortThread | the thread bookkeeping of windows, xr872, tw82x, ac791n, ipro7 (aosl_hal_thread.c) under create-and-detach (kernel/thread.c:74-119) | the RTOS calls are outcomes; each record's memory is a flag |
| PortTime | the conversions of stack sizes, time-outs, sleeping times and ticks in all ports (aosl_hal_thread.c, aosl_hal_time.c) | the RTOS takes the converted number as documented |
| PortAtomic | aosl_hal_atomic.c of all ports: intrinsics, LDREX/STREX loops, tw82x's pairs of accesses | sequentially consistent memory; one variable |
| PortSock | platform/src/*/aosl_hal_socket.c, aosl_hal_errno.c other than linux: resolving, binding, device, DSCP, family, error codes | the system's answers are parameters; a write outside an object is a distinct outcome |
| PortIomp | time-outs of aosl_hal_select of all ports; the kqueue emulation of epoll on darwin with the dispatch of IoBoth | kevent applies changes up to the first failure; a failed connect is EVFILT_WRITE with EV_EOF |
| MmPos | mm/mm.c with CONFIG_AOSL_MEM_DUMP: the table of call sites, aosl_memdump, start and end of recording, the `_dbg` allocation calls | one call at a time (Mm interleaves); trees are lists |
| QEnd | the thread of a queue from creation to end: phases, the current queue seen by each callback, timers made by callbacks (kernel/mpq.c:733-975, 1131-1146; kernel/timer.c:449-485) | one thread; making timers and queues succeeds |
| SkAddr | socket addresses as bytes: net/sk_utils.c:1176-1286 | the text functions are Inet's; snprintf of an unknown family is not cut |
| PortMem | platform/src/*/aosl_hal_memory.c: debugging allocator, calloc | the platform's malloc, calloc and realloc are the C standard's; a call is one step |
| MpqDead | kernel/mpq.c:371-491, 624-703 (who waits for whom: synchronous calls and full queues between queues), on the model of Mpq | functions that run on queues return; spurious wake-ups stop; no other simplification than those of Mpq |
| QMake | kernel/mpq.c:720-758, 854-1072, kernel/osmp.c:196-360, kernel/et_mp.c:24-59, kernel/thread.c:73-118 | handles are numbers given once; the creator's own lock and condition, and what a running queue has, are left out; a thread that cannot be started is reported |
| MpqEnd | kernel/mpq.c:769-853, 1639-1691 (the model is Mpq's) | as Mpq |
| FdReg | kernel/iofd.c:63-72, 211-248, 275-494, 496-597, net/sk_utils.c:210-628, kernel/fileobj.c:44-83 | reference counts are FdTab's; buffers and callbacks are IoRead's and IoWrite's; one call is one step of the queue's thread |
| PortUtil | lib/utils.c:13-36, platform/src/{ac791n,asr1606,bk725x,darwin,esp32,harmony,ipro7,rtl8713,spreadtrum-*,tw82x,windows,xr872}/aosl_hal_utils.c | what the platform answers is an environment; `rand` is any function of the seed; the loop of rtl8713 has fuel |
| PortFile | kernel/file.c, platform/src/*/aosl_hal_file.c | the platform's file system is a list of paths and nodes with documented effects; failures are arguments; streams are tied to paths; memory does not run out |
| PortClock | aosl_hal_get_time_ms, aosl_hal_get_time_str in all ports (aosl_hal_time.c) | the clocks, the calendar and snprintf are the system's; the buffer is the caller's memory, a store outside it a distinct outcome |
| PortIo | aosl_hal_sk_accept, conv_addr_to_os, conv_addr_to_aosl, get_addrlen, aosl_hal_sk_get_local_ip in the ports other than linux; __default_accept, aosl_get_sockaddr (net/sk_utils.c); the read loop of a listening socket (kernel/iofd.c) | the system's answers are parameters; listing the interfaces succeeds; families by name, not by each system's number |
| PortPrio | the priority given by aosl_hal_thread_create and aosl_hal_thread_set_priority in the ports other than linux, as used by k_thread_create; aosl_hal_printf | priority ranges, permissions and the SDK's constants are parameters; formatting is the C library's |
| RouteKnow | what a subscriber that keeps the last event's route knows; aosl_is_mobile_net and the cellular flag of the two buffers, on top of Route | the interface names are given with each observation (the table of interfaces is modelled in Netifs) |
| PoolInit | mpqp.c:136-261, 766-821, 883-981, mpq.c:1001-1046: pool locks held across the creation of a queue, any pools, threads and init functions | the rest of a pool call is Pool's; functions that call aosl_mpq_call or wait for other queues inside an init function are not modelled |
| PrefixGet | ipv6.c:159-227, mpq.c:748-749, 866: the memory behind the prefix of a queue | one queue; settings made through aosl_mpq_call are applied in the queue's thread, one at a time |
| DnsPrefix | dns.c:99-141 with ipv6.c:159-216: the prefix of a queue after resolve answers | one queue; the resolver itself is OnQ's |
| EncInt | marshalling.c:203-225, 1195-1223: the exported integer encoders, both byte orders | the marshaller itself is Marshal's |
| DynSelf | marshalling.c:40-80, 135-186 with the source in memory (block, offset), on DynArray's heap | sources outside dynamic arrays are DynArray's values |
| PoolFull | mpqp.c:207-228, 263-331 with mpq.c:429-485, 636-703, 1551-1565: callers of a pool at one of its queues, the limit and the queued count | one queue; callers whose own queue is not being destroyed; allocation succeeds |
| MainQ | mpq.c:1629-1637, 1780-1830, 731-761, 800-851, 950-998, 1003-1043: aosl_main_qid, its readers and writers, one step per access | handles are never used twice (C159); functions, waiting and kicking are in other models |
| PktMem | iofd.c:74-203, 222-238, 322-346, 740-757, sk_utils.c:104-110, 145-208, 652-667, 741-755: the blocks of memory behind packets and waiting data, byte by byte | the platform's calls are Hal's; order and completeness are IoRead's and IoWrite's |
| MainEnd | mpq.c:733-761, 800-851, 1721-1760, 1768-1776, 1818-1833, mpqp.c:929-995: the end of the main queue, the end of the default pools, those who wait | functions return or wait for the main queue (calls between queues are MpqGo's); the four pools are destroyed in one step |
| MarshalFwd | the models of Marshal, from the bytes: what any accepted message means, is, and becomes when it is encoded again | as Marshal |
| PortLock | thread_api.c:48-81, kernel/thread.c:131-172, aosl_hal_mutex_* of the 18 ports | a mutex of the system is its owner; taking a lock twice is left to the system (a critical section of windows allows it) |
| PortCond | thread_api.c:161-193, kernel/thread.c:174-206, aosl_hal_cond_* of linux, darwin, esp32, ipro7, harmony, bk725x, windows, ac791n: waiting in a loop, one broadcast | the variable of the system wakes all sleepers and gives the mutex back in one step; ac791n's own construction is CondSim's; lib/cond.c is KLocks' |
| PoolCall | mpqp.c:57-85, 180-261, 273-331, 760-821, 1037-1046, err.h:25-47: what a call on a pool answers | one call is one step; the creation of a queue is an answer; errors passed in pointers as in err.h |
| RwWait | thread.c:215-218, 225-254, 267-276: waiting for the write lock | the raw lock is one step (RwLock); upgrades are KLocks' |
| PoolDone | mpqp.c:727-758, 760-821: the promise of a pool tail call as the queues run it | what a queue's reference leads to is an input; the invocation is one step |
| CloseApi | kernel/iofd.c:496-527, 544-580, 617-714, fileobj.c:69-100, err.h:50-84: what aosl_close and aosl_mpq_del_fd answer | put_fd_f (C197); reference counts are FdTab's; the hand-over to the queue is a success or an error number |
| StatLock | kernel/thread.c:390-507, lib/thread_api.c:81-103, aosl_hal_static_mutex_init of the ports | a platform mutex call is one atomic step; threads use the lock correctly; fini only when nobody is inside a call |
| SockPipe | the socket pair of kernel/osmp.c on platforms without pipes | TCP/UDP loopback delivers |
| Hal | Linux HAL: errno translation, address conversion, resolver, device binding; lib/errno.c strerror | other platforms |

Not modelled: platform directories other than `linux`, except what SockPipe, CondSim, PortThread, PortTime, PortAtomic, PortSock and PortIomp say; version.c; `test/`; build
files. Weak-memory effects, compiler behaviour and the pthread/libc
implementations are outside every model.

## Trusted base

* Lean 4.33.0's kernel. No axioms are added; no proof uses compiled evaluation. The axioms each property theorem depends
  on are listed in the last section (all are among `propext`, `Classical.choice`, `Quot.sound`).
* The correspondence of the models with the C code is by reading (the code is neither built nor run here). Every
  definition cites the lines it transcribes. Linux HAL and LP64 are assumed where a platform matters;
  C55 is also proved for the 32-bit counter layout.
* The models were tested against wrong programs: `seeded/LOG.jsonl` (see there for edits, failing theorems and the theorems that
  were tightened as a result).

