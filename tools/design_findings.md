## Disagreements between the code and what its users may expect

Backed by theorems (name in parentheses, see the table above for the exact scope):

* lib/psbuff.c: push with a length ≥ 2^31 passes the headroom check (C12_push_escapes), ≥ 2^32 is truncated (C12_push_truncates);
  a user buffer attached to a library psb is freed by the library (C13_attach_then_free_violates).
* lib/bitmap.c: bitmap_get accepts index = bit count (C15_get_at_count). The size parameter is a uint8_t, so id tables hold at most 248
  objects whatever the configured maximum (C20_capacity_violated). A handle aliases after 65535 reuses (C19_alias_after_65535).
* lib/marshalling.c: uninitialised helper_type.is_have (C21_uninit…); empty segments (C23_violated); strings ≥ 65536 bytes
  unterminated (C86_unterminated); host byte order on the wire (C87_byte_order); init_with of 65536·k elements leaks (C88_init_with_leaks).
* kernel/timer.c: expiry 0 fires at once (C29_zero_expiry); catch-up bursts although the comment denies them (C31_burst); reschedule racing with
  kill fires or touches a dead timer (C32_kill_race, C90_uaf); a callback killing its own timer loses its arguments (C91_freed_in_callback).
* kernel/mpq.c: a queue function that adds to its own full queue blocks for ever (C99_self_deadlock); waiting for a queue destroyed by a third party (C121_third_party).
* kernel/mpqp.c: the general pool is never created (C49_alloc_crashes); idle shrinking deadlocks (C100_deadlock); use after destroy (C101_uaf, C101_uaf_shrunk).
* kernel/iofd.c: the first write bypasses the registered write function (C102_bypass); positive error numbers (C104_positive); torn message on ENOMEM (C50_oom_torn);
  truncated datagrams and endless loop on zero-length reads (C105_truncated, C105_spin); incomplete packet filling the buffer reported as EOF (C106_spurious), EOF
  repeated (C106_repeated); del_fd / close in a callback does not stop the dispatch (C107_del_continues, C123_goes_on, C127_*);
  stale close orphans a new registration and makes the final clean-up loop for ever (C54_orphan, C54_fini_spin); failing registration frees an object in use (C54_addfail_uaf).
* kernel/poll_mp.c, select_mp.c, et_mp.c: uninitialised poll events (C115_junk); starvation beyond 64 fds (C116_starves); errors ignored (C117_error_ignored); failed connect
  announced as success (C126_poll_announces_success); events of a reused fd number (C120_wrong_thread, C120_wrong_close); stuck output (C119_*_stall(s), C119_null_crashes);
  listening sockets die after the first batch (C124_listen_dies); time-outs above 2^31 ms (C113_sleeps_forever).
* locks: a waker pulses a destroyed event (C93_uaf); event pulse/set anomalies (C57_*); a static lock's waiter gets success after a failed
  initialisation (C58_false_success); upgrade then wrunlock leaves the counter (C94_abort); cond signals coincide (C95_signal_lost); destroy in one's own
  write callback deadlocks (C96_self_deadlock).
* lib/tls.c: deleting a key twice (C108_revived, C108_broken), 240 instead of 512 keys (C109_limit), values survive thread-id reuse (C59_id_reuse). lib/errno.c: unlocked list (C110_leak).
* mm/mm.c: calloc overflow (C111_calloc_overflow); memdump (C112_one, C112_nothing); realloc accounting race (C62_race).
* net: connect_on_q loses an argument (C72_connect_loses_last); get_sockaddr returns the default interface's address (C129_*); device names cut (C130_other_device);
  prefix setting ignored (C81_special_prefix_ignored); def_rt_str overflow (C84_def_rt_str_overflow); metric-less routes lose (C85_default_metric_loses); spurious count event (C69_spurious_count_event);
  ipv4 source reads beyond (C67_ipv4_source_reads_beyond); error codes without name (C131_unnamed).
* thread API: try-lock results are inverted with respect to the documentation, so two threads are inside (C133_*); trywrlock blocks (C134_*); aosl_thread_create hangs when the OS
  refuses the thread, and its error is positive (C135_*); nested upgrades by two queue functions abort (C96_two_upgrades_partial).
* system services: values truncated at 2^32 (C137_*); aosl_file_size is wrong from 2 GiB, mkdir on a file reports success (C138_*); msleep above 4294967 ms is too short (C139_*);
  aosl_tick_us does not advance (C140_*); see C143 for the range.
* waiting: more than 1024 fds with poll abort, select with fd ≥ 1024 writes outside (C145_*); at most 25 queues where a queue needs a socket pair, refused even when one is alive, sockets leaked (C146_*).
* kernel/rt_monitor.c: a dump in several datagrams gives a route that does not exist (C147_spans_datagrams); routes of the other family are taken (C147_other_family); short route messages are read beyond
  (C148_route_short), the gateway attribute's length is not checked (C148_gateway_overflow), names need not be terminated (C148_name_unterminated); an unaligned notification never ends (C150_unpadded);
  the socket is closed twice (C151_double_close, C151_stale_descriptor).
* typed objects: after a failed aosl_unmarshal, aosl_fini_typed_obj frees pointers that were never set (C154_violated, _ptr, _var), also for optional pointers in received structures (C153_violated_optional);
  a string of 65535 characters is leaked since its allocated size is 16 bits (C154_leaked, C153_violated_string); receiving twice into one object leaks (C153_reuse_leaks).
* aosl_mpq_del in the "ready for writing" callback: a hang-up in the same event is still announced (C127_hup_after_del).
* aosl_time_str overruns its array for a date text of 24 characters or more (C140_year_10000).
* refobj.c thread nodes: removing nodes inside the post-order traversal leaves some of the idle ones (C156_cleanup_leaves_idle); it would be unsafe in the other two orders (C156_pre_order_unsafe, C156_in_order_unsafe);
  a thread suspended for a minute between finding its record and using it reads freed memory (C157_uaf); records idle for 25 to 49 days are not collected (C157_month).
* network events: a subscription survives its queue (C158_stuck), its socket is lost (C158_lost), a descriptor of somebody else is closed (C158_foreign).
* pool calls and aosl_mpq_main pass the handle through an int: from the 32768th queue on it does not resolve with 64-bit pointers (C159_pool_broken, C159_main_partial, C159_main_starting).
* questions of a running function: EPERM for synchronous calls without arguments or data (C160_null_args, C160_null_data). Measured times are 0 or nonsense (C161_costs_zero, C161_perf_wrong).
* pools: the idle check ends the newest queue, busy or not, and does not count events or timers as work (C162_busy_taken, C162_events_ignored).
* aosl_mpq_change_flags takes reserved bits: protection can be taken off the main queue and off pools' queues, and put on ordinary ones (C165_protection); changing
  the wake-up flag makes the next kick dereference NULL or get lost (C165_wakeup); unknown operations succeed (C165_bad_op); flags of protected queues are negative (C165_negative).
* timers: the _on_q calls take 4 or 5 user arguments less (C167_many_args); aosl_mpq_set_oneshot_timer_on_q takes the time 0 and fires at once (C167_zero_expiry); "keep the interval"
  reads it on the caller's thread and undoes an overlapping change (C168_keep_lost, C168_oneshot_lost); the _on_q calls read the handle from a timer that may be freed (C169_uaf, C169_end).
* aosl_mpq_loop called by a function that a queue executes: the inner loop frees the queue and returns into the outer one, which uses it (C170_nested). A thread that got a queue from aosl_mpq_current and ends without running the loop leaves it behind for ever (C170_orphan). Wake-ups are counted as descriptor events, functions of the running batch are counted late, synchronous calls on the queue itself never (C171_kicks, C171_lag, C171_exact).
* ports: ac791n's condition variable gives wake-ups to late comers (C172_signal_stolen, C172_broadcast_lost, C172_left_over), a zero time-out waits for ever (C172_zero_forever); tw82x can start 32 threads
  in all (C173_tw82x_limit); ac791n never releases a thread's record and gives every thread after the 16th the identity of the first (C173_ac791n_leak, C174_ac791n_exact, C174_ac791n_clash); ipro7 frees a record twice or
  uses it freed if a thread ends while it is being detached (C173_ipro7_double_free, C173_ipro7_uaf); windows leaks a record with aosl_hal_thread_exit (C173_windows_exit); on xr872 all foreign threads have the identity NULL (C174_xr872_foreign).
* ports: a stack of 65536 words (64 KB on esp32) is cut to nothing (C175_cut), bk725x, ipro7 and spreadtrum ignore the size (C175_fixed); long time-outs come at once or never on windows, rtl8713, xr872
  (C176_windows_cut, C176_rtos_cut), 0 is for ever on ac791n (C176_ac791n_zero), setting the clock changes waits on four ports (C176_realtime_set); the tick starts again after 24.8 days (xr872), 49.7 days (bk725x, spreadtrum, ipro7,
  rtl8713), 248 (asr1606) or 497 days (ac791n), and timers set before never fire (C177_wraps, C177_never_32, C177_never_xr872); tw82x: both of two threads are told to have dropped the last reference (C178_tw82x_twice).
* bk725x, ipro7 and tw82x built with IPv6 copy a 28 byte sockaddr_in6 over a 16 byte variable on the stack when a host name has an IPv6 address (`addrinfoTmp_overruns`).
* ipro7 binds a socket asked for 127.x.x.x to 0.0.0.0 (`ipro7_loopback_open`); xr872 makes IPv4 sockets when asked for IPv6; ac791n drops the address of an IPv6 bind; ac791n, spreadtrum, windows and xr872 report
  a device as bound that they ignore, and eight ports report a DSCP as set that they ignore.
* spreadtrum reports a connect under way as failed if the system says EINPROGRESS, and its select cannot tell waiting for ever from not waiting (`sprd_not_right`).
* darwin: a failed connect is announced as ready for writing first (`darwin_connect_announces_success`); a peer that ends its sending closes the connection in both directions; an fd registered for writing only stays
  watched after it was unregistered, because the change list stops at the missing read filter (`writeonly_stays`).
* The destructors of the timers left at the end of a queue run after the current queue has been cleared: aosl_mpq_this gives them nothing, and a timer such a destructor makes (or one that fini makes after a failed creation) is put on a new queue, created for a thread that is about to end: neither is ever run or freed (C185_not_at_end, C186_orphan, C186_orphan_fini).
* Static locks (C187): on asr1606 the bytes of the lock hold the *handle* of a mutex made elsewhere while the lock calls pass the address of the bytes as if it were one; on rtl8713, spreadtrum and ipro7 aosl_hal_static_mutex_init does nothing and returns success. The first lock of a static lock there is undefined. On tw82x, where it can fail, a thread that was waiting for the failing thread goes on to a mutex that was never made (the loop k_static_lock_init:414-420 only looks whether the word is still `initializing`). Everywhere a caller that looks 100 times while the first user is preempted (10 ms apart) comes back with a failure although nobody has the lock; test/aosl_test.c:1462 ignores the result.
* Port allocators (C190, C191): with AOSL_MM_DEBUG a failed realloc has already wiped the block's header and taken it off the counts, so the next call with the (still valid) block fails the assertion; aosl_hal_calloc multiplies without a check on bk725x, rtl8713 and spreadtrum.
* Two queues whose functions call each other with aosl_mpq_call block for ever, and destroying them does not help: the EINTR way out of `____add_f` exists only for producers of full queues (C192_circle, reached by C192_circle_reached). Two full queues whose functions queue to each other block until one of them is destroyed (C192_full_circle). Without such circles every call comes back (C192_back_or_circle).
* aosl_mpq_create with a priority that is not allowed fails without setting aosl_errno; with no memory for the queue, no pipe or no event it fails and sets aosl_errno to 0, the value of the new thread (mpq.c:952-953, 1038; osmp.c:242, 310) (C194).  When the arguments are refused or no thread can be started fini is not called, in every other failure it is (mpq.c:1006-1026) (C195).
* Registration: fd -1 (a failed socket call) is not refused: __mpq_add_fd_argv fetches a function pointer from variadic arguments nobody passes and calls it (C197_invalid_fd); aosl_mpq_add_fd_on_q
  answers a positive error number when the queue refuses the call (C197_positive); a failed call leaves the fd non-blocking and listening (C197_fd_changed); a connect whose time-out timer
  cannot be made answers 0 and never times out (C198_never).
* aosl_get_uuid on darwin writes its terminating zero one byte behind the buffer for every even size from 2 to 32: snprintf's answer 2 is added although it had room for
  one digit only (C199_darwin_overflows).  On rtl8713 the call never returns if the low 32 bits of the clock are 2^31 or 9, 11, 13 or 15 times 2^28: the seed's loop
  multiplies by 7 and stays above RAND_MAX; for every other value it ends (C199_rtl_hangs, C199_rtl_ends_exactly_partial).  ac791n and spreadtrum answer 0 for a buffer of
  no bytes (C199_size_zero).
* Device ids on tw82x depend on the milliseconds since start alone, on asr1606, ipro7 and four spreadtrum chips on little more: two devices started alike have the same id
  (C200_tw82x_same and others).
* Files on xr872: aosl_fexist answers the opposite (C202_xr_exist_inverted), therefore aosl_mkdir never creates a directory and answers 0 (C202_xr_mkdir_never);
  a file opened with "a" takes no byte (C203_xr_append_denied); aosl_rmdir removes the contents too, prints paths into 260 bytes and with longer ones calls itself for ever
  (C204_endless) or deletes a file outside the directory (C204_violated_beside).
* Files elsewhere: tw82x and the stub ports answer 0 to every call and do nothing (C202_stub_nothing); aosl_rmdir on asr1606 deletes files (C202_asr_rmdir_file); a rename on
  ac791n cannot leave the directory but answers 0 (C202_ac_rename_stays); aosl_file_create empties an existing file on ac791n and xr872, keeps it elsewhere
  (C202_create_empties); aosl_mkdir where a file is answers 0 everywhere (C202_mkdir_file).
* aosl_time_ms and aosl_time_sec give the tick instead of the time on ac791n, asr1606, bk725x, ipro7, rtl8713 and spreadtrum (C205: `tells_time_iff`, `tick_ports_ignore_the_clock`).
* aosl_time_str writes a number or the uptime on the ports without a calendar, stores through a null pointer on ac791n, takes a negative length for a large one and overruns the buffer on all ports but windows, and loses a digit of the seconds from the year 10000 on (C206: `right_iff`, `ac791n_null`, `negative_length`, `year_10000`).
* On ac791n, asr1606 and tw82x aosl_hal_sk_accept answers the converted error, not -1, and __default_accept takes it for a connection: once the pending connections are taken the application is handed descriptor -2001 over and over and the queue's thread never leaves the loop (C207).
* asr1606 drops the scope of IPv6 addresses both ways; xr872 hands an IPv6 address over with the size of an IPv4 one; ac791n and builds without IPv6 hand the system zeros for an IPv6 destination instead of refusing, and leave the caller's structure stale for an IPv6 peer (C208).
* aosl_get_sockaddr always fails on asr1606, bk725x, ipro7, tw82x and spreadtrum; on darwin, harmony, windows, esp32 and ac791n it does not look at the default interface; esp32 picks the interface with the lowest route priority; rtl8713, xr872 and esp32 succeed with 0.0.0.0 before there is an address (C209).
* Priority classes have no effect on asr1606, bk725x, esp32, ipro7 and spreadtrum, nor on darwin and harmony without permission for real-time priorities (the failure is ignored); in narrow ranges "high" and "highest" equal "low" (C210).
* bk725x, rtl8713, spreadtrum, tw82x and ipro7 (without its own log) cut log lines after 511 characters (C211).
* The cellular and wireless flags of a default route are not compared when deciding about an event (net/route.c:71-83): an interface that keeps number, type and gateway but is renamed changes the answer of aosl_is_mobile_net without any event (`C213_unreported`).
* mpqp.c creates a queue, and so runs the user's init function in the new thread, while it holds the pool's lock: an init function that uses its own pool, or pools whose init functions use each other, block for ever (C214_self_use; circles of any length: C214_closed; nothing else: C214_dichotomy).
* aosl_mpq_get_ipv6_prefix: the pointer is typed as a 16-byte address but 12 bytes are allocated (C215_violated_whole); it dangles after the prefix is reset (C215_violated_dangling).
* net/dns.c:122-130 makes every IPv6 address it resolves the NAT64 prefix of the requester's queue, also those of hosts with native IPv6: IPv4 destinations are then mapped into that host's network (C216_violated, C216_violated_sends).
* lib/marshalling.c:203-213, 1195-1223: aosl_encode_intN is documented to give network byte order; on a little-endian machine it is the identity, on a big-endian one too, so encoded integers (and marshalled ones) do not travel between machines of different byte order (C217_violated, C217_between).
* lib/marshalling.c:57-77: adding a part of an array to itself reads the freed block whenever the array has to grow; copy_data and strcpy of an own part copy between overlapping regions unless the part starts at or behind its own length (C218).
* mpqp.c:223-224 raises the chosen queue's count for every caller before the limit is checked: as many callers at once as the limit block each other for ever at an idle queue (C219_violated, every limit; fewer never do: C219_returns_partial), a pool with limit 1 never takes any function (C219_one), and aosl_mpq_queued_count counts callers as functions (C220_violated).
* mpq.c:1780-1802 stores the handle of the main queue after the queue runs: in the init callback, always, and in functions that run before the starter is scheduled again, aosl_mpq_is_main answers 0, aosl_mpq_main gives 0, which is no queue but passes for a valid handle, and aosl_main_exit fails (C221_init_broken, C221_early_broken). After a failed start aosl_main_started says yes for ever (C222_failed_broken). With its protection removed (C165) the queue can end before its handle is stored: the handle read out of freed memory, or a dead handle for ever (C222_uaf_broken, C222_stale_broken).
* iofd.c:323 rounds max_pkt_size up to whole words before the buffer is read into: a datagram callback may get up to 7 bytes more than max_pkt_size (C223_size_broken). A packet without a sender's address comes with the address of the packet before (C223_stale_broken).
* mpq.c:754: the main queue, when it ends, waits for all queues of the default pools before it tells those who wait for it. A function on such a queue that calls aosl_main_exit_wait, or exit() (mpq.c:1768-1776), waits for ever, and the main queue never ends (C225_violated, C225_stuck).
* marshalling.c:741-775, 791-820: a flag byte of any value is accepted and sent on as 1 (C226_flag_violated); for texts of 64 KiB and more the number of bytes reported does not say which bytes decided (C226_long_violated).
* thread_api.c:48-56, kernel/thread.c:131-134: aosl_lock_create does not look whether a mutex could be made. Such a lock lets everybody in on windows, tw82x, ac791n and spreadtrum (C228_two_inside), hands NULL to the system on the others (C228_breaks), and can never be had by trylock (C228_never_got). Checking and returning NULL would be enough (C228_checked).
* kernel/thread.c:175-179: k_cond_init does not look whether a condition variable could be made. aosl_cond_wait then returns at once and keeps the lock, so the usual loop keeps everybody else out for ever, the thread that would set the condition included (C229_violated); the library's own waits (mpq.c:416, 1018, 1700) are such loops.
* mpqp.c:781-784: aosl_mpqp_pool_tail_queue on a pool without a queue answers 0 with nothing queued when the first queue cannot be made and no error number was left (an init function of the pool that just returns -1 leaves 0 in a new thread; a thread that cannot be started leaves the caller's old one); the function is then never invoked (C230_fails). mpqp.c:195-198 pass that number in a pointer: a number outside 1..4095 left by the init function is taken for the address of a queue (C231_fails).
* kernel/thread.c:225-254: k_rwlock_wrlock only ever tries the raw lock, once in a millisecond, so it never queues there and nothing holds later readers back: readers that relieve each other keep a writer out for ever, although each of them stays but shortly (C232_starves).
* kernel/iofd.c:655, 702: when the call to the owner's queue fails (no memory, queue going down), aosl_close and aosl_mpq_del_fd return the positive
  aosl_errno instead of -1, although the fd is neither closed nor unregistered (C234_close_false, C234_not_truthful). A close the platform refuses
  leaves the fd open but unregistered (C234_close_exact).
* aosl_mpq_create reads the new handle out of the queue object without a reference: freed memory if the queue ends at once (C164_uaf). fini is not called
  when the arguments are invalid or the thread cannot be started (mpq.c:1006-1029, 1050-1057).
* aosl_main_start: once a start has failed every later one fails with EEXIST (C61_stuck).

Seen while reading, outside the models:

* lib/marshalling.c: FIXED_ARRAY with array_size ≥ 65536 never terminates (uint16 index); unknown child type reports success; aosl_decode_intN calls the encoder;
  strcat(s, s.c_str) is a use after free.
* net: dns.c does not copy the host name and accepts 56..64 arguments that are refused later; aosl_ip_sk_bind returns a
  count; aosl_bind sets no errno; ____sendto copies sizeof(addr) bytes from dest_addr.
* iofd.c: EINTR in read or drain closes the fd; install_fd failure leaks the fd obtained from get_fd_f; an fd invalid after get_fd_f reports success; failing timer creation silently
  disables the connect time-out; HUP is announced with the positive value 2 although documented as ≤ -20000.
* iomp: any negative dispatch result aborts the process; select with a stale descriptor (EBADF) aborts.
* locks/threads: aosl_lock_create returns a lock with a NULL mutex if creation fails; a failing pthread_setschedparam is reported as 0; unlocking an uninitialised static lock initialises and unlocks it;
  aosl_event_create allocates with aosl_malloc_impl.
* files/time: aosl_file_create keeps existing contents ("a+"); aosl_time_str with a negative length writes 24 bytes.
* lib/cond.c's infinite wait passes -1 to the HAL semaphore wait, which returns at once on Linux; rand_bytes loops for ever on read()==0.
* refobj.c: nested queue functions take the raw read lock twice.
* mpqp.c: aosl_mpq_alloc reads the entry after unlocking; aosl_mpq_free sets a negative errno; the limit of max_idles differs from its comment.
* tls/mm: thread nodes are never removed; the MALLOC of mm_ptr_node is unchecked; os_socket_pipe leaks the server socket when the client socket fails.

