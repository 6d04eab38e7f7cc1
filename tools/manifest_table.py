R="Verif.RBTree."
m("C01","proved",[R+"C01_contents"])
m("C02","proved",[R+"C02_balanced"])
m("C03","proved",[R+"C03_count"])
m("C04","proved",[R+"C04_lookup"])
m("C05","proved",[R+"C05_remove",R+"C05_erase_replace"])
m("C06","proved",[R+"C06_iteration"])
m("C07","proved",[R+"C07_traverse",R+"C07_early_stop"])
B="Verif.Bitmap."
m("C15","proved",[B+"C15_bitmap_set",B+"C15_get_at_count"],"bitmap_get with index = bit count passes the assertion (off by one); stated as C15_get_at_count")
m("C16","proved",[B+"C16_first_zero"])
m("C17","proved",[B+"C17_copy"])
D="Verif.DList."
m("C08","proved",[D+"C08_rings",D+"C08_queries",D+"C08_deleted"])
P="Verif.Psb."
m("C09","proved",[P+"C09_geometry"],"for buffers below 4 GiB: psb_headroom/tailroom return unsigned int")
m("C10","proved",[P+"C10_all_or_nothing"])
m("C11","proved",[P+"C11_payload"])
m("C12","partial",[P+"C12_push_partial",P+"C12_push_escapes",P+"C12_push_truncates"],"false for lengths >= 2^31 (signed comparison) and >= 2^32 (truncation); the violations are proved")
m("C13","partial",[P+"C13_ownership_partial",P+"C13_attach_then_free_violates",P+"C13_effects"],"false when a user buffer is attached to a library psb; the violation is proved")
m("C14","proved",[P+"C14_chain"])
W="Verif.Words."
m("C63","proved",[W+"C63_network_order",W+"C63_all_widths",W+"C63_bswap_mem"])
m("C73","proved",[W+"C73_half_window",W+"C73_asymmetric"])
m("C74","proved",[W+"C74_return_err",W+"C74_return_ptr_err"])
I="Verif.Inet."
m("C64","proved",[I+"C64_ipv4_text"])
m("C65","proved",[I+"C65_ipv6_round_trip",I+"C65_parser_grammar"])
m("C66","proved",[I+"C66_bounded_output"])
m("C76","proved",[I+"C76_canonical_text"])
m("C77","proved",[I+"C77_from_string",I+"C77_round_trip",I+"C77_small_buffer_untouched"],"with a too small buffer the call leaves the buffer unwritten and still returns it (proved as C77_small_buffer_untouched)")
T="Verif.IdTable."
m("C18","proved",[T+"C18_unique_handles"])
m("C19","proved",[T+"C19_stale_handles",T+"C19_alias_after_65535"],"the bound 65535 is tight: C19_alias_after_65535")
m("C20","partial",[T+"C20_capacity_partial",T+"C20_capacity_violated"],"false as stated: the bitmap size is passed as uint8_t, so at most 248 objects fit whatever the configured maximum; the violation is proved, and success below 248 is proved")
m("C37","proved",[T+"C37_slot_reuse",T+"C37_destructor_once"])
N="Verif.NetUtil."
m("C67","proved",[N+"C67_mapping",N+"C67_ipv4_source_reads_beyond"],"for IPv6 sources; the API also accepts an AF_INET source and then reads bytes 20..23 (proved, recorded in DESIGN.md)")
m("C68","proved",[N+"C68_prefix_equal"])
m("C78","proved",[N+"C78_dispatch"])
m("C79","proved",[N+"C79_classification"])
m("C80","proved",[N+"C80_prefix_bits",N+"C80_masked_cmp"])
m("C81","partial",[N+"C81_prefix_in_force_partial",N+"C81_special_prefix_ignored"],"false for v4-mapped and NAT64 prefixes, which are ignored (violation proved)")
m("C82","proved",[N+"C82_ip_equal",N+"C82_port_round_trip",N+"C82_dscp"])
m("C83","proved",[N+"C83_dual_socket_life",N+"C83_bind"])
m("C69","partial",["Verif.Route.C69_events_ipv4","Verif.Route.C69_events_partial","Verif.Route.C69_first_check","Verif.Route.C69_spurious_count_event"],"Full for builds without IPv6; with IPv6 a spurious 'count changed' event exists (proved), everything else is exact.")
m("C70","proved",["Verif.Route.C70_one_subscriber"],"")
m("C84","partial",["Verif.Route.C84_def_rt_str_partial","Verif.Route.C84_def_rt_str_overflow","Verif.Route.C84_truncated_partial"],"False of the code: for every buffer size of at least 2 an overflow exists (proved). Proved when both texts fit.")
m("C85","partial",["Verif.Route.C85_select_partial","Verif.Route.C85_default_metric_loses","Verif.Route.C85_max_metric_ignored","Verif.Route.C85_first_without_metric_partial"],"False for entries without metric attribute (metric 0), which lose; proved when every entry carries a metric below the maximum.")
m("C71","proved",["Verif.Netifs.C71_cache_is_a_map","Verif.Netifs.C71_no_leak"],"netifs.c complete; lists as sequences.")
m("C72","partial",["Verif.OnQ.C72_user_args_partial","Verif.OnQ.C72_invalid_queue","Verif.OnQ.C72_connect_loses_last","Verif.OnQ.C72_connect_without_args_ub"],"Proved for add_fd, listen, add_dgram, add_stream, create_timer, set_timer; false of aosl_mpq_connect_on_q, which loses the last argument and reads out of bounds without arguments (both proved).")
m("C75","proved",["Verif.OnQ.C75_resolve_replies_once","Verif.OnQ.C75_argument_limit"],"")
m("C21","partial",["Verif.Marshal.C21_marshal","Verif.Marshal.C21_unmarshal","Verif.Marshal.C21_round_trip_partial","Verif.Marshal.C21_sequence_partial","Verif.Marshal.C21_uninitialised"],"Proved for every descriptor graph (recursive ones too), every value and segmentation, under the assumption that the uninitialised helper_type.is_have is NULL; otherwise undefined behaviour (proved).")
m("C22","partial",["Verif.Marshal.C22_truncated_partial"],"As C21: assumes the uninitialised helper_type.is_have is NULL.")
m("C23","partial",["Verif.Marshal.C23_segmentation_partial","Verif.Marshal.C23_violated"],"False for chains with an empty segment behind the first (proved); proved for all others.")
m("C24","proved",["Verif.Marshal.C24_capacities","Verif.Marshal.C24_refused","Verif.Marshal.C24_string_refused","Verif.Marshal.C24_unknown"],"")
m("C86","partial",["Verif.Marshal.C86_terminated_partial","Verif.Marshal.C86_unterminated"],"False for strings of 65536 bytes and more (proved); proved for shorter ones.")
m("C87","partial",["Verif.Marshal.C87_big_endian_partial","Verif.Marshal.C87_byte_order"],"False of little-endian machines, which send little-endian data (proved).")
m("C25","proved",["Verif.DynArray.C25_append","Verif.DynArray.C25_histories","Verif.DynArray.C25_deterministic","Verif.DynArray.C25_init"],"Explicit heap; allocation failures included. Arguments aliasing the array's own memory are not modelled.")
m("C26","proved",["Verif.DynArray.C26_strcat","Verif.DynArray.C26_strcpy","Verif.DynArray.C26_copy","Verif.DynArray.C26_strcpy_out","Verif.DynArray.C26_strcpy_out_zero","Verif.DynArray.C26_failed_strcpy"],"buf_sz = 0 overruns (outside the claim, proved); a failing strcpy leaves an empty string whose C text is the old one (proved).")
m("C27","proved",["Verif.DynArray.C27_total_order"],"")
m("C88","partial",["Verif.DynArray.C25_histories","Verif.DynArray.C88_no_leak_partial","Verif.DynArray.C88_init_with_leaks"],"False for init_with of a multiple of 65536 elements (proved); proved for histories where init_with gets less than 65536.")
T="Verif.Timer."
m("C28","proved",[T+"C28_order",T+"C28_nondecreasing",T+"C28_no_ub"],"Red-black tree and linked list of the timer base modelled; the comparison is unsigned, so a timer with expiry 2^64-1 (see C29_zero_expiry) counts as last.")
m("C29","proved",[T+"C29_not_early",T+"C29_history",T+"C29_zero_expiry"],"expire_time 0 passed to aosl_mpq_set_oneshot_timer_on_q is stored as 2^64-1, outside the range of the claim, and fires at once (proved).")
m("C30","proved",[T+"C30_at_most_once",T+"C30_exactly_once"],"")
m("C31","proved",[T+"C31_no_drift",T+"C31_lag",T+"C31_burst"],"The comment at kernel/timer.c:522 says bursts of catch-up calls are avoided; they are not (C31_burst).")
m("C32","partial",[T+"C32_cancel",T+"C32_kill_partial","Verif.TimerRef.C32_kill_race"],"False when a reschedule by another thread overlaps the kill (proved); proved for calls executed on the owning queue with nothing in flight.")
m("C33","proved",["Verif.TimerRef.C33_dtor_once","Verif.TimerRef.C33_dead_stays_dead","Verif.TimerRef.C33_no_fire_before_set","Verif.TimerRef.C33_oneshot_once","Verif.TimerRef.C33_callback_not_reentered"],"")
m("C89","proved",[T+"C89_sleep"],"")
m("C90","partial",["Verif.TimerRef.C90_safe_partial","Verif.TimerRef.C90_uaf"],"False: a reschedule that overlaps a kill leaves a freed timer in the timer base (proved); proved when no reschedule reaches the queue after the kill.")
m("C91","partial",["Verif.TimerRef.C91_partial","Verif.TimerRef.C91_freed_in_callback"],"False when the callback kills its own timer (proved).")
m("C55","proved",["Verif.RwLock.C55_exclusion","Verif.RwLock.C55_exclusion_64","Verif.RwLock.C55_exclusion_32","Verif.RwLock.C55_no_overflow"],"raw lock, atomic operations interleaved, fast and slow paths; fewer than 2^32 (2^16 on 32-bit) threads")
m("C92","proved",["Verif.RwLock.C92_no_lost_wakeup","Verif.RwLock.C92_downgrade"],"same model as C55, with the events of the waiters")
m("C93","partial",["Verif.RwLock.C93_uaf","Verif.RwLock.C93_writer_partial","Verif.RwLock.C93_partial"],"false in general: C93_uaf is a run that pulses a destroyed event; it holds for writers, and for readers already blocked in the event wait")
m("C56","proved",["Verif.KLocks.Rw.C56_upgrade_atomic","Verif.KLocks.Rw.C56_no_writer","Verif.KLocks.Rw.C56_downgrade_atomic","Verif.KLocks.Rw.C56_exclusion"],"k_rwlock over an abstract raw lock (whose exclusion is C55)")
m("C94","partial",["Verif.KLocks.Rw.C94_abort","Verif.KLocks.Rw.C94_partial"],"false when an upgraded lock is released with wrunlock (proved); holds if it is given back with wr2rdlock")
m("C57","partial",["Verif.KLocks.Event.C57_set_lost","Verif.KLocks.Event.C57_pulse_two","Verif.KLocks.Event.C57_spurious","Verif.KLocks.Event.C57_pulse_not_all","Verif.KLocks.Event.C57_set_partial","Verif.KLocks.Event.C57_pulse_partial","Verif.KLocks.Event.C57_single_partial","Verif.KLocks.Event.C57_conserved_partial","Verif.KLocks.Event.C57_set_releases_partial","Verif.KLocks.Event.C57_no_early_partial"],"false in general (four proved counterexamples); holds without pulse on a set event, without spurious wake-ups of the condition variable, and for one waiter")
m("C58","partial",["Verif.KLocks.StaticLock.C58_init_once","Verif.KLocks.StaticLock.C58_false_success","Verif.KLocks.StaticLock.C58_success_partial","Verif.KLocks.StaticLock.C58_conserved","Verif.KLocks.StaticLock.C58_stays"],"the second half is false when the underlying initialisation fails (proved)")
m("C95","partial",["Verif.KLocks.Cond.C95_signal_lost","Verif.KLocks.Cond.C95_broadcast_partial","Verif.KLocks.Cond.C95_signal_partial","Verif.KLocks.Cond.C95_no_spurious"],"false for signals: two signals can wake one of two waiters (proved)")
m("C34","proved",["Verif.RefObj.C34_no_use_after_free","Verif.RefObj.C34_destructor","Verif.RefObj.C34_callbacks_may_call"],"one object, any number of threads with nested calls, over an abstract read-write lock (C55, C56)")
m("C35","proved",["Verif.RefObj.C35_no_callback","Verif.RefObj.C35_once","Verif.RefObj.C35_after_delete"],"a mark-only destroy may be followed by one successful delete, as documented in the code")
m("C36","proved",["Verif.RefObj.C36_exclusion","Verif.RefObj.C36_no_upgrade_abort"],"hold callbacks and functions run with asynchronous objects take no lock and are exempt")
m("C43","proved",["Verif.RefObj.C43_free_only","Verif.RefObj.C35_no_callback"],"")
m("C96","partial",["Verif.RefObj.C96_abort_partial","Verif.RefObj.C96_no_false_abort_partial","Verif.RefObj.C96_self_deadlock","Verif.RefObj.C96_two_upgrades_partial"],"false for the write callback: the thread waits for itself forever (proved)")
m("C97","proved",["Verif.RefObj.C97_caller_free"],"")
m("C38","proved",["Verif.Mpq.C38_fifo","Verif.Mpq.C38_call_order"],"any number of threads and queues; interleaving model of kernel/mpq.c, one action per critical section")
m("C39","proved",["Verif.Mpq.C39_at_most_once","Verif.Mpq.C39_refused","Verif.Mpq.C39_accepted","Verif.Mpq.C39_freed","Verif.Mpq.C39_progress"],"safety for every schedule; the 'eventually' part is that the queue's own thread can always get any accepted function invoked by its own steps alone, and that a freed queue has invoked everything")
m("C40","proved",["Verif.Mpq.C40_bound","Verif.Mpq.C40_config","Verif.Mpq.C40_full","Verif.Mpq.C40_room","Verif.Mpq.C40_capacity","Verif.Mpq.C40_capacity_range"],"bound counted from the log: accepted minus retired functions")
m("C41","proved",["Verif.Mpq.C41_after","Verif.Mpq.C41_frame","Verif.Mpq.C41_inline"],"")
m("C42","proved",["Verif.Mpq.C42_once","Verif.Mpq.C42_after","Verif.Mpq.C42_free_only","Verif.Mpq.C42_exactly_one","Verif.Mpq.C42_local"],"")
m("C44","proved",["Verif.Mpq.C44_destroyed","Verif.Mpq.C44_stale","Verif.Mpq.C44_progress"],"")
m("C46","proved",["Verif.Mpq.C46_limits","Verif.Mpq.C46_refused"],"")
m("C98","proved",["Verif.Mpq.C98_users"],"")
m("C99","partial",["Verif.Mpq.C99_no_lost_wakeup_partial","Verif.Mpq.C99_not_empty_partial","Verif.Mpq.C99_self_deadlock","Verif.Mpq.C99_self_deadlock_reached"],"No wake-up is lost (proved for every schedule). The full statement is false: a function running on a blocking queue that queues to its own full queue blocks the only thread that could make room, for ever (C99_self_deadlock, reached by a concrete schedule).")
m("C45","proved",["Verif.Wakeup.C45_no_lost_wakeup","Verif.Wakeup.C45_kick_arrives","Verif.Wakeup.C45_never_stuck","Verif.Wakeup.C45_executed_bounded","Verif.Wakeup.C45_exit_only_terminated","Verif.Wakeup.C45_exit_only_destroyed","Verif.Wakeup.C45_conserved","Verif.Wakeup.C45_destroy_terminates","Verif.Wakeup.C45_terminates"],"interleaving model of need_kicking/kick_q_count/pipe or event handshake, any number of producers; sequential consistency assumed (the code has full barriers)")
m("C47","proved",["Verif.Pool.C47_bounded","Verif.Pool.C47_entries","Verif.Pool.C47_least_loaded","Verif.Pool.C47_least_allocated","Verif.Pool.C47_create"],"interleaving of pool critical sections and queue steps, any number of threads")
m("C48","proved",["Verif.Pool.C48_at_most_once","Verif.Pool.C48_after_all","Verif.Pool.C48_invoked"],"log-based; queues shrunk away or destroyed in between included; per-queue FIFO execution is taken from the queue model (C38-C42)")
m("C49","partial",["Verif.Pool.C49_free_partial","Verif.Pool.C49_shrink_partial","Verif.Pool.C49_alloc_crashes"],"proved for a pool that exists; the public aosl_mpq_alloc/aosl_mpq_free work on gen_pool, which k_mpqp_init never creates: null dereference (C49_alloc_crashes)")
m("C100","partial",["Verif.Pool.C100_deadlock","Verif.Pool.C100_ends_partial"],"fails: two idle timers of a pool of three queues deadlock (C100_deadlock); proved when no pool function itself waits for a shrink")
m("C101","partial",["Verif.Pool.C101_uaf","Verif.Pool.C101_uaf_shrunk","Verif.Pool.C101_destroy_partial"],"fails for wait = 0 and for queues still ending from an earlier shrink; proved for a waiting destroy from outside when the others have ended")
m("C50","partial",["Verif.IoWrite.C50_stream_partial","Verif.IoWrite.C50_oom_partial","Verif.IoWrite.C50_oom_torn","Verif.IoWrite.C50_wire_grows","Verif.IoWrite.C50_flush","Verif.IoWrite.C50_drains"],"Exact for all histories without allocation failure; with allocation failures only a write reporting ENOMEM can leave a strict prefix of its bytes in the stream (C50_oom_partial), and it does (C50_oom_torn), so the full statement is false")
m("C51","proved",["Verif.IoWrite.C51_bound","Verif.IoWrite.C51_refuse","Verif.IoWrite.C51_accept","Verif.IoWrite.C51_conservative"],"a partially written message counts in full (C51_conservative), so a write can be refused although the unsent bytes leave room; the bound and the refusals hold")
m("C52","proved",["Verif.IoRead.C52_lossless","Verif.IoRead.C52_packets","Verif.IoRead.C52_split_independent","Verif.IoRead.C52_prefix"],"for check functions that are deterministic, stable under more input and whose packets fit the registered size (Good); C52_lossless holds for every check function")
m("C53","proved",["Verif.IoRead.C53_no_overflow", "Verif.IoRead.C53_sizes"],"all sizes, check functions, callbacks and read results")
m("C102","partial",["Verif.IoWrite.C102_bypass","Verif.IoWrite.C102_queued_partial"],"false: the first attempt of a write on an empty queue calls the HAL write directly (C102_bypass); everything queued goes through the registered function")
m("C103","proved",["Verif.IoWrite.C103_held","Verif.IoWrite.C103_timeout"],"order after establishment: C50_stream_partial, C50_flush")
m("C104","partial",["Verif.IoWrite.C104_positive","Verif.IoWrite.C104_ran_partial"],"false when the call into the fd's queue fails: a positive error number is returned (C104_positive); holds whenever the function ran")
m("C105","partial",["Verif.IoRead.C105_datagrams_partial","Verif.IoRead.C105_truncated","Verif.IoRead.C105_spin"],"holds for datagrams up to the registered size; larger ones are cut (C105_truncated), and the event loop does not end while reads return 0 (C105_spin)")
m("C106","partial",["Verif.IoRead.C106_no_false_eof_partial","Verif.IoRead.C106_reported_partial","Verif.IoRead.C106_final","Verif.IoRead.C106_spurious","Verif.IoRead.C106_spurious_reachable","Verif.IoRead.C106_repeated"],"holds for check functions whose packets fit; an incomplete packet filling the buffer is taken for the end of the stream (C106_spurious), and the end is reported again at every later event (C106_repeated)")
m("C107","partial",["Verif.IoRead.C107_close_partial","Verif.IoRead.C107_del_continues"],"holds for aosl_close; aosl_mpq_del_fd from a callback does not stop the loop (C107_del_continues)")
m("C54","partial",["Verif.FdTab.C54_single_partial","Verif.FdTab.C54_lookup","Verif.FdTab.C54_second_refused_partial","Verif.FdTab.C54_readd","Verif.FdTab.C54_destroyed_once_partial","Verif.FdTab.C54_fini_partial","Verif.FdTab.C54_orphan","Verif.FdTab.C54_fini_spin","Verif.FdTab.C54_addfail_uaf"],"proved for histories in which no removal through a stale object hits a later registration of the same number (NoStale) and no failing registration frees an object another thread has got (NoHeldAbort); both conditions are needed: C54_orphan, C54_fini_spin, C54_addfail_uaf")
m("C59","partial",["Verif.Tls.C59_refines_partial","Verif.Tls.C59_id_reuse"],"holds while thread ids are not reused; a new thread with the id of an ended one sees that one's values (C59_id_reuse)")
m("C60","proved",["Verif.Lifecycle.C60_serial","Verif.Lifecycle.C60_exclusive","Verif.Lifecycle.C60_nesting","Verif.Lifecycle.C60_reverse","Verif.Lifecycle.C60_progress"],"")
m("C61","partial",["Verif.Lifecycle.C61_stuck","Verif.Lifecycle.C61_restart_partial","Verif.Lifecycle.C61_results"],"false once a creation has failed: every later aosl_main_start fails with EEXIST (C61_stuck); holds in all histories without a failed creation")
m("C62","partial",["Verif.Mm.C62_exact_partial","Verif.Mm.C62_zero_partial","Verif.Mm.C62_no_realloc","Verif.Mm.C62_race","Verif.Mm.C62_tree_choice","Verif.Mm.C62_realloc_zero"],"exact for serial histories in which realloc does not reach a pointer another thread re-records; false for the realloc race (C62_race) and realloc to size 0 (C62_realloc_zero)")
m("C108","partial",["Verif.Tls.C108_revived","Verif.Tls.C108_broken","Verif.Tls.C108_out_partial"],"false for a second delete: it succeeds and corrupts the key bookkeeping (C108_revived, C108_broken); keys out of range are refused")
m("C109","partial",["Verif.Tls.C109_create_partial","Verif.Tls.C109_limit","Verif.Tls.C109_never_more"],"only 240 keys can exist: the 241st create fails (C109_limit); up to 240 keys it holds")
m("C110","partial",["Verif.Errno.C110_private","Verif.Errno.C110_no_double_free","Verif.Errno.C110_leak","Verif.Errno.C110_freed_partial","Verif.Errno.C110_fini_twice"],"the values are private and nothing is freed twice in every interleaving; a block leaks when two first uses race (C110_leak); without such a race all is freed")
m("C111","partial",["Verif.MemApi.C111_calloc_partial","Verif.MemApi.C111_calloc_overflow","Verif.MemApi.C111_strdup"],"false for products that overflow size_t (C111_calloc_overflow)")
m("C112","partial",["Verif.MemApi.C112_dump_partial","Verif.MemApi.C112_one","Verif.MemApi.C112_nothing"],"false for a buffer of one character (C112_one) and if there is nothing to print (C112_nothing); holds otherwise")
m("C113","partial",["Verif.WaitTime.C113_exact_partial","Verif.WaitTime.C113_infinite","Verif.WaitTime.C113_early","Verif.WaitTime.C113_sleeps_forever"],"Proved for timeouts below 2^31 ms, all interruptions. False beyond: the HAL takes an int, and half of the longer timeouts become 'no timeout' (C113_sleeps_forever).")
m("C114","proved",["Verif.WaitTime.C114_deadline"],"The timespec given to the OS is valid and is exactly now + ms.")
m("C115","partial",["Verif.Iomp.C115_poll_partial","Verif.Iomp.C115_select","Verif.Iomp.C115_once","Verif.Iomp.C115_junk"],"Proved for select, and for poll if the uninitialised events field happens to be zero. False for poll otherwise (C115_junk).")
m("C116","partial",["Verif.Iomp.C116_served_partial","Verif.Iomp.C116_starves"],"Proved when at most 64 events are due. False with more: 64 always-ready fds registered first starve the rest (C116_starves).")
m("C117","partial",["Verif.Iomp.C117_error_ignored"],"False for poll: an fd with only an error makes every wait return at once with no event, so the queue spins (C117_error_ignored).")
m("C118","proved",["Verif.Wakeup.C118_idle_sleeps","Verif.Wakeup.C118_stays_asleep"],"On the wake-up model; an fd that is ready but never served (C117) is not part of it.")
m("C119","partial",["Verif.Arm.C119_event_due_partial","Verif.Arm.C119_progress","Verif.Arm.C119_chunks_stall","Verif.Arm.C119_null_stalls","Verif.Arm.C119_null_crashes","Verif.Arm.C119_conserved"],"Proved for the default write function in both waiting modes. False for a custom write function that passes on only part of its data in edge-triggered mode (C119_chunks_stall) and for a registration without a write function (C119_null_stalls, C119_null_crashes).")
m("C120","partial",["Verif.Dispatch.C120_right_partial","Verif.Dispatch.C120_all","Verif.Dispatch.C120_wrong_thread","Verif.Dispatch.C120_wrong_close"],"Proved when no fd number of the batch is registered anew during the dispatch of the batch. False with a reused number (C120_wrong_thread, C120_wrong_close).")
m("C121","partial",["Verif.Mpq.C121_released","Verif.Mpq.C121_dterm","Verif.Mpq.C121_eintr","Verif.Mpq.C121_third_party","Verif.Mpq.C121_third_party_reached"],"Proved when the queue that waits is the one that calls destroy. False when a third thread destroys the queue while the first one waits for it: destroying wakes only the waiters of the destroyer's own queue (C121_third_party).")
m("C122","proved",["Verif.IoRead.C122_error_last","Verif.IoRead.C122_announced","Verif.IoRead.C122_read_fails","Verif.IoRead.C122_bad_check","Verif.IoRead.C122_close","Verif.IoRead.C122_close_in_callback","Verif.IoWrite.C122_write_closed","Verif.IoWrite.C122_write_error_last","Verif.IoWrite.C122_write_fails","Verif.IoWrite.C122_connect_timeout","Verif.IoBoth.C122_whole_events"],"read side and write side are two models of the same fd; C122_close_in_callback assumes no callback unregisters without closing (that case is C123)")
m("C123","partial",["Verif.IoRead.C123_goes_on","Verif.IoRead.C123_next_event_partial"],"FALSE in the code: C123_goes_on: the read loop goes on delivering buffered data and reads the fd number again; _partial: from the next event on nothing happens")
m("C124","partial",["Verif.IoBoth.C124_listen_dies","Verif.IoBoth.C124_error"],"FALSE in the code: accept's EAGAIN is reported as a platform error, so after each batch the listening socket is announced dead and closed; the pending connections of that batch are delivered")
m("C125","proved",["Verif.Hal.C125_translation","Verif.Hal.C125_window","Verif.Hal.C125_connect","Verif.Hal.C125_constants"],"Linux errno values; accept is excluded (it has no error code, see C124)")
m("C126","partial",["Verif.IoBoth.C126_epoll_partial","Verif.IoBoth.C126_poll_announces_success","Verif.IoBoth.C126_immediate","Verif.IoBoth.C126_results","Verif.PortIomp.darwin_connect_announces_success"],"FALSE with poll and select: writability of a failed attempt is announced as success (C126_poll_announces_success); holds with epoll")
m("C127","partial",["Verif.IoBoth.C127_check_after_close","Verif.IoBoth.C127_read_after_close","Verif.IoBoth.C127_partial","Verif.IoRead.C122_close","Verif.IoRead.C122_close_in_callback","Verif.IoBoth.C127_closed","Verif.IoBoth.C127_del","Verif.IoBoth.C127_hup_after_del"],"FALSE: when the ready callback closes the fd and the same event is also readable, check, read and data functions still run; _partial: holds if the close happened before the event or in the read part")
m("C128","proved",["Verif.Hal.C128_to_kernel","Verif.Hal.C128_from_kernel","Verif.Hal.C128_reply","Verif.Hal.C128_resolve","Verif.Hal.C128_resolve_bound"],"Linux HAL; the resolver part assumes ai_family is the family of ai_addr")
m("C129","partial",["Verif.Hal.C129_wrong_address","Verif.Hal.C129_v6_fails","Verif.Hal.C129_partial"],"FALSE: the address of the default-route interface is returned whatever the socket is bound to; IPv6 sockets always fail; the port is right")
m("C130","partial",["Verif.Hal.C130_other_device","Verif.Hal.C130_partial","Verif.Hal.C130_empty_partial"],"FALSE for names longer than 15 characters: they are cut and may name another device")
m("C131","partial",["Verif.Hal.C131_unnamed","Verif.Hal.C131_names_partial","Verif.Hal.C131_distinct_partial"],"FALSE for EHAL and EWOULDBLOCK, which have no name; all others are exact")
m("C132","proved",["Verif.RefObj.C132_no_deadlock"],"calls made from inside the object's own callbacks are the subject of C96")
T="Verif.ThreadApi."
Y="Verif.SysApi."
m("C133","partial",[T+"C133_lock_inverted",T+"C133_two_inside",T+"C133_rd_inverted",T+"C133_wr_inverted",T+"C133_timeout_positive",T+"C133_static_partial",T+"C133_lock_result_partial",T+"C133_exclusion_partial",T+"C133_timed_partial","Verif.ThreadApi.C133_wr_excludes","Verif.ThreadApi.C133_event_zero"],"FALSE in the code: the three lock try calls return 1 for success and 0 for failure, the opposite of the documentation (two threads that follow it are inside together, C133_two_inside); time-outs and busy static locks are positive. Proved: the actual results, and exclusion for threads that take 1 for success")
m("C134","partial",[T+"C134_blocks",T+"C134_prompt_partial"],"FALSE in the code: the call waits for the internal mutex, which a writer holds for as long as it has the lock; prompt if no thread writes or upgrades")
m("C135","partial",[T+"Start.C135_safe_partial",T+"Start.C135_progress_partial",T+"Start.C135_bounded",T+"Start.C135_hangs","Verif.ThreadApi.Start.C135_would_show"],"FALSE when pthread_create fails: its positive error is taken for success and the creator waits for ever (C135_hangs); everything holds when the thread can be created")
m("C136","proved",[Y+"C136_in_buffer",Y+"C136_uuid"])
m("C137","partial",[Y+"C137_filled_partial",Y+"C137_truncated"],"FALSE from 2^32 on: the length is cut to int and success is reported for the low part (C137_truncated); holds below 2^31")
m("C138","partial",[Y+"C138_size_partial",Y+"C138_looks_failed",Y+"C138_wrong_size",Y+"C138_count_partial",Y+"C138_mkdir_on_file",Y+"C138_mkdir_partial","Verif.SysApi.C138_failures"],"FALSE from 2 GiB on, and for aosl_mkdir on an existing regular file")
m("C139","partial",[Y+"C139_sleep_partial",Y+"C139_short",Y+"C139_one_more"],"FALSE for every duration above 4294967 ms (usleep takes 32 bits); exact below")
m("C140","partial",[Y+"C140_tick_partial",Y+"C140_sec",Y+"C140_time_str",Y+"C140_digits",Y+"C140_tick_us_stopped","Verif.SysApi.C140_ranges","Verif.SysApi.C140_year_10000"],"FALSE for aosl_tick_us, which is always 0; the rest is proved (clock below 2^54 s, years up to 9999)")
m("C141","proved",[Y+"C141_calls",Y+"C141_last_reference",Y+"C141_one_winner"],"calls are atomic (the HAL uses sequentially consistent builtins); 64-bit intptr_t")
m("C142","proved",[Y+"C142_messages",Y+"C142_range"])
m("C143","proved",[Y+"C143_ordered",Y+"C143_range_22"],"for non-negative ranges; a range that begins or ends at 22 is refused as if it were EINVAL (C143_range_22)")
m("C144","proved",["Verif.IoBoth.C144_served"],"one event of one fd whose callbacks leave it open; events with an error are C126, callbacks that close are C122 and C127")
m("C145","partial",["Verif.Iomp.C145_waits_partial","Verif.Iomp.C145_poll_aborts","Verif.Iomp.C145_select_overflows"],"FALSE with poll (more than 1024 fds end the process) and with select (an fd number from 1024 on is written outside the set); holds with epoll and within these limits")
m("C146","partial",["Verif.SockPipe.C146_at_most_25","Verif.SockPipe.C146_create_partial","Verif.SockPipe.C146_refused","Verif.SockPipe.C146_leaks"],"FALSE: at most 25 queues at a time, a creation can fail with one queue alive, and a failure can leave a socket open; what decides success is proved")
m("C147","partial",["Verif.Netlink.C147_one_datagram","Verif.Netlink.C147_done_inside","Verif.Netlink.C147_last_decides_partial","Verif.Netlink.C147_any_dump_partial","Verif.Netlink.C147_spans_datagrams","Verif.Netlink.C147_other_family"],"proved for dumps in one datagram and when the last datagram decides; existence and number for all dumps; false in general: the pointers kept across recv calls point into overwritten data (witness), and routes of the other family are accepted (witness)")
m("C148","partial",["Verif.Netlink.C148_attributes","Verif.Netlink.C148_links","Verif.Netlink.C148_route_partial","Verif.Netlink.C148_route_short","Verif.Netlink.C148_gateway_overflow","Verif.Netlink.C148_name_unterminated"],"attribute parser and link dump: proved for all bytes; route dump: at most 8 bytes too far; witnesses for the read past a short route message, the gateway overflow and the unterminated name")
m("C149","proved",["Verif.Netlink.C149_link_dump"],"refinement of the byte parser to the interface map (uses C71)")
m("C150","partial",["Verif.Netlink.C150_notifications_partial","Verif.Netlink.C150_unpadded"],"proved for padded messages (what the kernel sends); an unpadded last message makes the unsigned length wrap and the loop run on, possibly for ever (witness)")
m("C151","partial",["Verif.Netlink.C151_closed_once_partial","Verif.Netlink.C151_double_close","Verif.Netlink.C151_stale_descriptor"],"proved when the socket can always be set up; double close on failure and a stale descriptor after a failed recreation (witnesses)")
m("C152","proved",["Verif.MarshalMem.C152_init_fini","Verif.MarshalMem.C152_fini_twice","Verif.MarshalMem.C152_init_zero","Verif.MarshalMem.C152_fini_empty"],"ownership invariant over cell trees; needs get_type_size to return (Sane)")
m("C153","partial",["Verif.MarshalMem.C153_no_leak_partial","Verif.MarshalMem.C153_rounds_partial","Verif.MarshalMem.C153_violated_optional","Verif.MarshalMem.C153_violated_string","Verif.MarshalMem.C153_reuse_leaks"],"false for optional pointer fields inside allocated objects (uninitialised pointer freed) and for DYNAMIC_STRINGs of 65535 bytes (leak); proved otherwise")
m("C154","partial",["Verif.MarshalMem.C154_failed_receive_partial","Verif.MarshalMem.C154_violated","Verif.MarshalMem.C154_violated_ptr","Verif.MarshalMem.C154_violated_var","Verif.MarshalMem.C154_leaked"],"false: finalising after a truncated message frees uninitialised pointers (witnesses for dynamic arrays, pointers, var arrays); proved when allocated objects contain no pointers")
m("C155","proved",["Verif.MarshalMem.C155_memory","Verif.MarshalMem.C155_received"],"refinement of the memory model to the value model of C21-C24 (which assumes the uninitialised helper_type.is_have to be NULL)")
m("C156","partial",["Verif.RBWalk.C156_post_order","Verif.RBWalk.C156_reachable","Verif.RBWalk.C156_visits_root","Verif.RBWalk.C156_all_when_unchanged","Verif.RBWalk.C156_pre_order_unsafe","Verif.RBWalk.C156_in_order_unsafe","Verif.RBWalk.C156_cleanup_partial","Verif.RBWalk.C156_cleanup_leaves_idle","Verif.RBWalk.C156_skips","Verif.RBWalk.C156_idle_exact","Verif.RBWalk.C156_small"],"Memory safety, termination, exact contents and validity of the tree hold for every tree and callback. That a cleanup frees every idle record is false of the code (C156_cleanup_leaves_idle: 15 of 65); the clock is read once per walk in the model.")
m("C157","partial",["Verif.RefNode.C157_safe_partial","Verif.RefNode.C157_exact_partial","Verif.RefNode.C157_kept_partial","Verif.RefNode.C157_no_leak_partial","Verif.RefNode.C157_cleanup_condition","Verif.RefNode.C157_month","Verif.RefNode.C157_uaf","Verif.RefNode.C157_flags"],"Proved for all schedules in which no thread is suspended for a minute between finding its record and letting go of it; without that assumption a freed record is read (C157_uaf). Records idle for 25 to 49 days are not collected (C157_month).")
m("C158","partial",["Verif.NetSub.C158_disciplined_partial","Verif.NetSub.C158_stuck","Verif.NetSub.C158_lost","Verif.NetSub.C158_foreign","Verif.NetSub.C158_recover","Verif.NetSub.C158_running","Verif.NetSub.C158_grant"],"Holds in every history in which the subscribed queue unsubscribes before it ends and before shutdown. Otherwise it is false of the code: nobody can subscribe or unsubscribe any more (C158_stuck), interface records leak (C158_lost), a foreign descriptor can be closed (C158_foreign).")
m("C159","partial",["Verif.QHandle.C159_direct","Verif.QHandle.C159_pool_partial","Verif.QHandle.C159_pool_broken","Verif.QHandle.C159_after_32767","Verif.QHandle.C159_main_partial","Verif.QHandle.C159_main_starting"],"True of the handles the queue calls return, and of those the pool calls return with 32-bit pointers or for the first 32767 queues; false of the code with wider pointers for later queues (C159_pool_broken): the value is sign-extended from an int and no longer resolves.")
m("C160","partial",["Verif.RunQuery.C160_answers_partial","Verif.RunQuery.C160_restored","Verif.RunQuery.C160_null_args","Verif.RunQuery.C160_null_data"],"True for every nesting of invocations that have a pointer to their arguments; false of the code for synchronous calls without arguments or data (C160_null_args, C160_null_data), which are told EPERM as if no function were running.")
m("C161","partial",["Verif.RunQuery.C161_logic_partial","Verif.RunQuery.C161_costs_zero","Verif.RunQuery.C161_perf_wrong"],"The arithmetic is right for a working microsecond clock (C161_logic_partial); false of the code because aosl_tick_us always returns 0: costs are always 0, the execution time reported is always 0 and the waiting time is minus the time of queueing.")
m("C162","partial",["Verif.PoolIdle.C162_taken_partial","Verif.PoolIdle.C162_empties","Verif.PoolIdle.C162_busy_taken","Verif.PoolIdle.C162_events_ignored","Verif.PoolIdle.C162_size"],"The idle seconds are counted exactly and a check takes queues only after that time, but it is false of the code that the queues taken are the idle ones: the newest queue is taken (C162_busy_taken), and events and timers do not count as work (C162_events_ignored).")
m("C163","proved",["Verif.QWait.C163_safe","Verif.QWait.C163_not_stuck","Verif.QWait.C163_terminates","Verif.QWait.C163_all_return","Verif.QWait.C163_admission"],"mpq.c:799-998, 1639-1764")
m("C164","partial",["Verif.QWait.C164_partial","Verif.QWait.C164_answer","Verif.QWait.C164_result","Verif.QWait.C164_uaf"],"the creating call reads the handle from the queue object without a reference: false when the queue ends at once (C164_uaf); holds when nobody asks for the end before the creating call has read the handle")
m("C165","partial",["Verif.QFlags.C165_partial","Verif.QFlags.C165_exact","Verif.QFlags.C165_create","Verif.QFlags.C165_protection","Verif.QFlags.C165_wakeup","Verif.QFlags.C165_bad_op","Verif.QFlags.C165_negative"],"false of the code for changes of other bits than NONBLOCK: protection and wake-up flag can be changed, unknown operations are accepted, protected flags look like errors")
m("C166","proved",["Verif.QFlags.C166_constant","Verif.QFlags.C166_stable","Verif.QFlags.C166_answer"],"")
m("C167","partial",["Verif.TimerApi.C167_current","Verif.TimerApi.C167_on_q_partial","Verif.TimerApi.C167_many_args","Verif.TimerApi.C167_zero_expiry"],"the _on_q calls refuse 60 (61) to 64 user arguments and accept the time 0")
m("C168","partial",["Verif.TimerApi.C168_sequential_partial","Verif.TimerApi.C168_keep_lost","Verif.TimerApi.C168_oneshot_lost"],"false for overlapping calls: the interval is read on the caller's thread")
m("C169","partial",["Verif.TimerApi.C169_partial","Verif.TimerApi.C169_uaf","Verif.TimerApi.C169_end"],"false if the timer is killed by its callback, or its queue ends, before the making call has returned")
m("C170","partial",["Verif.CurQ.C170_partial","Verif.CurQ.C170_stable","Verif.CurQ.C170_nested","Verif.CurQ.C170_orphan","Verif.CurQ.C170_this_destroyed","Verif.CurQ.C170_this_destroyed_none"],"proved without nested loops; a nested aosl_mpq_loop uses the queue after it was freed; a thread that ends without a loop leaves its queue behind")
m("C171","partial",["Verif.CurQ.C171_exact","Verif.CurQ.C171_partial","Verif.CurQ.C171_kicks","Verif.CurQ.C171_lag"],"wake-ups are counted as descriptor events, synchronous calls on the queue itself are not counted, a running batch is counted when it is finished")
m("C172","partial",["Verif.CondSim.C172_accounting_partial","Verif.CondSim.C172_timeout","Verif.CondSim.C172_broadcast_partial","Verif.CondSim.C172_signal_partial","Verif.CondSim.C172_signal_stolen","Verif.CondSim.C172_broadcast_lost","Verif.CondSim.C172_left_over","Verif.CondSim.C172_ticks","Verif.CondSim.C172_zero_forever"],"proved as long as nobody starts waiting after the wake-up; otherwise a late comer takes it")
m("C173","partial",["Verif.PortThread.Win.C173_windows_safe","Verif.PortThread.Win.C173_windows_released","Verif.PortThread.Win.C173_windows_detach","Verif.PortThread.Win.C173_windows_exit","Verif.PortThread.Xr.C173_xr872","Verif.PortThread.Tw.C173_tw82x_limit","Verif.PortThread.Tw.C173_tw82x_exact","Verif.PortThread.Ac.C173_ac791n_leak","Verif.PortThread.Ipro.C173_ipro7_partial","Verif.PortThread.Ipro.C173_ipro7_double_free","Verif.PortThread.Ipro.C173_ipro7_uaf"],"true on windows (threads that return) and xr872; tw82x starts 32 threads in all, ac791n leaks, ipro7 races")
m("C174","partial",["Verif.PortThread.Win.C174_windows","Verif.PortThread.Xr.C174_xr872_partial","Verif.PortThread.Xr.C174_xr872_foreign","Verif.PortThread.Ac.C174_ac791n_exact","Verif.PortThread.Ac.C174_ac791n_clash"],"true on windows and for the library's threads on xr872; false for foreign threads on xr872 and after 16 threads on ac791n")
m("C175","partial",["Verif.PortTime.C175_asked","Verif.PortTime.C175_rtos_exact","Verif.PortTime.C175_cut","Verif.PortTime.C175_fixed"],"true on windows, asr1606, tw82x, ac791n; cut to 16 bits on esp32, rtl8713, xr872; ignored on bk725x, ipro7, spreadtrum")
m("C176","partial",["Verif.PortTime.C176_windows_partial","Verif.PortTime.C176_windows_cut","Verif.PortTime.C176_rtos_partial","Verif.PortTime.C176_rtos_cut","Verif.PortTime.C176_spreadtrum","Verif.PortTime.C176_ac791n","Verif.PortTime.C176_ac791n_zero","Verif.PortTime.C176_deadline","Verif.PortTime.C176_negative","Verif.PortTime.C176_realtime_partial","Verif.PortTime.C176_realtime_set","Verif.PortTime.C176_sleep_rtl","Verif.PortTime.C176_sleep_ac","Verif.PortTime.C176_sleep_windows"],"exact conversions within stated ranges; false for long times (windows, rtl8713, xr872), for 0 (ac791n) and when the clock is set (real-time deadlines)")
m("C177","partial",["Verif.PortTime.C177_exact_partial","Verif.PortTime.C177_timer_partial","Verif.PortTime.C177_wraps","Verif.PortTime.C177_never_32","Verif.PortTime.C177_never_xr872"],"true up to the limit of each port's counter; false beyond: the tick starts again and timers set before the limit never fire")
m("C178","partial",["Verif.PortAtomic.C178_intrinsics","Verif.PortAtomic.Excl.C178_exclusive","Verif.PortAtomic.Excl.C178_progress","Verif.PortAtomic.C178_last","Verif.PortAtomic.Tw.C178_tw82x_value","Verif.PortAtomic.Tw.C178_tw82x_alone_partial","Verif.PortAtomic.Tw.C178_tw82x_twice","Verif.PortAtomic.Tw.C178_tw82x_same"],"proved for all ports but tw82x, whose add, sub, inc and dec are two accesses: results are wrong when threads overlap (the value is not)")
m("C179","partial",["Verif.PortSock.resolves_right_partial","Verif.PortSock.addrinfo_resolve","Verif.PortSock.spreadtrum_resolve","Verif.PortSock.asr1606_resolve","Verif.PortSock.addrinfoTmp_resolve_v4build","Verif.PortSock.addrinfoTmp_resolve_v4only","Verif.PortSock.addrinfoTmp_overruns","Verif.PortSock.addrinfoTmp_not_right","Verif.PortSock.rtl8713_resolve","Verif.PortSock.rtl8713_counts_unset","Verif.PortSock.xr872_resolve","Verif.PortSock.xr872_not_right","Verif.PortSock.ac791n_resolve","Verif.PortSock.ac791n_keeps_port","Verif.PortSock.filled_rest","Verif.PortSock.ac791n_gives_up"],"FALSE on bk725x, ipro7, tw82x with IPv6 (stack overrun at the first IPv6 address that fits), and on xr872, rtl8713, ac791n for families they do not handle; proved on the others and for IPv4 answers everywhere")
m("C180","partial",["Verif.PortSock.honest_ports_partial","Verif.PortSock.refused_changes_nothing","Verif.PortSock.dscp_refused","Verif.PortSock.bind_device_ignored","Verif.PortSock.dscp_ignored","Verif.PortSock.xr872_family","Verif.PortSock.ipro7_loopback_open","Verif.PortSock.ac791n_bind_v6","Verif.PortSock.not_honest","Verif.PortSock.device_bound_or_refused"],"true on darwin, esp32 and harmony; false on every other port (not_honest), in the ways the other theorems name")
m("C181","partial",["Verif.PortSock.connects_right_partial","Verif.PortSock.spreadtrum_connect_fails","Verif.PortSock.spreadtrum_not_right","Verif.PortSock.failure_is_negative","Verif.PortSock.again_is_told_apart","Verif.PortSock.intr_is_told_apart","Verif.PortSock.no_reason_is_success","Verif.PortSock.connect_result","Verif.PortSock.codes"],"true on every port but spreadtrum, where a connect under way is a failure; a failure without a reason is reported as success")
m("C182","partial",["Verif.PortIomp.tv_right_partial","Verif.PortIomp.kq_right_partial","Verif.PortIomp.sprd_zero_or_forever","Verif.PortIomp.sprd_not_right","Verif.PortIomp.sprd_positive_partial"],"true on every port but spreadtrum, where waiting for ever and not waiting are one call and times are cut to 100 ms")
m("C183","partial",["Verif.PortIomp.agrees_partial","Verif.PortIomp.agrees_false","Verif.PortIomp.add_exact","Verif.PortIomp.del_clean_iff","Verif.PortIomp.del_others","Verif.PortIomp.writeonly_stays","Verif.PortIomp.refused_add_stays","Verif.PortIomp.mod_stays","Verif.PortIomp.report_faithful","Verif.PortIomp.darwin_half_close_closes","Verif.PortIomp.linux_half_close_stays"],"true for fds that are read; an fd registered for writing only stays watched, a registration refused for writing leaves reading watched")
m("C184","proved",["Verif.MmPos.C184_table","Verif.MmPos.C184_used","Verif.MmPos.C184_dump","Verif.MmPos.C184_off","Verif.MmPos.C184_none_left","Verif.MmPos.C184_order","Verif.MmPos.C184_total","Verif.MmPos.C184_ignored"],"calls one at a time; the realloc race and realloc to size 0 are C62")
m("C185","partial",["Verif.QEnd.C185_this_partial","Verif.QEnd.C185_not_at_end"],"proved for every callback but two; false of the code for timer destructors run at the end of the queue and for fini after a failed creation (proved)")
m("C186","partial",["Verif.QEnd.C186_accounting","Verif.QEnd.C186_clean_partial","Verif.QEnd.C186_orphan","Verif.QEnd.C186_orphan_fini"],"exact accounting; holds when the callbacks at the end make nothing; false of the code otherwise (proved)")
m("C187","partial",["Verif.StatLock.C187_excludes_partial","Verif.StatLock.C187_result_partial","Verif.StatLock.C187_no_deadlock_partial","Verif.StatLock.C187_false_bad_ports","Verif.StatLock.C187_false_first_lock","Verif.StatLock.C187_false_tw82x","Verif.StatLock.C187_false_gives_up","Verif.StatLock.C187_seven_ports_partial","Verif.StatLock.C187_fini_partial","Verif.StatLock.C187_init_any_time_partial"],"proved for the ports whose static initialiser makes a mutex in place, as long as making it does not fail; false on asr1606, rtl8713, spreadtrum and ipro7, on tw82x when making the mutex fails, and lock can return without the lock after 100 looks at a first use under way (all proved)")
m("C188","proved",["Verif.QEnd.C188_failed_init","Verif.QEnd.C188_runs_on","Verif.QEnd.C188_fini_once"],"")
m("C189","proved",["Verif.SkAddr.C189_v4","Verif.SkAddr.C189_v6","Verif.SkAddr.C189_refused","Verif.SkAddr.C189_round_trip","Verif.SkAddr.C189_equal","Verif.SkAddr.C189_other_family"],"")
m("C190","partial",["Verif.PortMem.C190_counts_partial","Verif.PortMem.C190_failed_realloc","Verif.PortMem.C190_huge","Verif.PortMem.C190_header","Verif.PortMem.C190_realloc_partial"],"proved as long as no realloc fails and sizes leave room for the header; a failed realloc takes the block off the report and the next call with it fails the assertion; a size within 16 of 2^32 gives a block smaller than its header (both proved)")
m("C191","partial",["Verif.PortMem.C191_calloc_partial","Verif.PortMem.C191_overflow","Verif.PortMem.C191_ten_ports_partial"],"proved where the product is a size_t and, always, on the ports that leave the product to the platform; false on bk725x, rtl8713 and spreadtrum when the product overflows (proved)")
m("C192","proved",["Verif.Mpq.C192_bounded","Verif.Mpq.C192_settles","Verif.Mpq.C192_back_or_circle","Verif.Mpq.C192_ordered","Verif.Mpq.C192_circle","Verif.Mpq.C192_circle_reached","Verif.Mpq.C192_full_circle","Verif.Mpq.C192_full_circle_reached"],"for every history of the queue model: the internal work is bounded, every history settles, and in a settled state a call that has not come back is part of (or waits for) a circle of queues; circles are reachable (proved)")
m("C193","partial",["Verif.QMake.C193_histories_partial","Verif.QMake.C193_failed_partial","Verif.QMake.C193_made","Verif.QMake.C193_leak","Verif.QMake.C193_twice"],"all histories and all failures but one; false of the code when the second socket of a wake-up pair cannot be made: the first one stays open (proved)")
m("C194","partial",["Verif.QMake.C194_says_why_partial","Verif.QMake.C194_priority","Verif.QMake.C194_silent","Verif.QMake.C194_codes"],"false of the code: bad priorities leave aosl_errno as it was; no memory, no pipe and no event set it to 0 (proved)")
m("C195","partial",["Verif.QMake.C195_fini_partial","Verif.QMake.C195_not_called"],"holds once the thread runs; false of the code for refused arguments and threads that cannot be started (proved)")
m("C196","proved",["Verif.Mpq.C196_ends","Verif.Mpq.C196_all_end","Verif.Mpq.C196_circle_never"],"in every state in which the library's own steps are exhausted (C192 proves that such a state is always reached) a destroyed queue has ended, or its thread waits for a queue; a circle of synchronous calls never ends")
m("C197","partial",["Verif.FdReg.C197_current_partial","Verif.FdReg.C197_other_queue_partial","Verif.FdReg.C197_succeeds","Verif.FdReg.C197_positive","Verif.FdReg.C197_invalid_fd","Verif.FdReg.C197_fd_changed","Verif.FdReg.C197_too_many","Verif.FdReg.C197_connect_on_q","Verif.FdReg.C197_reasons"],"all histories, failures and arguments with an fd other than -1; false of the code for fd -1, for add_fd_on_q refused by the queue, and for the mode of the fd (proved)")
m("C198","partial",["Verif.FdReg.C198_only_late","Verif.FdReg.C198_comes_partial","Verif.FdReg.C198_never"],"never early, at most once, after every history; comes if the timer can be made; false of the code when it cannot (proved)")
m("C199","partial",["Verif.PortUtilProps.C199_port_id_partial","Verif.PortUtilProps.C199_rtl_ends_exactly_partial","Verif.PortUtilProps.C199_rtl_hangs","Verif.PortUtilProps.C199_darwin_partial","Verif.PortUtilProps.C199_darwin_overflows","Verif.PortUtilProps.C199_violated","Verif.PortUtilProps.C199_size_zero","Verif.PortUtilProps.C199_small_refused"],"proved for all ports but darwin and rtl8713; on these two false of the code (proved), with the exact sizes and clock values for which it fails")
m("C200","partial",["Verif.PortUtilProps.C200_bytes_partial","Verif.PortUtilProps.C200_version4_partial","Verif.PortUtilProps.C200_words_partial","Verif.PortUtilProps.C200_chip_partial","Verif.PortUtilProps.C200_esp_words_partial","Verif.PortUtilProps.C200_ac_partial","Verif.PortUtilProps.C200_tw82x_same","Verif.PortUtilProps.C200_sprd_same","Verif.PortUtilProps.C200_asr_same","Verif.PortUtilProps.C200_ipro7_same","Verif.PortUtilProps.C200_violated","Verif.PortUtil.C200_ac_form"],"per port, what the id tells apart; false of the code on tw82x, asr1606, ipro7 and four spreadtrum chips (proved)")
m("C201","partial",["Verif.PortUtilProps.C201_fills_partial","Verif.PortUtilProps.C201_truncated","Verif.PortUtilProps.C201_violated"],"all lengths below 2^31; false of the code for lengths of 2^32 and more, which are cut to int (proved)")
m("C202","partial",["Verif.PortFile.C202_tree","Verif.PortFile.C202_posix_partial","Verif.PortFile.C202_asr_partial","Verif.PortFile.C202_asr_files","Verif.PortFile.C202_asr_rmdir_file","Verif.PortFile.C202_mkdir_file","Verif.PortFile.C202_ac_partial","Verif.PortFile.C202_ac_rename_stays","Verif.PortFile.C202_create_empties","Verif.PortFile.C202_xr_exist_inverted","Verif.PortFile.C202_xr_mkdir_never","Verif.PortFile.C202_xr_partial","Verif.PortFile.C202_stub_nothing","Verif.PortFile.C202_violated","Verif.PortFile.C202_size"],"per port what holds of all trees and histories; false of the code on every port in the cases named (proved)")
m("C203","partial",["Verif.PortFile.C203_write_read","Verif.PortFile.C203_append_partial","Verif.PortFile.C203_xr_append_denied","Verif.PortFile.C203_xr_violated","Verif.PortFile.C203_stub","Verif.PortFile.C203_open_creates","Verif.PortFile.C203_wrong_direction"],"writing: all ports with streams; appending: all but xr872, where it is false of the code (proved)")
m("C204","partial",["Verif.PortFile.C204_removes_tree_partial","Verif.PortFile.C204_endless","Verif.PortFile.C204_violated_endless","Verif.PortFile.C204_violated_beside","Verif.PortFile.C204_others_refuse"],"all trees whose printed paths have at most 259 characters; false of the code beyond (proved)")
m("C205","partial",["Verif.PortClock.tells_time_partial","Verif.PortClock.tells_time_iff","Verif.PortClock.tick_ports_ignore_the_clock","Verif.PortClock.no_clock_is_zero","Verif.PortClock.time_monotone","Verif.PortClock.tick_value"],"Proved exactly for linux, darwin, esp32, harmony, tw82x, windows and xr872 (tells_time_iff); ac791n, asr1606, bk725x, ipro7, rtl8713 and spreadtrum give the tick, which does not depend on the clock (proved).")
m("C206","partial",["Verif.PortClock.right_partial","Verif.PortClock.right_iff","Verif.PortClock.closed_in_bounds","Verif.PortClock.text_exists","Verif.PortClock.no_date","Verif.PortClock.ac791n_null","Verif.PortClock.negative_length","Verif.PortClock.windows_negative_length","Verif.PortClock.year_10000","Verif.PortClock.tick_text"],"Proved exactly for the seven ports with a calendar, years 0 to 9999 (right_iff); the others write a number or the uptime; ac791n stores through a null pointer, a negative length overruns the buffer, from the year 10000 a digit is lost (all proved).")
m("C207","partial",["Verif.PortIo.C207_real_partial", "Verif.PortIo.C207_ends_partial", "Verif.PortIo.C207_violated_invented", "Verif.PortIo.C207_violated_never_told"],"Proved for all ports but ac791n, asr1606 and tw82x, where it is false of the code (proved: the pass never ends).")
m("C208","partial",["Verif.PortIo.C208_to_system_partial", "Verif.PortIo.C208_from_system_partial", "Verif.PortIo.C208_answer_partial", "Verif.PortIo.C208_violated_scope", "Verif.PortIo.C208_violated_length", "Verif.PortIo.C208_violated_no_v6", "Verif.PortIo.C208_violated_stale", "Verif.PortIo.C208_other_families","Verif.PortIo.C208_v4_rest"],"Proved for IPv4 on all ports and for IPv6 where it is converted, but for asr1606 (scope) and xr872 (length); false of the code there and where IPv6 is not converted (proved).")
m("C209","partial",["Verif.PortIo.C209_port", "Verif.PortIo.C209_answers", "Verif.PortIo.C209_whose_partial", "Verif.PortIo.C209_found", "Verif.PortIo.C209_violated_never", "Verif.PortIo.C209_violated_default", "Verif.PortIo.C209_violated_esp32", "Verif.PortIo.C209_violated_zero","Verif.PortIo.C209_esp32_fallback"],"Port and family on all ports, the default interface on rtl8713 and xr872; false of the code on the others (proved).")
m("C210","partial",["Verif.PortPrio.C210_refused", "Verif.PortPrio.C210_strict_partial", "Verif.PortPrio.C210_tw82x_partial", "Verif.PortPrio.C210_rr_partial", "Verif.PortPrio.C210_violated_ignored", "Verif.PortPrio.C210_violated_denied", "Verif.PortPrio.C210_violated_narrow", "Verif.PortPrio.C210_default","Verif.PortPrio.C210_ignored_value"],"Proved for ac791n, rtl8713, windows, xr872, for tw82x under an order of the SDK's constants, and for darwin and harmony with a range of at least 11 and permission; false of the code on the others and in narrow ranges (proved).")
m("C211","partial",["Verif.PortPrio.C211_whole_partial", "Verif.PortPrio.C211_prefix", "Verif.PortPrio.C211_violated_cut"],"Proved for all ports that print directly and for lines of up to 511 characters; false of the code for longer lines on the ports with a buffer (proved, exactly which).")
m("C212","proved",["Verif.RouteKnow.C212_subscriber_knows", "Verif.RouteKnow.C212_order"],"")
m("C213","proved",["Verif.RouteKnow.C213_mobile", "Verif.RouteKnow.C213_unreported"],"C213_unreported: the flag is not part of the comparison that produces events.")
m("C214","partial",["Verif.PoolInit.C214_progress_partial","Verif.PoolInit.C214_finish_partial","Verif.PoolInit.C214_self_use","Verif.PoolInit.C214_closed","Verif.PoolInit.C214_dichotomy","Verif.PoolInit.C214_exclusive"],"False in general: a call that creates a queue of a pool whose init function uses the same pool never returns (C214_self_use, for every history and schedule), because the pool's lock is held while the init function runs. Proved for pools that can be ranked so that init functions use pools of smaller rank only. Waiting for a queue's end is C100.")
m("C215","partial",["Verif.PrefixGet.C215_prefix_partial","Verif.PrefixGet.C215_follows_partial","Verif.PrefixGet.C215_memory","Verif.PrefixGet.C215_violated_whole","Verif.PrefixGet.C215_violated_dangling"],"Proved for the first 96 bits. False of the whole address: only 12 of its 16 bytes are allocated (C215_violated_whole, every history), and an older pointer dangles after a reset (C215_violated_dangling).")
m("C216","partial",["Verif.DnsPrefix.C216_untouched_partial","Verif.DnsPrefix.C216_violated","Verif.DnsPrefix.C216_violated_sends","Verif.DnsPrefix.C216_reset"],"False: every ordinary IPv6 address in an answer becomes the queue's NAT64 prefix, and IPv4 destinations are mapped into that host's /96 network (C216_violated, all histories). Proved without IPv6 and when no answer has an ordinary IPv6 address.")
m("C217","partial",["Verif.EncInt.C217_roundtrip","Verif.EncInt.C217_network_partial","Verif.EncInt.C217_little","Verif.EncInt.C217_violated","Verif.EncInt.C217_between"],"False on little-endian machines: encoding is the identity there (exact condition C217_little; C217_violated; between machines C217_between). Proved: the round trip everywhere and network order on big-endian machines.")
m("C218","partial",["Verif.DynSelf.C218_append_partial","Verif.DynSelf.C218_other","Verif.DynSelf.C218_assign_partial","Verif.DynSelf.C218_strcat_partial","Verif.DynSelf.C218_strcpy_partial","Verif.DynSelf.C218_violated"],"False: appending a part reads freed memory exactly when the array must grow, assigning an own part overlaps exactly when it starts before its own length (exact conditions proved for arrays, buffers and strings; witness C218_violated). Proved for every other case and for parts of other arrays.")
m("C219","partial",["Verif.PoolFull.C219_stuck","Verif.PoolFull.C219_violated","Verif.PoolFull.C219_one","Verif.PoolFull.C219_bounded","Verif.PoolFull.C219_returns_partial","Verif.PoolFull.C219_direct"],"False: as many callers at once as the limit block each other and all later callers for ever, for every limit (C219_violated, C219_stuck); limit 1 never works (C219_one). Proved with fewer callers than the limit at any time: every run of the calls under way is finite and ends with all of them returned.")
m("C220","partial",["Verif.PoolFull.C220_exact","Verif.PoolFull.C220_queued_partial","Verif.PoolFull.C220_violated","Verif.PoolFull.C220_limit"],"False for queues of pools: calls under way are counted too (C220_exact, C220_violated). Proved whenever no call into the pool is under way.")
m("C221","partial",["Verif.MainQ.C221_others","Verif.MainQ.C221_main_partial","Verif.MainQ.C221_iff","Verif.MainQ.C221_init_broken","Verif.MainQ.C221_early_broken"],"Others are never told they are on the main queue, and exactly the main queue whose aosl_main_start has returned is; the init callback and functions that run earlier are always told no (violated by the code), and aosl_mpq_main gives 0 then.")
m("C222","partial",["Verif.MainQ.C222_forgotten","Verif.MainQ.C222_restart_partial","Verif.MainQ.C222_safe_partial","Verif.MainQ.C222_stale_broken","Verif.MainQ.C222_uaf_broken","Verif.MainQ.C222_failed_broken","Verif.MainQ.C222_histories"],"Holds while no start failed and the protection of no main queue is removed; violated otherwise: witnesses where starts are refused for ever and where freed memory is read.")
m("C223","partial",["Verif.PktMem.C223_packets_partial","Verif.PktMem.C223_size_broken","Verif.PktMem.C223_stale_broken"],"Order, wholeness, senders and memory for all packets with an address; longer packets are cut at max_pkt_size rounded up to whole words, and packets without an address get an earlier one (both violated by the code).")
m("C224","proved",["Verif.PktMem.C224_kept"],"For one waiting piece of data; the queue of them is IoWrite's.")
m("C225","partial",["Verif.MainEnd.C225_ends_partial","Verif.MainEnd.C225_violated","Verif.MainEnd.C225_stuck","Verif.MainEnd.C225_reached","Verif.MainEnd.C225_in_order","Verif.MainEnd.C225_all_taken"],"Holds under every schedule as long as no function on a queue of a default pool waits for the main queue; violated there: a deadlock no continuation resolves.")
m("C226","partial",["Verif.MarshalFwd.C226_forward_partial","Verif.MarshalFwd.C226_same_partial","Verif.MarshalFwd.C226_flag_violated","Verif.MarshalFwd.C226_long_violated"],"False: flag bytes other than 0 and 1 are accepted and sent on as 1 (C226_flag_violated), and texts of 64 KiB and more are cut (C226_long_violated). Proved below 64 KiB or without text: same number of bytes, same bytes but for such flags, same object; the same bytes without pointers and strings. Assumes helper_type.is_have is NULL, as C21.")
m("C227","partial",["Verif.MarshalFwd.C227_accounted_partial","Verif.MarshalFwd.C226_long_violated"],"Proved for messages below 64 KiB and for descriptors without text, for every byte string; false for longer texts, where bytes behind the consumed ones decide (C226_long_violated). Assumes helper_type.is_have is NULL, as C21.")
m("C228","partial",["Verif.PortLock.C228_excludes_partial","Verif.PortLock.C228_good_excludes","Verif.PortLock.C228_nothing_left","Verif.PortLock.C228_violated","Verif.PortLock.C228_two_inside","Verif.PortLock.C228_breaks","Verif.PortLock.C228_never_got","Verif.PortLock.C228_checked"],"False on every port when no mutex can be made: create returns a lock all the same. Proved on every port and for every history: exclusion and no needless waiting or failing when a mutex can be made whenever the lock object can; nothing left after destroy, however the creations go. C228_checked: with the missing check (not in the code) it holds always.")
m("C229","partial",["Verif.PortCond.C229_safe","Verif.PortCond.C229_goes_on_partial","Verif.PortCond.C229_ends_partial","Verif.PortCond.C229_violated"],"Proved for objects with a variable behind them: exclusion and no early return in every interleaving, some step is always possible until everybody is out, and at most 9 n + 5 steps plus three for every spurious wake-up. False when the port cannot make the variable: create returns an object all the same and the waiting thread keeps the lock for ever (C229_violated).")
m("C230","partial",["Verif.PoolCall.C230_partial","Verif.PoolCall.C230_has_queue","Verif.PoolCall.C230_fails"],"Proved when memory for the counter is there and a failed creation left an error number, and for pools that have a queue whatever fails. Refuted otherwise: the call answers 0 and nothing is queued (C230_fails).")
m("C231","partial",["Verif.PoolCall.C231_queue_partial","Verif.PoolCall.C231_alloc_partial","Verif.PoolCall.C231_choice","Verif.PoolCall.C231_grows","Verif.PoolCall.C231_fails","Verif.PoolCall.C231_room","Verif.PoolCall.C231_full"],"Proved when a failed creation of the first queue left an error number from 1 to 4095. Refuted otherwise: 0 makes the call leave no error number, other numbers are used as addresses (C231_fails).")
m("C232","partial",["Verif.RwWait.C232_partial","Verif.RwWait.C232_kept_out","Verif.RwWait.C232_readers","Verif.RwWait.C232_starves","Verif.RwWait.C232_fails","Verif.RwWait.C232_alone","Verif.RwWait.C232_stays"],"Proved once no reader is in and none comes: one of the waiting threads is in after a number of steps bounded by their work. Refuted in full: readers that relieve each other starve a writer for as many rounds as one likes (C232_starves).")
m("C233","proved",["Verif.PoolDone.C233","Verif.PoolDone.C233_ends","Verif.PoolDone.C233_done_queue"],"For every order of the steps of the pool's queues.")
m("C234","partial",["Verif.CloseApi.C234_close_true_partial","Verif.CloseApi.C234_close_refused","Verif.CloseApi.C234_close_others","Verif.CloseApi.C234_close_exact","Verif.CloseApi.C234_close_through","Verif.CloseApi.C234_close_false","Verif.CloseApi.C234_not_truthful","Verif.CloseApi.C234_del_true_partial","Verif.CloseApi.C234_del_exact","Verif.CloseApi.C234_second_close","Verif.CloseApi.C234_errors"],"Proved unless the call to the owner's queue does not get through: then the code answers a positive number and has done nothing, and the claim is refuted.")
