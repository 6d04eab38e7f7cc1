{
 "claims": [
  {
   "property": "C01",
   "status": "proved",
   "theorems": [
    "Verif.RBTree.C01_contents"
   ],
   "note": ""
  },
  {
   "property": "C02",
   "status": "proved",
   "theorems": [
    "Verif.RBTree.C02_balanced"
   ],
   "note": ""
  },
  {
   "property": "C03",
   "status": "proved",
   "theorems": [
    "Verif.RBTree.C03_count"
   ],
   "note": ""
  },
  {
   "property": "C04",
   "status": "proved",
   "theorems": [
    "Verif.RBTree.C04_lookup"
   ],
   "note": ""
  },
  {
   "property": "C05",
   "status": "proved",
   "theorems": [
    "Verif.RBTree.C05_remove",
    "Verif.RBTree.C05_erase_replace"
   ],
   "note": ""
  },
  {
   "property": "C06",
   "status": "proved",
   "theorems": [
    "Verif.RBTree.C06_iteration"
   ],
   "note": ""
  },
  {
   "property": "C07",
   "status": "proved",
   "theorems": [
    "Verif.RBTree.C07_traverse",
    "Verif.RBTree.C07_early_stop"
   ],
   "note": ""
  },
  {
   "property": "C08",
   "status": "proved",
   "theorems": [
    "Verif.DList.C08_rings",
    "Verif.DList.C08_queries",
    "Verif.DList.C08_deleted"
   ],
   "note": ""
  },
  {
   "property": "C09",
   "status": "proved",
   "theorems": [
    "Verif.Psb.C09_geometry"
   ],
   "note": "for buffers below 4 GiB: psb_headroom/tailroom return unsigned int"
  },
  {
   "property": "C10",
   "status": "proved",
   "theorems": [
    "Verif.Psb.C10_all_or_nothing"
   ],
   "note": ""
  },
  {
   "property": "C100",
   "status": "partial",
   "theorems": [
    "Verif.Pool.C100_deadlock",
    "Verif.Pool.C100_ends_partial"
   ],
   "note": "fails: two idle timers of a pool of three queues deadlock (C100_deadlock); proved when no pool function itself waits for a shrink"
  },
  {
   "property": "C101",
   "status": "partial",
   "theorems": [
    "Verif.Pool.C101_uaf",
    "Verif.Pool.C101_uaf_shrunk",
    "Verif.Pool.C101_destroy_partial"
   ],
   "note": "fails for wait = 0 and for queues still ending from an earlier shrink; proved for a waiting destroy from outside when the others have ended"
  },
  {
   "property": "C102",
   "status": "partial",
   "theorems": [
    "Verif.IoWrite.C102_bypass",
    "Verif.IoWrite.C102_queued_partial"
   ],
   "note": "false: the first attempt of a write on an empty queue calls the HAL write directly (C102_bypass); everything queued goes through the registered function"
  },
  {
   "property": "C103",
   "status": "proved",
   "theorems": [
    "Verif.IoWrite.C103_held",
    "Verif.IoWrite.C103_timeout"
   ],
   "note": "order after establishment: C50_stream_partial, C50_flush"
  },
  {
   "property": "C104",
   "status": "partial",
   "theorems": [
    "Verif.IoWrite.C104_positive",
    "Verif.IoWrite.C104_ran_partial"
   ],
   "note": "false when the call into the fd's queue fails: a positive error number is returned (C104_positive); holds whenever the function ran"
  },
  {
   "property": "C105",
   "status": "partial",
   "theorems": [
    "Verif.IoRead.C105_datagrams_partial",
    "Verif.IoRead.C105_truncated",
    "Verif.IoRead.C105_spin"
   ],
   "note": "holds for datagrams up to the registered size; larger ones are cut (C105_truncated), and the event loop does not end while reads return 0 (C105_spin)"
  },
  {
   "property": "C106",
   "status": "partial",
   "theorems": [
    "Verif.IoRead.C106_no_false_eof_partial",
    "Verif.IoRead.C106_reported_partial",
    "Verif.IoRead.C106_final",
    "Verif.IoRead.C106_spurious",
    "Verif.IoRead.C106_spurious_reachable",
    "Verif.IoRead.C106_repeated"
   ],
   "note": "holds for check functions whose packets fit; an incomplete packet filling the buffer is taken for the end of the stream (C106_spurious), and the end is reported again at every later event (C106_repeated)"
  },
  {
   "property": "C107",
   "status": "partial",
   "theorems": [
    "Verif.IoRead.C107_close_partial",
    "Verif.IoRead.C107_del_continues"
   ],
   "note": "holds for aosl_close; aosl_mpq_del_fd from a callback does not stop the loop (C107_del_continues)"
  },
  {
   "property": "C108",
   "status": "partial",
   "theorems": [
    "Verif.Tls.C108_revived",
    "Verif.Tls.C108_broken",
    "Verif.Tls.C108_out_partial"
   ],
   "note": "false for a second delete: it succeeds and corrupts the key bookkeeping (C108_revived, C108_broken); keys out of range are refused"
  },
  {
   "property": "C109",
   "status": "partial",
   "theorems": [
    "Verif.Tls.C109_create_partial",
    "Verif.Tls.C109_limit",
    "Verif.Tls.C109_never_more"
   ],
   "note": "only 240 keys can exist: the 241st create fails (C109_limit); up to 240 keys it holds"
  },
  {
   "property": "C11",
   "status": "proved",
   "theorems": [
    "Verif.Psb.C11_payload"
   ],
   "note": ""
  },
  {
   "property": "C110",
   "status": "partial",
   "theorems": [
    "Verif.Errno.C110_private",
    "Verif.Errno.C110_no_double_free",
    "Verif.Errno.C110_leak",
    "Verif.Errno.C110_freed_partial",
    "Verif.Errno.C110_fini_twice"
   ],
   "note": "the values are private and nothing is freed twice in every interleaving; a block leaks when two first uses race (C110_leak); without such a race all is freed"
  },
  {
   "property": "C111",
   "status": "partial",
   "theorems": [
    "Verif.MemApi.C111_calloc_partial",
    "Verif.MemApi.C111_calloc_overflow",
    "Verif.MemApi.C111_strdup"
   ],
   "note": "false for products that overflow size_t (C111_calloc_overflow)"
  },
  {
   "property": "C112",
   "status": "partial",
   "theorems": [
    "Verif.MemApi.C112_dump_partial",
    "Verif.MemApi.C112_one",
    "Verif.MemApi.C112_nothing"
   ],
   "note": "false for a buffer of one character (C112_one) and if there is nothing to print (C112_nothing); holds otherwise"
  },
  {
   "property": "C113",
   "status": "partial",
   "theorems": [
    "Verif.WaitTime.C113_exact_partial",
    "Verif.WaitTime.C113_infinite",
    "Verif.WaitTime.C113_early",
    "Verif.WaitTime.C113_sleeps_forever"
   ],
   "note": "Proved for timeouts below 2^31 ms, all interruptions. False beyond: the HAL takes an int, and half of the longer timeouts become 'no timeout' (C113_sleeps_forever)."
  },
  {
   "property": "C114",
   "status": "proved",
   "theorems": [
    "Verif.WaitTime.C114_deadline"
   ],
   "note": "The timespec given to the OS is valid and is exactly now + ms."
  },
  {
   "property": "C115",
   "status": "partial",
   "theorems": [
    "Verif.Iomp.C115_poll_partial",
    "Verif.Iomp.C115_select",
    "Verif.Iomp.C115_once",
    "Verif.Iomp.C115_junk"
   ],
   "note": "Proved for select, and for poll if the uninitialised events field happens to be zero. False for poll otherwise (C115_junk)."
  },
  {
   "property": "C116",
   "status": "partial",
   "theorems": [
    "Verif.Iomp.C116_served_partial",
    "Verif.Iomp.C116_starves"
   ],
   "note": "Proved when at most 64 events are due. False with more: 64 always-ready fds registered first starve the rest (C116_starves)."
  },
  {
   "property": "C117",
   "status": "partial",
   "theorems": [
    "Verif.Iomp.C117_error_ignored"
   ],
   "note": "False for poll: an fd with only an error makes every wait return at once with no event, so the queue spins (C117_error_ignored)."
  },
  {
   "property": "C118",
   "status": "proved",
   "theorems": [
    "Verif.Wakeup.C118_idle_sleeps",
    "Verif.Wakeup.C118_stays_asleep"
   ],
   "note": "On the wake-up model; an fd that is ready but never served (C117) is not part of it."
  },
  {
   "property": "C119",
   "status": "partial",
   "theorems": [
    "Verif.Arm.C119_event_due_partial",
    "Verif.Arm.C119_progress",
    "Verif.Arm.C119_chunks_stall",
    "Verif.Arm.C119_null_stalls",
    "Verif.Arm.C119_null_crashes",
    "Verif.Arm.C119_conserved"
   ],
   "note": "Proved for the default write function in both waiting modes. False for a custom write function that passes on only part of its data in edge-triggered mode (C119_chunks_stall) and for a registration without a write function (C119_null_stalls, C119_null_crashes)."
  },
  {
   "property": "C12",
   "status": "partial",
   "theorems": [
    "Verif.Psb.C12_push_partial",
    "Verif.Psb.C12_push_escapes",
    "Verif.Psb.C12_push_truncates"
   ],
   "note": "false for lengths >= 2^31 (signed comparison) and >= 2^32 (truncation); the violations are proved"
  },
  {
   "property": "C120",
   "status": "partial",
   "theorems": [
    "Verif.Dispatch.C120_right_partial",
    "Verif.Dispatch.C120_all",
    "Verif.Dispatch.C120_wrong_thread",
    "Verif.Dispatch.C120_wrong_close"
   ],
   "note": "Proved when no fd number of the batch is registered anew during the dispatch of the batch. False with a reused number (C120_wrong_thread, C120_wrong_close)."
  },
  {
   "property": "C121",
   "status": "partial",
   "theorems": [
    "Verif.Mpq.C121_released",
    "Verif.Mpq.C121_dterm",
    "Verif.Mpq.C121_eintr",
    "Verif.Mpq.C121_third_party",
    "Verif.Mpq.C121_third_party_reached"
   ],
   "note": "Proved when the queue that waits is the one that calls destroy. False when a third thread destroys the queue while the first one waits for it: destroying wakes only the waiters of the destroyer's own queue (C121_third_party)."
  },
  {
   "property": "C122",
   "status": "proved",
   "theorems": [
    "Verif.IoRead.C122_error_last",
    "Verif.IoRead.C122_announced",
    "Verif.IoRead.C122_read_fails",
    "Verif.IoRead.C122_bad_check",
    "Verif.IoRead.C122_close",
    "Verif.IoRead.C122_close_in_callback",
    "Verif.IoWrite.C122_write_closed",
    "Verif.IoWrite.C122_write_error_last",
    "Verif.IoWrite.C122_write_fails",
    "Verif.IoWrite.C122_connect_timeout",
    "Verif.IoBoth.C122_whole_events"
   ],
   "note": "read side and write side are two models of the same fd; C122_close_in_callback assumes no callback unregisters without closing (that case is C123)"
  },
  {
   "property": "C123",
   "status": "partial",
   "theorems": [
    "Verif.IoRead.C123_goes_on",
    "Verif.IoRead.C123_next_event_partial"
   ],
   "note": "FALSE in the code: C123_goes_on: the read loop goes on delivering buffered data and reads the fd number again; _partial: from the next event on nothing happens"
  },
  {
   "property": "C124",
   "status": "partial",
   "theorems": [
    "Verif.IoBoth.C124_listen_dies",
    "Verif.IoBoth.C124_error"
   ],
   "note": "FALSE in the code: accept's EAGAIN is reported as a platform error, so after each batch the listening socket is announced dead and closed; the pending connections of that batch are delivered"
  },
  {
   "property": "C125",
   "status": "proved",
   "theorems": [
    "Verif.Hal.C125_translation",
    "Verif.Hal.C125_window",
    "Verif.Hal.C125_connect",
    "Verif.Hal.C125_constants"
   ],
   "note": "Linux errno values; accept is excluded (it has no error code, see C124)"
  },
  {
   "property": "C126",
   "status": "partial",
   "theorems": [
    "Verif.IoBoth.C126_epoll_partial",
    "Verif.IoBoth.C126_poll_announces_success",
    "Verif.IoBoth.C126_immediate",
    "Verif.IoBoth.C126_results",
    "Verif.PortIomp.darwin_connect_announces_success"
   ],
   "note": "FALSE with poll and select: writability of a failed attempt is announced as success (C126_poll_announces_success); holds with epoll"
  },
  {
   "property": "C127",
   "status": "partial",
   "theorems": [
    "Verif.IoBoth.C127_check_after_close",
    "Verif.IoBoth.C127_read_after_close",
    "Verif.IoBoth.C127_partial",
    "Verif.IoRead.C122_close",
    "Verif.IoRead.C122_close_in_callback",
    "Verif.IoBoth.C127_closed",
    "Verif.IoBoth.C127_del",
    "Verif.IoBoth.C127_hup_after_del"
   ],
   "note": "FALSE: when the ready callback closes the fd and the same event is also readable, check, read and data functions still run; _partial: holds if the close happened before the event or in the read part"
  },
  {
   "property": "C128",
   "status": "proved",
   "theorems": [
    "Verif.Hal.C128_to_kernel",
    "Verif.Hal.C128_from_kernel",
    "Verif.Hal.C128_reply",
    "Verif.Hal.C128_resolve",
    "Verif.Hal.C128_resolve_bound"
   ],
   "note": "Linux HAL; the resolver part assumes ai_family is the family of ai_addr"
  },
  {
   "property": "C129",
   "status": "partial",
   "theorems": [
    "Verif.Hal.C129_wrong_address",
    "Verif.Hal.C129_v6_fails",
    "Verif.Hal.C129_partial"
   ],
   "note": "FALSE: the address of the default-route interface is returned whatever the socket is bound to; IPv6 sockets always fail; the port is right"
  },
  {
   "property": "C13",
   "status": "partial",
   "theorems": [
    "Verif.Psb.C13_ownership_partial",
    "Verif.Psb.C13_attach_then_free_violates",
    "Verif.Psb.C13_effects"
   ],
   "note": "false when a user buffer is attached to a library psb; the violation is proved"
  },
  {
   "property": "C130",
   "status": "partial",
   "theorems": [
    "Verif.Hal.C130_other_device",
    "Verif.Hal.C130_partial",
    "Verif.Hal.C130_empty_partial"
   ],
   "note": "FALSE for names longer than 15 characters: they are cut and may name another device"
  },
  {
   "property": "C131",
   "status": "partial",
   "theorems": [
    "Verif.Hal.C131_unnamed",
    "Verif.Hal.C131_names_partial",
    "Verif.Hal.C131_distinct_partial"
   ],
   "note": "FALSE for EHAL and EWOULDBLOCK, which have no name; all others are exact"
  },
  {
   "property": "C132",
   "status": "proved",
   "theorems": [
    "Verif.RefObj.C132_no_deadlock"
   ],
   "note": "calls made from inside the object's own callbacks are the subject of C96"
  },
  {
   "property": "C133",
   "status": "partial",
   "theorems": [
    "Verif.ThreadApi.C133_lock_inverted",
    "Verif.ThreadApi.C133_two_inside",
    "Verif.ThreadApi.C133_rd_inverted",
    "Verif.ThreadApi.C133_wr_inverted",
    "Verif.ThreadApi.C133_timeout_positive",
    "Verif.ThreadApi.C133_static_partial",
    "Verif.ThreadApi.C133_lock_result_partial",
    "Verif.ThreadApi.C133_exclusion_partial",
    "Verif.ThreadApi.C133_timed_partial",
    "Verif.ThreadApi.C133_wr_excludes",
    "Verif.ThreadApi.C133_event_zero"
   ],
   "note": "FALSE in the code: the three lock try calls return 1 for success and 0 for failure, the opposite of the documentation (two threads that follow it are inside together, C133_two_inside); time-outs and busy static locks are positive. Proved: the actual results, and exclusion for threads that take 1 for success"
  },
  {
   "property": "C134",
   "status": "partial",
   "theorems": [
    "Verif.ThreadApi.C134_blocks",
    "Verif.ThreadApi.C134_prompt_partial"
   ],
   "note": "FALSE in the code: the call waits for the internal mutex, which a writer holds for as long as it has the lock; prompt if no thread writes or upgrades"
  },
  {
   "property": "C135",
   "status": "partial",
   "theorems": [
    "Verif.ThreadApi.Start.C135_safe_partial",
    "Verif.ThreadApi.Start.C135_progress_partial",
    "Verif.ThreadApi.Start.C135_bounded",
    "Verif.ThreadApi.Start.C135_hangs",
    "Verif.ThreadApi.Start.C135_would_show"
   ],
   "note": "FALSE when pthread_create fails: its positive error is taken for success and the creator waits for ever (C135_hangs); everything holds when the thread can be created"
  },
  {
   "property": "C136",
   "status": "proved",
   "theorems": [
    "Verif.SysApi.C136_in_buffer",
    "Verif.SysApi.C136_uuid"
   ],
   "note": ""
  },
  {
   "property": "C137",
   "status": "partial",
   "theorems": [
    "Verif.SysApi.C137_filled_partial",
    "Verif.SysApi.C137_truncated"
   ],
   "note": "FALSE from 2^32 on: the length is cut to int and success is reported for the low part (C137_truncated); holds below 2^31"
  },
  {
   "property": "C138",
   "status": "partial",
   "theorems": [
    "Verif.SysApi.C138_size_partial",
    "Verif.SysApi.C138_looks_failed",
    "Verif.SysApi.C138_wrong_size",
    "Verif.SysApi.C138_count_partial",
    "Verif.SysApi.C138_mkdir_on_file",
    "Verif.SysApi.C138_mkdir_partial",
    "Verif.SysApi.C138_failures"
   ],
   "note": "FALSE from 2 GiB on, and for aosl_mkdir on an existing regular file"
  },
  {
   "property": "C139",
   "status": "partial",
   "theorems": [
    "Verif.SysApi.C139_sleep_partial",
    "Verif.SysApi.C139_short",
    "Verif.SysApi.C139_one_more"
   ],
   "note": "FALSE for every duration above 4294967 ms (usleep takes 32 bits); exact below"
  },
  {
   "property": "C14",
   "status": "proved",
   "theorems": [
    "Verif.Psb.C14_chain"
   ],
   "note": ""
  },
  {
   "property": "C140",
   "status": "partial",
   "theorems": [
    "Verif.SysApi.C140_tick_partial",
    "Verif.SysApi.C140_sec",
    "Verif.SysApi.C140_time_str",
    "Verif.SysApi.C140_digits",
    "Verif.SysApi.C140_tick_us_stopped",
    "Verif.SysApi.C140_ranges",
    "Verif.SysApi.C140_year_10000"
   ],
   "note": "FALSE for aosl_tick_us, which is always 0; the rest is proved (clock below 2^54 s, years up to 9999)"
  },
  {
   "property": "C141",
   "status": "proved",
   "theorems": [
    "Verif.SysApi.C141_calls",
    "Verif.SysApi.C141_last_reference",
    "Verif.SysApi.C141_one_winner"
   ],
   "note": "calls are atomic (the HAL uses sequentially consistent builtins); 64-bit intptr_t"
  },
  {
   "property": "C142",
   "status": "proved",
   "theorems": [
    "Verif.SysApi.C142_messages",
    "Verif.SysApi.C142_range"
   ],
   "note": ""
  },
  {
   "property": "C143",
   "status": "proved",
   "theorems": [
    "Verif.SysApi.C143_ordered",
    "Verif.SysApi.C143_range_22"
   ],
   "note": "for non-negative ranges; a range that begins or ends at 22 is refused as if it were EINVAL (C143_range_22)"
  },
  {
   "property": "C144",
   "status": "proved",
   "theorems": [
    "Verif.IoBoth.C144_served"
   ],
   "note": "one event of one fd whose callbacks leave it open; events with an error are C126, callbacks that close are C122 and C127"
  },
  {
   "property": "C145",
   "status": "partial",
   "theorems": [
    "Verif.Iomp.C145_waits_partial",
    "Verif.Iomp.C145_poll_aborts",
    "Verif.Iomp.C145_select_overflows"
   ],
   "note": "FALSE with poll (more than 1024 fds end the process) and with select (an fd number from 1024 on is written outside the set); holds with epoll and within these limits"
  },
  {
   "property": "C146",
   "status": "partial",
   "theorems": [
    "Verif.SockPipe.C146_at_most_25",
    "Verif.SockPipe.C146_create_partial",
    "Verif.SockPipe.C146_refused",
    "Verif.SockPipe.C146_leaks"
   ],
   "note": "FALSE: at most 25 queues at a time, a creation can fail with one queue alive, and a failure can leave a socket open; what decides success is proved"
  },
  {
   "property": "C147",
   "status": "partial",
   "theorems": [
    "Verif.Netlink.C147_one_datagram",
    "Verif.Netlink.C147_done_inside",
    "Verif.Netlink.C147_last_decides_partial",
    "Verif.Netlink.C147_any_dump_partial",
    "Verif.Netlink.C147_spans_datagrams",
    "Verif.Netlink.C147_other_family"
   ],
   "note": "proved for dumps in one datagram and when the last datagram decides; existence and number for all dumps; false in general: the pointers kept across recv calls point into overwritten data (witness), and routes of the other family are accepted (witness)"
  },
  {
   "property": "C148",
   "status": "partial",
   "theorems": [
    "Verif.Netlink.C148_attributes",
    "Verif.Netlink.C148_links",
    "Verif.Netlink.C148_route_partial",
    "Verif.Netlink.C148_route_short",
    "Verif.Netlink.C148_gateway_overflow",
    "Verif.Netlink.C148_name_unterminated"
   ],
   "note": "attribute parser and link dump: proved for all bytes; route dump: at most 8 bytes too far; witnesses for the read past a short route message, the gateway overflow and the unterminated name"
  },
  {
   "property": "C149",
   "status": "proved",
   "theorems": [
    "Verif.Netlink.C149_link_dump"
   ],
   "note": "refinement of the byte parser to the interface map (uses C71)"
  },
  {
   "property": "C15",
   "status": "proved",
   "theorems": [
    "Verif.Bitmap.C15_bitmap_set",
    "Verif.Bitmap.C15_get_at_count"
   ],
   "note": "bitmap_get with index = bit count passes the assertion (off by one); stated as C15_get_at_count"
  },
  {
   "property": "C150",
   "status": "partial",
   "theorems": [
    "Verif.Netlink.C150_notifications_partial",
    "Verif.Netlink.C150_unpadded"
   ],
   "note": "proved for padded messages (what the kernel sends); an unpadded last message makes the unsigned length wrap and the loop run on, possibly for ever (witness)"
  },
  {
   "property": "C151",
   "status": "partial",
   "theorems": [
    "Verif.Netlink.C151_closed_once_partial",
    "Verif.Netlink.C151_double_close",
    "Verif.Netlink.C151_stale_descriptor"
   ],
   "note": "proved when the socket can always be set up; double close on failure and a stale descriptor after a failed recreation (witnesses)"
  },
  {
   "property": "C152",
   "status": "proved",
   "theorems": [
    "Verif.MarshalMem.C152_init_fini",
    "Verif.MarshalMem.C152_fini_twice",
    "Verif.MarshalMem.C152_init_zero",
    "Verif.MarshalMem.C152_fini_empty"
   ],
   "note": "ownership invariant over cell trees; needs get_type_size to return (Sane)"
  },
  {
   "property": "C153",
   "status": "partial",
   "theorems": [
    "Verif.MarshalMem.C153_no_leak_partial",
    "Verif.MarshalMem.C153_rounds_partial",
    "Verif.MarshalMem.C153_violated_optional",
    "Verif.MarshalMem.C153_violated_string",
    "Verif.MarshalMem.C153_reuse_leaks"
   ],
   "note": "false for optional pointer fields inside allocated objects (uninitialised pointer freed) and for DYNAMIC_STRINGs of 65535 bytes (leak); proved otherwise"
  },
  {
   "property": "C154",
   "status": "partial",
   "theorems": [
    "Verif.MarshalMem.C154_failed_receive_partial",
    "Verif.MarshalMem.C154_violated",
    "Verif.MarshalMem.C154_violated_ptr",
    "Verif.MarshalMem.C154_violated_var",
    "Verif.MarshalMem.C154_leaked"
   ],
   "note": "false: finalising after a truncated message frees uninitialised pointers (witnesses for dynamic arrays, pointers, var arrays); proved when allocated objects contain no pointers"
  },
  {
   "property": "C155",
   "status": "proved",
   "theorems": [
    "Verif.MarshalMem.C155_memory",
    "Verif.MarshalMem.C155_received"
   ],
   "note": "refinement of the memory model to the value model of C21-C24 (which assumes the uninitialised helper_type.is_have to be NULL)"
  },
  {
   "property": "C156",
   "status": "partial",
   "theorems": [
    "Verif.RBWalk.C156_post_order",
    "Verif.RBWalk.C156_reachable",
    "Verif.RBWalk.C156_visits_root",
    "Verif.RBWalk.C156_all_when_unchanged",
    "Verif.RBWalk.C156_pre_order_unsafe",
    "Verif.RBWalk.C156_in_order_unsafe",
    "Verif.RBWalk.C156_cleanup_partial",
    "Verif.RBWalk.C156_cleanup_leaves_idle",
    "Verif.RBWalk.C156_skips",
    "Verif.RBWalk.C156_idle_exact",
    "Verif.RBWalk.C156_small"
   ],
   "note": "Memory safety, termination, exact contents and validity of the tree hold for every tree and callback. That a cleanup frees every idle record is false of the code (C156_cleanup_leaves_idle: 15 of 65); the clock is read once per walk in the model."
  },
  {
   "property": "C157",
   "status": "partial",
   "theorems": [
    "Verif.RefNode.C157_safe_partial",
    "Verif.RefNode.C157_exact_partial",
    "Verif.RefNode.C157_kept_partial",
    "Verif.RefNode.C157_no_leak_partial",
    "Verif.RefNode.C157_cleanup_condition",
    "Verif.RefNode.C157_month",
    "Verif.RefNode.C157_uaf",
    "Verif.RefNode.C157_flags"
   ],
   "note": "Proved for all schedules in which no thread is suspended for a minute between finding its record and letting go of it; without that assumption a freed record is read (C157_uaf). Records idle for 25 to 49 days are not collected (C157_month)."
  },
  {
   "property": "C158",
   "status": "partial",
   "theorems": [
    "Verif.NetSub.C158_disciplined_partial",
    "Verif.NetSub.C158_stuck",
    "Verif.NetSub.C158_lost",
    "Verif.NetSub.C158_foreign",
    "Verif.NetSub.C158_recover",
    "Verif.NetSub.C158_running",
    "Verif.NetSub.C158_grant"
   ],
   "note": "Holds in every history in which the subscribed queue unsubscribes before it ends and before shutdown. Otherwise it is false of the code: nobody can subscribe or unsubscribe any more (C158_stuck), interface records leak (C158_lost), a foreign descriptor can be closed (C158_foreign)."
  },
  {
   "property": "C159",
   "status": "partial",
   "theorems": [
    "Verif.QHandle.C159_direct",
    "Verif.QHandle.C159_pool_partial",
    "Verif.QHandle.C159_pool_broken",
    "Verif.QHandle.C159_after_32767",
    "Verif.QHandle.C159_main_partial",
    "Verif.QHandle.C159_main_starting"
   ],
   "note": "True of the handles the queue calls return, and of those the pool calls return with 32-bit pointers or for the first 32767 queues; false of the code with wider pointers for later queues (C159_pool_broken): the value is sign-extended from an int and no longer resolves."
  },
  {
   "property": "C16",
   "status": "proved",
   "theorems": [
    "Verif.Bitmap.C16_first_zero"
   ],
   "note": ""
  },
  {
   "property": "C160",
   "status": "partial",
   "theorems": [
    "Verif.RunQuery.C160_answers_partial",
    "Verif.RunQuery.C160_restored",
    "Verif.RunQuery.C160_null_args",
    "Verif.RunQuery.C160_null_data"
   ],
   "note": "True for every nesting of invocations that have a pointer to their arguments; false of the code for synchronous calls without arguments or data (C160_null_args, C160_null_data), which are told EPERM as if no function were running."
  },
  {
   "property": "C161",
   "status": "partial",
   "theorems": [
    "Verif.RunQuery.C161_logic_partial",
    "Verif.RunQuery.C161_costs_zero",
    "Verif.RunQuery.C161_perf_wrong"
   ],
   "note": "The arithmetic is right for a working microsecond clock (C161_logic_partial); false of the code because aosl_tick_us always returns 0: costs are always 0, the execution time reported is always 0 and the waiting time is minus the time of queueing."
  },
  {
   "property": "C162",
   "status": "partial",
   "theorems": [
    "Verif.PoolIdle.C162_taken_partial",
    "Verif.PoolIdle.C162_empties",
    "Verif.PoolIdle.C162_busy_taken",
    "Verif.PoolIdle.C162_events_ignored",
    "Verif.PoolIdle.C162_size"
   ],
   "note": "The idle seconds are counted exactly and a check takes queues only after that time, but it is false of the code that the queues taken are the idle ones: the newest queue is taken (C162_busy_taken), and events and timers do not count as work (C162_events_ignored)."
  },
  {
   "property": "C163",
   "status": "proved",
   "theorems": [
    "Verif.QWait.C163_safe",
    "Verif.QWait.C163_not_stuck",
    "Verif.QWait.C163_terminates",
    "Verif.QWait.C163_all_return",
    "Verif.QWait.C163_admission"
   ],
   "note": "mpq.c:799-998, 1639-1764"
  },
  {
   "property": "C164",
   "status": "partial",
   "theorems": [
    "Verif.QWait.C164_partial",
    "Verif.QWait.C164_answer",
    "Verif.QWait.C164_result",
    "Verif.QWait.C164_uaf"
   ],
   "note": "the creating call reads the handle from the queue object without a reference: false when the queue ends at once (C164_uaf); holds when nobody asks for the end before the creating call has read the handle"
  },
  {
   "property": "C165",
   "status": "partial",
   "theorems": [
    "Verif.QFlags.C165_partial",
    "Verif.QFlags.C165_exact",
    "Verif.QFlags.C165_create",
    "Verif.QFlags.C165_protection",
    "Verif.QFlags.C165_wakeup",
    "Verif.QFlags.C165_bad_op",
    "Verif.QFlags.C165_negative"
   ],
   "note": "false of the code for changes of other bits than NONBLOCK: protection and wake-up flag can be changed, unknown operations are accepted, protected flags look like errors"
  },
  {
   "property": "C166",
   "status": "proved",
   "theorems": [
    "Verif.QFlags.C166_constant",
    "Verif.QFlags.C166_stable",
    "Verif.QFlags.C166_answer"
   ],
   "note": ""
  },
  {
   "property": "C167",
   "status": "partial",
   "theorems": [
    "Verif.TimerApi.C167_current",
    "Verif.TimerApi.C167_on_q_partial",
    "Verif.TimerApi.C167_many_args",
    "Verif.TimerApi.C167_zero_expiry"
   ],
   "note": "the _on_q calls refuse 60 (61) to 64 user arguments and accept the time 0"
  },
  {
   "property": "C168",
   "status": "partial",
   "theorems": [
    "Verif.TimerApi.C168_sequential_partial",
    "Verif.TimerApi.C168_keep_lost",
    "Verif.TimerApi.C168_oneshot_lost"
   ],
   "note": "false for overlapping calls: the interval is read on the caller's thread"
  },
  {
   "property": "C169",
   "status": "partial",
   "theorems": [
    "Verif.TimerApi.C169_partial",
    "Verif.TimerApi.C169_uaf",
    "Verif.TimerApi.C169_end"
   ],
   "note": "false if the timer is killed by its callback, or its queue ends, before the making call has returned"
  },
  {
   "property": "C17",
   "status": "proved",
   "theorems": [
    "Verif.Bitmap.C17_copy"
   ],
   "note": ""
  },
  {
   "property": "C170",
   "status": "partial",
   "theorems": [
    "Verif.CurQ.C170_partial",
    "Verif.CurQ.C170_stable",
    "Verif.CurQ.C170_nested",
    "Verif.CurQ.C170_orphan",
    "Verif.CurQ.C170_this_destroyed",
    "Verif.CurQ.C170_this_destroyed_none"
   ],
   "note": "proved without nested loops; a nested aosl_mpq_loop uses the queue after it was freed; a thread that ends without a loop leaves its queue behind"
  },
  {
   "property": "C171",
   "status": "partial",
   "theorems": [
    "Verif.CurQ.C171_exact",
    "Verif.CurQ.C171_partial",
    "Verif.CurQ.C171_kicks",
    "Verif.CurQ.C171_lag"
   ],
   "note": "wake-ups are counted as descriptor events, synchronous calls on the queue itself are not counted, a running batch is counted when it is finished"
  },
  {
   "property": "C172",
   "status": "partial",
   "theorems": [
    "Verif.CondSim.C172_accounting_partial",
    "Verif.CondSim.C172_timeout",
    "Verif.CondSim.C172_broadcast_partial",
    "Verif.CondSim.C172_signal_partial",
    "Verif.CondSim.C172_signal_stolen",
    "Verif.CondSim.C172_broadcast_lost",
    "Verif.CondSim.C172_left_over",
    "Verif.CondSim.C172_ticks",
    "Verif.CondSim.C172_zero_forever"
   ],
   "note": "proved as long as nobody starts waiting after the wake-up; otherwise a late comer takes it"
  },
  {
   "property": "C173",
   "status": "partial",
   "theorems": [
    "Verif.PortThread.Win.C173_windows_safe",
    "Verif.PortThread.Win.C173_windows_released",
    "Verif.PortThread.Win.C173_windows_detach",
    "Verif.PortThread.Win.C173_windows_exit",
    "Verif.PortThread.Xr.C173_xr872",
    "Verif.PortThread.Tw.C173_tw82x_limit",
    "Verif.PortThread.Tw.C173_tw82x_exact",
    "Verif.PortThread.Ac.C173_ac791n_leak",
    "Verif.PortThread.Ipro.C173_ipro7_partial",
    "Verif.PortThread.Ipro.C173_ipro7_double_free",
    "Verif.PortThread.Ipro.C173_ipro7_uaf"
   ],
   "note": "true on windows (threads that return) and xr872; tw82x starts 32 threads in all, ac791n leaks, ipro7 races"
  },
  {
   "property": "C174",
   "status": "partial",
   "theorems": [
    "Verif.PortThread.Win.C174_windows",
    "Verif.PortThread.Xr.C174_xr872_partial",
    "Verif.PortThread.Xr.C174_xr872_foreign",
    "Verif.PortThread.Ac.C174_ac791n_exact",
    "Verif.PortThread.Ac.C174_ac791n_clash"
   ],
   "note": "true on windows and for the library's threads on xr872; false for foreign threads on xr872 and after 16 threads on ac791n"
  },
  {
   "property": "C175",
   "status": "partial",
   "theorems": [
    "Verif.PortTime.C175_asked",
    "Verif.PortTime.C175_rtos_exact",
    "Verif.PortTime.C175_cut",
    "Verif.PortTime.C175_fixed"
   ],
   "note": "true on windows, asr1606, tw82x, ac791n; cut to 16 bits on esp32, rtl8713, xr872; ignored on bk725x, ipro7, spreadtrum"
  },
  {
   "property": "C176",
   "status": "partial",
   "theorems": [
    "Verif.PortTime.C176_windows_partial",
    "Verif.PortTime.C176_windows_cut",
    "Verif.PortTime.C176_rtos_partial",
    "Verif.PortTime.C176_rtos_cut",
    "Verif.PortTime.C176_spreadtrum",
    "Verif.PortTime.C176_ac791n",
    "Verif.PortTime.C176_ac791n_zero",
    "Verif.PortTime.C176_deadline",
    "Verif.PortTime.C176_negative",
    "Verif.PortTime.C176_realtime_partial",
    "Verif.PortTime.C176_realtime_set",
    "Verif.PortTime.C176_sleep_rtl",
    "Verif.PortTime.C176_sleep_ac",
    "Verif.PortTime.C176_sleep_windows"
   ],
   "note": "exact conversions within stated ranges; false for long times (windows, rtl8713, xr872), for 0 (ac791n) and when the clock is set (real-time deadlines)"
  },
  {
   "property": "C177",
   "status": "partial",
   "theorems": [
    "Verif.PortTime.C177_exact_partial",
    "Verif.PortTime.C177_timer_partial",
    "Verif.PortTime.C177_wraps",
    "Verif.PortTime.C177_never_32",
    "Verif.PortTime.C177_never_xr872"
   ],
   "note": "true up to the limit of each port's counter; false beyond: the tick starts again and timers set before the limit never fire"
  },
  {
   "property": "C178",
   "status": "partial",
   "theorems": [
    "Verif.PortAtomic.C178_intrinsics",
    "Verif.PortAtomic.Excl.C178_exclusive",
    "Verif.PortAtomic.Excl.C178_progress",
    "Verif.PortAtomic.C178_last",
    "Verif.PortAtomic.Tw.C178_tw82x_value",
    "Verif.PortAtomic.Tw.C178_tw82x_alone_partial",
    "Verif.PortAtomic.Tw.C178_tw82x_twice",
    "Verif.PortAtomic.Tw.C178_tw82x_same"
   ],
   "note": "proved for all ports but tw82x, whose add, sub, inc and dec are two accesses: results are wrong when threads overlap (the value is not)"
  },
  {
   "property": "C179",
   "status": "partial",
   "theorems": [
    "Verif.PortSock.resolves_right_partial",
    "Verif.PortSock.addrinfo_resolve",
    "Verif.PortSock.spreadtrum_resolve",
    "Verif.PortSock.asr1606_resolve",
    "Verif.PortSock.addrinfoTmp_resolve_v4build",
    "Verif.PortSock.addrinfoTmp_resolve_v4only",
    "Verif.PortSock.addrinfoTmp_overruns",
    "Verif.PortSock.addrinfoTmp_not_right",
    "Verif.PortSock.rtl8713_resolve",
    "Verif.PortSock.rtl8713_counts_unset",
    "Verif.PortSock.xr872_resolve",
    "Verif.PortSock.xr872_not_right",
    "Verif.PortSock.ac791n_resolve",
    "Verif.PortSock.ac791n_keeps_port",
    "Verif.PortSock.filled_rest",
    "Verif.PortSock.ac791n_gives_up"
   ],
   "note": "FALSE on bk725x, ipro7, tw82x with IPv6 (stack overrun at the first IPv6 address that fits), and on xr872, rtl8713, ac791n for families they do not handle; proved on the others and for IPv4 answers everywhere"
  },
  {
   "property": "C18",
   "status": "proved",
   "theorems": [
    "Verif.IdTable.C18_unique_handles"
   ],
   "note": ""
  },
  {
   "property": "C180",
   "status": "partial",
   "theorems": [
    "Verif.PortSock.honest_ports_partial",
    "Verif.PortSock.refused_changes_nothing",
    "Verif.PortSock.dscp_refused",
    "Verif.PortSock.bind_device_ignored",
    "Verif.PortSock.dscp_ignored",
    "Verif.PortSock.xr872_family",
    "Verif.PortSock.ipro7_loopback_open",
    "Verif.PortSock.ac791n_bind_v6",
    "Verif.PortSock.not_honest",
    "Verif.PortSock.device_bound_or_refused"
   ],
   "note": "true on darwin, esp32 and harmony; false on every other port (not_honest), in the ways the other theorems name"
  },
  {
   "property": "C181",
   "status": "partial",
   "theorems": [
    "Verif.PortSock.connects_right_partial",
    "Verif.PortSock.spreadtrum_connect_fails",
    "Verif.PortSock.spreadtrum_not_right",
    "Verif.PortSock.failure_is_negative",
    "Verif.PortSock.again_is_told_apart",
    "Verif.PortSock.intr_is_told_apart",
    "Verif.PortSock.no_reason_is_success",
    "Verif.PortSock.connect_result",
    "Verif.PortSock.codes"
   ],
   "note": "true on every port but spreadtrum, where a connect under way is a failure; a failure without a reason is reported as success"
  },
  {
   "property": "C182",
   "status": "partial",
   "theorems": [
    "Verif.PortIomp.tv_right_partial",
    "Verif.PortIomp.kq_right_partial",
    "Verif.PortIomp.sprd_zero_or_forever",
    "Verif.PortIomp.sprd_not_right",
    "Verif.PortIomp.sprd_positive_partial"
   ],
   "note": "true on every port but spreadtrum, where waiting for ever and not waiting are one call and times are cut to 100 ms"
  },
  {
   "property": "C183",
   "status": "partial",
   "theorems": [
    "Verif.PortIomp.agrees_partial",
    "Verif.PortIomp.agrees_false",
    "Verif.PortIomp.add_exact",
    "Verif.PortIomp.del_clean_iff",
    "Verif.PortIomp.del_others",
    "Verif.PortIomp.writeonly_stays",
    "Verif.PortIomp.refused_add_stays",
    "Verif.PortIomp.mod_stays",
    "Verif.PortIomp.report_faithful",
    "Verif.PortIomp.darwin_half_close_closes",
    "Verif.PortIomp.linux_half_close_stays"
   ],
   "note": "true for fds that are read; an fd registered for writing only stays watched, a registration refused for writing leaves reading watched"
  },
  {
   "property": "C184",
   "status": "proved",
   "theorems": [
    "Verif.MmPos.C184_table",
    "Verif.MmPos.C184_used",
    "Verif.MmPos.C184_dump",
    "Verif.MmPos.C184_off",
    "Verif.MmPos.C184_none_left",
    "Verif.MmPos.C184_order",
    "Verif.MmPos.C184_total",
    "Verif.MmPos.C184_ignored"
   ],
   "note": "calls one at a time; the realloc race and realloc to size 0 are C62"
  },
  {
   "property": "C185",
   "status": "partial",
   "theorems": [
    "Verif.QEnd.C185_this_partial",
    "Verif.QEnd.C185_not_at_end"
   ],
   "note": "proved for every callback but two; false of the code for timer destructors run at the end of the queue and for fini after a failed creation (proved)"
  },
  {
   "property": "C186",
   "status": "partial",
   "theorems": [
    "Verif.QEnd.C186_accounting",
    "Verif.QEnd.C186_clean_partial",
    "Verif.QEnd.C186_orphan",
    "Verif.QEnd.C186_orphan_fini"
   ],
   "note": "exact accounting; holds when the callbacks at the end make nothing; false of the code otherwise (proved)"
  },
  {
   "property": "C187",
   "status": "partial",
   "theorems": [
    "Verif.StatLock.C187_excludes_partial",
    "Verif.StatLock.C187_result_partial",
    "Verif.StatLock.C187_no_deadlock_partial",
    "Verif.StatLock.C187_false_bad_ports",
    "Verif.StatLock.C187_false_first_lock",
    "Verif.StatLock.C187_false_tw82x",
    "Verif.StatLock.C187_false_gives_up",
    "Verif.StatLock.C187_seven_ports_partial",
    "Verif.StatLock.C187_fini_partial",
    "Verif.StatLock.C187_init_any_time_partial"
   ],
   "note": "proved for the ports whose static initialiser makes a mutex in place, as long as making it does not fail; false on asr1606, rtl8713, spreadtrum and ipro7, on tw82x when making the mutex fails, and lock can return without the lock after 100 looks at a first use under way (all proved)"
  },
  {
   "property": "C188",
   "status": "proved",
   "theorems": [
    "Verif.QEnd.C188_failed_init",
    "Verif.QEnd.C188_runs_on",
    "Verif.QEnd.C188_fini_once"
   ],
   "note": ""
  },
  {
   "property": "C189",
   "status": "proved",
   "theorems": [
    "Verif.SkAddr.C189_v4",
    "Verif.SkAddr.C189_v6",
    "Verif.SkAddr.C189_refused",
    "Verif.SkAddr.C189_round_trip",
    "Verif.SkAddr.C189_equal",
    "Verif.SkAddr.C189_other_family"
   ],
   "note": ""
  },
  {
   "property": "C19",
   "status": "proved",
   "theorems": [
    "Verif.IdTable.C19_stale_handles",
    "Verif.IdTable.C19_alias_after_65535"
   ],
   "note": "the bound 65535 is tight: C19_alias_after_65535"
  },
  {
   "property": "C190",
   "status": "partial",
   "theorems": [
    "Verif.PortMem.C190_counts_partial",
    "Verif.PortMem.C190_failed_realloc",
    "Verif.PortMem.C190_huge",
    "Verif.PortMem.C190_header",
    "Verif.PortMem.C190_realloc_partial"
   ],
   "note": "proved as long as no realloc fails and sizes leave room for the header; a failed realloc takes the block off the report and the next call with it fails the assertion; a size within 16 of 2^32 gives a block smaller than its header (both proved)"
  },
  {
   "property": "C191",
   "status": "partial",
   "theorems": [
    "Verif.PortMem.C191_calloc_partial",
    "Verif.PortMem.C191_overflow",
    "Verif.PortMem.C191_ten_ports_partial"
   ],
   "note": "proved where the product is a size_t and, always, on the ports that leave the product to the platform; false on bk725x, rtl8713 and spreadtrum when the product overflows (proved)"
  },
  {
   "property": "C192",
   "status": "proved",
   "theorems": [
    "Verif.Mpq.C192_bounded",
    "Verif.Mpq.C192_settles",
    "Verif.Mpq.C192_back_or_circle",
    "Verif.Mpq.C192_ordered",
    "Verif.Mpq.C192_circle",
    "Verif.Mpq.C192_circle_reached",
    "Verif.Mpq.C192_full_circle",
    "Verif.Mpq.C192_full_circle_reached"
   ],
   "note": "for every history of the queue model: the internal work is bounded, every history settles, and in a settled state a call that has not come back is part of (or waits for) a circle of queues; circles are reachable (proved)"
  },
  {
   "property": "C193",
   "status": "partial",
   "theorems": [
    "Verif.QMake.C193_histories_partial",
    "Verif.QMake.C193_failed_partial",
    "Verif.QMake.C193_made",
    "Verif.QMake.C193_leak",
    "Verif.QMake.C193_twice"
   ],
   "note": "all histories and all failures but one; false of the code when the second socket of a wake-up pair cannot be made: the first one stays open (proved)"
  },
  {
   "property": "C194",
   "status": "partial",
   "theorems": [
    "Verif.QMake.C194_says_why_partial",
    "Verif.QMake.C194_priority",
    "Verif.QMake.C194_silent",
    "Verif.QMake.C194_codes"
   ],
   "note": "false of the code: bad priorities leave aosl_errno as it was; no memory, no pipe and no event set it to 0 (proved)"
  },
  {
   "property": "C195",
   "status": "partial",
   "theorems": [
    "Verif.QMake.C195_fini_partial",
    "Verif.QMake.C195_not_called"
   ],
   "note": "holds once the thread runs; false of the code for refused arguments and threads that cannot be started (proved)"
  },
  {
   "property": "C196",
   "status": "proved",
   "theorems": [
    "Verif.Mpq.C196_ends",
    "Verif.Mpq.C196_all_end",
    "Verif.Mpq.C196_circle_never"
   ],
   "note": "in every state in which the library's own steps are exhausted (C192 proves that such a state is always reached) a destroyed queue has ended, or its thread waits for a queue; a circle of synchronous calls never ends"
  },
  {
   "property": "C197",
   "status": "partial",
   "theorems": [
    "Verif.FdReg.C197_current_partial",
    "Verif.FdReg.C197_other_queue_partial",
    "Verif.FdReg.C197_succeeds",
    "Verif.FdReg.C197_positive",
    "Verif.FdReg.C197_invalid_fd",
    "Verif.FdReg.C197_fd_changed",
    "Verif.FdReg.C197_too_many",
    "Verif.FdReg.C197_connect_on_q",
    "Verif.FdReg.C197_reasons"
   ],
   "note": "all histories, failures and arguments with an fd other than -1; false of the code for fd -1, for add_fd_on_q refused by the queue, and for the mode of the fd (proved)"
  },
  {
   "property": "C198",
   "status": "partial",
   "theorems": [
    "Verif.FdReg.C198_only_late",
    "Verif.FdReg.C198_comes_partial",
    "Verif.FdReg.C198_never"
   ],
   "note": "never early, at most once, after every history; comes if the timer can be made; false of the code when it cannot (proved)"
  },
  {
   "property": "C199",
   "status": "partial",
   "theorems": [
    "Verif.PortUtilProps.C199_port_id_partial",
    "Verif.PortUtilProps.C199_rtl_ends_exactly_partial",
    "Verif.PortUtilProps.C199_rtl_hangs",
    "Verif.PortUtilProps.C199_darwin_partial",
    "Verif.PortUtilProps.C199_darwin_overflows",
    "Verif.PortUtilProps.C199_violated",
    "Verif.PortUtilProps.C199_size_zero",
    "Verif.PortUtilProps.C199_small_refused"
   ],
   "note": "proved for all ports but darwin and rtl8713; on these two false of the code (proved), with the exact sizes and clock values for which it fails"
  },
  {
   "property": "C20",
   "status": "partial",
   "theorems": [
    "Verif.IdTable.C20_capacity_partial",
    "Verif.IdTable.C20_capacity_violated"
   ],
   "note": "false as stated: the bitmap size is passed as uint8_t, so at most 248 objects fit whatever the configured maximum; the violation is proved, and success below 248 is proved"
  },
  {
   "property": "C200",
   "status": "partial",
   "theorems": [
    "Verif.PortUtilProps.C200_bytes_partial",
    "Verif.PortUtilProps.C200_version4_partial",
    "Verif.PortUtilProps.C200_words_partial",
    "Verif.PortUtilProps.C200_chip_partial",
    "Verif.PortUtilProps.C200_esp_words_partial",
    "Verif.PortUtilProps.C200_ac_partial",
    "Verif.PortUtilProps.C200_tw82x_same",
    "Verif.PortUtilProps.C200_sprd_same",
    "Verif.PortUtilProps.C200_asr_same",
    "Verif.PortUtilProps.C200_ipro7_same",
    "Verif.PortUtilProps.C200_violated",
    "Verif.PortUtil.C200_ac_form"
   ],
   "note": "per port, what the id tells apart; false of the code on tw82x, asr1606, ipro7 and four spreadtrum chips (proved)"
  },
  {
   "property": "C201",
   "status": "partial",
   "theorems": [
    "Verif.PortUtilProps.C201_fills_partial",
    "Verif.PortUtilProps.C201_truncated",
    "Verif.PortUtilProps.C201_violated"
   ],
   "note": "all lengths below 2^31; false of the code for lengths of 2^32 and more, which are cut to int (proved)"
  },
  {
   "property": "C202",
   "status": "partial",
   "theorems": [
    "Verif.PortFile.C202_tree",
    "Verif.PortFile.C202_posix_partial",
    "Verif.PortFile.C202_asr_partial",
    "Verif.PortFile.C202_asr_files",
    "Verif.PortFile.C202_asr_rmdir_file",
    "Verif.PortFile.C202_mkdir_file",
    "Verif.PortFile.C202_ac_partial",
    "Verif.PortFile.C202_ac_rename_stays",
    "Verif.PortFile.C202_create_empties",
    "Verif.PortFile.C202_xr_exist_inverted",
    "Verif.PortFile.C202_xr_mkdir_never",
    "Verif.PortFile.C202_xr_partial",
    "Verif.PortFile.C202_stub_nothing",
    "Verif.PortFile.C202_violated",
    "Verif.PortFile.C202_size"
   ],
   "note": "per port what holds of all trees and histories; false of the code on every port in the cases named (proved)"
  },
  {
   "property": "C203",
   "status": "partial",
   "theorems": [
    "Verif.PortFile.C203_write_read",
    "Verif.PortFile.C203_append_partial",
    "Verif.PortFile.C203_xr_append_denied",
    "Verif.PortFile.C203_xr_violated",
    "Verif.PortFile.C203_stub",
    "Verif.PortFile.C203_open_creates",
    "Verif.PortFile.C203_wrong_direction"
   ],
   "note": "writing: all ports with streams; appending: all but xr872, where it is false of the code (proved)"
  },
  {
   "property": "C204",
   "status": "partial",
   "theorems": [
    "Verif.PortFile.C204_removes_tree_partial",
    "Verif.PortFile.C204_endless",
    "Verif.PortFile.C204_violated_endless",
    "Verif.PortFile.C204_violated_beside",
    "Verif.PortFile.C204_others_refuse"
   ],
   "note": "all trees whose printed paths have at most 259 characters; false of the code beyond (proved)"
  },
  {
   "property": "C205",
   "status": "partial",
   "theorems": [
    "Verif.PortClock.tells_time_partial",
    "Verif.PortClock.tells_time_iff",
    "Verif.PortClock.tick_ports_ignore_the_clock",
    "Verif.PortClock.no_clock_is_zero",
    "Verif.PortClock.time_monotone",
    "Verif.PortClock.tick_value"
   ],
   "note": "Proved exactly for linux, darwin, esp32, harmony, tw82x, windows and xr872 (tells_time_iff); ac791n, asr1606, bk725x, ipro7, rtl8713 and spreadtrum give the tick, which does not depend on the clock (proved)."
  },
  {
   "property": "C206",
   "status": "partial",
   "theorems": [
    "Verif.PortClock.right_partial",
    "Verif.PortClock.right_iff",
    "Verif.PortClock.closed_in_bounds",
    "Verif.PortClock.text_exists",
    "Verif.PortClock.no_date",
    "Verif.PortClock.ac791n_null",
    "Verif.PortClock.negative_length",
    "Verif.PortClock.windows_negative_length",
    "Verif.PortClock.year_10000",
    "Verif.PortClock.tick_text"
   ],
   "note": "Proved exactly for the seven ports with a calendar, years 0 to 9999 (right_iff); the others write a number or the uptime; ac791n stores through a null pointer, a negative length overruns the buffer, from the year 10000 a digit is lost (all proved)."
  },
  {
   "property": "C207",
   "status": "partial",
   "theorems": [
    "Verif.PortIo.C207_real_partial",
    "Verif.PortIo.C207_ends_partial",
    "Verif.PortIo.C207_violated_invented",
    "Verif.PortIo.C207_violated_never_told"
   ],
   "note": "Proved for all ports but ac791n, asr1606 and tw82x, where it is false of the code (proved: the pass never ends)."
  },
  {
   "property": "C208",
   "status": "partial",
   "theorems": [
    "Verif.PortIo.C208_to_system_partial",
    "Verif.PortIo.C208_from_system_partial",
    "Verif.PortIo.C208_answer_partial",
    "Verif.PortIo.C208_violated_scope",
    "Verif.PortIo.C208_violated_length",
    "Verif.PortIo.C208_violated_no_v6",
    "Verif.PortIo.C208_violated_stale",
    "Verif.PortIo.C208_other_families",
    "Verif.PortIo.C208_v4_rest"
   ],
   "note": "Proved for IPv4 on all ports and for IPv6 where it is converted, but for asr1606 (scope) and xr872 (length); false of the code there and where IPv6 is not converted (proved)."
  },
  {
   "property": "C209",
   "status": "partial",
   "theorems": [
    "Verif.PortIo.C209_port",
    "Verif.PortIo.C209_answers",
    "Verif.PortIo.C209_whose_partial",
    "Verif.PortIo.C209_found",
    "Verif.PortIo.C209_violated_never",
    "Verif.PortIo.C209_violated_default",
    "Verif.PortIo.C209_violated_esp32",
    "Verif.PortIo.C209_violated_zero",
    "Verif.PortIo.C209_esp32_fallback"
   ],
   "note": "Port and family on all ports, the default interface on rtl8713 and xr872; false of the code on the others (proved)."
  },
  {
   "property": "C21",
   "status": "partial",
   "theorems": [
    "Verif.Marshal.C21_marshal",
    "Verif.Marshal.C21_unmarshal",
    "Verif.Marshal.C21_round_trip_partial",
    "Verif.Marshal.C21_sequence_partial",
    "Verif.Marshal.C21_uninitialised"
   ],
   "note": "Proved for every descriptor graph (recursive ones too), every value and segmentation, under the assumption that the uninitialised helper_type.is_have is NULL; otherwise undefined behaviour (proved)."
  },
  {
   "property": "C210",
   "status": "partial",
   "theorems": [
    "Verif.PortPrio.C210_refused",
    "Verif.PortPrio.C210_strict_partial",
    "Verif.PortPrio.C210_tw82x_partial",
    "Verif.PortPrio.C210_rr_partial",
    "Verif.PortPrio.C210_violated_ignored",
    "Verif.PortPrio.C210_violated_denied",
    "Verif.PortPrio.C210_violated_narrow",
    "Verif.PortPrio.C210_default",
    "Verif.PortPrio.C210_ignored_value"
   ],
   "note": "Proved for ac791n, rtl8713, windows, xr872, for tw82x under an order of the SDK's constants, and for darwin and harmony with a range of at least 11 and permission; false of the code on the others and in narrow ranges (proved)."
  },
  {
   "property": "C211",
   "status": "partial",
   "theorems": [
    "Verif.PortPrio.C211_whole_partial",
    "Verif.PortPrio.C211_prefix",
    "Verif.PortPrio.C211_violated_cut"
   ],
   "note": "Proved for all ports that print directly and for lines of up to 511 characters; false of the code for longer lines on the ports with a buffer (proved, exactly which)."
  },
  {
   "property": "C212",
   "status": "proved",
   "theorems": [
    "Verif.RouteKnow.C212_subscriber_knows",
    "Verif.RouteKnow.C212_order"
   ],
   "note": ""
  },
  {
   "property": "C213",
   "status": "proved",
   "theorems": [
    "Verif.RouteKnow.C213_mobile",
    "Verif.RouteKnow.C213_unreported"
   ],
   "note": "C213_unreported: the flag is not part of the comparison that produces events."
  },
  {
   "property": "C214",
   "status": "partial",
   "theorems": [
    "Verif.PoolInit.C214_progress_partial",
    "Verif.PoolInit.C214_finish_partial",
    "Verif.PoolInit.C214_self_use",
    "Verif.PoolInit.C214_closed",
    "Verif.PoolInit.C214_dichotomy",
    "Verif.PoolInit.C214_exclusive"
   ],
   "note": "False in general: a call that creates a queue of a pool whose init function uses the same pool never returns (C214_self_use, for every history and schedule), because the pool's lock is held while the init function runs. Proved for pools that can be ranked so that init functions use pools of smaller rank only. Waiting for a queue's end is C100."
  },
  {
   "property": "C215",
   "status": "partial",
   "theorems": [
    "Verif.PrefixGet.C215_prefix_partial",
    "Verif.PrefixGet.C215_follows_partial",
    "Verif.PrefixGet.C215_memory",
    "Verif.PrefixGet.C215_violated_whole",
    "Verif.PrefixGet.C215_violated_dangling"
   ],
   "note": "Proved for the first 96 bits. False of the whole address: only 12 of its 16 bytes are allocated (C215_violated_whole, every history), and an older pointer dangles after a reset (C215_violated_dangling)."
  },
  {
   "property": "C216",
   "status": "partial",
   "theorems": [
    "Verif.DnsPrefix.C216_untouched_partial",
    "Verif.DnsPrefix.C216_violated",
    "Verif.DnsPrefix.C216_violated_sends",
    "Verif.DnsPrefix.C216_reset"
   ],
   "note": "False: every ordinary IPv6 address in an answer becomes the queue's NAT64 prefix, and IPv4 destinations are mapped into that host's /96 network (C216_violated, all histories). Proved without IPv6 and when no answer has an ordinary IPv6 address."
  },
  {
   "property": "C217",
   "status": "partial",
   "theorems": [
    "Verif.EncInt.C217_roundtrip",
    "Verif.EncInt.C217_network_partial",
    "Verif.EncInt.C217_little",
    "Verif.EncInt.C217_violated",
    "Verif.EncInt.C217_between"
   ],
   "note": "False on little-endian machines: encoding is the identity there (exact condition C217_little; C217_violated; between machines C217_between). Proved: the round trip everywhere and network order on big-endian machines."
  },
  {
   "property": "C218",
   "status": "partial",
   "theorems": [
    "Verif.DynSelf.C218_append_partial",
    "Verif.DynSelf.C218_other",
    "Verif.DynSelf.C218_assign_partial",
    "Verif.DynSelf.C218_strcat_partial",
    "Verif.DynSelf.C218_strcpy_partial",
    "Verif.DynSelf.C218_violated"
   ],
   "note": "False: appending a part reads freed memory exactly when the array must grow, assigning an own part overlaps exactly when it starts before its own length (exact conditions proved for arrays, buffers and strings; witness C218_violated). Proved for every other case and for parts of other arrays."
  },
  {
   "property": "C219",
   "status": "partial",
   "theorems": [
    "Verif.PoolFull.C219_stuck",
    "Verif.PoolFull.C219_violated",
    "Verif.PoolFull.C219_one",
    "Verif.PoolFull.C219_bounded",
    "Verif.PoolFull.C219_returns_partial",
    "Verif.PoolFull.C219_direct"
   ],
   "note": "False: as many callers at once as the limit block each other and all later callers for ever, for every limit (C219_violated, C219_stuck); limit 1 never works (C219_one). Proved with fewer callers than the limit at any time: every run of the calls under way is finite and ends with all of them returned."
  },
  {
   "property": "C22",
   "status": "partial",
   "theorems": [
    "Verif.Marshal.C22_truncated_partial"
   ],
   "note": "As C21: assumes the uninitialised helper_type.is_have is NULL."
  },
  {
   "property": "C220",
   "status": "partial",
   "theorems": [
    "Verif.PoolFull.C220_exact",
    "Verif.PoolFull.C220_queued_partial",
    "Verif.PoolFull.C220_violated",
    "Verif.PoolFull.C220_limit"
   ],
   "note": "False for queues of pools: calls under way are counted too (C220_exact, C220_violated). Proved whenever no call into the pool is under way."
  },
  {
   "property": "C221",
   "status": "partial",
   "theorems": [
    "Verif.MainQ.C221_others",
    "Verif.MainQ.C221_main_partial",
    "Verif.MainQ.C221_iff",
    "Verif.MainQ.C221_init_broken",
    "Verif.MainQ.C221_early_broken"
   ],
   "note": "Others are never told they are on the main queue, and exactly the main queue whose aosl_main_start has returned is; the init callback and functions that run earlier are always told no (violated by the code), and aosl_mpq_main gives 0 then."
  },
  {
   "property": "C222",
   "status": "partial",
   "theorems": [
    "Verif.MainQ.C222_forgotten",
    "Verif.MainQ.C222_restart_partial",
    "Verif.MainQ.C222_safe_partial",
    "Verif.MainQ.C222_stale_broken",
    "Verif.MainQ.C222_uaf_broken",
    "Verif.MainQ.C222_failed_broken",
    "Verif.MainQ.C222_histories"
   ],
   "note": "Holds while no start failed and the protection of no main queue is removed; violated otherwise: witnesses where starts are refused for ever and where freed memory is read."
  },
  {
   "property": "C223",
   "status": "partial",
   "theorems": [
    "Verif.PktMem.C223_packets_partial",
    "Verif.PktMem.C223_size_broken",
    "Verif.PktMem.C223_stale_broken"
   ],
   "note": "Order, wholeness, senders and memory for all packets with an address; longer packets are cut at max_pkt_size rounded up to whole words, and packets without an address get an earlier one (both violated by the code)."
  },
  {
   "property": "C224",
   "status": "proved",
   "theorems": [
    "Verif.PktMem.C224_kept"
   ],
   "note": "For one waiting piece of data; the queue of them is IoWrite's."
  },
  {
   "property": "C225",
   "status": "partial",
   "theorems": [
    "Verif.MainEnd.C225_ends_partial",
    "Verif.MainEnd.C225_violated",
    "Verif.MainEnd.C225_stuck",
    "Verif.MainEnd.C225_reached",
    "Verif.MainEnd.C225_in_order",
    "Verif.MainEnd.C225_all_taken"
   ],
   "note": "Holds under every schedule as long as no function on a queue of a default pool waits for the main queue; violated there: a deadlock no continuation resolves."
  },
  {
   "property": "C226",
   "status": "partial",
   "theorems": [
    "Verif.MarshalFwd.C226_forward_partial",
    "Verif.MarshalFwd.C226_same_partial",
    "Verif.MarshalFwd.C226_flag_violated",
    "Verif.MarshalFwd.C226_long_violated"
   ],
   "note": "False: flag bytes other than 0 and 1 are accepted and sent on as 1 (C226_flag_violated), and texts of 64 KiB and more are cut (C226_long_violated). Proved below 64 KiB or without text: same number of bytes, same bytes but for such flags, same object; the same bytes without pointers and strings. Assumes helper_type.is_have is NULL, as C21."
  },
  {
   "property": "C227",
   "status": "partial",
   "theorems": [
    "Verif.MarshalFwd.C227_accounted_partial",
    "Verif.MarshalFwd.C226_long_violated"
   ],
   "note": "Proved for messages below 64 KiB and for descriptors without text, for every byte string; false for longer texts, where bytes behind the consumed ones decide (C226_long_violated). Assumes helper_type.is_have is NULL, as C21."
  },
  {
   "property": "C228",
   "status": "partial",
   "theorems": [
    "Verif.PortLock.C228_excludes_partial",
    "Verif.PortLock.C228_good_excludes",
    "Verif.PortLock.C228_nothing_left",
    "Verif.PortLock.C228_violated",
    "Verif.PortLock.C228_two_inside",
    "Verif.PortLock.C228_breaks",
    "Verif.PortLock.C228_never_got",
    "Verif.PortLock.C228_checked"
   ],
   "note": "False on every port when no mutex can be made: create returns a lock all the same. Proved on every port and for every history: exclusion and no needless waiting or failing when a mutex can be made whenever the lock object can; nothing left after destroy, however the creations go. C228_checked: with the missing check (not in the code) it holds always."
  },
  {
   "property": "C229",
   "status": "partial",
   "theorems": [
    "Verif.PortCond.C229_safe",
    "Verif.PortCond.C229_goes_on_partial",
    "Verif.PortCond.C229_ends_partial",
    "Verif.PortCond.C229_violated"
   ],
   "note": "Proved for objects with a variable behind them: exclusion and no early return in every interleaving, some step is always possible until everybody is out, and at most 9 n + 5 steps plus three for every spurious wake-up. False when the port cannot make the variable: create returns an object all the same and the waiting thread keeps the lock for ever (C229_violated)."
  },
  {
   "property": "C23",
   "status": "partial",
   "theorems": [
    "Verif.Marshal.C23_segmentation_partial",
    "Verif.Marshal.C23_violated"
   ],
   "note": "False for chains with an empty segment behind the first (proved); proved for all others."
  },
  {
   "property": "C230",
   "status": "partial",
   "theorems": [
    "Verif.PoolCall.C230_partial",
    "Verif.PoolCall.C230_has_queue",
    "Verif.PoolCall.C230_fails"
   ],
   "note": "Proved when memory for the counter is there and a failed creation left an error number, and for pools that have a queue whatever fails. Refuted otherwise: the call answers 0 and nothing is queued (C230_fails)."
  },
  {
   "property": "C231",
   "status": "partial",
   "theorems": [
    "Verif.PoolCall.C231_queue_partial",
    "Verif.PoolCall.C231_alloc_partial",
    "Verif.PoolCall.C231_choice",
    "Verif.PoolCall.C231_grows",
    "Verif.PoolCall.C231_fails",
    "Verif.PoolCall.C231_room",
    "Verif.PoolCall.C231_full"
   ],
   "note": "Proved when a failed creation of the first queue left an error number from 1 to 4095. Refuted otherwise: 0 makes the call leave no error number, other numbers are used as addresses (C231_fails)."
  },
  {
   "property": "C232",
   "status": "partial",
   "theorems": [
    "Verif.RwWait.C232_partial",
    "Verif.RwWait.C232_kept_out",
    "Verif.RwWait.C232_readers",
    "Verif.RwWait.C232_starves",
    "Verif.RwWait.C232_fails",
    "Verif.RwWait.C232_alone",
    "Verif.RwWait.C232_stays"
   ],
   "note": "Proved once no reader is in and none comes: one of the waiting threads is in after a number of steps bounded by their work. Refuted in full: readers that relieve each other starve a writer for as many rounds as one likes (C232_starves)."
  },
  {
   "property": "C233",
   "status": "proved",
   "theorems": [
    "Verif.PoolDone.C233",
    "Verif.PoolDone.C233_ends",
    "Verif.PoolDone.C233_done_queue"
   ],
   "note": "For every order of the steps of the pool's queues."
  },
  {
   "property": "C234",
   "status": "partial",
   "theorems": [
    "Verif.CloseApi.C234_close_true_partial",
    "Verif.CloseApi.C234_close_refused",
    "Verif.CloseApi.C234_close_others",
    "Verif.CloseApi.C234_close_exact",
    "Verif.CloseApi.C234_close_through",
    "Verif.CloseApi.C234_close_false",
    "Verif.CloseApi.C234_not_truthful",
    "Verif.CloseApi.C234_del_true_partial",
    "Verif.CloseApi.C234_del_exact",
    "Verif.CloseApi.C234_second_close",
    "Verif.CloseApi.C234_errors"
   ],
   "note": "Proved unless the call to the owner's queue does not get through: then the code answers a positive number and has done nothing, and the claim is refuted."
  },
  {
   "property": "C24",
   "status": "proved",
   "theorems": [
    "Verif.Marshal.C24_capacities",
    "Verif.Marshal.C24_refused",
    "Verif.Marshal.C24_string_refused",
    "Verif.Marshal.C24_unknown"
   ],
   "note": ""
  },
  {
   "property": "C25",
   "status": "proved",
   "theorems": [
    "Verif.DynArray.C25_append",
    "Verif.DynArray.C25_histories",
    "Verif.DynArray.C25_deterministic",
    "Verif.DynArray.C25_init"
   ],
   "note": "Explicit heap; allocation failures included. Arguments aliasing the array's own memory are not modelled."
  },
  {
   "property": "C26",
   "status": "proved",
   "theorems": [
    "Verif.DynArray.C26_strcat",
    "Verif.DynArray.C26_strcpy",
    "Verif.DynArray.C26_copy",
    "Verif.DynArray.C26_strcpy_out",
    "Verif.DynArray.C26_strcpy_out_zero",
    "Verif.DynArray.C26_failed_strcpy"
   ],
   "note": "buf_sz = 0 overruns (outside the claim, proved); a failing strcpy leaves an empty string whose C text is the old one (proved)."
  },
  {
   "property": "C27",
   "status": "proved",
   "theorems": [
    "Verif.DynArray.C27_total_order"
   ],
   "note": ""
  },
  {
   "property": "C28",
   "status": "proved",
   "theorems": [
    "Verif.Timer.C28_order",
    "Verif.Timer.C28_nondecreasing",
    "Verif.Timer.C28_no_ub"
   ],
   "note": "Red-black tree and linked list of the timer base modelled; the comparison is unsigned, so a timer with expiry 2^64-1 (see C29_zero_expiry) counts as last."
  },
  {
   "property": "C29",
   "status": "proved",
   "theorems": [
    "Verif.Timer.C29_not_early",
    "Verif.Timer.C29_history",
    "Verif.Timer.C29_zero_expiry"
   ],
   "note": "expire_time 0 passed to aosl_mpq_set_oneshot_timer_on_q is stored as 2^64-1, outside the range of the claim, and fires at once (proved)."
  },
  {
   "property": "C30",
   "status": "proved",
   "theorems": [
    "Verif.Timer.C30_at_most_once",
    "Verif.Timer.C30_exactly_once"
   ],
   "note": ""
  },
  {
   "property": "C31",
   "status": "proved",
   "theorems": [
    "Verif.Timer.C31_no_drift",
    "Verif.Timer.C31_lag",
    "Verif.Timer.C31_burst"
   ],
   "note": "The comment at kernel/timer.c:522 says bursts of catch-up calls are avoided; they are not (C31_burst)."
  },
  {
   "property": "C32",
   "status": "partial",
   "theorems": [
    "Verif.Timer.C32_cancel",
    "Verif.Timer.C32_kill_partial",
    "Verif.TimerRef.C32_kill_race"
   ],
   "note": "False when a reschedule by another thread overlaps the kill (proved); proved for calls executed on the owning queue with nothing in flight."
  },
  {
   "property": "C33",
   "status": "proved",
   "theorems": [
    "Verif.TimerRef.C33_dtor_once",
    "Verif.TimerRef.C33_dead_stays_dead",
    "Verif.TimerRef.C33_no_fire_before_set",
    "Verif.TimerRef.C33_oneshot_once",
    "Verif.TimerRef.C33_callback_not_reentered"
   ],
   "note": ""
  },
  {
   "property": "C34",
   "status": "proved",
   "theorems": [
    "Verif.RefObj.C34_no_use_after_free",
    "Verif.RefObj.C34_destructor",
    "Verif.RefObj.C34_callbacks_may_call"
   ],
   "note": "one object, any number of threads with nested calls, over an abstract read-write lock (C55, C56)"
  },
  {
   "property": "C35",
   "status": "proved",
   "theorems": [
    "Verif.RefObj.C35_no_callback",
    "Verif.RefObj.C35_once",
    "Verif.RefObj.C35_after_delete"
   ],
   "note": "a mark-only destroy may be followed by one successful delete, as documented in the code"
  },
  {
   "property": "C36",
   "status": "proved",
   "theorems": [
    "Verif.RefObj.C36_exclusion",
    "Verif.RefObj.C36_no_upgrade_abort"
   ],
   "note": "hold callbacks and functions run with asynchronous objects take no lock and are exempt"
  },
  {
   "property": "C37",
   "status": "proved",
   "theorems": [
    "Verif.IdTable.C37_slot_reuse",
    "Verif.IdTable.C37_destructor_once"
   ],
   "note": ""
  },
  {
   "property": "C38",
   "status": "proved",
   "theorems": [
    "Verif.Mpq.C38_fifo",
    "Verif.Mpq.C38_call_order"
   ],
   "note": "any number of threads and queues; interleaving model of kernel/mpq.c, one action per critical section"
  },
  {
   "property": "C39",
   "status": "proved",
   "theorems": [
    "Verif.Mpq.C39_at_most_once",
    "Verif.Mpq.C39_refused",
    "Verif.Mpq.C39_accepted",
    "Verif.Mpq.C39_freed",
    "Verif.Mpq.C39_progress"
   ],
   "note": "safety for every schedule; the 'eventually' part is that the queue's own thread can always get any accepted function invoked by its own steps alone, and that a freed queue has invoked everything"
  },
  {
   "property": "C40",
   "status": "proved",
   "theorems": [
    "Verif.Mpq.C40_bound",
    "Verif.Mpq.C40_config",
    "Verif.Mpq.C40_full",
    "Verif.Mpq.C40_room",
    "Verif.Mpq.C40_capacity",
    "Verif.Mpq.C40_capacity_range"
   ],
   "note": "bound counted from the log: accepted minus retired functions"
  },
  {
   "property": "C41",
   "status": "proved",
   "theorems": [
    "Verif.Mpq.C41_after",
    "Verif.Mpq.C41_frame",
    "Verif.Mpq.C41_inline"
   ],
   "note": ""
  },
  {
   "property": "C42",
   "status": "proved",
   "theorems": [
    "Verif.Mpq.C42_once",
    "Verif.Mpq.C42_after",
    "Verif.Mpq.C42_free_only",
    "Verif.Mpq.C42_exactly_one",
    "Verif.Mpq.C42_local"
   ],
   "note": ""
  },
  {
   "property": "C43",
   "status": "proved",
   "theorems": [
    "Verif.RefObj.C43_free_only",
    "Verif.RefObj.C35_no_callback"
   ],
   "note": ""
  },
  {
   "property": "C44",
   "status": "proved",
   "theorems": [
    "Verif.Mpq.C44_destroyed",
    "Verif.Mpq.C44_stale",
    "Verif.Mpq.C44_progress"
   ],
   "note": ""
  },
  {
   "property": "C45",
   "status": "proved",
   "theorems": [
    "Verif.Wakeup.C45_no_lost_wakeup",
    "Verif.Wakeup.C45_kick_arrives",
    "Verif.Wakeup.C45_never_stuck",
    "Verif.Wakeup.C45_executed_bounded",
    "Verif.Wakeup.C45_exit_only_terminated",
    "Verif.Wakeup.C45_exit_only_destroyed",
    "Verif.Wakeup.C45_conserved",
    "Verif.Wakeup.C45_destroy_terminates",
    "Verif.Wakeup.C45_terminates"
   ],
   "note": "interleaving model of need_kicking/kick_q_count/pipe or event handshake, any number of producers; sequential consistency assumed (the code has full barriers)"
  },
  {
   "property": "C46",
   "status": "proved",
   "theorems": [
    "Verif.Mpq.C46_limits",
    "Verif.Mpq.C46_refused"
   ],
   "note": ""
  },
  {
   "property": "C47",
   "status": "proved",
   "theorems": [
    "Verif.Pool.C47_bounded",
    "Verif.Pool.C47_entries",
    "Verif.Pool.C47_least_loaded",
    "Verif.Pool.C47_least_allocated",
    "Verif.Pool.C47_create"
   ],
   "note": "interleaving of pool critical sections and queue steps, any number of threads"
  },
  {
   "property": "C48",
   "status": "proved",
   "theorems": [
    "Verif.Pool.C48_at_most_once",
    "Verif.Pool.C48_after_all",
    "Verif.Pool.C48_invoked"
   ],
   "note": "log-based; queues shrunk away or destroyed in between included; per-queue FIFO execution is taken from the queue model (C38-C42)"
  },
  {
   "property": "C49",
   "status": "partial",
   "theorems": [
    "Verif.Pool.C49_free_partial",
    "Verif.Pool.C49_shrink_partial",
    "Verif.Pool.C49_alloc_crashes"
   ],
   "note": "proved for a pool that exists; the public aosl_mpq_alloc/aosl_mpq_free work on gen_pool, which k_mpqp_init never creates: null dereference (C49_alloc_crashes)"
  },
  {
   "property": "C50",
   "status": "partial",
   "theorems": [
    "Verif.IoWrite.C50_stream_partial",
    "Verif.IoWrite.C50_oom_partial",
    "Verif.IoWrite.C50_oom_torn",
    "Verif.IoWrite.C50_wire_grows",
    "Verif.IoWrite.C50_flush",
    "Verif.IoWrite.C50_drains"
   ],
   "note": "Exact for all histories without allocation failure; with allocation failures only a write reporting ENOMEM can leave a strict prefix of its bytes in the stream (C50_oom_partial), and it does (C50_oom_torn), so the full statement is false"
  },
  {
   "property": "C51",
   "status": "proved",
   "theorems": [
    "Verif.IoWrite.C51_bound",
    "Verif.IoWrite.C51_refuse",
    "Verif.IoWrite.C51_accept",
    "Verif.IoWrite.C51_conservative"
   ],
   "note": "a partially written message counts in full (C51_conservative), so a write can be refused although the unsent bytes leave room; the bound and the refusals hold"
  },
  {
   "property": "C52",
   "status": "proved",
   "theorems": [
    "Verif.IoRead.C52_lossless",
    "Verif.IoRead.C52_packets",
    "Verif.IoRead.C52_split_independent",
    "Verif.IoRead.C52_prefix"
   ],
   "note": "for check functions that are deterministic, stable under more input and whose packets fit the registered size (Good); C52_lossless holds for every check function"
  },
  {
   "property": "C53",
   "status": "proved",
   "theorems": [
    "Verif.IoRead.C53_no_overflow",
    "Verif.IoRead.C53_sizes"
   ],
   "note": "all sizes, check functions, callbacks and read results"
  },
  {
   "property": "C54",
   "status": "partial",
   "theorems": [
    "Verif.FdTab.C54_single_partial",
    "Verif.FdTab.C54_lookup",
    "Verif.FdTab.C54_second_refused_partial",
    "Verif.FdTab.C54_readd",
    "Verif.FdTab.C54_destroyed_once_partial",
    "Verif.FdTab.C54_fini_partial",
    "Verif.FdTab.C54_orphan",
    "Verif.FdTab.C54_fini_spin",
    "Verif.FdTab.C54_addfail_uaf"
   ],
   "note": "proved for histories in which no removal through a stale object hits a later registration of the same number (NoStale) and no failing registration frees an object another thread has got (NoHeldAbort); both conditions are needed: C54_orphan, C54_fini_spin, C54_addfail_uaf"
  },
  {
   "property": "C55",
   "status": "proved",
   "theorems": [
    "Verif.RwLock.C55_exclusion",
    "Verif.RwLock.C55_exclusion_64",
    "Verif.RwLock.C55_exclusion_32",
    "Verif.RwLock.C55_no_overflow"
   ],
   "note": "raw lock, atomic operations interleaved, fast and slow paths; fewer than 2^32 (2^16 on 32-bit) threads"
  },
  {
   "property": "C56",
   "status": "proved",
   "theorems": [
    "Verif.KLocks.Rw.C56_upgrade_atomic",
    "Verif.KLocks.Rw.C56_no_writer",
    "Verif.KLocks.Rw.C56_downgrade_atomic",
    "Verif.KLocks.Rw.C56_exclusion"
   ],
   "note": "k_rwlock over an abstract raw lock (whose exclusion is C55)"
  },
  {
   "property": "C57",
   "status": "partial",
   "theorems": [
    "Verif.KLocks.Event.C57_set_lost",
    "Verif.KLocks.Event.C57_pulse_two",
    "Verif.KLocks.Event.C57_spurious",
    "Verif.KLocks.Event.C57_pulse_not_all",
    "Verif.KLocks.Event.C57_set_partial",
    "Verif.KLocks.Event.C57_pulse_partial",
    "Verif.KLocks.Event.C57_single_partial",
    "Verif.KLocks.Event.C57_conserved_partial",
    "Verif.KLocks.Event.C57_set_releases_partial",
    "Verif.KLocks.Event.C57_no_early_partial"
   ],
   "note": "false in general (four proved counterexamples); holds without pulse on a set event, without spurious wake-ups of the condition variable, and for one waiter"
  },
  {
   "property": "C58",
   "status": "partial",
   "theorems": [
    "Verif.KLocks.StaticLock.C58_init_once",
    "Verif.KLocks.StaticLock.C58_false_success",
    "Verif.KLocks.StaticLock.C58_success_partial",
    "Verif.KLocks.StaticLock.C58_conserved",
    "Verif.KLocks.StaticLock.C58_stays"
   ],
   "note": "the second half is false when the underlying initialisation fails (proved)"
  },
  {
   "property": "C59",
   "status": "partial",
   "theorems": [
    "Verif.Tls.C59_refines_partial",
    "Verif.Tls.C59_id_reuse"
   ],
   "note": "holds while thread ids are not reused; a new thread with the id of an ended one sees that one's values (C59_id_reuse)"
  },
  {
   "property": "C60",
   "status": "proved",
   "theorems": [
    "Verif.Lifecycle.C60_serial",
    "Verif.Lifecycle.C60_exclusive",
    "Verif.Lifecycle.C60_nesting",
    "Verif.Lifecycle.C60_reverse",
    "Verif.Lifecycle.C60_progress"
   ],
   "note": ""
  },
  {
   "property": "C61",
   "status": "partial",
   "theorems": [
    "Verif.Lifecycle.C61_stuck",
    "Verif.Lifecycle.C61_restart_partial",
    "Verif.Lifecycle.C61_results"
   ],
   "note": "false once a creation has failed: every later aosl_main_start fails with EEXIST (C61_stuck); holds in all histories without a failed creation"
  },
  {
   "property": "C62",
   "status": "partial",
   "theorems": [
    "Verif.Mm.C62_exact_partial",
    "Verif.Mm.C62_zero_partial",
    "Verif.Mm.C62_no_realloc",
    "Verif.Mm.C62_race",
    "Verif.Mm.C62_tree_choice",
    "Verif.Mm.C62_realloc_zero"
   ],
   "note": "exact for serial histories in which realloc does not reach a pointer another thread re-records; false for the realloc race (C62_race) and realloc to size 0 (C62_realloc_zero)"
  },
  {
   "property": "C63",
   "status": "proved",
   "theorems": [
    "Verif.Words.C63_network_order",
    "Verif.Words.C63_all_widths",
    "Verif.Words.C63_bswap_mem"
   ],
   "note": ""
  },
  {
   "property": "C64",
   "status": "proved",
   "theorems": [
    "Verif.Inet.C64_ipv4_text"
   ],
   "note": ""
  },
  {
   "property": "C65",
   "status": "proved",
   "theorems": [
    "Verif.Inet.C65_ipv6_round_trip",
    "Verif.Inet.C65_parser_grammar"
   ],
   "note": ""
  },
  {
   "property": "C66",
   "status": "proved",
   "theorems": [
    "Verif.Inet.C66_bounded_output"
   ],
   "note": ""
  },
  {
   "property": "C67",
   "status": "proved",
   "theorems": [
    "Verif.NetUtil.C67_mapping",
    "Verif.NetUtil.C67_ipv4_source_reads_beyond"
   ],
   "note": "for IPv6 sources; the API also accepts an AF_INET source and then reads bytes 20..23 (proved, recorded in DESIGN.md)"
  },
  {
   "property": "C68",
   "status": "proved",
   "theorems": [
    "Verif.NetUtil.C68_prefix_equal"
   ],
   "note": ""
  },
  {
   "property": "C69",
   "status": "partial",
   "theorems": [
    "Verif.Route.C69_events_ipv4",
    "Verif.Route.C69_events_partial",
    "Verif.Route.C69_first_check",
    "Verif.Route.C69_spurious_count_event"
   ],
   "note": "Full for builds without IPv6; with IPv6 a spurious 'count changed' event exists (proved), everything else is exact."
  },
  {
   "property": "C70",
   "status": "proved",
   "theorems": [
    "Verif.Route.C70_one_subscriber"
   ],
   "note": ""
  },
  {
   "property": "C71",
   "status": "proved",
   "theorems": [
    "Verif.Netifs.C71_cache_is_a_map",
    "Verif.Netifs.C71_no_leak"
   ],
   "note": "netifs.c complete; lists as sequences."
  },
  {
   "property": "C72",
   "status": "partial",
   "theorems": [
    "Verif.OnQ.C72_user_args_partial",
    "Verif.OnQ.C72_invalid_queue",
    "Verif.OnQ.C72_connect_loses_last",
    "Verif.OnQ.C72_connect_without_args_ub"
   ],
   "note": "Proved for add_fd, listen, add_dgram, add_stream, create_timer, set_timer; false of aosl_mpq_connect_on_q, which loses the last argument and reads out of bounds without arguments (both proved)."
  },
  {
   "property": "C73",
   "status": "proved",
   "theorems": [
    "Verif.Words.C73_half_window",
    "Verif.Words.C73_asymmetric"
   ],
   "note": ""
  },
  {
   "property": "C74",
   "status": "proved",
   "theorems": [
    "Verif.Words.C74_return_err",
    "Verif.Words.C74_return_ptr_err"
   ],
   "note": ""
  },
  {
   "property": "C75",
   "status": "proved",
   "theorems": [
    "Verif.OnQ.C75_resolve_replies_once",
    "Verif.OnQ.C75_argument_limit"
   ],
   "note": ""
  },
  {
   "property": "C76",
   "status": "proved",
   "theorems": [
    "Verif.Inet.C76_canonical_text"
   ],
   "note": ""
  },
  {
   "property": "C77",
   "status": "proved",
   "theorems": [
    "Verif.Inet.C77_from_string",
    "Verif.Inet.C77_round_trip",
    "Verif.Inet.C77_small_buffer_untouched"
   ],
   "note": "with a too small buffer the call leaves the buffer unwritten and still returns it (proved as C77_small_buffer_untouched)"
  },
  {
   "property": "C78",
   "status": "proved",
   "theorems": [
    "Verif.NetUtil.C78_dispatch"
   ],
   "note": ""
  },
  {
   "property": "C79",
   "status": "proved",
   "theorems": [
    "Verif.NetUtil.C79_classification"
   ],
   "note": ""
  },
  {
   "property": "C80",
   "status": "proved",
   "theorems": [
    "Verif.NetUtil.C80_prefix_bits",
    "Verif.NetUtil.C80_masked_cmp"
   ],
   "note": ""
  },
  {
   "property": "C81",
   "status": "partial",
   "theorems": [
    "Verif.NetUtil.C81_prefix_in_force_partial",
    "Verif.NetUtil.C81_special_prefix_ignored"
   ],
   "note": "false for v4-mapped and NAT64 prefixes, which are ignored (violation proved)"
  },
  {
   "property": "C82",
   "status": "proved",
   "theorems": [
    "Verif.NetUtil.C82_ip_equal",
    "Verif.NetUtil.C82_port_round_trip",
    "Verif.NetUtil.C82_dscp"
   ],
   "note": ""
  },
  {
   "property": "C83",
   "status": "proved",
   "theorems": [
    "Verif.NetUtil.C83_dual_socket_life",
    "Verif.NetUtil.C83_bind"
   ],
   "note": ""
  },
  {
   "property": "C84",
   "status": "partial",
   "theorems": [
    "Verif.Route.C84_def_rt_str_partial",
    "Verif.Route.C84_def_rt_str_overflow",
    "Verif.Route.C84_truncated_partial"
   ],
   "note": "False of the code: for every buffer size of at least 2 an overflow exists (proved). Proved when both texts fit."
  },
  {
   "property": "C85",
   "status": "partial",
   "theorems": [
    "Verif.Route.C85_select_partial",
    "Verif.Route.C85_default_metric_loses",
    "Verif.Route.C85_max_metric_ignored",
    "Verif.Route.C85_first_without_metric_partial"
   ],
   "note": "False for entries without metric attribute (metric 0), which lose; proved when every entry carries a metric below the maximum."
  },
  {
   "property": "C86",
   "status": "partial",
   "theorems": [
    "Verif.Marshal.C86_terminated_partial",
    "Verif.Marshal.C86_unterminated"
   ],
   "note": "False for strings of 65536 bytes and more (proved); proved for shorter ones."
  },
  {
   "property": "C87",
   "status": "partial",
   "theorems": [
    "Verif.Marshal.C87_big_endian_partial",
    "Verif.Marshal.C87_byte_order"
   ],
   "note": "False of little-endian machines, which send little-endian data (proved)."
  },
  {
   "property": "C88",
   "status": "partial",
   "theorems": [
    "Verif.DynArray.C25_histories",
    "Verif.DynArray.C88_no_leak_partial",
    "Verif.DynArray.C88_init_with_leaks"
   ],
   "note": "False for init_with of a multiple of 65536 elements (proved); proved for histories where init_with gets less than 65536."
  },
  {
   "property": "C89",
   "status": "proved",
   "theorems": [
    "Verif.Timer.C89_sleep"
   ],
   "note": ""
  },
  {
   "property": "C90",
   "status": "partial",
   "theorems": [
    "Verif.TimerRef.C90_safe_partial",
    "Verif.TimerRef.C90_uaf"
   ],
   "note": "False: a reschedule that overlaps a kill leaves a freed timer in the timer base (proved); proved when no reschedule reaches the queue after the kill."
  },
  {
   "property": "C91",
   "status": "partial",
   "theorems": [
    "Verif.TimerRef.C91_partial",
    "Verif.TimerRef.C91_freed_in_callback"
   ],
   "note": "False when the callback kills its own timer (proved)."
  },
  {
   "property": "C92",
   "status": "proved",
   "theorems": [
    "Verif.RwLock.C92_no_lost_wakeup",
    "Verif.RwLock.C92_downgrade"
   ],
   "note": "same model as C55, with the events of the waiters"
  },
  {
   "property": "C93",
   "status": "partial",
   "theorems": [
    "Verif.RwLock.C93_uaf",
    "Verif.RwLock.C93_writer_partial",
    "Verif.RwLock.C93_partial"
   ],
   "note": "false in general: C93_uaf is a run that pulses a destroyed event; it holds for writers, and for readers already blocked in the event wait"
  },
  {
   "property": "C94",
   "status": "partial",
   "theorems": [
    "Verif.KLocks.Rw.C94_abort",
    "Verif.KLocks.Rw.C94_partial"
   ],
   "note": "false when an upgraded lock is released with wrunlock (proved); holds if it is given back with wr2rdlock"
  },
  {
   "property": "C95",
   "status": "partial",
   "theorems": [
    "Verif.KLocks.Cond.C95_signal_lost",
    "Verif.KLocks.Cond.C95_broadcast_partial",
    "Verif.KLocks.Cond.C95_signal_partial",
    "Verif.KLocks.Cond.C95_no_spurious"
   ],
   "note": "false for signals: two signals can wake one of two waiters (proved)"
  },
  {
   "property": "C96",
   "status": "partial",
   "theorems": [
    "Verif.RefObj.C96_abort_partial",
    "Verif.RefObj.C96_no_false_abort_partial",
    "Verif.RefObj.C96_self_deadlock",
    "Verif.RefObj.C96_two_upgrades_partial"
   ],
   "note": "false for the write callback: the thread waits for itself forever (proved)"
  },
  {
   "property": "C97",
   "status": "proved",
   "theorems": [
    "Verif.RefObj.C97_caller_free"
   ],
   "note": ""
  },
  {
   "property": "C98",
   "status": "proved",
   "theorems": [
    "Verif.Mpq.C98_users"
   ],
   "note": ""
  },
  {
   "property": "C99",
   "status": "partial",
   "theorems": [
    "Verif.Mpq.C99_no_lost_wakeup_partial",
    "Verif.Mpq.C99_not_empty_partial",
    "Verif.Mpq.C99_self_deadlock",
    "Verif.Mpq.C99_self_deadlock_reached"
   ],
   "note": "No wake-up is lost (proved for every schedule). The full statement is false: a function running on a blocking queue that queues to its own full queue blocks the only thread that could make room, for ever (C99_self_deadlock, reached by a concrete schedule)."
  }
 ]
}