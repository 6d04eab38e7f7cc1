Verif.Arm.C119_chunks_stall [propext]
Verif.Arm.C119_conserved [propext, Quot.sound]
Verif.Arm.C119_event_due_partial [propext, Quot.sound]
Verif.Arm.C119_null_crashes [propext]
Verif.Arm.C119_null_stalls [propext]
Verif.Arm.C119_progress [propext, Quot.sound]
Verif.Bitmap.C15_bitmap_set [propext, Classical.choice, Quot.sound]
Verif.Bitmap.C15_get_at_count [propext, Quot.sound]
Verif.Bitmap.C16_first_zero [propext, Classical.choice, Quot.sound]
Verif.Bitmap.C17_copy [propext, Classical.choice, Quot.sound]
Verif.CloseApi.C234_close_exact [propext, Classical.choice, Quot.sound]
Verif.CloseApi.C234_close_false [propext, Quot.sound]
Verif.CloseApi.C234_close_others [propext, Classical.choice, Quot.sound]
Verif.CloseApi.C234_close_refused [propext, Classical.choice, Quot.sound]
Verif.CloseApi.C234_close_through [propext, Quot.sound]
Verif.CloseApi.C234_close_true_partial [propext, Classical.choice, Quot.sound]
Verif.CloseApi.C234_del_exact [propext, Quot.sound]
Verif.CloseApi.C234_del_true_partial [propext, Classical.choice, Quot.sound]
Verif.CloseApi.C234_errors [propext, Classical.choice, Quot.sound]
Verif.CloseApi.C234_not_truthful [propext, Quot.sound]
Verif.CloseApi.C234_second_close [propext, Quot.sound]
Verif.CondSim.C172_accounting_partial [propext, Classical.choice, Quot.sound]
Verif.CondSim.C172_broadcast_lost [propext, Quot.sound]
Verif.CondSim.C172_broadcast_partial [propext, Classical.choice, Quot.sound]
Verif.CondSim.C172_left_over [propext, Quot.sound]
Verif.CondSim.C172_signal_partial [propext, Classical.choice, Quot.sound]
Verif.CondSim.C172_signal_stolen [propext, Quot.sound]
Verif.CondSim.C172_ticks [propext, Classical.choice, Quot.sound]
Verif.CondSim.C172_timeout [propext, Quot.sound]
Verif.CondSim.C172_zero_forever [propext, Quot.sound]
Verif.CurQ.C170_nested [propext, Quot.sound]
Verif.CurQ.C170_orphan [propext, Quot.sound]
Verif.CurQ.C170_partial [propext, Classical.choice, Quot.sound]
Verif.CurQ.C170_stable [propext, Quot.sound]
Verif.CurQ.C170_this_destroyed [propext]
Verif.CurQ.C170_this_destroyed_none [propext]
Verif.CurQ.C171_exact [propext, Classical.choice, Quot.sound]
Verif.CurQ.C171_kicks [propext, Classical.choice, Quot.sound]
Verif.CurQ.C171_lag [propext, Classical.choice, Quot.sound]
Verif.CurQ.C171_partial [propext, Classical.choice, Quot.sound]
Verif.DList.C08_deleted [propext, Classical.choice, Quot.sound]
Verif.DList.C08_queries [propext, Classical.choice, Quot.sound]
Verif.DList.C08_rings [propext, Classical.choice, Quot.sound]
Verif.Dispatch.C120_all [propext]
Verif.Dispatch.C120_right_partial [propext, Quot.sound]
Verif.Dispatch.C120_wrong_close [propext]
Verif.Dispatch.C120_wrong_thread [propext]
Verif.DnsPrefix.C216_reset [propext, Classical.choice, Quot.sound]
Verif.DnsPrefix.C216_untouched_partial [propext, Classical.choice, Quot.sound]
Verif.DnsPrefix.C216_violated [propext, Classical.choice, Quot.sound]
Verif.DnsPrefix.C216_violated_sends [propext, Classical.choice, Quot.sound]
Verif.DynArray.C25_append [propext, Classical.choice, Quot.sound]
Verif.DynArray.C25_deterministic [propext, Classical.choice, Quot.sound]
Verif.DynArray.C25_histories [propext, Classical.choice, Quot.sound]
Verif.DynArray.C25_init [propext, Classical.choice, Quot.sound]
Verif.DynArray.C26_copy [propext, Classical.choice, Quot.sound]
Verif.DynArray.C26_failed_strcpy [propext, Classical.choice, Quot.sound]
Verif.DynArray.C26_strcat [propext, Classical.choice, Quot.sound]
Verif.DynArray.C26_strcpy [propext, Classical.choice, Quot.sound]
Verif.DynArray.C26_strcpy_out [propext, Classical.choice, Quot.sound]
Verif.DynArray.C26_strcpy_out_zero [propext, Quot.sound]
Verif.DynArray.C27_total_order [propext, Classical.choice, Quot.sound]
Verif.DynArray.C88_init_with_leaks [propext, Quot.sound]
Verif.DynArray.C88_no_leak_partial [propext, Classical.choice, Quot.sound]
Verif.DynSelf.C218_append_partial [propext, Classical.choice, Quot.sound]
Verif.DynSelf.C218_assign_partial [propext, Classical.choice, Quot.sound]
Verif.DynSelf.C218_other [propext, Classical.choice, Quot.sound]
Verif.DynSelf.C218_strcat_partial [propext, Classical.choice, Quot.sound]
Verif.DynSelf.C218_strcpy_partial [propext, Classical.choice, Quot.sound]
Verif.DynSelf.C218_violated [propext, Classical.choice, Quot.sound]
Verif.EncInt.C217_between [propext, Quot.sound]
Verif.EncInt.C217_little [propext, Classical.choice, Quot.sound]
Verif.EncInt.C217_network_partial [propext, Quot.sound]
Verif.EncInt.C217_roundtrip [propext, Quot.sound]
Verif.EncInt.C217_violated [propext, Quot.sound]
Verif.Errno.C110_fini_twice [propext]
Verif.Errno.C110_freed_partial [propext, Classical.choice, Quot.sound]
Verif.Errno.C110_leak [propext, Quot.sound]
Verif.Errno.C110_no_double_free [propext, Classical.choice, Quot.sound]
Verif.Errno.C110_private [propext, Quot.sound]
Verif.FdReg.C197_connect_on_q [propext, Quot.sound]
Verif.FdReg.C197_current_partial [propext, Classical.choice, Quot.sound]
Verif.FdReg.C197_fd_changed []
Verif.FdReg.C197_invalid_fd [propext, Quot.sound]
Verif.FdReg.C197_other_queue_partial [propext, Classical.choice, Quot.sound]
Verif.FdReg.C197_positive [propext, Quot.sound]
Verif.FdReg.C197_reasons [propext, Quot.sound]
Verif.FdReg.C197_succeeds [propext, Classical.choice, Quot.sound]
Verif.FdReg.C197_too_many [propext]
Verif.FdReg.C198_comes_partial [propext, Classical.choice, Quot.sound]
Verif.FdReg.C198_never [propext, Classical.choice, Quot.sound]
Verif.FdReg.C198_only_late [propext, Classical.choice, Quot.sound]
Verif.FdTab.C54_addfail_uaf [propext, Quot.sound]
Verif.FdTab.C54_destroyed_once_partial [propext, Classical.choice, Quot.sound]
Verif.FdTab.C54_fini_partial [propext, Classical.choice, Quot.sound]
Verif.FdTab.C54_fini_spin [propext, Quot.sound]
Verif.FdTab.C54_lookup [propext, Classical.choice, Quot.sound]
Verif.FdTab.C54_orphan [propext, Quot.sound]
Verif.FdTab.C54_readd [propext, Classical.choice, Quot.sound]
Verif.FdTab.C54_second_refused_partial [propext, Classical.choice, Quot.sound]
Verif.FdTab.C54_single_partial [propext, Classical.choice, Quot.sound]
Verif.Hal.C125_connect [propext, Quot.sound]
Verif.Hal.C125_constants []
Verif.Hal.C125_translation [propext, Quot.sound]
Verif.Hal.C125_window [propext, Classical.choice, Quot.sound]
Verif.Hal.C128_from_kernel [propext]
Verif.Hal.C128_reply [propext]
Verif.Hal.C128_resolve [propext, Quot.sound]
Verif.Hal.C128_resolve_bound [propext, Quot.sound]
Verif.Hal.C128_to_kernel [propext]
Verif.Hal.C129_partial [propext]
Verif.Hal.C129_v6_fails [propext]
Verif.Hal.C129_wrong_address [propext]
Verif.Hal.C130_empty_partial [propext]
Verif.Hal.C130_other_device [propext, Classical.choice, Quot.sound]
Verif.Hal.C130_partial [propext]
Verif.Hal.C131_distinct_partial [propext, Quot.sound]
Verif.Hal.C131_names_partial [propext, Quot.sound]
Verif.Hal.C131_unnamed []
Verif.IdTable.C18_unique_handles [propext, Classical.choice, Quot.sound]
Verif.IdTable.C19_alias_after_65535 [propext, Classical.choice, Quot.sound]
Verif.IdTable.C19_stale_handles [propext, Classical.choice, Quot.sound]
Verif.IdTable.C20_capacity_partial [propext, Classical.choice, Quot.sound]
Verif.IdTable.C20_capacity_violated [propext, Classical.choice, Quot.sound]
Verif.IdTable.C37_destructor_once [propext, Classical.choice, Quot.sound]
Verif.IdTable.C37_slot_reuse [propext, Classical.choice, Quot.sound]
Verif.Inet.C64_ipv4_text [propext, Classical.choice, Quot.sound]
Verif.Inet.C65_ipv6_round_trip [propext, Classical.choice, Quot.sound]
Verif.Inet.C65_parser_grammar [propext, Classical.choice, Quot.sound]
Verif.Inet.C66_bounded_output [propext, Classical.choice, Quot.sound]
Verif.Inet.C76_canonical_text [propext, Classical.choice, Quot.sound]
Verif.Inet.C77_from_string [propext, Classical.choice, Quot.sound]
Verif.Inet.C77_round_trip [propext, Classical.choice, Quot.sound]
Verif.Inet.C77_small_buffer_untouched [propext]
Verif.IoBoth.C122_whole_events [propext, Classical.choice, Quot.sound]
Verif.IoBoth.C124_error [propext, Quot.sound]
Verif.IoBoth.C124_listen_dies [propext, Quot.sound]
Verif.IoBoth.C126_epoll_partial [propext]
Verif.IoBoth.C126_immediate []
Verif.IoBoth.C126_poll_announces_success [propext]
Verif.IoBoth.C126_results [propext]
Verif.IoBoth.C127_check_after_close []
Verif.IoBoth.C127_closed [propext]
Verif.IoBoth.C127_del [propext]
Verif.IoBoth.C127_hup_after_del [propext]
Verif.IoBoth.C127_partial [propext]
Verif.IoBoth.C127_read_after_close []
Verif.IoBoth.C144_served [propext]
Verif.IoRead.C105_datagrams_partial [propext, Classical.choice, Quot.sound]
Verif.IoRead.C105_spin [propext, Classical.choice, Quot.sound]
Verif.IoRead.C105_truncated [propext, Classical.choice, Quot.sound]
Verif.IoRead.C106_final [propext, Classical.choice, Quot.sound]
Verif.IoRead.C106_no_false_eof_partial [propext, Classical.choice, Quot.sound]
Verif.IoRead.C106_repeated [propext]
Verif.IoRead.C106_reported_partial [propext, Classical.choice, Quot.sound]
Verif.IoRead.C106_spurious [propext, Quot.sound]
Verif.IoRead.C106_spurious_reachable [propext, Quot.sound]
Verif.IoRead.C107_close_partial [propext, Classical.choice, Quot.sound]
Verif.IoRead.C107_del_continues []
Verif.IoRead.C122_announced [propext, Classical.choice, Quot.sound]
Verif.IoRead.C122_bad_check [propext, Quot.sound]
Verif.IoRead.C122_close [propext]
Verif.IoRead.C122_close_in_callback [propext, Classical.choice, Quot.sound]
Verif.IoRead.C122_error_last [propext, Classical.choice, Quot.sound]
Verif.IoRead.C122_read_fails [propext]
Verif.IoRead.C123_goes_on []
Verif.IoRead.C123_next_event_partial [propext]
Verif.IoRead.C52_lossless [propext, Classical.choice, Quot.sound]
Verif.IoRead.C52_packets [propext, Classical.choice, Quot.sound]
Verif.IoRead.C52_prefix [propext, Classical.choice, Quot.sound]
Verif.IoRead.C52_split_independent [propext, Classical.choice, Quot.sound]
Verif.IoRead.C53_no_overflow [propext, Classical.choice, Quot.sound]
Verif.IoRead.C53_sizes [propext, Quot.sound]
Verif.IoWrite.C102_bypass []
Verif.IoWrite.C102_queued_partial [propext, Quot.sound]
Verif.IoWrite.C103_held [propext, Quot.sound]
Verif.IoWrite.C103_timeout [propext]
Verif.IoWrite.C104_positive []
Verif.IoWrite.C104_ran_partial [propext, Classical.choice, Quot.sound]
Verif.IoWrite.C122_connect_timeout [propext]
Verif.IoWrite.C122_write_closed [propext, Quot.sound]
Verif.IoWrite.C122_write_error_last [propext, Quot.sound]
Verif.IoWrite.C122_write_fails [propext]
Verif.IoWrite.C50_drains [propext, Classical.choice, Quot.sound]
Verif.IoWrite.C50_flush [propext, Quot.sound]
Verif.IoWrite.C50_oom_partial [propext, Quot.sound]
Verif.IoWrite.C50_oom_torn [propext]
Verif.IoWrite.C50_stream_partial [propext, Quot.sound]
Verif.IoWrite.C50_wire_grows [propext, Quot.sound]
Verif.IoWrite.C51_accept [propext, Quot.sound]
Verif.IoWrite.C51_bound [propext, Quot.sound]
Verif.IoWrite.C51_conservative [propext, Quot.sound]
Verif.IoWrite.C51_refuse [propext, Quot.sound]
Verif.Iomp.C115_junk []
Verif.Iomp.C115_once [propext]
Verif.Iomp.C115_poll_partial [propext, Quot.sound]
Verif.Iomp.C115_select [propext, Quot.sound]
Verif.Iomp.C116_served_partial [propext, Quot.sound]
Verif.Iomp.C116_starves [propext, Quot.sound]
Verif.Iomp.C117_error_ignored [propext, Quot.sound]
Verif.Iomp.C145_poll_aborts [propext]
Verif.Iomp.C145_select_overflows [propext, Quot.sound]
Verif.Iomp.C145_waits_partial [propext, Quot.sound]
Verif.KLocks.Cond.C95_broadcast_partial [propext, Quot.sound]
Verif.KLocks.Cond.C95_no_spurious [propext, Quot.sound]
Verif.KLocks.Cond.C95_signal_lost []
Verif.KLocks.Cond.C95_signal_partial [propext, Quot.sound]
Verif.KLocks.Event.C57_conserved_partial [propext, Classical.choice, Quot.sound]
Verif.KLocks.Event.C57_no_early_partial [propext, Quot.sound]
Verif.KLocks.Event.C57_pulse_not_all []
Verif.KLocks.Event.C57_pulse_partial [propext, Classical.choice, Quot.sound]
Verif.KLocks.Event.C57_pulse_two []
Verif.KLocks.Event.C57_set_lost []
Verif.KLocks.Event.C57_set_partial [propext, Classical.choice, Quot.sound]
Verif.KLocks.Event.C57_set_releases_partial [propext, Classical.choice, Quot.sound]
Verif.KLocks.Event.C57_single_partial [propext, Classical.choice, Quot.sound]
Verif.KLocks.Event.C57_spurious []
Verif.KLocks.Rw.C56_downgrade_atomic [propext, Classical.choice, Quot.sound]
Verif.KLocks.Rw.C56_exclusion [propext, Classical.choice, Quot.sound]
Verif.KLocks.Rw.C56_no_writer [propext, Classical.choice, Quot.sound]
Verif.KLocks.Rw.C56_upgrade_atomic [propext, Classical.choice, Quot.sound]
Verif.KLocks.Rw.C94_abort [propext]
Verif.KLocks.Rw.C94_partial [propext, Classical.choice, Quot.sound]
Verif.KLocks.StaticLock.C58_conserved [propext, Classical.choice, Quot.sound]
Verif.KLocks.StaticLock.C58_false_success []
Verif.KLocks.StaticLock.C58_init_once [propext, Classical.choice, Quot.sound]
Verif.KLocks.StaticLock.C58_stays [propext, Classical.choice, Quot.sound]
Verif.KLocks.StaticLock.C58_success_partial [propext, Classical.choice, Quot.sound]
Verif.Lifecycle.C60_exclusive [propext, Quot.sound]
Verif.Lifecycle.C60_nesting [propext, Quot.sound]
Verif.Lifecycle.C60_progress [propext, Classical.choice, Quot.sound]
Verif.Lifecycle.C60_reverse []
Verif.Lifecycle.C60_serial [propext, Quot.sound]
Verif.Lifecycle.C61_restart_partial [propext, Quot.sound]
Verif.Lifecycle.C61_results [propext, Quot.sound]
Verif.Lifecycle.C61_stuck [propext, Quot.sound]
Verif.MainEnd.C225_all_taken [propext]
Verif.MainEnd.C225_ends_partial [propext, Quot.sound]
Verif.MainEnd.C225_in_order [propext]
Verif.MainEnd.C225_reached [propext]
Verif.MainEnd.C225_stuck [propext]
Verif.MainEnd.C225_violated [propext]
Verif.MainQ.C221_early_broken [propext]
Verif.MainQ.C221_iff [propext, Classical.choice, Quot.sound]
Verif.MainQ.C221_init_broken [propext, Classical.choice, Quot.sound]
Verif.MainQ.C221_main_partial [propext, Classical.choice, Quot.sound]
Verif.MainQ.C221_others [propext, Classical.choice, Quot.sound]
Verif.MainQ.C222_failed_broken [propext, Classical.choice, Quot.sound]
Verif.MainQ.C222_forgotten [propext, Classical.choice, Quot.sound]
Verif.MainQ.C222_histories [propext, Quot.sound]
Verif.MainQ.C222_restart_partial [propext, Classical.choice, Quot.sound]
Verif.MainQ.C222_safe_partial [propext, Classical.choice, Quot.sound]
Verif.MainQ.C222_stale_broken [propext, Classical.choice, Quot.sound]
Verif.MainQ.C222_uaf_broken [propext]
Verif.Marshal.C21_marshal [propext, Classical.choice, Quot.sound]
Verif.Marshal.C21_round_trip_partial [propext, Classical.choice, Quot.sound]
Verif.Marshal.C21_sequence_partial [propext, Classical.choice, Quot.sound]
Verif.Marshal.C21_uninitialised [propext, Quot.sound]
Verif.Marshal.C21_unmarshal [propext, Classical.choice, Quot.sound]
Verif.Marshal.C22_truncated_partial [propext, Classical.choice, Quot.sound]
Verif.Marshal.C23_segmentation_partial [propext, Quot.sound]
Verif.Marshal.C23_violated [propext, Quot.sound]
Verif.Marshal.C24_capacities [propext, Quot.sound]
Verif.Marshal.C24_refused [propext, Quot.sound]
Verif.Marshal.C24_string_refused [propext, Classical.choice, Quot.sound]
Verif.Marshal.C24_unknown [propext, Quot.sound]
Verif.Marshal.C86_terminated_partial [propext, Classical.choice, Quot.sound]
Verif.Marshal.C86_unterminated [propext, Classical.choice, Quot.sound]
Verif.Marshal.C87_big_endian_partial [propext, Classical.choice, Quot.sound]
Verif.Marshal.C87_byte_order [propext, Quot.sound]
Verif.MarshalFwd.C226_flag_violated [propext, Quot.sound]
Verif.MarshalFwd.C226_forward_partial [propext, Classical.choice, Quot.sound]
Verif.MarshalFwd.C226_long_violated [propext, Classical.choice, Quot.sound]
Verif.MarshalFwd.C226_same_partial [propext, Classical.choice, Quot.sound]
Verif.MarshalFwd.C227_accounted_partial [propext, Classical.choice, Quot.sound]
Verif.MarshalMem.C152_fini_empty [propext, Quot.sound]
Verif.MarshalMem.C152_fini_twice [propext, Quot.sound]
Verif.MarshalMem.C152_init_fini [propext, Classical.choice, Quot.sound]
Verif.MarshalMem.C152_init_zero [propext, Quot.sound]
Verif.MarshalMem.C153_no_leak_partial [propext, Classical.choice, Quot.sound]
Verif.MarshalMem.C153_reuse_leaks [propext, Quot.sound]
Verif.MarshalMem.C153_rounds_partial [propext, Classical.choice, Quot.sound]
Verif.MarshalMem.C153_violated_optional [propext, Quot.sound]
Verif.MarshalMem.C153_violated_string [propext, Quot.sound]
Verif.MarshalMem.C154_failed_receive_partial [propext, Classical.choice, Quot.sound]
Verif.MarshalMem.C154_leaked [propext, Quot.sound]
Verif.MarshalMem.C154_violated [propext, Quot.sound]
Verif.MarshalMem.C154_violated_ptr [propext, Quot.sound]
Verif.MarshalMem.C154_violated_var [propext, Quot.sound]
Verif.MarshalMem.C155_memory [propext, Classical.choice, Quot.sound]
Verif.MarshalMem.C155_received [propext, Classical.choice, Quot.sound]
Verif.MemApi.C111_calloc_overflow [propext, Classical.choice, Quot.sound]
Verif.MemApi.C111_calloc_partial [propext, Classical.choice, Quot.sound]
Verif.MemApi.C111_strdup [propext, Classical.choice, Quot.sound]
Verif.MemApi.C112_dump_partial [propext, Classical.choice, Quot.sound]
Verif.MemApi.C112_nothing [propext, Classical.choice, Quot.sound]
Verif.MemApi.C112_one [propext, Classical.choice, Quot.sound]
Verif.Mm.C62_exact_partial [propext, Classical.choice, Quot.sound]
Verif.Mm.C62_no_realloc [propext, Classical.choice, Quot.sound]
Verif.Mm.C62_race [propext, Quot.sound]
Verif.Mm.C62_realloc_zero [propext, Quot.sound]
Verif.Mm.C62_tree_choice [propext, Quot.sound]
Verif.Mm.C62_zero_partial [propext, Classical.choice, Quot.sound]
Verif.MmPos.C184_dump [propext, Classical.choice, Quot.sound]
Verif.MmPos.C184_ignored [propext, Classical.choice, Quot.sound]
Verif.MmPos.C184_none_left [propext, Classical.choice, Quot.sound]
Verif.MmPos.C184_off [propext, Classical.choice, Quot.sound]
Verif.MmPos.C184_order [propext, Classical.choice, Quot.sound]
Verif.MmPos.C184_table [propext, Classical.choice, Quot.sound]
Verif.MmPos.C184_total [propext, Quot.sound]
Verif.MmPos.C184_used [propext, Classical.choice, Quot.sound]
Verif.Mpq.C121_dterm [propext]
Verif.Mpq.C121_eintr [propext, Quot.sound]
Verif.Mpq.C121_released [propext, Classical.choice, Quot.sound]
Verif.Mpq.C121_third_party [propext, Classical.choice, Quot.sound]
Verif.Mpq.C121_third_party_reached [propext]
Verif.Mpq.C192_back_or_circle [propext, Classical.choice, Quot.sound]
Verif.Mpq.C192_bounded [propext, Quot.sound]
Verif.Mpq.C192_circle [propext, Classical.choice, Quot.sound]
Verif.Mpq.C192_circle_reached [propext]
Verif.Mpq.C192_full_circle [propext, Classical.choice, Quot.sound]
Verif.Mpq.C192_full_circle_reached [propext]
Verif.Mpq.C192_ordered [propext, Classical.choice, Quot.sound]
Verif.Mpq.C192_settles [propext, Classical.choice, Quot.sound]
Verif.Mpq.C196_all_end [propext, Classical.choice, Quot.sound]
Verif.Mpq.C196_circle_never [propext, Classical.choice, Quot.sound]
Verif.Mpq.C196_ends [propext, Classical.choice, Quot.sound]
Verif.Mpq.C38_call_order [propext, Classical.choice, Quot.sound]
Verif.Mpq.C38_fifo [propext, Classical.choice, Quot.sound]
Verif.Mpq.C39_accepted [propext, Classical.choice, Quot.sound]
Verif.Mpq.C39_at_most_once [propext, Classical.choice, Quot.sound]
Verif.Mpq.C39_freed [propext, Classical.choice, Quot.sound]
Verif.Mpq.C39_progress [propext, Classical.choice, Quot.sound]
Verif.Mpq.C39_refused [propext, Classical.choice, Quot.sound]
Verif.Mpq.C40_bound [propext, Classical.choice, Quot.sound]
Verif.Mpq.C40_capacity [propext, Classical.choice, Quot.sound]
Verif.Mpq.C40_capacity_range [propext, Classical.choice, Quot.sound]
Verif.Mpq.C40_config [propext, Classical.choice, Quot.sound]
Verif.Mpq.C40_full [propext, Classical.choice, Quot.sound]
Verif.Mpq.C40_room [propext, Quot.sound]
Verif.Mpq.C41_after [propext, Classical.choice, Quot.sound]
Verif.Mpq.C41_frame [propext, Classical.choice, Quot.sound]
Verif.Mpq.C41_inline [propext, Classical.choice, Quot.sound]
Verif.Mpq.C42_after [propext, Classical.choice, Quot.sound]
Verif.Mpq.C42_exactly_one [propext, Classical.choice, Quot.sound]
Verif.Mpq.C42_free_only [propext, Classical.choice, Quot.sound]
Verif.Mpq.C42_local [propext, Quot.sound]
Verif.Mpq.C42_once [propext, Classical.choice, Quot.sound]
Verif.Mpq.C44_destroyed [propext, Classical.choice, Quot.sound]
Verif.Mpq.C44_progress [propext, Classical.choice, Quot.sound]
Verif.Mpq.C44_stale [propext, Classical.choice, Quot.sound]
Verif.Mpq.C46_limits [propext, Quot.sound]
Verif.Mpq.C46_refused [propext, Classical.choice, Quot.sound]
Verif.Mpq.C98_users [propext, Classical.choice, Quot.sound]
Verif.Mpq.C99_no_lost_wakeup_partial [propext, Classical.choice, Quot.sound]
Verif.Mpq.C99_not_empty_partial [propext, Classical.choice, Quot.sound]
Verif.Mpq.C99_self_deadlock [propext, Classical.choice, Quot.sound]
Verif.Mpq.C99_self_deadlock_reached [propext, Quot.sound]
Verif.NetSub.C158_disciplined_partial [propext, Classical.choice, Quot.sound]
Verif.NetSub.C158_foreign [propext, Quot.sound]
Verif.NetSub.C158_grant [propext]
Verif.NetSub.C158_lost [propext, Quot.sound]
Verif.NetSub.C158_recover [propext, Classical.choice, Quot.sound]
Verif.NetSub.C158_running [propext, Classical.choice, Quot.sound]
Verif.NetSub.C158_stuck [propext]
Verif.NetUtil.C67_ipv4_source_reads_beyond [propext, Quot.sound]
Verif.NetUtil.C67_mapping [propext, Classical.choice, Quot.sound]
Verif.NetUtil.C68_prefix_equal [propext, Classical.choice, Quot.sound]
Verif.NetUtil.C78_dispatch [propext, Classical.choice, Quot.sound]
Verif.NetUtil.C79_classification [propext, Classical.choice, Quot.sound]
Verif.NetUtil.C80_masked_cmp [propext, Classical.choice, Quot.sound]
Verif.NetUtil.C80_prefix_bits [propext, Classical.choice, Quot.sound]
Verif.NetUtil.C81_prefix_in_force_partial [propext, Classical.choice, Quot.sound]
Verif.NetUtil.C81_special_prefix_ignored [propext, Classical.choice, Quot.sound]
Verif.NetUtil.C82_dscp [propext, Classical.choice, Quot.sound]
Verif.NetUtil.C82_ip_equal [propext, Quot.sound]
Verif.NetUtil.C82_port_round_trip [propext, Quot.sound]
Verif.NetUtil.C83_bind [propext]
Verif.NetUtil.C83_dual_socket_life [propext, Quot.sound]
Verif.Netifs.C71_cache_is_a_map [propext, Classical.choice, Quot.sound]
Verif.Netifs.C71_no_leak [propext, Classical.choice, Quot.sound]
Verif.Netlink.C147_any_dump_partial [propext, Classical.choice, Quot.sound]
Verif.Netlink.C147_done_inside [propext, Classical.choice, Quot.sound]
Verif.Netlink.C147_last_decides_partial [propext, Classical.choice, Quot.sound]
Verif.Netlink.C147_one_datagram [propext, Classical.choice, Quot.sound]
Verif.Netlink.C147_other_family [propext]
Verif.Netlink.C147_spans_datagrams [propext]
Verif.Netlink.C148_attributes [propext, Classical.choice, Quot.sound]
Verif.Netlink.C148_gateway_overflow [propext]
Verif.Netlink.C148_links [propext, Classical.choice, Quot.sound]
Verif.Netlink.C148_name_unterminated [propext]
Verif.Netlink.C148_route_partial [propext, Classical.choice, Quot.sound]
Verif.Netlink.C148_route_short [propext]
Verif.Netlink.C149_link_dump [propext, Classical.choice, Quot.sound]
Verif.Netlink.C150_notifications_partial [propext, Classical.choice, Quot.sound]
Verif.Netlink.C150_unpadded [propext, Quot.sound]
Verif.Netlink.C151_closed_once_partial [propext, Quot.sound]
Verif.Netlink.C151_double_close [propext, Quot.sound]
Verif.Netlink.C151_stale_descriptor [propext, Quot.sound]
Verif.OnQ.C72_connect_loses_last [propext, Classical.choice, Quot.sound]
Verif.OnQ.C72_connect_without_args_ub [propext, Quot.sound]
Verif.OnQ.C72_invalid_queue [propext]
Verif.OnQ.C72_user_args_partial [propext, Classical.choice, Quot.sound]
Verif.OnQ.C75_argument_limit [propext, Quot.sound]
Verif.OnQ.C75_resolve_replies_once [propext, Classical.choice, Quot.sound]
Verif.PktMem.C223_packets_partial [propext, Classical.choice, Quot.sound]
Verif.PktMem.C223_size_broken []
Verif.PktMem.C223_stale_broken []
Verif.PktMem.C224_kept [propext, Classical.choice, Quot.sound]
Verif.Pool.C100_deadlock [propext, Classical.choice, Quot.sound]
Verif.Pool.C100_ends_partial [propext, Classical.choice, Quot.sound]
Verif.Pool.C101_destroy_partial [propext, Classical.choice, Quot.sound]
Verif.Pool.C101_uaf [propext, Quot.sound]
Verif.Pool.C101_uaf_shrunk [propext, Quot.sound]
Verif.Pool.C47_bounded [propext, Classical.choice, Quot.sound]
Verif.Pool.C47_create [propext, Classical.choice, Quot.sound]
Verif.Pool.C47_entries [propext, Classical.choice, Quot.sound]
Verif.Pool.C47_least_allocated [propext, Classical.choice, Quot.sound]
Verif.Pool.C47_least_loaded [propext, Classical.choice, Quot.sound]
Verif.Pool.C48_after_all [propext, Classical.choice, Quot.sound]
Verif.Pool.C48_at_most_once [propext, Classical.choice, Quot.sound]
Verif.Pool.C48_invoked [propext, Classical.choice, Quot.sound]
Verif.Pool.C49_alloc_crashes [propext]
Verif.Pool.C49_free_partial [propext, Classical.choice, Quot.sound]
Verif.Pool.C49_shrink_partial [propext, Classical.choice, Quot.sound]
Verif.PoolCall.C230_fails [propext, Quot.sound]
Verif.PoolCall.C230_has_queue [propext]
Verif.PoolCall.C230_partial [propext, Quot.sound]
Verif.PoolCall.C231_alloc_partial [propext, Classical.choice, Quot.sound]
Verif.PoolCall.C231_choice [propext, Classical.choice, Quot.sound]
Verif.PoolCall.C231_fails [propext, Quot.sound]
Verif.PoolCall.C231_full [propext, Quot.sound]
Verif.PoolCall.C231_grows [propext, Classical.choice, Quot.sound]
Verif.PoolCall.C231_queue_partial [propext, Classical.choice, Quot.sound]
Verif.PoolCall.C231_room [propext, Quot.sound]
Verif.PoolDone.C233 [propext, Classical.choice, Quot.sound]
Verif.PoolDone.C233_done_queue [propext, Classical.choice, Quot.sound]
Verif.PoolDone.C233_ends [propext, Quot.sound]
Verif.PoolFull.C219_bounded [propext, Classical.choice, Quot.sound]
Verif.PoolFull.C219_direct [propext, Quot.sound]
Verif.PoolFull.C219_one [propext, Classical.choice, Quot.sound]
Verif.PoolFull.C219_returns_partial [propext, Classical.choice, Quot.sound]
Verif.PoolFull.C219_stuck [propext, Classical.choice, Quot.sound]
Verif.PoolFull.C219_violated [propext, Classical.choice, Quot.sound]
Verif.PoolFull.C220_exact [propext, Classical.choice, Quot.sound]
Verif.PoolFull.C220_limit [propext, Classical.choice, Quot.sound]
Verif.PoolFull.C220_queued_partial [propext, Classical.choice, Quot.sound]
Verif.PoolFull.C220_violated [propext, Classical.choice, Quot.sound]
Verif.PoolIdle.C162_busy_taken [propext, Quot.sound]
Verif.PoolIdle.C162_empties [propext, Quot.sound]
Verif.PoolIdle.C162_events_ignored [propext, Quot.sound]
Verif.PoolIdle.C162_size [propext, Quot.sound]
Verif.PoolIdle.C162_taken_partial [propext, Classical.choice, Quot.sound]
Verif.PoolInit.C214_closed [propext, Classical.choice, Quot.sound]
Verif.PoolInit.C214_dichotomy [propext, Classical.choice, Quot.sound]
Verif.PoolInit.C214_exclusive [propext, Classical.choice, Quot.sound]
Verif.PoolInit.C214_finish_partial [propext, Classical.choice, Quot.sound]
Verif.PoolInit.C214_progress_partial [propext, Classical.choice, Quot.sound]
Verif.PoolInit.C214_self_use [propext, Classical.choice, Quot.sound]
Verif.PortAtomic.C178_intrinsics [propext, Classical.choice, Quot.sound]
Verif.PortAtomic.C178_last [propext, Quot.sound]
Verif.PortAtomic.Excl.C178_exclusive [propext]
Verif.PortAtomic.Excl.C178_progress [propext, Quot.sound]
Verif.PortAtomic.Tw.C178_tw82x_alone_partial [propext]
Verif.PortAtomic.Tw.C178_tw82x_same [propext]
Verif.PortAtomic.Tw.C178_tw82x_twice [propext]
Verif.PortAtomic.Tw.C178_tw82x_value [propext]
Verif.PortCond.C229_ends_partial [propext, Quot.sound]
Verif.PortCond.C229_goes_on_partial [propext, Classical.choice, Quot.sound]
Verif.PortCond.C229_safe [propext, Quot.sound]
Verif.PortCond.C229_violated [propext, Quot.sound]
Verif.PortFile.C202_ac_partial [propext, Classical.choice, Quot.sound]
Verif.PortFile.C202_ac_rename_stays [propext, Classical.choice, Quot.sound]
Verif.PortFile.C202_asr_files [propext, Classical.choice, Quot.sound]
Verif.PortFile.C202_asr_partial [propext, Classical.choice, Quot.sound]
Verif.PortFile.C202_asr_rmdir_file [propext, Classical.choice, Quot.sound]
Verif.PortFile.C202_create_empties [propext, Classical.choice, Quot.sound]
Verif.PortFile.C202_mkdir_file [propext]
Verif.PortFile.C202_posix_partial [propext, Classical.choice, Quot.sound]
Verif.PortFile.C202_size [propext, Classical.choice, Quot.sound]
Verif.PortFile.C202_stub_nothing [propext, Quot.sound]
Verif.PortFile.C202_tree [propext, Classical.choice, Quot.sound]
Verif.PortFile.C202_violated [propext, Quot.sound]
Verif.PortFile.C202_xr_exist_inverted [propext]
Verif.PortFile.C202_xr_mkdir_never [propext]
Verif.PortFile.C202_xr_partial [propext, Classical.choice, Quot.sound]
Verif.PortFile.C203_append_partial [propext, Classical.choice, Quot.sound]
Verif.PortFile.C203_open_creates [propext, Classical.choice, Quot.sound]
Verif.PortFile.C203_stub [propext, Quot.sound]
Verif.PortFile.C203_write_read [propext, Classical.choice, Quot.sound]
Verif.PortFile.C203_wrong_direction [propext]
Verif.PortFile.C203_xr_append_denied [propext, Classical.choice, Quot.sound]
Verif.PortFile.C203_xr_violated [propext, Quot.sound]
Verif.PortFile.C204_endless [propext]
Verif.PortFile.C204_others_refuse [propext]
Verif.PortFile.C204_removes_tree_partial [propext, Classical.choice, Quot.sound]
Verif.PortFile.C204_violated_beside [propext, Quot.sound]
Verif.PortFile.C204_violated_endless [propext, Quot.sound]
Verif.PortIo.C207_ends_partial [propext, Quot.sound]
Verif.PortIo.C207_real_partial [propext, Classical.choice, Quot.sound]
Verif.PortIo.C207_violated_invented [propext]
Verif.PortIo.C207_violated_never_told [propext, Quot.sound]
Verif.PortIo.C208_answer_partial [propext, Quot.sound]
Verif.PortIo.C208_from_system_partial [propext]
Verif.PortIo.C208_other_families [propext, Quot.sound]
Verif.PortIo.C208_to_system_partial [propext]
Verif.PortIo.C208_v4_rest [propext]
Verif.PortIo.C208_violated_length [propext]
Verif.PortIo.C208_violated_no_v6 [propext, Quot.sound]
Verif.PortIo.C208_violated_scope [propext]
Verif.PortIo.C208_violated_stale [propext]
Verif.PortIo.C209_answers [propext, Classical.choice, Quot.sound]
Verif.PortIo.C209_esp32_fallback [propext, Classical.choice, Quot.sound]
Verif.PortIo.C209_found [propext, Classical.choice, Quot.sound]
Verif.PortIo.C209_port [propext, Classical.choice, Quot.sound]
Verif.PortIo.C209_violated_default [propext, Classical.choice, Quot.sound]
Verif.PortIo.C209_violated_esp32 [propext, Classical.choice, Quot.sound]
Verif.PortIo.C209_violated_never [propext, Classical.choice, Quot.sound]
Verif.PortIo.C209_violated_zero [propext, Classical.choice, Quot.sound]
Verif.PortIo.C209_whose_partial [propext, Classical.choice, Quot.sound]
Verif.PortLock.C228_breaks [propext, Classical.choice, Quot.sound]
Verif.PortLock.C228_checked [propext, Classical.choice, Quot.sound]
Verif.PortLock.C228_excludes_partial [propext, Classical.choice, Quot.sound]
Verif.PortLock.C228_good_excludes [propext, Classical.choice, Quot.sound]
Verif.PortLock.C228_never_got [propext, Classical.choice, Quot.sound]
Verif.PortLock.C228_nothing_left [propext, Classical.choice, Quot.sound]
Verif.PortLock.C228_two_inside [propext, Classical.choice, Quot.sound]
Verif.PortLock.C228_violated [propext, Classical.choice, Quot.sound]
Verif.PortMem.C190_counts_partial [propext, Classical.choice, Quot.sound]
Verif.PortMem.C190_failed_realloc [propext, Classical.choice, Quot.sound]
Verif.PortMem.C190_header []
Verif.PortMem.C190_huge [propext, Quot.sound]
Verif.PortMem.C190_realloc_partial [propext, Classical.choice, Quot.sound]
Verif.PortMem.C191_calloc_partial [propext]
Verif.PortMem.C191_overflow [propext, Quot.sound]
Verif.PortMem.C191_ten_ports_partial [propext]
Verif.PortPrio.C210_default [propext]
Verif.PortPrio.C210_ignored_value [propext, Quot.sound]
Verif.PortPrio.C210_refused [propext]
Verif.PortPrio.C210_rr_partial [propext, Classical.choice, Quot.sound]
Verif.PortPrio.C210_strict_partial [propext, Classical.choice, Quot.sound]
Verif.PortPrio.C210_tw82x_partial [propext, Classical.choice, Quot.sound]
Verif.PortPrio.C210_violated_denied [propext, Quot.sound]
Verif.PortPrio.C210_violated_ignored [propext, Quot.sound]
Verif.PortPrio.C210_violated_narrow [propext, Quot.sound]
Verif.PortPrio.C211_prefix [propext, Quot.sound]
Verif.PortPrio.C211_violated_cut [propext, Quot.sound]
Verif.PortPrio.C211_whole_partial [propext]
Verif.PortThread.Ac.C173_ac791n_leak [propext, Classical.choice, Quot.sound]
Verif.PortThread.Ac.C174_ac791n_clash [propext, Classical.choice, Quot.sound]
Verif.PortThread.Ac.C174_ac791n_exact [propext, Classical.choice, Quot.sound]
Verif.PortThread.Ipro.C173_ipro7_double_free []
Verif.PortThread.Ipro.C173_ipro7_partial [propext, Quot.sound]
Verif.PortThread.Ipro.C173_ipro7_uaf []
Verif.PortThread.Tw.C173_tw82x_exact [propext, Quot.sound]
Verif.PortThread.Tw.C173_tw82x_limit [propext, Quot.sound]
Verif.PortThread.Win.C173_windows_detach [propext, Classical.choice, Quot.sound]
Verif.PortThread.Win.C173_windows_exit [propext, Classical.choice, Quot.sound]
Verif.PortThread.Win.C173_windows_released [propext, Classical.choice, Quot.sound]
Verif.PortThread.Win.C173_windows_safe [propext, Classical.choice, Quot.sound]
Verif.PortThread.Win.C174_windows [propext, Classical.choice, Quot.sound]
Verif.PortThread.Xr.C173_xr872 [propext, Classical.choice, Quot.sound]
Verif.PortThread.Xr.C174_xr872_foreign [propext, Quot.sound]
Verif.PortThread.Xr.C174_xr872_partial [propext, Classical.choice, Quot.sound]
Verif.PortTime.C175_asked [propext, Quot.sound]
Verif.PortTime.C175_cut [propext, Quot.sound]
Verif.PortTime.C175_fixed []
Verif.PortTime.C175_rtos_exact [propext, Classical.choice, Quot.sound]
Verif.PortTime.C176_ac791n [propext, Quot.sound]
Verif.PortTime.C176_ac791n_zero [propext, Quot.sound]
Verif.PortTime.C176_deadline [propext, Quot.sound]
Verif.PortTime.C176_negative [propext, Classical.choice, Quot.sound]
Verif.PortTime.C176_realtime_partial [propext, Quot.sound]
Verif.PortTime.C176_realtime_set [propext, Quot.sound]
Verif.PortTime.C176_rtos_cut [propext, Quot.sound]
Verif.PortTime.C176_rtos_partial [propext, Quot.sound]
Verif.PortTime.C176_sleep_ac [propext, Classical.choice, Quot.sound]
Verif.PortTime.C176_sleep_rtl [propext, Quot.sound]
Verif.PortTime.C176_sleep_windows [propext, Quot.sound]
Verif.PortTime.C176_spreadtrum [propext, Quot.sound]
Verif.PortTime.C176_windows_cut [propext, Quot.sound]
Verif.PortTime.C176_windows_partial [propext, Quot.sound]
Verif.PortTime.C177_exact_partial [propext, Classical.choice, Quot.sound]
Verif.PortTime.C177_never_32 [propext, Classical.choice, Quot.sound]
Verif.PortTime.C177_never_xr872 [propext, Classical.choice, Quot.sound]
Verif.PortTime.C177_timer_partial [propext, Classical.choice, Quot.sound]
Verif.PortTime.C177_wraps [propext, Classical.choice, Quot.sound]
Verif.PortUtilProps.C199_darwin_overflows [propext, Quot.sound]
Verif.PortUtilProps.C199_darwin_partial [propext, Classical.choice, Quot.sound]
Verif.PortUtilProps.C199_port_id_partial [propext, Classical.choice, Quot.sound]
Verif.PortUtilProps.C199_rtl_ends_exactly_partial [propext, Classical.choice, Quot.sound]
Verif.PortUtilProps.C199_rtl_hangs [propext, Quot.sound]
Verif.PortUtilProps.C199_size_zero [propext, Quot.sound]
Verif.PortUtilProps.C199_small_refused [propext, Quot.sound]
Verif.PortUtilProps.C199_violated [propext, Quot.sound]
Verif.PortUtilProps.C200_ac_form [propext, Quot.sound]
Verif.PortUtilProps.C200_ac_partial [propext, Quot.sound]
Verif.PortUtilProps.C200_asr_same [propext, Quot.sound]
Verif.PortUtilProps.C200_bytes_partial [propext, Quot.sound]
Verif.PortUtilProps.C200_chip_partial [propext, Quot.sound]
Verif.PortUtilProps.C200_esp_words_partial [propext, Quot.sound]
Verif.PortUtilProps.C200_ipro7_same [propext, Quot.sound]
Verif.PortUtilProps.C200_sprd_same [propext, Quot.sound]
Verif.PortUtilProps.C200_tw82x_same [propext, Quot.sound]
Verif.PortUtilProps.C200_version4_partial [propext, Quot.sound]
Verif.PortUtilProps.C200_violated [propext, Quot.sound]
Verif.PortUtilProps.C200_words_partial [propext, Quot.sound]
Verif.PortUtilProps.C201_fills_partial [propext, Quot.sound]
Verif.PortUtilProps.C201_truncated [propext, Quot.sound]
Verif.PortUtilProps.C201_violated [propext, Quot.sound]
Verif.PrefixGet.C215_follows_partial [propext, Classical.choice, Quot.sound]
Verif.PrefixGet.C215_memory [propext, Classical.choice, Quot.sound]
Verif.PrefixGet.C215_prefix_partial [propext, Classical.choice, Quot.sound]
Verif.PrefixGet.C215_violated_dangling [propext, Classical.choice, Quot.sound]
Verif.PrefixGet.C215_violated_whole [propext, Classical.choice, Quot.sound]
Verif.Psb.C09_geometry [propext, Classical.choice, Quot.sound]
Verif.Psb.C10_all_or_nothing [propext, Classical.choice, Quot.sound]
Verif.Psb.C11_payload [propext, Quot.sound]
Verif.Psb.C12_push_escapes [propext, Quot.sound]
Verif.Psb.C12_push_partial [propext, Classical.choice, Quot.sound]
Verif.Psb.C12_push_truncates [propext, Quot.sound]
Verif.Psb.C13_attach_then_free_violates []
Verif.Psb.C13_effects [propext, Classical.choice, Quot.sound]
Verif.Psb.C13_ownership_partial [propext, Classical.choice, Quot.sound]
Verif.Psb.C14_chain [propext, Quot.sound]
Verif.QEnd.C185_not_at_end [propext, Classical.choice, Quot.sound]
Verif.QEnd.C185_this_partial [propext, Classical.choice, Quot.sound]
Verif.QEnd.C186_accounting [propext, Classical.choice, Quot.sound]
Verif.QEnd.C186_clean_partial [propext, Classical.choice, Quot.sound]
Verif.QEnd.C186_orphan [propext, Classical.choice, Quot.sound]
Verif.QEnd.C186_orphan_fini [propext, Quot.sound]
Verif.QEnd.C188_failed_init [propext, Quot.sound]
Verif.QEnd.C188_fini_once [propext, Classical.choice, Quot.sound]
Verif.QEnd.C188_runs_on [propext, Quot.sound]
Verif.QFlags.C165_bad_op [propext, Quot.sound]
Verif.QFlags.C165_create [propext, Quot.sound]
Verif.QFlags.C165_exact [propext, Quot.sound]
Verif.QFlags.C165_negative [propext, Classical.choice, Quot.sound]
Verif.QFlags.C165_partial [propext, Quot.sound]
Verif.QFlags.C165_protection [propext, Quot.sound]
Verif.QFlags.C165_wakeup [propext, Quot.sound]
Verif.QFlags.C166_answer [propext, Quot.sound]
Verif.QFlags.C166_constant [propext, Classical.choice, Quot.sound]
Verif.QFlags.C166_stable [propext, Classical.choice, Quot.sound]
Verif.QHandle.C159_after_32767 [propext, Classical.choice, Quot.sound]
Verif.QHandle.C159_direct [propext, Classical.choice, Quot.sound]
Verif.QHandle.C159_main_partial [propext, Classical.choice, Quot.sound]
Verif.QHandle.C159_main_starting [propext, Classical.choice, Quot.sound]
Verif.QHandle.C159_pool_broken [propext, Classical.choice, Quot.sound]
Verif.QHandle.C159_pool_partial [propext, Classical.choice, Quot.sound]
Verif.QMake.C193_failed_partial [propext, Classical.choice, Quot.sound]
Verif.QMake.C193_histories_partial [propext, Classical.choice, Quot.sound]
Verif.QMake.C193_leak [propext, Classical.choice, Quot.sound]
Verif.QMake.C193_made [propext, Quot.sound]
Verif.QMake.C193_twice [propext, Quot.sound]
Verif.QMake.C194_codes [propext, Classical.choice, Quot.sound]
Verif.QMake.C194_priority [propext, Quot.sound]
Verif.QMake.C194_says_why_partial [propext, Quot.sound]
Verif.QMake.C194_silent [propext, Quot.sound]
Verif.QMake.C195_fini_partial [propext, Classical.choice, Quot.sound]
Verif.QMake.C195_not_called [propext, Classical.choice, Quot.sound]
Verif.QWait.C163_admission [propext]
Verif.QWait.C163_all_return [propext, Classical.choice, Quot.sound]
Verif.QWait.C163_not_stuck [propext, Classical.choice, Quot.sound]
Verif.QWait.C163_safe [propext, Classical.choice, Quot.sound]
Verif.QWait.C163_terminates [propext, Classical.choice, Quot.sound]
Verif.QWait.C164_answer [propext, Classical.choice, Quot.sound]
Verif.QWait.C164_partial [propext, Classical.choice, Quot.sound]
Verif.QWait.C164_result [propext, Classical.choice, Quot.sound]
Verif.QWait.C164_uaf [propext, Quot.sound]
Verif.RBTree.C01_contents [propext, Quot.sound]
Verif.RBTree.C02_balanced [propext, Classical.choice, Quot.sound]
Verif.RBTree.C03_count [propext, Quot.sound]
Verif.RBTree.C04_lookup [propext, Quot.sound]
Verif.RBTree.C05_erase_replace [propext, Quot.sound]
Verif.RBTree.C05_remove [propext, Quot.sound]
Verif.RBTree.C06_iteration [propext, Classical.choice, Quot.sound]
Verif.RBTree.C07_early_stop [propext]
Verif.RBTree.C07_traverse [propext]
Verif.RBWalk.C156_all_when_unchanged [propext, Quot.sound]
Verif.RBWalk.C156_cleanup_leaves_idle [propext, Quot.sound]
Verif.RBWalk.C156_cleanup_partial [propext, Classical.choice, Quot.sound]
Verif.RBWalk.C156_idle_exact [propext, Classical.choice, Quot.sound]
Verif.RBWalk.C156_in_order_unsafe [propext, Quot.sound]
Verif.RBWalk.C156_post_order [propext, Classical.choice, Quot.sound]
Verif.RBWalk.C156_pre_order_unsafe [propext, Classical.choice, Quot.sound]
Verif.RBWalk.C156_reachable [propext, Classical.choice, Quot.sound]
Verif.RBWalk.C156_skips [propext, Quot.sound]
Verif.RBWalk.C156_small [propext, Quot.sound]
Verif.RBWalk.C156_visits_root [propext, Quot.sound]
Verif.RefNode.C157_cleanup_condition [propext, Classical.choice, Quot.sound]
Verif.RefNode.C157_exact_partial [propext, Classical.choice, Quot.sound]
Verif.RefNode.C157_flags [propext, Quot.sound]
Verif.RefNode.C157_kept_partial [propext, Classical.choice, Quot.sound]
Verif.RefNode.C157_month [propext, Classical.choice, Quot.sound]
Verif.RefNode.C157_no_leak_partial [propext, Classical.choice, Quot.sound]
Verif.RefNode.C157_safe_partial [propext, Classical.choice, Quot.sound]
Verif.RefNode.C157_uaf [propext]
Verif.RefObj.C132_no_deadlock [propext, Classical.choice, Quot.sound]
Verif.RefObj.C34_callbacks_may_call [propext, Classical.choice, Quot.sound]
Verif.RefObj.C34_destructor [propext, Classical.choice, Quot.sound]
Verif.RefObj.C34_no_use_after_free [propext, Classical.choice, Quot.sound]
Verif.RefObj.C35_after_delete [propext, Classical.choice, Quot.sound]
Verif.RefObj.C35_no_callback [propext, Classical.choice, Quot.sound]
Verif.RefObj.C35_once [propext, Classical.choice, Quot.sound]
Verif.RefObj.C36_exclusion [propext, Classical.choice, Quot.sound]
Verif.RefObj.C36_no_upgrade_abort [propext, Classical.choice, Quot.sound]
Verif.RefObj.C43_free_only [propext, Classical.choice, Quot.sound]
Verif.RefObj.C96_abort_partial [propext, Classical.choice, Quot.sound]
Verif.RefObj.C96_no_false_abort_partial [propext, Classical.choice, Quot.sound]
Verif.RefObj.C96_self_deadlock [propext, Classical.choice, Quot.sound]
Verif.RefObj.C96_two_upgrades_partial [propext, Classical.choice, Quot.sound]
Verif.RefObj.C97_caller_free [propext, Classical.choice, Quot.sound]
Verif.Route.C69_events_ipv4 [propext, Classical.choice, Quot.sound]
Verif.Route.C69_events_partial [propext, Classical.choice, Quot.sound]
Verif.Route.C69_first_check [propext, Classical.choice, Quot.sound]
Verif.Route.C69_spurious_count_event [propext, Classical.choice, Quot.sound]
Verif.Route.C70_one_subscriber [propext]
Verif.Route.C84_def_rt_str_overflow [propext, Quot.sound]
Verif.Route.C84_def_rt_str_partial [propext, Quot.sound]
Verif.Route.C84_truncated_partial [propext, Classical.choice, Quot.sound]
Verif.Route.C85_default_metric_loses [propext]
Verif.Route.C85_first_without_metric_partial [propext, Quot.sound]
Verif.Route.C85_max_metric_ignored [propext]
Verif.Route.C85_select_partial [propext, Quot.sound]
Verif.RouteKnow.C212_order [propext, Classical.choice, Quot.sound]
Verif.RouteKnow.C212_subscriber_knows [propext, Classical.choice, Quot.sound]
Verif.RouteKnow.C213_mobile [propext, Classical.choice, Quot.sound]
Verif.RouteKnow.C213_unreported [propext, Classical.choice, Quot.sound]
Verif.RunQuery.C160_answers_partial [propext, Classical.choice, Quot.sound]
Verif.RunQuery.C160_null_args [propext]
Verif.RunQuery.C160_null_data [propext]
Verif.RunQuery.C160_restored [propext]
Verif.RunQuery.C161_costs_zero [propext]
Verif.RunQuery.C161_logic_partial [propext, Quot.sound]
Verif.RunQuery.C161_perf_wrong [propext, Quot.sound]
Verif.RwLock.C55_exclusion [propext, Classical.choice, Quot.sound]
Verif.RwLock.C55_exclusion_32 [propext, Classical.choice, Quot.sound]
Verif.RwLock.C55_exclusion_64 [propext, Classical.choice, Quot.sound]
Verif.RwLock.C55_no_overflow [propext, Classical.choice, Quot.sound]
Verif.RwLock.C92_downgrade [propext, Classical.choice, Quot.sound]
Verif.RwLock.C92_no_lost_wakeup [propext, Classical.choice, Quot.sound]
Verif.RwLock.C93_partial [propext, Classical.choice, Quot.sound]
Verif.RwLock.C93_uaf [propext, Quot.sound]
Verif.RwLock.C93_writer_partial [propext, Classical.choice, Quot.sound]
Verif.RwWait.C232_alone [propext]
Verif.RwWait.C232_fails [propext, Quot.sound]
Verif.RwWait.C232_kept_out [propext]
Verif.RwWait.C232_partial [propext, Quot.sound]
Verif.RwWait.C232_readers [propext]
Verif.RwWait.C232_starves [propext, Quot.sound]
Verif.RwWait.C232_stays [propext]
Verif.SkAddr.C189_equal [propext, Quot.sound]
Verif.SkAddr.C189_other_family [propext, Classical.choice, Quot.sound]
Verif.SkAddr.C189_refused [propext, Classical.choice, Quot.sound]
Verif.SkAddr.C189_round_trip [propext, Classical.choice, Quot.sound]
Verif.SkAddr.C189_v4 [propext, Classical.choice, Quot.sound]
Verif.SkAddr.C189_v6 [propext, Classical.choice, Quot.sound]
Verif.SockPipe.C146_at_most_25 [propext, Classical.choice, Quot.sound]
Verif.SockPipe.C146_create_partial [propext, Classical.choice, Quot.sound]
Verif.SockPipe.C146_leaks [propext, Quot.sound]
Verif.SockPipe.C146_refused [propext, Quot.sound]
Verif.StatLock.C187_excludes_partial [propext, Classical.choice, Quot.sound]
Verif.StatLock.C187_false_bad_ports [propext, Quot.sound]
Verif.StatLock.C187_false_first_lock [propext, Quot.sound]
Verif.StatLock.C187_false_gives_up [propext, Quot.sound]
Verif.StatLock.C187_false_tw82x [propext, Quot.sound]
Verif.StatLock.C187_fini_partial [propext, Classical.choice, Quot.sound]
Verif.StatLock.C187_init_any_time_partial [propext, Classical.choice, Quot.sound]
Verif.StatLock.C187_no_deadlock_partial [propext, Classical.choice, Quot.sound]
Verif.StatLock.C187_result_partial [propext, Classical.choice, Quot.sound]
Verif.StatLock.C187_seven_ports_partial [propext, Classical.choice, Quot.sound]
Verif.SysApi.C136_in_buffer [propext, Quot.sound]
Verif.SysApi.C136_uuid [propext, Quot.sound]
Verif.SysApi.C137_filled_partial [propext, Quot.sound]
Verif.SysApi.C137_truncated [propext, Quot.sound]
Verif.SysApi.C138_count_partial [propext, Classical.choice, Quot.sound]
Verif.SysApi.C138_failures [propext]
Verif.SysApi.C138_looks_failed [propext, Quot.sound]
Verif.SysApi.C138_mkdir_on_file [propext]
Verif.SysApi.C138_mkdir_partial [propext]
Verif.SysApi.C138_size_partial [propext, Quot.sound]
Verif.SysApi.C138_wrong_size [propext, Quot.sound]
Verif.SysApi.C139_one_more []
Verif.SysApi.C139_short [propext, Quot.sound]
Verif.SysApi.C139_sleep_partial [propext, Quot.sound]
Verif.SysApi.C140_digits [propext, Classical.choice, Quot.sound]
Verif.SysApi.C140_ranges []
Verif.SysApi.C140_sec [propext, Classical.choice, Quot.sound]
Verif.SysApi.C140_tick_partial [propext, Classical.choice, Quot.sound]
Verif.SysApi.C140_tick_us_stopped []
Verif.SysApi.C140_time_str [propext, Classical.choice, Quot.sound]
Verif.SysApi.C140_year_10000 [propext, Quot.sound]
Verif.SysApi.C141_calls [propext, Classical.choice, Quot.sound]
Verif.SysApi.C141_last_reference [propext, Quot.sound]
Verif.SysApi.C141_one_winner [propext, Quot.sound]
Verif.SysApi.C142_messages [propext, Classical.choice, Quot.sound]
Verif.SysApi.C142_range []
Verif.SysApi.C143_ordered [propext, Classical.choice, Quot.sound]
Verif.SysApi.C143_range_22 [propext]
Verif.ThreadApi.C133_event_zero [propext]
Verif.ThreadApi.C133_exclusion_partial [propext]
Verif.ThreadApi.C133_lock_inverted [propext, Quot.sound]
Verif.ThreadApi.C133_lock_result_partial []
Verif.ThreadApi.C133_rd_inverted [propext, Classical.choice, Quot.sound]
Verif.ThreadApi.C133_static_partial [propext]
Verif.ThreadApi.C133_timed_partial [propext, Quot.sound]
Verif.ThreadApi.C133_timeout_positive [propext, Quot.sound]
Verif.ThreadApi.C133_two_inside []
Verif.ThreadApi.C133_wr_excludes [propext, Quot.sound]
Verif.ThreadApi.C133_wr_inverted [propext]
Verif.ThreadApi.C134_blocks [propext, Classical.choice, Quot.sound]
Verif.ThreadApi.C134_prompt_partial [propext]
Verif.ThreadApi.Start.C135_bounded [propext, Quot.sound]
Verif.ThreadApi.Start.C135_hangs [propext, Quot.sound]
Verif.ThreadApi.Start.C135_progress_partial [propext, Quot.sound]
Verif.ThreadApi.Start.C135_safe_partial [propext, Quot.sound]
Verif.ThreadApi.Start.C135_would_show [propext]
Verif.Timer.C28_no_ub [propext, Classical.choice, Quot.sound]
Verif.Timer.C28_nondecreasing [propext, Classical.choice, Quot.sound]
Verif.Timer.C28_order [propext, Classical.choice, Quot.sound]
Verif.Timer.C29_history [propext, Classical.choice, Quot.sound]
Verif.Timer.C29_not_early [propext, Classical.choice, Quot.sound]
Verif.Timer.C29_zero_expiry [propext, Quot.sound]
Verif.Timer.C30_at_most_once [propext, Classical.choice, Quot.sound]
Verif.Timer.C30_exactly_once [propext, Classical.choice, Quot.sound]
Verif.Timer.C31_burst [propext, Quot.sound]
Verif.Timer.C31_lag [propext, Classical.choice, Quot.sound]
Verif.Timer.C31_no_drift [propext, Classical.choice, Quot.sound]
Verif.Timer.C32_cancel [propext, Classical.choice, Quot.sound]
Verif.Timer.C32_kill_partial [propext, Classical.choice, Quot.sound]
Verif.Timer.C89_sleep [propext, Classical.choice, Quot.sound]
Verif.TimerApi.C167_current [propext, Classical.choice, Quot.sound]
Verif.TimerApi.C167_many_args [propext, Classical.choice, Quot.sound]
Verif.TimerApi.C167_on_q_partial [propext, Quot.sound]
Verif.TimerApi.C167_zero_expiry [propext, Quot.sound]
Verif.TimerApi.C168_keep_lost [propext, Quot.sound]
Verif.TimerApi.C168_oneshot_lost [propext, Quot.sound]
Verif.TimerApi.C168_sequential_partial [propext]
Verif.TimerApi.C169_end [propext, Quot.sound]
Verif.TimerApi.C169_partial [propext, Classical.choice, Quot.sound]
Verif.TimerApi.C169_uaf []
Verif.TimerRef.C32_kill_race [propext]
Verif.TimerRef.C33_callback_not_reentered [propext]
Verif.TimerRef.C33_dead_stays_dead [propext, Quot.sound]
Verif.TimerRef.C33_dtor_once [propext, Quot.sound]
Verif.TimerRef.C33_no_fire_before_set [propext, Quot.sound]
Verif.TimerRef.C33_oneshot_once [propext, Quot.sound]
Verif.TimerRef.C90_safe_partial [propext, Quot.sound]
Verif.TimerRef.C90_uaf [propext]
Verif.TimerRef.C91_freed_in_callback [propext]
Verif.TimerRef.C91_partial [propext, Quot.sound]
Verif.Tls.C108_broken [propext]
Verif.Tls.C108_out_partial [propext]
Verif.Tls.C108_revived [propext]
Verif.Tls.C109_create_partial [propext, Classical.choice, Quot.sound]
Verif.Tls.C109_limit [propext]
Verif.Tls.C109_never_more [propext, Classical.choice, Quot.sound]
Verif.Tls.C59_id_reuse [propext]
Verif.Tls.C59_refines_partial [propext, Classical.choice, Quot.sound]
Verif.WaitTime.C113_early [propext, Quot.sound]
Verif.WaitTime.C113_exact_partial [propext, Quot.sound]
Verif.WaitTime.C113_infinite [propext, Quot.sound]
Verif.WaitTime.C113_sleeps_forever [propext, Quot.sound]
Verif.WaitTime.C114_deadline [propext, Quot.sound]
Verif.Wakeup.C118_idle_sleeps [propext, Quot.sound]
Verif.Wakeup.C118_stays_asleep [propext, Quot.sound]
Verif.Wakeup.C45_conserved [propext, Quot.sound]
Verif.Wakeup.C45_destroy_terminates [propext]
Verif.Wakeup.C45_executed_bounded [propext, Quot.sound]
Verif.Wakeup.C45_exit_only_destroyed [propext, Classical.choice, Quot.sound]
Verif.Wakeup.C45_exit_only_terminated [propext]
Verif.Wakeup.C45_kick_arrives [propext, Classical.choice, Quot.sound]
Verif.Wakeup.C45_never_stuck [propext, Classical.choice, Quot.sound]
Verif.Wakeup.C45_no_lost_wakeup [propext, Classical.choice, Quot.sound]
Verif.Wakeup.C45_terminates [propext]
Verif.Words.C63_all_widths [propext, Quot.sound]
Verif.Words.C63_bswap_mem [propext, Quot.sound]
Verif.Words.C63_network_order [propext, Quot.sound]
Verif.Words.C73_asymmetric [propext, Quot.sound]
Verif.Words.C73_half_window [propext, Classical.choice, Quot.sound]
Verif.Words.C74_return_err [propext, Classical.choice, Quot.sound]
Verif.Words.C74_return_ptr_err [propext, Classical.choice, Quot.sound]
