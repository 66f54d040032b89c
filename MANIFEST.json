{
 "claims": [
  {
   "property": "C01",
   "status": "proved",
   "theorems": [
    "Verif.Ringbuf.ringbuf_refines_fifo"
   ],
   "note": "refinement to a bounded FIFO for every operation history; out-of-bounds accesses and assertion failures are a distinct outcome shown unreachable"
  },
  {
   "property": "C02",
   "status": "proved",
   "theorems": [
    "Verif.Ringbuf.ringbuf_refines_fifo",
    "Verif.Ringbuf.ringbuf_bulk_roundtrip"
   ],
   "note": ""
  },
  {
   "property": "C03",
   "status": "proved",
   "theorems": [
    "Verif.SafeRingbuf.safe_ringbuf_reads_fifo",
    "Verif.SafeRingbuf.safe_ringbuf_status_exact",
    "Verif.SafeRingbuf.safe_ringbuf_in_bounds"
   ],
   "note": "interleaving model at the granularity of the atomic accesses"
  },
  {
   "property": "C04",
   "status": "proved",
   "theorems": [
    "Verif.SafeRingbuf.safe_ringbuf_no_loss_no_dup",
    "Verif.SafeRingbuf.safe_ringbuf_fail_only_when_full"
   ],
   "note": "arbitrarily nested producers"
  },
  {
   "property": "C05",
   "status": "proved",
   "theorems": [
    "Verif.Sort.insertion_sort_correct",
    "Verif.Sort.insertion_sort_perm",
    "Verif.Sort.array_reverse_correct"
   ],
   "note": ""
  },
  {
   "property": "C06",
   "status": "proved",
   "theorems": [
    "Verif.Itoa.uitoa_canonical",
    "Verif.Itoa.uitoa_strtoul_roundtrip",
    "Verif.Itoa.itoa_strtol_roundtrip",
    "Verif.Itoa.uitoa_hex_fixed_roundtrip",
    "Verif.Str.str_reverse_correct"
   ],
   "note": "all widths, bases 2..16, all values"
  },
  {
   "property": "C07",
   "status": "partial",
   "theorems": [
    "Verif.Itoa.strtoul_exact",
    "Verif.Itoa.strtol_exact_nonneg",
    "Verif.Itoa.strtol_exact_neg_partial",
    "Verif.Itoa.strtoul_overflow_detected_partial",
    "Verif.Itoa.strtol_overflow_detected_partial",
    "Verif.Itoa.strtol_minus_zero_violated",
    "Verif.Itoa.strtoul32_missed_overflow_violated",
    "Verif.Itoa.strtoul32_hex_missed_overflow_violated",
    "Verif.Itoa.strtol64_missed_overflow_violated"
   ],
   "note": "the code misses some overflows and rejects '-0...'; both shown by witnesses, the rest proved"
  },
  {
   "property": "C48",
   "status": "proved",
   "theorems": [
    "Verif.Str.strcmp_eq_zero_iff",
    "Verif.Str.strcmp_neg_iff",
    "Verif.Str.strcmp_antisymm",
    "Verif.Str.strncmp_eq"
   ],
   "note": ""
  },
  {
   "property": "C49",
   "status": "partial",
   "theorems": [
    "Verif.Str.strstr_first_occurrence_partial",
    "Verif.Str.strstr_empty_needle_violated",
    "Verif.Str.strrchr_last"
   ],
   "note": "strstr with an empty needle returns NULL (witness)"
  },
  {
   "property": "C50",
   "status": "proved",
   "theorems": [
    "Verif.Str.memmove_correct",
    "Verif.Str.memcpy_correct",
    "Verif.Str.memcpy_overlap_not_memmove"
   ],
   "note": ""
  },
  {
   "property": "C51",
   "status": "partial",
   "theorems": [
    "Verif.Str.strncpy_spec",
    "Verif.Str.strncpy_in_bounds",
    "Verif.Str.strncpy_no_padding_violated"
   ],
   "note": "padding with NULs is missing in the code (witness)"
  },
  {
   "property": "C08",
   "status": "partial",
   "theorems": [
    "Verif.AbsPath.compute_abs_path_correct_partial",
    "Verif.AbsPath.compute_abs_path_result_canonical",
    "Verif.AbsPath.abs_path_dot_slash_slash_violated",
    "Verif.AbsPath.abs_path_double_slash_violated"
   ],
   "note": "full for paths without './/' ; the code mishandles those (witnesses)"
  },
  {
   "property": "C09",
   "status": "partial",
   "theorems": [
    "Verif.Avl.avl_refines_map",
    "Verif.Avl.find_ok",
    "Verif.Avl.first_ok",
    "Verif.Avl.last_ok",
    "Verif.Avl.iterator_in_order",
    "Verif.Avl.iterator_in_order_avl",
    "Verif.Avl.ptrCmp_ok",
    "Verif.Avl.ptrCmp_wrong_order_violated"
   ],
   "note": "full for comparison functions that order the keys in use and below 5702886 objects; the hard-coded pointer comparison wraps for far-apart signed keys (witness)"
  },
  {
   "property": "C10",
   "status": "partial",
   "theorems": [
    "Verif.Avl.avl_refines_map",
    "Verif.Avl.avl_size_bound",
    "Verif.Avl.avl_height_bound",
    "Verif.Avl.avl_stack_overflow_violated"
   ],
   "note": "balance and height bound for all histories; the path stack overflows at 5702886 objects although the header promises 14.9 million (witness)"
  },
  {
   "property": "C11",
   "status": "partial",
   "theorems": [
    "Verif.Kmutex.mutual_exclusion_partial",
    "Verif.Kmutex.mutual_exclusion_violated"
   ],
   "note": "for all schedules in which no left-over wake-up timer expires for a task asleep on the mutex; without that restriction exclusion fails (witness: interrupted timed sleep, then contended lock)"
  },
  {
   "property": "C12",
   "status": "partial",
   "theorems": [
    "Verif.Kmutex.waiters_served_fifo_partial",
    "Verif.Kmutex.no_barging_partial",
    "Verif.Kmutex.no_lost_wakeup_partial",
    "Verif.Kmutex.last_unlock_hands_over_partial",
    "Verif.Kmutex.head_waiter_granted_partial"
   ],
   "note": "same restriction as C11"
  },
  {
   "property": "C13",
   "status": "partial",
   "theorems": [
    "Verif.Kmutex.inner_unlock_keeps_partial",
    "Verif.Kmutex.last_unlock_hands_over_partial"
   ],
   "note": "same restriction as C11; lock_count is an unbounded counter in the model (u32 in C)"
  },
  {
   "property": "C14",
   "status": "partial",
   "theorems": [
    "Verif.Ksem.units_conserved",
    "Verif.Ksem.signal_and_trywait_decisions",
    "Verif.Ksem.units_conserved_nomax_partial",
    "Verif.Ksem.units_conserved_nomax_violated"
   ],
   "note": "full for semaphores with a maximum; without one the counter wraps past INT_MAX (witness), theorem restricted to representable values"
  },
  {
   "property": "C15",
   "status": "proved",
   "theorems": [
    "Verif.Ksem.signal_leaves_no_satisfiable_sleeper",
    "Verif.Ksem.uniform_no_satisfiable_sleeper",
    "Verif.Ksem.promised_waiter_gets_units",
    "Verif.Ksem.satisfiable_sleeper_violated"
   ],
   "note": "as stated (right after a signal); additionally as an invariant of all executions when all waits use the same number of units, and a witness that the stronger invariant fails for mixed sizes; left-over timers of other waits are not modelled here (see C11)"
  },
  {
   "property": "C16",
   "status": "proved",
   "theorems": [
    "Verif.RwlockWp.wp_exclusion",
    "Verif.RwlockRp.rp_exclusion"
   ],
   "note": "both locks, all schedules, recursive exclusive holds included; the internal mutex/semaphore are used through their specifications (C11-C15)"
  },
  {
   "property": "C17",
   "status": "proved",
   "theorems": [
    "Verif.RwlockWp.wp_readers_yield_to_writers"
   ],
   "note": ""
  },
  {
   "property": "C52",
   "status": "proved",
   "theorems": [
    "Verif.RwlockWp.wp_waiting_writer_not_stuck",
    "Verif.RwlockWp.wp_waiting_reader_not_stuck",
    "Verif.RwlockRp.rp_reader_joins",
    "Verif.RwlockRp.rp_no_deadlock",
    "Verif.RwlockWp.wp_writers_fifo_violated"
   ],
   "note": "additionally a witness that writers are not served in arrival order, contrary to the comment at rwlock.c:154-160"
  },
  {
   "property": "C18",
   "status": "proved",
   "theorems": [
    "Verif.Pipe.pipe_stream",
    "Verif.Pipe.pipe_read_next"
   ],
   "note": "all schedules of any number of tasks; user-memory faults inside the copy (-EFAULT) not modelled"
  },
  {
   "property": "C19",
   "status": "proved",
   "theorems": [
    "Verif.Pipe.pipe_read_outcome",
    "Verif.Pipe.pipe_write_outcome"
   ],
   "note": ""
  },
  {
   "property": "C53",
   "status": "partial",
   "theorems": [
    "Verif.Pipe.pipe_no_lost_wakeup_partial",
    "Verif.Pipe.pipe_no_lost_wakeup_violated"
   ],
   "note": "holds as long as nobody polls the read end; with a poller the single wake-up can be consumed by it (violated). Waiters stopped by SIGSTOP are not modelled"
  },
  {
   "property": "C20",
   "status": "partial",
   "theorems": [
    "Verif.Pid.create_pid_unique_partial",
    "Verif.Pid.create_pid_not_group_partial",
    "Verif.Pid.create_pid_fails_only_when_full",
    "Verif.Pid.create_pid_terminates",
    "Verif.Pid.create_kernel_tid_unique",
    "Verif.Pid.reach_table",
    "Verif.Pid.create_pid_unique_violated",
    "Verif.Pid.create_pid_not_group_violated"
   ],
   "note": "kernel-thread ids: always unique. Process ids: unique when found by the wrap-around search, before the first wrap-around, or when no group/session id above the counter is orphaned; not a group/session id when no group is orphaned; otherwise violated (two reachable witnesses)"
  },
  {
   "property": "C21",
   "status": "partial",
   "theorems": [
    "Verif.Signal.kill_stop_unblockable_partial",
    "Verif.Signal.kill_unblockable_violated"
   ],
   "note": "64-bit: all histories. 32-bit: histories without a sigprocmask buffer of which only the first word is readable; with one the property is violated (reachable witness)"
  },
  {
   "property": "C22",
   "status": "partial",
   "theorems": [
    "Verif.Signal.pick_pending_partial",
    "Verif.Signal.process_signals_picks_deliverable",
    "Verif.Signal.deliverable_signal_violated"
   ],
   "note": "what is picked is always pending and unblocked, and is removed; a deliverable signal is picked unless a lower-numbered blocked signal is pending (violated then)"
  },
  {
   "property": "C23",
   "status": "partial",
   "theorems": [
    "Verif.Signal.add_sig_exact_partial",
    "Verif.Signal.del_sig_exact_partial",
    "Verif.Signal.is_sig_set_exact_partial",
    "Verif.Signal.add_sig_violated",
    "Verif.Signal.del_sig_violated"
   ],
   "note": "exact on 32-bit words; on 64-bit words for signals 1..31 (32 for removal); violated above (int/unsigned shifts)"
  },
  {
   "property": "C54",
   "status": "partial",
   "theorems": [
    "Verif.Signal.sigkill_kills_partial",
    "Verif.Signal.sigkill_kills_violated"
   ],
   "note": "same restriction as C21 on 32-bit machines (violated without it); tasks suspended by vfork are made runnable later"
  },
  {
   "property": "C55",
   "status": "partial",
   "theorems": [
    "Verif.Signal.ignored_signal_no_effect",
    "Verif.Signal.ignored_signal_violated"
   ],
   "note": "sending an ignored signal changes nothing; a signal set to ignore while pending is delivered to address 1 (violated)"
  },
  {
   "property": "C24",
   "status": "partial",
   "theorems": [
    "Verif.Waitpid.wait_returns_matching_child",
    "Verif.Waitpid.wait_echild_iff",
    "Verif.Waitpid.wait_blocks_only_if_none_dead",
    "Verif.Waitpid.death_reported_once",
    "Verif.Waitpid.dead_waits_for_live_parent",
    "Verif.Waitpid.vfork_reported_stopped_violated",
    "Verif.Waitpid.inherited_stop_flag_violated"
   ],
   "note": "deaths: full, over all histories; stop/continue reports follow the kernel's flags, which are wrong for a vfork caller and for a child forked after a reported stop (violated)"
  },
  {
   "property": "C25",
   "status": "partial",
   "theorems": [
    "Verif.Waitpid.waiter_woken_partial",
    "Verif.Waitpid.waiter_for_pid_woken",
    "Verif.Waitpid.waitpid_zero_violated"
   ],
   "note": "for all pid arguments except 0 (violated); for groups provided no dead process is moved to another group"
  },
  {
   "property": "C56",
   "status": "partial",
   "theorems": [
    "Verif.Signal.stopped_stays_partial",
    "Verif.Signal.sigcont_resumes_partial",
    "Verif.Signal.stopped_stays_violated",
    "Verif.Signal.sigcont_resumes_violated"
   ],
   "note": "any unblocked terminating or handled signal resumes a stopped process, an ignored SIGCONT does not (violated)"
  },
  {
   "property": "C26",
   "status": "partial",
   "theorems": [
    "Verif.Fd.fd_calls_posix_partial",
    "Verif.Fd.other_processes_unaffected",
    "Verif.Fd.no_use_after_free_partial",
    "Verif.Fd.dup2_same_violated",
    "Verif.Fd.dupfd_full_violated",
    "Verif.Fd.dup2_nomem_violated",
    "Verif.Fd.fork_nomem_violated",
    "Verif.Fd.dupfd_negative_violated"
   ],
   "note": "all histories of open/close/dup/dup2/fcntl/pipe2/exec/fork/exit of any number of processes; excluded (and violated): F_DUPFD with a negative argument or no free descriptor, dup2 onto itself, failed allocations in fork or in dup2 onto a used descriptor"
  },
  {
   "property": "C27",
   "status": "partial",
   "theorems": [
    "Verif.Fd.fd_calls_posix_partial",
    "Verif.Fd.fork_descriptors_partial",
    "Verif.Fd.dupfd_cloexec_violated",
    "Verif.Fd.fork_cloexec_violated"
   ],
   "note": "open, pipe2, F_SETFD, dup, dup2 and exec: as requested; F_DUPFD_CLOEXEC does not set the flag and fork clears it (violated)"
  },
  {
   "property": "C28",
   "status": "partial",
   "theorems": [
    "Verif.RamFile.read_returns_last_written",
    "Verif.RamFile.pread_returns_last_written",
    "Verif.RamFile.readv_returns_last_written",
    "Verif.RamFile.write_effect",
    "Verif.RamFile.truncate_effect",
    "Verif.RamFile.seek_effect_partial",
    "Verif.RamFile.no_crash_partial",
    "Verif.RamFile.offset_violated",
    "Verif.RamFile.write_hole_violated",
    "Verif.RamFile.readv_overwrites_violated",
    "Verif.RamFile.seek_failure_violated",
    "Verif.RamFile.writev_error_violated"
   ],
   "note": "all histories with offsets up to the largest positive machine word and assertions compiled out; beyond 4 GB on 32-bit machines blocks are shared, and with assertions a write into a hole crashes (violated)"
  },
  {
   "property": "C29",
   "status": "partial",
   "theorems": [
    "Verif.RamFile.read_returns_last_written",
    "Verif.RamFile.pread_returns_last_written",
    "Verif.RamFile.truncate_violated",
    "Verif.RamFile.truncate_write_violated"
   ],
   "note": "holds for all discarded bytes outside the page that contains the new end; violated inside it"
  },
  {
   "property": "C57",
   "status": "partial",
   "theorems": [
    "Verif.RamFile.blocks_count_partial",
    "Verif.RamFile.blocks_violated"
   ],
   "note": "before the first truncate; afterwards violated"
  },
  {
   "property": "C30",
   "status": "partial",
   "theorems": [
    "Verif.RamDir.scan_complete_partial",
    "Verif.RamDir.scan_no_duplicates_partial",
    "Verif.RamDir.scan_sound_partial",
    "Verif.RamDir.dup_dir_violated",
    "Verif.RamDir.getdents_fault_violated",
    "Verif.RamDir.seek_end_violated",
    "Verif.RamDir.seek_unlink_violated"
   ],
   "note": "a scan from the beginning with any concurrent calls that avoid the known defects (Ok), without copy failures; violated for dup'ed handles, copy failures and seeking"
  },
  {
   "property": "C31",
   "status": "partial",
   "theorems": [
    "Verif.RamDir.stat_links_partial",
    "Verif.RamDir.inode_kept_partial",
    "Verif.RamDir.inode_freed_partial",
    "Verif.RamDir.names_sound_partial",
    "Verif.RamDir.rename_dir_violated",
    "Verif.RamDir.mkdir_fail_links_violated",
    "Verif.RamDir.mkdir_name_links_violated",
    "Verif.RamDir.symlink_leak_violated",
    "Verif.RamDir.link_race_leak_violated"
   ],
   "note": "all interleavings of calls that avoid the known defects (Ok); violated by rename of a directory, failed mkdir and symlink, interrupted link"
  },
  {
   "property": "C58",
   "status": "partial",
   "theorems": [
    "Verif.RamDir.effects_partial",
    "Verif.RamDir.rename_same_violated",
    "Verif.RamDir.rename_same_dir_violated",
    "Verif.RamDir.rename_into_self_violated",
    "Verif.RamDir.rename_dir_over_file_violated",
    "Verif.RamDir.rename_enospc_violated"
   ],
   "note": "all interleavings of calls that avoid the known defects (Ok)"
  },
  {
   "property": "C59",
   "status": "partial",
   "theorems": [
    "Verif.RamDir.no_use_after_free_partial",
    "Verif.RamDir.long_name_violated",
    "Verif.RamDir.rename_dir_dangling_violated",
    "Verif.RamDir.rmdir_dot_slash_violated",
    "Verif.RamDir.rename_race_violated",
    "Verif.RamDir.close_unlink_race_violated",
    "Verif.RamDir.close_rmdir_race_violated",
    "Verif.RamDir.stat_parent_violated",
    "Verif.RamDir.dup_dir_violated"
   ],
   "note": "all interleavings of calls that avoid the known defects (Ok)"
  },
  {
   "property": "C32",
   "status": "partial",
   "theorems": [
    "Verif.Timer.irq_fires_once_on_time_partial",
    "Verif.Timer.deferred_fires_once_partial",
    "Verif.Timer.history_legal_partial",
    "Verif.Timer.no_fault_partial",
    "Verif.Timer.handler_progress_partial",
    "Verif.Timer.arm_wrap_violated",
    "Verif.Timer.queue_twice_violated"
   ],
   "note": "all histories and interleavings of arm/cancel/interrupt/worker steps; missing: deadlines beyond 2^64 wrap and arming a deferred timer whose expiry is queued corrupts the list (witnesses), fewer than 5702885 armed timers"
  },
  {
   "property": "C33",
   "status": "partial",
   "theorems": [
    "Verif.Timer.cancel_truth_partial",
    "Verif.Timer.cancel_false_partial",
    "Verif.Timer.cancel_queued_violated"
   ],
   "note": "as C32; violated for a deferred timer armed while its expiry is queued"
  },
  {
   "property": "C60",
   "status": "partial",
   "theorems": [
    "Verif.Timer.worker_not_asleep_partial"
   ],
   "note": "under the guards of C32; the worker's job queue is C46"
  },
  {
   "property": "C34",
   "status": "proved",
   "theorems": [
    "Verif.Sched.no_fault",
    "Verif.Sched.only_runnable_run",
    "Verif.Sched.pick_minimal",
    "Verif.Sched.chosen_runs",
    "Verif.Sched.pick_worker"
   ],
   "note": "all histories of scheduler steps interleaved with ticks, timer expiries and worker wake-ups; minimality is at the moment of the choice (an interrupt between the choice and the switch may wake a task with a smaller virtual runtime, which then waits for the next call); worker threads go before the virtual-runtime order (C61)"
  },
  {
   "property": "C35",
   "status": "proved",
   "theorems": [
    "Verif.Sched.counters_exact",
    "Verif.Sched.runtimes_monotone"
   ],
   "note": "virtual runtimes as natural numbers (the 64-bit counters wrap after 2^60 ticks); the counter counts ordinary tasks, as the code documents"
  },
  {
   "property": "C61",
   "status": "partial",
   "theorems": [
    "Verif.Sched.pick_worker",
    "Verif.Sched.worker_preempted_violated",
    "Verif.Sched.less_urgent_worker_violated"
   ],
   "note": "runnable workers go first; a running worker is replaced by an ordinary task or a less urgent worker (violated)"
  },
  {
   "property": "C62",
   "status": "partial",
   "theorems": [
    "Verif.Sched.bounded_bypass",
    "Verif.Sched.wake_floor_partial",
    "Verif.Sched.runtimes_monotone",
    "Verif.Sched.continue_stale_violated"
   ],
   "note": "the bound holds without exception (worker threads excluded, they are not in this competition); the wake-up floor does not hold for SIGCONT and vfork parents (violated)"
  },
  {
   "property": "C63",
   "status": "proved",
   "theorems": [
    "Verif.Sched.slice_granted",
    "Verif.Sched.slice_bounded"
   ],
   "note": ""
  },
  {
   "property": "C64",
   "status": "partial",
   "theorems": [
    "Verif.Sched.stopped_stays_partial",
    "Verif.Sched.stop_lost_violated"
   ],
   "note": "violated when the flag of a timer left over from an interrupted sleep is set"
  },
  {
   "property": "C36",
   "status": "partial",
   "theorems": [
    "Verif.Kmalloc.live_blocks_disjoint_partial",
    "Verif.Kmalloc.kmalloc_partial",
    "Verif.Kmalloc.kmalloc_single_block_partial",
    "Verif.Kmalloc.kfree_partial",
    "Verif.Kmalloc.kfree_range_partial",
    "Verif.Kmalloc.roundUp_spec",
    "Verif.Kmalloc.node_index_left",
    "Verif.Kmalloc.node_index_right",
    "Verif.Kmalloc.node_index_parent",
    "Verif.Kmalloc.node_index_is_left",
    "Verif.Kmalloc.node_index_bound",
    "Verif.Kmalloc.node_index_inj",
    "Verif.Kmalloc.free_whole_heap_violated",
    "Verif.Kmalloc.misaligned_range_violated"
   ],
   "note": "Holds for every history of allocations, frees, aligned multi-step frees and expansions, for linear heaps and for heaps whose alloc block is the minimum block (all heaps in the kernel). Missing: freeing the block that is the whole heap (reads nodes[-1], proved), multi-step frees not aligned to their largest power of two (free the wrong node, proved), multi-page requests whose page mapping fails, concurrent callers (in_use CAS is not modelled)."
  },
  {
   "property": "C37",
   "status": "partial",
   "theorems": [
    "Verif.Kmalloc.free_memory_is_usable_partial",
    "Verif.Kmalloc.failed_pages_leak_violated",
    "Verif.Kmalloc.expanding_an_empty_heap_violated"
   ],
   "note": "Any request is served whenever an aligned free range of the rounded size exists. Missing: histories with a failed multi-page mapping (a page is lost, proved) and expansion of an empty heap (root stays split, proved)."
  },
  {
   "property": "C65",
   "status": "partial",
   "theorems": [
    "Verif.Kmalloc.pages_follow_blocks_partial"
   ],
   "note": "Same histories as C36, mapping failures only for single-page requests."
  },
  {
   "property": "C66",
   "status": "partial",
   "theorems": [
    "Verif.Kmalloc.mem_allocated_partial",
    "Verif.Kmalloc.mem_allocated_failed_page_violated",
    "Verif.Kmalloc.mem_allocated_no_actual_violated",
    "Verif.Kmalloc.mem_allocated_large_leaf_violated"
   ],
   "note": "Proved for real allocations whose pages can be had; three kinds of calls that make the counter drift are proved."
  },
  {
   "property": "C38",
   "status": "partial",
   "theorems": [
    "Verif.MemMap.fix_mem_regions_partial",
    "Verif.MemMap.empty_region_violated",
    "Verif.MemMap.top_of_memory_violated"
   ],
   "note": "Proved for every list of up to 512 non-empty regions below the top page of the 64-bit space, with a bound on the number of rounds; giving up for lack of table entries is excluded up to 16 regions. Missing: zero-length regions (the normalisation loops for ever, proved) and regions reaching 2^64 (overlap not seen, proved)."
  },
  {
   "property": "C67",
   "status": "partial",
   "theorems": [
    "Verif.MemMap.system_mmap_set_partial",
    "Verif.MemMap.get_region_of",
    "Verif.MemMap.memory_bounds_partial",
    "Verif.MemMap.dma_area_violated"
   ],
   "note": "x86 variant. Needs every candidate region for DMA memory to be longer than the part carved from it: the code never checks (proved: undeclared addresses become available). Bounds are proved below 4 TB, where the 32-bit counters are exact."
  },
  {
   "property": "C39",
   "status": "partial",
   "theorems": [
    "Verif.Paging.process_memory_partial",
    "Verif.Paging.private_write_partial",
    "Verif.Paging.shared_write_partial",
    "Verif.Paging.fork_partial",
    "Verif.Paging.zero_page_violated"
   ],
   "note": "Refinement of page tables, copy-on-write faults, fork and destruction of address spaces to per-process private memory plus shared objects, for every history. Missing, because the code does not do it: a read fault on a hole of a mapped RAM file maps the global zero page shared and writable, and a later write is seen in the anonymous memory of every process (zero_page_violated)."
  },
  {
   "property": "C40",
   "status": "partial",
   "theorems": [
    "Verif.Paging.frame_refcount_partial",
    "Verif.Paging.frame_safety_partial",
    "Verif.Paging.unmap_frees_partial",
    "Verif.Paging.destroy_device_violated"
   ],
   "note": "Counts equal the number of page-table entries (plus the kernel's and the RAM file system's own reference) in every reachable state, and no operation frees or drops what it must not. Excluded: destroying a space in which a device above the end of RAM is still mapped, which frees the device's address (destroy_device_violated), and the histories with the C39/C41 defects."
  },
  {
   "property": "C41",
   "status": "partial",
   "theorems": [
    "Verif.Paging.failed_fork_partial",
    "Verif.Paging.failed_fork_violated"
   ],
   "note": "Holds when the directory or the first page table cannot be allocated. When a later page table cannot be allocated, pdir_clone frees the page tables of the parent instead of the new ones (failed_fork_violated)."
  },
  {
   "property": "C42",
   "status": "partial",
   "theorems": [
    "Verif.Mmap.munmap_partial",
    "Verif.Mmap.munmap_nothing_partial",
    "Verif.Mmap.munmap_same_length_violated",
    "Verif.Mmap.munmap_beyond_violated",
    "Verif.Mmap.munmap_gap_violated",
    "Verif.Mmap.munmap_misaligned_violated"
   ],
   "note": "Proved for every history, on top of the buddy heap of Kmalloc, when the range lies in one mapping, begins on a page and is one the heap can free in steps. The other cases are wrong in the code, each shown by a concrete history."
  },
  {
   "property": "C68",
   "status": "partial",
   "theorems": [
    "Verif.Mmap.mmap_partial",
    "Verif.Mmap.mappings_disjoint_partial",
    "Verif.Mmap.pages_follow_mappings_partial",
    "Verif.Mmap.mmap_wrap_violated",
    "Verif.Mmap.mmap_enomem_violated",
    "Verif.Mmap.munmap_misaligned_violated"
   ],
   "note": "Excluded: lengths that wrap when rounded (proved wrong), no memory for the descriptor of an anonymous mapping (proved wrong), several pages that cannot all be had, and doubling the heap while nothing is mapped."
  },
  {
   "property": "C69",
   "status": "partial",
   "theorems": [
    "Verif.Mmap.close_partial",
    "Verif.Mmap.close_keeps_mapping_violated"
   ],
   "note": "Other memory is untouched; the mappings of the closed file itself vanish (against POSIX, proved)."
  },
  {
   "property": "C70",
   "status": "partial",
   "theorems": [
    "Verif.Mmap.mmap_accepts",
    "Verif.Mmap.mmap_reads_writeonly_violated"
   ],
   "note": "Exact characterisation of what is accepted; files opened write-only can be mapped for reading."
  },
  {
   "property": "C43",
   "status": "proved",
   "theorems": [
    "Verif.Fat.entry_round_trip"
   ],
   "note": "On the bytes of the volume, for every FAT of a volume below 4 GB, with the 32-bit arithmetic of the code."
  },
  {
   "property": "C71",
   "status": "partial",
   "theorems": [
    "Verif.Fat.open_file_partial",
    "Verif.Fat.read_whole",
    "Verif.Fat.seek_end_violated",
    "Verif.Fat.seek_overflow_violated"
   ],
   "note": "Refinement to the POSIX file for all sequences of reads and seeks, except SEEK_END with offsets >= 0 and positions beyond 63 bits, which are wrong in the code (proved)."
  },
  {
   "property": "C73",
   "status": "partial",
   "theorems": [
    "Verif.Fat.align_keeps_volume_partial",
    "Verif.Fat.last_clusters_violated",
    "Verif.Fat.align_type_violated"
   ],
   "note": "The last two clusters are lost and the type of a minimal FAT32 volume changes (proved)."
  },
  {
   "property": "C74",
   "status": "partial",
   "theorems": [
    "Verif.Fat.used_bytes_partial",
    "Verif.Fat.last_clusters_violated"
   ],
   "note": "Except for the last two clusters of the volume, which the code ignores (proved)."
  },
  {
   "property": "C75",
   "status": "partial",
   "theorems": [
    "Verif.Fat.mmap_shows_file_partial",
    "Verif.Fat.mmap_middle_violated",
    "Verif.Fat.mmap_empty_violated"
   ],
   "note": "For offsets at cluster boundaries and files that are not empty; the other cases are wrong in the code (proved)."
  },
  {
   "property": "C44",
   "status": "partial",
   "theorems": [
    "Verif.FatCompact.compact_keeps_files_partial",
    "Verif.FatCompact.compact_dots_violated",
    "Verif.FatCompact.compact_media_violated",
    "Verif.FatCompact.compact_root_violated"
   ],
   "note": "All directory trees of any depth, any chains. The '.' and '..' entries of moved directories dangle, empty files on media of type F0 make the code run off the FAT, and root directory clusters are never moved (proved). Directory long-name parsing and bytes of entries are abstracted."
  },
  {
   "property": "C72",
   "status": "partial",
   "theorems": [
    "Verif.FatDir.lookup_partial",
    "Verif.FatDir.search_partial",
    "Verif.FatDir.listing_partial",
    "Verif.FatDir.removed_name_violated",
    "Verif.FatDir.y_umlaut_violated",
    "Verif.FatDir.blank_violated",
    "Verif.FatDir.short_blank_violated",
    "Verif.FatDir.lname_overflow_violated",
    "Verif.FatDir.name255_violated",
    "Verif.FatDir.small_buffer_violated",
    "Verif.FatDir.no_label_violated",
    "Verif.FatDir.fixed_root_violated",
    "Verif.FatDir.dotdot_violated",
    "Verif.FatDir.enotdir_violated"
   ],
   "note": "For every directory layout (any number of files, removed slots, labels, any end), every name, path and sequence of getdents calls. Hypotheses: remains of removed files do not have the checksum of the next file, no y-umlaut, names shorter than 255, no '..' in the boot loaders; each is shown to be needed by a witness."
  },
  {
   "property": "C45",
   "status": "partial",
   "theorems": [
    "Verif.Flock.flock_safe_partial",
    "Verif.Flock.flock_exclusive_partial",
    "Verif.Flock.flock_answer_partial",
    "Verif.Flock.flock_created",
    "Verif.Flock.flock_free_partial",
    "Verif.Flock.two_owners_violated",
    "Verif.Flock.use_after_free_violated"
   ],
   "note": "Atomic steps of any number of tasks on any number of files, for schedules where two calls on the same file do not meet in the two windows of the code (between the look-up and the insertion, and between the last release and the removal); in these windows the code is wrong (proved)."
  },
  {
   "property": "C76",
   "status": "partial",
   "theorems": [
    "Verif.Flock.text_never_written_partial",
    "Verif.Flock.open_answer_partial",
    "Verif.Flock.truncate_answer_partial",
    "Verif.Flock.exec_answer_partial",
    "Verif.Flock.users_stay",
    "Verif.Flock.users_change",
    "Verif.Flock.script_violated"
   ],
   "note": "All histories of the calls without a failing load of the ELF headers or of setup_process: these lose the lock, so that a script that was executed once can never be written again (proved). Each system call is one step here; the interleavings of the locking functions are in C45."
  },
  {
   "property": "C46",
   "status": "proved",
   "theorems": [
    "Verif.Wth.jobs_in_order",
    "Verif.Wth.enqueue_answer",
    "Verif.Wth.never_stranded",
    "Verif.Wth.all_executed",
    "Verif.Wth.anywhere_answer",
    "Verif.Wth.find_answer",
    "Verif.Wth.pick_answer",
    "Verif.Wth.create_keeps"
   ],
   "note": "All interleavings of nested producers, timer interrupts, scheduler, blocking jobs and the worker, any queue size. The ring buffer is an atomic queue here (proved in C03, C04)."
  },
  {
   "property": "C77",
   "status": "proved",
   "theorems": [
    "Verif.Wth.completion",
    "Verif.Wth.all_executed"
   ],
   "note": "For a waiting task; the polling loop with the condition variable is reduced to reading the flag."
  },
  {
   "property": "C78",
   "status": "partial",
   "theorems": [
    "Verif.Wth.job_waits_partial",
    "Verif.Wth.timer_wakes_job_violated"
   ],
   "note": "Proved for all workers but the first; deferred timers wake the first worker out of any wait (proved)."
  },
  {
   "property": "C47",
   "status": "partial",
   "theorems": [
    "Verif.Resolve.resolve_balanced_partial",
    "Verif.Resolve.resolve_balanced_no_mounts",
    "Verif.Resolve.resolve_balanced_no_symlinks",
    "Verif.Resolve.pathCall_balanced_partial",
    "Verif.Resolve.rename_balanced_partial",
    "Verif.Resolve.mount_balanced_partial",
    "Verif.Resolve.cross_link_violated",
    "Verif.Resolve.failing_link_violated",
    "Verif.Resolve.failed_mount_violated"
   ],
   "note": "All paths, modes, link and mount configurations, and any changes by other tasks between any two steps; full without mounts or without links. With both, for resolutions in which no followed link leads to another file system; otherwise the code is wrong (proved). Failing mounts with EBUSY or EPERM leak a reference (proved)."
  },
  {
   "property": "C79",
   "status": "partial",
   "theorems": [
    "Verif.Resolve.resolve_correct_partial",
    "Verif.Resolve.pathCall_answer_partial",
    "Verif.Resolve.rename_answer_partial",
    "Verif.Resolve.file_as_directory_violated",
    "Verif.Resolve.two_slashes_violated"
   ],
   "note": "Every tree, mount configuration and path, with up to three nested links, on a tree that does not change meanwhile. Files used as directories are searched instead of refused, and 'name//' of a missing name is an error (proved)."
  },
  {
   "property": "C80",
   "status": "partial",
   "theorems": [
    "Verif.Resolve.lookup_names",
    "Verif.Resolve.names_fit_partial",
    "Verif.Resolve.long_name_violated"
   ],
   "note": "Names of up to 230 bytes; longer ones, which the system calls accept, overflow a buffer on the kernel's stack (proved)."
  },
  {
   "property": "C81",
   "status": "partial",
   "theorems": [
    "Verif.Resolve.last_component_partial",
    "Verif.Resolve.resolve_creates_partial",
    "Verif.Resolve.last_component_violated",
    "Verif.Resolve.create_through_link_violated"
   ],
   "note": "If the last component is not a link and the path does not end with two slashes; both cases are wrong in the code (proved)."
  },
  {
   "property": "C82",
   "status": "partial",
   "theorems": [
    "Verif.Kcond.wait_true_cause",
    "Verif.Kcond.wait_false_cause_partial",
    "Verif.Kcond.signalled_wait_result",
    "Verif.Kcond.wait_interrupted_violated",
    "Verif.Kcond.wait_forever_times_out_violated"
   ],
   "note": "All interleavings. A wait interrupted by a signal also returns true (proved); false is explained for runs in which no signal is sent to a task asleep with a timeout: such a signal leaves the timer armed, and it then ends later waits (proved)."
  },
  {
   "property": "C83",
   "status": "partial",
   "theorems": [
    "Verif.Kcond.signal_all_wakes",
    "Verif.Kcond.signal_one_wakes_partial",
    "Verif.Kcond.signal_one_lost_violated",
    "Verif.Kcond.poll_steals_signal_violated"
   ],
   "note": "signal_all in full. signal_one if nobody polls the condition and the oldest waiter is asleep; otherwise the signal can be lost (proved)."
  },
  {
   "property": "C84",
   "status": "proved",
   "theorems": [
    "Verif.Kcond.poll_sees_events",
    "Verif.Kcond.signal_all_wakes"
   ],
   "note": "All interleavings of any number of polls, files and announcements."
  },
  {
   "property": "C85",
   "status": "partial",
   "theorems": [
    "Verif.Kcond.mutex_exclusive_partial",
    "Verif.Kcond.mutex_wait_partial",
    "Verif.Kcond.two_owners_violated"
   ],
   "note": "For runs in which no signal is sent to a task asleep with a timeout: such a signal leaves the timer armed, which later wakes the task up in kmutex_lock, without the mutex (proved)."
  },
  {
   "property": "C86",
   "status": "partial",
   "theorems": [
    "Verif.Kcond.wait_object_free_partial",
    "Verif.Kcond.wait_object_in_use_violated"
   ],
   "note": "For runs in which no signal is sent to a task asleep with a timeout or polling with a timeout: a poll whose time is over and that then gets a signal leaves its wait object in use (proved)."
  },
  {
   "property": "C87",
   "status": "partial",
   "theorems": [
    "Verif.Kcond.kill_wakes_wait_partial",
    "Verif.Kcond.kill_wakes_sleep_partial",
    "Verif.Kcond.signal_before_sleep_violated",
    "Verif.Kcond.signal_during_poll_violated"
   ],
   "note": "A sleeping task is woken up; a signal that arrives just before the task sleeps is not seen (proved)."
  },
  {
   "property": "C88",
   "status": "partial",
   "theorems": [
    "Verif.TtyIn.line_read_partial",
    "Verif.TtyIn.no_panic_partial",
    "Verif.TtyIn.erase_finished_line_violated",
    "Verif.TtyIn.mode_switch_violated",
    "Verif.TtyIn.nul_ends_line_violated"
   ],
   "note": "All keys, sizes and interleavings with one reader, under the conditions in Ok: room in the buffer, no NUL, no erase just after an unread line, INTR and QUIT not while a line is being taken, settings changed while nothing is unread. Without each of the conditions the code is wrong (proved)."
  },
  {
   "property": "C89",
   "status": "partial",
   "theorems": [
    "Verif.TtyIn.raw_read_partial",
    "Verif.TtyIn.no_panic_partial",
    "Verif.TtyIn.raw_small_read_violated",
    "Verif.TtyIn.raw_eagain_loses_violated",
    "Verif.TtyIn.two_readers_violated"
   ],
   "note": "One reader at a time and reads of at least VMIN bytes; otherwise bytes are lost or an ASSERT fails (proved)."
  },
  {
   "property": "C90",
   "status": "partial",
   "theorems": [
    "Verif.TtyIn.read_returns_partial",
    "Verif.TtyIn.room_partial",
    "Verif.TtyIn.erase_finished_line_violated",
    "Verif.TtyIn.newline_lost_violated",
    "Verif.TtyIn.serial_deadlock_violated"
   ],
   "note": "Under the same conditions; a finished line whose newline was erased makes reads spin, a line of 1024 characters loses its newline, on a serial port it blocks for ever (proved)."
  },
  {
   "property": "C91",
   "status": "partial",
   "theorems": [
    "Verif.TtyIn.poll_ready_partial",
    "Verif.TtyIn.eagain_partial",
    "Verif.TtyIn.poll_misses_rest_violated",
    "Verif.TtyIn.dup_delivers_twice_violated"
   ],
   "note": "Blocking handles do not report the rest of a line, and dup copies it (proved)."
  },
  {
   "property": "C92",
   "status": "partial",
   "theorems": [
    "Verif.TtyIn.signals_partial",
    "Verif.TtyIn.line_read_partial",
    "Verif.TtyIn.interrupt_race_violated",
    "Verif.TtyIn.interrupt_mixes_lines_violated",
    "Verif.TtyIn.kill_char_violated"
   ],
   "note": "Under the same conditions; INTR while a line is being taken out of the buffer, and KILL, are wrong (proved)."
  },
  {
   "property": "C93",
   "status": "partial",
   "theorems": [
    "Verif.Time.datetime_to_timestamp_correct",
    "Verif.Time.timestamp_to_datetime_correct",
    "Verif.Time.date_round_trip",
    "Verif.Time.rtc_correct",
    "Verif.Time.fat_date_partial",
    "Verif.Time.year_wraps_violated",
    "Verif.Time.fat_seconds_violated"
   ],
   "note": "The conversions and the hardware clock are right; the seconds of FAT times are wrong, and years over 65535 wrap (proved)."
  },
  {
   "property": "C94",
   "status": "partial",
   "theorems": [
    "Verif.Time.sleep_ticks_partial",
    "Verif.Time.sleep_long_enough_partial",
    "Verif.Time.remaining_time_partial",
    "Verif.Time.sleep_real_time_partial",
    "Verif.Time.poll_timeout_partial",
    "Verif.Time.sleep_short_violated",
    "Verif.Time.sleep_overflow_violated",
    "Verif.Time.remaining_grows_violated",
    "Verif.Time.poll_timeout_violated",
    "Verif.Time.sleep_slewed_violated"
   ],
   "note": "For valid requests below 2^64 ns while no correction of the clock is under way; invalid and huge requests are shortened, the remaining time can grow, timeouts of poll and select are rounded down, sleeps during a correction are short (proved)."
  },
  {
   "property": "C95",
   "status": "partial",
   "theorems": [
    "Verif.Time.tick_time_exact",
    "Verif.Time.divisor_nearest",
    "Verif.Time.clock_never_backwards",
    "Verif.Time.gettime_correct",
    "Verif.Time.divisor_fits_partial",
    "Verif.Time.divisor_18_violated"
   ],
   "note": "All proved, but 18 interrupts per second are admitted and do not fit the timer (proved)."
  },
  {
   "property": "C96",
   "status": "partial",
   "theorems": [
    "Verif.Time.drift_corrected_partial",
    "Verif.Time.slew_rate_partial",
    "Verif.Time.nudge_safe_partial",
    "Verif.Time.suspend_runaway_violated",
    "Verif.Time.set_back_panics_violated"
   ],
   "note": "While the tick length stays reasonable; a suspended machine or a hardware clock set back makes the clock run away or divides by zero (proved)."
  },
  {
   "property": "C97",
   "status": "partial",
   "theorems": [
    "Verif.Time.getres_time32_correct",
    "Verif.Time.getres_violated"
   ],
   "note": "The 64-bit variant gives the time (proved)."
  },
  {
   "property": "C98",
   "status": "partial",
   "theorems": [
    "Verif.UserMem.copy_from_user_partial",
    "Verif.UserMem.copy_to_user_partial",
    "Verif.UserMem.copy_from_user_kernel_violated",
    "Verif.UserMem.copy_to_user_kernel_violated",
    "Verif.UserMem.copy_str_correct",
    "Verif.UserMem.duplicate_path_correct",
    "Verif.UserMem.copy_array_in_bounds_partial",
    "Verif.UserMem.array_index_wraps_violated"
   ],
   "note": "Strings and paths are right without conditions; ranges whose end wraps around 2^32 pass the check, and an array index can wrap (proved)."
  },
  {
   "property": "C99",
   "status": "partial",
   "theorems": [
    "Verif.UserMem.copy_array_correct_partial",
    "Verif.UserMem.duplicate_argv_partial",
    "Verif.UserMem.get_args_partial",
    "Verif.UserMem.push_args_correct"
   ],
   "note": "For arrays that do not wrap and memory that no other thread changes meanwhile."
  },
  {
   "property": "C100",
   "status": "partial",
   "theorems": [
    "Verif.Exec.script_line_correct",
    "Verif.Exec.scan_in_bounds_partial",
    "Verif.Exec.script_args_partial",
    "Verif.Exec.exec_chain_partial",
    "Verif.Exec.exec_loop_ends",
    "Verif.Exec.exec_default_argv",
    "Verif.Exec.script_too_many",
    "Verif.Exec.long_line_refused_partial",
    "Verif.Exec.exec_in_bounds_partial",
    "Verif.Exec.arg_overflow_violated",
    "Verif.Exec.empty_argv_violated",
    "Verif.Exec.blank_at_end_violated",
    "Verif.Exec.trailing_blank_violated",
    "Verif.Exec.two_blanks_violated"
   ],
   "note": "For up to 27 arguments, a non-empty argv and no blank at index 126; outside of that the buffers are left (proved); blanks around the argument are kept (proved)."
  },
  {
   "property": "C101",
   "status": "proved",
   "theorems": [
    "Verif.Exec.cmdline_correct"
   ],
   "note": ""
  },
  {
   "property": "C102",
   "status": "partial",
   "theorems": [
    "Verif.SysIo.sys_read_partial",
    "Verif.SysIo.sys_write_partial",
    "Verif.SysIo.readv_partial",
    "Verif.SysIo.readv_file_partial",
    "Verif.SysIo.sys_readv_file_partial",
    "Verif.SysIo.writev_partial",
    "Verif.SysIo.readv_overwrites_violated",
    "Verif.SysIo.readv_loses_data_violated",
    "Verif.SysIo.readv_bad_buffer",
    "Verif.SysIo.writev_error_violated"
   ],
   "note": "For ranges that do not wrap; readv overwrites buffers behind the data, and errors in the middle of readv and writev hide what was transferred (proved)."
  },
  {
   "property": "C103",
   "status": "partial",
   "theorems": [
    "Verif.SysIo.vec_check_partial",
    "Verif.SysIo.poll_prep_partial",
    "Verif.SysIo.sig_copy_partial",
    "Verif.SysIo.iov_overflow_violated",
    "Verif.SysIo.vec_count_wraps_violated",
    "Verif.SysIo.poll_count_wraps_violated",
    "Verif.SysIo.sig_leak_violated",
    "Verif.SysIo.sig_window_violated"
   ],
   "note": "For counts below 2^29 and signal sets up to 4104 bytes; larger counts wrap, larger sets reveal kernel memory (proved)."
  },
  {
   "property": "C104",
   "status": "partial",
   "theorems": [
    "Verif.Vterm.terminal_memory_safe_partial",
    "Verif.Vterm.scroll_down_faults",
    "Verif.Vterm.delete_lines_faults",
    "Verif.Vterm.scroll_down_in_region_violated",
    "Verif.Vterm.delete_lines_violated",
    "Verif.Vterm.tab_after_full_line_violated",
    "Verif.Vterm.cursor_colour_overread_violated"
   ],
   "note": "For everything but a tab after a full line, scrolling down by more lines than the region leaves and deleting more lines than half of those below; these leave the buffers (proved)."
  },
  {
   "property": "C105",
   "status": "partial",
   "theorems": [
    "Verif.Vterm.terminal_shows_screen_partial",
    "Verif.Vterm.erase_to_cursor_violated",
    "Verif.Vterm.erase_history_moves_cursor_violated",
    "Verif.Vterm.delete_line_violated",
    "Verif.Vterm.scroll_down_region_violated",
    "Verif.Vterm.insert_line_above_region_violated"
   ],
   "note": "For the control functions in Ok; the others do something else (proved)."
  },
  {
   "property": "C106",
   "status": "partial",
   "theorems": [
    "Verif.Vterm.terminal_shows_screen_partial",
    "Verif.Vterm.insert_line_above_region_violated",
    "Verif.Vterm.delete_below_region_violated",
    "Verif.Vterm.pause_twice_violated"
   ],
   "note": "For the control functions in Ok and output not paused twice; otherwise the display differs from the text or stays dead (proved)."
  },
  {
   "property": "C107",
   "status": "partial",
   "theorems": [
    "Verif.Vterm.terminal_shows_screen_partial"
   ],
   "note": "For the control functions in Ok."
  },
  {
   "property": "C108",
   "status": "proved",
   "theorems": [
    "Verif.Vterm.alternate_screen_restores"
   ],
   "note": "For everything that does not leave the buffers (C104), when the memory for the copy is there."
  },
  {
   "property": "C109",
   "status": "partial",
   "theorems": [
    "Verif.Vterm.erase_undoes_typing_partial",
    "Verif.Vterm.type_then_erase",
    "Verif.Vterm.erase_after_overwritten_tab_violated",
    "Verif.Vterm.erase_tab_in_last_column_violated",
    "Verif.Vterm.tab_after_full_line_violated"
   ],
   "note": "Within one line, without overwritten tabs and tabs in the last column; these are wrong (proved)."
  },
  {
   "property": "C110",
   "status": "partial",
   "theorems": [
    "Verif.Console.filter_memory_safe_partial",
    "Verif.Console.bytes_kept_fit",
    "Verif.Console.parameters_overflow",
    "Verif.Console.many_parameters_violated",
    "Verif.Console.long_number_violated",
    "Verif.Console.long_sequence_violated"
   ],
   "note": "For texts whose sequences have at most 16 parameters below 2^31 and fewer than 64 bytes; more parameters, and numbers of 26 digits, overrun an array on the kernel's stack (proved)."
  },
  {
   "property": "C111",
   "status": "partial",
   "theorems": [
    "Verif.Console.control_sequence_understood_partial",
    "Verif.Console.console_shows_text_partial",
    "Verif.Console.cursor_report_partial",
    "Verif.Console.erase_parameter_cut_violated",
    "Verif.Console.scroll_parameter_cut_violated",
    "Verif.Console.down_goes_up_violated",
    "Verif.Console.next_line_overflow_violated",
    "Verif.Console.cursor_report_violated"
   ],
   "note": "For parameters within the limits of Fits; larger ones are cut (proved)."
  },
  {
   "property": "C112",
   "status": "partial",
   "theorems": [
    "Verif.Console.division_into_writes_partial",
    "Verif.Console.console_shows_text_partial",
    "Verif.Console.division_after_reset_violated"
   ],
   "note": "For texts without ESC c."
  },
  {
   "property": "C113",
   "status": "partial",
   "theorems": [
    "Verif.Console.colours_partial",
    "Verif.Console.console_shows_text_partial",
    "Verif.Console.extended_colour_violated",
    "Verif.Console.reset_keeps_colour_violated",
    "Verif.Console.reset_keeps_bold_violated"
   ],
   "note": "Without the extended colours 38 and 48, which are misread, and ESC c, which keeps attributes (proved)."
  },
  {
   "property": "C114",
   "status": "partial",
   "theorems": [
    "Verif.Console.unknown_sequence_ignored",
    "Verif.Console.private_sequence",
    "Verif.Console.console_shows_text_partial",
    "Verif.Console.escape_swallows_text_violated",
    "Verif.Console.modifiers_reset_colour_violated",
    "Verif.Console.secondary_attributes_violated",
    "Verif.Console.line_drawing_letters_violated",
    "Verif.Console.output_erases_violated"
   ],
   "note": "For control sequences and private modes; other escape sequences swallow text (proved)."
  },
  {
   "property": "C115",
   "status": "partial",
   "theorems": [
    "Verif.TermQueue.executed_once_in_order",
    "Verif.TermQueue.owner_inside",
    "Verif.TermQueue.one_at_a_time_partial",
    "Verif.TermQueue.never_forgotten_partial",
    "Verif.TermQueue.all_done_at_return",
    "Verif.TermQueue.overlap_violated"
   ],
   "note": "Once and in order always; one at a time when no request with preemption disabled comes in the middle of another one, which is executed in between (proved)."
  },
  {
   "property": "C116",
   "status": "partial",
   "theorems": [
    "Verif.TermQueue.texts_shown_partial",
    "Verif.TermQueue.all_done_at_return",
    "Verif.TermQueue.text_lost_violated"
   ],
   "note": "When nobody changes a buffer a waiting request points to; the callers do change it (proved)."
  },
  {
   "property": "C117",
   "status": "partial",
   "theorems": [
    "Verif.TermQueue.no_deadlock_partial",
    "Verif.TermQueue.nested_never_returns",
    "Verif.TermQueue.self_deadlock_violated"
   ],
   "note": "Without requests made while executing one; these block for ever (proved)."
  },
  {
   "property": "C118",
   "status": "partial",
   "theorems": [
    "Verif.Snprintk.formatted_partial",
    "Verif.Snprintk.buffer_partial",
    "Verif.Snprintk.empty_buffer_violated",
    "Verif.Snprintk.unknown_conversion_violated",
    "Verif.Snprintk.overread_violated",
    "Verif.Snprintk.huge_width_violated"
   ],
   "note": "For directives the function supports; for any format without widths the output stays within the buffer, with widths at most one byte beyond it; empty buffers, unknown conversions with a width, `%##` and huge widths are wrong (proved)."
  },
  {
   "property": "C119",
   "status": "partial",
   "theorems": [
    "Verif.Snprintk.formatted_partial",
    "Verif.Snprintk.precision_cuts_number_violated",
    "Verif.Snprintk.zeros_before_sign_violated",
    "Verif.Snprintk.zeros_after_violated",
    "Verif.Snprintk.width_with_precision_violated",
    "Verif.Snprintk.cut_string_field_violated",
    "Verif.Snprintk.alternate_form_violated",
    "Verif.Snprintk.negative_precision_violated",
    "Verif.Snprintk.pointer_field_violated"
   ],
   "note": "For the combinations Piece.Ok admits; the others differ from ISO C (proved)."
  },
  {
   "property": "C120",
   "status": "partial",
   "theorems": [
    "Verif.PollSel.poll_partial",
    "Verif.PollSel.reports_exact",
    "Verif.PollSel.closed_not_counted_violated",
    "Verif.PollSel.negative_fd_violated",
    "Verif.PollSel.only_one_event_violated",
    "Verif.PollSel.hangup_hidden_violated",
    "Verif.PollSel.rdnorm_violated",
    "Verif.PollSel.readonly_file_violated"
   ],
   "note": "For open descriptors and POLLIN and POLLOUT; one event is reported per entry, the others are wrong (proved)."
  },
  {
   "property": "C121",
   "status": "partial",
   "theorems": [
    "Verif.PollSel.select_partial",
    "Verif.PollSel.select_ticks",
    "Verif.PollSel.select_returns_zero_violated",
    "Verif.PollSel.select_readonly_violated",
    "Verif.PollSel.select_closed_violated",
    "Verif.PollSel.select_zero_timeout_violated",
    "Verif.PollSel.select_short_violated"
   ],
   "note": "For open descriptors, unless what is ready stops being so between the two passes (then the call returns 0, proved)."
  },
  {
   "property": "C122",
   "status": "partial",
   "theorems": [
    "Verif.Printk.nothing_garbled_partial",
    "Verif.Printk.garbage_violated",
    "Verif.Printk.message_torn_violated",
    "Verif.Printk.out_of_order_violated",
    "Verif.Printk.prefix_in_line_violated"
   ],
   "note": "When no task is preempted during a call and the ring buffer does not fill up; otherwise memory garbage is shown or the order is wrong (proved). A message and its prefix are two texts."
  },
  {
   "property": "C123",
   "status": "partial",
   "theorems": [
    "Verif.Printk.all_shown_partial",
    "Verif.Printk.calls_end",
    "Verif.Printk.message_stuck_violated"
   ],
   "note": "Under the same conditions; a task preempted at one point leaves its message in the buffer (proved)."
  },
  {
   "property": "C124",
   "status": "partial",
   "theorems": [
    "Verif.Pgrp.groups_one_session_partial",
    "Verif.Pgrp.session_stable",
    "Verif.Pgrp.session_split_violated"
   ],
   "note": "As long as nobody names a group that does not exist and no new process gets the id of a group in use; otherwise a group can be in two sessions (proved)."
  },
  {
   "property": "C125",
   "status": "partial",
   "theorems": [
    "Verif.Pgrp.setsid_exact",
    "Verif.Pgrp.getpgid_exact",
    "Verif.Pgrp.getsid_partial",
    "Verif.Pgrp.setpgid_effect",
    "Verif.Pgrp.setpgid_errors",
    "Verif.Pgrp.setpgid_allowed_partial",
    "Verif.Pgrp.setpgid_own_id_violated",
    "Verif.Pgrp.setpgid_stranger_violated",
    "Verif.Pgrp.setpgid_leader_violated",
    "Verif.Pgrp.setpgid_no_group_violated",
    "Verif.Pgrp.getsid_violated"
   ],
   "note": "setsid and getpgid are exact. setpgid allows what POSIX allows except for a process naming itself after execve, and also allows things it should not; getsid ignores its argument (proved)."
  },
  {
   "property": "C126",
   "status": "partial",
   "theorems": [
    "Verif.Pgrp.kill_group_exact",
    "Verif.Pgrp.typed_exact",
    "Verif.Pgrp.kill_one_exact",
    "Verif.Pgrp.probe_posts_nothing",
    "Verif.Pgrp.broadcast_partial",
    "Verif.Pgrp.broadcast_init_violated",
    "Verif.Pgrp.group_of_init_violated"
   ],
   "note": "Signals to groups and single processes are exact; kill(-1) also reaches init, and a group of init alone is not found (proved)."
  },
  {
   "property": "C127",
   "status": "partial",
   "theorems": [
    "Verif.Pgrp.tcsetpgrp_exact",
    "Verif.Pgrp.sctty_exact",
    "Verif.Pgrp.notty_exact",
    "Verif.Pgrp.read_foreground",
    "Verif.Pgrp.terminal_one_session_partial",
    "Verif.Pgrp.terminal_stolen_violated",
    "Verif.Pgrp.tcgetpgrp_violated",
    "Verif.Pgrp.background_read_violated"
   ],
   "note": "Setting the foreground group, taking and giving up a terminal and the check of reads are exact; a terminal in use can be taken, the foreground group cannot be read, background readers are not stopped (proved)."
  },
  {
   "property": "C128",
   "status": "partial",
   "theorems": [
    "Verif.Cwd.getcwd_denotes_partial",
    "Verif.Cwd.link_in_text_violated",
    "Verif.Cwd.dotdot_after_link_violated",
    "Verif.Cwd.long_path_violated",
    "Verif.Cwd.renamed_violated"
   ],
   "note": "For histories without symbolic links on the way, with room for the path, and without renames on the way to the current directory; otherwise false (proved)."
  },
  {
   "property": "C129",
   "status": "partial",
   "theorems": [
    "Verif.Cwd.chdir_effect_partial",
    "Verif.Cwd.chdir_failed",
    "Verif.Cwd.chdir_too_long",
    "Verif.Cwd.chdir_defined_partial",
    "Verif.Cwd.text_overflow_violated"
   ],
   "note": "For paths without `//` at the end or files used as directories (C79), of calls that return; a path of 255 bytes overflows an array (proved)."
  },
  {
   "property": "C130",
   "status": "partial",
   "theorems": [
    "Verif.Cwd.getcwd_buffer_partial",
    "Verif.Cwd.exact_buffer_violated"
   ],
   "note": "The buffer is never left, but one more byte than needed is asked for, and counted (proved)."
  },
  {
   "property": "C131",
   "status": "partial",
   "theorems": [
    "Verif.Gdt.kernel_segments_safe",
    "Verif.Gdt.ring3_only",
    "Verif.Gdt.null_entry_violated"
   ],
   "note": "All histories; entry 0, which the processor never uses, can be set by a process (proved)."
  },
  {
   "property": "C132",
   "status": "partial",
   "theorems": [
    "Verif.Gdt.area_effect_partial",
    "Verif.Gdt.area_failed",
    "Verif.Gdt.area_refused",
    "Verif.Gdt.area_granted",
    "Verif.Gdt.limit_cut_violated",
    "Verif.Gdt.limit_stops_violated"
   ],
   "note": "The effect is proved for limits of 20 bits and entries other than 0; for larger limits it fails (proved)."
  },
  {
   "property": "C133",
   "status": "partial",
   "theorems": [
    "Verif.Gdt.in_use_kept",
    "Verif.Gdt.freed_partial",
    "Verif.Gdt.never_stops_partial",
    "Verif.Gdt.leak_violated",
    "Verif.Gdt.fork_stops_violated"
   ],
   "note": "Entries in use are kept in all histories; they are freed in the histories in which nobody sets its own entry again (else proved violated); calls never stop the kernel while nobody clears an entry or asks for a limit that does not fit (else proved violated)."
  },
  {
   "property": "C134",
   "status": "partial",
   "theorems": [
    "Verif.Gdt.not_shared_partial",
    "Verif.Gdt.isolation_partial",
    "Verif.Gdt.shared_after_fork_violated",
    "Verif.Gdt.cleared_reused_violated"
   ],
   "note": "Proved for histories in which nobody forks with entries or clears one; otherwise proved violated."
  },
  {
   "property": "C135",
   "status": "partial",
   "theorems": [
    "Verif.RamMmap.load_coherent_partial",
    "Verif.RamMmap.store_coherent_partial",
    "Verif.RamMmap.write_seen_partial",
    "Verif.RamMmap.write_read",
    "Verif.RamMmap.hole_shift_violated",
    "Verif.RamMmap.grown_violated",
    "Verif.RamMmap.zero_page_violated",
    "Verif.RamMmap.lost_store_violated",
    "Verif.RamMmap.store_stops_violated"
   ],
   "note": "For histories in which only pages with data are mapped and no mapped page is cut off; with holes or growing files it is false (proved)."
  },
  {
   "property": "C136",
   "status": "partial",
   "theorems": [
    "Verif.RamMmap.past_eof_faults",
    "Verif.RamMmap.never_freed_partial",
    "Verif.RamMmap.zero_page_violated",
    "Verif.RamMmap.freed_mapped_violated"
   ],
   "note": "Beyond the end of the file every access fails, in all histories. Freed frames are never mapped if the mapped parts of the file had no holes; otherwise they are, and the zero page of the system can be written (proved)."
  },
  {
   "property": "C137",
   "status": "partial",
   "theorems": [
    "Verif.RamMmap.readonly_partial",
    "Verif.RamMmap.mmap_needs_write",
    "Verif.RamMmap.readonly_written_violated",
    "Verif.RamMmap.readonly_zero_violated",
    "Verif.RamMmap.writeonly_read_violated",
    "Verif.RamMmap.writeonly_store_violated"
   ],
   "note": "Writable mappings need a writable handle. Stores to a read-only mapping fail if the handle is read-only and only pages with data are mapped; otherwise they succeed (proved). Mappings of write-only handles can be read (proved)."
  },
  {
   "property": "C138",
   "status": "partial",
   "theorems": [
    "Verif.Elf.image_partial",
    "Verif.Elf.not_writable_violated",
    "Verif.Elf.no_zeros_violated",
    "Verif.Elf.hole_violated"
   ],
   "note": "For segments of their own pages, between the first page and the stack; segments for reading only have no zeros at the end and the file has no holes. Otherwise false (proved)."
  },
  {
   "property": "C139",
   "status": "partial",
   "theorems": [
    "Verif.Elf.kernel_safe_partial",
    "Verif.Elf.image_partial",
    "Verif.Elf.kernel_overwritten_violated",
    "Verif.Elf.kernel_mapped_violated",
    "Verif.Elf.big_page_violated",
    "Verif.Elf.undo_loop_violated",
    "Verif.Elf.file_changed_violated"
   ],
   "note": "For any file whose segments are in the addresses of programs, above the first page; the addresses are not checked, so that a crafted file overwrites kernel memory (proved)."
  },
  {
   "property": "C140",
   "status": "partial",
   "theorems": [
    "Verif.Elf.refused",
    "Verif.Elf.refused_headers",
    "Verif.Elf.cut_off_accepted_violated",
    "Verif.Elf.entry_size_violated",
    "Verif.Elf.debug_stops_violated"
   ],
   "note": "Files of another kind, cut-off headers, dynamic executables and unaligned segments are refused; cut-off segments are not always, the size of headers is ignored, and debug kernels stop (proved)."
  },
  {
   "property": "C141",
   "status": "partial",
   "theorems": [
    "Verif.Elf.lock_partial",
    "Verif.Elf.lock_leaked_violated"
   ],
   "note": "If the headers can be read. Otherwise, for instance for each script that is run, the lock stays for ever (proved)."
  },
  {
   "property": "C142",
   "status": "partial",
   "theorems": [
    "Verif.Brk.heap_there_partial",
    "Verif.Brk.brk_defined_partial",
    "Verif.Brk.vfork_violated"
   ],
   "note": "For all executions in which the child of a vfork does not call brk; if it does, the parent's heap disappears and the parent's next brk makes the kernel drop a reference it does not have (proved). Inherits the exclusions of the address-space model (C39)."
  },
  {
   "property": "C143",
   "status": "partial",
   "theorems": [
    "Verif.Brk.brk_shrinks_partial",
    "Verif.Brk.brk_grows_partial",
    "Verif.Brk.unaligned_violated"
   ],
   "note": "As C142; addresses within a page are refused although memory is there (proved)."
  },
  {
   "property": "C144",
   "status": "partial",
   "theorems": [
    "Verif.Brk.stale_data_violated"
   ],
   "note": "Violated: the pages come from kmalloc without being cleared; a process reads what another one wrote (proved)."
  },
  {
   "property": "C145",
   "status": "partial",
   "theorems": [
    "Verif.Brk.brk_refused_partial",
    "Verif.Brk.partial_growth_violated"
   ],
   "note": "For addresses refused by the checks; when memory runs out in the middle, the break has moved and the memory stays allocated (proved)."
  },
  {
   "property": "C146",
   "status": "partial",
   "theorems": [
    "Verif.OpenFile.posix_partial",
    "Verif.OpenFile.dup_offset_violated",
    "Verif.OpenFile.dup_write_violated"
   ],
   "note": "Violated: vfs_dup copies the handle with its offset (proved). The refinement to POSIX is proved for all histories in which duplicated descriptors are only used for appending writes, truncation and closing (offsets of descriptors never duplicated are exact)."
  },
  {
   "property": "C147",
   "status": "partial",
   "theorems": [
    "Verif.OpenFile.posix_partial",
    "Verif.OpenFile.defined_partial",
    "Verif.OpenFile.open_failed_partial",
    "Verif.OpenFile.creat_stops_violated",
    "Verif.OpenFile.failed_creates_violated",
    "Verif.OpenFile.missing_dir_violated",
    "Verif.OpenFile.search_only_violated",
    "Verif.OpenFile.no_search_violated"
   ],
   "note": "For one ramfs directory; the refinement excludes the cases proved to be violated: O_DIRECTORY on a missing name, directories without read permission, failure of the last allocation when creating, creat with mode 0444 in debug builds."
  },
  {
   "property": "C148",
   "status": "partial",
   "theorems": [
    "Verif.OpenFile.posix_partial",
    "Verif.OpenFile.ftruncate_readonly_violated",
    "Verif.OpenFile.ftruncate_refused_violated"
   ],
   "note": "read and write are exact; ftruncate ignores how the descriptor was opened and looks at the file's permissions instead (proved)."
  },
  {
   "property": "C149",
   "status": "partial",
   "theorems": [
    "Verif.OpenFile.posix_partial",
    "Verif.OpenFile.running_kept_partial",
    "Verif.OpenFile.ftruncate_running_violated",
    "Verif.OpenFile.lock_lost_violated",
    "Verif.OpenFile.reader_blocks_violated"
   ],
   "note": "For histories without ftruncate through read-only descriptors, without failing directory-entry allocations and without O_CREAT|O_RDONLY making new files; each of these violates the property (proved)."
  },
  {
   "property": "C150",
   "status": "partial",
   "theorems": [
    "Verif.OpenFile.truncate_dir_violated",
    "Verif.OpenFile.rmdir_partial",
    "Verif.OpenFile.posix_partial"
   ],
   "note": "Violated: the size of a file and the number of entries of a directory are the same union member, and extending does not check the type (proved). rmdir_partial: for all histories without truncate/ftruncate of directories."
  },
  {
   "property": "C151",
   "status": "proved",
   "theorems": [
    "Verif.Codec.crc32_is_crc",
    "Verif.Codec.crc32_append",
    "Verif.Codec.burst_detected"
   ],
   "note": "crc32_is_crc: equal to a bit-by-bit shift register for all byte sequences."
  },
  {
   "property": "C152",
   "status": "partial",
   "theorems": [
    "Verif.Codec.encode_correct",
    "Verif.Codec.encode_fits",
    "Verif.Codec.decode_correct_partial",
    "Verif.Codec.round_trip_partial",
    "Verif.Codec.decode_fits",
    "Verif.Codec.empty_violated",
    "Verif.Codec.malformed_violated"
   ],
   "note": "Encoder and both buffers: proved for all inputs. The decoder gives back every non-empty input; it refuses the (empty) encoding of the empty input and accepts some texts that are no encodings (proved)."
  },
  {
   "property": "C153",
   "status": "partial",
   "theorems": [
    "Verif.Cmdline.parse_correct_partial",
    "Verif.Cmdline.too_many_stops"
   ],
   "note": "For lines without truth values standing where an option is expected (see C155) and self-test names up to 246 characters (see C154); otherwise exact."
  },
  {
   "property": "C154",
   "status": "partial",
   "theorems": [
    "Verif.Cmdline.safe_partial",
    "Verif.Cmdline.selftest_overflow_violated"
   ],
   "note": "Violated by strcat in handle_selftest_kopt for names of 247 characters and more (proved); proved for all lines whose words are shorter."
  },
  {
   "property": "C155",
   "status": "partial",
   "theorems": [
    "Verif.Cmdline.parse_correct_partial",
    "Verif.Cmdline.stale_option_violated"
   ],
   "note": "Violated: a stray truth value changes the last flag before it (proved); all other unknown words have no effect."
  },
  {
   "property": "C156",
   "status": "proved",
   "theorems": [
    "Verif.Kbd.pressed_exact"
   ],
   "note": "For all histories; keys of the 104-key US keyboard with scan code set 1."
  },
  {
   "property": "C157",
   "status": "partial",
   "theorems": [
    "Verif.Kbd.typed_correct_partial",
    "Verif.Kbd.caps_shift_violated",
    "Verif.Kbd.shift_erase_violated",
    "Verif.Kbd.lock_repeat_violated",
    "Verif.Kbd.fkey_modifier_violated",
    "Verif.Kbd.ctrl_violated"
   ],
   "note": "Exact for all histories that avoid five defects, each proved by a witness: Shift with Caps Lock, Shift with Backspace/Enter, repeating lock keys, F1-F5 with modifiers, Ctrl with ] ^ _."
  },
  {
   "property": "C158",
   "status": "partial",
   "theorems": [
    "Verif.Kbd.mediumraw_partial",
    "Verif.Kbd.mediumraw_violated"
   ],
   "note": "Violated (proved): the release of a key without code delivers 0x80, the press of a lock key is not delivered; exact otherwise."
  },
  {
   "property": "C159",
   "status": "proved",
   "theorems": [
    "Verif.Kbd.seq_fits"
   ],
   "note": "For all key numbers and modifiers."
  },
  {
   "property": "C160",
   "status": "partial",
   "theorems": [
    "Verif.Kbd.nothing_lost_partial",
    "Verif.Kbd.ring_bounded",
    "Verif.Kbd.overflow_violated"
   ],
   "note": "The ring buffer holds 512 bytes; when it is full bytes are lost and a key may seem held for ever (proved). Exact while at most 512 bytes wait."
  },
  {
   "property": "C161",
   "status": "proved",
   "theorems": [
    "Verif.MountPt.table_exact",
    "Verif.MountPt.result_exact"
   ],
   "note": "For all interleavings; directories do not change meanwhile."
  },
  {
   "property": "C162",
   "status": "partial",
   "theorems": [
    "Verif.MountPt.visible_partial",
    "Verif.MountPt.visible_violated"
   ],
   "note": "Proved for mounts on directories that are not the root of a file system. Violated (proved) otherwise: a second mount at the same path, and a mount at \"/\", return 0 and are not seen."
  },
  {
   "property": "C163",
   "status": "partial",
   "theorems": [
    "Verif.MountPt.inode_refs_exact",
    "Verif.MountPt.fs_refs_partial",
    "Verif.MountPt.fs_refs_violated"
   ],
   "note": "Inodes: exact. File systems: exact unless a call fails with EBUSY or EPERM; these leave a reference to the host file system behind (proved)."
  },
  {
   "property": "C164",
   "status": "partial",
   "theorems": [
    "Verif.MountPt.tree_partial",
    "Verif.MountPt.tree_violated"
   ],
   "note": "Proved if the root file system is not mounted; the code lets it be mounted inside itself, which gives endless paths (proved)."
  },
  {
   "property": "C165",
   "status": "partial",
   "theorems": [
    "Verif.MountPt.dotdot_partial",
    "Verif.MountPt.dotdot_violated"
   ],
   "note": "Proved for mounts on directories that are not roots; with a file system mounted at \"/\", \"/a/..\" is not \"/\" (proved)."
  },
  {
   "property": "C166",
   "status": "proved",
   "theorems": [
    "Verif.SmallHeap.blocks_safe",
    "Verif.SmallHeap.kfree_safe"
   ],
   "note": "The individual heaps by their contract (proved in Kmalloc); allocations split into small elements are not modelled."
  },
  {
   "property": "C167",
   "status": "proved",
   "theorems": [
    "Verif.SmallHeap.given_back"
   ],
   "note": "As for C166."
  },
  {
   "property": "C168",
   "status": "proved",
   "theorems": [
    "Verif.SmallHeap.kmalloc_fails"
   ],
   "note": "As for C166."
  },
  {
   "property": "C169",
   "status": "partial",
   "theorems": [
    "Verif.SmallHeap.told_size_partial",
    "Verif.SmallHeap.told_size_violated"
   ],
   "note": "Violated (proved) for requests of 1025 to 2047 bytes: the size told is 2048, and the block is then looked for in the main heaps. Proved for all others."
  },
  {
   "property": "C170",
   "status": "partial",
   "theorems": [
    "Verif.Fork.fork_failed",
    "Verif.Fork.fork_atomic_partial",
    "Verif.Fork.fork_loses_mappings_violated",
    "Verif.Fork.fork_leaks_violated",
    "Verif.Fork.fork_null_handle_violated",
    "Verif.Fork.fork_stale_record_violated"
   ],
   "note": "Holds if the process id, the page directory or the process object is refused. fork_failed lists exactly what a failure leaves for processes without closed descriptors below open ones. Violated otherwise (witnesses)."
  },
  {
   "property": "C171",
   "status": "proved",
   "theorems": [
    "Verif.Fork.fork_ok"
   ],
   "note": "For every process and every pattern of allocations for which fork() succeeds."
  },
  {
   "property": "C172",
   "status": "proved",
   "theorems": [
    "Verif.Fork.fork_exit_balanced"
   ],
   "note": "For a child that ends with what fork() gave it."
  },
  {
   "property": "C173",
   "status": "partial",
   "theorems": [
    "Verif.Fork.vfork_partial",
    "Verif.Fork.vfork_frees_mappings_violated",
    "Verif.Fork.vfork_dangling_violated"
   ],
   "note": "For parents without file mappings; with them, and when vfork() fails, violated (witnesses)."
  },
  {
   "property": "C174",
   "status": "proved",
   "theorems": [
    "Verif.LList.lists_exact",
    "Verif.LList.remove_twice_unsafe"
   ],
   "note": "For callers that insert only nodes that are in no list and remove only elements or freshly initialised nodes; removing twice is not safe (witness)."
  },
  {
   "property": "C175",
   "status": "proved",
   "theorems": [
    "Verif.LList.empty_exact",
    "Verif.LList.member_exact"
   ],
   "note": "For nodes ever initialised or inserted."
  },
  {
   "property": "C176",
   "status": "proved",
   "theorems": [
    "Verif.LList.for_each_exact",
    "Verif.LList.for_each_ro_exact",
    "Verif.LList.for_each_reverse_exact",
    "Verif.LList.for_each_remove_next_unsafe"
   ],
   "note": "Removing the next element in the body is not safe (witness)."
  },
  {
   "property": "C177",
   "status": "proved",
   "theorems": [
    "Verif.TaskRes.temp_exact",
    "Verif.TaskRes.fork_with_block_unsafe"
   ],
   "note": "For tasks that give back only what they hold and do not fork while holding a block (poll and select, the only users, do not); without the latter it is not safe (witness)."
  },
  {
   "property": "C178",
   "status": "partial",
   "theorems": [
    "Verif.TaskRes.callbacks_exact",
    "Verif.TaskRes.ended_clean_partial",
    "Verif.TaskRes.unregister_leaks_violated"
   ],
   "note": "The calls are exact; memory is clean if nothing is unregistered; unregister leaks its object (witness)."
  },
  {
   "property": "C179",
   "status": "partial",
   "theorems": [
    "Verif.TaskRes.sound_exclusive_partial",
    "Verif.TaskRes.sound_stolen_violated"
   ],
   "note": "If nobody acquires the card twice; otherwise the card is taken from its owner (witness)."
  },
  {
   "property": "C180",
   "status": "partial",
   "theorems": [
    "Verif.TaskRes.kthread_create_partial",
    "Verif.TaskRes.kthread_balanced_partial",
    "Verif.TaskRes.kthread_fail_preempt_violated",
    "Verif.TaskRes.kthread_double_free_violated"
   ],
   "note": "With memory for the buffers and but for the level of preemption; every failure leaves preemption disabled, and without memory for the buffers the stack is freed twice."
  },
  {
   "property": "C181",
   "status": "partial",
   "theorems": [
    "Verif.TtyEcho.line_shown_partial",
    "Verif.TtyEcho.werase_violated",
    "Verif.TtyEcho.kill_violated",
    "Verif.TtyEcho.susp_violated",
    "Verif.TtyEcho.eof_violated",
    "Verif.TtyEcho.del_shown_violated"
   ],
   "note": "For ordinary characters, erase, interrupt and quit; with the other special characters screen and line differ (witnesses)."
  },
  {
   "property": "C182",
   "status": "partial",
   "theorems": [
    "Verif.TtyEcho.no_echo",
    "Verif.TtyEcho.no_echo_graphics",
    "Verif.TtyEcho.echonl_raw_violated"
   ],
   "note": "Proved but for ECHONL in raw mode, where line ends are written too (witness)."
  },
  {
   "property": "C183",
   "status": "partial",
   "theorems": [
    "Verif.FbDev.inside_partial",
    "Verif.FbDev.inside_pos_partial",
    "Verif.FbDev.pread_violated",
    "Verif.FbDev.pread_outside_violated",
    "Verif.FbDev.pwrite_violated"
   ],
   "note": "Proved for every history of read, write and lseek and for pread and pwrite within the framebuffer. With pread and pwrite beyond it kernel memory is read and overwritten: proved for every framebuffer."
  },
  {
   "property": "C184",
   "status": "partial",
   "theorems": [
    "Verif.FbDev.file_partial",
    "Verif.FbDev.seek_end_violated",
    "Verif.FbDev.seek_far_violated",
    "Verif.FbDev.failed_read_violated"
   ],
   "note": "Refinement for good buffers and positions, without SEEK_END; the violations are proved for every framebuffer."
  },
  {
   "property": "C185",
   "status": "partial",
   "theorems": [
    "Verif.TtyMode.modes_partial",
    "Verif.TtyMode.failed_set_partial",
    "Verif.TtyMode.acts_partial",
    "Verif.TtyMode.flush_violated",
    "Verif.TtyMode.stale_violated"
   ],
   "note": "Settings reported: for all careful histories. Characters acted on: for histories without resets. TCSETSF that fails loses input and a reset leaves old handlers: proved for every state."
  },
  {
   "property": "C186",
   "status": "partial",
   "theorems": [
    "Verif.TtyMode.modes_partial",
    "Verif.TtyMode.crash_violated",
    "Verif.TtyMode.fork_violated",
    "Verif.TtyMode.other_violated"
   ],
   "note": "Refinement if a process in medium raw mode neither forks nor gives up its terminal; otherwise violated, with a null pointer in the kernel, for every state."
  },
  {
   "property": "C187",
   "status": "partial",
   "theorems": [
    "Verif.Sysfs.ulong_set_partial",
    "Verif.Sysfs.long_set_partial",
    "Verif.Sysfs.ulong_bad_partial",
    "Verif.Sysfs.bool_clear_partial",
    "Verif.Sysfs.str_set",
    "Verif.Sysfs.ulong_stale_violated",
    "Verif.Sysfs.ulong_smash_violated",
    "Verif.Sysfs.long_smash_violated",
    "Verif.Sysfs.bool_set_violated"
   ],
   "note": "Strings: proved. Numbers: for at most 31 digits and a line end; without it old digits are taken, and longer texts overwrite the kernel's stack. No text sets a boolean: proved for every text."
  },
  {
   "property": "C188",
   "status": "partial",
   "theorems": [
    "Verif.Sysfs.buffered_partial",
    "Verif.Sysfs.twice_lost_violated",
    "Verif.Sysfs.sync_hangs_violated",
    "Verif.Sysfs.sync_lost_violated",
    "Verif.Sysfs.dup_violated",
    "Verif.Sysfs.seek_end_violated"
   ],
   "note": "Refinement over histories of one handle with an fsync between any two writes. Otherwise violated: two writes and a close store nothing and make sync endless, for every content."
  },
  {
   "property": "C189",
   "status": "partial",
   "theorems": [
    "Verif.DevFs.majors_partial",
    "Verif.DevFs.asked_given",
    "Verif.DevFs.majors_violated"
   ],
   "note": "Proved if the numbers asked for are below the automatic ones, as they are for all drivers in the tree; otherwise violated (witness)."
  },
  {
   "property": "C190",
   "status": "partial",
   "theorems": [
    "Verif.DevFs.lookup_exact",
    "Verif.DevFs.files_exact",
    "Verif.DevFs.list_exact",
    "Verif.DevFs.seek_exact",
    "Verif.DevFs.rdev_partial",
    "Verif.DevFs.open_partial",
    "Verif.DevFs.rdev_violated",
    "Verif.DevFs.block_violated",
    "Verif.DevFs.name_violated",
    "Verif.DevFs.open_leak_violated"
   ],
   "note": "Lookup, listing and inodes proved for all histories. Device numbers for minors below 256; large minors, block devices, equal names and refused opens violate the property."
  },
  {
   "property": "C191",
   "status": "partial",
   "theorems": [
    "Verif.Serial.in_order",
    "Verif.Serial.delivered_partial",
    "Verif.Serial.progress_partial",
    "Verif.Serial.shared_violated"
   ],
   "note": "Order and no duplication: for all interleavings. Delivery: if of two ports that share a line only one receives; otherwise bytes are left in the port, with all that follow (proved for every further input)."
  },
  {
   "property": "C192",
   "status": "proved",
   "theorems": [
    "Verif.Accel.elements_apart",
    "Verif.Accel.destroy_exact",
    "Verif.Accel.get_fails",
    "Verif.Accel.buffer_used"
   ],
   "note": "For all histories, over an abstract heap."
  },
  {
   "property": "C193",
   "status": "partial",
   "theorems": [
    "Verif.NullDev.devices_partial",
    "Verif.NullDev.spec_no_panic",
    "Verif.NullDev.pread_violated",
    "Verif.NullDev.pwrite_violated"
   ],
   "note": "For all histories without pread and pwrite beyond offset 0; those fail an assertion and stop the kernel (proved for every offset and device, after any history)."
  },
  {
   "property": "C194",
   "status": "partial",
   "theorems": [
    "Verif.Kbc.led_partial",
    "Verif.Kbc.typematic_partial",
    "Verif.Kbc.short_busy",
    "Verif.Kbc.regs_recover",
    "Verif.Kbc.regs_partial",
    "Verif.Kbc.busy_violated"
   ],
   "note": "Calls that succeed, and reading the registers: proved for every behaviour of the controller. Setting the lights or the rate while the controller is busy one look longer than the timeout leaves the keyboard's interrupt masked (proved for every such behaviour)."
  },
  {
   "property": "C195",
   "status": "partial",
   "theorems": [
    "Verif.AcpiSem.units_partial",
    "Verif.AcpiSem.create_unlimited",
    "Verif.AcpiSem.giveup_partial",
    "Verif.AcpiSem.short_violated",
    "Verif.AcpiSem.forever_violated",
    "Verif.AcpiSem.create_violated"
   ],
   "note": "Units: for all executions of a semaphore made with no more units than its limit; more are accepted (violated). Time: not before the whole ticks of the timeout; waits shorter than a tick do not wait, and ACPI_WAIT_FOREVER gives up after 65 s (violated)."
  }
 ]
}
