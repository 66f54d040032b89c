{"id": "C01", "title": "Ring buffer is a bounded FIFO queue", "statement": "After any history of element writes, reads and un-writes on a ring buffer of capacity n, every read returns the oldest element written and not yet read, un-write removes the newest one, a write fails exactly when n elements are stored, a read/un-write fails exactly when none is, and is_empty/is_full report exactly that.", "quantifier": "all capacities n>0, all element values, all finite sequences of write/read/unwrite operations", "why_tests_cant": "tests run a handful of capacities and wrap-arounds; the wrap position and history are unbounded", "anchors": ["kernel/ringbuf.c: ringbuf_write_elem, ringbuf_read_elem, ringbuf_unwrite_elem", "include/tilck/kernel/ringbuf.h: ringbuf_is_empty, ringbuf_is_full"]}
{"id": "C02", "title": "Bulk ring buffer I/O moves exactly the bytes a FIFO would", "statement": "ringbuf_write_bytes(len) stores the first min(len, free space) bytes, in order, after all bytes already stored, and returns that number; ringbuf_read_bytes(len) returns the oldest min(len, stored) bytes in order and removes exactly them.", "quantifier": "all capacities, all read/write positions, all request lengths, all histories mixing bulk and single-element operations", "why_tests_cant": "the two-chunk wrap logic depends on the relative read/write positions and length: unbounded combinations", "anchors": ["kernel/ringbuf.c: ringbuf_write_bytes, ringbuf_read_bytes"]}
{"id": "C03", "title": "Interrupt-safe ring buffer is a bounded FIFO and reports the empty->non-empty edge", "statement": "After any history of writes and reads the interrupt-safe ring buffer holds exactly the not-yet-read elements in order; a write fails exactly when it is full and a read exactly when it is empty; a successful write reports was_empty=true exactly when no element was stored before it.", "quantifier": "all capacities 1..32768, all element values, all operation histories", "why_tests_cant": "state space of packed positions + full flag is too large, and the history is unbounded", "anchors": ["kernel/safe_ringbuf.cpp: safe_ringbuf_write_elem_ptr, safe_ringbuf_read_elem_ptr", "include/tilck/kernel/safe_ringbuf.h"]}
{"id": "C04", "title": "Interrupted producers never lose, duplicate or mix up elements", "statement": "When producers on the interrupt-safe ring buffer are interrupted at any point by other producers that run to completion (nested interrupts), once the outermost one returns the buffer contains exactly the elements of the successful writes, each once.", "quantifier": "all nesting schedules of producers preempting each other between slot reservation and slot store, all capacities", "why_tests_cant": "interrupt points and nesting depth are schedules a unit test cannot enumerate", "anchors": ["kernel/safe_ringbuf.cpp: CAS loops"]}
{"id": "C05", "title": "Sorting returns a sorted permutation and is stable", "statement": "insertion_sort_ptr / insertion_sort_generic leave the array holding exactly the same elements, ordered by the comparison function, with equal elements in their original relative order.", "quantifier": "all arrays of any length and all total-preorder comparison functions", "why_tests_cant": "arrays and comparison functions are unbounded", "anchors": ["kernel/sort.c: insertion_sort_ptr, insertion_sort_generic"]}
{"id": "C06", "title": "Number formatting and parsing are inverse", "statement": "Formatting any integer with the itoa family and parsing the resulting text with the matching strto* function returns the same integer with no error, in base 10 and 16, for signed and unsigned types.", "quantifier": "all representable integers of the 32- and 64-bit types, bases 10 and 16", "why_tests_cant": "2^64 inputs", "anchors": ["common/itoa.cpp: __itoa, __uitoa_fixed, __tilck_strtol"]}
{"id": "C07", "title": "Integer parsing reports every out-of-range number", "statement": "Parsing a digit string whose mathematical value does not fit the destination type reports an error; a string whose value fits returns exactly that value and no error.", "quantifier": "all digit strings of any length, both signs", "why_tests_cant": "input strings are unbounded; tests try a few overflow values", "anchors": ["common/itoa.cpp: __tilck_strtol"]}
{"id": "C08", "title": "Absolute path computation is normalising", "statement": "The absolute path computed from a working directory and a user path starts with '/', contains no '.' or '..' component and no empty component (double slash), and denotes the same file as walking the user path component by component from the working directory (where '..' at the root stays at the root).", "quantifier": "all user paths and all normalised working directories of any length", "why_tests_cant": "paths are unbounded strings", "anchors": ["kernel/fs/vfs_util.c: compute_abs_path, drop_last_component"]}
{"id": "C09", "title": "Ordered tree behaves as a sorted map", "statement": "After any history of insertions and removals, lookup finds exactly the keys currently present, inserting an existing key is refused and changes nothing, removing an absent key returns nothing, and in-order iteration yields the present keys in strictly increasing order.", "quantifier": "all finite histories of insert/remove/find, all key sets", "why_tests_cant": "the set of tree shapes and histories is unbounded", "anchors": ["kernel/bintree/bintree.c, bintree_find.c.h, bintree_visit: bintree_insert_internal, bintree_remove_internal, bintree_find_internal, bintree_in_order_visit_internal"]}
{"id": "C10", "title": "Ordered tree stays height-balanced", "statement": "After any history of insertions and removals the heights of the two subtrees of every node differ by at most one and the stored height of each node is correct, hence a tree of n nodes has height at most 1.45*log2(n+2) and the fixed 32-entry path stack can never be exceeded by a tree that fits in memory.", "quantifier": "all finite histories, all nodes", "why_tests_cant": "shapes reached by rotations after arbitrary removals are unbounded", "anchors": ["kernel/bintree/bintree.c: balance, rotate_left_child, rotate_right_child, UPDATE_HEIGHT, MAX_TREE_HEIGHT"]}
{"id": "C11", "title": "Kernel mutex gives mutual exclusion", "statement": "At any point of any execution at most one task is between a successful lock and the matching unlock of a mutex, and a successful trylock never happens while another task holds it.", "quantifier": "all numbers of tasks, all interleavings of lock/trylock/unlock", "why_tests_cant": "schedules are unbounded", "anchors": ["kernel/kmutex.c: kmutex_lock, kmutex_trylock, kmutex_unlock"]}
{"id": "C12", "title": "Kernel mutex serves waiters first-come first-served and loses no wakeup", "statement": "When the owner unlocks a mutex with waiters, ownership goes to the task that has been waiting longest; a mutex without owner never has waiters; every waiter is therefore reached after as many unlocks as there are tasks ahead of it.", "quantifier": "all executions, all numbers of waiters", "why_tests_cant": "depends on the order of arrivals over unbounded histories", "anchors": ["kernel/kmutex.c: lock_and_hand_over / kmutex_unlock", "kernel/wobj.c: wait_obj_set, wake_up"]}
{"id": "C13", "title": "Recursive mutex is released only by the matching outermost unlock", "statement": "A recursive mutex locked k times by its owner stays owned by it until the k-th unlock, and at that point (not earlier) becomes available to others.", "quantifier": "all k, all interleavings with other tasks", "why_tests_cant": "nesting depth is unbounded", "anchors": ["kernel/kmutex.c: KMUTEX_FL_RECURSIVE, lock_count"]}
{"id": "C14", "title": "Semaphore conserves units", "statement": "At every point of any execution the semaphore value equals initial value + units signalled - units acquired by completed waits, is never negative and never exceeds the configured maximum (a signal that would exceed it is refused with -EDQUOT and has no effect).", "quantifier": "all executions with any number of tasks and unit counts", "why_tests_cant": "schedules and unit counts are unbounded", "anchors": ["kernel/ksem.c: ksem_wait, ksem_signal"]}
{"id": "C15", "title": "Semaphore never leaves a satisfiable waiter asleep", "statement": "After a signal completes there is no sleeping waiter whose requested number of units is available once the units promised to already woken waiters are set aside.", "quantifier": "all waiter lists, all unit counts", "why_tests_cant": "depends on arbitrary waiter lists", "anchors": ["kernel/ksem.c: ksem_signal"]}
{"id": "C16", "title": "Reader-writer lock excludes writers from readers and from each other", "statement": "For both the reader-preferring and the writer-preferring lock: whenever a task holds the lock exclusively, no other task holds it shared or exclusively.", "quantifier": "all interleavings of shlock/shunlock/exlock/exunlock by any number of tasks", "why_tests_cant": "schedules are unbounded", "anchors": ["kernel/rwlock.c: rwlock_rp_*, rwlock_wp_*"]}
{"id": "C17", "title": "Writer-preferring lock really prefers writers", "statement": "In the writer-preferring lock no reader acquires the lock while a writer is waiting for it or holds it.", "quantifier": "all interleavings", "why_tests_cant": "schedules are unbounded", "anchors": ["kernel/rwlock.c: rwlock_wp_shlock, rwlock_wp_exlock_int"]}
{"id": "C18", "title": "Pipe is an order-preserving lossless byte stream", "statement": "For any interleaving of pipe reads and writes, the concatenation of all bytes returned by reads followed by the bytes still buffered equals the concatenation of the bytes accepted by writes (as reported by the write return values).", "quantifier": "all histories of reads and writes of any sizes", "why_tests_cant": "histories and sizes are unbounded", "anchors": ["kernel/pipe.c: pipe_read, pipe_write"]}
{"id": "C19", "title": "Pipe end-of-file and broken-pipe conditions are exact", "statement": "A pipe read returns 0 for a non-zero length only if the pipe is empty and no write handle is open; a write fails with EPIPE (and raises SIGPIPE) exactly when no read handle is open; data written before the last writer closed is still returned before end-of-file.", "quantifier": "all histories of open/dup/close/read/write on both ends", "why_tests_cant": "handle histories are unbounded", "anchors": ["kernel/pipe.c: pipe_read, pipe_write, pipe_on_handle_close, pipe_on_handle_dup"]}
{"id": "C20", "title": "New task ids are unique", "statement": "The id given to a new process or thread is different from the id of every live task and from every live process group and session id.", "quantifier": "all sets of live tasks and all allocation histories, including wrap-around of the id counter", "why_tests_cant": "wrap-around with arbitrary surviving tasks cannot be covered by tests", "anchors": ["kernel/sched.c: create_new_pid, create_id_common"]}
{"id": "C21", "title": "SIGKILL and SIGSTOP can never be blocked or handled", "statement": "After any sequence of signal-mask and signal-action system calls, SIGKILL and SIGSTOP are neither blocked, nor have a handler or ignore disposition.", "quantifier": "all sequences of rt_sigaction / rt_sigprocmask / sigsuspend with any arguments", "why_tests_cant": "call sequences and masks are unbounded", "anchors": ["kernel/signal.c: sys_rt_sigaction, sys_rt_sigprocmask, sys_rt_sigsuspend"]}
{"id": "C22", "title": "A deliverable pending signal is delivered", "statement": "If a task has a pending signal that is not blocked, signal processing picks one such signal (never a blocked one) and removes it from the pending set.", "quantifier": "all pending sets and masks", "why_tests_cant": "2^64 x 2^64 combinations", "anchors": ["kernel/signal.c: get_first_pending_sig, process_signals, pending_signals"]}
{"id": "C23", "title": "Signal-set operations change exactly one signal", "statement": "Adding, removing or testing a signal number in a signal set affects/reads exactly that signal and leaves all others unchanged.", "quantifier": "all signal sets and signal numbers, 32- and 64-bit words", "why_tests_cant": "number of sets is exponential", "anchors": ["kernel/signal.c: __add_sig, __del_sig, __is_sig_set"]}
{"id": "C24", "title": "waitpid reports each child at most once and only matching ones", "statement": "waitpid returns only a child of the caller matching the requested pid/group whose state changed, reaps each dead child exactly once, and returns -ECHILD exactly when no matching child exists.", "quantifier": "all process tables, all pid arguments, all histories of exits and waits", "why_tests_cant": "process tables and histories unbounded", "anchors": ["kernel/waitpid.c: sys_wait4, waitpid_should_skip_child, get_task_if_changed"]}
{"id": "C25", "title": "A waiting parent is woken when a matching child dies", "statement": "If a parent sleeps in waitpid() and a child that the call would accept terminates, the parent is woken up.", "quantifier": "all pid arguments and child/group configurations", "why_tests_cant": "lost wakeups are schedule-dependent", "anchors": ["kernel/waitpid.c: wake_up_tasks_waiting_on", "kernel/exit.c: terminate_process"]}
{"id": "C26", "title": "open/dup return the lowest free descriptor", "statement": "Every call that creates a file descriptor returns the lowest-numbered one not in use (>= the requested minimum for F_DUPFD), never one in use, and closing one makes exactly that one free again.", "quantifier": "all descriptor tables and all histories of open/dup/dup2/fcntl/close", "why_tests_cant": "histories unbounded", "anchors": ["kernel/fs/fs_syscalls.c: get_free_handle_num_ge, sys_dup2, sys_dup, sys_fcntl64, sys_close"]}
{"id": "C27", "title": "Close-on-exec flag follows the request", "statement": "After F_DUPFD_CLOEXEC, O_CLOEXEC or F_SETFD the new descriptor is closed by exec if and only if the request said so; plain dup/dup2 clears the flag; exec closes exactly the marked descriptors.", "quantifier": "all descriptor tables and requests", "why_tests_cant": "combinations unbounded", "anchors": ["kernel/fs/fs_syscalls.c: sys_fcntl64, sys_dup2, close_cloexec_handles"]}
{"id": "C28", "title": "RAM file reads return what was last written", "statement": "For any history of writes, seeks and extending truncates on a RAM-backed file, reading n bytes at an offset returns, for each position below the file size, the last byte written there or 0 if none was, and never returns bytes beyond the file size.", "quantifier": "all histories, offsets, lengths", "why_tests_cant": "offset/length/history space is unbounded; block boundaries interact", "anchors": ["kernel/fs/ramfs/rw_ops.c.h: ramfs_read_nolock, ramfs_write_nolock", "kernel/fs/ramfs/blocks.c.h"]}
{"id": "C29", "title": "Shrinking a RAM file discards the data past the new end", "statement": "After truncating a file to a smaller size and growing it again (by truncate or by writing past the end), the bytes between the smaller size and the new data read as zero.", "quantifier": "all file contents and sizes", "why_tests_cant": "sizes relative to page boundaries unbounded", "anchors": ["kernel/fs/ramfs/blocks.c.h: ramfs_inode_truncate, ramfs_inode_extend"]}
{"id": "C30", "title": "Directory listing is complete and duplicate-free under concurrent changes", "statement": "Reading a RAM directory through repeated getdents calls returns every entry present during the whole listing exactly once, no matter which other entries are created or removed between the calls.", "quantifier": "all directories, all buffer sizes, all interleavings of create/unlink with getdents", "why_tests_cant": "interleavings unbounded", "anchors": ["kernel/fs/ramfs/getdents.c.h, dir_entries.c.h: ramfs_getdents, ramfs_dir_remove_entry"]}
{"id": "C31", "title": "Link counts equal the number of names", "statement": "At every point the link count of a RAM file equals the number of directory entries naming it (directories: 2 + number of subdirectories), and an inode is freed exactly when its link count and its number of open handles are both zero.", "quantifier": "all histories of create/mkdir/link/unlink/rmdir/rename/open/close", "why_tests_cant": "histories unbounded", "anchors": ["kernel/fs/ramfs/*: ramfs_create_inode_*, ramfs_unlink, ramfs_link, ramfs_rename, ramfs_mkdir, ramfs_rmdir"]}
{"id": "C32", "title": "Timers never fire early and fire exactly once", "statement": "An armed timer's callback runs exactly once, not before the requested number of ticks has elapsed and at the tick where it elapses, unless it was cancelled; timers due at the same tick all fire in that tick.", "quantifier": "all sets of timers, all histories of arm/cancel/tick", "why_tests_cant": "timer sets and histories unbounded", "anchors": ["kernel/timer.c: ktimer_arm, ktimer_cancel, tick_all_timers"]}
{"id": "C33", "title": "Cancelling a timer tells the truth", "statement": "ktimer_cancel returns true exactly when the callback has not run and will not run for that arming; after it returns true the callback is not invoked.", "quantifier": "all histories", "why_tests_cant": "races between expiry and cancellation", "anchors": ["kernel/timer.c: ktimer_cancel, run_pending_ktimers"]}
{"id": "C34", "title": "Scheduler picks the runnable task with the least virtual runtime", "statement": "The scheduler only ever switches to a runnable task, picks the idle task only when no other is runnable, and otherwise picks a task whose virtual runtime is minimal.", "quantifier": "all task sets and virtual runtimes", "why_tests_cant": "task sets unbounded", "anchors": ["kernel/sched.c: select_runnable / do_schedule"]}
{"id": "C35", "title": "Scheduler bookkeeping is exact and virtual time monotone", "statement": "After any history of task creations, wake-ups, sleeps, exits and ticks, the runnable counter equals the number of runnable tasks and the minimum virtual runtime never decreases.", "quantifier": "all histories", "why_tests_cant": "histories unbounded", "anchors": ["kernel/sched.c: task_change_state, account_ticks, min_vruntime"]}
{"id": "C36", "title": "Kernel heap never hands out overlapping memory", "statement": "Blocks currently allocated from a heap are pairwise disjoint, lie inside the heap, are at least as large as requested and aligned to their (power of two) size.", "quantifier": "all histories of allocations and frees of any sizes, all heap sizes", "why_tests_cant": "histories and sizes unbounded", "anchors": ["kernel/kmalloc/kmalloc.c.h: per_heap_kmalloc, per_heap_kfree, internal_kmalloc"]}
{"id": "C37", "title": "Freeing everything restores the whole heap", "statement": "After all allocated blocks have been freed, in any order, the heap accounts zero allocated bytes and a single allocation of the whole heap succeeds again (full coalescing).", "quantifier": "all histories", "why_tests_cant": "orders of frees unbounded", "anchors": ["kernel/kmalloc/kmalloc.c.h: per_heap_kfree, set_free_uplevels"]}
{"id": "C38", "title": "The fixed-up memory map is sorted, disjoint and keeps the strictest type", "statement": "After normalisation the physical memory regions are sorted by address, pairwise disjoint, cover exactly the addresses covered by the (page-aligned) input regions, and each address has the strictest type among the input regions that contained it.", "quantifier": "all lists of firmware memory regions", "why_tests_cant": "region lists unbounded", "anchors": ["kernel/mm/system_mmap.c: handle_region_overlap, handle_overlapping_regions, fix_mem_regions"]}
{"id": "C39", "title": "Copy-on-write isolates parent and child after fork", "statement": "After fork, a write by one process to a private page is never visible to any other process, while each process keeps reading the values it had at fork time overwritten by its own later writes; shared mappings stay shared.", "quantifier": "all page contents, all interleavings of forks, writes, unmaps and exits of any number of processes", "why_tests_cant": "interleavings unbounded", "anchors": ["kernel/arch/i386/paging.c: pdir_clone, handle_potential_cow, map_page_int, __unmap_page, pdir_destroy"]}
{"id": "C40", "title": "Page frame reference counts equal the number of mappings", "statement": "At every point the reference count of a page frame equals the number of page-table entries mapping it, so a frame is freed exactly when its last mapping goes away.", "quantifier": "all histories of map/unmap/fork/COW/destroy", "why_tests_cant": "histories unbounded", "anchors": ["kernel/arch/i386/paging.c: pf_ref_count_inc/dec users"]}
{"id": "C41", "title": "A failed fork leaves the parent's address space untouched", "statement": "If cloning the address space fails for lack of memory at any point, the parent's mappings are unchanged and remain usable.", "quantifier": "every possible allocation failure point", "why_tests_cant": "failure points depend on the address-space shape", "anchors": ["kernel/arch/i386/paging.c: pdir_clone"]}
{"id": "C42", "title": "munmap removes exactly the requested range", "statement": "After a successful munmap(addr,len), the addresses in [addr, addr+len rounded to pages) that were mapped are not covered by any mapping, all other addresses keep the mapping (and file offset) they had.", "quantifier": "all mapping lists and all page-aligned ranges", "why_tests_cant": "ranges and mappings unbounded", "anchors": ["kernel/mm/process_mm.c: munmap_int, sys_munmap"]}
{"id": "C43", "title": "FAT table access round-trips and preserves neighbours", "statement": "Writing a FAT entry and reading it back returns the value (28 bits for FAT32), other entries are unchanged and the reserved top 4 bits of FAT32 entries are preserved.", "quantifier": "all FAT contents, cluster numbers and values", "why_tests_cant": "table sizes unbounded", "anchors": ["common/fat32_base.c: fat_read_fat_entry, fat_write_fat_entry"]}
{"id": "C44", "title": "FAT compaction preserves file contents", "statement": "Compacting the clusters of a FAT volume leaves the byte content and chain order of every file unchanged.", "quantifier": "all volumes with disjoint chains", "why_tests_cant": "volumes unbounded", "anchors": ["common/fat32_base.c: fat_compact_clusters"]}
{"id": "C45", "title": "Subsystem file locks are exclusive", "statement": "While one subsystem holds the lock on a file, every other subsystem is refused with -ETXTBSY and the holder may re-acquire; after as many releases as acquisitions the lock is free.", "quantifier": "all histories of acquire/retain/release by any owners", "why_tests_cant": "histories unbounded", "anchors": ["kernel/fs/flock.c"]}
{"id": "C46", "title": "Worker queues run every accepted job exactly once in order", "statement": "Each job accepted by a worker queue is executed exactly once, jobs of the same queue in acceptance order; enqueue fails exactly when the queue is full; the runnable worker with the best priority runs first.", "quantifier": "all histories of enqueue/process", "why_tests_cant": "histories unbounded", "anchors": ["kernel/wth.c: wth_enqueue_on, wth_process_single_job, wth_get_runnable_thread"]}
{"id": "C47", "title": "Path resolution keeps file-system locks balanced", "statement": "After a path resolution returns success exactly one file system is locked (the one owning the result) and it is locked once; after a failure none is.", "quantifier": "all paths, symlinks and mount configurations", "why_tests_cant": "symlink/mount combinations unbounded; test file systems use no-op locks", "anchors": ["kernel/vfs/vfs_resolve.c.h"]}
{"id": "C48", "title": "String comparison is a total order", "statement": "strcmp returns 0 exactly for equal strings, a negative value exactly when the first is lexicographically smaller, and swapping the arguments flips the sign; strncmp does the same on the first n characters.", "quantifier": "all pairs of strings", "why_tests_cant": "string lengths unbounded", "anchors": ["common/string_util.c: strcmp, strncmp"]}
{"id": "C49", "title": "String search finds the first (last) occurrence", "statement": "strstr returns the first position where the needle occurs and NULL exactly when it does not occur; strrchr the last position of a character.", "quantifier": "all strings, needles and characters", "why_tests_cant": "string lengths unbounded", "anchors": ["common/string_util.c: tilck_strstr, strrchr"]}
{"id": "C50", "title": "memmove copies correctly for every overlap", "statement": "After memmove the destination area holds the bytes the source area held before the call, every other byte is unchanged; memcpy does so when the areas do not overlap or the destination is at a lower address.", "quantifier": "all memory contents, addresses and lengths", "why_tests_cant": "address/length combinations unbounded", "anchors": ["common/string_util.c: memcpy, memmove"]}
{"id": "C51", "title": "Bounded string copy stays in bounds", "statement": "strncpy(dest, src, n) writes the first min(strlen(src), n) characters, terminates if src is shorter than n, pads the rest with NULs, and never touches a byte outside [dest, dest+n).", "quantifier": "all strings and limits", "why_tests_cant": "string lengths unbounded", "anchors": ["common/string_util.c: tilck_strncpy"]}
{"id": "C52", "title": "Tasks waiting for a reader-writer lock are not forgotten", "statement": "Writer-preferring lock: whenever nobody holds it and a writer waits, some waiting writer is awake and its next step gets the lock; a reader sleeps only while a writer holds the lock or waits. Reader-preferring lock: a reader joins other readers regardless of waiting writers, and when nobody holds the lock some task inside a call can proceed.", "quantifier": "all schedules of any number of tasks, including spurious wake-ups by signals", "why_tests_cant": "schedules unbounded", "anchors": ["kernel/rwlock.c: rwlock_wp_shlock, rwlock_wp_shunlock, rwlock_wp_exlock, rwlock_wp_exunlock, rwlock_rp_shlock, rwlock_rp_exlock"]}
{"id": "C53", "title": "Tasks blocked on a pipe are not forgotten", "statement": "A task sleeps in a blocking pipe read although data is buffered or no write handle is open only if another reader has already been woken; a task sleeps in a blocking write although there is room or no read handle is open only if another writer has already been woken.", "quantifier": "all schedules of reads, writes, polls, dups, closes and wake-ups by any number of tasks", "why_tests_cant": "schedules unbounded", "anchors": ["kernel/pipe.c: pipe_read, pipe_write, pipe_on_handle_close", "kernel/kcond.c: kcond_signal_int, kcond_wait"]}
{"id": "C54", "title": "SIGKILL works", "statement": "Sending SIGKILL to a live process other than init makes an interruptibly sleeping or stopped task runnable, and the next time the kernel processes that task's signals it terminates, whatever signals are pending, blocked or being handled.", "quantifier": "all histories of signal system calls, signals and deliveries", "why_tests_cant": "histories unbounded", "anchors": ["kernel/signal.c: do_send_signal, action_terminate, signal_wakeup_task, process_signals"]}
{"id": "C55", "title": "Ignored signals have no effect", "statement": "A signal whose disposition is 'ignore' neither changes the state of the process when sent nor is ever delivered to it.", "quantifier": "all histories of sigaction, sigprocmask, sends and deliveries", "why_tests_cant": "histories unbounded", "anchors": ["kernel/signal.c: do_send_signal, process_signals, setup_sig_handler"]}
{"id": "C56", "title": "Stopped processes stay stopped until continued", "statement": "A process stopped by a signal stays stopped until SIGCONT or SIGKILL is sent to it; SIGCONT resumes it whatever its disposition.", "quantifier": "all signals, dispositions and masks", "why_tests_cant": "combinations unbounded", "anchors": ["kernel/signal.c: do_send_signal, signal_wakeup_task, action_stop, action_continue"]}
{"id": "C57", "title": "stat reports the allocated blocks", "statement": "The number of blocks stat reports for a RAM file is the number of blocks allocated for it.", "quantifier": "all histories of writes and truncates", "why_tests_cant": "histories unbounded", "anchors": ["kernel/fs/ramfs/blocks.c.h: ramfs_append_new_block", "kernel/fs/ramfs/rw_ops.c.h: ramfs_inode_truncate", "kernel/fs/ramfs/stat.c.h"]}
{"id": "C58", "title": "Directory calls change exactly the names they name", "statement": "open with O_CREAT, mkdir, rmdir, unlink, symlink, link and rename change what each name of each directory leads to exactly as POSIX says; a call that fails changes no name.", "quantifier": "all histories of calls by any number of tasks, all interleavings", "why_tests_cant": "histories and interleavings are unbounded", "anchors": ["kernel/fs/ramfs/ramfs.c: ramfs_unlink, ramfs_rename, ramfs_link, ramfs_symlink", "kernel/fs/ramfs/mkdir.c.h", "kernel/fs/ramfs/open.c.h", "kernel/fs/ramfs/dir_entries.c.h", "kernel/vfs/vfs.c: vfs_rename_or_link"]}
{"id": "C59", "title": "No freed inode or directory entry is used", "statement": "Whatever files and directories are created, renamed, removed and closed concurrently, no call reads or writes an inode, directory entry or handle that has been freed.", "quantifier": "all histories and interleavings", "why_tests_cant": "interleavings unbounded", "anchors": ["kernel/fs/ramfs/*", "kernel/vfs/vfs.c: vfs_close, vfs_rename_or_link, vfs_dup"]}
{"id": "C60", "title": "A due deferred timer finds its worker awake", "statement": "Outside the timer interrupt the worker thread that runs deferred timer callbacks is never asleep while a deferred callback is due: no wakeup is lost between the worker's decision to sleep and the interrupt that queues the callback.", "quantifier": "all interleavings of timer interrupts with the worker", "why_tests_cant": "the race window is a few instructions wide", "anchors": ["kernel/timer.c: tick_all_timers, run_pending_ktimers, ktimer_has_pending_deferred", "kernel/wth.c: wth_run"]}
{"id": "C61", "title": "Worker threads go first", "statement": "Whenever the scheduler runs and a worker thread is runnable, a runnable worker thread of the most urgent priority is chosen; a running worker thread is not replaced by an ordinary task or by a less urgent worker.", "quantifier": "all histories of task creations, wake-ups, sleeps, interrupts and scheduler calls", "why_tests_cant": "interleavings unbounded", "anchors": ["kernel/wth.c: wth_get_runnable_thread", "kernel/sched.c: do_schedule", "kernel/timer.c: task_primary_timer_fire"]}
{"id": "C62", "title": "No runnable task is passed over without bound", "statement": "While a task waits for the CPU, another ordinary task is preferred to it only as long as its virtual runtime is not larger; so the CPU time any other task can get first is bounded by the difference of their virtual runtimes, including for tasks created or woken in the meantime. Woken tasks start at most ten ticks behind the watermark, new ones at it.", "quantifier": "all histories during which the task stays runnable", "why_tests_cant": "histories unbounded", "anchors": ["kernel/sched.c: sched_do_select_runnable_task, wake_vruntime_handoff, fork_vruntime_handoff, sched_account_ticks"]}
{"id": "C63", "title": "Time slices", "statement": "A task given the CPU gets max(latency / number of competing tasks, minimum granularity) ticks; when an ordinary task has used them it is asked to leave at that tick.", "quantifier": "all histories between two scheduler calls", "why_tests_cant": "histories unbounded", "anchors": ["kernel/sched.c: sched_compute_slice, sched_start_quantum, sched_account_ticks"]}
{"id": "C64", "title": "A stopped task does not get the CPU", "statement": "A task that stopped (by a signal or because it waits for its vfork child) does not run again before it is continued or woken.", "quantifier": "all histories of stops, timers, wake-ups and scheduler calls", "why_tests_cant": "interleavings unbounded", "anchors": ["kernel/sched.c: sched_should_return_immediately, do_schedule", "kernel/timer.c: task_primary_timer_fire", "kernel/fork.c"]}
{"id": "C65", "title": "Pages behind an on-demand heap are mapped exactly while they are in use", "statement": "For a heap whose memory is mapped on demand (the per-process mmap heap), the page behind an address is mapped exactly while that address belongs to a live block that was requested with backing memory; freeing a block unmaps its pages and no others.", "quantifier": "every sequence of allocations, frees, partial frees and heap expansions, every size and every outcome of single-page mapping requests", "why_tests_cant": "page flags and block flags share the same metadata nodes and are changed on different paths (allocate, split, coalesce, multi-step free); a leak or a premature unmap shows only after particular sequences", "anchors": ["kernel/kmalloc/kmalloc.c:actual_allocate_node", "kernel/kmalloc/kmalloc.c:internal_kfree", "kernel/kmalloc/kmalloc_heaps.c.h:kmalloc_heap_dup_expanded", "kernel/mm/process_mm.c:mmap_on_user_heap"]}
{"id": "C66", "title": "A heap's allocation counter equals the memory its users hold", "statement": "The mem_allocated counter of a heap, which decides whether the heap is tried at all by kmalloc and is shown to users, always equals the total size of the blocks currently held.", "quantifier": "every sequence of allocations and frees of any size, with splitting and multi-step frees", "why_tests_cant": "the counter is adjusted by different amounts on different paths (split blocks, partially freed blocks); drift accumulates over histories", "anchors": ["kernel/kmalloc/kmalloc.c:internal_kmalloc", "kernel/kmalloc/kmalloc.c:internal_kfree", "kernel/kmalloc/kmalloc.c:internal_kmalloc_coalesce_block", "kernel/kmalloc/general_kmalloc.c.h:main_heaps_kmalloc"]}
{"id": "C67", "title": "The boot-time memory map says available only where memory was declared available", "statement": "After boot, an address counts as available memory only if the firmware (or the fixed low-memory region, or the ramdisk's spare page) declares it available and nothing declares it otherwise; looking up an address finds the one region that contains it; the reported lower and upper bounds of memory are those of the available regions.", "quantifier": "every firmware memory map, kernel image layout and ramdisk list, in any order and with any overlaps", "why_tests_cant": "overlap patterns and orders are unbounded, and the map is processed twice with regions carved in between; tests use a few hand-made maps", "anchors": ["kernel/mm/system_mmap.c:system_mmap_set", "kernel/mm/system_mmap.c:set_lower_and_upper_kb", "kernel/mm/system_mmap.c:system_mmap_get_region_of", "kernel/arch/generic_x86/mmap.c:arch_add_final_mem_regions"]}
{"id": "C68", "title": "mmap returns fresh memory", "statement": "A successful mmap(len) returns a page-aligned range of at least len bytes in which nothing was mapped; afterwards the process sees there what it asked for (the right file offsets, or zero pages) and everywhere else what it saw before. A failing mmap changes nothing the process can observe, and with plenty of memory it fails only when the mmap area has no suitable free range. No address is ever in two mappings.", "quantifier": "every history of mmap, munmap, close and page faults of a process, every length and offset, every outcome of the memory allocations", "why_tests_cant": "The address returned depends on the whole history of the buddy heap behind it; overlap of two mappings appears only after particular sequences of partial unmappings, and the failure paths need an allocation to fail at one exact point.", "anchors": ["kernel/mm/process_mm.c: sys_mmap_pgoff, mmap_on_user_heap, mmap_err_case_free", "kernel/mm/process_mm_base.c: process_add_user_mapping", "kernel/kmalloc/kmalloc_heaps.c.h: kmalloc_heap_dup_expanded"]}
{"id": "C69", "title": "close and mapped files", "statement": "Closing a file descriptor changes no memory of the process: anonymous memory, mappings of other files, and (POSIX) the mappings made through that descriptor stay as they are.", "quantifier": "every history of mappings and every descriptor closed", "why_tests_cant": "Needs every combination of partially unmapped files and the state of the heap behind them.", "anchors": ["kernel/mm/process_mm_base.c: remove_all_mappings_of_handle, full_remove_user_mapping"]}
{"id": "C70", "title": "mmap grants no access that open did not", "statement": "mmap accepts a shared file mapping only if the descriptor was opened with an access mode that allows reading, and writing if the mapping is to be writable; a private mapping must be anonymous, readable and writable.", "quantifier": "every combination of arguments of mmap and of the descriptor's access mode", "why_tests_cant": "The combinations of protection, flags and access mode are too many to enumerate by hand, and a wrong one only shows when somebody tries exactly it.", "anchors": ["kernel/mm/process_mm.c: sys_mmap_pgoff"]}
{"id": "C71", "title": "FAT files read back as stored", "statement": "Reading a file of a FAT volume, with any sequence of reads and seeks, gives the bytes stored in its clusters in order, up to its size, and the positions POSIX prescribes; reading the whole file at once gives as many of its bytes as fit in the buffer.", "quantifier": "every volume, every chain of clusters, every sequence of read sizes and seeks", "why_tests_cant": "The position, the cached cluster and the cluster boundaries interact: an error shows only for some combination of cluster size, file size, buffer sizes and seeks.", "anchors": ["kernel/fs/fat32.c: fat_read, fat_seek, fat_seek_forward, fat_rewind", "common/fat32_base.c: fat_read_whole_file"]}
{"id": "C72", "title": "Names in FAT directories", "statement": "Listing a FAT directory gives each file once with its full long name (or its short name if it has none), and looking up a name finds the file that has it.", "quantifier": "every directory: any names, any number of entries, deleted entries anywhere", "why_tests_cant": "A long name is spread over up to twenty entries in reverse order; what was left of deleted files and the split into clusters give unboundedly many layouts.", "anchors": ["common/fat32_base.c: fat_walk, fat_handle_long_dir_entry, finalize_long_name, fat_get_short_name, fat_search_entry_cb"]}
{"id": "C73", "title": "Aligning a FAT volume keeps it", "statement": "Aligning the data area of a FAT volume to pages leaves the allocation table, the root directory and the contents of all clusters in use as they were, the volume keeps its type, and the data area then begins on a page.", "quantifier": "every volume and page size", "why_tests_cant": "Only volumes with particular numbers of reserved sectors, FATs and clusters are affected by a mistake of one sector or cluster.", "anchors": ["common/fat32_base.c: fat_align_first_data_sector, fat_is_first_data_sector_aligned"]}
{"id": "C74", "title": "The used part of a FAT volume contains all its files", "statement": "The number of bytes reported as used by a FAT volume reaches beyond its FATs, its root directory and every cluster in use; so loading only that part loses nothing.", "quantifier": "every volume and allocation table", "why_tests_cant": "It fails for volumes that are nearly full, at the last clusters only.", "anchors": ["common/fat32_base.c: fat_calculate_used_bytes", "boot/legacy/stage3/ramdisk.c: rd_compact_clusters"]}
{"id": "C75", "title": "Mapped FAT files show their contents", "statement": "A shared mapping of a FAT file shows, at each page within the file, the bytes of the file at the corresponding offset, and nothing that does not belong to the file.", "quantifier": "every volume, file, offset and length of the mapping", "why_tests_cant": "Offsets within a cluster, lengths that end in a cluster and fragmentation combine in many ways.", "anchors": ["kernel/fs/fat32_mm.c: fat_mmap"]}
{"id": "C76", "title": "A running program cannot be written to", "statement": "While any process executes a program file, opening it for writing or truncating it fails with ETXTBSY; while a file is open for writing, executing it fails with ETXTBSY; once no process executes it, or no handle for writing is left, these calls work again.", "quantifier": "every sequence of open, dup, close, truncate, fork, vfork, execve and exit by any number of processes", "why_tests_cant": "The bookkeeping must be balanced on every path, including failures and children that borrow the program of their parent; tests only see the usual paths.", "anchors": ["kernel/elf.c: load_elf_program", "kernel/process.c: setup_process, allocate_new_process", "kernel/exit.c: terminate_process", "kernel/vfs/vfs.c: vfs_close, vfs_dup, vfs_truncate_impl", "kernel/fs/ramfs/open.c.h: ramfs_open"]}
{"id": "C77", "title": "Waiting for a worker means all its jobs are done", "statement": "When the call that waits for the completion of a worker thread returns, every job accepted by that worker before has been executed.", "quantifier": "every interleaving of producers, interrupts, the scheduler and the worker", "why_tests_cant": "The flag that is waited for is changed by the worker and by interrupt handlers; the wrong order is only visible if an interrupt comes between two instructions.", "anchors": ["kernel/wth.c: wth_wait_for_completion, wth_run, wth_enqueue_on", "kernel/wth_aux.c: wth_wakeup"]}
{"id": "C78", "title": "A job that waits is not woken up by others", "statement": "A job of a worker thread that waits (for a mutex, a condition or time) goes on only when that has happened; jobs that are enqueued and timers that expire meanwhile do not wake it up.", "quantifier": "every worker and every interleaving with producers and timer interrupts", "why_tests_cant": "It needs a job that waits just when a deferred timer expires.", "anchors": ["kernel/wth_aux.c: wth_wakeup, wth_wakeup_top", "kernel/timer.c: tick_all_timers"]}
{"id": "C79", "title": "A path denotes the right thing", "statement": "Every call on a path acts on what the path denotes: its components are looked up one after the other from the root or the current directory, mounted file systems are entered and left through '..', symbolic links are replaced by what they hold (the last one only if the call follows links), repeated slashes do not matter; a missing component before the last is ENOENT, something else than a directory used as one is ENOTDIR, too many nested links are ELOOP.", "quantifier": "every directory tree, mount configuration, link and path", "why_tests_cant": "Components, links, slashes, '..' and mounts combine without bound.", "anchors": ["kernel/vfs/vfs_resolve.c.h: vfs_resolve, __vfs_resolve, vfs_resolve_get_entry, vfs_handle_cross_fs_dotdot, vfs_resolve_symlink"]}
{"id": "C80", "title": "Names in paths are within what file systems accept", "statement": "Whatever path a program passes to a system call, file systems are only asked for names that occur as components in the path or in symbolic links, and no name overflows a buffer of the kernel.", "quantifier": "every path and every link, of every length the system calls accept", "why_tests_cant": "Only names in a narrow range of lengths are affected.", "anchors": ["kernel/vfs/vfs_resolve.c.h: vfs_resolve_get_entry", "kernel/fs/ramfs/dir_entries.c.h: ramfs_dir_get_entry_by_name"]}
{"id": "C81", "title": "New entries get the name and the place the path says", "statement": "A call that creates something (open, mkdir, symlink, link, rename) creates an entry with the name that the path ends with, in the directory that the rest of the path denotes.", "quantifier": "every directory tree, mount configuration and path", "why_tests_cant": "Trailing slashes and links at the end of a path matter only in rare combinations.", "anchors": ["kernel/vfs/vfs_resolve.c.h: vfs_resolve, vfs_resolve_symlink", "kernel/fs/ramfs/dir_entries.c.h: ramfs_dir_add_entry"]}
{"id": "C82", "title": "What a wait on a condition variable returns", "statement": "kcond_wait returns true only if the condition was signalled after the call began, and false only if the call had a timeout and that time is over; a task that was waiting when the condition was signalled to all gets true.", "quantifier": "every interleaving of any number of waiting and signalling tasks, timers, signals, stops and continues", "why_tests_cant": "The result is reconstructed after waking up from the state of the wait object, which several others may have changed meanwhile.", "anchors": ["kernel/kcond.c: kcond_wait, kcond_signal_int", "kernel/wobj.c: wake_up, wait_obj_reset", "kernel/timer.c: task_primary_timer_fire"]}
{"id": "C83", "title": "A signal on a condition variable reaches those who wait", "statement": "kcond_signal_all wakes up all tasks that wait for the condition, directly or in poll/select, and no other; kcond_signal_one wakes up the one that has been waiting for the longest time, and is not lost if somebody waits.", "quantifier": "every interleaving, any number of waiting tasks", "why_tests_cant": "It depends on the exact state of all tasks in the list at the moment of the signal.", "anchors": ["kernel/kcond.c: kcond_signal_int, kcond_signal_one, kcond_signal_all", "kernel/wobj.c: wake_up"]}
{"id": "C84", "title": "poll and select do not miss events", "statement": "A task never sleeps in poll or select while one of its files is ready and this has been announced since it became ready.", "quantifier": "every interleaving of the checks of poll with changes of the files and announcements, any number of files", "why_tests_cant": "The window between the check of a file and going to sleep is only a few instructions long.", "anchors": ["kernel/poll.c: poll_wait_on_cond", "kernel/select.c: select_wait_on_cond", "kernel/wobj.c: mobj_waiter_rearm_signaled"]}
{"id": "C85", "title": "Waiting for a mutex ends only with its ownership", "statement": "A task that waits in kmutex_lock goes on only when it owns the mutex, whatever it was doing before, so that two tasks never hold a mutex at the same time.", "quantifier": "every interleaving with timers and signals, any number of tasks and mutexes", "why_tests_cant": "It needs a timer that was armed for something else, long before.", "anchors": ["kernel/kmutex.c: kmutex_lock, kmutex_unlock", "kernel/timer.c: kernel_sleep, task_primary_timer_fire", "kernel/signal.c: signal_wakeup_task"]}
{"id": "C86", "title": "A wait never begins with a wait object in use", "statement": "Whatever way an earlier wait ended (signalled, timed out, interrupted), the next one begins with a free wait object; the kernel does not panic.", "quantifier": "every interleaving of waits, timeouts and signals", "why_tests_cant": "It needs a timeout and a signal between two runs of the same task.", "anchors": ["kernel/wobj.c: wait_obj_set, wait_obj_reset, prepare_to_wait_on", "kernel/poll.c: poll_wait_on_cond"]}
{"id": "C87", "title": "A signal interrupts a blocking call", "statement": "A task with a deliverable signal does not sleep in a blocking call (other than for a mutex); a signal sent to one that sleeps wakes it up.", "quantifier": "every interleaving of signals with tasks that are about to sleep", "why_tests_cant": "The signal must arrive between the last check and going to sleep.", "anchors": ["kernel/signal.c: signal_wakeup_task", "kernel/kcond.c: kcond_wait", "kernel/poll.c: poll_wait_on_cond"]}
{"id": "C88", "title": "A read from the terminal returns the lines typed", "statement": "In canonical mode each read returns the next complete line, as edited with the erase character, or the part of it that fits the buffer, the next reads the rest; lines are returned in the order they were typed, each once, none split or mixed with others.", "quantifier": "every sequence of keys, every interleaving of keys with the steps of a read, every buffer size, settings of the control characters", "why_tests_cant": "Keys arrive asynchronously, between any two instructions of a read; the number of lines is kept in a counter apart from the buffer.", "anchors": ["kernel/tty/tty_input.c: tty_read_int, tty_internal_read_single_char_from_kb, tty_keypress_handle_canon_mode", "kernel/tty/tty_ctrl_handlers.c.h: tty_ctrl_eof"]}
{"id": "C89", "title": "Raw reads from the terminal deliver each byte once, in order", "statement": "In raw mode a read returns the next bytes typed, at least VMIN of them; no byte is lost, repeated or reordered, whatever the sizes of the reads and the number of readers.", "quantifier": "every sequence of keys, interleaving, VMIN, buffer sizes, readers", "why_tests_cant": "Bytes pass through two buffers, one of which belongs to the handle.", "anchors": ["kernel/tty/tty_input.c: tty_read_int, tty_flush_read_buf, tty_internal_should_read_return"]}
{"id": "C90", "title": "A read for which a line is there returns, and typing always goes on", "statement": "If a complete line (in raw mode: VMIN bytes) has been typed, a read returns without waiting for anything else; a newline typed always completes the line; input is accepted as long as somebody reads.", "quantifier": "every reachable state of the terminal, lines of any length", "why_tests_cant": "Liveness, and buffers that are exactly full.", "anchors": ["kernel/tty/tty_input.c: tty_read_int, tty_inbuf_write_elem, tty_read_ready_int"]}
{"id": "C91", "title": "poll on a terminal tells whether a read would wait", "statement": "poll reports input on a terminal iff a read would return at once; a non-blocking read gives EAGAIN only if there is nothing to read; what is left of a line is delivered to one handle only.", "quantifier": "every history of keys, reads, dups and forks", "why_tests_cant": "It depends on what is left of earlier reads on the same handle.", "anchors": ["kernel/tty/tty_input.c: tty_read_ready, tty_read_int", "kernel/tty/tty.c: tty_on_dup_extra"]}
{"id": "C92", "title": "Control characters on the terminal", "statement": "The characters INTR and QUIT send their signal to the foreground group and discard unread input; EOF ends a line without being a part of it; KILL erases the line; no other characters have such effects.", "quantifier": "every sequence of keys, settings of the control characters, interleaving with a read", "why_tests_cant": "The characters can be set by programs, and the discarding races with reads.", "anchors": ["kernel/tty/tty_ctrl_handlers.c.h: tty_ctrl_intr, tty_ctrl_quit, tty_ctrl_eof", "kernel/tty/tty_input.c: tty_send_keyevent"]}
{"id": "C93", "title": "Dates and times convert into each other", "statement": "Converting a calendar date and time of day to seconds since 1970 gives the number of seconds of the Gregorian calendar; converting back gives the same date; the date read from the hardware clock is the clock's, in every mode of it; the time of a file on a FAT volume is the one recorded.", "quantifier": "every date of the years 0 to 65535, every mode of the hardware clock, every recorded file time", "why_tests_cant": "The arithmetic has special cases every 4, 100 and 400 years and around years that are not tested.", "anchors": ["common/3rd_party/datetime.c: timestamp_to_datetime, datetime_to_timestamp, __year_to_secs, __month_to_secs", "kernel/arch/generic_x86/rtc.c: hw_read_clock_cmos, bcd_to_dec", "kernel/fs/fat32.c: fat_datetime_to_regular_datetime"]}
{"id": "C94", "title": "Sleeps and timeouts last as long as asked", "statement": "A sleep that is not interrupted lasts at least the requested time by the system clock; the remaining time reported on interruption makes up the request and is not larger than it; timeouts of poll and select are not shortened; invalid times are rejected.", "quantifier": "every request, tick length, point of interruption and state of the clock", "why_tests_cant": "Rounding and overflow depend on all of sec, nsec and the tick length.", "anchors": ["kernel/datetime.c: timespec_to_ticks, ticks_to_timespec", "kernel/syscalls.c: do_nanosleep", "kernel/poll.c: sys_poll", "kernel/select.c: sys_select"]}
{"id": "C95", "title": "The clock is accurate and never goes back", "statement": "After any number of timer interrupts the clock shows the time those take by the timer's frequency, without accumulating rounding errors; whatever corrections are applied it never goes back; seconds and nanoseconds read are well formed.", "quantifier": "every number of ticks, timer frequency, history of ticks and corrections", "why_tests_cant": "Rounding errors show after days only.", "anchors": ["kernel/timer.c: timer_irq_handler", "kernel/arch/generic_x86/pit.c: hw_timer_setup", "kernel/datetime.c: real_time_get_timespec"]}
{"id": "C96", "title": "Corrections of the clock converge", "statement": "When the clock is found to differ from the hardware clock, it is sped up or slowed down by at most a tenth until the difference is made up, and no measurement of the difference makes it run away or brings the system down.", "quantifier": "every history of ticks and hardware clock readings", "why_tests_cant": "It needs clocks that drift, suspended machines and clocks that are set back.", "anchors": ["kernel/datetime.c: clock_apply_drift, clock_nudge_tick_duration, clock_drift_adj", "kernel/timer.c: timer_irq_handler", "kernel/arch/generic_x86/rtc.c: rtc_wait_for_second_edge"]}
{"id": "C97", "title": "clock_getres gives the resolution", "statement": "clock_getres gives the resolution of the clock, whichever of the system calls for it is used.", "quantifier": "every clock, time and system call variant", "why_tests_cant": "Each variant of the call is a separate path.", "anchors": ["kernel/datetime.c: do_clock_getres, sys_clock_getres, sys_clock_getres_time32"]}
{"id": "C98", "title": "Copies between user and kernel memory stay on their side", "statement": "A system call that is given a bad pointer fails; it never reads kernel memory as if it were the caller's, never writes kernel memory on the caller's behalf, and never writes behind the kernel's own buffer, whatever the pointers, strings and arrays, and whatever other threads do to them meanwhile.", "quantifier": "every pointer, size, memory content and set of mapped pages", "why_tests_cant": "The boundaries are at the end of the address space and of pages; a test shows only some pointers.", "anchors": ["kernel/user.c: copy_from_user, copy_to_user, copy_str_from_user, copy_str_array_from_user, duplicate_user_path", "include/tilck/kernel/user.h: user_out_of_range", "kernel/arch/i386/user_copy.S: arch_user_copy"]}
{"id": "C99", "title": "A program gets the arguments and environment it was given", "statement": "A program started with execve finds on its stack the count, the pointers and the strings of exactly the arguments and environment variables given to execve, properly terminated and aligned, or execve fails because they do not fit.", "quantifier": "every list of arguments and environment, every placement in memory", "why_tests_cant": "Sizes, alignment and the place of each string vary with every call.", "anchors": ["kernel/user.c: copy_str_array_from_user, duplicate_user_argv, push_args_on_user_stack", "kernel/execve.c: execve_get_args"]}
{"id": "C100", "title": "Scripts run their interpreter with the right arguments", "statement": "Executing a file that begins with #! runs the interpreter named there with its own path, the optional argument, the path of the script and the script's arguments; interpreters that are scripts are followed a bounded number of times, then ELOOP is returned; whatever the file contains, the kernel's buffers are not left.", "quantifier": "every file content, list of arguments and chain of scripts", "why_tests_cant": "The first line of a file is arbitrary input of up to 128 bytes.", "anchors": ["kernel/execve.c: execve_handle_script, execve_load_elf, do_execve_int, do_execve"]}
{"id": "C101", "title": "The command line of a process is its arguments", "statement": "The command line the kernel shows for a process is its arguments separated by blanks, or, if they are too long, their beginning followed by three dots; nothing outside the buffer is written.", "quantifier": "every list of arguments", "why_tests_cant": "The boundary cases depend on where in an argument or blank the buffer ends.", "anchors": ["kernel/execve.c: save_cmdline"]}
{"id": "C102", "title": "Reads and writes report exactly what was transferred", "statement": "read, write, readv and writev return the number of bytes transferred between the file and the caller's buffers, in order; the file gets exactly the bytes of the buffers, the buffers exactly the bytes of the file and are untouched elsewhere; an error is returned only if nothing was transferred.", "quantifier": "every file behaviour, every set of buffers and sizes, every memory", "why_tests_cant": "The results depend on how the file answers each part of the transfer and on where the buffers lie.", "anchors": ["kernel/fs/fs_syscalls.c: sys_read, sys_write, sys_readv, sys_writev", "kernel/vfs/vfs.c: vfs_readv, vfs_writev", "kernel/fs/ramfs/rw_ops.c.h: ramfs_readv_nolock, ramfs_writev_nolock"]}
{"id": "C103", "title": "Counts and sizes given to system calls are checked", "statement": "A system call that is given a count or a size refuses the values it cannot handle; for the others it works on exactly the caller's data, and never reads or writes kernel memory outside its buffers, for any 32-bit value.", "quantifier": "every count, size and content of arrays", "why_tests_cant": "The dangerous values are those whose product wraps around.", "anchors": ["kernel/fs/fs_syscalls.c: sys_readv, sys_writev, iov_len_overflow", "kernel/poll.c: sys_poll", "kernel/signal.c: sys_rt_sigprocmask, sys_rt_sigpending"]}
{"id": "C104", "title": "Whatever is written to the console, the kernel's memory stays intact", "statement": "Any sequence of characters and control functions written to a video terminal of any size touches only the terminal's own buffers, and leaves the cursor and the scrolling region on the screen.", "quantifier": "every screen size, every sequence of characters and control functions with any arguments", "why_tests_cant": "The dangerous cases are combinations of region, cursor, argument and earlier tabs.", "anchors": ["modules/console/video_term.c: term_internal_write_char2, term_internal_non_buf_scroll_up, term_internal_non_buf_scroll_down, term_internal_incr_row, term_internal_write_tab, term_internal_write_backspace", "modules/console/term_actions.c.h"]}
{"id": "C105", "title": "The console's control functions do what they say", "statement": "Printing, line feeds, cursor movement, erasing in line and display, scrolling, inserting and deleting of lines and characters and scrolling regions change the picture and the cursor as documented for such terminals, and change nothing else.", "quantifier": "every screen size, state, and sequence of control functions", "why_tests_cant": "The effect depends on the whole state: region, cursor, ring position, screen in use.", "anchors": ["modules/console/video_term.c", "modules/console/term_actions.c.h"]}
{"id": "C106", "title": "The display shows the terminal's text", "statement": "Unless the terminal's output is paused, after every request the display shows exactly the lines the user is looking at; after pausing and restarting it shows them again.", "quantifier": "every sequence of requests", "why_tests_cant": "Each operation updates text and display separately; they may drift apart after any combination.", "anchors": ["modules/console/video_term.c: term_redraw2, term_internal_incr_row", "modules/console/term_actions.c.h: term_action_pause_output, term_action_restart_output"]}
{"id": "C107", "title": "Scrolling back shows the lines that left the screen", "statement": "Scrolling back by k lines shows the last k lines that left the top of the screen, in order and unchanged, as far as they are remembered; scrolling forward and any output lead back to the bottom.", "quantifier": "every history of output and scrolling", "why_tests_cant": "The lines live in a ring that wraps around; only long histories reach the wrapping.", "anchors": ["modules/console/video_term.c: ts_set_scroll, term_int_scroll_up, term_int_scroll_down"]}
{"id": "C108", "title": "Leaving the alternate screen restores the main one", "statement": "A program that switches to the alternate screen, does anything there, and switches back finds the main screen's text and cursor as they were.", "quantifier": "every state and every sequence of control functions in between", "why_tests_cant": "What happens in between is arbitrary.", "anchors": ["modules/console/term_actions.c.h: term_action_use_alt_buffer"]}
{"id": "C109", "title": "The erase key takes back what was typed", "statement": "Characters typed in a line, tabs included, followed by as many presses of the erase key, leave the cursor where it was and the text before it and elsewhere unchanged.", "quantifier": "every state of the line and every sequence of characters", "why_tests_cant": "The width of a tab depends on where it was typed and is remembered in a separate map.", "anchors": ["modules/console/video_term.c: term_internal_write_tab, term_internal_write_backspace, term_internal_delete_last_word"]}
{"id": "C110", "title": "Writing to the console is memory safe", "statement": "Whatever bytes are written to the console, in whatever pieces, the kernel writes only inside the arrays that hold the control sequence being read and its parameters.", "quantifier": "every sequence of bytes, every state of the console before it", "why_tests_cant": "Control sequences can have any number of parameters of any length; tests write well-formed ones.", "anchors": ["modules/console/console.c: tty_filter_end_csi_seq, tty_state_esc2_csi", "modules/console/console_int.h: struct twfilter_ctx"]}
{"id": "C111", "title": "Control sequences are understood", "statement": "A control sequence written to the console does exactly what its control function means (cursor movement, erasing, inserting, scrolling, regions, saving the position), for the values of its parameters, with omitted parameters and zero meaning one, whatever was written before; asked for the position of the cursor, the console answers with it.", "quantifier": "every control function, every parameter values and their spellings, every state of the console", "why_tests_cant": "Parameters range over all numbers and several of them are squeezed into narrower fields on the way.", "anchors": ["modules/console/console.c: tty_filter_end_csi_seq, tty_csi_n_handler, tty_move_cursor_begin_nth_row", "modules/console/video_term_int.h"]}
{"id": "C112", "title": "The division of a text into writes does not matter", "statement": "A text written to the console shows the same, with the same colours, however it is divided into writes, also when control sequences are cut in the middle.", "quantifier": "every text, every division of it", "why_tests_cant": "Where buffers of programs end depends on timing and sizes.", "anchors": ["modules/console/term_actions.c.h: term_action_write", "kernel/tty/tty.c: tty_write_int", "modules/console/console.c: tty_pre_filter"]}
{"id": "C113", "title": "Colours are those asked for", "statement": "Text is shown in the colours, bold and reverse selected by the last graphic renditions, for every list of parameters; parameters the console does not know change nothing; a reset brings back white on black.", "quantifier": "every sequence of graphic renditions and texts", "why_tests_cant": "The attributes interact: bold changes the shade of the foreground, reverse exchanges the colours, each can come before or after the colours.", "anchors": ["modules/console/console.c: tty_csi_m_handler_param, tty_csi_m_handler, tty_state_esc1", "modules/console/tables.c: fg_csi_to_vga"]}
{"id": "C114", "title": "Unknown sequences are skipped", "statement": "Control and escape sequences the console does not know do nothing, and the text after them is shown completely.", "quantifier": "every sequence and every text after it", "why_tests_cant": "Programs made for other terminals send many sequences the console does not implement.", "anchors": ["modules/console/console.c: tty_state_esc1, tty_state_esc2_unknown, tty_csi_pvt_ext_handler, tty_filter_end_csi_seq", "modules/console/console_def_state.c.h"]}
{"id": "C115", "title": "What tasks write to a terminal is executed once, in order, one at a time", "statement": "However many tasks write to one terminal at the same time, every write is executed exactly once, in the order in which the writes were accepted, each one completely before the next one begins, and none stays in the queue with nobody to execute it.", "quantifier": "every number of tasks and every interleaving of their steps, with kernel messages at any point", "why_tests_cant": "The queue, the lock and preemption interact in schedules no test can force.", "anchors": ["include/tilck/kernel/term_aux.h: term_execute_or_enqueue_action_template, term_exec_everything", "kernel/tty/term_aux.c: term_handle_full_ringbuf"]}
{"id": "C116", "title": "The text shown is the text written", "statement": "What a terminal shows for a write is what the buffer held when write was called, whatever the program does with the buffer after write has returned.", "quantifier": "every interleaving of writers and every later use of their buffers", "why_tests_cant": "It needs another task preempted between queueing and executing its own request.", "anchors": ["modules/console/term_action_wrappers.c.h: vterm_write", "modules/serial/serial_term.c: sterm_write", "kernel/tty/tty_input.c: tty_keypress_echo", "kernel/tty/tty.c: tty_write_int"]}
{"id": "C117", "title": "Writing to a terminal never blocks for ever", "statement": "Tasks writing to a terminal never block each other, or themselves, for ever, whatever they write.", "quantifier": "every interleaving and every text", "why_tests_cant": "A deadlock needs a certain text in a certain mode of the terminal, or a certain schedule.", "anchors": ["include/tilck/kernel/term_aux.h: term_execute_or_enqueue_action_template", "modules/console/console.c: tty_csi_n_handler, tty_csi_c_handler", "kernel/tty/tty_input.c: tty_send_keyevent, tty_keypress_echo", "kernel/kmutex.c: kmutex_lock"]}
{"id": "C118", "title": "Formatting never leaves the buffer", "statement": "For every format, arguments and buffer size the formatted output stays within the buffer and ends with a NUL inside it; the format is read only up to its end; the call ends.", "quantifier": "every format, every argument, every size of the buffer", "why_tests_cant": "Formats, widths and sizes multiply; the errors are at exact coincidences of the text's length and the buffer's size.", "anchors": ["kernel/snprintk.c: vsnprintk, process_seq, write_str, write_0x_prefix, sn_write_unknown_seq, buf_append"]}
{"id": "C119", "title": "Formatted text is what ISO C prescribes", "statement": "The text produced is the one ISO C prescribes for the flags, width, precision, length modifier and conversion of every directive, cut to the buffer; the result is the text's length, or the size of the buffer if it is longer.", "quantifier": "every format made of the supported directives, every value of the arguments, every size", "why_tests_cant": "Flags, widths, precisions, lengths and values combine without bound.", "anchors": ["kernel/snprintk.c: vsnprintk, process_seq, write_str", "common/string_util.c: itoa"]}
{"id": "C120", "title": "poll reports exactly what holds", "statement": "poll returns the number of entries with something to report; each entry's result has exactly the events asked for that hold, plus errors, hang-ups and descriptors that are not open; negative descriptors are ignored; nothing else in the caller's array changes; it returns 0 only when its time is over.", "quantifier": "every array of descriptors, every timeout, every order in which files become ready during the call", "why_tests_cant": "Combinations of events, kinds of files and moments at which they become ready are unbounded.", "anchors": ["kernel/poll.c: sys_poll, poll_count_ready_fds, poll_count_conds, poll_wait_on_cond", "kernel/vfs/vfs_op_ready.c.h"]}
{"id": "C121", "title": "select reports exactly what holds", "statement": "select leaves in each set exactly the descriptors that are ready, and returns their number; a descriptor that is not open is refused; it returns 0 only when its time is over, and waits as long as asked.", "quantifier": "every three sets, every timeout, every order in which files become ready during the call", "why_tests_cant": "Other processes change what is ready between the moment the call sees it and the moment it reports it.", "anchors": ["kernel/select.c: sys_select, select_set_ready, count_ready_streams, select_wait_on_cond, select_read_user_tv, select_write_user_sets", "kernel/vfs/vfs_op_ready.c.h"]}
{"id": "C122", "title": "Kernel messages are shown whole and in order", "statement": "However tasks and nested interrupt handlers print messages at the same time, what is shown is the messages, each one whole and once, in order, and nothing else.", "quantifier": "every number of tasks, every nesting of interrupts, every point at which they come, every message", "why_tests_cant": "The errors need preemption or an interrupt between two given instructions.", "anchors": ["kernel/printk.c: __tilck_vprintk, printk_append_to_ringbuf, __printk_flush_ringbuf, try_set_first_printk_on_stack"]}
{"id": "C123", "title": "No kernel message is forgotten", "statement": "Once the calls which print messages have returned, all messages have been shown; the calls always return.", "quantifier": "every number of tasks, every nesting of interrupts, every point at which they come", "why_tests_cant": "A message can only be forgotten in rare schedules.", "anchors": ["kernel/printk.c: __tilck_vprintk, __printk_flush_ringbuf, try_set_first_printk_on_stack"]}
{"id": "C124", "title": "A process group lies in one session", "statement": "Whatever processes do, all processes of one process group are in the same session; a process changes its session only by calling setsid, its group only by setsid or a setpgid about it.", "quantifier": "every history of forks, exits, setsid and setpgid calls by every process", "why_tests_cant": "The states of the process table are unbounded, and ids are reused.", "anchors": ["kernel/process.c: sys_setsid, sys_setpgid", "kernel/sched.c: sched_count_proc_in_group, sched_get_session_of_group"]}
{"id": "C125", "title": "setsid, setpgid, getsid and getpgid do what POSIX says", "statement": "setpgid succeeds exactly for the caller or a child that has not called execve, in the caller's session, not a session leader, and for a group that exists in the session or is named after the process; it moves that process and nothing else. setsid succeeds exactly if no group is named after the caller. getsid and getpgid return the session and group of the process asked for, or ESRCH.", "quantifier": "every reachable process table, every caller and argument", "why_tests_cant": "Every combination of family, session, group and execve state matters.", "anchors": ["kernel/process.c: sys_setsid, sys_getsid, sys_setpgid, sys_getpgid, sys_getpgrp"]}
{"id": "C126", "title": "kill reaches exactly the processes it names", "statement": "A signal sent to a process, to a group, to all processes, or typed at a terminal, is posted exactly once to every living process meant (not to init, unless it sends it or is named) and to nobody else; the call fails exactly if there is no such process. Signal 0 is never posted.", "quantifier": "every reachable process table, every caller, id and signal", "why_tests_cant": "Process tables are unbounded; the caller and the group leader are handled apart.", "anchors": ["kernel/sched.c: send_signal_to_group", "kernel/signal.c: sys_kill, kill_each_task, send_signal2", "kernel/tty/tty_ctrl_handlers.c.h: tty_ctrl_intr, tty_ctrl_quit"]}
{"id": "C127", "title": "Job control: a terminal serves one session and its foreground group", "statement": "A terminal is the controlling terminal of at most one session; its foreground group is set only by a process of that session, to a group of the session, and can be read back; only processes of the foreground group read from it, others are stopped with SIGTTIN.", "quantifier": "every history of calls by every process", "why_tests_cant": "Histories are unbounded.", "anchors": ["kernel/tty/tty_ioctl.c: tty_ioctl_TIOCNOTTY, tty_ioctl_TIOCSCTTY, tty_ioctl_TIOCGPGRP, tty_ioctl_TIOCSPGRP", "kernel/tty/tty_input.c: tty_read_int"]}
{"id": "C128", "title": "getcwd returns the path of the current directory", "statement": "getcwd returns an absolute path, without `.`, `..` and symbolic links, that denotes the directory from which relative paths are resolved.", "quantifier": "every history of chdir calls with every path, and of changes to the tree of files by others", "why_tests_cant": "Histories, trees and paths are unbounded; the text is kept apart from the directory and updated by each call.", "anchors": ["kernel/cwd.c: sys_chdir, sys_getcwd, set_process_str_cwd", "kernel/fs/vfs_util.c: compute_abs_path", "kernel/vfs/vfs_resolve.c.h: vfs_resolve"]}
{"id": "C129", "title": "chdir goes where the path leads, or nowhere", "statement": "chdir makes the directory that the path denotes the current one; if the path denotes nothing, or something else than a directory, or is wrong, the call fails with the right error and changes nothing.", "quantifier": "every tree, every current directory and every path", "why_tests_cant": "Trees and paths are unbounded.", "anchors": ["kernel/cwd.c: sys_chdir", "kernel/vfs/vfs_resolve.c.h: vfs_resolve"]}
{"id": "C130", "title": "getcwd stays inside its buffer and uses all of it", "statement": "getcwd fails with EINVAL for a buffer of size 0 and with ERANGE exactly if the path and its zero byte do not fit; otherwise it stores the path inside the buffer and returns its length with the zero byte.", "quantifier": "every reachable current directory and every buffer size", "why_tests_cant": "Sizes and paths are unbounded.", "anchors": ["kernel/cwd.c: getcwd_nolock"]}
{"id": "C131", "title": "No process touches the kernel's segments", "statement": "Whatever sequence of set_thread_area, fork, execve and exit processes make, the kernel's segment descriptors stay as they were at boot, and every other descriptor is empty or an ordinary ring-3 segment.", "quantifier": "every history of calls by every process, with every descriptor", "why_tests_cant": "Histories are unbounded, and a single wrong index or field would give ring 0 to a process.", "anchors": ["kernel/arch/i386/gdt.c: sys_set_thread_area, gdt_add_entry, gdt_set_entry, gdt_expand", "kernel/arch/i386/double_fault.c"]}
{"id": "C132", "title": "set_thread_area sets what was asked for, in an entry the caller may use", "statement": "A successful set_thread_area makes the entry named, or a free one, into the ring-3 segment described; the process keeps its other entries, and nothing else changes. It fails, changing nothing, for entries in use that the process has not got; a process with less than three entries gets a new one while there is memory.", "quantifier": "every reachable table, every process and every descriptor", "why_tests_cant": "The table grows with the number of processes; histories are unbounded.", "anchors": ["kernel/arch/i386/gdt.c: sys_set_thread_area, find_available_slot_in_user_task, gdt_expand"]}
{"id": "C133", "title": "Segments live exactly as long as some process has them", "statement": "fork, execve and the end of a process leave the entries of other processes as they are; an entry that no process has any more is free again; no sequence of calls stops the kernel.", "quantifier": "every history of calls by every process", "why_tests_cant": "Reference counts over unbounded histories.", "anchors": ["kernel/arch/i386/gdt.c: gdt_clear_entry, gdt_entry_inc_ref_count", "kernel/arch/i386/process32.c: arch_specific_new_proc_setup, arch_specific_free_proc"]}
{"id": "C134", "title": "A process cannot change the segments of another", "statement": "No two processes have the same entry, and set_thread_area of one process leaves the entries of the others as they are.", "quantifier": "every history of calls by every process", "why_tests_cant": "Histories are unbounded.", "anchors": ["kernel/arch/i386/gdt.c: sys_set_thread_area", "kernel/arch/i386/process32.c: arch_specific_new_proc_setup"]}
{"id": "C135", "title": "Mappings of ramfs files show what read and write show", "statement": "A load from a mapped page gives the byte that read gives for that position of the file; a store is seen by read at that position and nowhere else; a write through a handle is seen in all mappings.", "quantifier": "every history of writes, truncations, mmap, munmap, loads and stores, with any number of mappings", "why_tests_cant": "Histories, sizes and the number of mappings are unbounded.", "anchors": ["kernel/fs/ramfs/mmap.c.h: ramfs_mmap, ramfs_handle_fault_int", "kernel/fs/ramfs/rw_ops.c.h: ramfs_read_nolock, ramfs_write_nolock, ramfs_unmap_past_eof_mappings", "kernel/mm/process_mm.c: sys_mmap_pgoff"]}
{"id": "C136", "title": "A mapping of a file gives access to the file's memory only", "statement": "Loads and stores beyond the last page of the file fail; no mapped page is a frame that the file has given back to the kernel, or memory the whole system uses.", "quantifier": "every history of writes, truncations, mmap, munmap, loads and stores", "why_tests_cant": "Histories are unbounded; one stale page table entry is write access to kernel memory.", "anchors": ["kernel/fs/ramfs/mmap.c.h: ramfs_handle_fault_int", "kernel/fs/ramfs/rw_ops.c.h: ramfs_inode_truncate, ramfs_unmap_past_eof_mappings"]}
{"id": "C137", "title": "Mappings have the rights asked for and no more than the handle", "statement": "A writable mapping needs a handle opened for writing; stores to a mapping without PROT_WRITE fail and change nothing; loads need a handle opened for reading.", "quantifier": "every history and every combination of rights", "why_tests_cant": "Rights are decided at mmap and enforced at any later access.", "anchors": ["kernel/mm/process_mm.c: sys_mmap_pgoff", "kernel/fs/ramfs/mmap.c.h: ramfs_mmap, ramfs_handle_fault_int", "kernel/arch/i386/paging.c: handle_potential_cow, handle_page_fault_int"]}
{"id": "C138", "title": "A program starts with the memory its file describes", "statement": "After a successful execve every address of every segment of the ELF file holds the byte of the file, or zero behind the part stored in the file; it can be written exactly if the segment says so; the stack is zero; nothing else is mapped; the heap begins behind the last segment.", "quantifier": "every executable file, every state of memory, and every failure of an allocation", "why_tests_cant": "Files have any number and size of segments at any address.", "anchors": ["kernel/elf.c: load_elf_program, load_segment_by_copy, load_segment_by_mmap, load_elf_headers"]}
{"id": "C139", "title": "No file, however it is made, makes execve harm the kernel", "statement": "Loading any file leaves the kernel's memory and page tables, other processes and the file itself as they are, and comes back.", "quantifier": "every content of the file", "why_tests_cant": "The file is chosen by the user, byte by byte.", "anchors": ["kernel/elf.c: load_segment_by_copy, load_segment_by_mmap", "kernel/arch/i386/paging.c: get_mapping, map_page_int", "kernel/fs/ramfs/mmap.c.h: ramfs_mmap"]}
{"id": "C140", "title": "execve accepts only valid executables", "statement": "A file that is not a static 32-bit ELF executable of this machine with complete, aligned segments is refused with an error.", "quantifier": "every content of the file", "why_tests_cant": "The file is chosen by the user, byte by byte.", "anchors": ["kernel/elf.c: load_elf_headers, check_segment_alignment, is_dyn_exec"]}
{"id": "C141", "title": "A program file is locked while the program runs, and only then", "statement": "A successful execve holds one lock on the file; a failed one holds none.", "quantifier": "every file and every failure", "why_tests_cant": "Depends on every way to fail.", "anchors": ["kernel/elf.c: load_elf_program", "kernel/fs/flock.c: acquire_subsys_flock_h"]}
{"id": "C142", "title": "The heap of a process is always usable memory", "statement": "At every moment the addresses from the initial program break to the program break of a process are private memory of that process which it can read and write, and calling brk never makes the kernel release or touch memory it does not own.", "quantifier": "all executions of any number of processes: exec, fork, vfork, exit, mmap, munmap, page faults, loads, stores, brk in any order, with any outcome of the memory allocator", "why_tests_cant": "the invariant relates per-process numbers to page tables over arbitrary histories, including forks and allocation failures", "anchors": ["kernel/mm/process_mm.c: sys_brk", "kernel/mm/process_mm.c: brk_syscall_int", "kernel/fork.c: do_fork"]}
{"id": "C143", "title": "brk moves the break and adds or removes exactly the memory between", "statement": "brk with an acceptable lower address removes exactly the pages between that address and the old break; with an acceptable higher address it adds exactly the pages from the old break on, and reaches the address if memory is available. No other page of any process changes.", "quantifier": "all reachable states, all addresses, all allocator behaviours", "why_tests_cant": "tests sample a few sizes and never run with other processes sharing frames or with failing allocations at each step", "anchors": ["kernel/mm/process_mm.c: sys_brk", "kernel/mm/process_mm.c: brk_syscall_int"]}
{"id": "C144", "title": "Memory added to the heap contains nothing of others", "statement": "The memory that brk adds to a process contains zeros: nothing another process or the kernel has left there.", "quantifier": "all reachable states and histories of the page frames", "why_tests_cant": "whether a recycled frame still holds data depends on the history of the machine", "anchors": ["kernel/mm/process_mm.c: brk_syscall_int"]}
{"id": "C145", "title": "A refused or failing brk changes nothing", "statement": "brk with an address that cannot be the break, or that cannot be reached, returns the old break and leaves the memory of all processes and the free memory as they were.", "quantifier": "all reachable states, all addresses, all points at which the allocator may fail", "why_tests_cant": "needs every failure point of the allocation loop", "anchors": ["kernel/mm/process_mm.c: sys_brk", "kernel/mm/process_mm.c: brk_syscall_int"]}
{"id": "C146", "title": "Descriptors made by dup and fork share the file offset", "statement": "After dup, dup2 or fork, the descriptors denote the same open file: reading, writing or seeking through one moves the offset of the other, so that processes that share a descriptor read and write one after the other.", "quantifier": "every history of open, close, dup, fork, read, write, lseek, truncate by any number of processes", "why_tests_cant": "the offset seen through one descriptor depends on the whole history of all its duplicates", "anchors": ["kernel/vfs/vfs.c: vfs_dup", "kernel/fork.c: fork_dup_all_handles", "kernel/fs/ramfs/rw_ops.c.h: ramfs_read_nolock, ramfs_write_nolock, ramfs_seek_nolock"]}
{"id": "C147", "title": "open does what its flags and the permissions say, or fails with a true reason and no effect", "statement": "open succeeds exactly when none of the error conditions of POSIX holds (and memory is available); it then makes the file, empties it or leaves it as the flags say, and the descriptor starts at offset 0. When it fails, the error returned is one whose condition holds, and neither names nor files nor descriptors change. It never stops the kernel.", "quantifier": "every combination of flags, permissions, kinds of files and allocator outcomes, in every reachable state", "why_tests_cant": "flags, permissions, file types, locks and failures multiply; tests try a few combinations", "anchors": ["kernel/vfs/vfs.c: vfs_open_impl", "kernel/fs/ramfs/open.c.h: ramfs_open, ramfs_open_int, ramfs_open_existing_checks", "kernel/fs/flock.c: acquire_subsys_flock"]}
{"id": "C148", "title": "A descriptor allows what it was opened for", "statement": "Reading needs a descriptor opened for reading; writing and ftruncate need one opened for writing, and it suffices, whatever the permissions of the file are by then.", "quantifier": "every history, every descriptor", "why_tests_cant": "needs every way to obtain a descriptor and every call that uses one", "anchors": ["kernel/vfs/vfs.c: vfs_read, vfs_write, vfs_ftruncate", "kernel/fs/ramfs/rw_ops.c.h: ramfs_inode_truncate_safe"]}
{"id": "C149", "title": "Files being executed are not written, and files nobody writes can be executed", "statement": "While a program runs no call changes the contents of its file; execve fails with ETXTBSY only if somebody has the file open for writing.", "quantifier": "every history of opens, closes, duplications, truncations, program starts and ends, with any allocator outcomes", "why_tests_cant": "depends on all descriptors of all processes and on all paths that fail half-way", "anchors": ["kernel/fs/ramfs/open.c.h: ramfs_open", "kernel/fs/flock.c: acquire_subsys_flock", "kernel/vfs/vfs.c: vfs_truncate_impl, vfs_ftruncate", "kernel/elf.c: load_elf_program"]}
{"id": "C150", "title": "truncate does not touch directories", "statement": "truncate and ftruncate of a directory fail and change nothing; an empty directory that is not in use can always be removed.", "quantifier": "every history of mkdir, open, truncate, ftruncate, close, rmdir", "why_tests_cant": "the damage shows only when another call is made later", "anchors": ["kernel/fs/ramfs/rw_ops.c.h: ramfs_inode_truncate_safe", "kernel/fs/ramfs/blocks.c.h: ramfs_inode_extend", "kernel/fs/ramfs/mkdir.c.h: ramfs_rmdir"]}
{"id": "C151", "title": "The checksum is CRC-32", "statement": "crc32 of any sequence of bytes, computed at once or in pieces, is the CRC-32 of IEEE 802.3 of it; two sequences that differ only within four consecutive bytes have different checksums.", "quantifier": "every sequence of bytes, every place and kind of damage within four bytes", "why_tests_cant": "tests compare the checksums of a few files; a wrong table entry shows only for some bytes", "anchors": ["common/3rd_party/crc32.c: crc32, crc32_tab", "userapps/filedump.c: main"]}
{"id": "C152", "title": "Base64 encoding is correct, reversible and stays in its buffer", "statement": "The encoder gives the text of RFC 4648 in lines of 72 characters for every input below 2^30 bytes and refuses longer ones; decoding gives the input back, whatever line breaks are put in; texts that are not an encoding are refused. Neither writes outside of the buffer it allocates.", "quantifier": "every sequence of bytes, every text", "why_tests_cant": "the buffer size is a formula with divisions and 32-bit overflow; tests cannot try all lengths", "anchors": ["common/3rd_party/base64.c: base64_encode, base64_decode", "userapps/devshell/cov.c"]}
{"id": "C153", "title": "The kernel's command line means what it says", "statement": "Words are separated by spaces and cut at 255 characters; flags, their optional truth values, -ttys, -selftest and the command after -cmd or -- have the documented effect, in every order and number; the program started first is the given command with exactly its words; the number of consoles is between 1 and 9, or 1 with -sercon. A command of more than 15 words is refused by stopping.", "quantifier": "every command line shorter than 4095 characters, every default configuration, every symbol table", "why_tests_cant": "the number of combinations of options is unlimited; the unit tests check only the splitting into words", "anchors": ["kernel/cmdline.c: parse_kernel_cmdline, use_kernel_arg, do_args_validation", "include/tilck/common/cmdline_opts.h"]}
{"id": "C154", "title": "No command line corrupts the kernel", "statement": "Parsing any command line writes only inside the buffers meant for it and ends, normally or with a panic.", "quantifier": "every command line of any length", "why_tests_cant": "it must hold for all lengths and numbers of words", "anchors": ["kernel/cmdline.c: parse_kernel_cmdline, handle_cmdline_arg, kopt_handle_wordstr, handle_selftest_kopt"]}
{"id": "C155", "title": "Words the kernel does not know change nothing", "statement": "A word of the command line that is no option and no argument of one has no effect.", "quantifier": "every command line", "why_tests_cant": "the effect depends on what stood before in the line", "anchors": ["kernel/cmdline.c: use_kernel_arg"]}
{"id": "C156", "title": "The keyboard driver knows which keys are held", "statement": "After any sequence of key presses and releases the driver reports as pressed exactly the keys that are held, whatever fake shift codes and Pause sequences the keyboard sends in between; and it reboots the machine exactly when Del is pressed with the left Ctrl and Alt keys held.", "quantifier": "every history of actions on a 104-key keyboard, with any repetition and any state of the terminals", "why_tests_cant": "the decoder has state, and histories are unlimited", "anchors": ["modules/kb8042/generic_x86/kb.c: kb_process_scancode, key_int_handler, kb_is_pressed, handle_special_keys_pressed"]}
{"id": "C157", "title": "Typing gives what is on the key caps", "statement": "Each key press gives the terminal the character on the key, with Shift, Caps Lock, Num Lock, Ctrl (control characters) and Alt (a preceding ESC); keys without a character give their escape sequence with the modifiers; Shift+PageUp/PageDown scroll; Alt+Fn changes the terminal. Nothing else happens.", "quantifier": "every history of key presses and releases, all combinations of modifiers and locks, every state of the terminals at each step", "why_tests_cant": "the effect of a key depends on the whole history of modifiers and locks", "anchors": ["modules/kb8042/generic_x86/kb.c: translate_printable_key, handle_key_pressed", "modules/kb8042/generic_x86/kb_layouts.c.h", "modules/kb8042/generic_x86/kb_ansi_seq.c.h: kb_scancode_to_ansi_seq", "kernel/kb_input.c", "kernel/tty/tty_input.c: tty_keypress_handler, tty_keypress_handler_int"]}
{"id": "C158", "title": "Medium raw mode reports every key once", "statement": "In medium raw mode each press and each release of a key with a key code delivers exactly one byte, the Linux key code with bit 7 telling a release; keys without a code deliver nothing.", "quantifier": "every history of presses and releases", "why_tests_cant": "it is about histories: presses and releases must match", "anchors": ["modules/kb8042/generic_x86/kb.c: kb_translate_to_mediumraw", "kernel/tty/tty_input.c: tty_keypress_handler"]}
{"id": "C159", "title": "An escape sequence fits its buffer", "statement": "The escape sequence of a key, with its modifiers and its terminating NUL, fits into the buffer the terminal provides, and contains no NUL.", "quantifier": "every key number, all modifiers", "why_tests_cant": "it is about all keys and all modifiers", "anchors": ["modules/kb8042/generic_x86/kb_ansi_seq.c.h: kb_scancode_to_ansi_seq", "kernel/tty/tty_input.c: tty_handle_non_printable_key"]}
{"id": "C160", "title": "No scan code is lost, doubled or reordered", "statement": "Every byte the keyboard sends is processed exactly once and in order, however interrupts and the worker thread interleave; the buffer between them is never overrun.", "quantifier": "every interleaving of interrupts and steps of the bottom half, every sequence of bytes", "why_tests_cant": "interrupts come at any point", "anchors": ["modules/kb8042/generic_x86/kb.c: kb_irq_handler_read_scancodes, kb_irq_bottom_half"]}
{"id": "C161", "title": "The mount table is exact", "statement": "After any calls of mount by any number of tasks, path lookups find exactly the file systems whose mount succeeded, each at its directory; a directory carries at most one, a file system is mounted at most once; a call fails with EBUSY, EPERM or EMFILE exactly if the directory is taken, the file system is mounted, or 16 are mounted, and a failed call changes nothing that is seen.", "quantifier": "every interleaving of any number of mounts, every path and file system", "why_tests_cant": "two tasks may mount at the same time, between resolving the path and taking the lock", "anchors": ["kernel/vfs/vfs_mp.c.h: mp_add, mp_get_at_nolock, mp_get_retained_mp_of"]}
{"id": "C162", "title": "A mount covers its path", "statement": "After mounting file systems at paths, each path leads to what the list of mounts says: the latest mount whose path is a prefix, and the rest of the path inside it, or the root file system.", "quantifier": "every sequence of mounts, every path, every content of the file systems", "why_tests_cant": "mounts nest and hide each other in unlimited ways", "anchors": ["kernel/vfs/vfs_mp.c.h: mp_add", "kernel/vfs/vfs_resolve.c.h: __vfs_resolve_get_entry, __vfs_resolve"]}
{"id": "C163", "title": "Mounting keeps exactly the references it needs", "statement": "A mount point holds one reference to its directory, one to the file system it is in, and one to the mounted one; a failed mount holds none.", "quantifier": "every interleaving of any number of mounts, with any results", "why_tests_cant": "leaks show only when a file system is released later", "anchors": ["kernel/vfs/vfs_mp.c.h: mp_add"]}
{"id": "C164", "title": "Mounting keeps the directories a tree", "statement": "No two different paths lead to the same directory, so walking down the tree ends.", "quantifier": "every interleaving of any number of mounts, every pair of paths", "why_tests_cant": "it is about all paths, of any length", "anchors": ["kernel/vfs/vfs_mp.c.h: mp_add", "kernel/vfs/vfs_resolve.c.h"]}
{"id": "C165", "title": "Dot-dot leads back", "statement": "From a directory reached through a name, also when it is the root of a mounted file system, the path component \"..\" leads to the directory one came from.", "quantifier": "every interleaving of any number of mounts, every path", "why_tests_cant": "mount points may be nested to any depth", "anchors": ["kernel/vfs/vfs_resolve.c.h: vfs_handle_cross_fs_dotdot", "kernel/vfs/vfs_mp.c.h: mp_get_retained_mp_of"]}
{"id": "C166", "title": "Allocated blocks are usable", "statement": "Blocks of the kernel's allocator that are in use never overlap each other or the allocator's own data, are at least as large as requested, and small ones are aligned to their size; freeing any of them, with its requested size or without a size, in any order, never panics or corrupts a heap.", "quantifier": "every history of allocations and frees of any sizes, wherever the heaps place the blocks", "why_tests_cant": "errors depend on which heaps become full, empty, are created and destroyed", "anchors": ["kernel/kmalloc/kmalloc_small_heaps.c.h: small_heaps_kmalloc, small_heaps_kfree, alloc_new_small_heap, destroy_small_heap", "kernel/kmalloc/general_kmalloc.c.h: general_kmalloc, general_kfree"]}
{"id": "C167", "title": "Freed memory is given back", "statement": "At any time there is at most one small heap more than there are small blocks in use, and the main heaps hold nothing but the users' big blocks and two blocks for each small heap.", "quantifier": "every history of allocations and frees", "why_tests_cant": "leaks accumulate over long histories", "anchors": ["kernel/kmalloc/kmalloc_small_heaps.c.h: small_heaps_kfree, destroy_small_heap"]}
{"id": "C168", "title": "An allocation fails only without memory", "statement": "A small request returns NULL only if no small heap has a free aligned place for it and the main heaps cannot supply another small heap; a failed request changes nothing.", "quantifier": "every history of allocations and frees, every request", "why_tests_cant": "the list of available heaps is a shortcut that must never hide a heap", "anchors": ["kernel/kmalloc/kmalloc_small_heaps.c.h: small_heaps_kmalloc, add_in_avail_list, remove_from_avail_list"]}
{"id": "C169", "title": "A block may be freed with the size the allocator told", "statement": "general_kmalloc reports the actual size of the block; freeing the block with this size works.", "quantifier": "every history of allocations and frees, every size", "why_tests_cant": "only some sizes go wrong", "anchors": ["kernel/kmalloc/general_kmalloc.c.h: general_kmalloc, general_kfree"]}
{"id": "C170", "title": "A failed fork changes nothing", "statement": "If fork() or vfork() fails, the calling process and all kernel resources are as before the call.", "quantifier": "every process, every pattern of allocation failures during the call", "why_tests_cant": "each of a dozen allocations may fail, at every position of lists of any length", "anchors": ["kernel/fork.c: do_fork, fork_dup_all_handles", "kernel/process.c: allocate_new_process", "kernel/mm/process_mm_base.c: duplicate_mappings_info"]}
{"id": "C171", "title": "fork gives an independent copy", "statement": "After fork() the child has its own page directory, the same descriptors open with handles of its own, and the same mappings, each of the descriptor of the same number; nothing of the parent changes but its list of children, and one reference is taken to its executable and its current directory.", "quantifier": "every process, any number of descriptors and mappings", "why_tests_cant": "mappings and descriptors may refer to each other in any way", "anchors": ["kernel/fork.c: do_fork, fork_dup_all_handles", "kernel/process.c: allocate_new_process", "kernel/mm/process_mm_base.c: duplicate_mappings_info"]}
{"id": "C172", "title": "The end of a child gives back everything", "statement": "After fork() and the end of the child, kernel memory, the lists of mappings of files, the reference counts and the parent are as before.", "quantifier": "every process, any number of descriptors and mappings", "why_tests_cant": "leaks and double frees depend on the combination of mappings and handles", "anchors": ["kernel/exit.c: terminate_process", "kernel/process.c: free_common_task_allocs, free_task", "kernel/vfs/vfs.c: vfs_close", "kernel/mm/process_mm_base.c: remove_all_mappings_of_handle, remove_all_user_mappings"]}
{"id": "C173", "title": "vfork lends the address space", "statement": "A vforked child uses the parent's address space and mappings and has handles of its own; when it ends, the parent has everything it had before, including working file mappings.", "quantifier": "every process, any number of descriptors and mappings", "why_tests_cant": "shared structures must survive whichever way the child ends", "anchors": ["kernel/fork.c: do_fork, fork_dup_all_handles", "kernel/process.c: allocate_new_process, vforked_child_transfer_dispose_mi"]}
{"id": "C174", "title": "Linked lists hold what was inserted", "statement": "Following the pointers of a list forwards meets exactly the elements inserted and not removed, in the order of the insertions made at the head, at the tail, before or after elements; following them backwards meets the reverse; lists never share elements.", "quantifier": "every history of initialisations, insertions and removals on any number of lists, starting from any contents of the memory", "why_tests_cant": "pointer errors show only for some orders of operations and lengths", "anchors": ["include/tilck/kernel/list.h: list_init, list_add_after, list_add_before, list_add_head, list_add_tail, list_remove"]}
{"id": "C175", "title": "Queries on linked lists tell the truth", "statement": "list_is_empty tells whether the list has elements, and list_is_node_in_list whether the node is an element of any list, also for nodes that were removed and still hold old pointers.", "quantifier": "every history of initialisations, insertions and removals on any number of lists", "why_tests_cant": "removed nodes keep pointers to nodes that move on", "anchors": ["include/tilck/kernel/list.h: list_is_empty, list_is_node_in_list"]}
{"id": "C176", "title": "Loops over linked lists", "statement": "list_for_each visits every element exactly once in order and ends, even if its body removes the current element, moves it to another list or changes earlier elements; the same holds backwards for list_for_each_reverse, and for list_for_each_ro if the current element stays.", "quantifier": "every list and every body that leaves the elements still to visit alone", "why_tests_cant": "the loops prefetch the next element before the body runs", "anchors": ["include/tilck/kernel/list.h: list_for_each, list_for_each_ro, list_for_each_reverse"]}
{"id": "C177", "title": "Temporary kernel memory follows its task", "statement": "Blocks taken with task_temp_kernel_alloc are never given to two users, are live with the requested size until given back or until the task ends, and then are gone together with the bookkeeping; a failed request leaves nothing.", "quantifier": "every history of allocations, frees, forks and ends of any tasks, with any allocator outcomes", "why_tests_cant": "leaks and double frees depend on the order of calls and on failures", "anchors": ["kernel/process.c: task_temp_kernel_alloc, task_temp_kernel_free, allocate_new_process", "kernel/exit.c: task_free_all_kernel_allocs"]}
{"id": "C178", "title": "Exit callbacks run once, in order, and leave nothing", "statement": "When a task ends, the callbacks it registered and did not unregister are called once each, in the order of registration; unregister answers truthfully; afterwards no memory of them is left.", "quantifier": "every history of registrations, unregistrations, forks and ends of any tasks, with any allocator outcomes", "why_tests_cant": "it depends on whole histories", "anchors": ["kernel/exit.c: register_on_task_exit_cb, unregister_on_task_exit_cb, call_on_task_exit_callbacks"]}
{"id": "C179", "title": "The sound card has one owner", "statement": "From a successful acquire until the owner releases the card or ends, no other task can acquire or release it, and the end of other tasks does not free it; then it is free.", "quantifier": "every history of acquire, release, fork and exit of any tasks", "why_tests_cant": "the release at exit goes through callbacks that other calls add and remove", "anchors": ["modules/sb16/generic_x86/sb16.c: sb16_ioctl_acquire, sb16_ioctl_release, sb16_release_on_exit"]}
{"id": "C180", "title": "Creating a kernel thread succeeds or changes nothing", "statement": "kthread_create returns the tid of a new thread with its own stack and buffers, or an error, and then memory, threads and preemption are as before; when threads end all their memory is given back.", "quantifier": "every history of creations and ends, every pattern of allocation failures", "why_tests_cant": "each allocation may fail", "anchors": ["kernel/process.c: kthread_create2, allocate_new_thread, do_common_task_allocs, free_common_task_allocs, free_task"]}
{"id": "C181", "title": "The screen shows the line being typed", "statement": "In canonical mode with echo, after any keys the screen shows what was there before the line and after it exactly the line that will be read: control characters as ^X, erased characters gone, nothing else erased.", "quantifier": "every sequence of keys, every settings of the special characters, every text on the screen before", "why_tests_cant": "each key erases or draws a number of cells that depends on what was typed before", "anchors": ["kernel/tty/tty_input.c: tty_keypress_echo, tty_inbuf_drop_last_written_elem, tty_inbuf_write_elem, tty_send_keyevent", "kernel/tty/tty_ctrl_handlers.c.h"]}
{"id": "C182", "title": "Without ECHO nothing typed is shown", "statement": "If ECHO is off, no key writes anything to the terminal, except line ends with ECHONL in canonical mode; in graphics mode nothing is written at all.", "quantifier": "every sequence of keys, all other settings", "why_tests_cant": "a password must not be shown for any combination of settings and keys", "anchors": ["kernel/tty/tty_input.c: tty_keypress_echo", "kernel/tty/tty_ctrl_handlers.c.h"]}
{"id": "C183", "title": "Reading and writing /dev/fb0 touches only the framebuffer", "statement": "Whatever counts, positions, buffers and faults a program chooses, a read from the framebuffer device gives nothing but what is on the screen and a write changes nothing but the framebuffer.", "quantifier": "all histories of read, write, lseek, pread and pwrite, all 64-bit positions and offsets, all counts, good and bad buffers, every framebuffer", "why_tests_cant": "the sizes are computed in 32-bit signed arithmetic from 64-bit positions chosen by the program", "anchors": ["modules/fb/fbdev.c: fb_read, fb_write, fb_seek", "kernel/fs/fs_syscalls.c: sys_pread64, sys_pwrite64, sys_llseek", "include/tilck/kernel/user.h: user_out_of_range"]}
{"id": "C184", "title": "/dev/fb0 behaves as a file of fixed size", "statement": "Values returned, data and positions are those of a file as long as the framebuffer, whose content is what is on the screen; positions beyond the end are refused, SEEK_END counts from the end and a call that fails does not move the position.", "quantifier": "all histories of calls", "why_tests_cant": "each call depends on the position left by the calls before it", "anchors": ["modules/fb/fbdev.c: fb_read, fb_write, fb_seek"]}
{"id": "C185", "title": "Terminal settings are those last set", "statement": "TCGETS reports the settings of the last TCSETS, TCSETSW or TCSETSF that succeeded (the default ones after a reset of the terminal); the terminal acts on the characters it reports; a call that fails changes nothing.", "quantifier": "every history of settings, resets, forks and ends of processes, every terminal", "why_tests_cant": "settings are changed on many paths, each of which must keep the table of handlers in step", "anchors": ["kernel/tty/tty_ioctl.c: tty_ioctl_tcsets, tty_reset_termios, tty_ioctl_int", "kernel/tty/tty_input.c: tty_update_ctrl_handlers", "modules/console/console.c: tty_state_esc1"]}
{"id": "C186", "title": "A killed process gives the keyboard back", "statement": "The keyboard mode of a terminal is the one last set; when a process that put a terminal in medium raw mode is killed, that terminal, and no other, goes back to the usual mode, and the kernel never crashes.", "quantifier": "every history of mode changes, changes of controlling terminal, forks and kills", "why_tests_cant": "the flag is in the process and the mode in the terminal, and both the process and its terminal change", "anchors": ["kernel/tty/tty_ioctl.c: tty_ioctl_KDSKBMODE, tty_ioctl_TIOCNOTTY, tty_ioctl_TIOCSCTTY", "kernel/exit.c: terminate_process", "kernel/process.c: allocate_new_process, sys_setsid"]}
{"id": "C187", "title": "A value written to a sysfs file is the value read back", "statement": "Writing the text of a number, a boolean or a string to a property makes it the value of the property, and reading gives the text of the value; a text that is not a value changes nothing; nothing but the property is changed.", "quantifier": "every text of any length, every old value, whatever the kernel's buffer held before", "why_tests_cant": "the buffer holds what earlier calls left in it", "anchors": ["modules/sysfs/types.c.h: sysfs_ulong_store, sysfs_long_store, sysfs_bool_store, sysfs_config_str_store, sysfs_ulong_load, sysfs_bool_load, sysfs_config_str_load"]}
{"id": "C188", "title": "What is written to a buffered sysfs file gets to the object", "statement": "Reads and writes of a buffered sysfs file behave as on a file of bounded size, through any descriptor of it; after fsync, sync or close the object has what was written; sync ends.", "quantifier": "every history of read, write, seek, fsync, sync, dup and close, every content", "why_tests_cant": "the buffers of several handles and the list of dirty handles depend on the history", "anchors": ["modules/sysfs/fileops.c.h: sysfs_file_read, sysfs_file_write, sysfs_file_seek, sysfs_flush_data, sysfs_fsync, sysfs_on_close, sysfs_on_dup", "modules/sysfs/sysfs.c: sysfs_syncfs"]}
{"id": "C189", "title": "Every driver has its own major number", "statement": "After any registrations all drivers have different major numbers, a number asked for is the one given, and each number leads to the driver that got it.", "quantifier": "every sequence of registrations with asked and automatic numbers", "why_tests_cant": "it depends on the numbers and the order of all registrations before", "anchors": ["kernel/fs/devfs.c: register_driver, get_driver_info"]}
{"id": "C190", "title": "A device file is found under its name and leads to its driver", "statement": "The files in /dev are exactly the devices made; each is found under its name, leads to its driver, has its own inode and device number, and is listed once whatever the sizes of the calls that list; opening and closing leaks nothing.", "quantifier": "every history of creations that succeed or fail, every sequence of listing calls, every name", "why_tests_cant": "failures and order of creations, and the sizes of the reading calls, can be anything", "anchors": ["kernel/fs/devfs.c: create_dev_file, devfs_get_entry, devfs_getdents, devfs_dir_seek, devfs_stat, devfs_open_file"]}
{"id": "C191", "title": "Every byte received on a serial port gets to its terminal", "statement": "The terminal of a serial port gets the bytes that arrive, each once and in order; when interrupts and worker have nothing left to do, no byte is left in a port.", "quantifier": "every interleaving of arriving bytes, interrupts and steps of the worker thread, on all ports", "why_tests_cant": "a byte may arrive between any two steps of the handlers", "anchors": ["modules/serial/serial.c: serial_con_irq_handler, ser_bh_handler", "kernel/arch/generic_x86/irq_generic.c: arch_irq_handling"]}
{"id": "C192", "title": "Elements of an allocation accelerator are blocks of their own", "statement": "Elements taken from an accelerator are live blocks that overlap nothing else and can be freed one by one; a request fails only without memory; destroying the accelerator gives back exactly the elements not taken.", "quantifier": "every history of taking and freeing elements, every element size and count, every answer of the heap", "why_tests_cant": "leaks and double frees depend on how many elements were taken from the last buffer", "anchors": ["kernel/kmalloc/kmalloc_accelerator.c.h: kmalloc_create_accelerator, kmalloc_accelerator_get_elem, kmalloc_destroy_accelerator"]}
{"id": "C193", "title": "/dev/null, /dev/zero and /dev/full behave as their names say", "statement": "Reading /dev/null gives the end of the file, reading the others gives as many zeros as one call moves and never other bytes; writing to /dev/full fails for lack of space, the others take everything; every seek leads to 0; no call stops the kernel.", "quantifier": "every history of read, write, pread, pwrite and lseek on any descriptors, every offset, count and buffer, whatever the kernel's buffer held before", "why_tests_cant": "the buffer and the position depend on the calls before, and any offset may be given", "anchors": ["modules/null/null.c: null_read, null_write, null_seek, zero_read, full_write", "kernel/fs/fs_syscalls.c: sys_read, sys_write, sys_pread64, sys_pwrite64, sys_llseek", "kernel/vfs/vfs.c: vfs_read, vfs_write, vfs_pread, vfs_pwrite, vfs_seek"]}
{"id": "C194", "title": "A slow keyboard controller does not turn the keyboard off", "statement": "After the lights or the repeat rate are set, or the registers of the controller are read, whether the call succeeds or fails, the keyboard's interrupt and ports are on as before once the controller answers; a call that succeeds sent exactly the command and its argument.", "quantifier": "every sequence of states the controller shows, every length of time it is busy, every timeout", "why_tests_cant": "the controller may be busy at any of the looks at it, for any time", "anchors": ["modules/kb8042/generic_x86/i8042.c: i8042_full_wait, i8042_disable_ports, i8042_enable_ports, kb_led_set, kb_set_typematic_byte, i8042_read_regs"]}
{"id": "C195", "title": "Semaphores given to the ACPI interpreter", "statement": "A semaphore never has more units than its limit or fewer than none; a wait gives up only after its timeout, and one without a timeout never; more units than the limit are refused.", "quantifier": "every execution of waits and signals by any tasks, every timeout, every limit", "why_tests_cant": "the units and times depend on the interleaving of all calls and of the timer", "anchors": ["modules/acpi/osl_sync.c: AcpiOsCreateSemaphore, AcpiOsWaitSemaphore, AcpiOsSignalSemaphore", "include/tilck/kernel/timer.h: ms_to_ticks", "kernel/ksem.c: ksem_wait, ksem_signal"]}
