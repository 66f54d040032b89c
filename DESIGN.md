# Formal model of vvaltchev/tilck (Lean 4)

## Trusted base

* Lean 4.33's kernel (every module is also replayed through it by `vcheck`).
* Axioms: only Lean's standard `propext`, `Quot.sound`, `Classical.choice`. No axiom of our own,
  no `sorry`, no `native_decide`/`bv_decide`.
* The faithfulness of the hand-written model to the C sources: every definition cites the file and
  lines it models and says where it simplifies.  C code was read as text, never executed.

## Conventions

* One Lean module per subsystem under `lean/Verif/`.  Each contains: the model (cited), a small
  independent specification, helper lemmas, the property theorems and concrete non-vacuity examples.
* Undefined behaviour, failed `ASSERT`s and out-of-memory are explicit outcomes where they matter.
* Where the code violates the English property we prove the negation on a concrete witness
  (theorem `..._violated`) and the strongest positive theorem found (suffix `_partial`).
* Concurrency is modelled as a transition system whose atomic steps are the code's
  preemption-/interrupt-disabled regions; theorems quantify over all reachable states/traces.

## Plan, property by property

| Id | Model | Proof |
|----|-------|-------|
| C01, C02 | ring buffer struct with positions and array | abstraction to a list (queue), simulation for every operation, induction over histories |
| C03 | packed stat (read, write, full) | same abstraction, was_empty characterised |
| C04 | nested writers split into reserve / store steps | invariant over well-nested schedules |
| C05 | in-place insertion loop as array function | loop invariant: sorted prefix, permutation, stability |
| C06, C07 | digit loops on 32/64-bit machine integers | induction on digits; explicit overflow witness |
| C08 | character automaton over lists with the `dest` stack | refinement to component-list normaliser; witness for `.//` |
| C09, C10 | AVL tree as inductive type with stored heights | ordered-set semantics, AVL invariant, height bound |
| C11-C13 | mutex as transition system with waiters list | inductive invariant over all traces |
| C14, C15 | semaphore transition system | inductive invariants |
| C16, C17 | both rwlocks as transition systems | inductive invariants |
| C18, C19 | pipe: ring contents + handle counters | ghost history invariant over traces |
| C20 | the id-allocation scan over a task list | scan invariant; counterexample with orphaned group id |
| C21-C23 | signal words as bit vectors | bit-level lemmas, invariant over syscalls; masked-lower-signal witness |
| C56 | `Signal` | decision logic; witnesses |
| C24, C25 | process table functions | decision logic, induction on histories; waitpid(0) witness |
| C26, C27 | descriptor table | list search lemmas, invariant; F_DUPFD_CLOEXEC witness |
| C28, C29 | block map + fsize | refinement to total function Nat -> byte; stale-tail witness |
| C30 | entries list + per-handle position | invariant over interleavings |
| C31 | inode/entry graph counters | inductive invariant; rename witness |
| C32, C33, C60 | `Timer`: the AVL tree of armed timers, its cached minimum and the deferred list | invariant over all interleavings; history spec; witnesses |
| C34, C35 | task list with states and vruntimes | selection lemma, inductive invariant |
| C36, C37, C65, C66 | `Kmalloc`: node flags by height and position, descent, split, coalesce, page layer, multi-step | metadata represents an abstract tree (Rep), zipper lemmas, refinement to the list of live blocks, induction over histories; witnesses |
| C38, C67 | `MemMap`: align, sort, merge, overlap handling, the two rounds of system_mmap_set (x86), lookup, bounds | refinement of the address-to-type relation per step, breakpoint-count measure for termination and for the table size; witnesses |
| C39-C41 | `Paging`: i386 page directories, page tables, frames with reference counts and contents; map, unmap, fault, fork, destroy, stores and loads | one inductive invariant (counts = number of entries, tables owned once, private frames never written while shared) and a refinement to per-process private memory plus shared objects; witnesses for the defects |
| C42, C68-C70 | `Mmap`: list of user mappings, mmap heap (the `Kmalloc` model), file pages; mmap, munmap, close, page faults | inductive invariant (blocks of the heap = pages of the mappings), then per-call equations for what is visible at every address; witnesses for the defects |
| C43, C71, C73-C75 | `Fat`: byte image and header of a volume, with 32-bit arithmetic | layout specification (where entries and clusters are); round trip, refinement of read/seek to a POSIX file, per-page equation for mappings, frame of the alignment; witnesses for the defects |
| C44 | `FatCompact`: FAT as a function, clusters as abstract contents with directory entries | a volume stores a tree of files (inductive relation); the walk, by induction on depth, directory chain, slots and file chain, keeps the tree and moves only free clusters |
| C72 | `FatDir`: a directory as a list of 32-byte slots, with the walk, the long-name buffer and the callbacks of look-up and getdents | layout specification `Holds` (long slots, checksum, dead slots, end mark); the walk visits each file once with its name, by induction on the layout; look-up and listing refine to `find?` and `take`; paths by induction on components; witnesses for the defects |
| C45 | `Flock`, first part: the tree of locks, lock objects and their references, tasks that are between two steps of acquire or release | inductive invariant over all interleavings that avoid the two windows; answers of acquire from the owners of references; witnesses for the windows |
| C76 | `Flock`, second part: handles for writing, processes with their programs, references to locks | invariant that ties references to handles and processes, vfork children by strong induction on the chain of lenders; -ETXTBSY iff the other kind of user exists; witness for lost references |
| C46 | `Wth`: one worker with queue, flag, task state and program counter, a stack of interrupted producers; the array of workers | inductive invariant over all interleavings; history equation accepted = done ++ current ++ queue; termination of the worker left alone by induction on frames, queue and timers; the choice functions by induction over the array, sorted by the proved insertion sort |
| C77 | `Wth` | from the same invariant: flag set and no producer active implies nothing is left |
| C78 | `Wth` | invariant for workers other than the first; witness for the first |
| C47 | `Resolve`: the resolver with a log of locks, references and lookups; answers of lookups may depend on the log (other tasks) | automaton over the log; invariant "the top frame's file system is locked and referenced once" by induction on the path and the stack; cross-fs link witnesses |
| C79 | `Resolve` | independent denotation of paths on component lists; simulation by induction on the path and on the nesting of links |
| C80 | `Resolve` | invariant of the log; every longer name is a witness |
| C81 | `Resolve` | induction on the path; witnesses |
| C82 | `Kcond`: tasks, wait lists, timers, signals, mutexes and polls as atomic steps | invariants over all interleavings; the wait is identified by the time it began; witnesses |
| C83 | `Kcond` | invariant "wait lists agree with tasks and are ordered by time"; witnesses |
| C84 | `Kcond` | invariant "a ready file is not yet announced or noted in signaled_list" |
| C85 | `Kcond` | invariant about armed timers and owners under "no signal to a task asleep with a timeout"; witness |
| C86 | `Kcond` | the same, also for polls with a timeout; witness |
| C87 | `Kcond` | from the invariant; witnesses |
| C88 | `TtyIn`: input buffer, counter of lines, handles with their buffers, a read as steps, keys at any moment | refinement of a queue of lines; witnesses |
| C89 | `TtyIn` | the same in raw mode; witnesses |
| C90 | `TtyIn` | the read alone, by induction on the bytes left; invariant about the fill level; witnesses |
| C91 | `TtyIn` | from the invariant; witnesses |
| C92 | `TtyIn` | the specification follows the characters; witnesses |
| C93 | `Time` | the calendar defined by recursion over years and months; closed forms, cycles of 400, 100 and 4 years; witnesses for FAT times |
| C94 | `Time` | bounds of the rounding; witnesses |
| C95 | `Time` | invariant: time and fraction are linear in the ticks; induction over events |
| C96 | `Time` | comparison with the uncorrected clock by induction over ticks; witnesses |
| C97 | `Time` | witness |
| C98 | `UserMem` | memory as a function of addresses; induction over the copy loops, any change of user memory between steps; witnesses |
| C99 | `UserMem` | the specification says which strings the arrays and the stack denote; induction over the arrays |
| C100 | `Exec` | grammar of the first line; invariants of the scan for all files; induction over chains of scripts; witnesses |
| C101 | `Exec` | induction over the arguments |
| C102 | `SysIo` | files as arbitrary state machines; the specification is the sequence of the file's answers; induction over the buffers; witnesses |
| C103 | `SysIo` | equivalence with the condition on counts and sizes; witnesses by induction over the wrapping loops |
| C104 | `Vterm` | invariant over sequences of control functions; equivalences for the faults; witnesses |
| C105 | `Vterm` | refinement to a separate screen specification; witnesses |
| C106 | `Vterm` | the same refinement, with the display as observation; witnesses |
| C107 | `Vterm` | the same refinement, with the list of lines that left the screen in the specification |
| C108 | `Vterm` | the copy is invariant under everything but switching |
| C109 | `Vterm` | induction over the typed characters; witnesses |
| C110 | `Console` | invariant over the bytes written; equivalence for the overrun; witnesses |
| C111 | `Console` | a separate table of control functions; a complete sequence from any state; refinement down to the display; witnesses |
| C112 | `Console` | induction over the writes, with the colour as invariant; witness |
| C113 | `Console` | refinement to a pen; witnesses |
| C114 | `Console` | a complete sequence from any state; witnesses |
| C115 | `TermQueue` | invariants over all interleavings of the tasks; witness |
| C116 | `TermQueue` | invariant over all interleavings, with the contents of buffers as state; witness |
| C117 | `TermQueue` | a step of some task from every reachable state; induction over all continuations for the deadlock |
| C118 | `Snprintk` | invariant over the characters of any format; induction over a list of directives; witnesses; a non-ending loop by induction over the steps |
| C119 | `Snprintk` | equality with a specification of ISO C's text, by induction over the directives; witnesses |
| C120 | `PollSel` | equality of the report with POSIX's, by induction over the array and over the passes of the call; witnesses |
| C121 | `PollSel` | the loops over the sets as set operations; witnesses |
| C122 | `Printk` | invariant over all interleavings of tasks and nested interrupts; witnesses |
| C123 | `Printk` | the same invariant at rest, a decreasing measure; witness |
| C124 | `Pgrp` | invariant over all histories of calls; witness |
| C125 | `Pgrp` | each call against POSIX, on reachable tables; witnesses |
| C126 | `Pgrp` | the visit of the task tree as a set of receivers; witnesses |
| C127 | `Pgrp` | invariant over all histories of calls, each call; witnesses |
| C128 | `Cwd` | invariant over all histories of chdir and changes elsewhere in the tree, on top of `Resolve` and `AbsPath`; witnesses |
| C129 | `Cwd` | refinement to what the path denotes; witness |
| C130 | `Cwd` | decision logic on reachable states; witness |
| C131 | `Gdt` | invariant over all histories of calls; witness |
| C132 | `Gdt` | decision logic on reachable states; witnesses |
| C133 | `Gdt` | invariant with reference counts over all histories; witnesses |
| C134 | `Gdt` | invariant over all histories; witnesses |
| C135 | `RamMmap` | invariant over all histories of accesses; witnesses |
| C136 | `RamMmap` | invariant over all histories; witnesses |
| C137 | `RamMmap` | invariant over all histories; witnesses |
| C138 | `Elf` | refinement: the loops against the image described by the headers; witnesses |
| C139 | `Elf` | invariant of the loader for all files; witnesses |
| C140 | `Elf` | decision logic on the bytes of the file; witnesses |
| C141 | `Elf` | decision logic; witness |
| C142 | `Brk` | invariant over executions, on top of `Paging`; witness |
| C143 | `Brk` | decision logic over reachable states |
| C144 | `Brk` | violated: witness |
| C145 | `Brk` | decision logic; witness |
| C146 | `OpenFile` | refinement of histories to a POSIX specification with open file descriptions; witness |
| C147 | `OpenFile` | the same refinement; witnesses |
| C148 | `OpenFile` | the same refinement; witnesses |
| C149 | `OpenFile` | the same refinement, an invariant of it; witnesses |
| C150 | `OpenFile` | invariant; witness |
| C151 | `Codec` | refinement of the table-driven loop to a shift register; injectivity of the register |
| C152 | `Codec` | round trip; refinement; arithmetic of the buffer sizes; witnesses |
| C153 | `Cmdline` | refinement of the character loop and the state machine to a meaning of lists of words |
| C154 | `Cmdline` | invariant; witness |
| C155 | `Cmdline` | the same refinement; witness |
| C156 | `Kbd` | invariant over histories of actions of a keyboard specified by its key caps and wire codes |
| C157 | `Kbd` | refinement to a specification over keys that are held; tables compared for every key; witnesses |
| C158 | `Kbd` | the same refinement; witness |
| C159 | `Kbd` | case analysis over the table |
| C160 | `Kbd` | invariant over interleavings; witness |
| C161 | `MountPt` | invariant over interleavings: the table is a permutation of the successful mounts |
| C162 | `MountPt` | refinement to a list of mounts; witnesses |
| C163 | `MountPt` | the same invariant with counts; witness |
| C164 | `MountPt` | injectivity of path resolution; witness |
| C165 | `MountPt` | case analysis over the invariant; witness |
| C166 | `SmallHeap` | invariant over histories, with the places chosen by the heaps as inputs |
| C167 | `SmallHeap` | the same invariant, counting |
| C168 | `SmallHeap` | the same invariant, with a measure argument for full heaps |
| C169 | `SmallHeap` | the same invariant; witness |
| C170 | `Fork` | case analysis over every pattern of allocation failures; witnesses |
| C171 | `Fork` | induction over mappings and descriptors, for every pattern of allocation failures |
| C172 | `Fork` | the new objects as a ghost list, emptied by the exit |
| C173 | `Fork` | as C171 and C172, shared mappings; witnesses |
| C174 | `LList` | refinement to lists of nodes, invariant over all histories |
| C175 | `LList` | the same invariant, with the stale pointers of removed nodes |
| C176 | `LList` | induction over the elements still to visit |
| C177 | `TaskRes` | invariant: the heap is a permutation of what the records say; refinement over all histories |
| C178 | `TaskRes` | the same; witness for the leak |
| C179 | `TaskRes` | invariant: the owner has exactly one callback; witness |
| C180 | `TaskRes` | case analysis and invariant over histories; the violations are proved for every case |
| C181 | `TtyEcho` | invariant over keys: screen = before ++ rendering of the line; witnesses |
| C182 | `TtyEcho` | every emitted byte is a line end, induction over keys; witness |
| C183 | `FbDev` | invariant over histories (position within the framebuffer modulo 2^32); violations for every framebuffer |
| C184 | `FbDev` | refinement to a file of fixed size; violations for every framebuffer |
| C185 | `TtyMode` | refinement over histories; invariant handler = setting; violations for every state |
| C186 | `TtyMode` | refinement over histories; violations for every state |
| C187 | `Sysfs` | round trip of the values; violations for every old value |
| C188 | `Sysfs` | refinement over histories of one handle, pointer-level dirty list; violations for every content |
| C189 | `DevFs` | invariant over registrations; violation by witness |
| C190 | `DevFs` | refinement over histories of creations to a list of devices |
| C191 | `Serial` | invariant over all interleavings, measure for progress; violation for every further input |
| C192 | `Accel` | invariant over histories: heap = user's elements + rest of the buffer + blocks before |
| C193 | `NullDev` | refinement: results of a history = stateless specification of each call; violation for every offset beyond 0 |
| C194 | `Kbc` | induction on the waits, over arbitrary sequences of status bytes; exact threshold between success and violation |
| C195 | `AcpiSem` | executions are mapped to those of `Ksem`; times by induction over executions |

| C48-C51 | NUL-terminated strings as byte lists, memory as array | induction; witnesses for strstr("", ..) and strncpy padding |
| C52 | both rwlocks (see C16) | inductive invariants (a woken task exists) |
| C54, C55 | per-task signal state and system calls | invariant over histories; -EFAULT and SIG_IGN witnesses |
| C57 | `RamFile` | invariant; witness |
| C58, C59 | `RamDir`: what each call does to the names; no use of freed memory | case analysis under the invariant of C31; witnesses |
| C53 | pipe condition variables (see C18) | inductive invariant; poller witness |
| C60 | `Timer` | invariant over interleavings |
| C61-C64 | `Sched` (see C34) | invariant over interleavings; bypass bound by induction over a waiting stretch; witnesses |

The list grows with the model; the sections below are updated as modules are added.

## What is modelled, module by module

* `Ringbuf`: all of kernel/ringbuf.c. Element copies are list updates; the storage is a list of naturals.
* `SafeRingbuf`: kernel/safe_ringbuf.c generic and u8 variants. Compare-and-swap is atomic; producers nest
  (interrupts), one consumer.
* `Sort`: common/sort.c (insertion sort, both variants) and array reversal.
* `Str`: comparison, search, memmove, strncpy of common/string_util.c; the x86 asm variants are not modelled.
* `Itoa`: number formatting and parsing of common/norec.c / string_util.c at 32 and 64 bits.
* `AbsPath`: kernel/fs/vfs_resolve-independent path normalisation (`compute_abs_path`).
* `Avl`: kernel/bintree.c with object-, integer- and pointer-key comparisons; the explicit path stack
  and its fixed size are modelled.
* `Kmutex`, `Ksem`, `RwlockWp`, `RwlockRp`: kernel/kmutex.c, ksem.c, rwlock.c with the parts of wobj.c,
  kcond.c and the wake-up timer they use. Atomic steps are the preemption-disabled sections.
* `Pipe`: kernel/pipe.c on top of `Ringbuf`, with kcond wake-ups. Not modelled: -EFAULT from user copies,
  SIGSTOP, write-side polling.
* `Pid`: create_new_pid / create_new_kernel_tid (kernel/sched.c) over the set of live tasks, with fork, exit,
  setsid and setpgid as the operations that change ids.
* `Signal`: kernel/signal.c: signal-set words, get_first_pending_sig, process_signals, do_send_signal and the
  default actions, rt_sigaction / rt_sigprocmask / rt_sigsuspend / rt_sigreturn, fork and exec effects. Not
  modelled: the layout of the user stack frame, wait statuses, process groups.
* `Waitpid`: kernel/waitpid.c with fork/vfork/exec/exit (exit.c: reparenting, vfork release, automatic reaping),
  stop/continue signals and setpgid as the operations that change the process table. Single-threaded
  processes; traced (SIGTRAP) stops, user-copy failures and rusage are not modelled.
* `Fd`: the descriptor tables of kernel/fs/fs_syscalls.c (open, close, dup, dup2, fcntl F_DUPFD/F_SETFD, pipe2),
  vfs_close/vfs_dup, fork_dup_all_handles, close_cloexec_handles and exit. What a handle refers to is a number;
  which allocations succeed and the addresses they return are arguments of each step. Not modelled: file
  offsets, path resolution, threads sharing a table.
* `RamFile`: the regular files of ramfs (kernel/fs/ramfs/rw_ops.c.h, blocks.c.h): read, write, pread, readv,
  writev, truncate, lseek on one inode with any number of handles, through the copy buffer of the task. The
  width of a machine word and whether ASSERT is compiled in are parameters. Not modelled: memory mappings,
  file times, two threads using one handle at the same time.
* `RamDir`: directories, links and inode lifetime of ramfs (kernel/fs/ramfs/*, the path calls of kernel/vfs/vfs.c):
  open/creat, mkdir, rmdir, unlink, symlink, link, rename, stat, getdents, directory seek, dup and close, with the two
  halves of rename, link and close as separate steps, in any interleaving. Which allocations and permission checks
  succeed are arguments of the calls. Path resolution has already led to a directory and a last component. Not
  modelled: mount points, file contents, times. `Ok` lists the calls the theorems are about; every clause of it
  excludes a defect that has its own witness.
* `Timer`: ktimer_arm, ktimer_arm_if_armed, ktimer_cancel, ktimer_is_armed, the timer interrupt (tick_all_timers) and
  the drain of deferred callbacks in worker thread 0 (kernel/timer.c), on the AVL tree of `Avl`, one step per
  interrupts-disabled section. `Legal` is a specification over what was seen. Not modelled: the system clock in
  nanoseconds, the effect of the callbacks, the worker's job queue.
* `Sched`: the state lists and counters, do_schedule and switch_to_task split at their interrupt windows, tick
  accounting, wake-ups, task timers, fork, stop/continue, worker wake-ups (kernel/sched.c, switch.c, wobj.c, timer.c,
  wth.c), on the AVL tree of `Avl` keyed by (virtual runtime, tid). Virtual runtimes do not wrap. Not modelled: register
  state, address spaces, panic, the deadline field (nothing reads it).
* `Kmalloc`: per_heap_kmalloc and per_heap_kfree (plain, split, multi-step), the page layer, calculate_block_size,
  the doubling of a heap; in cells of the minimum block size. Not modelled: the in_use guard and deferred frees
  (one caller at a time), small heaps, the choice among main heaps, the accelerator, leak detector and statistics;
  heaps whose alloc block is larger than the minimum block (the kernel has none) are excluded from the theorems.
* `MemMap`: all of kernel/mm/system_mmap.c's region handling (append, align, sort, merge, handle_region_overlap,
  handle_overlapping_regions, fix_mem_regions, set_lower_and_upper_kb, system_mmap_get_region_of) and the x86
  arch_add_initial/final_mem_regions. Not: parsing of multiboot records and ELF headers, linear mapping, the ramdisk
  queries.
* `Paging`: the user half of kernel/arch/i386/paging.c (map_page_int, map_page, map_zero_page, unmap_page_int,
  set_page_rw, handle_potential_cow, pdir_clone, pdir_destroy) and include/tilck/kernel/pageframe refcounts, with the
  MMU's page walk for user loads and stores. A page's contents is one value; the TLB and the 32-bit wrap of a
  reference count are not modelled, nor are big pages, pdir_deep_clone (FORK_NO_COW) and the riscv/x86_64 variants.
  The allocator is a nondeterministic choice of a free frame or failure.
* `Mmap`: sys_mmap_pgoff, mmap_on_user_heap, mmap_err_case_free, sys_munmap, munmap_int,
  remove_all_mappings_of_handle, full_remove_user_mapping, process_get_user_mapping, process_add_user_mapping
  (kernel/mm/process_mm.c, process_mm_base.c), built on the heap of `Kmalloc`. 32-bit arithmetic is explicit. A file
  system's mmap is replaced by its contract. The read of a freed struct in munmap_int (um->h after kfree) is assumed
  to return the old value. Not modelled: MMAP_NO_COW, brk, fork of the mapping list, program/stack regions.
* `Fat`: fat_read_fat_entry, fat_write_fat_entry, fat_get_entry_ptr, fat_get_sector_for_cluster, fat_get_cluster_count,
  fat_get_type, fat_read_whole_file, fat_calculate_used_bytes, fat_get_first_free_cluster_off, fat_align_first_data_sector
  (common/fat32_base.c), fat_read, fat_rewind, fat_seek, fat_seek_forward (kernel/fs/fat32.c) and fat_mmap
  (kernel/fs/fat32_mm.c). The header is a record beside the byte image; the ASSERTs of debug builds are absent.
* `FatCompact`: fat_compact_clusters, fat_compact_walk_cb and fat_walk as used by it (common/fat32_base.c). Only the first
  FAT exists; contents of clusters are an abstract type with directory entries; long names are skipped slots.
* `FatDir`: fat_walk, fat_handle_long_dir_entry, finalization of long names, fat_fetch_next_component, fat_search_entry_cb,
  fat_search_entry (common/fat32_base.c), fat_getdents_cb and the position logic of fat_getdents (kernel/fs/fat32.c). The chain
  of clusters of a directory is concatenated to one list of slots (chains are in `Fat`); the buffer pc[256] of the search is
  unbounded.
* `Flock`: acquire_subsys_flock, retain_subsys_flock, release_subsys_flock (kernel/fs/flock.c) as atomic steps between which
  other tasks run; the bintree of locks is a list of objects by inode. Then, with these semantics, the users: ramfs_open for
  writing, vfs_dup, vfs_close, vfs_truncate_impl, load_elf_program, setup_process, allocate_new_process, terminate_process,
  reduced to what they do with locks; failure of fork after the retain is left out.
* `Wth`: wth_enqueue_on, wth_process_single_job, wth_run, wth_wakeup, wth_wakeup_top and the deferred part of
  tick_all_timers/run_pending_ktimers as atomic steps, wth_enqueue_anywhere, wth_find_worker, wth_get_runnable_thread,
  wth_create_thread (kernel/wth.c, kernel/wth_aux.c). Not modelled: failing allocations, need_resched (in `Sched`), the
  condition variable of wth_wait_for_completion.
* `Resolve`: all of kernel/vfs/vfs_resolve.c.h; __vfs_path_funcs_wrapper and vfs_rename_or_link (kernel/vfs/vfs.c), mp_add
  (kernel/vfs/vfs_mp.c.h), the copy of the name in ramfs_dir_get_entry_by_name. The file systems' get_entry, readlink and the
  mount table are arbitrary functions, for C47, C80 and the first part of C81 of everything done so far; a file system other
  than the root one has a mount point. Not modelled: the mutex of the mount table, the size of the buffers for links.
* `Kcond`: kernel/kcond.c, kernel/wobj.c, kernel_sleep, task_primary_timer_fire, task_set_wakeup_timer, task_cancel_wakeup_timer
  (kernel/timer.c), kmutex_lock and kmutex_unlock without recursion, poll_wait_on_cond and select_wait_on_cond, signal_wakeup_task,
  action_stop, action_continue, the part of schedule() about timer_ready. One processor; code with preemption disabled is one step; time is
  not counted (a timer that is armed may expire at any moment). The models of mutexes, semaphores, rwlocks and pipes (C11 to C19, C52,
  C53) assume that waiting tasks are woken up only by those they wait for; C82 and C85 show when that is not so.
* `TtyIn`: kernel/tty/tty_input.c (keys without the medium raw mode, and reads without the check of the foreground group),
  tty_ctrl_handlers.c.h, tty_ioctl_tcsets, tty_on_dup_extra, tty_create_extra. A key is one step (a worker thread does it), a read is one
  step for each access to what keys change. Left out: echo, output, waiting itself (see `Kcond`).
* `Time`: common/3rd_party/datetime.c, the time of kernel/datetime.c and kernel/timer.c (ticks, corrections, conversions, clock_gettime, clock_getres), the divisor of
  pit.c, the decoding of rtc.c, the dates of FAT files, do_nanosleep and the timeouts of poll and select. C integers are numbers reduced at
  each conversion that can overflow. The thread that reads the hardware clock is taken to run at the moment of the second's edge. Not modelled: nested timer
  interrupts, the waiting for the edge itself, CPU time accounting, the riscv timer.
* `UserMem`: kernel/user.c (all copies between user and kernel memory, the pushing of arguments on the user stack), arch_user_copy, execve_get_args, for the
  32-bit build. Memory is a function from addresses to bytes plus the set of mapped user pages; wrapping additions are explicit. Another thread that changes user memory is an
  arbitrary function applied between steps. Not modelled: out of memory during copy-on-write (reported like a bad pointer), alignment of the copy's own accesses.
* `Exec`: the script handling of kernel/execve.c and save_cmdline. What load_elf_program makes of a file (program, script header or error) is a parameter. Not modelled: the loading
  itself (see `Flock` for its locking), handle_noexec.
* `SysIo`: sys_read, sys_write, sys_readv, sys_writev and the loops behind them, the preparation of sys_poll, the signal sets of sys_rt_sigprocmask and sys_rt_sigpending, on the memory of
  `UserMem`. A file handle is any state machine that never gives or takes more than asked for. Not modelled: handles that work on user memory directly, the descriptor table (see `Fd`), locking of the
  handle (see `RamFile`).
* `Vterm`: the video terminal: text ring, tab maps, cursor, scroll regions, scrollback, alternate screen, pausing, and what the video driver was told to show; the control functions with
  their final arguments (the parsing of escape sequences and the queue of actions are not in this module). A memory fault is the outcome `none`; the read of the cursor's colour past
  the end of the ring is recorded in `overread`. Not modelled: the hardware cursor, colours of the cursor's cell on the display, wrapping of the 32-bit line counters, a terminal whose
  buffers could not be allocated.
* `Console`: the filter between bytes written and the video terminal: the state machine of escape sequences, the parsing of parameters (with `Itoa.strtol`), all handlers of control
  sequences with the widths of their arguments, colours, character sets, and writes as the loop over the bytes with the terminal of `Vterm` executing the actions. Not modelled: the
  queue of actions, how answers reach the input, the alarm (`BEL`), what `ESC c` does to the input buffer.
* `TermQueue`: the queue of requests in front of a terminal (video and serial): who executes them, the lock, the full queue, requests with preemption disabled, requests made while executing
  one, and the buffers the requests point to. Not modelled: requests from interrupts, a full queue with preemption disabled (the kernel panics), the panic itself.
* `Snprintk`: the whole of kernel/snprintk.c: flags, widths, precisions, length modifiers, conversions, unknown sequences, the buffer's end and the final NUL. Not modelled: 64-bit builds,
  strings of 2^31 bytes and more.
* `PollSel`: what poll and select report: the passes over the descriptors, the conditions they find, the sets, the timeouts of select, the readiness functions of the VFS. What other processes do
  is a different look at the files for every pass. Not modelled here: the waiting itself (see `Kcond`), pselect6, ppoll.
* `Printk`: kernel/printk.c once the terminal is there: the flag of the first call, the direct output, the ring buffer with its reservations and copies, the flush, preemption. Not modelled: the
  time before the terminal exists, panics, the tracing of messages.
* `Pgrp`: setsid, getsid, setpgid, getpgid (kernel/process.c), send_signal_to_group and the lookups by group (kernel/sched.c), kill (kernel/signal.c), the ioctls about the controlling terminal and its
  foreground group, the check at the start of a read (kernel/tty). Not modelled: send_signal_to_session (nobody calls it; it compares group ids with the session id), what a posted signal does (`Signal`).
* `Cwd`: chdir and getcwd (kernel/cwd.c), composed of the models of the resolver (`Resolve`) and of compute_abs_path (`AbsPath`). Not modelled: reference counts of the current directory, bad addresses.
* `Gdt`: the table of segment descriptors and set_thread_area (kernel/arch/i386/gdt.c, process32.c). Not modelled: local descriptor tables, the loading of segment registers, bad addresses; reference counts are unbounded.
* `RamMmap`: memory mappings of ramfs files together with read, write and truncate (kernel/fs/ramfs/mmap.c.h, rw_ops.c.h, blocks.c.h, process_mm.c:217-333, paging.c:155-176). One file, read and written
  a byte at a time; not modelled: running out of memory, munmap of parts, fork, reference counts of frames.
* `Elf`: the loading of executables (kernel/elf.c), from the bytes of the file to the page tables of the new process, with the mapping of ramfs files. Not modelled: opening the file, seek errors, the order
  of copy-on-write pages of the stack, freeing after a failure; arguments and registers are in `UserMem` and `Exec`.
* `Brk`: kernel/mm/process_mm.c:20-113 (`sys_brk`, `brk_syscall_int`) as a sequence of the operations of `Paging`; processes with their breaks, exec, fork, vfork, exit. Not modelled: the length kept in the list of mappings, threads.
* `OpenFile`: kernel/vfs/vfs.c (`vfs_open_impl`, `vfs_dup`, `vfs_read`, `vfs_write`, `vfs_ftruncate`, `vfs_truncate_impl`), kernel/fs/ramfs/open.c.h, mkdir.c.h, the outer part of rw_ops.c.h: one directory, its inodes, the handles of all processes, the locks of files. Contents are lists of bytes (their representation is in `RamFile`); sub-directories are empty; names are not removed except by rmdir.
* `Codec`: common/3rd_party/crc32.c, common/3rd_party/base64.c, complete (for `malloc` that succeeds).
* `Cmdline`: kernel/cmdline.c without the sysfs part, include/tilck/common/cmdline_opts.h. Parameters: the number parser (in `Itoa`), the symbol table, the defaults. `printk` is not modelled.
* `Kbd`: modules/kb8042/generic_x86/kb.c (decoder, pressed keys, locks, ring buffer), kb_layouts.c.h, kb_ansi_seq.c.h, kernel/kb_input.c, and the keypress handler of kernel/tty/tty_input.c. The terminals' modes are inputs, given anew at each action. The i8042 controller, LEDs and panic mode are not modelled; the ring buffer is a queue (see `SafeRingbuf`).
* `MountPt`: kernel/vfs/vfs_mp.c.h and the crossing of mount points in vfs_resolve.c.h. The directories do not change, symbolic links are left out (see `Resolve`), the file systems' locks are left out. The root directory of each file system is inode 0.
* `SmallHeap`: kernel/kmalloc/kmalloc_small_heaps.c.h and general_kmalloc/general_kfree. The single heaps are given by the contract proved in `Kmalloc`: every legal placement is considered. Allocations to be split into elements below 2048 bytes (none in the kernel) and statistics are not modelled.
* `Fork`: kernel/fork.c, allocate_new_process and its helpers, the duplication of mappings, the resources given back by exit and wait. One heap of numbered objects; which allocations fail is an arbitrary function. The mmap heap and page tables are folded into their owners, FORK_NO_COW = 0 (the default), what parent and child do between fork and exit is not modelled here.
* `LList`: include/tilck/kernel/list.h at the level of pointers: every insertion and removal is the sequence of assignments of the code. It justifies that the other modules take kernel lists as abstract lists. Not modelled: CONTAINER_OF, freed nodes that are reused while others still point to them.
* `TaskRes`: kernel/process.c (temporary allocations, kthread_create2, allocate_new_thread, the freeing of tasks), kernel/exit.c (callbacks, freeing of temporary blocks), modules/sb16 (ownership). The heap is a list of live blocks; freeing anything else is corruption. Not modelled: KRN_STACK_ISOLATION, registers of new threads, playing sounds.
* `TtyEcho`: the echo of kernel/tty/tty_input.c and tty_ctrl_handlers.c.h: the bytes written to the terminal for each key. A small terminal (one row, after modules/console/console_def_state.c.h) says what they show. Not modelled: keys above 127, serial ports, reading while typing.
* `FbDev`: modules/fb/fbdev.c `fb_read`, `fb_write`, `fb_seek` on a 32-bit machine with 64-bit offsets, with the checks of the system calls and of copy_to_user/copy_from_user; kernel memory is a function from addresses to bytes, user memory faults after a given number of bytes. Not modelled: mmap, munmap, ioctl, the 64-bit machine.
* `TtyMode`: the settings and keyboard mode of the terminals (kernel/tty/tty_ioctl.c), their reset by ESC c and when a process is killed (kernel/exit.c), and what fork, setsid, TIOCNOTTY and TIOCSCTTY do to the process' terminal. struct termios is one flag, one character and a number for the rest. Not modelled: graphics mode, panic.
* `Sysfs`: the load and store functions of the values (modules/sysfs/types.c.h) and the buffered files: read, write, seek, fsync, dup, close (fileops.c.h) and sync (sysfs.c), with the list of dirty handles as the pointers of `LList`. There is memory for the buffers. Not modelled: mmap, stream and immutable types, hooks, a failing store, preemption between calls.
* `DevFs`: registration of drivers, creation, lookup, listing, stat and open of device files (kernel/fs/devfs.c). The files list is a Lean list (its pointers are `LList`). The drivers' own functions are inputs. Not modelled: locks, duplicated handles, the length field of directory entries.
* `Serial`: the interrupt handler and the job of the serial ports (modules/serial/serial.c), with the dispatch of arch_irq_handling on the shared lines; any interleaving of bytes, interrupts and single steps of the worker. The lines are edge-triggered (as the PIC is set up), ports hold any number of bytes. Not modelled: panic, the UART registers, overruns.
* `Accel`: the accelerator of small allocations (kernel/kmalloc/kmalloc_accelerator.c.h) over an abstract heap that gives unused memory or fails, and that frees blocks of an allocated buffer one by one.
* `NullDev`: /dev/null, /dev/zero and /dev/full (modules/null/null.c) behind read, write, pread64, pwrite64 and _llseek, with the task's copy buffer. Not modelled: dup and close of the handles, readv and writev (see `SysIo`).
* `Kbc`: the keyboard controller's ports (modules/kb8042/generic_x86/i8042.c): waits, commands, kb_led_set, kb_set_typematic_byte, i8042_read_regs. The controller is any sequence of the two status bits; the bytes it gives are not modelled. Not modelled: self test, reset, reboot.
* `AcpiSem`: the semaphores of the ACPI layer (modules/acpi/osl_sync.c) over `Ksem`, with ticks. Not modelled: lack of memory, NULL handles, deletion, the assertions on zero units and zero maximum, and what ACPICA does with the results.

## Violations found (proved as witnesses)

* strtol/strtoul: some out-of-range inputs are not reported; "-0" yields ERANGE (`Itoa`).
* strstr with an empty needle; strncpy does not pad (`Str`).
* compute_abs_path on `.//` sequences (`AbsPath`).
* bintree's fixed-size path stack can overflow; pointer-key comparison overflows (`Avl`).
* kmutex: a stale wake-up timer breaks mutual exclusion; ksem: counter overflow without maximum and a
  lost wake-up when waits of different sizes mix; rwlock_wp: writers are not served in arrival order.
* pipe: a poller on the read end can consume the only wake-up, leaving a blocked reader asleep with data.
* pid allocation: after wrap-around a new pid can equal a live one when a process group outlives its leader, or
  equal a live group id created by setpgid (`Pid`).
* signals: rt_sigprocmask can block SIGKILL when its buffer faults half-way (32-bit); a blocked lower signal
  hides a deliverable one; __add_sig / __del_sig are wrong for 64-bit words above bit 31; a signal set to
  SIG_IGN while pending is delivered to address 1; a stopped process is resumed by any handled signal and
  cannot be continued while it ignores SIGCONT (`Signal`).
* waitpid: a parent in waitpid(0) is not woken by the death of a child of its group; a vfork caller is
  reported as stopped; a child forked after a reported stop is reported as continued (`Waitpid`).
* descriptors: F_DUPFD_CLOEXEC does not set the flag; fork clears the close-on-exec flags of the child;
  dup2(fd, fd) fails; F_DUPFD reports EBADF instead of EMFILE/EINVAL and reads outside the table for a negative
  argument; failed allocations in dup2 or fork lead to use of a freed handle or a NULL handle (`Fd`).
* RAM files: truncating to a length inside a page leaves the old bytes of the page, and they reappear when the
  file grows; on 32-bit machines offsets 4 GB apart share a block; a failed lseek moves the position to 0;
  writev reports an error after having written; readv stores stale bytes of the copy buffer
  after the ones it reports; after a truncation stat's block count counts bytes; with assertions, writing into a hole panics (`RamFile`).
* directories: rename onto the same name frees the file and then uses it; a directory moved to another parent keeps
  its old `..` and wrong link counts, and freed memory is reached through it; a directory can be moved into itself or
  over a file; a failed rename has already removed its target; a failed mkdir leaves the parent's link count
  incremented; a failed symlink and an interrupted link leak the inode; rmdir of `d/./` and components longer than the
  name buffer corrupt memory; rename races with unlink, and close with unlink or rmdir (double free); a dup'ed
  directory handle keeps a dangling position; getdents loses entries on EFAULT; seeking to the end of a directory is
  ignored; stat of a file reads the mode of a removed directory (`RamDir`).
* timers: a deadline past 2^64 wraps and fires at once; arming a deferred timer whose expiry is queued makes a later
  cancel lie, and a second expiry links the timer twice into the list (`Timer`).
* scheduler: an ordinary task whose sleep ends, or a less urgent worker, replaces a running worker thread; a task that
  stops itself (SIGSTOP, vfork) goes on running when the timer of an earlier, interrupted sleep has expired; a continued
  task keeps a stale virtual runtime and dominates the CPU (`Sched`).
* heaps: freeing a block that is the whole heap reads nodes[-1]; a multi-step free (munmap) not aligned to its largest
  power of two frees a page it does not own, which is handed out again; a multi-page request whose mapping fails loses
  a page; an empty heap that is expanded refuses a request for its whole size; the byte counter drifts on failed
  mappings, on NO_ACTUAL_ALLOC blocks and on blocks split into large leaves (`Kmalloc`).
* memory map: an empty region at the start of a less strict one makes the normalisation loop for ever; a region ending
  at 2^64 escapes overlap handling; the DMA area is 256 KB long even when carved from a smaller region, so that undeclared
  addresses become available and the rest of the region gets a length near 2^64 (`MemMap`).
* C39: a read fault on a hole of a mapped RAM file maps the global zero page SHARED and writable
  (kernel/fs/ramfs/mmap.c.h:101-104). A later write through the mapping changes what every process reads in its
  untouched anonymous memory (`Paging.zero_page_violated`).
* C40: pdir_destroy of a space with a device mapping above the end of RAM calls kfree2 on the device's address
  (`Paging.destroy_device_violated`); reachable when fork fails after pdir_clone.
* C41: when pdir_clone cannot allocate a page table other than the first, its clean-up loop frees the page tables of
  the parent and leaks the new ones (kernel/arch/i386/paging.c:631-636) (`Paging.failed_fork_violated`).
* C42: munmap of a range as long as its mapping but starting in the middle removes the whole mapping; a range going
  beyond its mapping makes a length wrap; a range starting in a gap unmaps nothing; a range that is not aligned to its
  largest power of two frees other pages of the heap, and the next mmap then overlaps a live mapping (`Mmap.munmap_*_violated`).
* C68: mmap of nearly 4 GB wraps to an empty mapping and succeeds; when the user_mapping of anonymous memory cannot be
  allocated the pages stay mapped (`Mmap.mmap_wrap_violated`, `Mmap.mmap_enomem_violated`).
* C69: mappings do not survive the close of their descriptor. C70: a file opened write-only can be mapped for reading.
* C71: lseek(fd, 0, SEEK_END) on a FAT file returns the current position instead of the size; seeks beyond 2^63 are
  not refused (`Fat.seek_end_violated`, `Fat.seek_overflow_violated`).
* C73, C74: clusters count and count+1, the last two of a volume, are not looked at: files there are cut off when the
  ramdisk is loaded and not moved by the alignment; the alignment can turn a FAT32 volume into a FAT16 one, as the total
  number of sectors stays (`Fat.last_clusters_violated`, `Fat.align_type_violated`).
* C75: a mapping from the middle of a cluster shows the beginning of the cluster; a mapping of an empty file shows the
  memory two clusters before the data area (`Fat.mmap_middle_violated`, `Fat.mmap_empty_violated`).
* C44: after compaction the '.' entry of a moved directory (and the '..' entries of its subdirectories) still name the old
  cluster, which is free or belongs to another file; for an empty file the FAT is followed from entry 0, which for medium
  type F0 is not an end mark, so the code leaves the FAT; clusters of a FAT32 root directory are never moved, so the boot
  loader's check afterwards can fail on a valid volume (`FatCompact.compact_dots_violated`, `compact_media_violated`,
  `compact_root_violated`).
* C72: slots of removed long names are still accumulated, so a later file with the same short-name checksum is shown under
  the removed name, and twenty of them overflow the name buffer (`FatDir.removed_name_violated`, `lname_overflow_violated`);
  names are cut at `ÿ`; names with a blank are not found; a name of 255 characters is returned empty; a buffer that is too
  small reads as end of directory; a FAT root directory that begins with a regular file cannot be listed; on FAT16 the root
  directory is cut at the size of a cluster; in the boot loaders `dir/..` to the root and a file in the middle of a path
  give ENOENT (`y_umlaut_violated`, `blank_violated`, `name255_violated`, `small_buffer_violated`, `no_label_violated`,
  `fixed_root_violated`, `dotdot_violated`, `enotdir_violated`).
* C45: two tasks that lock the same file at the same time both get it, even for different subsystems, because the result of
  the insertion into the tree is ignored (`Flock.two_owners_violated`); an acquire between the last release and the removal
  uses the freed lock (`use_after_free_violated`).
* C76: `execve` of a file that is not an ELF program (each script) keeps its lock for ever, and so does a failure in
  `setup_process`; the file can never be opened for writing again (`Flock.script_violated`).
* C78: a deferred timer that expires while the first worker waits inside a job, for example for a mutex, makes it runnable;
  the job goes on without what it waited for (`Wth.timer_wakes_job_violated`). No timer of this mode exists in the kernel yet.
* C47: a link to another file system leaves that file system unlocked, and it is unlocked again later
  (`Resolve.cross_link_violated`); an absolute link on a mounted file system that leads nowhere makes the call unlock a file system twice
  (`Resolve.failing_link_violated`); failing mounts keep a reference (`Resolve.failed_mount_violated`).
* C79: `file/x` makes the file system search the file's inode as a directory; in ramfs its block tree is taken for a tree of
  entries, and O_CREAT adds an entry to it (`Resolve.file_as_directory_violated`). `mkdir new//` fails (`Resolve.two_slashes_violated`).
* C80: components of 231 to 255 bytes overflow a buffer on the kernel's stack (`Resolve.long_name_violated`).
* C81: the last component of `dir//` is wrong (`Resolve.last_component_violated`); open with O_CREAT on a dangling link creates an
  entry with the link's name in the target's directory (`Resolve.create_through_link_violated`).
* C82: a wait interrupted by a signal returns true, "signalled" (`Kcond.wait_interrupted_violated`). kernel_sleep and kcond_wait interrupted by a signal do
  not cancel the task's timer; it ends a later wait without timeout (`Kcond.wait_forever_times_out_violated`).
* C83: kcond_signal_one is lost if the first task in the list has timed out but not run yet (`Kcond.signal_one_lost_violated`), and a task in poll
  takes it from one that waits (`Kcond.poll_steals_signal_violated`).
* C85: a leftover timer wakes a task up in kmutex_lock; two tasks then hold the mutex (`Kcond.two_owners_violated`).
* C86: poll returns without wait_obj_reset if its time is over and a signal arrives before it runs; the next wait panics
  (`Kcond.wait_object_in_use_violated`).
* C87: a signal that arrives just before a task sleeps does not wake it up (`Kcond.signal_before_sleep_violated`, `Kcond.signal_during_poll_violated`).
* C88, C90: the erase character removes the newline of a finished line that nobody has read yet; the next read spins for ever
  (`TtyIn.erase_finished_line_violated`). After a switch from raw to canonical mode with a newline unread, reads lag one line behind
  (`TtyIn.mode_switch_violated`). A NUL ends a line, as disabled EOL characters are 0 (`TtyIn.nul_ends_line_violated`).
* C89: in raw mode a read of less than VMIN bytes takes bytes it does not return: ASSERT (`TtyIn.raw_small_read_violated`) or, with EAGAIN, they are lost
  (`TtyIn.raw_eagain_loses_violated`). Two reads at a time take the same byte: ASSERT (`TtyIn.two_readers_violated`).
* C90: a newline that finds the buffer full is dropped but counted (`TtyIn.newline_lost_violated`); on a serial port a line longer than the buffer is
  a deadlock (`TtyIn.serial_deadlock_violated`).
* C91: poll ignores what is left of a line on a blocking handle (`TtyIn.poll_misses_rest_violated`); dup and fork duplicate it
  (`TtyIn.dup_delivers_twice_violated`).
* C92: Ctrl+C while a read takes a line: ASSERT (`TtyIn.interrupt_race_violated`) or lines get mixed (`TtyIn.interrupt_mixes_lines_violated`); the
  KILL character is not supported (`TtyIn.kill_char_violated`).
* C93: the seconds of FAT file times are halved and the hundredths taken as tenths (`Time.fat_seconds_violated`); years over 65535 wrap
  (`Time.year_wraps_violated`).
* C94: sleeps of 2^64 ns and more are short, negative nanoseconds are accepted (`Time.sleep_overflow_violated`); the remaining time can exceed the request
  (`Time.remaining_grows_violated`); timeouts of poll and select are rounded down (`Time.poll_timeout_violated`); a sleep is up to a tick short by a real
  clock (`Time.sleep_short_violated`), and a tenth short by the system's clock while that is slowed down (`Time.sleep_slewed_violated`).
* C95: 18 interrupts per second are admitted but do not fit the timer's 16 bits (`Time.divisor_18_violated`).
* C96: after a suspension of an hour the clock runs 45 times too fast (`Time.suspend_runaway_violated`); a hardware clock set back by 80 seconds
  can lead to a division by zero (`Time.set_back_panics_violated`).
* C97: sys_clock_getres calls do_clock_gettime (`Time.getres_violated`).
* Not modelled: sys_nanosleep_time32 copies sizeof(struct k_timespec64) bytes into a struct k_timespec32 on the stack (kernel/syscalls.c:73).
* C98: `user_out_of_range` adds with wrap-around, so a huge size lets copy_from_user and copy_to_user reach kernel memory (`UserMem.copy_from_user_kernel_violated`,
  `UserMem.copy_to_user_kernel_violated`); the index of a pointer array can wrap (`UserMem.array_index_wraps_violated`).
* C100: 30 arguments and an interpreter argument overflow the array by one (`Exec.arg_overflow_violated`); an empty argv exposes stale arguments
  (`Exec.empty_argv_violated`); a blank at index 126 of the first line leaves the buffer (`Exec.blank_at_end_violated`); blanks after the interpreter become
  arguments (`Exec.trailing_blank_violated`, `Exec.two_blanks_violated`).
* C102: readv copies the whole requested length (`SysIo.readv_overwrites_violated`); an error after the first buffer loses what was read (`SysIo.readv_loses_data_violated`) or hides
  what was written (`SysIo.writev_error_violated`).
* C103: counts of 2^29 and more wrap in readv, writev and poll (`SysIo.vec_count_wraps_violated`, `SysIo.poll_count_wraps_violated`); lengths of 2 GB and more escape the overflow check
  (`SysIo.iov_overflow_violated`); sigprocmask and sigpending copy as many bytes as the caller asks for from the task structure and from behind the page of zeros
  (`SysIo.sig_leak_violated`, `SysIo.sig_window_violated`).
* C104: scrolling down in a region shorter than the count (`Vterm.scroll_down_in_region_violated`, exact condition in `Vterm.scroll_down_faults`), deleting lines
  (`Vterm.delete_lines_violated`, `Vterm.delete_lines_faults`) and a tab after a full line followed by the erase key (`Vterm.tab_after_full_line_violated`) leave the buffers; the colour of
  the cursor's cell is read past the end of the ring (`Vterm.cursor_colour_overread_violated`).
* C105: deleting lines moves only as many lines as are deleted plus one (`Vterm.delete_line_violated`); scrolling down in a region that does not begin at the first line
  (`Vterm.scroll_down_region_violated`); inserting lines above the region (`Vterm.insert_line_above_region_violated`); erasing up to the cursor leaves the cursor's place
  (`Vterm.erase_to_cursor_violated`); erasing the history moves the cursor (`Vterm.erase_history_moves_cursor_violated`).
* C106: text and display differ after `Vterm.insert_line_above_region_violated`, `Vterm.delete_below_region_violated`; KD_GRAPHICS twice leaves the terminal without output
  (`Vterm.pause_twice_violated`).
* C109: a tab mark stays when the tab is overwritten (`Vterm.erase_after_overwritten_tab_violated`); a tab in the last column (`Vterm.erase_tab_in_last_column_violated`).
* C110: 16 semicolons (`Console.many_parameters_violated`, exact condition in `Console.parameters_overflow`), or one number of 26 digits (`Console.long_number_violated`), overrun `params[16]`
  on the kernel's stack: any program that can write to the terminal can do this; with 64 parameter bytes a zero is written after the array (`Console.long_sequence_violated`).
* C111: parameters are cut to 12 or 16 bits (`Console.erase_parameter_cut_violated`, `Console.scroll_parameter_cut_violated`, `Console.down_goes_up_violated`) or overflow
  (`Console.next_line_overflow_violated`); after a full line the reported column does not exist (`Console.cursor_report_violated`).
* C112, C113: `ESC c` does not change the colour of the rest of the write (`Console.division_after_reset_violated`, `Console.reset_keeps_colour_violated`), nor does it reset bold and
  reverse (`Console.reset_keeps_bold_violated`); extended colours are misread (`Console.extended_colour_violated`).
* C114: unknown escape sequences swallow text (`Console.escape_swallows_text_violated`); `ESC [ >` sequences are taken for others (`Console.modifiers_reset_colour_violated`,
  `Console.secondary_attributes_violated`); see also `Console.line_drawing_letters_violated`, `Console.output_erases_violated`.
* Not modelled, seen while reading: `ESC c` sets `kd_gfx_mode = KD_TEXT` without restarting the output, so a terminal in KD_GRAPHICS stays without output afterwards.
* C115: a kernel message (preemption disabled) which finds the queue empty is executed in the middle of the request of another task (`TermQueue.overlap_violated`).
* C116: a write which finds the queue not empty returns before its text is read; the caller's next write reuses the buffer, so one text is lost and the next one shown twice
  (`TermQueue.text_lost_violated`). The echo passes the address of a local variable in the same way.
* C117: a request made while executing another one (the answer to `ESC [ 6 n`, echoed in the normal mode) locks a mutex the task already owns: it and every task waiting for the terminal
  never return (`TermQueue.self_deadlock_violated`, `TermQueue.nested_never_returns`).
* Not modelled, seen while reading: during a panic a request which finds the queue full executes the others but is itself lost (kernel/tty/term_aux.c:20-28).
* C118: with a buffer of 0 bytes a byte before or after it is changed (`Snprintk.empty_buffer_violated`); an unknown conversion with a width can write the NUL one byte beyond the buffer, as the
  result of the write of the width is ignored (`Snprintk.unknown_conversion_violated`); `%##` at the end reads the format after its end (`Snprintk.overread_violated`); a width or precision of 2^31
  or more in the format loops forever (`Snprintk.huge_width_violated`).
* C119: a precision smaller than the number of digits cuts the number; zeros come before the sign; `0` and `-` together add zeros at the right; a width is forgotten with a precision; a string cut by
  its precision does not fill its field; `#` with 0, `X` or a precision; a negative precision hides the string; a pointer's field is two too wide (`Snprintk.*_violated`). `+` and space flags are
  treated as unknown conversions, `%c` of NUL writes nothing.
* C120: a closed descriptor is reported but not counted (`PollSel.closed_not_counted_violated`), negative descriptors are not ignored, one event only is reported per entry, POLLRDNORM and
  POLLWRNORM are never reported and change the caller's `events`, ordinary files opened for reading only are never ready (`PollSel.*_violated`).
* C121: select returns 0 without a timeout when another process takes the data between the count and the report (`PollSel.select_returns_zero_violated`); the same files are never ready; closed
  descriptors are accepted when another one is ready; a timeout of 0 waits a tick, others are rounded down (`PollSel.select_*_violated`). Seen while reading: pselect6 overwrites the caller's
  timeout with microseconds during the call, and so does select with what is left.
* C122: printk sets its flag before it disables preemption. A task preempted in between appends its message after the call it relied on has finished; an interrupt at the wrong moment then shows
  bytes not yet stored (`Printk.garbage_violated`). The message of a handler can come between another's prefix and text (`Printk.message_torn_violated`); with a full buffer messages are shown out of
  order (`Printk.out_of_order_violated`); prefixes are put in the middle of lines (`Printk.prefix_in_line_violated`).
* C123: in the same window a message stays in the buffer until another one is printed (`Printk.message_stuck_violated`).
* C124: setpgid accepts a group that does not exist, and with a group of 0 does not look at who is in the group named after the process: a group can be in two sessions (`Pgrp.session_split_violated`).
* C125: setpgid refuses a process that has called execve and names itself by its id (`Pgrp.setpgid_own_id_violated`); it moves processes that are not children, session leaders, and into groups that
  do not exist (`Pgrp.setpgid_stranger_violated`, `Pgrp.setpgid_leader_violated`, `Pgrp.setpgid_no_group_violated`); getsid ignores its argument (`Pgrp.getsid_violated`).
* C126: kill(-1) is sent to init as well, against its own comment (`Pgrp.broadcast_init_violated`); a group with init alone in it does not exist for kill (`Pgrp.group_of_init_violated`).
* C127: TIOCSCTTY takes a terminal that belongs to another session (`Pgrp.terminal_stolen_violated`); TIOCGPGRP returns the group instead of storing it (`Pgrp.tcgetpgrp_violated`); a background
  process that reads gets EIO, without SIGTTIN (`Pgrp.background_read_violated`).
* C128: after chdir through a symbolic link, getcwd returns a path with the link in it (`Cwd.link_in_text_violated`), and with `..` after the link the name of a directory that is not the current one
  (`Cwd.dotdot_after_link_violated`); if the absolute path gets longer than 255 bytes, chdir succeeds and getcwd returns whatever an earlier call has left in a kernel buffer (a debug kernel stops)
  (`Cwd.long_path_violated`); after a rename, getcwd returns the old name (`Cwd.renamed_violated`).
* C129: chdir to a directory whose absolute path has 255 bytes stores a zero byte after the end of `str_cwd` (`Cwd.text_overflow_violated`).
* C130: getcwd refuses a buffer in which the path just fits, and its result is one too large (`Cwd.exact_buffer_violated`).
* C131: set_thread_area with entry number 0 overwrites the first entry of the table, because a free slot of the process holds 0 (`Gdt.null_entry_violated`); the processor never uses that entry.
* C132: limits of more than 20 bits are cut off (`Gdt.limit_cut_violated`), or stop a debug kernel (`Gdt.limit_stops_violated`).
* C133: setting one's own entry again increments its reference count, so that it is never freed (`Gdt.leak_violated`): a process can fill the table; after clearing an entry, fork stops a debug kernel
  (`Gdt.fork_stops_violated`).
* C134: parent and child share the entries after fork, where they should have copies, so that set_thread_area of one changes the segment of the other (`Gdt.shared_after_fork_violated`); a process that
  has cleared its entry can still change it after another process got it (`Gdt.cleared_reused_violated`).
* C135: `ramfs_mmap` maps the blocks it finds one after the other, so that with a hole in the file the pages behind it show the wrong part (`RamMmap.hole_shift_violated`); data written after mmap to a hole or
  past the end is not seen in the mapping, which gets the zero page (`RamMmap.grown_violated`); a store to a page that was written through a handle since mmap is lost (`RamMmap.lost_store_violated`), and
  stops a debug kernel (`RamMmap.store_stops_violated`).
* C135, C136: a load from a hole maps the zero page of the whole system, writable; a later store changes it for everybody (`RamMmap.zero_page_violated`).
* C136: after mmap of a file with holes and truncate the process keeps a writable mapping of frames given back to the kernel (`RamMmap.freed_mapped_violated`).
* C137: pages are mapped writable if the handle is opened for reading and writing, also without PROT_WRITE (`RamMmap.readonly_written_violated`); a read-only mapping of a hole gives a read-only handle
  write access to the zero page (`RamMmap.readonly_zero_violated`); a file opened for writing only can be read by mmap (`RamMmap.writeonly_read_violated`), and stores to such a mapping fail, or stop a debug
  kernel (`RamMmap.writeonly_store_violated`).
* C138: a segment for writing on a page that also has a segment for reading is not writable (`Elf.not_writable_violated`); behind the bytes of a segment for reading only there is more of the file instead of
  zeros (`Elf.no_zeros_violated`); executables with holes are mapped wrong (`Elf.hole_violated`).
* C139: the addresses of segments are not compared with the end of user memory: a program file can overwrite the page of kernel code that all processes execute (`Elf.kernel_overwritten_violated`), map pages
  into the kernel's part (`Elf.kernel_mapped_violated`), stop a debug kernel or make it write anywhere (`Elf.big_page_violated`); with two segments at address 0 the loop that undoes a mapping never
  ends and unmaps everything (`Elf.undo_loop_violated`); loading can change the program file, although it is opened for reading (`Elf.file_changed_violated`).
* C140: a file that is too short for a segment for reading is accepted (`Elf.cut_off_accepted_violated`); `e_phentsize` is ignored (`Elf.entry_size_violated`); a segment with more bytes in the file than in
  memory, or no headers at all, stops a debug kernel (`Elf.debug_stops_violated`).
* C141: if the headers cannot be loaded, as for every script with `#!`, the lock on the file is kept (`Elf.lock_leaked_violated`): it can never be opened for writing again.
* C142: a child made by `vfork` shares its parent's page directory but has its own copy of `brk`; if it calls `brk` the parent's number is stale: `Brk.vfork_violated` (a user program can make the kernel drop a reference of page frame 0, or hit an assertion).
* C144: `brk` uses `kmalloc`, not `kzmalloc`: `Brk.stale_data_violated`.
* C145: growth stops in the middle when memory runs out and keeps what it got: `Brk.partial_growth_violated`.
* C143: addresses within a page are refused: `Brk.unaligned_violated`.
* C146: `dup` and `fork` copy the offset instead of sharing it: `OpenFile.dup_offset_violated`, `dup_write_violated`.
* C147: `creat(path, 0444)` hits `ASSERT(rc == 0)` in `ramfs_open_int`: `OpenFile.creat_stops_violated`; a failing `open` leaves a new file: `failed_creates_violated`; `opendir` of a missing name gives ENOTDIR: `missing_dir_violated`; directories need read permission to open files in them, and no search permission to truncate or rmdir: `search_only_violated`, `no_search_violated`.
* C148: `ftruncate` ignores the access mode of the descriptor: `OpenFile.ftruncate_readonly_violated`, `ftruncate_refused_violated`.
* C149: it empties running programs: `OpenFile.ftruncate_running_violated`; the lock of a file is lost when `ramfs_dir_add_entry` fails: `lock_lost_violated`; `O_CREAT|O_RDONLY` takes the writers' lock: `reader_blocks_violated`.
* C150: `truncate` and `ftruncate` of a directory overwrite `num_entries` (a union with `fsize`): `OpenFile.truncate_dir_violated`.
* C152: `base64_decode` refuses the encoding of the empty input: `Codec.empty_violated`; it accepts `=` inside of a group and drops what follows a padded group: `Codec.malformed_violated`.
* C154: `-selftest` with a name of 247 characters overruns the stack buffer of `handle_selftest_kopt`: `Cmdline.selftest_overflow_violated`.
* C155: in `-pk x false` the stray `false` switches the flag off: `Cmdline.stale_option_violated`.
* C157: with Caps Lock, Shift+letter gives the capital (`Kbd.caps_shift_violated`); Shift+Backspace gives BS, Shift+Enter LF (`Kbd.shift_erase_violated`); a held lock key toggles repeatedly (`Kbd.lock_repeat_violated`); F1-F5 with a modifier give nothing (`Kbd.fkey_modifier_violated`); Ctrl+] ^ _ give no control character (`Kbd.ctrl_violated`).
* C158: medium raw mode delivers a spurious 0x80 on the release of a key without code and drops the press of lock keys: `Kbd.mediumraw_violated`.
* C160: with 512 bytes waiting a release is lost and the key stays pressed: `Kbd.overflow_violated`.
* C162: a second file system mounted at the same path, or one mounted at "/", gives 0 but is not visible there: `MountPt.visible_violated`.
* C163: mp_add returning EBUSY or EPERM does not release the host file system: `MountPt.fs_refs_violated`.
* C164: the root file system can be mounted inside itself: `MountPt.tree_violated`.
* C165: with a file system mounted at "/", "/a/.." is not "/": `MountPt.dotdot_violated`.
* C169: for requests of 1025 to 2047 bytes general_kmalloc reports the size 2048; general_kfree with this size looks in the main heaps: `SmallHeap.told_size_violated`.
* C170: a fork() that fails for lack of memory frees the mappings of the parent (`Fork.fork_loses_mappings_violated`), leaks a reference to the lock of the executable or the page directory (`Fork.fork_leaks_violated`), closes a NULL handle (`Fork.fork_null_handle_violated`) or leaves a freed mapping record on the list of an inode (`Fork.fork_stale_record_violated`).
* C173: a failed vfork() frees the mappings the parent goes on using (`Fork.vfork_frees_mappings_violated`); a successful one makes the parent's file mappings refer to the handles of the child, which are freed when it exits (`Fork.vfork_dangling_violated`).
* C178: unregister_on_task_exit_cb never frees the object it takes off the list (`TaskRes.unregister_leaks_violated`).
* C179: acquiring the card twice and releasing it leaves a callback that later takes the card from another task (`TaskRes.sound_stolen_violated`).
* C180: kthread_create2 returns errors with preemption disabled (`TaskRes.kthread_fail_preempt_violated`), and frees the stack twice without memory for the buffers (`TaskRes.kthread_double_free_violated`).
* C181: Ctrl+W erases a word on the screen only (`TtyEcho.werase_violated`); erasing Ctrl+U or the end-of-file character removes two characters that were not drawn for it (`TtyEcho.kill_violated`, `TtyEcho.eof_violated`); after Ctrl+Z erasing removes what it drew (`TtyEcho.susp_violated`); DEL is shown as ^ and byte 191 (`TtyEcho.del_shown_violated`).
* C182: ECHONL writes line ends in raw mode too (`TtyEcho.echonl_raw_violated`).
* C183: pread from beyond the end of the framebuffer computes a negative size; the range check of user buffers wraps, so kernel memory is handed out up to the first fault (`FbDev.pread_violated`). With positions above 2 GB pwrite puts any bytes at any kernel address in the 2 GB before the framebuffer and succeeds (`FbDev.pwrite_violated`).
* C184: SEEK_END is from the current position, backwards (`FbDev.seek_end_violated`); positions are compared on 32 bits (`FbDev.seek_far_violated`); a failed read moves the position (`FbDev.failed_read_violated`).
* C185: TCSETSF with a bad address fails after the input was thrown away (`TtyMode.flush_violated`); tty_reset_termios does not update the handlers, so after ESC c the old interrupt character still interrupts and the reported one does not (`TtyMode.stale_violated`).
* C186: a process in medium raw mode that gives up its terminal and is killed makes the kernel use a null pointer (`TtyMode.crash_violated`); a killed child takes the mode away from its parent (`TtyMode.fork_violated`); a process that changed terminals resets the wrong one (`TtyMode.other_violated`).
* C187: a number written without a line end is read together with digits that an earlier call left in the kernel's buffer (`Sysfs.ulong_stale_violated`); a write of more than 32 bytes to a number overwrites the kernel's stack (`Sysfs.ulong_smash_violated`, `Sysfs.long_smash_violated`); no text sets a boolean (`Sysfs.bool_set_violated`).
* C188: the second of two writes puts a node in a list that it is already in. Then nothing is stored at the close (`Sysfs.twice_lost_violated`) and sync() never ends (`Sysfs.sync_hangs_violated`). sync() takes the handle off the list before flushing, so nothing is stored (`Sysfs.sync_lost_violated`). dup() copies the list node and flushes nothing; the last close undoes writes of the other descriptor (`Sysfs.dup_violated`). Reading after SEEK_END fails an assertion (`Sysfs.seek_end_violated`).
* C189: the search for a free dynamic number looks at each driver once, so a number already in use may be given again (`DevFs.majors_violated`). Not reachable with the drivers in the tree, which ask for numbers below 900.
* C190: stat mixes minor numbers from 256 on with the major number (`DevFs.rdev_violated`); block devices are accepted but stat of them panics (`DevFs.block_violated`); names are not checked for duplicates (`DevFs.name_violated`); an open refused by the driver leaks the handle (`DevFs.open_leak_violated`).
* C191: the first handler that handles an interrupt ends the loop over the handlers of the line; if COM1 and COM3 both have bytes, those of COM3 stay in the port, and as the line is edge-triggered all further bytes of COM3 raise no interrupt (`Serial.shared_violated`).
* C193: pread from any of the three devices, and pwrite to /dev/null and /dev/zero, at an offset other than 0 fails `ASSERT(*pos == 0)` and stops a kernel built with assertions (`NullDev.pread_violated`, `NullDev.pwrite_violated`).
* C194: kb_led_set and kb_set_typematic_byte return after a failed i8042_disable_ports without i8042_enable_ports, so the keyboard's interrupt stays masked although the controller is idle again; the lights are only set again by a key (`Kbc.busy_violated`).
* C195: AcpiOsWaitSemaphore takes ACPI_WAIT_FOREVER (0xFFFF) for 65535 ms and gives up (`AcpiSem.forever_violated`); a timeout below a tick does not wait at all (`AcpiSem.short_violated`); AcpiOsCreateSemaphore accepts more units than the limit (`AcpiSem.create_violated`).
