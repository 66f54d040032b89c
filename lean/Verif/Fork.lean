/-
fork() and vfork(): what the child gets, what a failure leaves behind, what the end of the child gives back.

Modelled code (vvaltchev/tilck):
  kernel/fork.c 14-189                    fork_dup_all_handles, do_fork
  kernel/process.c 116-156, 203-319       do_common_task_allocs, free_common_task_allocs, allocate_new_process
  kernel/process.c 348-390, 560-581       free_task, vforked_child_transfer_dispose_mi
  kernel/mm/process_mm_base.c 56-63, 88-170, 186-276   mappings: removal, duplication
  kernel/exit.c 99-111, 251-325           the resources a dying process gives back
  kernel/vfs/vfs.c 27-64, 76-111          vfs_close, vfs_dup

Every kernel object (page directory, process object, mappings_info, mapping record, kernel stack, I/O buffer, command line
buffer, file handle) is a numbered object of one heap; each attempt to allocate takes the next number, and whether attempt n
succeeds is an arbitrary function of n, so every pattern of failures is covered. Simplifications: the copy of the mmap heap
is part of the mappings_info object; page tables are part of the page directory; a handle stands for its references to the
file system, the inode and the lock; the default configuration FORK_NO_COW = 0 is taken, where arch_specific_new_task_setup
cannot fail; the parent has a current directory, as every user process does.
-/
import Mathlib.Data.List.Basic
import Mathlib.Data.List.Perm.Basic
import Mathlib.Tactic.Common

namespace Verif.Fork

/-! ## Model -/

/-- struct user_mapping: the record itself and the handle of the file it maps, if any. -/
structure Um where
  id : Nat
  h : Option Nat
  deriving DecidableEq

/-- The kernel heap. `ums` gives the mappings list of a mappings_info object, `filed` says which mapping records are on the
list of mappings of their inode, `bad` is set by a free of what is not allocated and by the use of a NULL handle. -/
structure Heap where
  live : Nat → Bool
  next : Nat
  ums : Nat → List Um
  filed : Nat → Bool
  bad : Bool

def upd {α : Type} (f : Nat → α) (a : Nat) (b : α) : Nat → α := fun x => if x = a then b else f x

/-- kmalloc: attempt number `next` succeeds if `ok` says so. -/
def alloc (ok : Nat → Bool) (t : Heap) : Option Nat × Heap :=
  if ok t.next then (some t.next, { t with live := upd t.live t.next true, next := t.next + 1 })
  else (none, { t with next := t.next + 1 })

/-- kfree. -/
def free (n : Nat) (t : Heap) : Heap := { t with live := upd t.live n false, bad := t.bad || !t.live n }

/-- kfree of a pointer that may be NULL. -/
def freeOpt (n : Option Nat) (t : Heap) : Heap :=
  match n with
  | none => t
  | some n => free n t

/-- process_mm_base.c:56-63 process_remove_user_mapping, 195-199: off the inode's list, then freed. -/
def freeUm (t : Heap) (u : Um) : Heap := free u.id { t with filed := upd t.filed u.id false }

/-- process_mm_base.c:186-202 free_mappings_info. -/
def freeMi (m : Nat) (t : Heap) : Heap := free m ((t.ums m).foldl freeUm t)

/-- process.c:137-143 process_free_mappings_info. -/
def freeOptMi (m : Option Nat) (t : Heap) : Heap :=
  match m with
  | none => t
  | some m => freeMi m t

def setUms (m : Nat) (us : List Um) (t : Heap) : Heap := { t with ums := upd t.ums m us }

/-- process_mm_base.c:88-137: remove the mappings of a list that satisfy `p`. -/
def removeWhere (p : Um → Bool) (m : Nat) (t : Heap) : Heap :=
  setUms m ((t.ums m).filter fun u => !p u) (((t.ums m).filter p).foldl freeUm t)

/-- vfs.c:27-64 vfs_close, called by a process with the given `vforked` flag and mappings. -/
def closeH (vforked : Bool) (mi : Option Nat) (h : Nat) (t : Heap) : Heap :=
  match vforked, mi with
  | false, some m => free h (removeWhere (fun u => u.h == some h) m t)
  | _, _ => free h t

/-- fork.c:34-35: vfs_close() on every entry of the child's table below the failing one; a NULL one is dereferenced. -/
def closeAll (vforked : Bool) (mi : Option Nat) : List (Option Nat) → Heap → Heap
  | [], t => t
  | none :: r, t => closeAll vforked mi r { t with bad := true }
  | some h :: r, t => closeAll vforked mi r (closeH vforked mi h t)

/-- struct process and its main task. -/
structure Proc where
  obj : Nat
  pid : Nat
  pdir : Nat
  mi : Option Nat
  fds : List (Option Nat)
  elf : Bool
  cmdline : Option Nat
  stack : Nat
  iobuf : Nat
  vforked : Bool
  children : List Nat
  deriving DecidableEq

/-- The heap, the calling process, the references to the lock of its executable and to its current directory. -/
structure St where
  hp : Heap
  par : Proc
  elfRefs : Nat
  cwdRefs : Nat

/-- process_mm_base.c:226-254: copy the mapping records. -/
def dupLoop (ok : Nat → Bool) : List Um → List Um → Heap → (Bool × List Um) × Heap
  | [], done, t => ((true, done), t)
  | u :: us, done, t =>
    match alloc ok t with
    | (none, t) => ((false, done), t)
    | (some n, t) =>
      dupLoop ok us (done ++ [⟨n, u.h⟩]) (if t.filed u.id then { t with filed := upd t.filed n true } else t)

/-- process_mm_base.c:260-273: the failure path frees the copies but leaves them on the lists of the inodes. -/
def dupOom (n : Nat) (us : List Um) (t : Heap) : Heap := free n (us.foldl (fun t u => free u.id t) t)

/-- process_mm_base.c:204-276 duplicate_mappings_info. -/
def dupMi (ok : Nat → Bool) (m : Nat) (t : Heap) : Option Nat × Heap :=
  match alloc ok t with
  | (none, t) => (none, t)
  | (some n, t) =>
    match dupLoop ok (t.ums m) [] t with
    | ((true, us), t) => (some n, setUms n us t)
    | ((false, us), t) => (none, dupOom n us t)

/-- process.c:245-257: a vforked child shares the parent's mappings. The outer `none` is a failure. -/
def childMi (ok : Nat → Bool) (vf : Bool) (pm : Option Nat) (t : Heap) : Option (Option Nat) × Heap :=
  match vf, pm with
  | false, some m =>
    match dupMi ok m t with
    | (none, t) => (none, t)
    | (some n, t) => (some (some n), t)
  | _, _ => (some pm, t)

/-- process.c:224-234: the command line buffer, if the debug panel is compiled in. -/
def allocCmd (ok : Nat → Bool) (dbg : Bool) (t : Heap) : Option (Option Nat) × Heap :=
  match dbg with
  | false => (some none, t)
  | true =>
    match alloc ok t with
    | (none, t) => (none, t)
    | (some n, t) => (some (some n), t)

/-- process.c:116-135 do_common_task_allocs. -/
def commonAllocs (ok : Nat → Bool) (t : Heap) : Option (Nat × Nat) × Heap :=
  match alloc ok t with
  | (none, t) => (none, t)
  | (some a, t) =>
    match alloc ok t with
    | (none, t) => (none, free a t)
    | (some b, t) => (some (a, b), t)

/-- process.c:310 while ti->pi still points to the parent's process (until line 259). -/
def freeParentMi (s : St) : St :=
  { s with hp := freeOptMi s.par.mi s.hp, par := { s.par with mi := none } }

/-- process.c:295-316, reached before line 259. -/
def failEarly (obj : Nat) (cl : Option Nat) (s : St) : St :=
  { freeParentMi s with hp := free obj (freeOpt cl (freeParentMi s).hp) }

/-- process.c:295-316, reached from line 281: the child's current directory and mappings are released. -/
def failLate (obj : Nat) (cl mi : Option Nat) (s : St) : St :=
  { s with hp := free obj (freeOpt cl (freeOptMi mi s.hp)), cwdRefs := s.cwdRefs - 1 }

/-- process.c:259-293. -/
def allocProc3 (ok : Nat → Bool) (vf : Bool) (pid pdir obj : Nat) (cl mi : Option Nat) (s : St) : Option Proc × St :=
  match commonAllocs ok s.hp with
  | (none, t) => (none, failLate obj cl mi { s with hp := t })
  | (some (st, io), t) =>
    (some { s.par with obj := obj, pid := pid, pdir := pdir, mi := mi, cmdline := cl, stack := st, iobuf := io,
                       vforked := vf, children := [] },
     { s with hp := t, par := { s.par with children := s.par.children ++ [pid] } })

/-- process.c:245-278: mappings, lock of the executable, current directory. -/
def allocProc2 (ok : Nat → Bool) (vf : Bool) (pid pdir obj : Nat) (cl : Option Nat) (s : St) : Option Proc × St :=
  match childMi ok vf s.par.mi s.hp with
  | (none, t) => (none, failEarly obj cl { s with hp := t })
  | (some mi, t) =>
    allocProc3 ok vf pid pdir obj cl mi
      { s with hp := t, elfRefs := if !vf && s.par.elf then s.elfRefs + 1 else s.elfRefs, cwdRefs := s.cwdRefs + 1 }

/-- process.c:203-319 allocate_new_process. If the command line buffer cannot be allocated, the copied cwd.fs is not yet
NULL: a reference of the parent is released. -/
def allocProc (ok : Nat → Bool) (dbg vf : Bool) (pid pdir : Nat) (s : St) : Option Proc × St :=
  match alloc ok s.hp with
  | (none, t) => (none, { s with hp := t })
  | (some obj, t) =>
    match allocCmd ok dbg t with
    | (none, t) => (none, failEarly obj none { s with hp := t, cwdRefs := s.cwdRefs - 1 })
    | (some cl, t) => allocProc2 ok vf pid pdir obj cl { s with hp := t }

/-- fork.c:47-53: the mappings of the file follow the handle. -/
def retarget (mi : Option Nat) (h n : Nat) (t : Heap) : Heap :=
  match mi with
  | none => t
  | some m => setUms m ((t.ums m).map fun u => if u.h = some h then { u with h := some n } else u) t

/-- fork.c:14-57 fork_dup_all_handles: the entries still to do and those done. -/
def dupFds (ok : Nat → Bool) (par : Proc) (cmi : Option Nat) :
    List (Option Nat) → List (Option Nat) → Heap → (Bool × List (Option Nat)) × Heap
  | [], done, t => ((true, done), t)
  | none :: r, done, t => dupFds ok par cmi r (done ++ [none]) t
  | some h :: r, done, t =>
    match alloc ok t with
    | (none, t) => ((false, done), closeAll par.vforked par.mi done t)
    | (some n, t) => dupFds ok par cmi r (done ++ [some n]) (retarget cmi h n t)

/-- process.c:375-390 free_task, 348-373 free_process_int. -/
def freeTask (c : Proc) (s : St) : St :=
  { s with hp := free c.obj (freeOpt c.cmdline s.hp), par := { s.par with children := s.par.children.erase c.pid },
           cwdRefs := s.cwdRefs - 1 }

/-- process.c:145-156 free_common_task_allocs. -/
def freeCommon (c : Proc) (t : Heap) : Heap := free c.iobuf (free c.stack (freeOptMi c.mi t))

inductive Out where
  | eagain
  | enomem
  | child (c : Proc)

/-- fork.c:117-118, 180-184. -/
def finishFork (ok : Nat → Bool) (c : Proc) (s : St) : Out × St :=
  match dupFds ok s.par c.mi c.fds [] s.hp with
  | ((true, fds), t) => (.child { c with fds := fds }, { s with hp := t })
  | ((false, _), t) => (.enomem, freeTask c { s with hp := freeCommon c t })

/-- fork.c:60-189 do_fork; `pid` is the outcome of create_new_pid. -/
def doFork (ok : Nat → Bool) (dbg vf : Bool) (pid : Option Nat) (s : St) : Out × St :=
  match pid with
  | none => (.eagain, s)
  | some pid =>
    match vf with
    | true =>
      match allocProc ok dbg true pid s.par.pdir s with
      | (none, s) => (.enomem, s)
      | (some c, s) => finishFork ok c s
    | false =>
      match alloc ok s.hp with
      | (none, t) => (.enomem, { s with hp := t })
      | (some pd, t) =>
        match allocProc ok dbg false pid pd { s with hp := t } with
        | (none, s) => (.enomem, { s with hp := free pd s.hp })
        | (some c, s) => finishFork ok c s

/-- exit.c:99-111 close_all_handles, by the child. -/
def exitClose (c : Proc) : List (Option Nat) → Heap → Heap
  | [], t => t
  | none :: r, t => exitClose c r t
  | some h :: r, t => exitClose c r (closeH c.vforked c.mi h t)

/-- exit.c:276-281, 324-325; process.c:170 free_mem_for_zombie_task: a process with its own address space. -/
def exitOwn (c : Proc) (t : Heap) : Heap :=
  freeCommon c (free c.pdir (match c.mi with
    | none => t
    | some m => removeWhere (fun u => u.h.isNone) m t))

/-- exit.c:251-325 and the reaping by the parent: the whole end of a child. A vforked one drops its pointer to the
mappings (process.c:560-581) and keeps neither page directory nor lock. -/
def exitReap (c : Proc) (s : St) : St :=
  match c.vforked with
  | true => freeTask c { s with hp := freeCommon { c with mi := none } (exitClose c c.fds s.hp) }
  | false =>
    freeTask c { s with hp := exitOwn c (exitClose c c.fds s.hp),
                        elfRefs := if c.elf then s.elfRefs - 1 else s.elfRefs }

/-! ## Specification -/

/-- Nothing a process can see, and no kernel memory, differs between the two states. -/
structure Same (s s' : St) : Prop where
  par : s'.par = s.par
  elfRefs : s'.elfRefs = s.elfRefs
  cwdRefs : s'.cwdRefs = s.cwdRefs
  live : ∀ n, s'.hp.live n = s.hp.live n
  filed : ∀ n, s'.hp.filed n = s.hp.filed n
  ums : ∀ m, s.par.mi = some m → s'.hp.ums m = s.hp.ums m
  bad : s'.hp.bad = s.hp.bad

/-- The states fork() is called in. -/
structure WF (s : St) : Prop where
  bound : ∀ n, s.hp.next ≤ n → s.hp.live n = false ∧ s.hp.filed n = false
  mi : ∀ m, s.par.mi = some m → s.hp.live m = true
  recs : ∀ m u, s.par.mi = some m → u ∈ s.hp.ums m → s.hp.live u.id = true
  fds : ∀ h, some h ∈ s.par.fds → s.hp.live h = true
  distinct : (s.par.fds.filterMap id).Nodup
  maps : ∀ m u h, s.par.mi = some m → u ∈ s.hp.ums m → u.h = some h → some h ∈ s.par.fds
  cwd : 0 < s.cwdRefs

/-! ## Heaps with some more objects -/

/-- `t` is `s` with more objects, all new: `L`, and the mapping records `U`. -/
structure Ext (s t : Heap) (L U : List Nat) : Prop where
  live : ∀ n, t.live n = true ↔ s.live n = true ∨ n ∈ L ∨ n ∈ U
  fresh : ∀ n, n ∈ L ∨ n ∈ U → s.next ≤ n ∧ n < t.next
  nodup : (L ++ U).Nodup
  next : s.next ≤ t.next
  filed : ∀ n, n < s.next → t.filed n = s.filed n
  filedNew : ∀ n, s.next ≤ n → t.filed n = true → n ∈ U
  ums : ∀ n, n < s.next → t.ums n = s.ums n
  bad : t.bad = s.bad
  old : ∀ n, s.next ≤ n → s.live n = false

theorem upd_apply {α : Type} (f : Nat → α) (a x : Nat) (b : α) : upd f a b x = if x = a then b else f x := rfl

theorem Ext.refl {s : Heap} (hb : ∀ n, s.next ≤ n → s.live n = false ∧ s.filed n = false) : Ext s s [] [] :=
  ⟨by simp, by simp, by simp, Nat.le_refl _, fun _ _ => rfl,
   fun n hn hf => by rw [(hb n hn).2] at hf; exact absurd hf (by decide), fun _ _ => rfl, rfl, fun n hn => (hb n hn).1⟩

theorem Ext.perm {s t : Heap} {L U L' U' : List Nat} (h : Ext s t L U) (hl : L.Perm L') (hu : U.Perm U') :
    Ext s t L' U' :=
  ⟨fun n => by rw [h.live, hl.mem_iff, hu.mem_iff], fun n hn => h.fresh n (by rwa [hl.mem_iff, hu.mem_iff]),
   (hl.append hu).nodup_iff.mp h.nodup, h.next, h.filed, fun n a b => hu.mem_iff.mp (h.filedNew n a b), h.ums, h.bad,
   h.old⟩

theorem Ext.allocNone {s t t' : Heap} {L U : List Nat} {ok : Nat → Bool} (h : Ext s t L U) (e : alloc ok t = (none, t')) :
    Ext s t' L U ∧ t'.ums = t.ums := by
  unfold alloc at e
  by_cases ho : ok t.next = true
  · rw [if_pos ho] at e; exact absurd (congrArg Prod.fst e) (by simp)
  · rw [if_neg ho] at e
    obtain rfl := (Prod.mk.inj e).2
    refine ⟨⟨h.live, fun n hn => ⟨(h.fresh n hn).1, ?_⟩, h.nodup, ?_, h.filed, h.filedNew, h.ums, h.bad, h.old⟩, rfl⟩
    · have := (h.fresh n hn).2
      show n < t.next + 1
      omega
    · have := h.next
      show s.next ≤ t.next + 1
      omega

theorem Ext.allocSome {s t t' : Heap} {L U : List Nat} {ok : Nat → Bool} {n : Nat} (h : Ext s t L U)
    (e : alloc ok t = (some n, t')) : Ext s t' (n :: L) U ∧ Ext s t' L (n :: U) ∧ n = t.next ∧ s.next ≤ n ∧
      t'.ums = t.ums ∧ t'.filed = t.filed ∧ ok t.next = true ∧ t.filed n = false := by
  unfold alloc at e
  by_cases ho : ok t.next = true
  · rw [if_pos ho] at e
    obtain ⟨e1, rfl⟩ := Prod.mk.inj e
    obtain rfl := Option.some.inj e1
    have hnl : t.next ∉ L := fun hc => Nat.lt_irrefl _ (h.fresh _ (Or.inl hc)).2
    have hnu : t.next ∉ U := fun hc => Nat.lt_irrefl _ (h.fresh _ (Or.inr hc)).2
    have hf : t.filed t.next = false := by
      cases hc : t.filed t.next with
      | false => rfl
      | true => exact absurd (h.filedNew _ h.next hc) hnu
    have hnx := h.next
    have hnd := h.nodup
    refine ⟨⟨?_, ?_, ?_, ?_, h.filed, h.filedNew, h.ums, h.bad, h.old⟩,
      ⟨?_, ?_, ?_, ?_, h.filed, fun m a b => List.mem_cons_of_mem _ (h.filedNew m a b), h.ums, h.bad, h.old⟩,
      rfl, h.next, rfl, rfl, ho, hf⟩
    · intro m
      show upd t.live t.next true m = true ↔ _
      rw [upd_apply]
      have := h.live m
      by_cases hm : m = t.next
      · simp [hm]
      · simp [hm, this]
    · intro m hm
      show _ ∧ m < t.next + 1
      rcases hm with hm | hm
      · rcases List.mem_cons.mp hm with rfl | hm
        · exact ⟨hnx, by omega⟩
        · have := h.fresh m (Or.inl hm); exact ⟨this.1, by omega⟩
      · have := h.fresh m (Or.inr hm); exact ⟨this.1, by omega⟩
    · rw [List.cons_append, List.nodup_cons]
      exact ⟨by simp [hnl, hnu], hnd⟩
    · show s.next ≤ t.next + 1
      omega
    · intro m
      show upd t.live t.next true m = true ↔ _
      rw [upd_apply]
      have := h.live m
      by_cases hm : m = t.next
      · simp [hm]
      · simp [hm, this]
    · intro m hm
      show _ ∧ m < t.next + 1
      rcases hm with hm | hm
      · have := h.fresh m (Or.inl hm); exact ⟨this.1, by omega⟩
      · rcases List.mem_cons.mp hm with rfl | hm
        · exact ⟨hnx, by omega⟩
        · have := h.fresh m (Or.inr hm); exact ⟨this.1, by omega⟩
    · rw [List.perm_middle.nodup_iff, List.nodup_cons]
      exact ⟨by simp [hnl, hnu], hnd⟩
    · show s.next ≤ t.next + 1
      omega
  · rw [if_neg ho] at e; exact absurd (congrArg Prod.fst e) (by simp)

theorem Ext.free {s t : Heap} {L U : List Nat} {n : Nat} (h : Ext s t (n :: L) U) : Ext s (free n t) L U := by
  have hnd := h.nodup
  rw [List.cons_append, List.nodup_cons] at hnd
  have hn := h.fresh n (Or.inl List.mem_cons_self)
  have hlive : t.live n = true := (h.live n).mpr (Or.inr (Or.inl List.mem_cons_self))
  refine ⟨?_, fun m hm => h.fresh m (hm.imp_left (List.mem_cons_of_mem _)), hnd.2, h.next, h.filed, h.filedNew, h.ums,
    ?_, h.old⟩
  · intro m
    show upd t.live n false m = true ↔ _
    rw [upd_apply]
    by_cases hm : m = n
    · subst hm
      have h0 := h.old m hn.1
      have := hnd.1
      simp only [List.mem_append, not_or] at this
      simp [h0, this]
    · have := h.live m
      simp [hm, this]
  · show (t.bad || !t.live n) = s.bad
    rw [hlive, h.bad]; simp

theorem Ext.freeUm {s t : Heap} {L U : List Nat} {u : Um} (h : Ext s t L (u.id :: U)) : Ext s (freeUm t u) L U := by
  have hnd := h.nodup
  rw [List.perm_middle.nodup_iff, List.nodup_cons] at hnd
  have hn := h.fresh u.id (Or.inr List.mem_cons_self)
  have hlive : t.live u.id = true := (h.live u.id).mpr (Or.inr (Or.inr List.mem_cons_self))
  refine ⟨?_, fun m hm => h.fresh m (hm.imp_right (List.mem_cons_of_mem _)), hnd.2, h.next, ?_, ?_, h.ums,
    ?_, h.old⟩
  · intro m
    show upd t.live u.id false m = true ↔ _
    rw [upd_apply]
    by_cases hm : m = u.id
    · subst hm
      have h0 := h.old u.id hn.1
      have := hnd.1
      simp only [List.mem_append, not_or] at this
      simp [h0, this]
    · have := h.live m
      simp [hm, this]
  · intro m hm
    show upd t.filed u.id false m = _
    rw [upd_apply, if_neg (show ¬ m = u.id by omega)]
    exact h.filed m hm
  · intro m hm hf
    change upd t.filed u.id false m = true at hf
    rw [upd_apply] at hf
    by_cases hm' : m = u.id
    · rw [if_pos hm'] at hf; exact absurd hf (by decide)
    · rw [if_neg hm'] at hf
      exact (List.mem_cons.mp (h.filedNew m hm hf)).resolve_left hm'
  · show (t.bad || !t.live u.id) = s.bad
    rw [hlive, h.bad]; simp

theorem Ext.freeUms {s : Heap} {L U : List Nat} : ∀ (us : List Um) {t : Heap}, Ext s t L (us.map Um.id ++ U) →
    Ext s (us.foldl Fork.freeUm t) L U
  | [], _, h => h
  | u :: us, t, h => Ext.freeUms us (Ext.freeUm (u := u) h)

theorem foldl_freeUm_ums : ∀ (us : List Um) (t : Heap), (us.foldl freeUm t).ums = t.ums
  | [], _ => rfl
  | u :: us, t => foldl_freeUm_ums us (freeUm t u)

theorem Ext.setUms {s t : Heap} {L U : List Nat} {m : Nat} (us : List Um) (h : Ext s t L U) (hm : s.next ≤ m) :
    Ext s (setUms m us t) L U :=
  ⟨h.live, h.fresh, h.nodup, h.next, h.filed, h.filedNew, fun n hn => by
    show upd t.ums m us n = _
    rw [upd_apply, if_neg (show ¬ n = m by omega)]
    exact h.ums n hn, h.bad, h.old⟩

theorem setUms_self (m : Nat) (us : List Um) (t : Heap) : (setUms m us t).ums m = us := if_pos rfl

theorem Ext.freeMi {s t : Heap} {L U : List Nat} {m : Nat} (h : Ext s t (m :: L) ((t.ums m).map Um.id ++ U)) :
    Ext s (freeMi m t) L U := Ext.free (Ext.freeUms _ h)

theorem Ext.removeWhere {s t : Heap} {L : List Nat} {m : Nat} (p : Um → Bool)
    (h : Ext s t L ((t.ums m).map Um.id)) (hm : s.next ≤ m) :
    Ext s (removeWhere p m t) L (((removeWhere p m t).ums m).map Um.id) := by
  unfold Fork.removeWhere
  rw [setUms_self]
  refine Ext.setUms _ (Ext.freeUms _ (h.perm (List.Perm.refl _) ?_)) hm
  rw [← List.map_append]
  exact (List.filter_append_perm p (t.ums m)).symm.map _

/-- Nothing was added in the end. -/
theorem Ext.same {s t : Heap} (h : Ext s t [] []) (hb : ∀ n, s.next ≤ n → s.live n = false ∧ s.filed n = false) :
    (∀ n, t.live n = s.live n) ∧ (∀ n, t.filed n = s.filed n) := by
  constructor
  · intro n
    have := h.live n
    simp only [List.not_mem_nil, or_false] at this
    exact Bool.eq_iff_iff.mpr this
  · intro n
    by_cases hn : n < s.next
    · exact h.filed n hn
    · have hn' : s.next ≤ n := by omega
      rw [(hb n hn').2]
      cases hc : t.filed n with
      | false => rfl
      | true => exact absurd (h.filedNew n hn' hc) List.not_mem_nil

/-! ## The child's own mappings -/

theorem Ext.file {s t : Heap} {L U : List Nat} {n : Nat} (h : Ext s t L U) (hn : n ∈ U) :
    Ext s { t with filed := upd t.filed n true } L U :=
  ⟨h.live, h.fresh, h.nodup, h.next, fun m hm => by
    show upd t.filed n true m = _
    have := (h.fresh n (Or.inr hn)).1
    rw [upd_apply, if_neg (show ¬ m = n by omega)]
    exact h.filed m hm,
   fun m hm hf => by
    change upd t.filed n true m = true at hf
    rw [upd_apply] at hf
    by_cases e : m = n
    · exact e ▸ hn
    · rw [if_neg e] at hf; exact h.filedNew m hm hf,
   h.ums, h.bad, h.old⟩

/-- What matters of a mapping record. -/
def view (t : Heap) (u : Um) : Option Nat × Bool := (u.h, t.filed u.id)

theorem dupLoop_true {s : Heap} {L : List Nat} {ok : Nat → Bool} : ∀ (us done : List Um) {t t' : Heap} {r : List Um},
    Ext s t L (done.map Um.id) → (∀ u ∈ us, u.id < s.next) → dupLoop ok us done t = ((true, r), t') →
    Ext s t' L (r.map Um.id) ∧ t'.ums = t.ums ∧ r.map (view t') = done.map (view t) ++ us.map (view s)
  | [], done, t, t', r, h, _, e => by
    unfold dupLoop at e
    obtain ⟨e1, rfl⟩ := Prod.mk.inj e
    obtain rfl := (Prod.mk.inj e1).2
    exact ⟨h, rfl, by simp⟩
  | u :: us, done, t, t', r, h, hu, e => by
    unfold dupLoop at e
    cases ha : alloc ok t with
    | mk x t1 =>
      rw [ha] at e
      cases x with
      | none => exact absurd (congrArg (fun x => x.1.1) e) (by simp)
      | some n =>
        dsimp only at e
        obtain ⟨_, h1, hn, _, hums, hfiled, _, hfn⟩ := h.allocSome ha
        have hnd : n ∉ done.map Um.id := fun hc => by
          have := (h.fresh n (Or.inr hc)).2
          omega
        have hp : (n :: done.map Um.id).Perm ((done ++ [Um.mk n u.h]).map Um.id) := by
          rw [List.map_append]
          exact (List.perm_append_singleton _ _).symm
        have h2 := h1.perm (List.Perm.refl _) hp
        have hul : u.id < s.next := hu u List.mem_cons_self
        have hfu : t1.filed u.id = s.filed u.id := h2.filed _ hul
        have hview : ∀ (t2 : Heap), (∀ m, m ≠ n → t2.filed m = t1.filed m) → t2.filed n = s.filed u.id →
            (done ++ [Um.mk n u.h]).map (view t2) = done.map (view t) ++ [view s u] := by
          intro t2 ha hb
          rw [List.map_append]
          congr 1
          · apply List.map_congr_left
            intro d hd
            have hne : d.id ≠ n := fun hc => hnd (hc ▸ List.mem_map_of_mem hd)
            show (d.h, t2.filed d.id) = (d.h, t.filed d.id)
            rw [ha _ hne, hfiled]
          · show [(u.h, t2.filed n)] = [(u.h, s.filed u.id)]
            rw [hb]
        by_cases hf : t1.filed u.id = true
        · rw [if_pos hf] at e
          have h3 := h2.file (n := n) (by simp)
          obtain ⟨a, b, c⟩ := dupLoop_true us _ h3 (fun v hv => hu v (List.mem_cons_of_mem _ hv)) e
          refine ⟨a, b.trans hums, c.trans ?_⟩
          rw [hview _ (fun m hm => if_neg hm) ((if_pos rfl).trans (hf.symm.trans hfu))]
          simp
        · rw [if_neg hf] at e
          obtain ⟨a, b, c⟩ := dupLoop_true us _ h2 (fun v hv => hu v (List.mem_cons_of_mem _ hv)) e
          refine ⟨a, b.trans hums, c.trans ?_⟩
          rw [hview _ (fun m hm => rfl) ?_]
          · simp
          · have : t1.filed u.id = false := by simpa using hf
            rw [hfiled, hfn, ← hfu, this]

/-- Besides `L`, the new objects are the mappings_info object `mi` and the records on its list. -/
def Own (s t : Heap) (L : List Nat) (mi : Option Nat) : Prop :=
  match mi with
  | none => Ext s t L []
  | some n => s.next ≤ n ∧ Ext s t (n :: L) ((t.ums n).map Um.id)

/-- The child's list mirrors the parent's. -/
def Mirror (s t : Heap) (pm mi : Option Nat) : Prop :=
  ∀ m n, pm = some m → mi = some n → (t.ums n).map (view t) = (s.ums m).map (view s)

theorem childMi_some {s t t' : Heap} {L : List Nat} {ok : Nat → Bool} {pm mi : Option Nat} (h : Ext s t L [])
    (hm : ∀ m, pm = some m → m < s.next ∧ ∀ u ∈ s.ums m, u.id < s.next)
    (e : childMi ok false pm t = (some mi, t')) :
    Own s t' L mi ∧ Mirror s t' pm mi ∧ mi.isSome = pm.isSome := by
  cases pm with
  | none =>
    obtain ⟨e1, rfl⟩ := Prod.mk.inj e
    obtain rfl := Option.some.inj e1
    exact ⟨h, (fun _ _ hc => absurd hc (by simp)), rfl⟩
  | some m =>
    unfold childMi at e
    dsimp only at e
    cases hd : dupMi ok m t with
    | mk x t1 =>
      rw [hd] at e
      cases x with
      | none => exact absurd (congrArg Prod.fst e) (by simp)
      | some n =>
        obtain ⟨e1, rfl⟩ := Prod.mk.inj e
        obtain rfl := Option.some.inj e1
        unfold dupMi at hd
        cases ha : alloc ok t with
        | mk x t2 =>
          rw [ha] at hd
          cases x with
          | none => exact absurd (congrArg Prod.fst hd) (by simp)
          | some k =>
            dsimp only at hd
            obtain ⟨h1, _, _, hk, hums, _, _, _⟩ := h.allocSome ha
            have hml := (hm m rfl).1
            have hu2 : t2.ums m = s.ums m := by rw [hums]; exact h.ums m hml
            cases hl : dupLoop ok (t2.ums m) [] t2 with
            | mk y t3 =>
              rw [hl] at hd
              obtain ⟨b, us⟩ := y
              cases b with
              | false => exact absurd (congrArg Prod.fst hd) (by simp)
              | true =>
                obtain ⟨e2, rfl⟩ := Prod.mk.inj hd
                obtain rfl := Option.some.inj e2
                obtain ⟨a, _, c⟩ := dupLoop_true (t2.ums m) [] (show Ext s t2 (k :: L) (([] : List Um).map Um.id) from h1)
                  (fun u hu => (hm m rfl).2 u (hu2 ▸ hu)) hl
                refine ⟨⟨hk, ?_⟩, ?_, rfl⟩
                · rw [setUms_self]
                  exact a.setUms us hk
                · intro m' n' em en
                  obtain rfl := Option.some.inj em
                  obtain rfl := Option.some.inj en
                  rw [setUms_self]
                  rw [hu2] at c
                  exact c

theorem Own.allocSome {s t t' : Heap} {L : List Nat} {mi : Option Nat} {ok : Nat → Bool} {n : Nat} (h : Own s t L mi)
    (e : alloc ok t = (some n, t')) : Own s t' (n :: L) mi ∧ s.next ≤ n ∧ t'.ums = t.ums ∧ t'.filed = t.filed := by
  cases mi with
  | none => exact ⟨(Ext.allocSome h e).1, (Ext.allocSome h e).2.2.2.1, (Ext.allocSome h e).2.2.2.2.1,
      (Ext.allocSome h e).2.2.2.2.2.1⟩
  | some m =>
    obtain ⟨a, _, _, b, c, d, _⟩ := h.2.allocSome e
    refine ⟨⟨h.1, ?_⟩, b, c, d⟩
    rw [c]
    exact a.perm (List.Perm.swap _ _ _) (List.Perm.refl _)

theorem Own.allocNone {s t t' : Heap} {L : List Nat} {mi : Option Nat} {ok : Nat → Bool} (h : Own s t L mi)
    (e : alloc ok t = (none, t')) : Own s t' L mi := by
  cases mi with
  | none => exact (Ext.allocNone h e).1
  | some m =>
    obtain ⟨a, c⟩ := h.2.allocNone e
    refine ⟨h.1, ?_⟩
    rw [c]
    exact a

theorem Own.perm {s t : Heap} {L L' : List Nat} {mi : Option Nat} (h : Own s t L mi) (hp : L.Perm L') :
    Own s t L' mi := by
  cases mi with
  | none => exact Ext.perm h hp (List.Perm.refl _)
  | some m => exact ⟨h.1, h.2.perm (hp.cons _) (List.Perm.refl _)⟩

theorem Own.free {s t : Heap} {L : List Nat} {mi : Option Nat} {n : Nat} (h : Own s t (n :: L) mi) :
    Own s (free n t) L mi := by
  cases mi with
  | none => exact Ext.free h
  | some m => exact ⟨h.1, Ext.free (h.2.perm (List.Perm.swap _ _ _) (List.Perm.refl _))⟩

theorem Own.freeMi {s t : Heap} {L : List Nat} {mi : Option Nat} (h : Own s t L mi) :
    Ext s (freeOptMi mi t) L [] := by
  cases mi with
  | none => exact h
  | some m => exact Ext.freeMi (by simpa using h.2)

theorem Own.retarget {s t : Heap} {L : List Nat} {mi : Option Nat} (a b : Nat) (h : Own s t L mi) :
    Own s (retarget mi a b t) L mi := by
  cases mi with
  | none => exact h
  | some m =>
    refine ⟨h.1, ?_⟩
    unfold Fork.retarget
    dsimp only
    rw [setUms_self, List.map_map]
    have : (Um.id ∘ fun u => if u.h = some a then { u with h := some b } else u) = Um.id := by
      funext u
      show Um.id (if u.h = some a then _ else u) = _
      by_cases hu : u.h = some a
      · rw [if_pos hu]
      · rw [if_neg hu]
    rw [this]
    exact h.2.setUms _ h.1

/-! ## The file handles -/

/-- The handles of a table. -/
def hs (l : List (Option Nat)) : List Nat := l.filterMap id

theorem dupFds_true {ok : Nat → Bool} {par : Proc} {cmi : Option Nat} (P : Heap → List Nat → Prop)
    (hstep : ∀ t t' L n h, P t L → alloc ok t = (some n, t') → P (retarget cmi h n t') (n :: L)) :
    ∀ (rem done : List (Option Nat)) {t t' : Heap} {r : List (Option Nat)} {L : List Nat}, P t L →
    dupFds ok par cmi rem done t = ((true, r), t') →
    ∃ new, r = done ++ new ∧ new.map Option.isSome = rem.map Option.isSome ∧ P t' ((hs new).reverse ++ L)
  | [], done, t, t', r, L, h, e => by
    unfold dupFds at e
    obtain ⟨e1, rfl⟩ := Prod.mk.inj e
    obtain rfl := (Prod.mk.inj e1).2
    exact ⟨[], by simp, rfl, h⟩
  | none :: rem, done, t, t', r, L, h, e => by
    unfold dupFds at e
    obtain ⟨new, rfl, b, c⟩ := dupFds_true P hstep rem _ h e
    exact ⟨none :: new, by simp, by simp [b], c⟩
  | some x :: rem, done, t, t', r, L, h, e => by
    unfold dupFds at e
    cases ha : alloc ok t with
    | mk y t1 =>
      rw [ha] at e
      cases y with
      | none => exact absurd (congrArg (fun x => x.1.1) e) (by simp)
      | some n =>
        dsimp only at e
        obtain ⟨new, rfl, b, c⟩ := dupFds_true P hstep rem _ (hstep _ _ _ _ x h ha) e
        refine ⟨some n :: new, by simp, by simp [b], ?_⟩
        have : (hs (some n :: new)).reverse ++ L = (hs new).reverse ++ n :: L := by
          show (n :: hs new).reverse ++ L = _
          simp
        rw [this]
        exact c

theorem retarget_filed (mi : Option Nat) (h n : Nat) (t : Heap) : (retarget mi h n t).filed = t.filed := by
  cases mi <;> rfl

theorem alloc_filed {ok : Nat → Bool} {t t' : Heap} {x : Option Nat} (e : alloc ok t = (x, t')) :
    t'.filed = t.filed ∧ t'.ums = t.ums ∧ t'.next = t.next + 1 ∧ (∀ n, x = some n → n = t.next) := by
  unfold alloc at e
  by_cases ho : ok t.next = true
  · rw [if_pos ho] at e
    obtain ⟨rfl, rfl⟩ := Prod.mk.inj e
    exact ⟨rfl, rfl, rfl, fun n hn => (Option.some.inj hn).symm⟩
  · rw [if_neg ho] at e
    obtain ⟨rfl, rfl⟩ := Prod.mk.inj e
    exact ⟨rfl, rfl, rfl, fun n hn => absurd hn (by simp)⟩

/-- The mappings of the child follow its handles. -/
theorem dupFds_maps {ok : Nat → Bool} {par : Proc} {m : Nat} (B : Nat) :
    ∀ (rem done : List (Option Nat)) {t t' : Heap} {r : List (Option Nat)},
    (∀ h, some h ∈ rem → h < B) → B ≤ t.next → (hs rem).Nodup →
    dupFds ok par (some m) rem done t = ((true, r), t') →
    ∃ (new : List (Option Nat)) (tr : Option Nat → Option Nat), r = done ++ new ∧ t'.filed = t.filed ∧
      t'.ums m = (t.ums m).map (fun u => { u with h := tr u.h }) ∧ tr none = none ∧
      (∀ x, x ∉ rem → tr x = x) ∧
      (∀ (i h : Nat), rem[i]? = some (some h) → ∃ n, new[i]? = some (some n) ∧ tr (some h) = some n)
  | [], done, t, t', r, _, _, _, e => by
    unfold dupFds at e
    obtain ⟨e1, rfl⟩ := Prod.mk.inj e
    obtain rfl := (Prod.mk.inj e1).2
    exact ⟨[], fun x => x, by simp, rfl, by simp, rfl, fun _ _ => rfl, fun i h hc => by simp at hc⟩
  | none :: rem, done, t, t', r, hB, hn, hnd, e => by
    unfold dupFds at e
    obtain ⟨new, tr, rfl, hf, hu, h0, h1, h2⟩ := dupFds_maps B rem _ (fun h hh => hB h (List.mem_cons_of_mem _ hh)) hn hnd e
    refine ⟨none :: new, tr, by simp, hf, hu, h0, fun x hx => h1 x fun hc => hx (List.mem_cons_of_mem _ hc), ?_⟩
    intro i h hi
    cases i with
    | zero => simp at hi
    | succ i => exact h2 i h (by simpa using hi)
  | some x :: rem, done, t, t', r, hB, hn, hnd, e => by
    unfold dupFds at e
    cases ha : alloc ok t with
    | mk y t1 =>
      rw [ha] at e
      cases y with
      | none => exact absurd (congrArg (fun x => x.1.1) e) (by simp)
      | some n =>
        dsimp only at e
        obtain ⟨af, au, an, ai⟩ := alloc_filed ha
        have hnn := ai n rfl
        have hnd' : x ∉ hs rem ∧ (hs rem).Nodup := List.nodup_cons.mp hnd
        have hx : some x ∉ rem := fun hc => hnd'.1 (List.mem_filterMap.mpr ⟨_, hc, rfl⟩)
        have hn1 : B ≤ (retarget (some m) x n t1).next := by
          show B ≤ t1.next
          omega
        obtain ⟨new, tr, rfl, hf, hu, h0, h1, h2⟩ :=
          dupFds_maps B rem _ (fun h hh => hB h (List.mem_cons_of_mem _ hh)) hn1 hnd'.2 e
        have hnr : some n ∉ rem := fun hc => by
          have := hB n (List.mem_cons_of_mem _ hc)
          omega
        refine ⟨some n :: new, fun y => tr (if y = some x then some n else y), by simp, ?_, ?_, ?_, ?_, ?_⟩
        · rw [hf]; exact af
        · rw [hu]
          unfold retarget
          dsimp only
          rw [setUms_self, List.map_map, au]
          apply List.map_congr_left
          intro u _
          show Um.mk _ _ = Um.mk _ _
          by_cases hc : u.h = some x
          · simp only [if_pos hc]
          · simp only [if_neg hc]
        · show tr (if none = some x then some n else none) = none
          rw [if_neg (by simp)]
          exact h0
        · intro y hy
          show tr (if y = some x then some n else y) = y
          rw [if_neg (show ¬ y = some x from fun hc => hy (hc ▸ List.mem_cons_self))]
          exact h1 y fun hc => hy (List.mem_cons_of_mem _ hc)
        · intro i h hi
          cases i with
          | zero =>
            have : x = h := by simpa using hi
            subst this
            refine ⟨n, by simp, ?_⟩
            show tr (if some x = some x then some n else some x) = _
            rw [if_pos rfl]
            exact h1 _ hnr
          | succ i =>
            have hi' : rem[i]? = some (some h) := by simpa using hi
            obtain ⟨k, a, b⟩ := h2 i h hi'
            refine ⟨k, by simpa using a, ?_⟩
            show tr (if some h = some x then some n else some h) = _
            rw [if_neg (show ¬ some h = some x from fun hc => hx (hc ▸ List.mem_of_getElem? hi'))]
            exact b

/-- The parent closes new handles: none of its mappings is of such a file. -/
theorem removeWhere_none {p : Um → Bool} {m : Nat} {t : Heap} (h : ∀ u ∈ t.ums m, p u = false) :
    removeWhere p m t = t := by
  unfold removeWhere
  have h1 : (t.ums m).filter p = [] := by
    rw [List.filter_eq_nil_iff]
    intro u hu
    rw [h u hu]
    decide
  have h2 : (t.ums m).filter (fun u => !p u) = t.ums m := by
    rw [List.filter_eq_self]
    intro u hu
    rw [h u hu]
    rfl
  rw [h1, h2]
  show setUms m (t.ums m) t = t
  unfold setUms
  congr 1
  funext x
  rw [upd_apply]
  by_cases hx : x = m
  · rw [if_pos hx, hx]
  · rw [if_neg hx]

/-- Facts about the parent that the new objects cannot disturb. -/
def ParOk (s : Heap) (par : Proc) : Prop :=
  ∀ m, par.mi = some m → m < s.next ∧ ∀ u ∈ s.ums m, u.id < s.next ∧ ∀ h, u.h = some h → h < s.next

theorem closeH_parent {s t : Heap} {L U : List Nat} {par : Proc} {h : Nat} (he : Ext s t L U) (hp : ParOk s par)
    (hh : s.next ≤ h) : closeH par.vforked par.mi h t = free h t := by
  cases hv : par.vforked with
  | true => rfl
  | false =>
    cases hm : par.mi with
    | none => rfl
    | some m =>
      show free h (removeWhere _ m t) = _
      rw [removeWhere_none]
      intro u hu
      rw [he.ums m (hp m hm).1] at hu
      have := ((hp m hm).2 u hu).2
      show (u.h == some h) = false
      rw [beq_eq_false_iff_ne]
      intro hc
      have := this h hc
      omega

theorem Own.ext {s t : Heap} {L : List Nat} {mi : Option Nat} (h : Own s t L mi) : ∃ L' U, Ext s t L' U ∧ ∀ x ∈ L, x ∈ L' := by
  cases mi with
  | none => exact ⟨_, _, h, fun x hx => hx⟩
  | some m => exact ⟨_, _, h.2, fun x hx => List.mem_cons_of_mem _ hx⟩

theorem closeAll_own {s : Heap} {L : List Nat} {mi : Option Nat} {par : Proc} (hp : ParOk s par) :
    ∀ (done : List (Option Nat)) {t : Heap}, (∀ x ∈ done, x.isSome = true) → Own s t (hs done ++ L) mi →
    Own s (closeAll par.vforked par.mi done t) L mi
  | [], _, _, h => h
  | none :: _, _, ha, _ => absurd (ha none List.mem_cons_self) (by simp)
  | some x :: done, t, ha, h => by
    unfold closeAll
    have h' : Own s t (x :: (hs done ++ L)) mi := h
    obtain ⟨L', U, he, hsub⟩ := h'.ext
    have hx := (he.fresh x (Or.inl (hsub x List.mem_cons_self))).1
    rw [closeH_parent he hp hx]
    exact closeAll_own hp done (fun y hy => ha y (List.mem_cons_of_mem _ hy)) h'.free

theorem dupFds_false {s : Heap} {L : List Nat} {ok : Nat → Bool} {par : Proc} {cmi : Option Nat} (hp : ParOk s par) :
    ∀ (rem done : List (Option Nat)) {t t' : Heap} {r : List (Option Nat)},
    (∀ x ∈ done, x.isSome = true) → (∀ x ∈ rem, x.isSome = true) →
    Own s t (hs done ++ L) cmi → dupFds ok par cmi rem done t = ((false, r), t') → Own s t' L cmi
  | [], done, t, t', r, _, _, h, e => by
    unfold dupFds at e
    exact absurd (congrArg (fun x => x.1.1) e) (by simp)
  | none :: rem, done, t, t', r, _, hr, h, e => absurd (hr none List.mem_cons_self) (by simp)
  | some x :: rem, done, t, t', r, hd, hr, h, e => by
    unfold dupFds at e
    cases ha : alloc ok t with
    | mk y t1 =>
      rw [ha] at e
      cases y with
      | none =>
        obtain ⟨_, rfl⟩ := Prod.mk.inj e
        exact closeAll_own hp done hd (h.allocNone ha)
      | some n =>
        dsimp only at e
        have h1 := (h.allocSome ha).1.retarget x n
        refine dupFds_false hp rem (done ++ [some n]) ?_ (fun y hy => hr y (List.mem_cons_of_mem _ hy)) (h1.perm ?_) e
        · intro y hy
          rcases List.mem_append.mp hy with hy | hy
          · exact hd y hy
          · rw [List.mem_singleton.mp hy]; rfl
        · have : hs (done ++ [some n]) = hs done ++ [n] := by simp [hs]
          rw [this, List.append_assoc]
          exact List.perm_middle.symm

/-! ## allocate_new_process -/

/-- What allocate_new_process has allocated besides the mappings. -/
def objs (c : Proc) : List Nat := c.iobuf :: c.stack :: (c.cmdline.toList ++ [c.obj])

theorem allocCmd_some {s t t' : Heap} {L : List Nat} {ok : Nat → Bool} {dbg : Bool} {cl : Option Nat} (h : Ext s t L [])
    (e : allocCmd ok dbg t = (some cl, t')) : Ext s t' (cl.toList ++ L) [] := by
  cases dbg with
  | false =>
    obtain ⟨e1, rfl⟩ := Prod.mk.inj e
    obtain rfl := Option.some.inj e1
    exact h
  | true =>
    unfold allocCmd at e
    dsimp only at e
    cases ha : alloc ok t with
    | mk x t1 =>
      rw [ha] at e
      cases x with
      | none => exact absurd (congrArg Prod.fst e) (by simp)
      | some n =>
        obtain ⟨e1, rfl⟩ := Prod.mk.inj e
        obtain rfl := Option.some.inj e1
        exact (h.allocSome ha).1

theorem commonAllocs_some {s t t' : Heap} {L : List Nat} {mi : Option Nat} {ok : Nat → Bool} {a b : Nat} (h : Own s t L mi)
    (e : commonAllocs ok t = (some (a, b), t')) :
    Own s t' (b :: a :: L) mi ∧ t'.ums = t.ums ∧ t'.filed = t.filed := by
  unfold commonAllocs at e
  cases ha : alloc ok t with
  | mk x t1 =>
    rw [ha] at e
    cases x with
    | none => exact absurd (congrArg Prod.fst e) (by simp)
    | some n =>
      dsimp only at e
      cases hb : alloc ok t1 with
      | mk y t2 =>
        rw [hb] at e
        cases y with
        | none => exact absurd (congrArg Prod.fst e) (by simp)
        | some k =>
          obtain ⟨e1, rfl⟩ := Prod.mk.inj e
          obtain ⟨rfl, rfl⟩ := Prod.mk.inj (Option.some.inj e1)
          obtain ⟨h1, _, u1, f1⟩ := h.allocSome ha
          obtain ⟨h2, _, u2, f2⟩ := h1.allocSome hb
          exact ⟨h2, u2.trans u1, f2.trans f1⟩

theorem commonAllocs_none {s t t' : Heap} {L : List Nat} {mi : Option Nat} {ok : Nat → Bool} (h : Own s t L mi)
    (e : commonAllocs ok t = (none, t')) : Own s t' L mi := by
  unfold commonAllocs at e
  cases ha : alloc ok t with
  | mk x t1 =>
    rw [ha] at e
    cases x with
    | none =>
      obtain ⟨_, rfl⟩ := Prod.mk.inj e
      exact h.allocNone ha
    | some n =>
      dsimp only at e
      cases hb : alloc ok t1 with
      | mk y t2 =>
        rw [hb] at e
        cases y with
        | none =>
          obtain ⟨_, rfl⟩ := Prod.mk.inj e
          exact ((h.allocSome ha).1.allocNone hb).free
        | some k => exact absurd (congrArg Prod.fst e) (by simp)

theorem freeOpt_ext {s t : Heap} {L : List Nat} {cl : Option Nat} (h : Ext s t (cl.toList ++ L) []) :
    Ext s (freeOpt cl t) L [] := by
  cases cl with
  | none => exact h
  | some n => exact Ext.free h

/-- What allocate_new_process does when it succeeds for fork(). -/
structure Made (s0 : Heap) (s s2 : St) (pid pdir : Nat) (L : List Nat) (c : Proc) : Prop where
  own : Own s0 s2.hp (objs c ++ L) c.mi
  mirror : Mirror s0 s2.hp s.par.mi c.mi
  mi : c.mi.isSome = s.par.mi.isSome
  child : c = { s.par with obj := c.obj, pid := pid, pdir := pdir, mi := c.mi, cmdline := c.cmdline, stack := c.stack,
                           iobuf := c.iobuf, vforked := false, children := [] }
  par : s2.par = { s.par with children := s.par.children ++ [pid] }
  elf : s2.elfRefs = if s.par.elf then s.elfRefs + 1 else s.elfRefs
  cwd : s2.cwdRefs = s.cwdRefs + 1

theorem allocProc_some {s0 : Heap} {s s2 : St} {L : List Nat} {ok : Nat → Bool} {dbg : Bool} {pid pdir : Nat} {c : Proc}
    (h : Ext s0 s.hp L []) (hp : ParOk s0 s.par) (e : allocProc ok dbg false pid pdir s = (some c, s2)) :
    Made s0 s s2 pid pdir L c := by
  unfold allocProc at e
  cases ha : alloc ok s.hp with
  | mk x t1 =>
    rw [ha] at e
    cases x with
    | none => exact absurd (congrArg Prod.fst e) (by simp)
    | some obj =>
      dsimp only at e
      obtain ⟨h1, _⟩ := h.allocSome ha
      cases hc : allocCmd ok dbg t1 with
      | mk y t2 =>
        rw [hc] at e
        cases y with
        | none => exact absurd (congrArg Prod.fst e) (by simp)
        | some cl =>
          dsimp only at e
          have h2 := allocCmd_some h1 hc
          unfold allocProc2 at e
          dsimp only at e
          cases hm : childMi ok false s.par.mi t2 with
          | mk z t3 =>
            rw [hm] at e
            cases z with
            | none => exact absurd (congrArg Prod.fst e) (by simp)
            | some mi =>
              dsimp only at e
              obtain ⟨h3, hmir, his⟩ := childMi_some h2 (fun m em => ⟨(hp m em).1, fun u hu => ((hp m em).2 u hu).1⟩) hm
              unfold allocProc3 at e
              dsimp only at e
              cases hk : commonAllocs ok t3 with
              | mk w t4 =>
                rw [hk] at e
                cases w with
                | none => exact absurd (congrArg Prod.fst e) (by simp)
                | some ab =>
                  obtain ⟨a, b⟩ := ab
                  dsimp only at e
                  obtain ⟨e1, rfl⟩ := Prod.mk.inj e
                  obtain rfl := Option.some.inj e1
                  obtain ⟨h4, hu, hf⟩ := commonAllocs_some h3 hk
                  refine ⟨h4.perm ?_, ?_, his, rfl, rfl, ?_, rfl⟩
                  · show (b :: a :: (cl.toList ++ obj :: L)).Perm (b :: a :: (cl.toList ++ [obj]) ++ L)
                    simp
                  · intro m n em en
                    have := hmir m n em en
                    show (t4.ums n).map (view t4) = _
                    have hv : view t4 = view t3 := by
                      funext u
                      show (u.h, t4.filed u.id) = (u.h, t3.filed u.id)
                      rw [hf]
                    rw [hu, hv]
                    exact this
                  · show (if (!false && s.par.elf) = true then _ else _) = _
                    simp

theorem allocProc_none {s0 : Heap} {s s2 : St} {L : List Nat} {ok : Nat → Bool} {dbg : Bool} {pid pdir : Nat}
    (h : Ext s0 s.hp L []) (hp : ParOk s0 s.par) (e : allocProc ok dbg false pid pdir s = (none, s2)) :
    (s2.par = s.par ∧ s2.elfRefs = s.elfRefs ∧ s2.cwdRefs = s.cwdRefs ∧ Ext s0 s2.hp L []) ∨
    (s2.par = { s.par with mi := none } ∧ s2.elfRefs = s.elfRefs ∧
      (s2.cwdRefs = s.cwdRefs ∧ s.par.mi.isSome = true ∨ dbg = true ∧ s2.cwdRefs = s.cwdRefs - 1)) ∨
    (s2.par = s.par ∧ s2.elfRefs = (if s.par.elf then s.elfRefs + 1 else s.elfRefs) ∧ s2.cwdRefs = s.cwdRefs ∧
      Ext s0 s2.hp L []) := by
  unfold allocProc at e
  cases ha : alloc ok s.hp with
  | mk x t1 =>
    rw [ha] at e
    cases x with
    | none =>
      obtain ⟨_, rfl⟩ := Prod.mk.inj e
      exact Or.inl ⟨rfl, rfl, rfl, (h.allocNone ha).1⟩
    | some obj =>
      dsimp only at e
      obtain ⟨h1, _⟩ := h.allocSome ha
      cases hc : allocCmd ok dbg t1 with
      | mk y t2 =>
        rw [hc] at e
        cases y with
        | none =>
          obtain ⟨_, rfl⟩ := Prod.mk.inj e
          refine Or.inr (Or.inl ⟨rfl, rfl, Or.inr ⟨?_, rfl⟩⟩)
          cases dbg with
          | false => exact absurd (congrArg Prod.fst hc) (by simp [allocCmd])
          | true => rfl
        | some cl =>
          dsimp only at e
          have h2 := allocCmd_some h1 hc
          unfold allocProc2 at e
          dsimp only at e
          cases hm : childMi ok false s.par.mi t2 with
          | mk z t3 =>
            rw [hm] at e
            cases z with
            | none =>
              obtain ⟨_, rfl⟩ := Prod.mk.inj e
              refine Or.inr (Or.inl ⟨rfl, rfl, Or.inl ⟨rfl, ?_⟩⟩)
              cases hpm : s.par.mi with
              | none => rw [hpm] at hm; exact absurd (congrArg Prod.fst hm) (by simp [childMi])
              | some _ => rfl
            | some mi =>
              dsimp only at e
              obtain ⟨h3, hmir, his⟩ := childMi_some h2 (fun m em => ⟨(hp m em).1, fun u hu => ((hp m em).2 u hu).1⟩) hm
              unfold allocProc3 at e
              dsimp only at e
              cases hk : commonAllocs ok t3 with
              | mk w t4 =>
                rw [hk] at e
                cases w with
                | some ab => exact absurd (congrArg Prod.fst e) (by simp)
                | none =>
                  dsimp only at e
                  obtain ⟨_, rfl⟩ := Prod.mk.inj e
                  refine Or.inr (Or.inr ⟨rfl, ?_, ?_, ?_⟩)
                  · show (if (!false && s.par.elf) = true then _ else _) = _
                    simp
                  · show s.cwdRefs + 1 - 1 = s.cwdRefs
                    omega
                  · exact Ext.free (freeOpt_ext (Own.freeMi (commonAllocs_none h3 hk)))

/-! ## fork() -/

theorem WF.lt {s : St} (w : WF s) {n : Nat} (h : s.hp.live n = true) : n < s.hp.next := by
  rcases Nat.lt_or_ge n s.hp.next with h1 | h1
  · exact h1
  · rw [(w.bound n h1).1] at h; exact absurd h (by decide)

theorem WF.parOk {s : St} (w : WF s) : ParOk s.hp s.par := fun m hm =>
  ⟨w.lt (w.mi m hm), fun u hu => ⟨w.lt (w.recs m u hm hu), fun h hh => w.lt (w.fds h (w.maps m u h hm hu hh))⟩⟩

theorem same_of {s s' : St} (w : WF s) (hp : s'.par = s.par) (he : s'.elfRefs = s.elfRefs) (hc : s'.cwdRefs = s.cwdRefs)
    (h : Ext s.hp s'.hp [] []) : Same s s' :=
  ⟨hp, he, hc, (h.same w.bound).1, (h.same w.bound).2, fun m hm => h.ums m (w.lt (w.mi m hm)), h.bad⟩

/-- The state with the extra reference to the lock of the executable a child holds. -/
def withElf (s : St) : St := { s with elfRefs := if s.par.elf then s.elfRefs + 1 else s.elfRefs }

theorem withElf_wf {s : St} (w : WF s) : WF (withElf s) := ⟨w.bound, w.mi, w.recs, w.fds, w.distinct, w.maps, w.cwd⟩

/-- The state with one more page directory. -/
def withPdir (pd : Nat) (s : St) : St := { s with hp := { s.hp with live := upd s.hp.live pd true } }

theorem freeChild {s0 t : Heap} {s2 : St} {c : Proc} {L : List Nat} (h : Own s0 t (objs c ++ L) c.mi) :
    Ext s0 (freeTask c { s2 with hp := freeCommon c t }).hp L [] := by
  show Ext s0 (free c.obj (freeOpt c.cmdline (free c.iobuf (free c.stack (freeOptMi c.mi t))))) L []
  have h1 := h.freeMi
  have h2 : Ext s0 (free c.iobuf (free c.stack (freeOptMi c.mi t))) (c.cmdline.toList ++ c.obj :: L) [] := by
    refine Ext.free (Ext.free (h1.perm ?_ (List.Perm.refl _)))
    show (c.iobuf :: c.stack :: ((c.cmdline.toList ++ [c.obj]) ++ L)).Perm _
    rw [List.append_assoc]
    exact List.Perm.swap _ _ _
  exact Ext.free (freeOpt_ext h2)

/-- What a failed fork() can leave behind, for a process without closed descriptors below open ones: nothing; or the parent
has lost its mappings; or a reference to the lock of its executable is lost; or that and a page directory. -/
theorem fork_failed {ok : Nat → Bool} {dbg : Bool} {pid : Option Nat} {s s' : St} {out : Out} (w : WF s)
    (hfull : ∀ x ∈ s.par.fds, x.isSome = true) (hpid : ∀ p, pid = some p → p ∉ s.par.children)
    (e : doFork ok dbg false pid s = (out, s')) (hout : ∀ c, out ≠ .child c) :
    Same s s' ∨ s'.par = { s.par with mi := none } ∨ Same (withElf s) s' ∨
      ∃ pd, s.hp.live pd = false ∧ Same (withPdir pd (withElf s)) s' := by
  unfold doFork at e
  cases pid with
  | none =>
    obtain ⟨_, rfl⟩ := Prod.mk.inj e
    exact Or.inl ⟨rfl, rfl, rfl, fun _ => rfl, fun _ => rfl, fun _ _ => rfl, rfl⟩
  | some p =>
    dsimp only at e
    have h0 := Ext.refl w.bound
    cases ha : alloc ok s.hp with
    | mk x t1 =>
      rw [ha] at e
      cases x with
      | none =>
        obtain ⟨_, rfl⟩ := Prod.mk.inj e
        exact Or.inl (same_of w rfl rfl rfl (h0.allocNone ha).1)
      | some pd =>
        dsimp only at e
        obtain ⟨h1, _, _, hpd, _⟩ := h0.allocSome ha
        cases hb : allocProc ok dbg false p pd { s with hp := t1 } with
        | mk y s2 =>
          rw [hb] at e
          cases y with
          | none =>
            obtain ⟨_, rfl⟩ := Prod.mk.inj e
            rcases allocProc_none (s := { s with hp := t1 }) h1 w.parOk hb with ⟨a, b, c, d⟩ | ⟨a, _⟩ | ⟨a, b, c, d⟩
            · exact Or.inl (same_of w a b c d.free)
            · exact Or.inr (Or.inl a)
            · exact Or.inr (Or.inr (Or.inl (same_of (withElf_wf w) a b c d.free)))
          | some c =>
            dsimp only at e
            have hm := allocProc_some (s := { s with hp := t1 }) h1 w.parOk hb
            have hfds : c.fds = s.par.fds := by rw [hm.child]
            have hcp : c.pid = p := by rw [hm.child]
            unfold finishFork at e
            cases hd : dupFds ok s2.par c.mi c.fds [] s2.hp with
            | mk z t3 =>
              rw [hd] at e
              obtain ⟨b, r⟩ := z
              cases b with
              | true =>
                obtain ⟨e1, _⟩ := Prod.mk.inj e
                exact absurd e1.symm (hout _)
              | false =>
                obtain ⟨_, rfl⟩ := Prod.mk.inj e
                refine Or.inr (Or.inr (Or.inr ⟨pd, (w.bound pd hpd).1, ?_⟩))
                have hpar : ParOk s.hp s2.par := by
                  rw [hm.par]
                  exact w.parOk
                have h4 := freeChild (s2 := s2)
                  (dupFds_false hpar c.fds [] (by simp) (by rw [hfds]; exact hfull) hm.own hd)
                refine ⟨?_, hm.elf, ?_, ?_, ?_, ?_, h4.bad⟩
                · show { s2.par with children := s2.par.children.erase c.pid } = s.par
                  rw [hm.par, hcp]
                  have := hpid p rfl
                  show { s.par with children := (s.par.children ++ [p]).erase p } = s.par
                  rw [List.erase_append_right _ this]
                  simp
                · show s2.cwdRefs - 1 = s.cwdRefs
                  rw [hm.cwd]
                  show s.cwdRefs + 1 - 1 = s.cwdRefs
                  omega
                · intro n
                  have h5 := h4.live n
                  show _ = upd s.hp.live pd true n
                  rw [upd_apply]
                  apply Bool.eq_iff_iff.mpr
                  rw [h5]
                  by_cases hn : n = pd
                  · simp [hn]
                  · simp [hn]
                · intro n
                  show _ = s.hp.filed n
                  by_cases hn : n < s.hp.next
                  · exact h4.filed n hn
                  · have hn' : s.hp.next ≤ n := by omega
                    rw [(w.bound n hn').2]
                    cases hc : (freeTask c { s2 with hp := freeCommon c t3 }).hp.filed n with
                    | false => rfl
                    | true => exact absurd (h4.filedNew n hn' hc) List.not_mem_nil
                · intro m hm'
                  exact h4.ums m (w.lt (w.mi m hm'))

theorem alloc_ok {ok : Nat → Bool} {t t' : Heap} {n : Nat} (e : alloc ok t = (some n, t')) : ok t.next = true := by
  unfold alloc at e
  by_cases ho : ok t.next = true
  · exact ho
  · rw [if_neg ho] at e; exact absurd (congrArg Prod.fst e) (by simp)

/-- A failure changes nothing if no process id, no page directory or no process object could be had. -/
theorem fork_atomic_partial {ok : Nat → Bool} {dbg vf : Bool} {pid : Option Nat} {s s' : St} {out : Out} (w : WF s)
    (e : doFork ok dbg vf pid s = (out, s'))
    (h : pid = none ∨ ok s.hp.next = false ∨ (vf = false ∧ ok (s.hp.next + 1) = false)) :
    out = (if pid = none then .eagain else .enomem) ∧ Same s s' := by
  have h0 := Ext.refl w.bound
  unfold doFork at e
  cases pid with
  | none =>
    obtain ⟨rfl, rfl⟩ := Prod.mk.inj e
    exact ⟨by simp, ⟨rfl, rfl, rfl, fun _ => rfl, fun _ => rfl, fun _ _ => rfl, rfl⟩⟩
  | some p =>
    rw [if_neg (by simp)]
    dsimp only at e
    cases ha : alloc ok s.hp with
    | mk x t1 =>
      cases vf with
      | true =>
        dsimp only at e
        unfold allocProc at e
        rw [ha] at e
        cases x with
        | none =>
          obtain ⟨rfl, rfl⟩ := Prod.mk.inj e
          exact ⟨rfl, same_of w rfl rfl rfl (h0.allocNone ha).1⟩
        | some n =>
          have hk := alloc_ok ha
          rcases h with h | h | ⟨h, _⟩
          · exact absurd h (by simp)
          · rw [hk] at h; exact absurd h (by decide)
          · exact absurd h (by decide)
      | false =>
        dsimp only at e
        rw [ha] at e
        cases x with
        | none =>
          obtain ⟨rfl, rfl⟩ := Prod.mk.inj e
          exact ⟨rfl, same_of w rfl rfl rfl (h0.allocNone ha).1⟩
        | some n =>
          have hk := alloc_ok ha
          rcases h with h | h | ⟨_, h⟩
          · exact absurd h (by simp)
          · rw [hk] at h; exact absurd h (by decide)
          · dsimp only at e
            have h1 := (h0.allocSome ha).1
            have hnx := (alloc_filed ha).2.2.1
            unfold allocProc at e
            dsimp only at e
            cases hb : alloc ok t1 with
            | mk y t2 =>
              rw [hb] at e
              cases y with
              | none =>
                obtain ⟨rfl, rfl⟩ := Prod.mk.inj e
                exact ⟨rfl, same_of w rfl rfl rfl (h1.allocNone hb).1.free⟩
              | some k =>
                have hk2 := alloc_ok hb
                rw [hnx, h] at hk2
                exact absurd hk2 (by decide)

/-! ## The child of fork() -/

/-- What fork() gives. -/
structure Forked (s s' : St) (c : Proc) (pid : Nat) : Prop where
  /-- the parent is unchanged but for its new child -/
  par : s'.par = { s.par with children := s.par.children ++ [pid] }
  oldLive : ∀ n, n < s.hp.next → s'.hp.live n = s.hp.live n
  oldFiled : ∀ n, n < s.hp.next → s'.hp.filed n = s.hp.filed n
  oldMaps : ∀ m, s.par.mi = some m → s'.hp.ums m = s.hp.ums m
  bad : s'.hp.bad = s.hp.bad
  elf : s'.elfRefs = if s.par.elf then s.elfRefs + 1 else s.elfRefs
  cwd : s'.cwdRefs = s.cwdRefs + 1
  /-- everything of the child is new, its own and nothing else is new -/
  pid : c.pid = pid
  vforked : c.vforked = false
  elfc : c.elf = s.par.elf
  parts : ∃ N : List Nat, N.Nodup ∧ (∀ n, s.hp.next ≤ n → (s'.hp.live n = true ↔ n ∈ N)) ∧ (∀ n ∈ N, s.hp.next ≤ n) ∧
    N.Perm (c.obj :: c.pdir :: c.stack :: c.iobuf :: (c.cmdline.toList ++ (c.fds.filterMap id ++ (c.mi.toList ++
      match c.mi with
      | none => []
      | some m => (s'.hp.ums m).map Um.id))))
  /-- the same descriptors are open -/
  fds : c.fds.map Option.isSome = s.par.fds.map Option.isSome
  /-- the same mappings, of the same descriptors -/
  mi : c.mi.isSome = s.par.mi.isSome
  maps : ∀ m n, s.par.mi = some m → c.mi = some n → (s'.hp.ums n).length = (s.hp.ums m).length ∧
    ∀ (k : Nat) u, (s.hp.ums m)[k]? = some u → ∃ u', (s'.hp.ums n)[k]? = some u' ∧
      s'.hp.filed u'.id = s.hp.filed u.id ∧ (u.h = none → u'.h = none) ∧
      ∀ (i h : Nat), s.par.fds[i]? = some (some h) → u.h = some h → ∃ x, c.fds[i]? = some (some x) ∧ u'.h = some x

/-- How a successful fork() runs. -/
theorem doFork_child {ok : Nat → Bool} {dbg : Bool} {pid : Nat} {s s' : St} {c : Proc} (w : WF s)
    (e : doFork ok dbg false (some pid) s = (.child c, s')) :
    ∃ pd s2 c0 r, Made s.hp s s2 pid pd [pd] c0 ∧ s.hp.next ≤ pd ∧ s.hp.next ≤ s2.hp.next ∧ c = { c0 with fds := r } ∧
      s' = { s2 with hp := s'.hp } ∧ dupFds ok s2.par c0.mi c0.fds [] s2.hp = ((true, r), s'.hp) := by
  unfold doFork at e
  dsimp only at e
  have h0 := Ext.refl w.bound
  cases ha : alloc ok s.hp with
  | mk x t1 =>
    rw [ha] at e
    cases x with
    | none => exact absurd (congrArg Prod.fst e) (by simp)
    | some pd =>
      dsimp only at e
      obtain ⟨h1, _, _, hpd, _⟩ := h0.allocSome ha
      cases hb : allocProc ok dbg false pid pd { s with hp := t1 } with
      | mk y s2 =>
        rw [hb] at e
        cases y with
        | none => exact absurd (congrArg Prod.fst e) (by simp)
        | some c0 =>
          dsimp only at e
          have hm := allocProc_some (s := { s with hp := t1 }) h1 w.parOk hb
          unfold finishFork at e
          cases hd : dupFds ok s2.par c0.mi c0.fds [] s2.hp with
          | mk z t3 =>
            rw [hd] at e
            obtain ⟨b, r⟩ := z
            cases b with
            | false => exact absurd (congrArg Prod.fst e) (by simp)
            | true =>
              obtain ⟨e1, rfl⟩ := Prod.mk.inj e
              obtain ⟨L', U, he, _⟩ := hm.own.ext
              exact ⟨pd, s2, c0, r, ⟨hm.own, hm.mirror, hm.mi, hm.child, hm.par, hm.elf, hm.cwd⟩, hpd, he.next,
                (Out.child.inj e1).symm, rfl, hd⟩

theorem doFork_own {ok : Nat → Bool} {s2 : St} {s0 : Heap} {c0 : Proc} {r : List (Option Nat)} {t : Heap} {pd : Nat}
    (hm : Own s0 s2.hp (objs c0 ++ [pd]) c0.mi) (hd : dupFds ok s2.par c0.mi c0.fds [] s2.hp = ((true, r), t)) :
    r.map Option.isSome = c0.fds.map Option.isSome ∧ Own s0 t (hs r ++ (objs c0 ++ [pd])) c0.mi := by
  obtain ⟨new, e, b, c⟩ := dupFds_true (fun t L => Own s0 t L c0.mi)
    (fun t t' L n h hp ha => (hp.allocSome ha).1.retarget h n) c0.fds [] hm hd
  rw [List.nil_append] at e
  subst e
  exact ⟨b, c.perm ((List.reverse_perm _).append_right _)⟩

/-- A child created by fork() has its own copy of everything, and the parent keeps all it had. -/
theorem fork_ok {ok : Nat → Bool} {dbg : Bool} {pid : Nat} {s s' : St} {c : Proc} (w : WF s)
    (e : doFork ok dbg false (some pid) s = (.child c, s')) : Forked s s' c pid := by
  obtain ⟨pd, s2, c0, r, hm, hpd, hnx, rfl, es, hd⟩ := doFork_child w e
  obtain ⟨hr, ho⟩ := doFork_own hm.own hd
  have hfds : c0.fds = s.par.fds := by rw [hm.child]
  have hpdir : c0.pdir = pd := by rw [hm.child]
  obtain ⟨L, U, he, _⟩ := ho.ext
  have hlt : ∀ h, some h ∈ c0.fds → h < s.hp.next := fun h hh => w.lt (w.fds h (hfds ▸ hh))
  refine ⟨?_, ?_, he.filed, fun m hmm => he.ums m (w.lt (w.mi m hmm)), he.bad, ?_, ?_, ?_, ?_, ?_, ?_, ?_, hm.mi, ?_⟩
  · rw [es]; exact hm.par
  · intro n hn
    apply Bool.eq_iff_iff.mpr
    rw [he.live n]
    constructor
    · rintro (h | h)
      · exact h
      · have := (he.fresh n h).1
        omega
    · exact Or.inl
  · rw [es]; exact hm.elf
  · rw [es]; exact hm.cwd
  · show c0.pid = pid
    rw [hm.child]
  · show c0.vforked = false
    rw [hm.child]
  · show c0.elf = s.par.elf
    rw [hm.child]
  · dsimp only
    cases hmi : c0.mi with
    | none =>
      rw [hmi] at ho
      have ho' : Ext s.hp s'.hp (hs r ++ (objs c0 ++ [pd])) [] := ho
      refine ⟨hs r ++ (objs c0 ++ [pd]), by simpa using ho'.nodup, ?_, fun n hn => (ho'.fresh n (Or.inl hn)).1, ?_⟩
      · intro n hn
        rw [ho'.live n]
        have := ho'.old n hn
        simp [this]
      · rw [hpdir]
        show (hs r ++ ((c0.iobuf :: c0.stack :: (c0.cmdline.toList ++ [c0.obj])) ++ [pd])).Perm
          (c0.obj :: pd :: c0.stack :: c0.iobuf :: (c0.cmdline.toList ++ (hs r ++ ([] ++ []))))
        rw [List.perm_iff_count]
        intro a
        simp only [List.count_append, List.count_cons, List.count_nil]
        omega
    | some m =>
      rw [hmi] at ho
      obtain ⟨_, ho'⟩ := ho
      refine ⟨(m :: (hs r ++ (objs c0 ++ [pd]))) ++ (s'.hp.ums m).map Um.id, ho'.nodup, ?_, ?_, ?_⟩
      · intro n hn
        rw [ho'.live n, List.mem_append]
        have := ho'.old n hn
        simp [this]
      · intro n hn
        exact (ho'.fresh n (List.mem_append.mp hn)).1
      · rw [hpdir]
        show ((m :: (hs r ++ ((c0.iobuf :: c0.stack :: (c0.cmdline.toList ++ [c0.obj])) ++ [pd]))) ++
            (s'.hp.ums m).map Um.id).Perm
          (c0.obj :: pd :: c0.stack :: c0.iobuf :: (c0.cmdline.toList ++ (hs r ++ ([m] ++ (s'.hp.ums m).map Um.id))))
        rw [List.perm_iff_count]
        intro a
        simp only [List.count_append, List.count_cons, List.count_nil]
        omega
  · show r.map Option.isSome = _
    rw [hr, hfds]
  · intro m n em en
    change c0.mi = some n at en
    rw [en] at hd
    have hnd : (hs c0.fds).Nodup := by rw [hfds]; exact w.distinct
    obtain ⟨new, tr, er, hf, hu, t0, t1, t2⟩ := dupFds_maps s.hp.next c0.fds [] hlt hnx hnd hd
    rw [List.nil_append] at er
    subst er
    have hmir := hm.mirror m n em en
    have hlen : (s2.hp.ums n).length = (s.hp.ums m).length := by
      have := congrArg List.length hmir
      simpa using this
    refine ⟨by rw [hu, List.length_map, hlen], ?_⟩
    intro k u hk
    have h1 : ((s2.hp.ums n).map (view s2.hp))[k]? = some (view s.hp u) := by
      rw [hmir, List.getElem?_map, hk]; rfl
    rw [List.getElem?_map] at h1
    cases hv : (s2.hp.ums n)[k]? with
    | none => rw [hv] at h1; exact absurd h1 (by simp)
    | some v =>
      rw [hv] at h1
      have h2 : view s2.hp v = view s.hp u := Option.some.inj h1
      have hvh : v.h = u.h := congrArg Prod.fst h2
      have hvf : s2.hp.filed v.id = s.hp.filed u.id := congrArg Prod.snd h2
      refine ⟨{ v with h := tr v.h }, ?_, ?_, ?_, ?_⟩
      · rw [hu, List.getElem?_map, hv]; rfl
      · show s'.hp.filed v.id = _
        rw [hf]; exact hvf
      · intro hn
        show tr v.h = none
        rw [hvh, hn, t0]
      · intro i h hi huh
        obtain ⟨x, a, b⟩ := t2 i h (by rw [hfds]; exact hi)
        refine ⟨x, a, ?_⟩
        show tr v.h = _
        rw [hvh, huh, b]

/-! ## The end of the child -/

theorem closeH_own {s t : Heap} {L : List Nat} {mi : Option Nat} {h : Nat} (ho : Own s t (h :: L) mi) :
    Own s (closeH false mi h t) L mi := by
  cases mi with
  | none => exact Ext.free ho
  | some m =>
    refine ⟨ho.1, ?_⟩
    have h1 := ho.2.removeWhere (fun u => u.h == some h) ho.1
    exact Ext.free (h1.perm (List.Perm.swap _ _ _) (List.Perm.refl _))

theorem exitClose_own {s : Heap} {L : List Nat} {c : Proc} (hv : c.vforked = false) :
    ∀ (fds : List (Option Nat)) {t : Heap}, Own s t (hs fds ++ L) c.mi → Own s (exitClose c fds t) L c.mi
  | [], _, h => h
  | none :: r, _, h => exitClose_own hv r h
  | some x :: r, t, h => by
    unfold exitClose
    rw [hv]
    exact exitClose_own hv r (closeH_own (show Own s t (x :: (hs r ++ L)) c.mi from h))

theorem exitOwn_ext {s t : Heap} {L : List Nat} {c : Proc} (h : Own s t (c.iobuf :: c.stack :: (L ++ [c.pdir])) c.mi) :
    Ext s (exitOwn c t) L [] := by
  have h1 : Own s (match c.mi with
      | none => t
      | some m => removeWhere (fun u => u.h.isNone) m t) (c.iobuf :: c.stack :: (L ++ [c.pdir])) c.mi := by
    cases hm : c.mi with
    | none => rw [hm] at h; exact h
    | some m =>
      rw [hm] at h
      exact ⟨h.1, h.2.removeWhere _ h.1⟩
  have h2 := (h1.perm (show (c.iobuf :: c.stack :: (L ++ [c.pdir])).Perm (c.pdir :: c.stack :: c.iobuf :: L) from by
    rw [List.perm_iff_count]
    intro a
    simp only [List.count_append, List.count_cons, List.count_nil]
    omega)).free
  exact Ext.free (Ext.free h2.freeMi)

/-- fork() followed by the end of the child: the state is as before. -/
theorem fork_exit_balanced {ok : Nat → Bool} {dbg : Bool} {pid : Nat} {s s' : St} {c : Proc} (w : WF s)
    (hpid : pid ∉ s.par.children) (e : doFork ok dbg false (some pid) s = (.child c, s')) : Same s (exitReap c s') := by
  obtain ⟨pd, s2, c0, r, hm, hpd, hnx, rfl, es, hd⟩ := doFork_child w e
  obtain ⟨hr, ho⟩ := doFork_own hm.own hd
  have hv : c0.vforked = false := by rw [hm.child]
  have hel : c0.elf = s.par.elf := by rw [hm.child]
  have hpi : c0.pid = pid := by rw [hm.child]
  have hpdir : c0.pdir = pd := by rw [hm.child]
  have h1 := exitClose_own (c := { c0 with fds := r }) hv r ho
  have h2 : Ext s.hp (exitOwn { c0 with fds := r } (exitClose { c0 with fds := r } r s'.hp))
      (c0.cmdline.toList ++ [c0.obj]) [] := exitOwn_ext (c := { c0 with fds := r }) (by
        show Own s.hp _ (c0.iobuf :: c0.stack :: ((c0.cmdline.toList ++ [c0.obj]) ++ [c0.pdir])) c0.mi
        have h1' : Own s.hp (exitClose { c0 with fds := r } r s'.hp)
            (c0.iobuf :: c0.stack :: ((c0.cmdline.toList ++ [c0.obj]) ++ [pd])) c0.mi := h1
        rw [← hpdir] at h1'
        exact h1')
  have h3 := Ext.free (freeOpt_ext h2)
  have hx : exitReap { c0 with fds := r } s' = freeTask { c0 with fds := r }
      { s' with hp := exitOwn { c0 with fds := r } (exitClose { c0 with fds := r } r s'.hp),
                elfRefs := if c0.elf then s'.elfRefs - 1 else s'.elfRefs } := by
    unfold exitReap
    dsimp only
    rw [hv]
  rw [hx]
  refine same_of w ?_ ?_ ?_ h3
  · show { s'.par with children := s'.par.children.erase c0.pid } = s.par
    rw [es]
    show { s2.par with children := s2.par.children.erase c0.pid } = s.par
    rw [hm.par, hpi]
    show { s.par with children := (s.par.children ++ [pid]).erase pid } = s.par
    rw [List.erase_append_right _ hpid]
    simp
  · show (if c0.elf = true then s'.elfRefs - 1 else s'.elfRefs) = s.elfRefs
    rw [es]
    show (if c0.elf = true then s2.elfRefs - 1 else s2.elfRefs) = s.elfRefs
    rw [hm.elf, hel]
    by_cases hc : s.par.elf = true
    · rw [if_pos hc, if_pos hc]; omega
    · rw [if_neg hc, if_neg hc]
  · show s'.cwdRefs - 1 = s.cwdRefs
    rw [es]
    show s2.cwdRefs - 1 = s.cwdRefs
    rw [hm.cwd]
    omega

/-! ## vfork() -/

/-- What allocate_new_process does when it succeeds for vfork(). -/
structure MadeV (s0 : Heap) (s s2 : St) (pid : Nat) (c : Proc) : Prop where
  ext : Ext s0 s2.hp (objs c) []
  child : c = { s.par with obj := c.obj, pid := pid, cmdline := c.cmdline, stack := c.stack,
                           iobuf := c.iobuf, vforked := true, children := [] }
  par : s2.par = { s.par with children := s.par.children ++ [pid] }
  elf : s2.elfRefs = s.elfRefs
  cwd : s2.cwdRefs = s.cwdRefs + 1

theorem allocProc_vf {s0 : Heap} {s s2 : St} {ok : Nat → Bool} {dbg : Bool} {pid : Nat} {c : Proc}
    (h : Ext s0 s.hp [] []) (e : allocProc ok dbg true pid s.par.pdir s = (some c, s2)) : MadeV s0 s s2 pid c := by
  unfold allocProc at e
  cases ha : alloc ok s.hp with
  | mk x t1 =>
    rw [ha] at e
    cases x with
    | none => exact absurd (congrArg Prod.fst e) (by simp)
    | some obj =>
      dsimp only at e
      obtain ⟨h1, _⟩ := h.allocSome ha
      cases hc : allocCmd ok dbg t1 with
      | mk y t2 =>
        rw [hc] at e
        cases y with
        | none => exact absurd (congrArg Prod.fst e) (by simp)
        | some cl =>
          dsimp only at e
          have h2 := allocCmd_some h1 hc
          unfold allocProc2 at e
          dsimp only at e
          have hm : childMi ok true s.par.mi t2 = (some s.par.mi, t2) := by
            cases s.par.mi <;> rfl
          rw [hm] at e
          dsimp only at e
          unfold allocProc3 at e
          dsimp only at e
          cases hk : commonAllocs ok t2 with
          | mk w t4 =>
            rw [hk] at e
            cases w with
            | none => exact absurd (congrArg Prod.fst e) (by simp)
            | some ab =>
              obtain ⟨a, b⟩ := ab
              dsimp only at e
              obtain ⟨e1, rfl⟩ := Prod.mk.inj e
              obtain rfl := Option.some.inj e1
              obtain ⟨h4, _, _⟩ := commonAllocs_some (mi := none) h2 hk
              exact ⟨h4, rfl, rfl, by simp, rfl⟩

theorem retarget_anon {mi : Option Nat} {h n : Nat} {t : Heap} (ha : ∀ m, mi = some m → ∀ u ∈ t.ums m, u.h = none) :
    retarget mi h n t = t := by
  cases mi with
  | none => rfl
  | some m =>
    unfold retarget setUms
    dsimp only
    congr 1
    funext x
    rw [upd_apply]
    by_cases hx : x = m
    · rw [if_pos hx, hx]
      conv => rhs; rw [← List.map_id (t.ums m)]
      apply List.map_congr_left
      intro u hu
      rw [if_neg (show ¬ u.h = some h by rw [ha m rfl u hu]; simp)]
      rfl
    · rw [if_neg hx]

theorem exitClose_vf {s : Heap} {L : List Nat} {c : Proc} (hv : c.vforked = true) :
    ∀ (fds : List (Option Nat)) {t : Heap}, Ext s t (hs fds ++ L) [] → Ext s (exitClose c fds t) L []
  | [], _, h => h
  | none :: r, _, h => exitClose_vf hv r h
  | some x :: r, t, h => by
    unfold exitClose
    rw [hv]
    exact exitClose_vf hv r (Ext.free (show Ext s t (x :: (hs r ++ L)) [] from h))

/-- A vforked child shares the address space and has its own handles; the parent keeps all it had, and the end of the child
restores the state. Missing: parents with file mappings. -/
theorem vfork_partial {ok : Nat → Bool} {dbg : Bool} {pid : Nat} {s s' : St} {c : Proc} (w : WF s)
    (hpid : pid ∉ s.par.children) (hanon : ∀ m, s.par.mi = some m → ∀ u ∈ s.hp.ums m, u.h = none)
    (e : doFork ok dbg true (some pid) s = (.child c, s')) :
    c.pid = pid ∧ c.vforked = true ∧ c.pdir = s.par.pdir ∧ c.mi = s.par.mi ∧
    c.fds.map Option.isSome = s.par.fds.map Option.isSome ∧ (c.fds.filterMap id).Nodup ∧
    (∀ h, some h ∈ c.fds → s.hp.next ≤ h ∧ s'.hp.live h = true) ∧
    s'.par = { s.par with children := s.par.children ++ [pid] } ∧
    (∀ n, n < s.hp.next → s'.hp.live n = s.hp.live n) ∧
    (∀ m, s.par.mi = some m → s'.hp.ums m = s.hp.ums m) ∧ s'.hp.bad = s.hp.bad ∧
    s'.elfRefs = s.elfRefs ∧ s'.cwdRefs = s.cwdRefs + 1 ∧ Same s (exitReap c s') := by
  unfold doFork at e
  dsimp only at e
  have h0 := Ext.refl w.bound
  cases hb : allocProc ok dbg true pid s.par.pdir s with
  | mk y s2 =>
    rw [hb] at e
    cases y with
    | none => exact absurd (congrArg Prod.fst e) (by simp)
    | some c0 =>
      dsimp only at e
      have hm := allocProc_vf h0 hb
      unfold finishFork at e
      cases hd : dupFds ok s2.par c0.mi c0.fds [] s2.hp with
      | mk z t3 =>
        rw [hd] at e
        obtain ⟨b, r⟩ := z
        cases b with
        | false => exact absurd (congrArg Prod.fst e) (by simp)
        | true =>
          obtain ⟨e1, rfl⟩ := Prod.mk.inj e
          obtain rfl := Out.child.inj e1
          have hcm : c0.mi = s.par.mi := by rw [hm.child]
          have hcf : c0.fds = s.par.fds := by rw [hm.child]
          have hcp : c0.pid = pid := by rw [hm.child]
          have hcv : c0.vforked = true := by rw [hm.child]
          have hcd : c0.pdir = s.par.pdir := by rw [hm.child]
          obtain ⟨new, en, hsome, ho⟩ := dupFds_true (fun t L => Ext s.hp t L [])
            (fun t t' L n h hp ha => by
              show Ext s.hp (retarget c0.mi h n t') (n :: L) []
              have h1 := (hp.allocSome ha).1
              rw [retarget_anon]
              · exact h1
              · intro m hmm u hu
                rw [hcm] at hmm
                rw [h1.ums m (w.lt (w.mi m hmm))] at hu
                exact hanon m hmm u hu) c0.fds [] hm.ext hd
          rw [List.nil_append] at en
          subst en
          have ho' : Ext s.hp t3 (hs r ++ objs c0) [] := Ext.perm ho ((List.reverse_perm _).append_right _) (List.Perm.refl _)
          have hx := exitClose_vf (c := { c0 with fds := r }) hcv r ho'
          have hy : Ext s.hp (free c0.iobuf (free c0.stack (exitClose { c0 with fds := r } r t3)))
              (c0.cmdline.toList ++ [c0.obj]) [] :=
            Ext.free (Ext.free (hx.perm (List.Perm.swap _ _ _) (List.Perm.refl _)))
          refine ⟨hcp, hcv, hcd, hcm, by rw [← hcf]; exact hsome, ?_, ?_, hm.par, ?_,
            fun m hmm => ho'.ums m (w.lt (w.mi m hmm)), ho'.bad, hm.elf, hm.cwd, ?_⟩
          · have := ho'.nodup
            rw [List.append_nil] at this
            exact (List.nodup_append.mp this).1
          · intro h hh
            have hmem : h ∈ hs r ++ objs c0 := List.mem_append_left _ (List.mem_filterMap.mpr ⟨_, hh, rfl⟩)
            exact ⟨(ho'.fresh h (Or.inl hmem)).1, (ho'.live h).mpr (Or.inr (Or.inl hmem))⟩
          · intro n hn
            apply Bool.eq_iff_iff.mpr
            show t3.live n = true ↔ _
            rw [ho'.live n]
            constructor
            · rintro (h | h)
              · exact h
              · have := (ho'.fresh n h).1
                omega
            · exact Or.inl
          · have hex : exitReap { c0 with fds := r } { s2 with hp := t3 } = freeTask { c0 with fds := r }
                { s2 with hp := free c0.iobuf (free c0.stack (exitClose { c0 with fds := r } r t3)) } := by
              unfold exitReap
              dsimp only
              rw [hcv]
              rfl
            rw [hex]
            refine same_of w ?_ hm.elf ?_ (Ext.free (freeOpt_ext hy))
            · show { s2.par with children := s2.par.children.erase c0.pid } = s.par
              rw [hm.par, hcp]
              show { s.par with children := (s.par.children ++ [pid]).erase pid } = s.par
              rw [List.erase_append_right _ hpid]
              simp
            · show s2.cwdRefs - 1 = s.cwdRefs
              rw [hm.cwd]
              omega

/-! ## Examples and violations -/

/-- A process with one file mapping and one other mapping. -/
def s0 : St where
  hp := { live := fun n => decide (n < 8), next := 8, ums := fun m => if m = 2 then [⟨3, some 4⟩, ⟨7, none⟩] else [],
          filed := fun n => decide (n = 3), bad := false }
  par := { obj := 0, pid := 5, pdir := 1, mi := some 2, fds := [some 4], elf := true, cmdline := none, stack := 5,
           iobuf := 6, vforked := false, children := [] }
  elfRefs := 1
  cwdRefs := 1

theorem s0_wf : WF s0 := by
  refine ⟨?_, ?_, ?_, ?_, by decide, ?_, by decide⟩
  · intro n hn
    have hn' : 8 ≤ n := hn
    exact ⟨decide_eq_false (by omega), decide_eq_false (by omega)⟩
  · intro m hm
    obtain rfl := Option.some.inj hm
    decide
  · intro m u hm hu
    obtain rfl := Option.some.inj hm
    have hu' : u ∈ [Um.mk 3 (some 4), Um.mk 7 none] := hu
    simp only [List.mem_cons, List.not_mem_nil, or_false] at hu'
    rcases hu' with rfl | rfl <;> decide
  · intro h hh
    have : some h = some 4 := List.mem_singleton.mp hh
    obtain rfl := Option.some.inj this
    decide
  · intro m u h hm hu hh
    obtain rfl := Option.some.inj hm
    have hu' : u ∈ [Um.mk 3 (some 4), Um.mk 7 none] := hu
    simp only [List.mem_cons, List.not_mem_nil, or_false] at hu'
    rcases hu' with rfl | rfl
    · obtain rfl := Option.some.inj hh
      exact List.mem_singleton.mpr rfl
    · exact absurd hh (by simp)

/-- The same process without the file mapping. -/
def s1 : St := { s0 with hp := { s0.hp with ums := fun m => if m = 2 then [⟨7, none⟩] else [] } }

/-- The same process with a closed descriptor below the open one. -/
def s2 : St := { s0 with par := { s0.par with fds := [none, some 4] } }

/-- fork() succeeds; the child's first mapping is of the child's handle. -/
example : ∃ c s', doFork (fun _ => true) true false (some 6) s0 = (.child c, s') ∧ c.fds = [some 16] ∧ c.mi = some 11 ∧
    s'.hp.ums 11 = [⟨12, some 16⟩, ⟨13, none⟩] ∧ s'.elfRefs = 2 ∧ s'.par.children = [6] :=
  ⟨_, _, rfl, rfl, rfl, rfl, rfl, rfl⟩

example : 6 ∉ s0.par.children ∧ ∀ x ∈ s0.par.fds, x.isSome = true := by decide

/-- fork() fails at its first and at its second allocation. -/
example : ∃ s', doFork (fun n => n != 8) true false (some 6) s0 = (.enomem, s') := ⟨_, rfl⟩
example : ∃ s', doFork (fun n => n != 9) true false (some 6) s0 = (.enomem, s') := ⟨_, rfl⟩

/-- vfork() succeeds for a process without file mappings. -/
example : ∃ c s', doFork (fun _ => true) true true (some 6) s1 = (.child c, s') ∧ c.fds = [some 12] := ⟨_, _, rfl, rfl⟩

example : ∀ m, s1.par.mi = some m → ∀ u ∈ s1.hp.ums m, u.h = none := by
  intro m hm u hu
  obtain rfl := Option.some.inj hm
  have hu' : u = Um.mk 7 none := List.mem_singleton.mp hu
  rw [hu']

/-- A failed fork() takes the parent's mappings away: no memory for the copy of the mappings, or for the command line
buffer (then a reference to the current directory is lost as well). -/
theorem fork_loses_mappings_violated :
    (∃ s', doFork (fun n => n != 10) false false (some 6) s0 = (.enomem, s') ∧ s'.par.mi = none ∧ s'.hp.live 2 = false) ∧
    (∃ s', doFork (fun n => n != 10) true false (some 6) s0 = (.enomem, s') ∧ s'.par.mi = none ∧ s'.cwdRefs = 0) :=
  ⟨⟨_, rfl, rfl, by decide⟩, ⟨_, rfl, rfl, rfl⟩⟩

/-- A failed fork() loses a reference to the executable's lock (no kernel stack), and a page directory (no handle). -/
theorem fork_leaks_violated :
    (∃ s', doFork (fun n => n != 13) false false (some 6) s0 = (.enomem, s') ∧ s'.elfRefs = 2 ∧ s'.hp.live 8 = false) ∧
    (∃ s', doFork (fun n => n != 15) false false (some 6) s0 = (.enomem, s') ∧ s'.elfRefs = 2 ∧ s'.hp.live 8 = true) :=
  ⟨⟨_, rfl, rfl, by decide⟩, ⟨_, rfl, rfl, by decide⟩⟩

/-- A failed fork() of a process with a closed descriptor below an open one uses a NULL handle. -/
theorem fork_null_handle_violated :
    ∃ s', doFork (fun n => n != 15) false false (some 6) s2 = (.enomem, s') ∧ s'.hp.bad = true := ⟨_, rfl, by decide⟩

/-- A failed copy of the mappings leaves a freed record (11) on the list of mappings of the file. -/
theorem fork_stale_record_violated :
    ∃ s', doFork (fun n => n != 12) false false (some 6) s0 = (.enomem, s') ∧ s'.hp.live 11 = false ∧
      s'.hp.filed 11 = true := ⟨_, rfl, by decide, by decide⟩

/-- A failed vfork() frees the parent's mappings while the parent still points to them. -/
theorem vfork_frees_mappings_violated :
    ∃ s', doFork (fun n => n != 9) false true (some 6) s0 = (.enomem, s') ∧ s'.par.mi = some 2 ∧ s'.hp.live 2 = false :=
  ⟨_, rfl, rfl, by decide⟩

/-- After vfork() and the end of the child, the parent's file mapping refers to a freed handle. -/
theorem vfork_dangling_violated :
    ∃ c s', doFork (fun _ => true) false true (some 6) s0 = (.child c, s') ∧
      (exitReap c s').par = s0.par ∧ (exitReap c s').hp.ums 2 = [⟨3, some 11⟩, ⟨7, none⟩] ∧
      (exitReap c s').hp.live 11 = false := ⟨_, _, rfl, rfl, rfl, by decide⟩

end Verif.Fork
