/-!
# File descriptor tables (`kernel/fs/fs_syscalls.c`, `kernel/vfs/vfs.c`, `kernel/fork.c`)

A process has an array of `KRN_MAX_HANDLES` pointers to handle objects.  Handle objects live in a heap; using
an object that was freed, or an index outside the array, is the outcome `ub`.  A failed allocation is an
argument of the step.  What the handle refers to is a number (`file`).
-/

namespace Verif.Fd

/-- `struct fs_handle_base` (include/tilck/kernel/fs/vfs_base.h), the fields used here. -/
structure Obj where
  file : Nat
  fdFlags : BitVec 32
deriving DecidableEq, Repr

abbrev Heap := Nat → Option Obj
/-- `pi->handles` (include/tilck/kernel/process.h:62). -/
abbrev Tab := List (Option Nat)

structure St where
  heap : Heap
  procs : Nat → Option Tab

/-- Results of system calls. -/
inductive Ret | ok (v : Nat) | two (a b : Nat) | err (e : Nat)
deriving DecidableEq, Repr

def EBADF := 9
def ENOMEM := 12
def EFAULT := 14
def EINVAL := 22
def EMFILE := 24

/-- `blocked`: the step is not possible in this state (no such process, address already allocated). -/
inductive Res (α : Type) | blocked | ub | ok (x : α)

def setH (h : Heap) (a : Nat) (o : Option Obj) : Heap := fun x => if x = a then o else h x
def setP (ps : Nat → Option Tab) (p : Nat) (t : Option Tab) : Nat → Option Tab := fun x => if x = p then t else ps x

/-! ## Model -/

/-- fs_syscalls.c:15-18 `is_fd_in_valid_range`. -/
def inRange (t : Tab) (fd : Int) : Bool := decide (0 ≤ fd ∧ fd < t.length)

/-- fs_syscalls.c:43-56 `get_fs_handle`. -/
def getH (t : Tab) (fd : Int) : Option Nat := if inRange t fd then (t[fd.toNat]?).join else none

/-- fs_syscalls.c:20-29 `get_free_handle_num_ge` for `ge ≥ 0` (a negative index reads outside the array). -/
def freeGe (t : Tab) (ge : Nat) : Option Nat :=
  (List.range' ge (t.length - ge)).find? (fun i => decide (t[i]? = some none))

/-- vfs.c:27-64 `vfs_close`: `none` is use of a freed object. -/
def vfsClose (h : Heap) (a : Nat) : Option Heap :=
  match h a with
  | none => none
  | some _ => some (setH h a none)

/-- vfs.c:74-116 `vfs_dup` with an allocation `some a`; the new object has no fd flags (105). -/
def vfsDup (h : Heap) (old : Nat) (a : Nat) : Res Heap :=
  match h old with
  | none => .ub
  | some o => if h a = none then .ok (setH h a (some { o with fdFlags := 0 })) else .blocked

/-- fs_syscalls.c:680-744 `sys_dup2`; `alloc = none`: `vfs_dup` fails with -ENOMEM. -/
def dup2 (h : Heap) (t : Tab) (old new : Int) (alloc : Option Nat) : Res (Heap × Tab × Ret) :=
  if !inRange t old then .ok (h, t, .err EBADF)
  else if !inRange t new then .ok (h, t, .err EBADF)
  else if new = old then .ok (h, t, .err EINVAL)
  else match getH t old with
    | none => .ok (h, t, .err EBADF)
    | some oh =>
      match (match getH t new with | some nh => vfsClose h nh | none => some h) with
      | none => .ub
      | some h1 =>
        match alloc with
        | none => (match h1 oh with | none => .ub | some _ => .ok (h1, t, .err ENOMEM))
        | some a => match vfsDup h1 oh a with
          | .ub => .ub
          | .blocked => .blocked
          | .ok h2 => .ok (h2, t.set new.toNat (some a), .ok new.toNat)

/-- fs_syscalls.c:756-771 `sys_dup`. -/
def dup (h : Heap) (t : Tab) (old : Int) (alloc : Option Nat) : Res (Heap × Tab × Ret) :=
  match freeGe t 0 with
  | none => .ok (h, t, .err EMFILE)
  | some fd => dup2 h t old fd alloc

def cloexecBit : BitVec 32 := 1

/-- `h->fd_flags & FD_CLOEXEC`. -/
def marked (o : Obj) : Bool := decide (o.fdFlags &&& cloexecBit ≠ 0)

/-- fs_syscalls.c:838-862 `fcntl(F_DUPFD / F_DUPFD_CLOEXEC)`; 855: the flag is set only when `sys_dup2`
returned 0. -/
def dupFd (h : Heap) (t : Tab) (fd arg : Int) (ce : Bool) (alloc : Option Nat) : Res (Heap × Tab × Ret) :=
  match getH t fd with
  | none => .ok (h, t, .err EBADF)
  | some _ =>
    if arg < 0 then .ub
    else
      let newFd : Int := match freeGe t arg.toNat with | some n => (n : Int) | none => -1
      match dup2 h t fd newFd alloc with
      | .ub => .ub
      | .blocked => .blocked
      | .ok (h1, t1, r) =>
        if ce = true ∧ r = .ok 0 then
          match getH t1 newFd with
          | none => .ub
          | some a2 => match h1 a2 with
            | none => .ub
            | some o => .ok (setH h1 a2 (some { o with fdFlags := o.fdFlags ||| cloexecBit }), t1, r)
        else .ok (h1, t1, r)

/-- fs_syscalls.c:864-866 `fcntl(F_SETFD)`. -/
def setFd (h : Heap) (t : Tab) (fd : Int) (arg : BitVec 32) : Res (Heap × Tab × Ret) :=
  match getH t fd with
  | none => .ok (h, t, .err EBADF)
  | some a => match h a with
    | none => .ub
    | some o => .ok (setH h a (some { o with fdFlags := arg &&& 0xffff }), t, .ok 0)

/-- fs_syscalls.c:59-104 `sys_open` and vfs.c:310-344; `alloc`: the new handle with what it refers to, or the
error of `vfs_open`. -/
def openF (h : Heap) (t : Tab) (ce : Bool) (file : Nat) (alloc : Except Nat Nat) : Res (Heap × Tab × Ret) :=
  match freeGe t 0 with
  | none => .ok (h, t, .err EMFILE)
  | some fd => match alloc with
    | .error e => .ok (h, t, .err e)
    | .ok a => if h a = none then
        .ok (setH h a (some ⟨file, if ce then cloexecBit else 0⟩), t.set fd (some a), .ok fd)
      else .blocked

/-- fs_syscalls.c:163-179 `sys_close`. -/
def close (h : Heap) (t : Tab) (fd : Int) : Res (Heap × Tab × Ret) :=
  match getH t fd with
  | none => .ok (h, t, .err EBADF)
  | some a => match vfsClose h a with
    | none => .ub
    | some h1 => .ok (h1, t.set fd.toNat none, .ok 0)

/-- fs_syscalls.c:1097-1197 `sys_pipe2` without O_DIRECT and O_NONBLOCK; `pipeOk`: the pipe was allocated; `a1`,
`a2`: the two handles (or failure, -EFAULT); `copyOk`: the result could be stored. -/
def pipe2 (h : Heap) (t : Tab) (ce : Bool) (file : Nat) (pipeOk : Bool) (a1 a2 : Option Nat) (copyOk : Bool) :
    Res (Heap × Tab × Ret) :=
  if pipeOk = false then .ok (h, t, .err ENOMEM)
  else match freeGe t 0 with
    | none => .ok (h, t, .err EMFILE)
    | some f0 => match a1 with
      | none => .ok (h, t, .err EFAULT)
      | some x => if h x ≠ none then .blocked else
        let h1 := setH h x (some ⟨file, 0⟩)
        let t1 := t.set f0 (some x)
        match freeGe t1 0 with
        | none => .ok (setH h1 x none, t1.set f0 none, .err EMFILE)
        | some f1 => match a2 with
          | none => .ok (setH h1 x none, t1.set f0 none, .err EFAULT)
          | some y => if h1 y ≠ none then .blocked else
            let h2 := setH h1 y (some ⟨file + 1, 0⟩)
            let t2 := t1.set f1 (some y)
            if copyOk = false then .ok (setH (setH h2 x none) y none, (t2.set f0 none).set f1 none, .err EFAULT)
            else if ce then
              .ok (setH (setH h2 x (some ⟨file, cloexecBit⟩)) y (some ⟨file + 1, cloexecBit⟩), t2, .two f0 f1)
            else .ok (h2, t2, .two f0 f1)

/-- fs_syscalls.c:812-827 `close_cloexec_handles` (`q = marked`) and exit.c:99-111 `close_all_handles`
(`q` always true): the loop over the table. -/
def closeLoop (q : Obj → Bool) (h : Heap) : Tab → Option (Heap × Tab)
  | [] => some (h, [])
  | none :: r => (closeLoop q h r).map (fun x => (x.1, none :: x.2))
  | some a :: r => match h a with
    | none => none
    | some o =>
      if q o then (closeLoop q (setH h a none) r).map (fun x => (x.1, none :: x.2))
      else (closeLoop q h r).map (fun x => (x.1, some a :: x.2))

/-- fork.c:34-37: closing the handles duplicated so far; a NULL entry is passed to `vfs_close` too. -/
def closeDups (h : Heap) : Tab → Option Heap
  | [] => some h
  | none :: _ => none
  | some a :: r => match vfsClose h a with
    | none => none
    | some h1 => closeDups h1 r

/-- fork.c:14-56 `fork_dup_all_handles` on the copy of the table; `acc`: the part already handled. The result
`none` for the table: failure. -/
def forkLoop (alloc : Nat → Option Nat) (h : Heap) (acc : Tab) : Tab → Res (Heap × Option Tab)
  | [] => .ok (h, some acc)
  | none :: r => forkLoop alloc h (acc ++ [none]) r
  | some a :: r => match alloc acc.length with
    | none => (match h a with
      | none => .ub
      | some _ => match closeDups h acc with
        | none => .ub
        | some h1 => .ok (h1, none))
    | some b => match vfsDup h a b with
      | .ub => .ub
      | .blocked => .blocked
      | .ok h1 => forkLoop alloc h1 (acc ++ [some b]) r

inductive Op
  | openF (p : Nat) (ce : Bool) (file : Nat) (alloc : Except Nat Nat)
  | close (p : Nat) (fd : Int)
  | dup2 (p : Nat) (old new : Int) (alloc : Option Nat)
  | dup (p : Nat) (old : Int) (alloc : Option Nat)
  | dupFd (p : Nat) (fd arg : Int) (ce : Bool) (alloc : Option Nat)
  | setFd (p : Nat) (fd : Int) (arg : BitVec 32)
  | pipe2 (p : Nat) (ce : Bool) (file : Nat) (pipeOk : Bool) (a1 a2 : Option Nat) (copyOk : Bool)
  | exec (p : Nat)
  | fork (p c : Nat) (alloc : Nat → Option Nat)
  | exit (p : Nat)

def Op.proc : Op → Nat
  | .openF p .. | .close p .. | .dup2 p .. | .dup p .. | .dupFd p .. | .setFd p .. | .pipe2 p .. | .exec p
  | .fork p .. | .exit p => p

def lift (s : St) (p : Nat) : Res (Heap × Tab × Ret) → Res (St × Ret)
  | .blocked => .blocked
  | .ub => .ub
  | .ok (h, t, r) => .ok (⟨h, setP s.procs p (some t)⟩, r)

def stepT (s : St) (t : Tab) : Op → Res (St × Ret)
  | .openF p ce f a => lift s p (openF s.heap t ce f a)
  | .close p fd => lift s p (close s.heap t fd)
  | .dup2 p o n a => lift s p (dup2 s.heap t o n a)
  | .dup p o a => lift s p (dup s.heap t o a)
  | .dupFd p fd arg ce a => lift s p (dupFd s.heap t fd arg ce a)
  | .setFd p fd arg => lift s p (setFd s.heap t fd arg)
  | .pipe2 p ce f ok a b c => lift s p (pipe2 s.heap t ce f ok a b c)
  | .exec p => match closeLoop marked s.heap t with
    | none => .ub
    | some (h, t') => .ok (⟨h, setP s.procs p (some t')⟩, .ok 0)
  | .exit p => match closeLoop (fun _ => true) s.heap t with
    | none => .ub
    | some (h, _) => .ok (⟨h, setP s.procs p none⟩, .ok 0)
  | .fork _ c alloc =>
    if s.procs c ≠ none then .blocked
    else match forkLoop alloc s.heap [] t with
      | .blocked => .blocked
      | .ub => .ub
      | .ok (h, none) => .ok (⟨h, s.procs⟩, .err ENOMEM)
      | .ok (h, some t') => .ok (⟨h, setP s.procs c (some t')⟩, .ok c)

def step (s : St) (op : Op) : Res (St × Ret) :=
  match s.procs op.proc with
  | none => .blocked
  | some t => stepT s t op

/-- One process with an empty table of `n` entries. -/
def init (n : Nat) : St := ⟨fun _ => none, fun p => if p = 1 then some (List.replicate n none) else none⟩

/-! ## Specification

What POSIX says, in terms of descriptors: each process has a partial function from descriptors to the open file
they refer to and their close-on-exec flag. -/

structure Desc where
  file : Nat
  cloexec : Bool
deriving DecidableEq, Repr

/-- descriptor ↦ what it refers to -/
abbrev View := Nat → Option Desc

/-- `r` is the lowest unused descriptor `≥ lo`, of a process with at most `n` descriptors. -/
def Lowest (n : Nat) (v : View) (lo r : Nat) : Prop :=
  lo ≤ r ∧ r < n ∧ v r = none ∧ ∀ i, lo ≤ i → i < r → v i ≠ none

def Full (n : Nat) (v : View) (lo : Nat) : Prop := ∀ i, lo ≤ i → i < n → v i ≠ none

def setV (v : View) (i : Nat) (d : Option Desc) : View := fun x => if x = i then d else v x

/-- `Spec n v op v' r`: a process with view `v` that executes `op` and gets the result `r` has view `v'` after it. -/
inductive Spec (n : Nat) (v : View) : Op → View → Ret → Prop
  | openOk {p ce f a fd} : Lowest n v 0 fd → Spec n v (.openF p ce f (.ok a)) (setV v fd (some ⟨f, ce⟩)) (.ok fd)
  | openErr {p ce f e} : ¬ Full n v 0 → Spec n v (.openF p ce f (.error e)) v (.err e)
  | openFull {p ce f a} : Full n v 0 → Spec n v (.openF p ce f a) v (.err EMFILE)
  | closeOk {p} {fd : Int} (d : Nat) : fd = d → v d ≠ none → Spec n v (.close p fd) (setV v d none) (.ok 0)
  | closeBad {p} {fd : Int} : (∀ d : Nat, fd = d → v d = none) → Spec n v (.close p fd) v (.err EBADF)
  | dup2Ok {p a} {o w : Int} (od nd : Nat) (D : Desc) : o = od → w = nd → od ≠ nd → nd < n → v od = some D →
      Spec n v (.dup2 p o w (some a)) (setV v nd (some ⟨D.file, false⟩)) (.ok nd)
  | dup2Same {p a} {o w : Int} (d : Nat) : o = d → w = d → v d ≠ none → Spec n v (.dup2 p o w a) v (.ok d)
  | dup2Bad {p a} {o w : Int} : ((∀ d : Nat, o = d → v d = none) ∨ ¬ (0 ≤ w ∧ w < n)) → Spec n v (.dup2 p o w a) v (.err EBADF)
  | dup2Mem {p} {o w : Int} : Spec n v (.dup2 p o w none) v (.err ENOMEM)
  | dupOk {p a fd} {o : Int} (od : Nat) (D : Desc) : o = od → v od = some D → Lowest n v 0 fd →
      Spec n v (.dup p o (some a)) (setV v fd (some ⟨D.file, false⟩)) (.ok fd)
  | dupBad {p a} {o : Int} : (∀ d : Nat, o = d → v d = none) → Spec n v (.dup p o a) v (.err EBADF)
  | dupFull {p o a} : Full n v 0 → Spec n v (.dup p o a) v (.err EMFILE)
  | dupMem {p o} : Spec n v (.dup p o none) v (.err ENOMEM)
  | dupFdOk {p ce a fd} {o : Int} (od lo : Nat) (D : Desc) : o = od → v od = some D → Lowest n v lo fd →
      Spec n v (.dupFd p o lo ce (some a)) (setV v fd (some ⟨D.file, ce⟩)) (.ok fd)
  | dupFdBad {p ce a arg} {o : Int} : (∀ d : Nat, o = d → v d = none) → Spec n v (.dupFd p o arg ce a) v (.err EBADF)
  | dupFdFull {p o ce a} (lo : Nat) : lo < n → Full n v lo → Spec n v (.dupFd p o lo ce a) v (.err EMFILE)
  | dupFdInval {p o ce a} {arg : Int} : ¬ (0 ≤ arg ∧ arg < n) → Spec n v (.dupFd p o arg ce a) v (.err EINVAL)
  | dupFdMem {p o arg ce} : Spec n v (.dupFd p o arg ce none) v (.err ENOMEM)
  | setFdOk {p arg} {fd : Int} (d : Nat) (D : Desc) : fd = d → v d = some D →
      Spec n v (.setFd p fd arg) (setV v d (some ⟨D.file, arg.getLsbD 0⟩)) (.ok 0)
  | setFdBad {p arg} {fd : Int} : (∀ d : Nat, fd = d → v d = none) → Spec n v (.setFd p fd arg) v (.err EBADF)
  | pipeOk {p ce f a b x y} : Lowest n v 0 x → Lowest n (setV v x (some ⟨f, ce⟩)) 0 y →
      Spec n v (.pipe2 p ce f true (some a) (some b) true)
        (setV (setV v x (some ⟨f, ce⟩)) y (some ⟨f + 1, ce⟩)) (.two x y)
  | pipeErr {p ce f ok a b c e} : ((e = ENOMEM ∧ ok = false) ∨ (e = EFAULT ∧ (a = none ∨ b = none ∨ c = false)) ∨
        (e = EMFILE ∧ (Full n v 0 ∨ ∃ x, Lowest n v 0 x ∧ Full n v (x + 1)))) →
      Spec n v (.pipe2 p ce f ok a b c) v (.err e)
  | exec {p} : Spec n v (.exec p) (fun i => match v i with | some D => if D.cloexec then none else some D | none => none) (.ok 0)
  | fork {p c a} : Spec n v (.fork p c a) v (.ok c)
  | forkMem {p c a} : Spec n v (.fork p c a) v (.err ENOMEM)

/-- The view of process `p` in a state. -/
def view (h : Heap) (t : Tab) : View := fun i =>
  match (t[i]?).join with
  | none => none
  | some a => (h a).map (fun o => ⟨o.file, o.fdFlags.getLsbD 0⟩)

/-- Steps that do not run into the defects that corrupt memory: F_DUPFD with a negative argument, a failed
allocation in dup2 onto a used descriptor or in fork. -/
def SafeOp (t : Tab) : Op → Prop
  | .dup2 _ _ w a => a = none → getH t w = none
  | .dupFd _ _ arg _ _ => 0 ≤ arg
  | .fork _ _ alloc => ∀ i, alloc i ≠ none
  | _ => True

/-- All histories of safe steps. -/
inductive Exec (n : Nat) : St → Prop
  | init : Exec n (init n)
  | step {s op t s' r} : Exec n s → s.procs op.proc = some t → SafeOp t op → step s op = .ok (s', r) → Exec n s'

/-- Steps for which the result agrees with POSIX: not F_DUPFD_CLOEXEC, not F_DUPFD with no free descriptor
`≥ arg`, not dup2 of a descriptor onto itself
(or dup of the lowest unused descriptor). -/
def PosixOp (t : Tab) : Op → Prop
  | .dup2 _ o w _ => o ≠ w
  | .dup _ o _ => ∀ r, freeGe t 0 = some r → o ≠ (r : Int)
  | .dupFd _ _ arg ce _ => ce = false ∧ freeGe t arg.toNat ≠ none
  | _ => True

/-! ## Proofs -/

theorem ok_ne {α : Type} {x : α} : Res.ok x ≠ .ub := fun e => by cases e

theorem ok_inj {h h' : Heap} {t t' : Tab} {r r' : Ret} (e : Res.ok (h, t, r) = Res.ok (h', t', r')) :
    h' = h ∧ t' = t ∧ r' = r := by
  injection e with e; injection e with e1 e2; injection e2 with e2 e3; exact ⟨e1.symm, e2.symm, e3.symm⟩

/-- No dangling entries and no handle object used twice. -/
structure Wf (h : Heap) (t : Tab) : Prop where
  live : ∀ (i a : Nat), t[i]? = some (some a) → h a ≠ none
  inj : ∀ (i j a : Nat), t[i]? = some (some a) → t[j]? = some (some a) → i = j

/-- A change of one process's table and of objects that belong to it or are new. -/
structure Loc (h : Heap) (t : Tab) (h' : Heap) (t' : Tab) : Prop where
  len : t'.length = t.length
  wf : Wf h' t'
  own : ∀ (i a : Nat), t'[i]? = some (some a) → (∃ j : Nat, t[j]? = some (some a)) ∨ h a = none
  frame : ∀ a, h a ≠ none → (∀ j : Nat, t[j]? ≠ some (some a)) → h' a = h a

theorem loc_refl {h : Heap} {t : Tab} (w : Wf h t) : Loc h t h t :=
  ⟨rfl, w, fun i a hi => .inl ⟨i, hi⟩, fun _ _ _ => rfl⟩

theorem loc_trans {h : Heap} {t : Tab} {h1 : Heap} {t1 : Tab} {h2 : Heap} {t2 : Tab} (a : Loc h t h1 t1) (b : Loc h1 t1 h2 t2) : Loc h t h2 t2 := by
  refine ⟨b.len.trans a.len, b.wf, ?_, ?_⟩
  · intro i x hi
    rcases b.own i x hi with ⟨j, hj⟩ | hn
    · exact a.own j x hj
    · by_cases hx : h x = none
      · exact .inr hx
      · apply Classical.byContradiction
        intro hc
        have hc' : (∀ j : Nat, t[j]? ≠ some (some x)) := fun j hj => hc (.inl ⟨j, hj⟩)
        have := a.frame x hx hc'
        rw [hn] at this
        exact hx this.symm
  · intro x hx hj
    have e := a.frame x hx hj
    rw [← e]
    apply b.frame x (by rw [e]; exact hx)
    intro j hj1
    rcases a.own j x hj1 with ⟨k, hk⟩ | hn
    · exact hj k hk
    · exact hx hn

theorem get_set {t : Tab} {i j : Nat} {x : Option Nat} (hi : i < t.length) :
    (t.set i x)[j]? = if j = i then some x else t[j]? := by
  rw [List.getElem?_set]
  by_cases e : i = j
  · subst e; simp [hi]
  · simp [e, Ne.symm e]

theorem lt_of_get {t : Tab} {i : Nat} {x} (h : t[i]? = some x) : i < t.length := by
  rcases Nat.lt_or_ge i t.length with h' | h'
  · exact h'
  · rw [List.getElem?_eq_none h'] at h; cases h

theorem loc_add {h : Heap} {t : Tab} {i : Nat} {a : Nat} (o : Obj) (w : Wf h t) (hi : t[i]? = some none) (ha : h a = none) :
    Loc h t (setH h a (some o)) (t.set i (some a)) := by
  have hl := lt_of_get hi
  have na : ∀ j : Nat, t[j]? ≠ some (some a) := fun j hj => w.live j a hj ha
  refine ⟨by simp, ⟨?_, ?_⟩, ?_, ?_⟩
  · intro j b hj
    rw [get_set hl] at hj
    unfold setH
    split at hj
    · injection hj with hj; injection hj with hj; subst hj; simp
    · have : b ≠ a := by rintro rfl; exact na j hj
      rw [if_neg this]; exact w.live j b hj
  · intro j k b hj hk
    rw [get_set hl] at hj hk
    split at hj
    · injection hj with hj; injection hj with hj; subst hj
      split at hk
      · omega
      · exact absurd hk (na k)
    · split at hk
      · injection hk with hk; injection hk with hk; subst hk; exact absurd hj (na j)
      · exact w.inj j k b hj hk
  · intro j b hj
    rw [get_set hl] at hj
    split at hj
    · injection hj with hj; injection hj with hj; subst hj; exact .inr ha
    · exact .inl ⟨j, hj⟩
  · intro b hb _
    have : b ≠ a := by rintro rfl; exact hb ha
    unfold setH; rw [if_neg this]

theorem loc_mod {h : Heap} {t : Tab} {i : Nat} {a : Nat} (o : Obj) (w : Wf h t) (hi : t[i]? = some (some a)) :
    Loc h t (setH h a (some o)) t := by
  refine ⟨rfl, ⟨?_, w.inj⟩, fun j b hj => .inl ⟨j, hj⟩, ?_⟩
  · intro j b hj
    unfold setH
    split
    · simp
    · exact w.live j b hj
  · intro b _ hj
    have : b ≠ a := by rintro rfl; exact hj i hi
    unfold setH; rw [if_neg this]

theorem loc_close {h : Heap} {t : Tab} {i : Nat} {a : Nat} (w : Wf h t) (hi : t[i]? = some (some a)) :
    Loc h t (setH h a none) (t.set i none) := by
  have hl := lt_of_get hi
  refine ⟨by simp, ⟨?_, ?_⟩, ?_, ?_⟩
  · intro j b hj
    rw [get_set hl] at hj
    split at hj
    · cases hj
    · rename_i e
      have : b ≠ a := by rintro rfl; exact e (w.inj j i b hj hi)
      unfold setH; rw [if_neg this]; exact w.live j b hj
  · intro j k b hj hk
    rw [get_set hl] at hj hk
    split at hj
    · cases hj
    · split at hk
      · cases hk
      · exact w.inj j k b hj hk
  · intro j b hj
    rw [get_set hl] at hj
    split at hj
    · cases hj
    · exact .inl ⟨j, hj⟩
  · intro b _ hj
    have : b ≠ a := by rintro rfl; exact hj i hi
    unfold setH; rw [if_neg this]

def desc (o : Obj) : Desc := ⟨o.file, o.fdFlags.getLsbD 0⟩

theorem view_some {h : Heap} {t : Tab} {i : Nat} {a : Nat} {o : Obj} (hi : t[i]? = some (some a)) (ho : h a = some o) : view h t i = some (desc o) := by
  unfold view; rw [hi]; simp [ho, desc]

theorem view_free {h : Heap} {t : Tab} {i : Nat} (hi : t[i]? = some none) : view h t i = none := by
  unfold view; rw [hi]; rfl

theorem view_out {h : Heap} {t : Tab} {i : Nat} (hi : t.length ≤ i) : view h t i = none := by
  unfold view; rw [List.getElem?_eq_none hi]; rfl

theorem view_none_iff {h : Heap} {t : Tab} {i : Nat} (w : Wf h t) (hi : i < t.length) : view h t i = none ↔ t[i]? = some none := by
  constructor
  · intro hv
    cases hx : t[i]? with
    | none => rw [List.getElem?_eq_none_iff] at hx; omega
    | some x => cases x with
      | none => rfl
      | some a =>
        cases ho : h a with
        | none => exact absurd ho (w.live i a hx)
        | some o => rw [view_some hx ho] at hv; cases hv
  · exact view_free

theorem view_eq {h h' : Heap} {t t' : Tab} {i : Nat} (e : t'[i]? = t[i]?) (hh : ∀ a, t[i]? = some (some a) → h' a = h a) :
    view h' t' i = view h t i := by
  unfold view; rw [e]
  cases hx : t[i]? with
  | none => rfl
  | some x => cases x with
    | none => rfl
    | some a => simp [hh a hx]

theorem view_add {h : Heap} {t : Tab} {i : Nat} {a : Nat} (o : Obj) (w : Wf h t) (hi : t[i]? = some none) (ha : h a = none) :
    view (setH h a (some o)) (t.set i (some a)) = setV (view h t) i (some (desc o)) := by
  funext j
  have hl := lt_of_get hi
  unfold setV
  split
  · rename_i e; subst e
    exact view_some (by rw [get_set hl, if_pos rfl]) (by unfold setH; rw [if_pos rfl])
  · rename_i e
    apply view_eq (by rw [get_set hl, if_neg e])
    intro b hb
    have : b ≠ a := by rintro rfl; exact w.live j b hb ha
    unfold setH; rw [if_neg this]

theorem view_mod {h : Heap} {t : Tab} {i : Nat} {a : Nat} (o : Obj) (w : Wf h t) (hi : t[i]? = some (some a)) :
    view (setH h a (some o)) t = setV (view h t) i (some (desc o)) := by
  funext j
  unfold setV
  split
  · rename_i e; subst e
    exact view_some hi (by unfold setH; rw [if_pos rfl])
  · rename_i e
    apply view_eq rfl
    intro b hb
    have : b ≠ a := by rintro rfl; exact e (w.inj j i b hb hi)
    unfold setH; rw [if_neg this]

theorem view_close {h : Heap} {t : Tab} {i : Nat} {a : Nat} (w : Wf h t) (hi : t[i]? = some (some a)) :
    view (setH h a none) (t.set i none) = setV (view h t) i none := by
  funext j
  have hl := lt_of_get hi
  unfold setV
  split
  · rename_i e; subst e
    exact view_free (by rw [get_set hl, if_pos rfl])
  · rename_i e
    apply view_eq (by rw [get_set hl, if_neg e])
    intro b hb
    have : b ≠ a := by rintro rfl; exact e (w.inj j i b hb hi)
    unfold setH; rw [if_neg this]

theorem freeGe_some {t : Tab} {ge : Nat} {r : Nat} (h : freeGe t ge = some r) :
    ge ≤ r ∧ r < t.length ∧ t[r]? = some none ∧ ∀ i : Nat, ge ≤ i → i < r → t[i]? ≠ some none := by
  unfold freeGe at h
  rw [List.find?_eq_some_iff_getElem] at h
  obtain ⟨h1, k, hk, h2, h3⟩ := h
  simp only [List.length_range'] at hk
  simp at h1 h2
  refine ⟨by omega, by omega, h1, ?_⟩
  intro i hi hlt
  have := h3 (i - ge) (by omega)
  simp at this
  rwa [show ge + (i - ge) = i by omega] at this

theorem freeGe_none {t : Tab} {ge : Nat} (h : freeGe t ge = none) : ∀ i : Nat, ge ≤ i → i < t.length → t[i]? ≠ some none := by
  unfold freeGe at h
  rw [List.find?_eq_none] at h
  intro i h1 h2
  have := h i (by rw [List.mem_range'_1]; omega)
  simpa using this

theorem lowest_of_free {h : Heap} {t : Tab} {ge : Nat} {r : Nat} (w : Wf h t) (hf : freeGe t ge = some r) : Lowest t.length (view h t) ge r := by
  obtain ⟨a, b, c, d⟩ := freeGe_some hf
  exact ⟨a, b, view_free c, fun i hi hlt hv => d i hi hlt ((view_none_iff w (by omega)).1 hv)⟩

theorem full_of_none {h : Heap} {t : Tab} {ge : Nat} (w : Wf h t) (hf : freeGe t ge = none) : Full t.length (view h t) ge :=
  fun i hi hlt hv => freeGe_none hf i hi hlt ((view_none_iff w hlt).1 hv)

theorem getH_some {t : Tab} {fd : Int} {a : Nat} (h : getH t fd = some a) : ∃ d : Nat, fd = d ∧ t[d]? = some (some a) := by
  unfold getH inRange at h
  split at h
  · rename_i hr
    simp at hr
    refine ⟨fd.toNat, by omega, ?_⟩
    cases hx : t[fd.toNat]? with
    | none => rw [hx] at h; cases h
    | some x => rw [hx] at h; simp at h; rw [h]
  · cases h

theorem getH_of {t : Tab} {d : Nat} {a : Nat} (h : t[d]? = some (some a)) : getH t d = some a := by
  have := lt_of_get h
  unfold getH inRange
  rw [if_pos (by simp; omega)]
  simp [h]

theorem getH_none {h : Heap} {t : Tab} {fd : Int} (hg : getH t fd = none) : ∀ d : Nat, fd = d → view h t d = none := by
  rintro d rfl
  rcases Nat.lt_or_ge d t.length with hd | hd
  · cases hx : t[d]? with
    | none => rw [List.getElem?_eq_none_iff] at hx; omega
    | some x => cases x with
      | none => exact view_free hx
      | some a => rw [getH_of hx] at hg; cases hg
  · exact view_out hd

theorem getH_none_slot {t : Tab} {d : Nat} (hd : d < t.length) (hg : getH t d = none) : t[d]? = some none := by
  cases hx : t[d]? with
  | none => rw [List.getElem?_eq_none_iff] at hx; omega
  | some x => cases x with
    | none => rfl
    | some a => rw [getH_of hx] at hg; cases hg

/-! ### dup2 -/

inductive Dup2Out (h : Heap) (t : Tab) (old new : Int) (alloc : Option Nat) : Heap → Tab → Ret → Prop
  | bad : ((∀ d : Nat, old = d → view h t d = none) ∨ ¬ (0 ≤ new ∧ new < t.length)) →
      Dup2Out h t old new alloc h t (.err EBADF)
  | same : new = old → Dup2Out h t old new alloc h t (.err EINVAL)
  | mem : alloc = none → Dup2Out h t old new alloc h t (.err ENOMEM)
  | ok {od : Nat} {nd : Nat} {a : Nat} {D : Desc} {h' : Heap} {t' : Tab} : old = od → new = nd → od ≠ nd → nd < t.length → alloc = some a → view h t od = some D →
      t'[nd]? = some (some a) → (∀ o, h' a = some o → o.fdFlags = 0) →
      view h' t' = setV (view h t) nd (some ⟨D.file, false⟩) → Dup2Out h t old new alloc h' t' (.ok nd)

theorem dup2_spec {h : Heap} {t : Tab} {old : Int} {new : Int} {alloc : Option Nat} (w : Wf h t) (hs : alloc = none → getH t new = none) :
    dup2 h t old new alloc ≠ .ub ∧ ∀ h' t' r, dup2 h t old new alloc = .ok (h', t', r) →
      Loc h t h' t' ∧ Dup2Out h t old new alloc h' t' r := by
  unfold dup2
  split
  · rename_i hr
    refine ⟨ok_ne, ?_⟩
    intro h' t' r e; obtain ⟨rfl, rfl, rfl⟩ := ok_inj e
    refine ⟨loc_refl w, .bad (.inl ?_)⟩
    rintro d rfl
    unfold inRange at hr; simp at hr
    exact view_out hr
  split
  · rename_i hr
    refine ⟨ok_ne, ?_⟩
    intro h' t' r e; obtain ⟨rfl, rfl, rfl⟩ := ok_inj e
    refine ⟨loc_refl w, .bad (.inr ?_)⟩
    unfold inRange at hr; simp at hr
    omega
  split
  · rename_i hr
    refine ⟨ok_ne, ?_⟩
    intro h' t' r e; obtain ⟨rfl, rfl, rfl⟩ := ok_inj e
    exact ⟨loc_refl w, .same hr⟩
  rename_i hr1 hr2 hne
  unfold inRange at hr2; simp at hr2
  obtain ⟨nd, rfl⟩ := Int.eq_ofNat_of_zero_le hr2.1
  have hnl : nd < t.length := by omega
  split
  · rename_i hg
    refine ⟨ok_ne, ?_⟩
    intro h' t' r e; obtain ⟨rfl, rfl, rfl⟩ := ok_inj e
    exact ⟨loc_refl w, .bad (.inl (getH_none hg))⟩
  rename_i oh hg
  obtain ⟨od, rfl, hod⟩ := getH_some hg
  have hodnd : od ≠ nd := by rintro rfl; exact hne rfl
  -- the state after closing the old occupant of `new`
  have key : ∃ h1, (match getH t nd with | some nh => vfsClose h nh | none => some h) = some h1 ∧
      Loc h t h1 (t.set nd none) ∧ view h1 (t.set nd none) = setV (view h t) nd none ∧
      (getH t nd = none → h1 = h) := by
    cases hgn : getH t nd with
    | none =>
      have hs := getH_none_slot hnl hgn
      have e : t.set nd none = t := by
        apply List.ext_getElem?
        intro j
        rw [get_set hnl]; split
        · rename_i e; subst e; exact hs.symm
        · rfl
      refine ⟨h, rfl, by rw [e]; exact loc_refl w, ?_, fun _ => rfl⟩
      rw [e]; funext j; unfold setV; split
      · rename_i e; subst e; exact view_free hs
      · rfl
    | some nh =>
      obtain ⟨d, ed, hd⟩ := getH_some hgn
      have : d = nd := by omega
      subst this
      refine ⟨setH h nh none, ?_, loc_close w hd, view_close w hd, (fun e => by cases e)⟩
      simp only
      unfold vfsClose
      cases hx : h nh with
      | none => exact absurd hx (w.live _ _ hd)
      | some o => rfl
  obtain ⟨h1, k1, k2, k3, k4⟩ := key
  simp only [k1]
  have hod1 : (t.set nd none)[od]? = some (some oh) := by rw [get_set hnl, if_neg hodnd]; exact hod
  cases ho : h1 oh with
  | none => exact absurd ho (k2.wf.live od oh hod1)
  | some o =>
    have hv : view h t od = some (desc o) := by
      have := view_some hod1 ho
      rw [k3] at this
      unfold setV at this
      rwa [if_neg hodnd] at this
    cases alloc with
    | none =>
      refine ⟨ok_ne, ?_⟩
      intro h' t' r e; obtain ⟨rfl, rfl, rfl⟩ := ok_inj e
      rw [k4 (hs rfl)]
      exact ⟨loc_refl w, .mem rfl⟩
    | some a =>
      simp only [vfsDup, ho]
      by_cases ha : h1 a = none
      · rw [if_pos ha]
        refine ⟨ok_ne, ?_⟩
        intro h' t' r e; obtain ⟨rfl, rfl, rfl⟩ := ok_inj e
        have hn : (t.set nd none)[nd]? = some none := by rw [get_set hnl, if_pos rfl]
        have es : t.set nd (some a) = (t.set nd none).set nd (some a) := by simp
        simp only [Int.toNat_natCast]
        rw [es]
        refine ⟨loc_trans k2 (loc_add _ k2.wf hn ha), .ok rfl rfl hodnd hnl rfl hv ?_ ?_ ?_⟩
        · rw [get_set (by simpa using hnl), if_pos rfl]
        · intro o' ho'; unfold setH at ho'; rw [if_pos rfl] at ho'; injection ho' with ho'; rw [← ho']
        · rw [view_add _ k2.wf hn ha, k3]
          funext j
          unfold setV
          split
          · simp [desc]
          · rfl
      · rw [if_neg ha]
        exact ⟨(fun e => by cases e), (fun _ _ _ e => by cases e)⟩

/-- What is proved about a call that works on the table of one process. -/
def Good (h : Heap) (t : Tab) (op : Op) (f : Res (Heap × Tab × Ret)) : Prop :=
  f ≠ .ub ∧ ∀ h' t' r, f = .ok (h', t', r) → Loc h t h' t' ∧
    (PosixOp t op → Spec t.length (view h t) op (view h' t') r)

theorem good_dup2 {h : Heap} {t : Tab} {p : Nat} {old new : Int} {alloc : Option Nat} (w : Wf h t)
    (hs : alloc = none → getH t new = none) : Good h t (.dup2 p old new alloc) (dup2 h t old new alloc) := by
  obtain ⟨a, b⟩ := dup2_spec (old := old) w hs
  refine ⟨a, fun h' t' r e => ?_⟩
  obtain ⟨l, o⟩ := b h' t' r e
  clear e
  refine ⟨l, fun hp => ?_⟩
  cases o with
  | bad hb => exact .dup2Bad hb
  | same e => exact absurd e.symm hp
  | mem e => subst e; exact .dup2Mem
  | ok e1 e2 e3 e4 e5 e6 e7 e8 e9 => subst e5; rw [e9]; exact .dup2Ok _ _ _ e1 e2 e3 e4 e6

theorem free_none {t : Tab} {ge r : Nat} (hf : freeGe t ge = some r) : getH t r = none := by
  obtain ⟨_, b, c, _⟩ := freeGe_some hf
  unfold getH; split
  · simp [c]
  · rfl

theorem good_dup {h : Heap} {t : Tab} {p : Nat} {old : Int} {alloc : Option Nat} (w : Wf h t) :
    Good h t (.dup p old alloc) (dup h t old alloc) := by
  unfold dup
  cases hf : freeGe t 0 with
  | none =>
    refine ⟨ok_ne, ?_⟩
    intro h' t' r e; obtain ⟨rfl, rfl, rfl⟩ := ok_inj e
    exact ⟨loc_refl w, fun _ => .dupFull (full_of_none w hf)⟩
  | some fd =>
    obtain ⟨a, b⟩ := dup2_spec (old := old) (new := fd) (alloc := alloc) w (fun _ => free_none hf)
    obtain ⟨f1, f2, f3, f4⟩ := freeGe_some hf
    refine ⟨a, fun h' t' r e => ?_⟩
    obtain ⟨l, o⟩ := b h' t' r e
    clear e
    refine ⟨l, fun hp => ?_⟩
    cases o with
    | bad hb =>
      rcases hb with hb | hb
      · exact .dupBad hb
      · exact absurd ⟨Int.natCast_nonneg fd, Int.ofNat_lt.2 f2⟩ hb
    | same e => exact absurd e.symm (hp fd hf)
    | mem e => subst e; exact .dupMem
    | ok e1 e2 e3 e4 e5 e6 e7 e8 e9 =>
      rename_i od nd a D
      have : nd = fd := by omega
      subst this
      subst e5; rw [e9]; exact .dupOk _ _ e1 e6 (lowest_of_free w hf)

theorem good_dupFd {h : Heap} {t : Tab} {p : Nat} {fd arg : Int} {ce : Bool} {alloc : Option Nat} (w : Wf h t)
    (ha : 0 ≤ arg) : Good h t (.dupFd p fd arg ce alloc) (dupFd h t fd arg ce alloc) := by
  obtain ⟨lo, rfl⟩ := Int.eq_ofNat_of_zero_le ha
  unfold dupFd
  split
  · rename_i hg
    refine ⟨ok_ne, ?_⟩
    intro h' t' r e; obtain ⟨rfl, rfl, rfl⟩ := ok_inj e
    exact ⟨loc_refl w, fun _ => .dupFdBad (getH_none hg)⟩
  · rename_i oh hg
    rw [if_neg (by omega)]
    simp only [Int.toNat_natCast]
    obtain ⟨d0, rfl, hd0⟩ := getH_some hg
    -- the new descriptor
    have hnew : getH t (match freeGe t lo with | some n => (n : Int) | none => -1) = none := by
      cases hf : freeGe t lo with
      | none => rfl
      | some r => exact free_none hf
    obtain ⟨a, b⟩ := dup2_spec (old := (d0 : Int)) (alloc := alloc) w (fun _ => hnew)
    generalize hr : dup2 h t d0 (match freeGe t lo with | some n => (n : Int) | none => -1) alloc = res at a b
    cases res with
    | ub => exact absurd rfl a
    | blocked => exact ⟨(fun e => by cases e), (fun _ _ _ e => by cases e)⟩
    | ok x =>
      obtain ⟨h1, t1, r1⟩ := x
      obtain ⟨l, o⟩ := b h1 t1 r1 rfl
      simp only
      split
      · rename_i hc
        obtain ⟨rfl, rfl⟩ := hc
        generalize hq : Ret.ok 0 = q at o
        cases o with
        | bad => cases hq
        | same => cases hq
        | mem => cases hq
        | ok e1 e2 e3 e4 e5 e6 e7 e8 e9 =>
          rename_i od nd a D
          rw [e2, getH_of e7]
          simp only
          cases ho : h1 a with
          | none => exact absurd ho (l.wf.live _ _ e7)
          | some o =>
            refine ⟨ok_ne, ?_⟩
            intro h' t' r e; obtain ⟨rfl, rfl, rfl⟩ := ok_inj e
            exact ⟨loc_trans l (loc_mod _ l.wf e7), fun hp => by cases hp.1⟩
      · refine ⟨ok_ne, ?_⟩
        intro h' t' r e; obtain ⟨rfl, rfl, rfl⟩ := ok_inj e
        clear e
        refine ⟨l, fun hp => ?_⟩
        obtain ⟨hp1, hp2⟩ := hp
        subst hp1
        simp only [Int.toNat_natCast] at hp2
        cases hf : freeGe t lo with
        | none => exact absurd hf hp2
        | some r =>
          simp only [hf] at o
          obtain ⟨f1, f2, f3, f4⟩ := freeGe_some hf
          cases o with
          | bad hb =>
            rcases hb with hb | hb
            · exact .dupFdBad hb
            · exact absurd ⟨Int.natCast_nonneg r, Int.ofNat_lt.2 f2⟩ hb
          | same e =>
            have : r = d0 := by omega
            subst this
            rw [f3] at hd0; cases hd0
          | mem e => subst e; exact .dupFdMem
          | ok e1 e2 e3 e4 e5 e6 e7 e8 e9 =>
            have hh := Int.ofNat.inj e2
            subst hh
            subst e5; rw [e9]; exact .dupFdOk _ _ _ e1 e6 (lowest_of_free w hf)

theorem good_setFd {h : Heap} {t : Tab} {p : Nat} {fd : Int} {arg : BitVec 32} (w : Wf h t) :
    Good h t (.setFd p fd arg) (setFd h t fd arg) := by
  unfold setFd
  cases hg : getH t fd with
  | none =>
    refine ⟨ok_ne, ?_⟩
    intro h' t' r e; obtain ⟨rfl, rfl, rfl⟩ := ok_inj e
    exact ⟨loc_refl w, fun _ => .setFdBad (getH_none hg)⟩
  | some a =>
    obtain ⟨d, rfl, hd⟩ := getH_some hg
    simp only
    cases ho : h a with
    | none => exact absurd ho (w.live _ _ hd)
    | some o =>
      refine ⟨ok_ne, ?_⟩
      intro h' t' r e; obtain ⟨rfl, rfl, rfl⟩ := ok_inj e
      refine ⟨loc_mod _ w hd, fun _ => ?_⟩
      rw [view_mod _ w hd]
      have : desc { o with fdFlags := arg &&& 0xffff } = ⟨(desc o).file, arg.getLsbD 0⟩ := by
        simp [desc]
      rw [this]
      exact .setFdOk _ _ rfl (view_some hd ho)

theorem desc_ce (f : Nat) (ce : Bool) : desc ⟨f, if ce then cloexecBit else 0⟩ = ⟨f, ce⟩ := by
  cases ce <;> simp [desc, cloexecBit]

theorem good_open {h : Heap} {t : Tab} {p f : Nat} {ce : Bool} {alloc : Except Nat Nat} (w : Wf h t) :
    Good h t (.openF p ce f alloc) (openF h t ce f alloc) := by
  unfold openF
  cases hf : freeGe t 0 with
  | none =>
    refine ⟨ok_ne, ?_⟩
    intro h' t' r e; obtain ⟨rfl, rfl, rfl⟩ := ok_inj e
    exact ⟨loc_refl w, fun _ => .openFull (full_of_none w hf)⟩
  | some fd =>
    obtain ⟨f1, f2, f3, f4⟩ := freeGe_some hf
    cases alloc with
    | error e =>
      refine ⟨ok_ne, ?_⟩
      intro h' t' r e; obtain ⟨rfl, rfl, rfl⟩ := ok_inj e
      exact ⟨loc_refl w, fun _ => .openErr (fun hfull => hfull fd (by omega) f2 (view_free f3))⟩
    | ok a =>
      simp only
      split
      · rename_i ha
        refine ⟨ok_ne, ?_⟩
        intro h' t' r e; obtain ⟨rfl, rfl, rfl⟩ := ok_inj e
        refine ⟨loc_add _ w f3 ha, fun _ => ?_⟩
        rw [view_add _ w f3 ha, desc_ce]
        exact .openOk (lowest_of_free w hf)
      · exact ⟨(fun e => by cases e), (fun _ _ _ e => by cases e)⟩

theorem good_close {h : Heap} {t : Tab} {p : Nat} {fd : Int} (w : Wf h t) :
    Good h t (.close p fd) (close h t fd) := by
  unfold close
  cases hg : getH t fd with
  | none =>
    refine ⟨ok_ne, ?_⟩
    intro h' t' r e; obtain ⟨rfl, rfl, rfl⟩ := ok_inj e
    exact ⟨loc_refl w, fun _ => .closeBad (getH_none hg)⟩
  | some a =>
    obtain ⟨d, rfl, hd⟩ := getH_some hg
    simp only [vfsClose]
    cases ho : h a with
    | none => exact absurd ho (w.live _ _ hd)
    | some o =>
      refine ⟨ok_ne, ?_⟩
      intro h' t' r e; obtain ⟨rfl, rfl, rfl⟩ := ok_inj e
      refine ⟨loc_close w hd, fun _ => ?_⟩
      simp only [Int.toNat_natCast]
      rw [view_close w hd]
      exact .closeOk d rfl (by rw [view_some hd ho]; simp)

theorem setV_setV {v : View} {i : Nat} {x y : Option Desc} : setV (setV v i x) i y = setV v i y := by
  funext j; unfold setV; split <;> rfl

theorem setV_comm {v : View} {i j : Nat} {x y : Option Desc} (h : i ≠ j) :
    setV (setV v i x) j y = setV (setV v j y) i x := by
  funext k; unfold setV
  by_cases e : k = j
  · subst e; rw [if_pos rfl, if_neg (Ne.symm h), if_pos rfl]
  · rw [if_neg e, if_neg e]

theorem setV_self {v : View} {i : Nat} (h : v i = none) : setV v i none = v := by
  funext j; unfold setV; split
  · rename_i e; subst e; exact h.symm
  · rfl

theorem good_pipe2 {h : Heap} {t : Tab} {p f : Nat} {ce ok cp : Bool} {a1 a2 : Option Nat} (w : Wf h t) :
    Good h t (.pipe2 p ce f ok a1 a2 cp) (pipe2 h t ce f ok a1 a2 cp) := by
  unfold pipe2
  split
  · refine ⟨ok_ne, ?_⟩
    intro h' t' r e; obtain ⟨rfl, rfl, rfl⟩ := ok_inj e
    exact ⟨loc_refl w, fun _ => .pipeErr (.inl ⟨rfl, by assumption⟩)⟩
  rename_i hok
  have hok : ok = true := by cases ok <;> simp_all
  subst hok
  cases hf : freeGe t 0 with
  | none =>
    refine ⟨ok_ne, ?_⟩
    intro h' t' r e; obtain ⟨rfl, rfl, rfl⟩ := ok_inj e
    exact ⟨loc_refl w, fun _ => .pipeErr (.inr (.inr ⟨rfl, .inl (full_of_none w hf)⟩))⟩
  | some f0 =>
    obtain ⟨f1, f2, f3, f4⟩ := freeGe_some hf
    cases a1 with
    | none =>
      refine ⟨ok_ne, ?_⟩
      intro h' t' r e; obtain ⟨rfl, rfl, rfl⟩ := ok_inj e
      exact ⟨loc_refl w, fun _ => .pipeErr (.inr (.inl ⟨rfl, .inl rfl⟩))⟩
    | some x =>
      simp only
      split
      · exact ⟨(fun e => by cases e), (fun _ _ _ e => by cases e)⟩
      rename_i hx
      have hx : h x = none := Classical.byContradiction hx
      have l1 := loc_add ⟨f, 0⟩ w f3 hx
      have v1 := view_add ⟨f, 0⟩ w f3 hx
      have s1 : (t.set f0 (some x))[f0]? = some (some x) := by rw [get_set f2, if_pos rfl]
      have l1c := loc_close l1.wf s1
      have v1c : view (setH (setH h x (some ⟨f, 0⟩)) x none) ((t.set f0 (some x)).set f0 none) = view h t := by
        rw [view_close l1.wf s1, v1, setV_setV, setV_self (view_free f3)]
      cases hf1 : freeGe (t.set f0 (some x)) 0 with
      | none =>
        refine ⟨ok_ne, ?_⟩
        intro h' t' r e; obtain ⟨rfl, rfl, rfl⟩ := ok_inj e
        refine ⟨loc_trans l1 l1c, fun _ => ?_⟩
        rw [v1c]
        refine .pipeErr (.inr (.inr ⟨rfl, .inr ⟨f0, lowest_of_free w hf, ?_⟩⟩))
        intro i hi hl hv
        have := full_of_none l1.wf hf1 i (by omega) (by simpa using hl)
        rw [v1] at this; unfold setV at this; rw [if_neg (by omega)] at this; exact this hv
      | some f1' =>
        obtain ⟨g1, g2, g3, g4⟩ := freeGe_some hf1
        cases a2 with
        | none =>
          refine ⟨ok_ne, ?_⟩
          intro h' t' r e; obtain ⟨rfl, rfl, rfl⟩ := ok_inj e
          refine ⟨loc_trans l1 l1c, fun _ => ?_⟩
          rw [v1c]
          exact .pipeErr (.inr (.inl ⟨rfl, .inr (.inl rfl)⟩))
        | some y =>
          simp only
          split
          · exact ⟨(fun e => by cases e), (fun _ _ _ e => by cases e)⟩
          rename_i hy
          have hy : setH h x (some ⟨f, 0⟩) y = none := Classical.byContradiction hy
          have hne : f0 ≠ f1' := by rintro rfl; rw [s1] at g3; cases g3
          have l2 := loc_add ⟨f + 1, 0⟩ l1.wf g3 hy
          have v2 := view_add ⟨f + 1, 0⟩ l1.wf g3 hy
          have s2x : ((t.set f0 (some x)).set f1' (some y))[f0]? = some (some x) := by
            rw [get_set g2, if_neg hne]; exact s1
          have s2y : ((t.set f0 (some x)).set f1' (some y))[f1']? = some (some y) := by
            rw [get_set g2, if_pos rfl]
          split
          · refine ⟨ok_ne, ?_⟩
            intro h' t' r e; obtain ⟨rfl, rfl, rfl⟩ := ok_inj e
            have l3 := loc_close l2.wf s2x
            have s3y : (((t.set f0 (some x)).set f1' (some y)).set f0 none)[f1']? = some (some y) := by
              rw [get_set (by simpa using f2), if_neg (Ne.symm hne)]; exact s2y
            refine ⟨loc_trans (loc_trans (loc_trans l1 l2) l3) (loc_close l3.wf s3y), fun _ => ?_⟩
            rw [view_close l3.wf s3y, view_close l2.wf s2x, v2, v1, setV_comm (Ne.symm hne), setV_setV, setV_setV,
              setV_self (view_free f3), setV_self]
            · exact .pipeErr (.inr (.inl ⟨rfl, .inr (.inr (by assumption))⟩))
            · have := view_free (h := setH h x (some ⟨f, 0⟩)) g3
              rw [v1] at this; unfold setV at this; rwa [if_neg (Ne.symm hne)] at this
          · rename_i hcp
            have hcp : cp = true := by cases cp <;> simp_all
            subst hcp
            have low : Lowest t.length (view h t) 0 f0 := lowest_of_free w hf
            have low2 : ∀ d, Lowest t.length (setV (view h t) f0 (some d)) 0 f1' := by
              intro d
              have := lowest_of_free l1.wf hf1
              rw [v1] at this
              simp only [List.length_set] at this
              obtain ⟨b1, b2, b3, b4⟩ := this
              unfold setV at b3 b4
              refine ⟨b1, b2, ?_, ?_⟩
              · unfold setV; rw [if_neg (Ne.symm hne)] at b3 ⊢; exact b3
              · intro i hi hl
                have := b4 i hi hl
                unfold setV
                split
                · simp
                · rename_i e; rw [if_neg e] at this; exact this
            split
            · rename_i hce
              subst hce
              refine ⟨ok_ne, ?_⟩
              intro h' t' r e; obtain ⟨rfl, rfl, rfl⟩ := ok_inj e
              have l3 := loc_mod ⟨f, cloexecBit⟩ l2.wf s2x
              refine ⟨loc_trans (loc_trans (loc_trans l1 l2) l3) (loc_mod _ l3.wf s2y), fun _ => ?_⟩
              rw [view_mod _ l3.wf s2y, view_mod _ l2.wf s2x, v2, v1]
              rw [setV_comm (Ne.symm hne), setV_setV, setV_setV]
              rw [show desc ⟨f, cloexecBit⟩ = ⟨f, true⟩ from desc_ce f true, show desc ⟨f + 1, cloexecBit⟩ = ⟨f + 1, true⟩ from desc_ce (f + 1) true]
              exact .pipeOk low (low2 _)
            · rename_i hce
              have hce : ce = false := by cases ce <;> simp_all
              subst hce
              refine ⟨ok_ne, ?_⟩
              intro h' t' r e; obtain ⟨rfl, rfl, rfl⟩ := ok_inj e
              refine ⟨loc_trans l1 l2, fun _ => ?_⟩
              rw [v2, v1]
              rw [show desc ⟨f, 0⟩ = ⟨f, false⟩ from desc_ce f false, show desc ⟨f + 1, 0⟩ = ⟨f + 1, false⟩ from desc_ce (f + 1) false]
              exact .pipeOk low (low2 _)

/-! ### The loops of exec, exit and fork -/

theorem wf_tail {h : Heap} {t : Tab} {x} (w : Wf h (x :: t)) : Wf h t :=
  ⟨fun i a hi => w.live (i + 1) a (by simpa using hi), fun i j a hi hj => by
    have := w.inj (i + 1) (j + 1) a (by simpa using hi) (by simpa using hj); omega⟩

theorem closeLoop_spec (q : Obj → Bool) : ∀ (t : Tab) (h : Heap), Wf h t →
    ∃ h' t', closeLoop q h t = some (h', t') ∧ t'.length = t.length ∧
      (∀ i : Nat, t[i]? = some none → t'[i]? = some none) ∧
      (∀ i a : Nat, ∀ o, t[i]? = some (some a) → h a = some o →
        if q o then t'[i]? = some none ∧ h' a = none else t'[i]? = some (some a) ∧ h' a = some o) ∧
      (∀ a, (∀ i : Nat, t[i]? ≠ some (some a)) → h' a = h a) := by
  intro t
  induction t with
  | nil => intro h w; exact ⟨h, [], rfl, rfl, by simp, by simp, fun _ _ => rfl⟩
  | cons x t ih =>
    intro h w
    cases x with
    | none =>
      obtain ⟨h', t', e, l, k1, k2, k3⟩ := ih h (wf_tail w)
      refine ⟨h', none :: t', by simp [closeLoop, e], by simp [l], ?_, ?_, ?_⟩
      · intro i hi; cases i with
        | zero => rfl
        | succ i => simpa using k1 i (by simpa using hi)
      · intro i a o hi ho; cases i with
        | zero => cases hi
        | succ i => simpa using k2 i a o (by simpa using hi) ho
      · intro a ha; exact k3 a (fun i hi => ha (i + 1) (by simpa using hi))
    | some a0 =>
      have h0 : (some a0 :: t)[0]? = some (some a0) := rfl
      cases ho0 : h a0 with
      | none => exact absurd ho0 (w.live 0 a0 h0)
      | some o0 =>
        have nin : ∀ i : Nat, t[i]? ≠ some (some a0) := by
          intro i hi
          have := w.inj (i + 1) 0 a0 (by simpa using hi) h0
          omega
        by_cases hq : q o0 = true
        · have w1 : Wf (setH h a0 none) t := by
            refine ⟨?_, (wf_tail w).inj⟩
            intro i a hi
            have : a ≠ a0 := by rintro rfl; exact nin i hi
            unfold setH; rw [if_neg this]; exact (wf_tail w).live i a hi
          obtain ⟨h', t', e, l, k1, k2, k3⟩ := ih _ w1
          have e0 : h' a0 = none := by rw [k3 a0 nin]; unfold setH; rw [if_pos rfl]
          refine ⟨h', none :: t', by simp [closeLoop, ho0, hq, e], by simp [l], ?_, ?_, ?_⟩
          · intro i hi; cases i with
            | zero => rfl
            | succ i => simpa using k1 i (by simpa using hi)
          · intro i a o hi ho
            cases i with
            | zero =>
              simp at hi; subst hi
              rw [ho0] at ho; injection ho with ho; subst ho
              rw [if_pos hq]; exact ⟨rfl, e0⟩
            | succ i =>
              simp at hi
              have hne : a ≠ a0 := by rintro rfl; exact nin i hi
              simpa using k2 i a o hi (by unfold setH; rw [if_neg hne]; exact ho)
          · intro a ha
            have hne : a ≠ a0 := by rintro rfl; exact ha 0 h0
            rw [k3 a (fun i hi => ha (i + 1) (by simpa using hi))]
            unfold setH; rw [if_neg hne]
        · obtain ⟨h', t', e, l, k1, k2, k3⟩ := ih h (wf_tail w)
          refine ⟨h', some a0 :: t', by simp [closeLoop, ho0, hq, e], by simp [l], ?_, ?_, ?_⟩
          · intro i hi; cases i with
            | zero => cases hi
            | succ i => simpa using k1 i (by simpa using hi)
          · intro i a o hi ho
            cases i with
            | zero =>
              simp at hi; subst hi
              rw [ho0] at ho; injection ho with ho; subst ho
              rw [if_neg hq]; exact ⟨rfl, by rw [k3 a0 nin]; exact ho0⟩
            | succ i => simpa using k2 i a o (by simpa using hi) ho
          · intro a ha; exact k3 a (fun i hi => ha (i + 1) (by simpa using hi))

theorem closeLoop_loc {q : Obj → Bool} {t : Tab} {h : Heap} (w : Wf h t) : ∃ h' t', closeLoop q h t = some (h', t') ∧
    Loc h t h' t' ∧ ∀ i, view h' t' i = match (t[i]?).join with
      | none => none
      | some a => match h a with
        | none => none
        | some o => if q o then none else some (desc o) := by
  obtain ⟨h', t', e, l, k1, k2, k3⟩ := closeLoop_spec q t h w
  have back : ∀ i a : Nat, t'[i]? = some (some a) → ∃ o, t[i]? = some (some a) ∧ h a = some o ∧ q o = false ∧ h' a = some o := by
    intro i a hi
    have hlt : i < t.length := by have := lt_of_get hi; omega
    cases hx : t[i]? with
    | none => rw [List.getElem?_eq_none_iff] at hx; omega
    | some x => cases x with
      | none => rw [k1 i hx] at hi; cases hi
      | some b =>
        cases ho : h b with
        | none => exact absurd ho (w.live i b hx)
        | some o =>
          have := k2 i b o hx ho
          split at this
          · rw [this.1] at hi; cases hi
          · rename_i hq
            rw [this.1] at hi
            injection hi with hi; injection hi with hi; subst hi
            exact ⟨o, rfl, ho, by simpa using hq, this.2⟩
  refine ⟨h', t', e, ⟨l, ⟨?_, ?_⟩, ?_, ?_⟩, ?_⟩
  · intro i a hi
    obtain ⟨o, _, _, _, e⟩ := back i a hi
    rw [e]; simp
  · intro i j a hi hj
    obtain ⟨_, e1, _⟩ := back i a hi
    obtain ⟨_, e2, _⟩ := back j a hj
    exact w.inj i j a e1 e2
  · intro i a hi
    obtain ⟨_, e1, _⟩ := back i a hi
    exact .inl ⟨i, e1⟩
  · intro a _ ha; exact k3 a ha
  · intro i
    cases hx : t[i]? with
    | none =>
      rw [List.getElem?_eq_none_iff] at hx
      exact view_out (by omega)
    | some x => cases x with
      | none => exact view_free (k1 i hx)
      | some a =>
        simp only [Option.join_some]
        cases ho : h a with
        | none => exact absurd ho (w.live i a hx)
        | some o =>
          have := k2 i a o hx ho
          simp only
          split at this
          · rename_i hq; rw [if_pos hq]; exact view_free this.1
          · rename_i hq; rw [if_neg hq]; exact view_some this.1 this.2

theorem forkLoop_spec (alloc : Nat → Option Nat) (ha : ∀ i, alloc i ≠ none) : ∀ (t : Tab) (h : Heap) (acc : Tab),
    (∀ i a : Nat, t[i]? = some (some a) → h a ≠ none) → Wf h acc →
    forkLoop alloc h acc t ≠ .ub ∧ ∀ h' r, forkLoop alloc h acc t = .ok (h', r) →
      ∃ t', r = some t' ∧ t'.length = acc.length + t.length ∧ Wf h' t' ∧
        (∀ a, h a ≠ none → h' a = h a) ∧
        (∀ i : Nat, i < acc.length → t'[i]? = acc[i]?) ∧
        (∀ i a : Nat, t'[i]? = some (some a) → acc.length ≤ i → h a = none) ∧
        (∀ i : Nat, t[i]? = some none → t'[acc.length + i]? = some none) ∧
        (∀ i a : Nat, ∀ o, t[i]? = some (some a) → h a = some o → ∃ b, t'[acc.length + i]? = some (some b) ∧
          h' b = some { o with fdFlags := 0 }) := by
  intro t
  induction t with
  | nil =>
    intro h acc _ wa
    refine ⟨ok_ne, ?_⟩
    intro h' r e
    injection e with e; injection e with e1 e2; subst e1; subst e2
    exact ⟨acc, rfl, by simp, wa, fun _ _ => rfl, fun _ _ => rfl,
      (fun i a hi hl => by have := lt_of_get hi; omega), by simp, by simp⟩
  | cons x t ih =>
    intro h acc live wa
    have livet : ∀ i a : Nat, t[i]? = some (some a) → h a ≠ none := fun i a hi => live (i + 1) a (by simpa using hi)
    have app : ∀ (y : Option Nat) (i : Nat), (acc ++ [y])[i]? = if i = acc.length then some y else acc[i]? := by
      intro y i
      rw [List.getElem?_append]
      by_cases e : i < acc.length
      · rw [if_pos e, if_neg (by omega)]
      · rw [if_neg e]
        by_cases e2 : i = acc.length
        · subst e2; simp
        · rw [if_neg e2, List.getElem?_eq_none (by simp; omega), List.getElem?_eq_none (by omega)]
    cases x with
    | none =>
      have wa' : Wf h (acc ++ [none]) := by
        refine ⟨?_, ?_⟩
        · intro i a hi; rw [app] at hi; split at hi
          · cases hi
          · exact wa.live i a hi
        · intro i j a hi hj; rw [app] at hi hj; split at hi
          · cases hi
          · split at hj
            · cases hj
            · exact wa.inj i j a hi hj
      obtain ⟨n1, n2⟩ := ih h (acc ++ [none]) livet wa'
      refine ⟨n1, ?_⟩
      intro h' r e
      obtain ⟨t', rfl, k1, k2, k3, k4, k5, k6, k7⟩ := n2 h' r e
      refine ⟨t', rfl, by simp at k1 ⊢; omega, k2, k3, ?_, ?_, ?_, ?_⟩
      · intro i hi; rw [k4 i (by simp; omega), app, if_neg (by omega)]
      · intro i a hi hl
        by_cases e : i = acc.length
        · subst e
          rw [k4 _ (by simp), app, if_pos rfl] at hi; cases hi
        · exact k5 i a hi (by simp; omega)
      · intro i hi
        cases i with
        | zero => rw [Nat.add_zero, k4 _ (by simp), app, if_pos rfl]
        | succ i => have := k6 i (by simpa using hi); simp at this; rw [← this]; congr 1; omega
      · intro i a o hi ho
        cases i with
        | zero => cases hi
        | succ i =>
          obtain ⟨b, b1, b2⟩ := k7 i a o (by simpa using hi) ho
          refine ⟨b, ?_, b2⟩
          rw [← b1]; congr 1; simp; omega
    | some a0 =>
      unfold forkLoop
      cases hb : alloc acc.length with
      | none => exact absurd hb (ha _)
      | some b =>
        simp only [vfsDup]
        cases ho0 : h a0 with
        | none => exact absurd ho0 (live 0 a0 rfl)
        | some o0 =>
          simp only
          by_cases hbn : h b = none
          · rw [if_pos hbn]
            simp only
            have keep : ∀ a, h a ≠ none → setH h b (some { o0 with fdFlags := 0 }) a = h a := by
              intro a ha
              have : a ≠ b := by rintro rfl; exact ha hbn
              unfold setH; rw [if_neg this]
            have wa' : Wf (setH h b (some { o0 with fdFlags := 0 })) (acc ++ [some b]) := by
              refine ⟨?_, ?_⟩
              · intro i a hi; rw [app] at hi; split at hi
                · injection hi with hi; injection hi with hi; subst hi; unfold setH; rw [if_pos rfl]; simp
                · rw [keep a (wa.live i a hi)]; exact wa.live i a hi
              · intro i j a hi hj; rw [app] at hi hj
                split at hi
                · injection hi with hi; injection hi with hi; subst hi
                  split at hj
                  · omega
                  · exact absurd hbn (wa.live j _ hj)
                · split at hj
                  · injection hj with hj; injection hj with hj; subst hj
                    exact absurd hbn (wa.live i _ hi)
                  · exact wa.inj i j a hi hj
            obtain ⟨n1, n2⟩ := ih _ (acc ++ [some b]) (fun i a hi => by rw [keep a (livet i a hi)]; exact livet i a hi) wa'
            refine ⟨n1, ?_⟩
            intro h' r e
            obtain ⟨t', rfl, k1, k2, k3, k4, k5, k6, k7⟩ := n2 h' r e
            have hb' : h' b = some { o0 with fdFlags := 0 } := by
              rw [k3 b (by unfold setH; rw [if_pos rfl]; simp)]; unfold setH; rw [if_pos rfl]
            have at0 : t'[acc.length]? = some (some b) := by rw [k4 _ (by simp), app, if_pos rfl]
            refine ⟨t', rfl, by simp at k1 ⊢; omega, k2, ?_, ?_, ?_, ?_, ?_⟩
            · intro a ha; rw [k3 a (by rw [keep a ha]; exact ha), keep a ha]
            · intro i hi; rw [k4 i (by simp; omega), app, if_neg (by omega)]
            · intro i a hi hl
              by_cases e : i = acc.length
              · subst e
                rw [at0] at hi; injection hi with hi; injection hi with hi; subst hi; exact hbn
              · have := k5 i a hi (by simp; omega)
                unfold setH at this
                split at this
                · cases this
                · exact this
            · intro i hi
              cases i with
              | zero => cases hi
              | succ i => have := k6 i (by simpa using hi); simp at this; rw [← this]; congr 1; omega
            · intro i a o hi ho
              cases i with
              | zero =>
                simp at hi; subst hi
                rw [ho0] at ho; injection ho with ho; subst ho
                exact ⟨b, by rw [Nat.add_zero]; exact at0, hb'⟩
              | succ i =>
                simp at hi
                obtain ⟨c, c1, c2⟩ := k7 i a o hi (by rw [keep a (livet i a hi)]; exact ho)
                refine ⟨c, ?_, c2⟩
                rw [← c1]; congr 1; simp; omega
          · rw [if_neg hbn]
            exact ⟨(fun e => by cases e), (fun _ _ e => by cases e)⟩

/-! ### Histories -/

structure Inv (n : Nat) (s : St) : Prop where
  len : ∀ p t, s.procs p = some t → t.length = n
  live : ∀ p t (i a : Nat), s.procs p = some t → t[i]? = some (some a) → s.heap a ≠ none
  uniq : ∀ p q t u (i j a : Nat), s.procs p = some t → s.procs q = some u → t[i]? = some (some a) →
    u[j]? = some (some a) → p = q ∧ i = j

theorem inv_wf {n : Nat} {s : St} {p : Nat} {t : Tab} (hi : Inv n s) (hp : s.procs p = some t) : Wf s.heap t :=
  ⟨fun i a h => hi.live p t i a hp h, fun i j a h1 h2 => (hi.uniq p p t t i j a hp hp h1 h2).2⟩

theorem setP_same {ps : Nat → Option Tab} {p : Nat} {t : Option Tab} : setP ps p t p = t := by unfold setP; rw [if_pos rfl]
theorem setP_other {ps : Nat → Option Tab} {p q : Nat} {t : Option Tab} (h : q ≠ p) : setP ps p t q = ps q := by
  unfold setP; rw [if_neg h]

theorem inv_loc {n : Nat} {s : St} {p : Nat} {t : Tab} {h' : Heap} {t' : Tab} (hi : Inv n s) (hp : s.procs p = some t)
    (l : Loc s.heap t h' t') : Inv n ⟨h', setP s.procs p (some t')⟩ ∧
      ∀ q u, q ≠ p → s.procs q = some u → view h' u = view s.heap u := by
  have other : ∀ q u (i a : Nat), q ≠ p → s.procs q = some u → u[i]? = some (some a) → h' a = s.heap a := by
    intro q u i a hq hu ha
    apply l.frame a (hi.live q u i a hu ha)
    intro j hj
    exact hq (hi.uniq q p u t i j a hu hp ha hj).1
  have sep : ∀ q u (i j a : Nat), q ≠ p → s.procs q = some u → u[i]? = some (some a) → t'[j]? = some (some a) → False := by
    intro q u i j a hq hu ha hj
    rcases l.own j a hj with ⟨k, hk⟩ | hn
    · exact hq (hi.uniq q p u t i k a hu hp ha hk).1
    · exact hi.live q u i a hu ha hn
  refine ⟨⟨?_, ?_, ?_⟩, ?_⟩
  · intro q u hu; dsimp only at hu
    by_cases e : q = p
    · subst e; rw [setP_same] at hu; injection hu with hu; subst hu; rw [l.len]; exact hi.len _ t hp
    · rw [setP_other e] at hu; exact hi.len q u hu
  · intro q u i a hu ha; dsimp only at hu
    by_cases e : q = p
    · subst e; rw [setP_same] at hu; injection hu with hu; subst hu; exact l.wf.live i a ha
    · rw [setP_other e] at hu
      show h' a ≠ none
      rw [other q u i a e hu ha]; exact hi.live q u i a hu ha
  · intro q q' u u' i j a hu hu' ha ha'; dsimp only at hu hu'
    by_cases e : q = p
    · subst e; rw [setP_same] at hu; injection hu with hu; subst hu
      by_cases e' : q' = q
      · subst e'; rw [setP_same] at hu'; injection hu' with hu'; subst hu'
        exact ⟨rfl, l.wf.inj i j a ha ha'⟩
      · rw [setP_other e'] at hu'
        exact (sep q' u' j i a e' hu' ha' ha).elim
    · rw [setP_other e] at hu
      by_cases e' : q' = p
      · subst e'; rw [setP_same] at hu'; injection hu' with hu'; subst hu'
        exact (sep q u i j a e hu ha ha').elim
      · rw [setP_other e'] at hu'; exact hi.uniq q q' u u' i j a hu hu' ha ha'
  · intro q u hq hu
    funext i
    exact view_eq rfl (fun a ha => other q u i a hq hu ha)

/-- What one step does, given the invariant. -/
structure StepOk (n : Nat) (s : St) (t : Tab) (op : Op) (s' : St) (r : Ret) : Prop where
  inv : Inv n s'
  /-- the other processes do not notice -/
  others : ∀ q u, q ≠ op.proc → s.procs q = some u → ∃ u', s'.procs q = some u' ∧ view s'.heap u' = view s.heap u
  spec : (∀ p, op ≠ .exit p) → ∃ t', s'.procs op.proc = some t' ∧ (PosixOp t op → Spec n (view s.heap t) op (view s'.heap t') r)

theorem step_local {n : Nat} {s : St} {p : Nat} {t : Tab} {op : Op} {f : Res (Heap × Tab × Ret)} (hi : Inv n s)
    (hp : s.procs p = some t) (ho : op.proc = p) (g : Good s.heap t op f) :
    lift s p f ≠ .ub ∧ ∀ s' r, lift s p f = .ok (s', r) → StepOk n s t op s' r := by
  subst ho
  obtain ⟨g1, g2⟩ := g
  cases f with
  | ub => exact absurd rfl g1
  | blocked => exact ⟨(fun e => by cases e), (fun _ _ e => by cases e)⟩
  | ok x =>
    obtain ⟨h', t', r'⟩ := x
    refine ⟨ok_ne, ?_⟩
    intro s' r e
    injection e with e; injection e with e1 e2; subst e1; subst e2
    obtain ⟨l, sp⟩ := g2 h' t' r' rfl
    obtain ⟨i1, i2⟩ := inv_loc hi hp l
    refine ⟨i1, ?_, ?_⟩
    · intro q u hq hu; exact ⟨u, by rw [show (St.procs ⟨h', setP s.procs op.proc (some t')⟩) = setP s.procs op.proc (some t') from rfl, setP_other hq]; exact hu, i2 q u hq hu⟩
    · intro _
      refine ⟨t', setP_same, fun hpo => ?_⟩
      rw [← hi.len _ t hp]; exact sp hpo

theorem marked_bit (o : Obj) : marked o = o.fdFlags.getLsbD 0 := by
  unfold marked
  have : cloexecBit = BitVec.twoPow 32 0 := by decide
  rw [this, BitVec.and_twoPow]
  cases h : o.fdFlags.getLsbD 0 with
  | false => simp
  | true => simp [BitVec.twoPow]

theorem step_ok {n : Nat} {s : St} {t : Tab} {op : Op} (hi : Inv n s) (hp : s.procs op.proc = some t) (hs : SafeOp t op) :
    step s op ≠ .ub ∧ ∀ s' r, step s op = .ok (s', r) → StepOk n s t op s' r := by
  have w := inv_wf hi hp
  unfold step
  rw [hp]
  simp only
  cases op with
  | openF p ce f a => exact step_local hi hp rfl (good_open w)
  | close p fd => exact step_local hi hp rfl (good_close w)
  | dup2 p o x a => exact step_local hi hp rfl (good_dup2 w hs)
  | dup p o a => exact step_local hi hp rfl (good_dup w)
  | dupFd p fd arg ce a => exact step_local hi hp rfl (good_dupFd w hs)
  | setFd p fd arg => exact step_local hi hp rfl (good_setFd w)
  | pipe2 p ce f ok a b c => exact step_local hi hp rfl (good_pipe2 w)
  | exec p =>
    obtain ⟨h', t', e, l, v⟩ := closeLoop_loc (q := marked) w
    simp only [stepT, e]
    refine ⟨ok_ne, ?_⟩
    intro s' r e
    injection e with e; injection e with e1 e2; subst e1; subst e2
    have hp' : s.procs p = some t := hp
    obtain ⟨i1, i2⟩ := inv_loc hi hp' l
    refine ⟨i1, ?_, ?_⟩
    · intro q u hq hu
      exact ⟨u, (setP_other (show q ≠ p from hq)).trans hu, i2 q u hq hu⟩
    · intro _
      refine ⟨t', setP_same, fun _ => ?_⟩
      have : view h' t' = fun i => match view s.heap t i with | some D => if D.cloexec then none else some D | none => none := by
        funext i
        rw [v i]
        unfold view
        cases hx : (t[i]?).join with
        | none => rfl
        | some a =>
          simp only
          cases ho : s.heap a with
          | none => rfl
          | some o => simp only [Option.map_some, marked_bit, desc]
      show Spec n _ _ (view h' t') _
      rw [this]
      exact .exec
  | exit p =>
    obtain ⟨h', t', e, l, v⟩ := closeLoop_loc (q := fun _ => true) w
    simp only [stepT, e]
    refine ⟨ok_ne, ?_⟩
    intro s' r e
    injection e with e; injection e with e1 e2; subst e1; subst e2
    have hp' : s.procs p = some t := hp
    obtain ⟨i1, i2⟩ := inv_loc hi hp' l
    have sub : ∀ q u, setP s.procs p none q = some u → q ≠ p ∧ setP s.procs p (some t') q = some u := by
      intro q u hq
      by_cases e : q = p
      · subst e; rw [setP_same] at hq; cases hq
      · rw [setP_other e] at hq ⊢; exact ⟨e, hq⟩
    refine ⟨⟨?_, ?_, ?_⟩, ?_, ?_⟩
    · intro q u hu; exact i1.len q u (sub q u hu).2
    · intro q u i a hu ha; exact i1.live q u i a (sub q u hu).2 ha
    · intro q q' u u' i j a hu hu'; exact i1.uniq q q' u u' i j a (sub q u hu).2 (sub q' u' hu').2
    · intro q u hq hu
      exact ⟨u, (setP_other (show q ≠ p from hq)).trans hu, i2 q u hq hu⟩
    · intro h; exact absurd rfl (h p)
  | fork p c alloc =>
    have hp' : s.procs p = some t := hp
    simp only [stepT]
    split
    · exact ⟨(fun e => by cases e), (fun _ _ e => by cases e)⟩
    rename_i hc
    have hc : s.procs c = none := Classical.byContradiction hc
    obtain ⟨f1, f2⟩ := forkLoop_spec alloc hs t s.heap [] w.live ⟨by simp, by simp⟩
    generalize forkLoop alloc s.heap [] t = res at f1 f2
    cases res with
    | ub => exact absurd rfl f1
    | blocked => exact ⟨(fun e => by cases e), (fun _ _ e => by cases e)⟩
    | ok x =>
      obtain ⟨h', o⟩ := x
      obtain ⟨t', rfl, k1, k2, k3, k4, k5, k6, k7⟩ := f2 h' o rfl
      simp only [List.length_nil, Nat.zero_add] at k1 k5 k6 k7
      refine ⟨ok_ne, ?_⟩
      intro s' r e
      injection e with e; injection e with e1 e2; subst e1; subst e2
      have old : ∀ q u, q ≠ c → setP s.procs c (some t') q = some u → s.procs q = some u := by
        intro q u e hq; rwa [setP_other e] at hq
      have keepv : ∀ q u, s.procs q = some u → view h' u = view s.heap u := by
        intro q u hu; funext i
        exact view_eq rfl (fun a ha => k3 a (hi.live q u i a hu ha))
      refine ⟨⟨?_, ?_, ?_⟩, ?_, ?_⟩
      · intro q u hu; dsimp only at hu
        by_cases e : q = c
        · subst e; rw [setP_same] at hu; injection hu with hu; subst hu; rw [k1]; exact hi.len p t hp'
        · exact hi.len q u (old q u e hu)
      · intro q u i a hu ha; dsimp only at hu
        by_cases e : q = c
        · subst e; rw [setP_same] at hu; injection hu with hu; subst hu; exact k2.live i a ha
        · have hq := old q u e hu
          show h' a ≠ none
          rw [k3 a (hi.live q u i a hq ha)]; exact hi.live q u i a hq ha
      · intro q q' u u' i j a hu hu' ha ha'; dsimp only at hu hu'
        by_cases e : q = c
        · subst e; rw [setP_same] at hu; injection hu with hu; subst hu
          by_cases e' : q' = q
          · subst e'; rw [setP_same] at hu'; injection hu' with hu'; subst hu'
            exact ⟨rfl, k2.inj i j a ha ha'⟩
          · exact absurd (k5 i a ha (Nat.zero_le _)) (hi.live q' u' j a (old q' u' e' hu') ha')
        · by_cases e' : q' = c
          · subst e'; rw [setP_same] at hu'; injection hu' with hu'; subst hu'
            exact absurd (k5 j a ha' (Nat.zero_le _)) (hi.live q u i a (old q u e hu) ha)
          · exact hi.uniq q q' u u' i j a (old q u e hu) (old q' u' e' hu') ha ha'
      · intro q u hq hu
        have : q ≠ c := by rintro rfl; rw [hc] at hu; cases hu
        exact ⟨u, (setP_other this).trans hu, keepv q u hu⟩
      · intro _
        have : p ≠ c := by rintro rfl; rw [hc] at hp'; cases hp'
        refine ⟨t, (setP_other this).trans hp', fun _ => ?_⟩
        show Spec n _ _ (view h' t) _
        rw [keepv p t hp']
        exact .fork

theorem inv_init (n : Nat) : Inv n (init n) := by
  have h : ∀ p t, (init n).procs p = some t → p = 1 ∧ t = List.replicate n none := by
    intro p t hp
    simp only [init] at hp
    split at hp
    · injection hp with hp; exact ⟨by assumption, hp.symm⟩
    · cases hp
  refine ⟨?_, ?_, ?_⟩
  · intro p t hp; rw [(h p t hp).2]; simp
  · intro p t i a hp ha
    rw [(h p t hp).2, List.getElem?_replicate] at ha
    split at ha <;> cases ha
  · intro p q t u i j a hp _ ha
    rw [(h p t hp).2, List.getElem?_replicate] at ha
    split at ha <;> cases ha

theorem exec_inv {n : Nat} {s : St} (h : Exec n s) : Inv n s := by
  induction h with
  | init => exact inv_init n
  | step _ hp ho hs ih => exact ((step_ok ih hp ho).2 _ _ hs).inv

/-! ## Main theorems -/

/-- C26, C27: after any history of safe steps, the result of a call and its effect on the descriptors of the
calling process are what POSIX says (`Spec`: lowest unused descriptor, exactly one descriptor closed, close-on-exec
flag as requested, exec closes exactly the marked ones), except for the calls excluded by `PosixOp`. -/
theorem fd_calls_posix_partial {n : Nat} {s s' : St} {op : Op} {r : Ret} {t : Tab} (h : Exec n s)
    (hp : s.procs op.proc = some t) (hs : SafeOp t op) (hpo : PosixOp t op) (hx : ∀ p, op ≠ .exit p)
    (e : step s op = .ok (s', r)) :
    ∃ t', s'.procs op.proc = some t' ∧ Spec n (view s.heap t) op (view s'.heap t') r := by
  obtain ⟨t', a, b⟩ := ((step_ok (exec_inv h) hp hs).2 s' r e).spec hx
  exact ⟨t', a, b hpo⟩

/-- C26: the descriptors of other processes are not affected. -/
theorem other_processes_unaffected {n : Nat} {s s' : St} {op : Op} {r : Ret} {t u : Tab} {q : Nat} (h : Exec n s)
    (hp : s.procs op.proc = some t) (hs : SafeOp t op) (hq : q ≠ op.proc) (hu : s.procs q = some u)
    (e : step s op = .ok (s', r)) : ∃ u', s'.procs q = some u' ∧ view s'.heap u' = view s.heap u :=
  ((step_ok (exec_inv h) hp hs).2 s' r e).others q u hq hu

/-- C26: after any history of safe steps, no safe step uses a handle object after it was freed (or frees it twice). -/
theorem no_use_after_free_partial {n : Nat} {s : St} {op : Op} {t : Tab} (h : Exec n s)
    (hp : s.procs op.proc = some t) (hs : SafeOp t op) : step s op ≠ .ub :=
  (step_ok (exec_inv h) hp hs).1

/-- C26, C27: after fork the descriptors of the child refer to the same files; the close-on-exec flags are
all cleared (POSIX says they are inherited, see `fork_cloexec_violated`). -/
theorem fork_descriptors_partial {n : Nat} {s s' : St} {p c : Nat} {alloc : Nat → Option Nat} {r : Ret} {t : Tab} (h : Exec n s)
    (hp : s.procs p = some t) (hs : ∀ i, alloc i ≠ none) (e : step s (.fork p c alloc) = .ok (s', r)) :
    ∃ t', s'.procs c = some t' ∧ ∀ i, view s'.heap t' i = (view s.heap t i).map (fun D => ⟨D.file, false⟩) := by
  have hi := exec_inv h
  have w := inv_wf hi hp
  unfold step at e
  rw [show s.procs (Op.fork p c alloc).proc = some t from hp] at e
  simp only [stepT] at e
  split at e
  · cases e
  obtain ⟨f1, f2⟩ := forkLoop_spec alloc hs t s.heap [] w.live ⟨by simp, by simp⟩
  generalize forkLoop alloc s.heap [] t = res at f1 f2 e
  cases res with
  | ub => exact absurd rfl f1
  | blocked => cases e
  | ok x =>
    obtain ⟨h', o⟩ := x
    obtain ⟨t', rfl, k1, k2, k3, k4, k5, k6, k7⟩ := f2 h' o rfl
    injection e with e; injection e with e1 e2; subst e1
    refine ⟨t', setP_same, ?_⟩
    intro i
    simp only [List.length_nil, Nat.zero_add] at k1 k6 k7
    cases hx : t[i]? with
    | none =>
      rw [List.getElem?_eq_none_iff] at hx
      rw [view_out hx, view_out (by omega)]; rfl
    | some x => cases x with
      | none => rw [view_free hx, view_free (k6 i hx)]; rfl
      | some a =>
        cases ho : s.heap a with
        | none => exact absurd ho (w.live i a hx)
        | some o =>
          obtain ⟨b, b1, b2⟩ := k7 i a o hx ho
          rw [view_some b1 b2, view_some hx ho]
          simp [desc]

/-! ## Violations -/

/-- Runs a list of steps. -/
def run (s : St) : List Op → Option St
  | [] => some s
  | o :: os => match step s o with
    | .ok (s1, _) => run s1 os
    | _ => none

def okRet : Res (St × Ret) → Option Ret
  | .ok (_, r) => some r
  | _ => none

def isUb : Res (St × Ret) → Bool
  | .ub => true
  | _ => false

/-- Descriptor `i` of process `p`. -/
def descOf (s : St) (p i : Nat) : Option Desc := match s.procs p with | some t => view s.heap t i | none => none

/-- Three files open, the second one closed. -/
def demo : List Op := [.openF 1 false 7 (.ok 100), .openF 1 true 8 (.ok 101), .openF 1 true 9 (.ok 102), .close 1 1]

/-- F_DUPFD_CLOEXEC does not set the flag (unless the new descriptor is 0). -/
theorem dupfd_cloexec_violated : ∃ s s', run (init 16) demo = some s ∧
    run s [.dupFd 1 0 0 true (some 200)] = some s' ∧ descOf s' 1 1 = some ⟨7, false⟩ := by
  refine ⟨_, _, rfl, rfl, ?_⟩; decide

/-- The close-on-exec flag is lost in the child of fork. -/
theorem fork_cloexec_violated : ∃ s s', run (init 16) demo = some s ∧ run s [.fork 1 2 (fun i => some (300 + i))] = some s' ∧
    descOf s' 1 2 = some ⟨9, true⟩ ∧ descOf s' 2 2 = some ⟨9, false⟩ := by
  refine ⟨_, _, rfl, rfl, ?_, ?_⟩ <;> decide

/-- dup2 of a descriptor onto itself fails with EINVAL; so does dup of the lowest unused descriptor. -/
theorem dup2_same_violated : ∃ s, run (init 16) demo = some s ∧ okRet (step s (.dup2 1 0 0 (some 200))) = some (.err EINVAL) ∧
    okRet (step s (.dup 1 1 (some 200))) = some (.err EINVAL) := by
  refine ⟨_, rfl, ?_, ?_⟩ <;> decide

/-- F_DUPFD with no free descriptor (or an argument beyond the table) fails with EBADF. -/
theorem dupfd_full_violated : ∃ s, run (init 3) demo = some s ∧ okRet (step s (.dupFd 1 0 2 false (some 200))) = some (.err EBADF) := by
  refine ⟨_, rfl, ?_⟩; decide

/-- A failed allocation in dup2 onto a used descriptor leaves a dangling handle: closing it frees it twice. -/
theorem dup2_nomem_violated : ∃ s s', run (init 16) demo = some s ∧ run s [.dup2 1 0 2 none] = some s' ∧
    isUb (step s' (.close 1 2)) = true := by
  refine ⟨_, _, rfl, rfl, ?_⟩; decide

/-- A failed allocation in fork, with an unused descriptor below, calls `vfs_close(NULL)`. -/
theorem fork_nomem_violated : ∃ s, run (init 16) demo = some s ∧
    isUb (step s (.fork 1 2 (fun i => if i = 0 then some 300 else none))) = true := by
  refine ⟨_, rfl, ?_⟩; decide

/-- F_DUPFD with a negative argument reads outside the table. -/
theorem dupfd_negative_violated : ∃ s, run (init 16) demo = some s ∧ isUb (step s (.dupFd 1 0 (-1) false (some 200))) = true := by
  refine ⟨_, rfl, ?_⟩; decide

/-! ## Non-vacuity -/

/-- A history of safe steps with open, dup2 onto a used descriptor, pipe, exec and fork, and what it leads to. -/
example : (run (init 16) (demo ++ [.dup2 1 0 2 (some 103), .pipe2 1 true 50 true (some 104) (some 105) true,
    .fork 1 2 (fun i => some (300 + i)), .exec 1, .openF 1 false 60 (.ok 106)])).map
      (fun s => ((List.range 6).map (descOf s 1), (List.range 6).map (descOf s 2))) =
    some ([some ⟨7, false⟩, some ⟨60, false⟩, some ⟨7, false⟩, none, none, none],
      [some ⟨7, false⟩, some ⟨50, false⟩, some ⟨7, false⟩, some ⟨51, false⟩, none, none]) := by decide

end Verif.Fd
