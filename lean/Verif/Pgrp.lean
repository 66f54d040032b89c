/-!
# Process groups, sessions and controlling terminals (kernel/process.c, kernel/sched.c,
kernel/signal.c, kernel/tty/tty_ioctl.c)

Properties C124 to C127.

Every call below runs with preemption disabled (or touches only its caller's fields), so a call is one
step.  A process has one thread.  What a posted signal does to the receiver is in `Signal`; which id a
new process gets is in `Pid`; what waiting and dying do to the family tree is in `Waitpid`.
-/
namespace Verif.Pgrp

/-- include/tilck/kernel/process.h `struct process` and sched.h `struct task`: the fields the calls
below look at.  `pid` is the process of the task: for kernel threads it is 0. -/
structure Task where
  tid : Int
  pid : Int
  pgid : Int
  sid : Int
  parent : Int
  tty : Option Nat := none
  execed : Bool := false
  zombie : Bool := false
  kern : Bool := false
  deriving DecidableEq, Repr

/-- The tree of the tasks in the order of a visit (ascending ids), and `fg_pgid` of each terminal. -/
structure World where
  tasks : List Task
  fg : Nat → Int

/-- What a call gives back: its result, the value it stored for its caller, the processes to which it
posted a signal, in that order. -/
structure Out where
  ret : Int
  stored : Option Int := none
  posts : List Int := []
  deriving DecidableEq, Repr

def EPERM : Int := -1
def ESRCH : Int := -3
def EIO : Int := -5
def EACCES : Int := -13
def EFAULT : Int := -14
def EINVAL : Int := -22
def ENOTTY : Int := -25

/-- kernel/sched.c:1334-1347 `get_task`. -/
def World.task (w : World) (tid : Int) : Option Task := w.tasks.find? (fun t => t.tid == tid)

/-- kernel/sched.c:1349-1361 `get_process`. -/
def World.proc (w : World) (pid : Int) : Option Task :=
  match w.task pid with
  | some t => if t.kern then none else some t
  | none => none

/-- Assignment to fields of one process. -/
def World.upd (w : World) (tid : Int) (f : Task → Task) : World :=
  { w with tasks := w.tasks.map (fun t => if t.tid = tid then f t else t) }

/-- kernel/sched.c:848-865 `add_task`: insertion into the tree. -/
def ins (t : Task) : List Task → List Task
  | [] => [t]
  | u :: us => if t.tid < u.tid then t :: u :: us else u :: ins t us

/-- kernel/sched.c:213-234 `sched_count_proc_in_group`. -/
def World.countGroup (w : World) (pgid : Int) : Nat :=
  w.tasks.foldl (fun n t => if t.pgid = pgid then n + 1 else n) 0

/-- kernel/sched.c:236-260 `sched_get_session_of_group`. -/
def World.sessionOf (w : World) (pgid : Int) : Int :=
  match w.tasks.find? (fun t => t.pgid == pgid) with
  | some t => t.sid
  | none => ESRCH

/-- kernel/process.c:586-603 `sys_setsid`. -/
def setsid (w : World) (c : Task) : World × Out :=
  if w.countGroup c.pid = 0
  then (w.upd c.tid (fun t => { t with pgid := c.pid, sid := c.pid, tty := none }), { ret := c.pid })
  else (w, { ret := EPERM })

/-- kernel/process.c:605-609 `sys_getsid`. -/
def getsid (c : Task) (_pid : Int) : Out := { ret := c.sid }

/-- kernel/process.c:650-667: the second half of `sys_setpgid`. -/
def setpgidTo (w : World) (p : Task) (pgid : Int) : World × Out :=
  if pgid ≠ 0 then
    if 0 ≤ w.sessionOf pgid ∧ w.sessionOf pgid ≠ p.sid then (w, { ret := EPERM })
    else (w.upd p.tid (fun t => { t with pgid := pgid }), { ret := 0 })
  else (w.upd p.tid (fun t => { t with pgid := p.pid }), { ret := 0 })

/-- kernel/process.c:611-673 `sys_setpgid`. -/
def setpgid (w : World) (c : Task) (pid pgid : Int) : World × Out :=
  if pgid < 0 then (w, { ret := EINVAL })
  else if pid = 0 then setpgidTo w c pgid
  else match w.proc pid with
    | none => (w, { ret := ESRCH })
    | some p =>
      if p.execed then (w, { ret := EACCES })
      else if p.sid ≠ c.sid then (w, { ret := EPERM })
      else setpgidTo w p pgid

/-- kernel/process.c:675-690 `sys_getpgid`. -/
def getpgid (w : World) (c : Task) (pid : Int) : Out :=
  if pid = 0 then { ret := c.pgid }
  else match w.proc pid with
    | some p => { ret := p.pgid }
    | none => { ret := ESRCH }

/-- kernel/signal.c:503-537 `send_signal2` with pid = tid, and `send_signal`: the result, and the
process to which the signal is handed (`do_send_signal`).  `whole` is SIG_FL_PROCESS. -/
def send (w : World) (tid sig : Int) (whole : Bool) : Int × List Int :=
  match w.task tid with
  | none => (ESRCH, [])
  | some t =>
    if t.kern then (ESRCH, [])
    else if whole ∧ t.pid ≠ tid then (ESRCH, [])
    else if t.pid ≠ tid then (ESRCH, [])
    else if sig = 0 then (0, [])
    else if t.zombie then (0, [])
    else (0, [tid])

/-- The visit in kernel/sched.c:1387-1401: what has been posted, the leader put aside, the count. -/
structure Visit where
  posts : List Int := []
  leader : Option Int := none
  count : Nat := 0
  deriving DecidableEq, Repr

def visit (w : World) (cpid pgid sig : Int) (v : Visit) (t : Task) : Visit :=
  if t.pgid = pgid ∧ t.pid ≠ cpid ∧ t.pid ≠ 1 then
    if t.pid ≠ pgid then { v with posts := v.posts ++ (send w t.pid sig true).2, count := v.count + 1 }
    else { v with leader := some t.pid, count := v.count + 1 }
  else v

def afterVisit (w : World) (sig : Int) (v : Visit) : List Int :=
  match v.leader with
  | some l => v.posts ++ (send w l sig true).2
  | none => v.posts

/-- kernel/sched.c:1369-1416 `send_signal_to_group`, called by the process `cpid` of group `cpgid`. -/
def sendGroup (w : World) (cpid cpgid pgid sig : Int) : Out :=
  let v := w.tasks.foldl (visit w cpid pgid sig) {}
  if cpgid = pgid then { ret := 0, posts := afterVisit w sig v ++ (send w cpid sig true).2 }
  else { ret := if v.count > 0 then 0 else ESRCH, posts := afterVisit w sig v }

/-- kernel/signal.c:596-606 `kill_each_task`. -/
def killEach (w : World) (ctid sig : Int) (acc : List Int) (t : Task) : List Int :=
  if t.tid ≠ ctid ∧ t.kern = false then acc ++ (send w t.tid sig false).2 else acc

/-- kernel/signal.c:608-638 `sys_kill`; `_NSIG` is 64, ints wrap (-fwrapv). -/
def kill (w : World) (c : Task) (pid sig : Int) : Out :=
  if ¬ (0 ≤ sig ∧ sig < 64) then { ret := EINVAL }
  else if pid = 0 then sendGroup w c.pid c.pgid c.pgid sig
  else if pid = -1 then { ret := 0, posts := w.tasks.foldl (killEach w c.tid sig) [] }
  else if pid < -1 then sendGroup w c.pid c.pgid (if pid = -2147483648 then pid else -pid) sig
  else { ret := (send w pid sig true).1, posts := (send w pid sig true).2 }

/-- kernel/tty/tty_ctrl_handlers.c.h:29-39 and 56-66: ^C and ^\ typed on a terminal (with ISIG), handled
by a kernel thread. -/
def typed (w : World) (tty : Nat) (sig : Int) : Out := sendGroup w 0 0 (w.fg tty) sig

/-- kernel/tty/tty_ioctl.c:232-252 `tty_ioctl_TIOCNOTTY`. -/
def notty (w : World) (c : Task) (t : Nat) : World × Out :=
  if c.tty ≠ some t then (w, { ret := EPERM })
  else (w.upd c.tid (fun u => { u with tty := none }), { ret := 0 })

/-- kernel/tty/tty_ioctl.c:254-278 `tty_ioctl_TIOCSCTTY`. -/
def sctty (w : World) (c : Task) (t : Nat) : World × Out :=
  if c.tty ≠ none then (w, { ret := EPERM })
  else if c.sid ≠ c.pid then (w, { ret := EPERM })
  else (w.upd c.tid (fun u => { u with tty := some t }), { ret := 0 })

/-- kernel/tty/tty_ioctl.c:280-290 `tty_ioctl_TIOCGPGRP`: nothing is stored. -/
def gpgrp (w : World) (t : Nat) : Out := { ret := w.fg t }

/-- kernel/tty/tty_ioctl.c:292-322 `tty_ioctl_TIOCSPGRP`; `arg` is what could be read at the pointer. -/
def spgrp (w : World) (c : Task) (t : Nat) (arg : Option Int) : World × Out :=
  if c.tty ≠ some t then (w, { ret := ENOTTY })
  else match arg with
    | none => (w, { ret := EFAULT })
    | some g =>
      if g < 0 then (w, { ret := EINVAL })
      else if w.sessionOf g < 0 then (w, { ret := EPERM })
      else if w.sessionOf g ≠ c.sid then (w, { ret := EPERM })
      else ({ w with fg := fun u => if u = t then g else w.fg u }, { ret := 0 })

/-- kernel/tty/tty_input.c:525-543: the check at the start of a read from a video terminal; 0 here
means that the read goes on. -/
def readCheck (w : World) (c : Task) (t : Nat) : Out :=
  if c.tty ≠ some t then { ret := EIO }
  else if c.pgid ≠ w.fg t then { ret := EIO }
  else { ret := 0 }

/-- kernel/process.c:225-291 (in `allocate_new_process`): the child is a copy of its parent. -/
def childOf (c : Task) (n : Int) : Task :=
  { c with tid := n, pid := n, parent := c.pid, execed := false }

inductive Call
  | fork (n : Int)           -- `n` is the id that `create_new_pid` chose
  | exec
  | exit
  | reap (p : Int)           -- `waitpid` with the dead child `p` as its result
  | setsid
  | getsid (p : Int)
  | setpgid (p g : Int)
  | getpgid (p : Int)
  | kill (p sig : Int)
  | notty (t : Nat)
  | sctty (t : Nat)
  | gpgrp (t : Nat)
  | spgrp (t : Nat) (arg : Option Int)
  | read (t : Nat)
  deriving DecidableEq, Repr

/-- One call of the process `c`.  kernel/fork.c:60-192, kernel/execve.c:138, kernel/exit.c:60-96 (the
children of a dead process become init's) and 212-328, kernel/waitpid.c:282-283. -/
def step (w : World) (c : Int) (k : Call) : Option (World × Out) :=
  match w.proc c with
  | none => none
  | some me =>
    if me.zombie then none
    else match k with
    | .fork n =>
        if n ≤ 0 ∨ 10000 ≤ n ∨ w.task n ≠ none then none
        else some ({ w with tasks := ins (childOf me n) w.tasks }, { ret := n })
    | .exec => some (w.upd c (fun t => { t with execed := true }), { ret := 0 })
    | .exit =>
        if c = 1 then none
        else some ({ w with tasks := w.tasks.map (fun t =>
                      if t.tid = c then { t with zombie := true }
                      else if t.parent = c then { t with parent := 1 } else t) }, { ret := 0 })
    | .reap p =>
        match w.proc p with
        | none => none
        | some t =>
          if t.zombie ∧ t.parent = c
          then some ({ w with tasks := w.tasks.filter (fun u => u.tid ≠ p) }, { ret := p })
          else none
    | .setsid => some (setsid w me)
    | .getsid p => some (w, getsid me p)
    | .setpgid p g => some (setpgid w me p g)
    | .getpgid p => some (w, getpgid w me p)
    | .kill p sig => some (w, kill w me p sig)
    | .notty t => some (notty w me t)
    | .sctty t => some (sctty w me t)
    | .gpgrp t => some (w, gpgrp w t)
    | .spgrp t a => some (spgrp w me t a)
    | .read t => some (w, readCheck w me t)

/-- After boot: init (kernel/process.c:719-742) with the first terminal, whose foreground group is 1
(kernel/tty/tty.c:421), and the kernel's threads `ks`. -/
def boot (ks : List Int) : World :=
  { tasks := { tid := 1, pid := 1, pgid := 1, sid := 1, parent := 0, tty := some 1 } ::
      ks.map (fun k => { tid := k, pid := 0, pgid := 0, sid := 0, parent := 0, kern := true }),
    fg := fun t => if t = 1 then 1 else 0 }

/-- The states reached from boot by calls of user processes, in any order, each of which satisfies
`ok`.  The kernel's threads have different ids, from 10000 on. -/
inductive Reach (ok : World → Int → Call → Prop) : World → Prop
  | boot (ks : List Int) : ks.Pairwise (· < ·) → (∀ k ∈ ks, 10000 ≤ k) → Reach ok (boot ks)
  | step {w c k w' o} : Reach ok w → ok w c k → step w c k = some (w', o) → Reach ok w'

/-! ## Specification (POSIX.1, XSH setpgid, setsid, kill, tcsetpgrp) -/

/-- `p` is a process (perhaps dead, but not yet waited for) of group `g` in session `s`. -/
def Is (w : World) (p g s : Int) : Prop :=
  ∃ t ∈ w.tasks, t.kern = false ∧ t.tid = p ∧ t.pgid = g ∧ t.sid = s

def Exists (w : World) (p : Int) : Prop := ∃ g s, Is w p g s
def InGroup (w : World) (p g : Int) : Prop := ∃ s, Is w p g s
def InSession (w : World) (p s : Int) : Prop := ∃ g, Is w p g s

/-- All processes of a group are in one session. -/
def OneSession (w : World) : Prop := ∀ g p s p' s', Is w p g s → Is w p' g s' → s = s'

def Alive (w : World) (p : Int) : Prop := ∃ t ∈ w.tasks, t.kern = false ∧ t.tid = p ∧ t.zombie = false
def HasExeced (w : World) (p : Int) : Prop := ∃ t ∈ w.tasks, t.kern = false ∧ t.tid = p ∧ t.execed = true
def ChildOf (w : World) (p c : Int) : Prop := ∃ t ∈ w.tasks, t.kern = false ∧ t.tid = p ∧ t.parent = c
/-- `t` is the controlling terminal of `p`. -/
def Controls (w : World) (t : Nat) (p : Int) : Prop :=
  ∃ x ∈ w.tasks, x.kern = false ∧ x.tid = p ∧ x.tty = some t

/-- The process that `setpgid(p, g)` of `c` is about, and the group asked for. -/
def target (c p : Int) : Int := if p = 0 then c else p
def wanted (c p g : Int) : Int := if g = 0 then target c p else g

/-- When `setpgid(p, g)` of `c` succeeds. -/
structure Allowed (w : World) (c p g : Int) : Prop where
  nonneg : 0 ≤ g
  family : target c p = c ∨ ChildOf w (target c p) c
  fresh : target c p = c ∨ ¬ HasExeced w (target c p)
  session : ∃ s, InSession w c s ∧ InSession w (target c p) s
  noLeader : ¬ InSession w (target c p) (target c p)
  group : wanted c p g = target c p ∨ ∃ s q, InSession w c s ∧ Is w q (wanted c p g) s

/-- The calls with which the kernel keeps groups inside sessions: nobody asks for a group that does not
exist, except for one named after the process to be moved; nobody gets the id of a group in use. -/
def Orderly (w : World) (c : Int) : Call → Prop
  | .setpgid p g => g ≤ 0 ∨ g = target c p ∨ ∃ q, InGroup w q g
  | .fork n => ∀ p g s, Is w p g s → g ≠ n
  | _ => True

/-- Every call. -/
def Any (_ : World) (_ : Int) (_ : Call) : Prop := True

/-! ## Proofs -/

structure TaskOk (t : Task) : Prop where
  user : t.kern = false → t.pid = t.tid ∧ 0 < t.tid ∧ t.tid < 10000 ∧ 0 < t.pgid ∧ 0 < t.sid
  kernel : t.kern = true → t.pid = 0 ∧ t.pgid = 0 ∧ t.sid = 0 ∧ 10000 ≤ t.tid

structure Wf (w : World) : Prop where
  sorted : w.tasks.Pairwise (fun a b => a.tid < b.tid)
  ok : ∀ t ∈ w.tasks, TaskOk t

theorem uniq {w : World} (h : Wf w) {a b : Task} (ha : a ∈ w.tasks) (hb : b ∈ w.tasks) (e : a.tid = b.tid) : a = b := by
  have := h.sorted
  generalize w.tasks = l at *
  induction l with
  | nil => cases ha
  | cons x xs ih =>
    rw [List.pairwise_cons] at this
    rcases List.mem_cons.mp ha with rfl | ha'
    · rcases List.mem_cons.mp hb with rfl | hb'
      · rfl
      · have := this.1 b hb'; omega
    · rcases List.mem_cons.mp hb with rfl | hb'
      · have := this.1 a ha'; omega
      · exact ih ha' hb' this.2

theorem task_some {w : World} {p t} (h : w.task p = some t) : t ∈ w.tasks ∧ t.tid = p := by
  refine ⟨List.mem_of_find?_eq_some h, ?_⟩
  have := List.find?_some h
  simpa using this

theorem task_none {w : World} {p} (h : w.task p = none) : ∀ t ∈ w.tasks, t.tid ≠ p := by
  intro t ht
  have := List.find?_eq_none.mp h t ht
  simpa using this

theorem task_eq {w : World} (hw : Wf w) {t} (h : t ∈ w.tasks) : w.task t.tid = some t := by
  cases hh : w.task t.tid with
  | none => exact absurd rfl (task_none hh t h)
  | some u => exact congrArg some (uniq hw (task_some hh).1 h (task_some hh).2)

theorem proc_some {w : World} {p t} (h : w.proc p = some t) : t ∈ w.tasks ∧ t.tid = p ∧ t.kern = false := by
  unfold World.proc at h
  cases hh : w.task p with
  | none => rw [hh] at h; cases h
  | some u =>
    rw [hh] at h
    simp only at h
    split at h
    · cases h
    · rename_i hk
      cases h
      exact ⟨(task_some hh).1, (task_some hh).2, by simpa using hk⟩

theorem proc_none {w : World} (hw : Wf w) {p} (h : w.proc p = none) : ∀ t ∈ w.tasks, t.kern = false → t.tid ≠ p := by
  intro t ht hk e
  unfold World.proc at h
  rw [← e, task_eq hw ht] at h
  simp [hk] at h

theorem proc_eq {w : World} (hw : Wf w) {t} (h : t ∈ w.tasks) (hk : t.kern = false) : w.proc t.tid = some t := by
  unfold World.proc
  rw [task_eq hw h]
  simp [hk]

theorem mem_upd {w : World} {p f t'} : t' ∈ (w.upd p f).tasks ↔ ∃ t ∈ w.tasks, (if t.tid = p then f t else t) = t' := by
  unfold World.upd
  exact List.mem_map

theorem pairwise_map {l : List Task} {f : Task → Task} (h : l.Pairwise (fun a b => a.tid < b.tid))
    (hf : ∀ t, (f t).tid = t.tid) : (l.map f).Pairwise (fun a b => a.tid < b.tid) := by
  rw [List.pairwise_map]
  refine List.Pairwise.imp ?_ h
  intro a b hab
  rw [hf, hf]; exact hab

theorem wf_map {w w' : World} (hw : Wf w) (f : Task → Task) (e : w'.tasks = w.tasks.map f) (hf : ∀ t, (f t).tid = t.tid)
    (ho : ∀ t ∈ w.tasks, TaskOk (f t)) : Wf w' := by
  constructor
  · rw [e]; exact pairwise_map hw.sorted hf
  · intro t ht
    rw [e] at ht
    obtain ⟨u, hu, rfl⟩ := List.mem_map.mp ht
    exact ho u hu

theorem wf_upd {w : World} (hw : Wf w) {p : Int} {f : Task → Task} (hf : ∀ t, (f t).tid = t.tid)
    (ho : ∀ t ∈ w.tasks, t.tid = p → TaskOk (f t)) : Wf (w.upd p f) := by
  refine wf_map hw (fun t => if t.tid = p then f t else t) rfl ?_ ?_
  · intro t
    split
    · exact hf t
    · rfl
  · intro t ht
    split
    · exact ho t ht ‹_›
    · exact hw.ok t ht

theorem mem_ins {t u : Task} : ∀ l, u ∈ ins t l ↔ u = t ∨ u ∈ l := by
  intro l
  induction l with
  | nil => simp [ins]
  | cons x xs ih =>
    unfold ins
    split
    · simp
    · rw [List.mem_cons, ih, List.mem_cons]
      constructor
      · rintro (h | h | h)
        · exact .inr (.inl h)
        · exact .inl h
        · exact .inr (.inr h)
      · rintro (h | h | h)
        · exact .inr (.inl h)
        · exact .inl h
        · exact .inr (.inr h)

theorem pairwise_ins {t : Task} : ∀ l : List Task, l.Pairwise (fun a b => a.tid < b.tid) → (∀ u ∈ l, u.tid ≠ t.tid) →
    (ins t l).Pairwise (fun a b => a.tid < b.tid) := by
  intro l
  induction l with
  | nil => intro _ _; simp [ins]
  | cons x xs ih =>
    intro h hn
    rw [List.pairwise_cons] at h
    unfold ins
    split
    · rename_i hlt
      rw [List.pairwise_cons, List.pairwise_cons]
      refine ⟨?_, h⟩
      intro b hb
      rcases List.mem_cons.mp hb with rfl | hb
      · exact hlt
      · have := h.1 b hb; omega
    · rename_i hlt
      rw [List.pairwise_cons]
      refine ⟨?_, ih h.2 (fun u hu => hn u (List.mem_cons_of_mem _ hu))⟩
      intro b hb
      rcases (mem_ins xs).mp hb with rfl | hb
      · have := hn x (List.mem_cons_self ..); omega
      · exact h.1 b hb

theorem wf_fork {w : World} (hw : Wf w) {me : Task} {n : Int} (hm : me ∈ w.tasks) (hk : me.kern = false)
    (h0 : 0 < n) (h1 : n < 10000) (hn : w.task n = none) : Wf { w with tasks := ins (childOf me n) w.tasks } := by
  constructor
  · exact pairwise_ins _ hw.sorted (task_none hn)
  · intro t ht
    rcases (mem_ins _).mp ht with rfl | ht
    · have := (hw.ok me hm).user hk
      refine ⟨fun _ => ⟨rfl, h0, h1, this.2.2.2.1, this.2.2.2.2⟩, fun h => ?_⟩
      rw [show (childOf me n).kern = me.kern from rfl, hk] at h; cases h
    · exact hw.ok t ht

theorem pgid_user {w : World} (hw : Wf w) {t : Task} (ht : t ∈ w.tasks) {g : Int} (hg : 0 < g) (e : t.pgid = g) : t.kern = false := by
  cases h : t.kern with
  | false => rfl
  | true => have := ((hw.ok t ht).kernel h).2.1; omega

theorem session_cases (w : World) (g : Int) :
    (∃ t ∈ w.tasks, t.pgid = g ∧ w.sessionOf g = t.sid) ∨ ((∀ t ∈ w.tasks, t.pgid ≠ g) ∧ w.sessionOf g = ESRCH) := by
  unfold World.sessionOf
  cases h : w.tasks.find? (fun t => t.pgid == g) with
  | none =>
    refine .inr ⟨?_, rfl⟩
    intro t ht
    simpa using List.find?_eq_none.mp h t ht
  | some t =>
    refine .inl ⟨t, List.mem_of_find?_eq_some h, ?_, rfl⟩
    simpa using List.find?_some h

theorem count_zero_aux (g : Int) : ∀ (l : List Task) n, l.foldl (fun n t => if t.pgid = g then n + 1 else n) n = 0 ↔
    n = 0 ∧ ∀ t ∈ l, t.pgid ≠ g := by
  intro l
  induction l with
  | nil => intro n; simp
  | cons x xs ih =>
    intro n
    rw [List.foldl_cons, ih]
    by_cases h : x.pgid = g
    · simp [h]
    · simp [h]

theorem count_zero {w : World} {g : Int} : w.countGroup g = 0 ↔ ∀ t ∈ w.tasks, t.pgid ≠ g := by
  unfold World.countGroup
  rw [count_zero_aux]; simp

/-- What every call does to the table: the kinds of change. -/
inductive Change (w : World) (c : Int) (me : Task) : Call → World → Prop
  | same {k w'} : w'.tasks = w.tasks → Change w c me k w'
  | fork {n} : 0 < n → n < 10000 → w.task n = none → Change w c me (.fork n) { w with tasks := ins (childOf me n) w.tasks }
  | exec : Change w c me .exec (w.upd c (fun t => { t with execed := true }))
  | exit : Change w c me .exit { w with tasks := w.tasks.map (fun t =>
                      if t.tid = c then { t with zombie := true }
                      else if t.parent = c then { t with parent := 1 } else t) }
  | reap {p} : Change w c me (.reap p) { w with tasks := w.tasks.filter (fun u => u.tid ≠ p) }
  | setsid : (∀ t ∈ w.tasks, t.pgid ≠ c) →
      Change w c me .setsid (w.upd c (fun t => { t with pgid := c, sid := c, tty := none }))
  | setpgid {p g : Int} {t : Task} : t ∈ w.tasks → t.kern = false → t.tid = target c p → t.sid = me.sid →
      (p ≠ 0 → t.execed = false) → 0 ≤ g → (g ≠ 0 → ¬ (0 ≤ w.sessionOf g ∧ w.sessionOf g ≠ t.sid)) →
      Change w c me (.setpgid p g) (w.upd (target c p) (fun t => { t with pgid := wanted c p g }))
  | notty {t} : Change w c me (.notty t) (w.upd c (fun u => { u with tty := none }))
  | sctty {t} : me.tty = none → me.sid = c → Change w c me (.sctty t) (w.upd c (fun u => { u with tty := some t }))

theorem setpgidTo_cases {w : World} {p : Task} {g : Int} (hp : p.pid = p.tid) :
    (setpgidTo w p g = (w, { ret := EPERM }) ∧ g ≠ 0 ∧ 0 ≤ w.sessionOf g ∧ w.sessionOf g ≠ p.sid) ∨
    (setpgidTo w p g = (w.upd p.tid (fun t => { t with pgid := if g = 0 then p.tid else g }), { ret := 0 }) ∧
      (g ≠ 0 → ¬ (0 ≤ w.sessionOf g ∧ w.sessionOf g ≠ p.sid))) := by
  unfold setpgidTo
  by_cases hg : g = 0
  · right
    subst hg
    simp [hp]
  · simp only [ne_eq, hg, not_false_eq_true, if_true, if_false]
    split
    · rename_i h
      exact .inl ⟨rfl, by simp, h.1, h.2⟩
    · rename_i h
      exact .inr ⟨rfl, fun _ => h⟩

theorem step_me {w : World} {c k r} (h : step w c k = some r) : ∃ me, w.proc c = some me ∧ me.zombie = false := by
  unfold step at h
  cases hp : w.proc c with
  | none => rw [hp] at h; cases h
  | some me =>
    rw [hp] at h
    dsimp only at h
    by_cases hz : me.zombie = true
    · rw [if_pos hz] at h; cases h
    · exact ⟨me, rfl, by simpa using hz⟩

theorem step_eq {w : World} {c k me} (hp : w.proc c = some me) (hz : me.zombie = false) :
    step w c k = match k with
    | .fork n =>
        if n ≤ 0 ∨ 10000 ≤ n ∨ w.task n ≠ none then none
        else some ({ w with tasks := ins (childOf me n) w.tasks }, { ret := n })
    | .exec => some (w.upd c (fun t => { t with execed := true }), { ret := 0 })
    | .exit =>
        if c = 1 then none
        else some ({ w with tasks := w.tasks.map (fun t =>
                      if t.tid = c then { t with zombie := true }
                      else if t.parent = c then { t with parent := 1 } else t) }, { ret := 0 })
    | .reap p =>
        match w.proc p with
        | none => none
        | some t =>
          if t.zombie ∧ t.parent = c
          then some ({ w with tasks := w.tasks.filter (fun u => u.tid ≠ p) }, { ret := p })
          else none
    | .setsid => some (setsid w me)
    | .getsid p => some (w, getsid me p)
    | .setpgid p g => some (setpgid w me p g)
    | .getpgid p => some (w, getpgid w me p)
    | .kill p sig => some (w, kill w me p sig)
    | .notty t => some (notty w me t)
    | .sctty t => some (sctty w me t)
    | .gpgrp t => some (w, gpgrp w t)
    | .spgrp t a => some (spgrp w me t a)
    | .read t => some (w, readCheck w me t) := by
  unfold step
  rw [hp]
  dsimp only
  rw [if_neg (by rw [hz]; decide)]

theorem setpgid_ok {w : World} (hw : Wf w) {me : Task} (hm : me ∈ w.tasks) (hk : me.kern = false) {p g : Int} :
    (setpgid w me p g).1 = w ∧ (setpgid w me p g).2.ret ≠ 0 ∨
    ∃ t ∈ w.tasks, t.kern = false ∧ t.tid = target me.tid p ∧ t.sid = me.sid ∧
      (p ≠ 0 → t.execed = false) ∧ 0 ≤ g ∧ (g ≠ 0 → ¬ (0 ≤ w.sessionOf g ∧ w.sessionOf g ≠ t.sid)) ∧
      (setpgid w me p g).1 = w.upd (target me.tid p) (fun t => { t with pgid := wanted me.tid p g }) ∧
      (setpgid w me p g).2.ret = 0 := by
  have hu := (hw.ok me hm).user hk
  unfold setpgid
  split
  · exact .inl ⟨rfl, (by decide : EINVAL ≠ 0)⟩
  · rename_i hg
    split
    · rename_i hp
      subst hp
      rcases setpgidTo_cases (w := w) (g := g) hu.1 with ⟨e, _⟩ | ⟨e, hc⟩
      · rw [e]; exact .inl ⟨rfl, (by decide : EPERM ≠ 0)⟩
      · rw [e]
        refine .inr ⟨me, hm, hk, by simp [target], rfl, by simp, by omega, hc, ?_, rfl⟩
        simp [wanted, target]
    · rename_i hp
      cases hq : w.proc p with
      | none => exact .inl ⟨rfl, (by decide : ESRCH ≠ 0)⟩
      | some t =>
        obtain ⟨ht, hte, htk⟩ := proc_some hq
        dsimp only
        split
        · exact .inl ⟨rfl, (by decide : EACCES ≠ 0)⟩
        · rename_i hx
          split
          · exact .inl ⟨rfl, (by decide : EPERM ≠ 0)⟩
          · rename_i hs
            rcases setpgidTo_cases (w := w) (g := g) ((hw.ok t ht).user htk).1 with ⟨e, _⟩ | ⟨e, hc⟩
            · rw [e]; exact .inl ⟨rfl, (by decide : EPERM ≠ 0)⟩
            · rw [e]
              refine .inr ⟨t, ht, htk, by simp [target, hp, hte], by simpa using hs, fun _ => by simpa using hx, by omega, hc, ?_, rfl⟩
              simp [wanted, target, hp, hte]

theorem step_change {w w' : World} (hw : Wf w) {c k o me} (hp : w.proc c = some me) (h : step w c k = some (w', o)) :
    Change w c me k w' := by
  obtain ⟨me', hp', hz⟩ := step_me h
  rw [hp] at hp'; cases hp'
  obtain ⟨hm, hc, hk⟩ := proc_some hp
  have hu := (hw.ok me hm).user hk
  subst hc
  rw [step_eq hp hz] at h
  cases k with
  | fork n =>
    dsimp only at h
    split at h
    · cases h
    · rename_i hn
      cases h
      refine Change.fork (by omega) (by omega) ?_
      cases hh : w.task n with
      | none => rfl
      | some u => exact absurd (.inr (.inr (by rw [hh]; simp))) hn
  | exec => cases h; exact .exec
  | exit =>
    dsimp only at h
    split at h
    · cases h
    · cases h; exact .exit
  | reap p =>
    dsimp only at h
    split at h
    · cases h
    · split at h
      · cases h; exact .reap
      · cases h
  | setsid =>
    dsimp only at h
    unfold setsid at h
    split at h
    · rename_i h0
      cases h
      rw [hu.1] at h0 ⊢
      exact .setsid (count_zero.mp h0)
    · cases h; exact .same rfl
  | setpgid p g =>
    dsimp only at h
    have h' := congrArg Prod.fst (Option.some.inj h)
    dsimp only at h'
    rcases setpgid_ok hw hm hk (p := p) (g := g) with ⟨e, _⟩ | ⟨t, h1, h2, h3, h4, h5, h6, h7, h8, _⟩
    · rw [e] at h'; subst h'; exact .same rfl
    · rw [h'] at h8; rw [h8]; exact .setpgid h1 h2 h3 h4 h5 h6 h7
  | notty t =>
    dsimp only at h
    unfold notty at h
    split at h
    · cases h; exact .same rfl
    · cases h; exact .notty
  | sctty t =>
    dsimp only at h
    unfold sctty at h
    split at h
    · cases h; exact .same rfl
    · rename_i h1
      split at h
      · cases h; exact .same rfl
      · rename_i h2
        cases h
        refine .sctty (by simpa using h1) ?_
        rw [← hu.1]; simpa using h2
  | spgrp t a =>
    dsimp only at h
    unfold spgrp at h
    split at h
    · cases h; exact .same rfl
    · split at h
      · cases h; exact .same rfl
      · split at h
        · cases h; exact .same rfl
        · split at h
          · cases h; exact .same rfl
          · split at h
            · cases h; exact .same rfl
            · cases h; exact .same rfl
  | getsid p => cases h; exact .same rfl
  | getpgid p => cases h; exact .same rfl
  | kill p s => cases h; exact .same rfl
  | gpgrp t => cases h; exact .same rfl
  | read t => cases h; exact .same rfl

theorem wf_change {w w' : World} (hw : Wf w) {c k me} (hp : w.proc c = some me) (h : Change w c me k w') : Wf w' := by
  obtain ⟨hm, hc, hk⟩ := proc_some hp
  have hu := (hw.ok me hm).user hk
  cases h with
  | same e => exact ⟨by rw [e]; exact hw.sorted, by rw [e]; exact hw.ok⟩
  | fork h0 h1 hn => exact wf_fork hw hm hk h0 h1 hn
  | exec =>
    refine wf_upd hw (fun _ => rfl) ?_
    intro t ht _
    exact ⟨(hw.ok t ht).user, (hw.ok t ht).kernel⟩
  | exit =>
    refine wf_map hw _ rfl ?_ ?_
    · intro t
      split
      · rfl
      · split <;> rfl
    · intro t ht
      split
      · exact ⟨(hw.ok t ht).user, (hw.ok t ht).kernel⟩
      · split
        · exact ⟨(hw.ok t ht).user, (hw.ok t ht).kernel⟩
        · exact hw.ok t ht
  | reap =>
    constructor
    · exact List.Pairwise.filter _ hw.sorted
    · intro t ht
      exact hw.ok t (List.mem_filter.mp ht).1
  | setsid hn =>
    refine wf_upd hw (fun _ => rfl) ?_
    intro t ht e
    have hh := (hw.ok t ht)
    have : t = me := uniq hw ht hm (by omega)
    subst this
    refine ⟨fun _ => ⟨hu.1, hu.2.1, hu.2.2.1, ?_, ?_⟩, fun h => ?_⟩
    · show 0 < c; omega
    · show 0 < c; omega
    · rw [hk] at h; cases h
  | setpgid ht htk hte hts hx hg hc' =>
    rename_i p g t
    refine wf_upd hw (fun _ => rfl) ?_
    intro u hu' e
    have : u = t := uniq hw hu' ht (by omega)
    subst this
    have hh := (hw.ok u ht).user htk
    refine ⟨fun _ => ⟨hh.1, hh.2.1, hh.2.2.1, ?_, hh.2.2.2.2⟩, fun h => ?_⟩
    · show 0 < wanted c p g
      unfold wanted
      split <;> omega
    · rw [htk] at h; cases h
  | notty =>
    refine wf_upd hw (fun _ => rfl) ?_
    intro t ht _
    exact ⟨(hw.ok t ht).user, (hw.ok t ht).kernel⟩
  | sctty _ _ =>
    refine wf_upd hw (fun _ => rfl) ?_
    intro t ht _
    exact ⟨(hw.ok t ht).user, (hw.ok t ht).kernel⟩

theorem wf_boot {ks : List Int} (h : ks.Pairwise (· < ·)) (hk : ∀ k ∈ ks, 10000 ≤ k) : Wf (boot ks) := by
  constructor
  · show List.Pairwise _ (_ :: _)
    rw [List.pairwise_cons]
    constructor
    · intro b hb
      obtain ⟨k, hk', rfl⟩ := List.mem_map.mp hb
      have := hk k hk'
      show (1 : Int) < k
      omega
    · rw [List.pairwise_map]
      exact h
  · intro t ht
    rcases List.mem_cons.mp ht with rfl | ht
    · exact ⟨fun _ => by decide, fun h => (by cases h)⟩
    · obtain ⟨k, hk', rfl⟩ := List.mem_map.mp ht
      exact ⟨fun h => (by cases h), fun _ => ⟨rfl, rfl, rfl, hk k hk'⟩⟩

theorem wf_reach {ok w} (h : Reach ok w) : Wf w := by
  induction h with
  | boot ks h hk => exact wf_boot h hk
  | step _ _ hs ih =>
    obtain ⟨me, hp, _⟩ := step_me hs
    exact wf_change ih hp (step_change ih hp hs)

/-- The invariant behind `OneSession`: a group lies in one session, also together with the process after
which it is named. -/
def Close (w : World) : Prop := ∀ t ∈ w.tasks, ∀ u ∈ w.tasks, t.kern = false → u.kern = false →
  (t.pgid = u.pgid → t.sid = u.sid) ∧ (t.pgid = u.tid → t.sid = u.sid)

theorem close_map {w w' : World} (h : Close w) (f : Task → Task) (e : w'.tasks = w.tasks.map f)
    (hf : ∀ t, (f t).tid = t.tid ∧ (f t).pgid = t.pgid ∧ (f t).sid = t.sid ∧ (f t).kern = t.kern) : Close w' := by
  intro t ht u hu hk hk'
  rw [e] at ht hu
  obtain ⟨a, ha, rfl⟩ := List.mem_map.mp ht
  obtain ⟨b, hb, rfl⟩ := List.mem_map.mp hu
  have hfa := hf a
  have hfb := hf b
  rw [hfa.2.1, hfa.2.2.1, hfb.2.1, hfb.2.2.1, hfb.1]
  exact h a ha b hb (by rw [← hfa.2.2.2]; exact hk) (by rw [← hfb.2.2.2]; exact hk')

theorem if_same (t : Task) (c : Int) (f : Task → Task) (P : Task → Prop) (h1 : P (f t)) (h2 : P t) :
    P (if t.tid = c then f t else t) := by
  split
  · exact h1
  · exact h2

theorem close_upd_same {w : World} (h : Close w) (c : Int) (f : Task → Task)
    (hf : ∀ t, (f t).tid = t.tid ∧ (f t).pgid = t.pgid ∧ (f t).sid = t.sid ∧ (f t).kern = t.kern) : Close (w.upd c f) := by
  refine close_map h (fun t => if t.tid = c then f t else t) rfl ?_
  intro t
  split
  · exact hf t
  · exact ⟨rfl, rfl, rfl, rfl⟩

/-- An assignment of group and session to one process keeps the invariant if the process fits in. -/
theorem close_upd {w : World} (hw : Wf w) (h : Close w) {x : Task} (hx : x ∈ w.tasks) (f : Task → Task)
    (hf : ∀ t, (f t).tid = t.tid ∧ (f t).kern = t.kern)
    (h1 : ∀ b ∈ w.tasks, b.kern = false → b.tid ≠ x.tid →
      ((f x).pgid = b.pgid → (f x).sid = b.sid) ∧ ((f x).pgid = b.tid → (f x).sid = b.sid) ∧
      (b.pgid = x.tid → b.sid = (f x).sid)) : Close (w.upd x.tid f) := by
  intro t ht u hu hk hk'
  obtain ⟨a, ha, rfl⟩ := mem_upd.mp ht
  obtain ⟨b, hb, rfl⟩ := mem_upd.mp hu
  by_cases ea : a.tid = x.tid
  · have : a = x := uniq hw ha hx ea
    subst this
    rw [if_pos rfl] at hk ⊢
    by_cases eb : b.tid = a.tid
    · have : b = a := uniq hw hb ha eb
      subst this
      rw [if_pos rfl]
      exact ⟨fun _ => rfl, fun _ => rfl⟩
    · rw [if_neg eb] at hk' ⊢
      exact ⟨(h1 b hb hk' eb).1, (h1 b hb hk' eb).2.1⟩
  · rw [if_neg ea] at hk ⊢
    by_cases eb : b.tid = x.tid
    · have : b = x := uniq hw hb hx eb
      subst this
      rw [if_pos rfl] at hk' ⊢
      refine ⟨fun e => ((h1 a ha hk ea).1 e.symm).symm, fun e => (h1 a ha hk ea).2.2 ?_⟩
      rw [(hf b).1] at e
      exact e
    · rw [if_neg eb] at hk' ⊢
      exact h a ha b hb hk hk'

theorem is_of {w : World} {t : Task} (ht : t ∈ w.tasks) (hk : t.kern = false) : Is w t.tid t.pgid t.sid :=
  ⟨t, ht, hk, rfl, rfl, rfl⟩

theorem session_of_member {w : World} (hw : Wf w) (hj : Close w) {t : Task} (ht : t ∈ w.tasks) (hk : t.kern = false) :
    w.sessionOf t.pgid = t.sid := by
  rcases session_cases w t.pgid with ⟨a, ha, ea, es⟩ | ⟨hn, _⟩
  · have hak := pgid_user hw ha ((hw.ok t ht).user hk).2.2.2.1 ea
    rw [es]
    exact (hj a ha t ht hak hk).1 ea
  · exact absurd rfl (hn t ht)

theorem close_change {w w' : World} (hw : Wf w) (hj : Close w) {c k me} (hp : w.proc c = some me)
    (ho : Orderly w c k) (h : Change w c me k w') : Close w' := by
  obtain ⟨hm, hc, hk⟩ := proc_some hp
  have hu := (hw.ok me hm).user hk
  cases h with
  | same e => intro t ht u hu; rw [e] at ht hu; exact hj t ht u hu
  | fork h0 h1 hn =>
    rename_i n
    intro t ht u hu hkt hku
    have key : ∀ b ∈ w.tasks, b.kern = false → b.pgid ≠ n := fun b hb hkb => ho _ _ _ (is_of hb hkb)
    rcases (mem_ins _).mp ht with rfl | ht
    · rcases (mem_ins _).mp hu with rfl | hu
      · exact ⟨fun _ => rfl, fun _ => rfl⟩
      · exact hj me hm u hu hk hku
    · rcases (mem_ins _).mp hu with rfl | hu
      · refine ⟨(hj t ht me hm hkt hk).1, fun e => absurd e (key t ht hkt)⟩
      · exact hj t ht u hu hkt hku
  | exec => exact close_upd_same hj c _ (fun _ => ⟨rfl, rfl, rfl, rfl⟩)
  | notty => exact close_upd_same hj c _ (fun _ => ⟨rfl, rfl, rfl, rfl⟩)
  | sctty _ _ => exact close_upd_same hj c _ (fun _ => ⟨rfl, rfl, rfl, rfl⟩)
  | exit =>
    refine close_map hj _ rfl ?_
    intro t
    split
    · exact ⟨rfl, rfl, rfl, rfl⟩
    · split <;> exact ⟨rfl, rfl, rfl, rfl⟩
  | reap =>
    intro t ht u hu
    exact hj t (List.mem_filter.mp ht).1 u (List.mem_filter.mp hu).1
  | setsid hn =>
    subst hc
    refine close_upd hw hj hm _ (fun _ => ⟨rfl, rfl⟩) ?_
    intro b hb hkb ne
    exact ⟨fun e => absurd e.symm (hn b hb), fun e => absurd e.symm ne, fun e => absurd e (hn b hb)⟩
  | setpgid ht htk hte hts hx hg hc' =>
    rename_i p g t
    rw [← hte]
    have hut := (hw.ok t ht).user htk
    refine close_upd hw hj ht _ (fun _ => ⟨rfl, rfl⟩) ?_
    intro b hb hkb ne
    have hub := (hw.ok b hb).user hkb
    have hold := hj b hb t ht hkb htk
    refine ⟨?_, ?_, hold.2⟩
    · intro e
      change wanted c p g = b.pgid at e
      show t.sid = b.sid
      by_cases h0 : g = 0
      · subst h0
        rw [wanted, if_pos rfl, ← hte] at e
        exact (hold.2 e.symm).symm
      · rw [wanted, if_neg h0] at e
        have hs := session_of_member hw hj hb hkb
        have := hc' h0
        rw [e, hs] at this
        by_cases hne : t.sid = b.sid
        · exact hne
        · exact absurd ⟨by omega, fun h => hne h.symm⟩ this
    · intro e
      change wanted c p g = b.tid at e
      show t.sid = b.sid
      by_cases h0 : g = 0
      · subst h0
        rw [wanted, if_pos rfl, ← hte] at e
        exact absurd e.symm ne
      · rw [wanted, if_neg h0] at e
        rcases ho with ho | ho | ⟨q, s, a, ha, hka, hqa, hga, _⟩
        · omega
        · omega
        · have hs := session_of_member hw hj ha hka
          have hua := (hw.ok a ha).user hka
          have h3 := hc' h0
          rw [← hga, hs] at h3
          have h4 := (hj a ha b hb hka hkb).2 (by omega)
          by_cases hne : t.sid = b.sid
          · exact hne
          · exact absurd ⟨by omega, fun h => hne (by omega)⟩ h3

theorem close_boot (ks : List Int) : Close (boot ks) := by
  intro t ht u hu hk hk'
  have : ∀ x ∈ (boot ks).tasks, x.kern = false → x.sid = 1 := by
    intro x hx hkx
    rcases List.mem_cons.mp hx with rfl | hx
    · rfl
    · obtain ⟨k, _, rfl⟩ := List.mem_map.mp hx
      cases hkx
  rw [this t ht hk, this u hu hk']
  exact ⟨fun _ => rfl, fun _ => rfl⟩

theorem close_reach {w} (h : Reach Orderly w) : Close w := by
  induction h with
  | boot ks h hk => exact close_boot ks
  | step hr ho hs ih =>
    obtain ⟨me, hp, _⟩ := step_me hs
    exact close_change (wf_reach hr) ih hp ho (step_change (wf_reach hr) hp hs)

/-- C124: whatever calls are made, in any order, the processes of one group are all in one session -
as long as nobody names a group that does not exist. -/
theorem groups_one_session_partial {w} (h : Reach Orderly w) : OneSession w := by
  intro g p s p' s' ⟨t, ht, hk, _, hg, hs⟩ ⟨u, hu, hk', _, hg', hs'⟩
  have := (close_reach h t ht u hu hk hk').1 (by omega)
  omega

/-- C124: the session of a process changes only by its own `setsid`; its group only by its own `setsid`
or by a `setpgid` about it. -/
theorem session_stable {w w' : World} {c k o} (h : Reach Any w) (hs : step w c k = some (w', o)) {p g s g' s' : Int}
    (h1 : Is w p g s) (h2 : Is w' p g' s') :
    (s' ≠ s → k = .setsid ∧ p = c ∧ s' = c ∧ g' = c) ∧
    (g' ≠ g → (k = .setsid ∧ p = c ∧ g' = c) ∨ ∃ q r, k = .setpgid q r ∧ p = target c q ∧ g' = wanted c q r) := by
  have hw := wf_reach h
  obtain ⟨me, hp, _⟩ := step_me hs
  have hch := step_change hw hp hs
  obtain ⟨hm, hc, hk⟩ := proc_some hp
  obtain ⟨t, ht, hkt, rfl, rfl, rfl⟩ := h1
  obtain ⟨u, hu, hku, hup, rfl, rfl⟩ := h2
  have same : u.pgid = t.pgid → u.sid = t.sid →
      (u.sid ≠ t.sid → k = .setsid ∧ t.tid = c ∧ u.sid = c ∧ u.pgid = c) ∧
      (u.pgid ≠ t.pgid → (k = .setsid ∧ t.tid = c ∧ u.pgid = c) ∨ ∃ q r, k = .setpgid q r ∧ t.tid = target c q ∧ u.pgid = wanted c q r) :=
    fun a b => ⟨fun h => absurd b h, fun h => absurd a h⟩
  have upd : ∀ x f, u ∈ (w.upd x f).tasks → (∀ y : Task, (f y).tid = y.tid) → u = if t.tid = x then f t else t := by
    intro x f hmem hf
    obtain ⟨b, hb, e⟩ := mem_upd.mp hmem
    have : b.tid = t.tid := by
      rw [← hup, ← e]
      split
      · exact (hf b).symm
      · rfl
    have : b = t := uniq hw hb ht this
    subst this
    exact e.symm
  cases hch with
  | same e =>
    rw [e] at hu
    have : u = t := uniq hw hu ht hup
    subst this
    exact same rfl rfl
  | fork h0 h1 hn =>
    rcases (mem_ins _).mp hu with rfl | hu
    · exact absurd hup.symm (task_none hn t ht)
    · have : u = t := uniq hw hu ht hup
      subst this
      exact same rfl rfl
  | exec => have := upd _ _ hu (fun _ => rfl); subst this; refine same ?_ ?_ <;> split <;> rfl
  | notty => have := upd _ _ hu (fun _ => rfl); subst this; refine same ?_ ?_ <;> split <;> rfl
  | sctty _ _ => have := upd _ _ hu (fun _ => rfl); subst this; refine same ?_ ?_ <;> split <;> rfl
  | exit =>
    obtain ⟨b, hb, e⟩ := List.mem_map.mp hu
    have hbt : b.tid = t.tid := by
      rw [← hup, ← e]
      split
      · rfl
      · split <;> rfl
    have : b = t := uniq hw hb ht hbt
    subst this
    rw [← e]
    refine ⟨fun h => absurd ?_ h, fun h => absurd ?_ h⟩ <;>
    · split
      · rfl
      · split <;> rfl
  | reap =>
    have : u = t := uniq hw (List.mem_filter.mp hu).1 ht hup
    subst this
    exact same rfl rfl
  | setsid hn =>
    have := upd _ _ hu (fun _ => rfl)
    by_cases e : t.tid = c
    · rw [if_pos e] at this
      subst this
      exact ⟨fun _ => ⟨rfl, e, rfl, rfl⟩, fun _ => .inl ⟨rfl, e, rfl⟩⟩
    · rw [if_neg e] at this
      subst this
      exact same rfl rfl
  | setpgid ht' htk hte hts hx hg hc' =>
    rename_i q r x
    have := upd _ _ hu (fun _ => rfl)
    by_cases e : t.tid = target c q
    · rw [if_pos e] at this
      subst this
      exact ⟨fun h => absurd rfl h, fun _ => .inr ⟨q, r, rfl, e, rfl⟩⟩
    · rw [if_neg e] at this
      subst this
      exact same rfl rfl

/-! ### The calls about groups and sessions -/

/-- The other processes are as before. -/
def Others (w w' : World) (p : Int) : Prop := ∀ t : Task, t.tid ≠ p → (t ∈ w'.tasks ↔ t ∈ w.tasks)

theorem others_upd {w : World} {p : Int} {f : Task → Task} (hf : ∀ t, (f t).tid = t.tid) : Others w (w.upd p f) p := by
  intro t ne
  rw [mem_upd]
  constructor
  · rintro ⟨u, hu, e⟩
    split at e
    · rename_i h
      have := hf u
      rw [e] at this
      omega
    · rw [← e]; exact hu
  · intro h
    exact ⟨t, h, if_neg ne⟩

theorem mem_upd_self {w : World} {t : Task} (ht : t ∈ w.tasks) (f : Task → Task) : f t ∈ (w.upd t.tid f).tasks :=
  mem_upd.mpr ⟨t, ht, if_pos rfl⟩

theorem mem_upd_only {w : World} (hw : Wf w) {t u : Task} (ht : t ∈ w.tasks) {f : Task → Task} (hf : ∀ t, (f t).tid = t.tid)
    (hu : u ∈ (w.upd t.tid f).tasks) (e : u.tid = t.tid) : u = f t := by
  obtain ⟨b, hb, h⟩ := mem_upd.mp hu
  split at h
  · rename_i hbt
    have : b = t := uniq hw hb ht hbt
    subst this
    exact h.symm
  · rename_i hbt
    subst h
    exact absurd e hbt

/-- C125: `setsid` succeeds exactly if no group is named after the caller, and then makes the caller the
only member of a new group in a new session, without a controlling terminal. -/
theorem setsid_exact {w w' : World} {c o} (h : Reach Any w) (hs : step w c .setsid = some (w', o)) :
    ((∀ q, ¬ InGroup w q c) ∧ o.ret = c ∧ Is w' c c c ∧ (∀ q, InGroup w' q c → q = c) ∧
      (∀ t, ¬ Controls w' t c) ∧ Others w w' c) ∨
    ((∃ q, InGroup w q c) ∧ o.ret = EPERM ∧ w' = w) := by
  have hw := wf_reach h
  obtain ⟨me, hp, hz⟩ := step_me hs
  obtain ⟨hm, hc, hk⟩ := proc_some hp
  have hu := (hw.ok me hm).user hk
  rw [step_eq hp hz] at hs
  dsimp only at hs
  unfold setsid at hs
  rw [hu.1] at hs
  subst hc
  split at hs
  · rename_i h0
    cases hs
    have hn := count_zero.mp h0
    have hf : ∀ t : Task, ({ t with pgid := me.tid, sid := me.tid, tty := none } : Task).tid = t.tid := fun _ => rfl
    refine .inl ⟨?_, rfl, ?_, ?_, ?_, others_upd hf⟩
    · rintro q ⟨s, t, ht, _, _, e, _⟩
      exact hn t ht e
    · exact ⟨_, mem_upd_self hm _, hk, rfl, rfl, rfl⟩
    · rintro q ⟨s, t, ht, _, rfl, e, _⟩
      by_cases hq : t.tid = me.tid
      · exact hq
      · exact absurd e (hn t ((others_upd hf t hq).mp ht))
    · rintro t ⟨x, hx, hkx, hxt, hxy⟩
      rw [mem_upd_only hw hm hf hx hxt] at hxy
      cases hxy
  · rename_i h0
    cases hs
    refine .inr ⟨?_, rfl, rfl⟩
    by_cases hex : ∃ t ∈ w.tasks, t.pgid = me.tid
    · obtain ⟨t, ht, e⟩ := hex
      exact ⟨t.tid, t.sid, t, ht, pgid_user hw ht (by omega) e, rfl, e, rfl⟩
    · exact absurd (count_zero.mpr (fun t ht e => hex ⟨t, ht, e⟩)) h0

/-- C125: `getpgid` returns the group of the process asked for, or ESRCH if there is none. -/
theorem getpgid_exact {w w' : World} {c p o} (h : Reach Any w) (hs : step w c (.getpgid p) = some (w', o)) :
    w' = w ∧ (InGroup w (target c p) o.ret ∨ (¬ Exists w (target c p) ∧ o.ret = ESRCH)) := by
  have hw := wf_reach h
  obtain ⟨me, hp, hz⟩ := step_me hs
  obtain ⟨hm, hc, hk⟩ := proc_some hp
  rw [step_eq hp hz] at hs
  cases hs
  refine ⟨rfl, ?_⟩
  unfold getpgid
  split
  · rename_i h0
    subst h0
    exact .inl ⟨me.sid, me, hm, hk, by simp [target, hc], rfl, rfl⟩
  · rename_i h0
    cases hq : w.proc p with
    | none =>
      refine .inr ⟨?_, rfl⟩
      rintro ⟨g, s, t, ht, hkt, e, _⟩
      rw [target, if_neg h0] at e
      exact proc_none hw hq t ht hkt e
    | some t =>
      obtain ⟨ht, hte, htk⟩ := proc_some hq
      exact .inl ⟨t.sid, t, ht, htk, by simp [target, h0, hte], rfl, rfl⟩

/-- C125: `getsid` is right for the caller and for the other processes of its session. -/
theorem getsid_partial {w w' : World} {c p s o} (h : Reach Any w) (hs : step w c (.getsid p) = some (w', o))
    (h1 : InSession w c s) (h2 : InSession w (target c p) s) : w' = w ∧ InSession w (target c p) o.ret := by
  have hw := wf_reach h
  obtain ⟨me, hp, hz⟩ := step_me hs
  obtain ⟨hm, hc, hk⟩ := proc_some hp
  rw [step_eq hp hz] at hs
  cases hs
  refine ⟨rfl, ?_⟩
  obtain ⟨g, t, ht, hkt, e, _, hs⟩ := h1
  have : t = me := uniq hw ht hm (by omega)
  subst this
  show InSession w _ t.sid
  rw [hs]
  exact h2

/-- C125: a `setpgid` that succeeds puts a process of the caller's session into the group asked for, and
does nothing else; one that fails does nothing. -/
theorem setpgid_effect {w w' : World} {c p g o} (h : Reach Any w) (hs : step w c (.setpgid p g) = some (w', o)) :
    (o.ret = 0 → (∃ s, InSession w c s ∧ Is w' (target c p) (wanted c p g) s) ∧ Others w w' (target c p)) ∧
    (o.ret ≠ 0 → w' = w) := by
  have hw := wf_reach h
  obtain ⟨me, hp, hz⟩ := step_me hs
  obtain ⟨hm, hc, hk⟩ := proc_some hp
  rw [step_eq hp hz] at hs
  dsimp only at hs
  have h1 := congrArg Prod.fst (Option.some.inj hs)
  have h2 := congrArg (fun r => (Prod.snd r).ret) (Option.some.inj hs)
  dsimp only at h1 h2
  rcases setpgid_ok hw hm hk (p := p) (g := g) with ⟨e, hr⟩ | ⟨t, ht, htk, hte, hts, _, _, _, h8, hr⟩
  · rw [h2] at hr
    rw [e] at h1
    exact ⟨fun h => absurd h hr, fun _ => h1.symm⟩
  · rw [h2] at hr
    rw [h1, hc] at h8
    rw [hc] at hte
    refine ⟨fun _ => ?_, fun h => absurd hr h⟩
    rw [h8]
    refine ⟨⟨me.sid, ⟨me.pgid, me, hm, hk, hc, rfl, rfl⟩, ?_⟩, others_upd (fun _ => rfl)⟩
    rw [← hte]
    exact ⟨_, mem_upd_self ht _, htk, rfl, rfl, hts⟩

theorem execed_of {w : World} (hw : Wf w) {t : Task} (ht : t ∈ w.tasks) (h : HasExeced w t.tid) : t.execed = true := by
  obtain ⟨u, hu, _, e, hx⟩ := h
  rw [← uniq hw hu ht e]; exact hx

/-- C125: what makes `setpgid` fail, and how: a bad group id, no such process, a process that has
already called `execve`, a process of another session, a group of another session. -/
theorem setpgid_errors {w w' : World} {c p g o} (h : Reach Any w) (hs : step w c (.setpgid p g) = some (w', o)) :
    (g < 0 → o.ret = EINVAL) ∧
    (0 ≤ g → ¬ Exists w (target c p) → o.ret = ESRCH) ∧
    (0 ≤ g → HasExeced w p → o.ret = EACCES) ∧
    (0 ≤ g → ¬ HasExeced w p → (∃ s s', InSession w c s ∧ InSession w (target c p) s' ∧ s ≠ s') → o.ret = EPERM) ∧
    (0 < g → ¬ HasExeced w p → (∃ s q, InSession w c s ∧ InSession w (target c p) s ∧ InGroup w q g ∧
      ∀ q, ¬ Is w q g s) → o.ret = EPERM) := by
  have hw := wf_reach h
  obtain ⟨me, hp, hz⟩ := step_me hs
  obtain ⟨hm, hc, hk⟩ := proc_some hp
  rw [step_eq hp hz] at hs
  dsimp only at hs
  have h2 := congrArg (fun r => (Prod.snd r).ret) (Option.some.inj hs)
  dsimp only at h2
  rw [← h2]
  clear hs h2
  have me_of : ∀ s, InSession w c s → s = me.sid := by
    rintro s ⟨g, u, hu, _, e, _, hs⟩
    rw [← uniq hw hu hm (by omega)]; exact hs.symm
  have zero : ¬ HasExeced w 0 := by
    rintro ⟨u, hu, hku, e, _⟩
    have := ((hw.ok u hu).user hku).2.1
    omega
  refine ⟨?_, ?_, ?_, ?_, ?_⟩
  · intro hg
    unfold setpgid
    rw [if_pos hg]
  · intro hg hn
    have hp0 : p ≠ 0 := by
      rintro rfl
      exact hn ⟨me.pgid, me.sid, me, hm, hk, by simp [target, hc], rfl, rfl⟩
    unfold setpgid
    rw [if_neg (by omega), if_neg hp0]
    cases hq : w.proc p with
    | none => rfl
    | some t =>
      obtain ⟨ht, hte, htk⟩ := proc_some hq
      exact absurd ⟨t.pgid, t.sid, t, ht, htk, by simp [target, hp0, hte], rfl, rfl⟩ hn
  · rintro hg hx
    have hp0 : p ≠ 0 := by rintro rfl; exact zero hx
    obtain ⟨t, ht, htk, rfl, hxt⟩ := hx
    unfold setpgid
    rw [if_neg (by omega), if_neg hp0, proc_eq hw ht htk]
    dsimp only
    rw [if_pos hxt]
  · rintro hg hx ⟨s, s', h1, ⟨g2, t, ht, htk, hte, _, hts⟩, hne⟩
    have h1 := me_of s h1
    have hp0 : p ≠ 0 := by
      rintro rfl
      have : t = me := uniq hw ht hm (by rw [hte, hc]; simp [target])
      subst this
      omega
    have hte' : t.tid = p := by rw [hte]; simp [target, hp0]
    unfold setpgid
    rw [if_neg (by omega), if_neg hp0, ← hte', proc_eq hw ht htk]
    dsimp only
    rw [if_neg, if_pos (by omega)]
    intro hxt
    exact hx ⟨t, ht, htk, hte', hxt⟩
  · rintro hg hx ⟨s, q, h1, ⟨g2, t, ht, htk, hte, _, hts⟩, ⟨s3, a, ha, hak, hqa, hga, _⟩, hno⟩
    have h1 := me_of s h1
    have bad : (setpgidTo w t g).2.ret = EPERM := by
      unfold setpgidTo
      rw [if_pos (by omega), if_pos]
      rcases session_cases w g with ⟨b, hb, eg, es⟩ | ⟨hn, _⟩
      · have hbk := pgid_user hw hb hg eg
        have := ((hw.ok b hb).user hbk).2.2.2.2
        refine ⟨by omega, ?_⟩
        intro e
        exact hno b.tid ⟨b, hb, hbk, rfl, eg, by omega⟩
      · exact absurd hga (hn a ha)
    unfold setpgid
    rw [if_neg (by omega)]
    by_cases hp0 : p = 0
    · rw [if_pos hp0]
      have : t = me := uniq hw ht hm (by rw [hte, hc]; simp [target, hp0])
      rw [← this]
      exact bad
    · have hte' : t.tid = p := by rw [hte]; simp [target, hp0]
      rw [if_neg hp0, ← hte', proc_eq hw ht htk]
      dsimp only
      rw [if_neg, if_neg (by omega)]
      · exact bad
      · intro hxt
        exact hx ⟨t, ht, htk, hte', hxt⟩

/-- C125: every `setpgid` that POSIX allows succeeds (unless a process that has called `execve` names
itself by its own id, see `setpgid_own_id_violated`). -/
theorem setpgid_allowed_partial {w w' : World} {c p g o} (h : Reach Orderly w) (hs : step w c (.setpgid p g) = some (w', o))
    (ha : Allowed w c p g) (hx : p = c → ¬ HasExeced w c) : o.ret = 0 := by
  have hw := wf_reach h
  have hj := close_reach h
  obtain ⟨me, hp, hz⟩ := step_me hs
  obtain ⟨hm, hc, hk⟩ := proc_some hp
  rw [step_eq hp hz] at hs
  dsimp only at hs
  have h2 := congrArg (fun r => (Prod.snd r).ret) (Option.some.inj hs)
  dsimp only at h2
  rw [← h2]
  obtain ⟨s0, ⟨g1, u1, hu1, hk1, e1, _, hs1⟩, ⟨g2, u2, hu2, hk2, e2, _, hs2⟩⟩ := ha.session
  have : u1 = me := uniq hw hu1 hm (by omega)
  subst this
  have key : ∀ t ∈ w.tasks, t.kern = false → t.tid = target c p → (setpgidTo w t g).2.ret = 0 := by
    intro t ht hkt hte
    have : u2 = t := uniq hw hu2 ht (by omega)
    subst this
    have hut := (hw.ok u2 ht).user hkt
    rcases setpgidTo_cases (w := w) (g := g) hut.1 with ⟨_, h0, hge, hne⟩ | ⟨e, _⟩
    · exfalso
      have hgpos : 0 < g := by have := ha.nonneg; omega
      have hgr := ha.group
      rw [wanted, if_neg h0] at hgr
      rcases hgr with hgr | ⟨s, q, ⟨g3, u3, hu3, hk3, e3, _, hs3⟩, a, haa, hka, _, hga, hsa⟩
      · rcases session_cases w g with ⟨a, haa, eg, es⟩ | ⟨_, es⟩
        · have hka := pgid_user hw haa hgpos eg
          have := (hj a haa u2 ht hka hkt).2 (by omega)
          omega
        · rw [es] at hge; exact absurd hge (by decide)
      · have := session_of_member hw hj haa hka
        have h33 : u3 = u1 := uniq hw hu3 hm (by omega)
        subst h33
        rw [hga] at this
        omega
    · rw [e]
  unfold setpgid
  rw [if_neg (by have := ha.nonneg; omega)]
  split
  · rename_i hp0
    subst hp0
    exact key u1 hm hk (by simp [target, hc])
  · rename_i hp0
    have ht2 : target c p = p := by simp [target, hp0]
    rw [ht2] at e2
    rw [← e2, proc_eq hw hu2 hk2]
    dsimp only
    rw [if_neg, if_neg (by omega)]
    · exact key u2 hu2 hk2 (by omega)
    · intro hxx
      have hhx : HasExeced w (target c p) := ⟨u2, hu2, hk2, by omega, hxx⟩
      rcases ha.fresh with hf | hf
      · rw [hf] at hhx
        exact hx (by omega) hhx
      · exact hf hhx

/-! ### Signals to groups -/

/-- Can the caller's signal reach `t`, in the visit of `send_signal_to_group`? -/
def Hit (cpid g : Int) (t : Task) : Prop := t.pgid = g ∧ t.pid ≠ cpid ∧ t.pid ≠ 1

instance (cpid g : Int) (t : Task) : Decidable (Hit cpid g t) := by unfold Hit; exact inferInstance

theorem send_task {w : World} (hw : Wf w) {t : Task} (ht : t ∈ w.tasks) (hk : t.kern = false) (sig : Int) (b : Bool) :
    send w t.tid sig b = (0, if sig = 0 ∨ t.zombie then [] else [t.tid]) := by
  have hu := (hw.ok t ht).user hk
  unfold send
  rw [task_eq hw ht]
  dsimp only
  rw [if_neg (by rw [hk]; decide), if_neg (by intro h; exact h.2 hu.1), if_neg (by intro h; exact h hu.1)]
  by_cases h0 : sig = 0
  · rw [if_pos h0, if_pos (.inl h0)]
  · rw [if_neg h0]
    by_cases hz : t.zombie = true
    · rw [if_pos hz, if_pos (.inr hz)]
    · rw [if_neg hz, if_neg (by rintro (h | h); exact h0 h; exact hz h)]

theorem send_pid {w : World} (hw : Wf w) {t : Task} (ht : t ∈ w.tasks) (hk : t.kern = false) (sig : Int) (b : Bool) :
    send w t.pid sig b = (0, if sig = 0 ∨ t.zombie then [] else [t.tid]) := by
  rw [((hw.ok t ht).user hk).1]; exact send_task hw ht hk sig b

/-- The members that the visit signals at once. -/
def plain (cpid g : Int) (t : Task) : Bool := decide (Hit cpid g t ∧ t.pid ≠ g ∧ t.zombie = false)

theorem visit_fold {w : World} (hw : Wf w) {cpid g sig : Int} (hg : 0 < g) (hsig : sig ≠ 0) :
    ∀ (l : List Task) (v : Visit), (∀ t ∈ l, t ∈ w.tasks) →
    (l.foldl (visit w cpid g sig) v).posts = v.posts ++ (l.filter (plain cpid g)).map Task.tid ∧
    ((l.foldl (visit w cpid g sig) v).leader =
      if ∃ t ∈ l, Hit cpid g t ∧ t.pid = g then some g else v.leader) ∧
    ((l.foldl (visit w cpid g sig) v).count = 0 ↔ v.count = 0 ∧ ∀ t ∈ l, ¬ Hit cpid g t) := by
  intro l
  induction l with
  | nil =>
    intro v _
    refine ⟨by simp, ?_, by simp⟩
    rw [if_neg (by rintro ⟨t, ht, _⟩; cases ht)]
    rfl
  | cons x xs ih =>
    intro v hl
    have hx := hl x (List.mem_cons_self ..)
    have hrest := fun t ht => hl t (List.mem_cons_of_mem _ ht)
    rw [List.foldl_cons]
    have ih' := ih (visit w cpid g sig v x) hrest
    by_cases hh : Hit cpid g x
    · have hk := pgid_user hw hx hg hh.1
      by_cases hl' : x.pid = g
      · have e : visit w cpid g sig v x = { v with leader := some g, count := v.count + 1 } := by
          unfold visit
          rw [if_pos (show x.pgid = g ∧ x.pid ≠ cpid ∧ x.pid ≠ 1 from hh), if_neg (by intro h; exact h hl'), hl']
        rw [e] at ih' ⊢
        obtain ⟨i1, i2, i3⟩ := ih'
        refine ⟨?_, ?_, ?_⟩
        · rw [i1, List.filter_cons_of_neg]
          simp [plain, hl']
        · rw [i2, if_pos (show ∃ t ∈ x :: xs, Hit cpid g t ∧ t.pid = g from ⟨x, List.mem_cons_self .., hh, hl'⟩)]
          split <;> rfl
        · rw [i3]
          constructor
          · rintro ⟨h, _⟩; cases h
          · rintro ⟨_, h⟩; exact absurd hh (h x (List.mem_cons_self ..))
      · have e : visit w cpid g sig v x =
            { v with posts := v.posts ++ (if x.zombie then [] else [x.tid]), count := v.count + 1 } := by
          unfold visit
          rw [if_pos (show x.pgid = g ∧ x.pid ≠ cpid ∧ x.pid ≠ 1 from hh), if_pos hl', send_pid hw hx hk]
          by_cases hz : x.zombie = true
          · rw [if_pos (.inr hz), if_pos hz]
          · rw [if_neg (by rintro (h | h); exact hsig h; exact hz h), if_neg hz]
        rw [e] at ih' ⊢
        obtain ⟨i1, i2, i3⟩ := ih'
        refine ⟨?_, ?_, ?_⟩
        · rw [i1]
          by_cases hz : x.zombie = true
          · rw [if_pos hz, List.filter_cons_of_neg (by simp [plain, hz])]
            simp
          · rw [if_neg hz, List.filter_cons_of_pos]
            · simp
            · simp only [plain, decide_eq_true_eq]
              exact ⟨hh, hl', by simpa using hz⟩
        · rw [i2]
          have : (∃ t ∈ x :: xs, Hit cpid g t ∧ t.pid = g) ↔ ∃ t ∈ xs, Hit cpid g t ∧ t.pid = g := by
            constructor
            · rintro ⟨t, ht, h1, h2⟩
              rcases List.mem_cons.mp ht with rfl | ht
              · exact absurd h2 hl'
              · exact ⟨t, ht, h1, h2⟩
            · rintro ⟨t, ht, h⟩; exact ⟨t, List.mem_cons_of_mem _ ht, h⟩
          simp only [this]
        · rw [i3]
          constructor
          · rintro ⟨h, _⟩; cases h
          · rintro ⟨_, h⟩; exact absurd hh (h x (List.mem_cons_self ..))
    · have e : visit w cpid g sig v x = v := by
        unfold visit
        rw [if_neg (show ¬ (x.pgid = g ∧ x.pid ≠ cpid ∧ x.pid ≠ 1) from hh)]
      rw [e] at ih' ⊢
      obtain ⟨i1, i2, i3⟩ := ih'
      refine ⟨?_, ?_, ?_⟩
      · rw [i1, List.filter_cons_of_neg]
        simp only [plain, decide_eq_true_eq]
        exact fun h => hh h.1
      · rw [i2]
        have : (∃ t ∈ x :: xs, Hit cpid g t ∧ t.pid = g) ↔ ∃ t ∈ xs, Hit cpid g t ∧ t.pid = g := by
          constructor
          · rintro ⟨t, ht, h1, h2⟩
            rcases List.mem_cons.mp ht with rfl | ht
            · exact absurd h1 hh
            · exact ⟨t, ht, h1, h2⟩
          · rintro ⟨t, ht, h⟩; exact ⟨t, List.mem_cons_of_mem _ ht, h⟩
        simp only [this]
      · rw [i3]
        constructor
        · rintro ⟨h1, h2⟩
          refine ⟨h1, fun t ht => ?_⟩
          rcases List.mem_cons.mp ht with rfl | ht
          · exact hh
          · exact h2 t ht
        · rintro ⟨h1, h2⟩; exact ⟨h1, fun t ht => h2 t (List.mem_cons_of_mem _ ht)⟩

theorem nodup_tids {l : List Task} (h : l.Pairwise (fun a b => a.tid < b.tid)) : (l.map Task.tid).Nodup := by
  unfold List.Nodup
  rw [List.pairwise_map]
  exact List.Pairwise.imp (fun hab => by omega) h

/-- Who gets the signal, apart from the caller: the living members of the group, each once, the
process after which the group is named last. -/
theorem afterVisit_spec {w : World} (hw : Wf w) {cpid g sig : Int} (hg : 0 < g) (hsig : sig ≠ 0) :
    (afterVisit w sig (w.tasks.foldl (visit w cpid g sig) {})).Nodup ∧
    (∀ q, q ∈ afterVisit w sig (w.tasks.foldl (visit w cpid g sig) {}) ↔
      InGroup w q g ∧ Alive w q ∧ q ≠ cpid ∧ q ≠ 1) ∧
    (g ∈ afterVisit w sig (w.tasks.foldl (visit w cpid g sig) {}) →
      (afterVisit w sig (w.tasks.foldl (visit w cpid g sig) {})).getLast? = some g) := by
  obtain ⟨i1, i2, i3⟩ := visit_fold hw (cpid := cpid) hg hsig w.tasks {} (fun t h => h)
  have hmem : ∀ q, q ∈ (w.tasks.filter (plain cpid g)).map Task.tid ↔
      InGroup w q g ∧ Alive w q ∧ q ≠ cpid ∧ q ≠ 1 ∧ q ≠ g := by
    intro q
    rw [List.mem_map]
    constructor
    · rintro ⟨t, ht, rfl⟩
      obtain ⟨ht, hpl⟩ := List.mem_filter.mp ht
      simp only [plain, decide_eq_true_eq] at hpl
      obtain ⟨⟨h1, h2, h3⟩, h4, h5⟩ := hpl
      have hk := pgid_user hw ht hg h1
      have hu := (hw.ok t ht).user hk
      rw [hu.1] at h2 h3 h4
      exact ⟨⟨t.sid, t, ht, hk, rfl, h1, rfl⟩, ⟨t, ht, hk, rfl, h5⟩, h2, h3, h4⟩
    · rintro ⟨⟨s, t, ht, hk, rfl, h1, _⟩, ⟨u, hu, _, e, hz⟩, h2, h3, h4⟩
      have : u = t := uniq hw hu ht e
      subst this
      have hu := (hw.ok u ht).user hk
      refine ⟨u, List.mem_filter.mpr ⟨ht, ?_⟩, rfl⟩
      simp only [plain, decide_eq_true_eq]
      rw [← hu.1] at h2 h3 h4
      exact ⟨⟨h1, h2, h3⟩, h4, hz⟩
  have hnd : ((w.tasks.filter (plain cpid g)).map Task.tid).Nodup := nodup_tids (List.Pairwise.filter _ hw.sorted)
  unfold afterVisit
  rw [i1, i2]
  rw [show ({} : Visit).posts = [] from rfl, List.nil_append]
  by_cases hex : ∃ t ∈ w.tasks, Hit cpid g t ∧ t.pid = g
  · rw [if_pos hex]
    dsimp only
    obtain ⟨t, ht, hh, hp⟩ := hex
    have hk := pgid_user hw ht hg hh.1
    have hu := (hw.ok t ht).user hk
    have hsend : send w g sig true = (0, if sig = 0 ∨ t.zombie then [] else [t.tid]) := by
      rw [← hp]; exact send_pid hw ht hk sig true
    rw [hsend]
    dsimp only
    have htg : t.tid = g := by rw [← hu.1]; exact hp
    by_cases hz : t.zombie = true
    · rw [if_pos (.inr hz), List.append_nil]
      refine ⟨hnd, ?_, ?_⟩
      · intro q
        rw [hmem]
        constructor
        · rintro ⟨a, b, c, d, _⟩; exact ⟨a, b, c, d⟩
        · rintro ⟨a, b, c, d⟩
          refine ⟨a, b, c, d, ?_⟩
          rintro rfl
          obtain ⟨u, hu', _, e, hz'⟩ := b
          have : u = t := uniq hw hu' ht (by omega)
          subst this
          rw [hz] at hz'; cases hz'
      · intro h
        exact absurd rfl ((hmem g).mp h).2.2.2.2
    · rw [if_neg (by rintro (h | h); exact hsig h; exact hz h), htg]
      refine ⟨?_, ?_, ?_⟩
      · rw [List.nodup_append]
        refine ⟨hnd, by simp, ?_⟩
        intro a ha b hb
        rw [List.mem_singleton] at hb
        subst hb
        exact ((hmem a).mp ha).2.2.2.2
      · intro q
        rw [List.mem_append, hmem, List.mem_singleton]
        constructor
        · rintro (⟨a, b, c, d, _⟩ | rfl)
          · exact ⟨a, b, c, d⟩
          · refine ⟨⟨t.sid, t, ht, hk, htg, hh.1, rfl⟩, ⟨t, ht, hk, htg, by simpa using hz⟩, ?_, ?_⟩
            · have := hh.2.1; omega
            · have := hh.2.2; omega
        · rintro ⟨a, b, c, d⟩
          by_cases e : q = g
          · exact .inr e
          · exact .inl ⟨a, b, c, d, e⟩
      · intro _
        simp
  · rw [if_neg hex]
    dsimp only
    have hng : ∀ q, InGroup w q g → q ≠ cpid → q ≠ 1 → q ≠ g := by
      rintro q ⟨s, t, ht, hk, rfl, h1, _⟩ h2 h3 h4
      have hu := (hw.ok t ht).user hk
      exact hex ⟨t, ht, ⟨h1, by omega, by omega⟩, by omega⟩
    refine ⟨hnd, ?_, ?_⟩
    · intro q
      rw [hmem]
      constructor
      · rintro ⟨a, b, c, d, _⟩; exact ⟨a, b, c, d⟩
      · rintro ⟨a, b, c, d⟩; exact ⟨a, b, c, d, hng q a c d⟩
    · intro h
      exact absurd rfl ((hmem g).mp h).2.2.2.2

/-- The processes that a signal to the group `g` must reach: the living members, except init (unless
init itself sends the signal). -/
def Receives (w : World) (c g q : Int) : Prop := InGroup w q g ∧ Alive w q ∧ (q = c ∨ q ≠ 1)

theorem sendGroup_spec {w : World} (hw : Wf w) {me : Task} (hm : me ∈ w.tasks) (hk : me.kern = false) (hz : me.zombie = false)
    {g sig : Int} (hg : 0 < g) (hsig : sig ≠ 0) :
    (sendGroup w me.pid me.pgid g sig).posts.Nodup ∧
    (∀ q, q ∈ (sendGroup w me.pid me.pgid g sig).posts ↔ Receives w me.tid g q) ∧
    (((sendGroup w me.pid me.pgid g sig).ret = 0 ∧ ∃ q, InGroup w q g ∧ (q = me.tid ∨ q ≠ 1)) ∨
      ((sendGroup w me.pid me.pgid g sig).ret = ESRCH ∧ ¬ ∃ q, InGroup w q g ∧ (q = me.tid ∨ q ≠ 1))) ∧
    (me.tid ∈ (sendGroup w me.pid me.pgid g sig).posts → (sendGroup w me.pid me.pgid g sig).posts.getLast? = some me.tid) := by
  have hu := (hw.ok me hm).user hk
  obtain ⟨a1, a2, _⟩ := afterVisit_spec hw (cpid := me.pid) hg hsig
  obtain ⟨_, _, i3⟩ := visit_fold hw (cpid := me.pid) hg hsig w.tasks {} (fun t h => h)
  rw [hu.1] at a1 a2 i3 ⊢
  unfold sendGroup
  dsimp only
  by_cases hin : me.pgid = g
  · rw [if_pos hin]
    dsimp only
    have hsend := send_task hw hm hk sig true
    rw [if_neg (by rintro (h | h); exact hsig h; rw [hz] at h; cases h)] at hsend
    rw [hsend]
    dsimp only
    have hself : InGroup w me.tid g := ⟨me.sid, me, hm, hk, rfl, hin, rfl⟩
    refine ⟨?_, ?_, ?_, ?_⟩
    · rw [List.nodup_append]
      refine ⟨a1, by simp, ?_⟩
      intro a ha b hb
      rw [List.mem_singleton] at hb
      subst hb
      exact ((a2 a).mp ha).2.2.1
    · intro q
      rw [List.mem_append, a2, List.mem_singleton]
      constructor
      · rintro (⟨x, y, z, t⟩ | rfl)
        · exact ⟨x, y, .inr t⟩
        · exact ⟨hself, ⟨me, hm, hk, rfl, hz⟩, .inl rfl⟩
      · rintro ⟨x, y, z⟩
        by_cases e : q = me.tid
        · exact .inr e
        · exact .inl ⟨x, y, e, z.resolve_left e⟩
    · exact .inl ⟨rfl, me.tid, hself, .inl rfl⟩
    · intro _
      simp
  · rw [if_neg hin]
    dsimp only
    have hself : ¬ InGroup w me.tid g := by
      rintro ⟨s, t, ht, _, e, h1, _⟩
      have : t = me := uniq hw ht hm e
      subst this
      exact hin h1
    refine ⟨a1, ?_, ?_, ?_⟩
    · intro q
      rw [a2]
      constructor
      · rintro ⟨x, y, z, t⟩; exact ⟨x, y, .inr t⟩
      · rintro ⟨x, y, z⟩
        have e : q ≠ me.tid := by rintro rfl; exact hself x
        exact ⟨x, y, e, z.resolve_left e⟩
    · by_cases hc : (w.tasks.foldl (visit w me.tid g sig) {}).count = 0
      · rw [if_neg (by omega)]
        refine .inr ⟨rfl, ?_⟩
        have := (i3.mp hc).2
        rintro ⟨q, ⟨s, t, ht, hkt, rfl, h1, _⟩, h2⟩
        have hut := (hw.ok t ht).user hkt
        have e : t.tid ≠ me.tid := by
          intro e
          have : t = me := uniq hw ht hm e
          subst this
          exact hin h1
        exact this t ht ⟨h1, by omega, by have := h2.resolve_left e; omega⟩
      · rw [if_pos (by omega)]
        refine .inl ⟨rfl, ?_⟩
        by_cases hall : ∀ t ∈ w.tasks, ¬ Hit me.tid g t
        · exact absurd (i3.mpr ⟨rfl, hall⟩) hc
        · obtain ⟨t, h⟩ := Classical.not_forall.mp hall
          obtain ⟨ht, hh⟩ := Classical.not_imp.mp h
          have hh := Classical.not_not.mp hh
          have hkt := pgid_user hw ht hg hh.1
          have hut := (hw.ok t ht).user hkt
          exact ⟨t.tid, ⟨t.sid, t, ht, hkt, rfl, hh.1, rfl⟩, .inr (by have := hh.2.2; omega)⟩
    · intro h
      exact absurd rfl ((a2 me.tid).mp h).2.2.1

/-- C126: a signal sent to a group (`kill` with 0, or with minus the group) is posted to each of its
living members exactly once and to nobody else, to the caller last; the call fails, with ESRCH, exactly
if there is nobody in the group to signal. -/
theorem kill_group_exact {w w' : World} {c p sig o} (h : Reach Any w) (hs : step w c (.kill p sig) = some (w', o))
    (hp : p = 0 ∨ (-2147483648 < p ∧ p < -1)) (hsig : 0 < sig ∧ sig < 64) {g : Int}
    (hgr : (p = 0 ∧ InGroup w c g) ∨ (p ≠ 0 ∧ g = -p)) :
    w' = w ∧ o.posts.Nodup ∧ (∀ q, q ∈ o.posts ↔ Receives w c g q) ∧
    ((o.ret = 0 ∧ ∃ q, InGroup w q g ∧ (q = c ∨ q ≠ 1)) ∨ (o.ret = ESRCH ∧ ¬ ∃ q, InGroup w q g ∧ (q = c ∨ q ≠ 1))) ∧
    (c ∈ o.posts → o.posts.getLast? = some c) := by
  have hw := wf_reach h
  obtain ⟨me, hpr, hz⟩ := step_me hs
  obtain ⟨hm, hc, hk⟩ := proc_some hpr
  have hu := (hw.ok me hm).user hk
  rw [step_eq hpr hz] at hs
  cases hs
  refine ⟨rfl, ?_⟩
  have hg : 0 < g := by
    rcases hgr with ⟨_, s, t, ht, hkt, e, rfl, _⟩ | ⟨_, rfl⟩
    · exact ((hw.ok t ht).user hkt).2.2.2.1
    · omega
  have e : kill w me p sig = sendGroup w me.pid me.pgid g sig := by
    unfold kill
    rw [if_neg (by omega)]
    rcases hgr with ⟨rfl, s, t, ht, hkt, e, hg', _⟩ | ⟨h0, rfl⟩
    · have : t = me := uniq hw ht hm (by omega)
      subst this
      rw [if_pos rfl, hg']
    · rw [if_neg h0, if_neg (by omega), if_pos (by omega), if_neg (by omega)]
  subst hc
  rw [e]
  obtain ⟨h1, h2, h3, h4⟩ := sendGroup_spec hw hm hk hz hg (show sig ≠ 0 by omega)
  exact ⟨h1, h2, h3, h4⟩

/-- C126: ^C (or ^\) typed on a terminal goes to the living members of its foreground group, to each
once, and to nobody else (init is spared). -/
theorem typed_exact {w : World} (h : Reach Any w) {t : Nat} {sig : Int} (hsig : 0 < sig) (hf : 0 < w.fg t) :
    (typed w t sig).posts.Nodup ∧
    (∀ q, q ∈ (typed w t sig).posts ↔ InGroup w q (w.fg t) ∧ Alive w q ∧ q ≠ 1) := by
  have hw := wf_reach h
  obtain ⟨a1, a2, _⟩ := afterVisit_spec hw (cpid := 0) hf (show sig ≠ 0 by omega)
  unfold typed sendGroup
  dsimp only
  rw [if_neg (by omega)]
  refine ⟨a1, ?_⟩
  intro q
  rw [a2]
  constructor
  · rintro ⟨x, y, z, t⟩; exact ⟨x, y, t⟩
  · rintro ⟨x, y, z⟩
    refine ⟨x, y, ?_, z⟩
    obtain ⟨s, t, ht, hk, rfl, _⟩ := x
    have := ((hw.ok t ht).user hk).2.1
    omega

/-- C126: `kill` with a positive id: the signal goes to that process, if it exists and is alive. -/
theorem kill_one_exact {w w' : World} {c p sig o} (h : Reach Any w) (hs : step w c (.kill p sig) = some (w', o))
    (hp : 0 < p) (hsig : 0 ≤ sig ∧ sig < 64) :
    w' = w ∧ ((Exists w p ∧ o.ret = 0) ∨ (¬ Exists w p ∧ o.ret = ESRCH)) ∧
    ((sig ≠ 0 ∧ Alive w p ∧ o.posts = [p]) ∨ (¬ (sig ≠ 0 ∧ Alive w p) ∧ o.posts = [])) := by
  have hw := wf_reach h
  obtain ⟨me, hpr, hz⟩ := step_me hs
  rw [step_eq hpr hz] at hs
  cases hs
  refine ⟨rfl, ?_⟩
  have e : kill w me p sig = { ret := (send w p sig true).1, posts := (send w p sig true).2 } := by
    unfold kill
    rw [if_neg (by omega), if_neg (by omega), if_neg (by omega), if_neg (by omega)]
  rw [e]
  dsimp only
  by_cases hex : ∃ t ∈ w.tasks, t.kern = false ∧ t.tid = p
  · obtain ⟨t, ht, hk, rfl⟩ := hex
    rw [send_task hw ht hk]
    dsimp only
    refine ⟨.inl ⟨⟨t.pgid, t.sid, is_of ht hk⟩, rfl⟩, ?_⟩
    by_cases hc : sig = 0 ∨ t.zombie = true
    · rw [if_pos hc]
      refine .inr ⟨?_, rfl⟩
      rintro ⟨h1, u, hu, _, e, hzu⟩
      have : u = t := uniq hw hu ht e
      subst this
      rcases hc with hc | hc
      · exact h1 hc
      · rw [hc] at hzu; cases hzu
    · rw [if_neg hc]
      exact .inl ⟨fun h => hc (.inl h), ⟨t, ht, hk, rfl, by simpa using fun h => hc (.inr h)⟩, rfl⟩
  · have hne : ¬ Exists w p := by
      rintro ⟨g, s, t, ht, hk, e, _⟩
      exact hex ⟨t, ht, hk, e⟩
    have hna : ¬ Alive w p := by
      rintro ⟨t, ht, hk, e, _⟩
      exact hex ⟨t, ht, hk, e⟩
    have hsn : send w p sig true = (ESRCH, []) := by
      unfold send
      cases ht : w.task p with
      | none => rfl
      | some t =>
        obtain ⟨hm, e⟩ := task_some ht
        dsimp only
        rw [if_pos]
        cases hk : t.kern with
        | true => rfl
        | false => exact absurd ⟨t, hm, hk, e⟩ hex
    rw [hsn]
    exact ⟨.inr ⟨hne, rfl⟩, .inr ⟨fun h => hna h.2, rfl⟩⟩

theorem killEach_fold {w : World} (hw : Wf w) {c sig : Int} (hsig : sig ≠ 0) : ∀ (l : List Task) (acc : List Int), (∀ t ∈ l, t ∈ w.tasks) →
    l.foldl (killEach w c sig) acc =
      acc ++ (l.filter (fun t => decide (t.tid ≠ c ∧ t.kern = false ∧ t.zombie = false))).map Task.tid := by
  intro l
  induction l with
  | nil => intro acc _; simp
  | cons x xs ih =>
    intro acc hl
    rw [List.foldl_cons, ih _ (fun t ht => hl t (List.mem_cons_of_mem _ ht))]
    have hx := hl x (List.mem_cons_self ..)
    unfold killEach
    by_cases h1 : x.tid ≠ c ∧ x.kern = false
    · rw [if_pos h1, send_task hw hx h1.2]
      dsimp only
      by_cases hz : x.zombie = true
      · rw [if_pos (.inr hz), List.filter_cons_of_neg (by simp [hz])]
        simp
      · rw [if_neg (by rintro (h | h); exact hsig h; exact hz h), List.filter_cons_of_pos]
        · simp
        · simp only [decide_eq_true_eq]
          exact ⟨h1.1, h1.2, by simpa using hz⟩
    · rw [if_neg h1, List.filter_cons_of_neg]
      simp only [decide_eq_true_eq]
      exact fun h => h1 ⟨h.1, h.2.1⟩

/-- C126: `kill` with -1 reaches each living process but the caller once (and init too, which it should
not: `broadcast_init_violated`). -/
theorem broadcast_partial {w w' : World} {c sig o} (h : Reach Any w) (hs : step w c (.kill (-1) sig) = some (w', o))
    (hsig : 0 < sig ∧ sig < 64) :
    w' = w ∧ o.ret = 0 ∧ o.posts.Nodup ∧ ∀ q, q ≠ 1 → (q ∈ o.posts ↔ Alive w q ∧ q ≠ c) := by
  have hw := wf_reach h
  obtain ⟨me, hpr, hz⟩ := step_me hs
  obtain ⟨hm, hc, hk⟩ := proc_some hpr
  rw [step_eq hpr hz] at hs
  cases hs
  have e : kill w me (-1) sig = { ret := 0, posts := w.tasks.foldl (killEach w me.tid sig) [] } := by
    unfold kill
    rw [if_neg (by omega), if_neg (by omega), if_pos rfl]
  rw [e]
  dsimp only
  rw [killEach_fold hw (by omega) _ _ (fun t h => h), List.nil_append]
  refine ⟨rfl, rfl, nodup_tids (List.Pairwise.filter _ hw.sorted), ?_⟩
  intro q _
  rw [List.mem_map]
  constructor
  · rintro ⟨t, ht, rfl⟩
    obtain ⟨ht, hp⟩ := List.mem_filter.mp ht
    simp only [decide_eq_true_eq] at hp
    exact ⟨⟨t, ht, hp.2.1, rfl, hp.2.2⟩, by rw [← hc]; exact hp.1⟩
  · rintro ⟨⟨t, ht, hk, rfl, hz⟩, hne⟩
    refine ⟨t, List.mem_filter.mpr ⟨ht, ?_⟩, rfl⟩
    simp only [decide_eq_true_eq]
    exact ⟨by rw [hc]; exact hne, hk, hz⟩

theorem send_probe (w : World) (p : Int) (b : Bool) : (send w p 0 b).2 = [] := by
  unfold send
  split
  · rfl
  · split
    · rfl
    · split
      · rfl
      · split
        · rfl
        · rfl

theorem visit_probe (w : World) (cpid g : Int) : ∀ (l : List Task) (v : Visit), v.posts = [] →
    (l.foldl (visit w cpid g 0) v).posts = [] := by
  intro l
  induction l with
  | nil => intro v h; exact h
  | cons x xs ih =>
    intro v h
    rw [List.foldl_cons]
    refine ih _ ?_
    unfold visit
    split
    · split
      · show v.posts ++ (send w x.pid 0 true).2 = []
        rw [h, send_probe]; rfl
      · exact h
    · exact h

theorem group_probe (w : World) (cpid cpgid g : Int) : (sendGroup w cpid cpgid g 0).posts = [] := by
  have h := visit_probe w cpid g w.tasks {} rfl
  have h2 : afterVisit w 0 (w.tasks.foldl (visit w cpid g 0) {}) = [] := by
    unfold afterVisit
    split
    · rw [h, send_probe]; rfl
    · exact h
  unfold sendGroup
  dsimp only
  split
  · rw [h2, send_probe]; rfl
  · exact h2

/-- C126: signal 0 is never posted, and no signal with a number out of range. -/
theorem probe_posts_nothing {w w' : World} {c p sig o} (hs : step w c (.kill p sig) = some (w', o))
    (hsig : sig ≤ 0 ∨ 64 ≤ sig) : w' = w ∧ o.posts = [] ∧ (sig ≠ 0 → o.ret = EINVAL) := by
  obtain ⟨me, hpr, hz⟩ := step_me hs
  rw [step_eq hpr hz] at hs
  cases hs
  refine ⟨rfl, ?_⟩
  unfold kill
  by_cases h0 : sig = 0
  · subst h0
    rw [if_neg (by omega)]
    refine ⟨?_, fun h => absurd rfl h⟩
    split
    · exact group_probe ..
    · split
      · have : ∀ (l : List Task) acc, acc = [] → l.foldl (killEach w me.tid 0) acc = [] := by
          intro l
          induction l with
          | nil => intro acc h; exact h
          | cons x xs ih =>
            intro acc h
            rw [List.foldl_cons]
            refine ih _ ?_
            unfold killEach
            split
            · rw [h, send_probe]; rfl
            · exact h
        exact this _ _ rfl
      · split
        · exact group_probe ..
        · exact send_probe ..
  · rw [if_pos (by omega)]
    exact ⟨rfl, fun _ => rfl⟩

/-! ### Terminals -/

theorem controls_me {w : World} (hw : Wf w) {me : Task} (hm : me ∈ w.tasks) (hk : me.kern = false) {t : Nat} :
    Controls w t me.tid ↔ me.tty = some t := by
  constructor
  · rintro ⟨x, hx, _, e, h⟩
    rw [← uniq hw hx hm e]; exact h
  · intro h
    exact ⟨me, hm, hk, rfl, h⟩

/-- C127: the foreground group of a terminal is changed exactly by a process that has the terminal as its
controlling terminal, to a group with a member in its own session. -/
theorem tcsetpgrp_exact {w w' : World} {c t arg o} (h : Reach Orderly w) (hs : step w c (.spgrp t arg) = some (w', o)) :
    (∃ g, arg = some g ∧ Controls w t c ∧ (∃ q s, InSession w c s ∧ Is w q g s) ∧ o.ret = 0 ∧
      w'.tasks = w.tasks ∧ w'.fg t = g ∧ ∀ u, u ≠ t → w'.fg u = w.fg u) ∨
    ((¬ ∃ g, arg = some g ∧ Controls w t c ∧ ∃ q s, InSession w c s ∧ Is w q g s) ∧ o.ret < 0 ∧ w' = w) := by
  have hw := wf_reach h
  have hj := close_reach h
  obtain ⟨me, hp, hz⟩ := step_me hs
  obtain ⟨hm, hc, hk⟩ := proc_some hp
  have hu := (hw.ok me hm).user hk
  rw [step_eq hp hz] at hs
  subst hc
  have me_of : ∀ s, InSession w me.tid s → s = me.sid := by
    rintro s ⟨g, u, hu, _, e, _, hs⟩
    rw [← uniq hw hu hm e]; exact hs.symm
  dsimp only at hs
  unfold spgrp at hs
  split at hs
  · rename_i h1
    cases hs
    refine .inr ⟨?_, by decide, rfl⟩
    rintro ⟨g, _, hc, _⟩
    exact h1 ((controls_me hw hm hk).mp hc)
  · rename_i h1
    have h1 : me.tty = some t := by simpa using h1
    split at hs
    · cases hs
      refine .inr ⟨?_, by decide, rfl⟩
      rintro ⟨g, e, _⟩; cases e
    · rename_i g
      have none_of : (∀ a ∈ w.tasks, a.kern = false → a.pgid = g → a.sid ≠ me.sid) →
          ¬ ∃ g', some g = some g' ∧ Controls w t me.tid ∧ ∃ q s, InSession w me.tid s ∧ Is w q g' s := by
        rintro hno ⟨g', e, _, q, s, h3, a, ha, hka, _, hga, hsa⟩
        cases e
        exact hno a ha hka hga (by rw [hsa]; exact me_of s h3)
      split at hs
      · rename_i hneg
        cases hs
        refine .inr ⟨none_of ?_, by decide, rfl⟩
        intro a ha hka e
        have := ((hw.ok a ha).user hka).2.2.2.1
        omega
      · split at hs
        · rename_i h2
          cases hs
          refine .inr ⟨none_of ?_, by decide, rfl⟩
          intro a ha hka e
          have := session_of_member hw hj ha hka
          have := ((hw.ok a ha).user hka).2.2.2.2
          rw [e] at *
          omega
        · split at hs
          · rename_i h2
            cases hs
            refine .inr ⟨none_of ?_, by decide, rfl⟩
            intro a ha hka e
            have := session_of_member hw hj ha hka
            rw [e] at this
            rw [← this]; exact h2
          · rename_i h2 h3
            cases hs
            refine .inl ⟨g, rfl, (controls_me hw hm hk).mpr h1, ?_, rfl, rfl, if_pos rfl, fun u hu => if_neg hu⟩
            rcases session_cases w g with ⟨a, ha, ea, es⟩ | ⟨_, es⟩
            · have hsa : a.sid = me.sid := by rw [← es]; simpa using h3
              have hka : a.kern = false := by
                cases hka : a.kern with
                | false => rfl
                | true => have := ((hw.ok a ha).kernel hka).2.2.1; omega
              exact ⟨a.tid, me.sid, ⟨me.pgid, me, hm, hk, rfl, rfl, rfl⟩, a, ha, hka, rfl, ea, hsa⟩
            · rw [es] at h2; exact absurd (by decide : ESRCH < 0) h2

/-- The controlling terminals after those of process `c` became `o`. -/
theorem upd_tty {w : World} (hw : Wf w) {me : Task} (hm : me ∈ w.tasks) (hk : me.kern = false) (o : Option Nat) :
    (∀ u q, Controls (w.upd me.tid (fun u => { u with tty := o })) u q ↔ if q = me.tid then o = some u else Controls w u q) ∧
    (∀ p g s, Is (w.upd me.tid (fun u => { u with tty := o })) p g s ↔ Is w p g s) := by
  refine ⟨fun u q => ?_, fun p g s => ?_⟩
  · constructor
    · rintro ⟨x, hx, k, e, ht⟩
      split
      · rename_i hq
        have := mem_upd_only (f := fun u => { u with tty := o }) hw hm (fun _ => rfl) hx (e.trans hq)
        rw [this] at ht
        exact ht
      · rename_i hq
        obtain ⟨y, hy, ey⟩ := mem_upd.mp hx
        split at ey
        · subst ey; exact absurd (e.symm.trans ‹_›) hq
        · subst ey; exact ⟨y, hy, k, e, ht⟩
    · intro h
      split at h
      · rename_i hq
        exact ⟨_, mem_upd_self hm _, hk, hq.symm, h⟩
      · rename_i hq
        obtain ⟨x, hx, k, e, ht⟩ := h
        exact ⟨x, mem_upd.mpr ⟨x, hx, if_neg (fun e' => hq (e.symm.trans e'))⟩, k, e, ht⟩
  · constructor
    · rintro ⟨x, hx, k, e, h1, h2⟩
      obtain ⟨y, hy, ey⟩ := mem_upd.mp hx
      split at ey <;> subst ey <;> exact ⟨y, hy, k, e, h1, h2⟩
    · rintro ⟨x, hx, k, e, h1, h2⟩
      refine ⟨_, mem_upd.mpr ⟨x, hx, rfl⟩, ?_⟩
      split <;> exact ⟨k, e, h1, h2⟩

/-- C127: a process takes a terminal as its controlling terminal exactly if it leads its session and has none; only its own
controlling terminal changes. -/
theorem sctty_exact {w w' : World} {c t o} (h : Reach Any w) (hs : step w c (.sctty t) = some (w', o)) :
    (InSession w c c ∧ (¬ ∃ u, Controls w u c) ∧ o.ret = 0 ∧ w'.fg = w.fg ∧
      (∀ u q, Controls w' u q ↔ if q = c then u = t else Controls w u q) ∧ ∀ p g s, Is w' p g s ↔ Is w p g s) ∨
    (¬ (InSession w c c ∧ ¬ ∃ u, Controls w u c) ∧ o.ret = EPERM ∧ w' = w) := by
  have hw := wf_reach h
  obtain ⟨me, hp, hz⟩ := step_me hs
  obtain ⟨hm, hc, hk⟩ := proc_some hp
  have hu := (hw.ok me hm).user hk
  rw [step_eq hp hz] at hs
  subst hc
  have hin : InSession w me.tid me.tid ↔ me.sid = me.tid := by
    constructor
    · rintro ⟨g, u, hu, _, e, _, hs⟩
      have := uniq hw hu hm e
      subst this; exact hs
    · intro e; exact ⟨me.pgid, me, hm, hk, rfl, rfl, e⟩
  dsimp only at hs
  unfold sctty at hs
  split at hs
  · rename_i h1
    cases hs
    refine .inr ⟨?_, rfl, rfl⟩
    rintro ⟨_, hn⟩
    cases ht : me.tty with
    | none => exact h1 ht
    | some u => exact hn ⟨u, (controls_me hw hm hk).mpr ht⟩
  · rename_i h1
    have h1 : me.tty = none := by simpa using h1
    split at hs
    · rename_i h2
      cases hs
      refine .inr ⟨?_, rfl, rfl⟩
      rintro ⟨hi, _⟩
      exact h2 ((hin.mp hi).trans hu.1.symm)
    · rename_i h2
      have h2 : me.sid = me.pid := by simpa using h2
      cases hs
      obtain ⟨a, b⟩ := upd_tty hw hm hk (some t)
      refine .inl ⟨hin.mpr (h2.trans hu.1), ?_, rfl, rfl, fun u q => ?_, b⟩
      · rintro ⟨u, hc⟩
        rw [controls_me hw hm hk, h1] at hc
        cases hc
      · rw [a]
        split
        · exact ⟨fun e => by injection e with e; exact e.symm, fun e => by rw [e]⟩
        · exact Iff.rfl

/-- C127: a process gives up a terminal exactly if it is its controlling terminal; only this changes. -/
theorem notty_exact {w w' : World} {c t o} (h : Reach Any w) (hs : step w c (.notty t) = some (w', o)) :
    (Controls w t c ∧ o.ret = 0 ∧ w'.fg = w.fg ∧
      (∀ u q, Controls w' u q ↔ q ≠ c ∧ Controls w u q) ∧ ∀ p g s, Is w' p g s ↔ Is w p g s) ∨
    (¬ Controls w t c ∧ o.ret = EPERM ∧ w' = w) := by
  have hw := wf_reach h
  obtain ⟨me, hp, hz⟩ := step_me hs
  obtain ⟨hm, hc, hk⟩ := proc_some hp
  rw [step_eq hp hz] at hs
  subst hc
  dsimp only at hs
  unfold notty at hs
  rw [controls_me hw hm hk]
  split at hs
  · rename_i h1
    cases hs
    exact .inr ⟨h1, rfl, rfl⟩
  · rename_i h1
    cases hs
    obtain ⟨a, b⟩ := upd_tty hw hm hk none
    refine .inl ⟨by simpa using h1, rfl, rfl, fun u q => ?_, b⟩
    rw [a]
    split
    · rename_i hq
      exact ⟨fun e => (by cases e), fun e => absurd hq e.1⟩
    · rename_i hq
      exact ⟨fun e => ⟨hq, e⟩, fun e => e.2⟩

/-- C127: only a process whose controlling terminal it is, of the foreground group, reads from a terminal. -/
theorem read_foreground {w w' : World} {c t o} (h : Reach Any w) (hs : step w c (.read t) = some (w', o)) :
    w' = w ∧ (o.ret = 0 ↔ Controls w t c ∧ InGroup w c (w.fg t)) := by
  have hw := wf_reach h
  obtain ⟨me, hp, hz⟩ := step_me hs
  obtain ⟨hm, hc, hk⟩ := proc_some hp
  rw [step_eq hp hz] at hs
  subst hc
  cases hs
  refine ⟨rfl, ?_⟩
  rw [controls_me hw hm hk]
  have hg : InGroup w me.tid (w.fg t) ↔ me.pgid = w.fg t := by
    constructor
    · rintro ⟨s, u, hu, _, e, h, _⟩
      rw [← uniq hw hu hm e]; exact h
    · intro e
      exact ⟨me.sid, me, hm, hk, rfl, e, rfl⟩
  rw [hg]
  unfold readCheck
  split
  · rename_i h1
    exact ⟨fun h => absurd h (by decide : EIO ≠ 0), fun h => absurd h.1 h1⟩
  · rename_i h1
    split
    · rename_i h2
      exact ⟨fun h => absurd h (by decide : EIO ≠ 0), fun h => absurd h.2 h2⟩
    · rename_i h2
      exact ⟨fun _ => ⟨by simpa using h1, by simpa using h2⟩, fun _ => rfl⟩

/-- Nobody takes a terminal that another process has. -/
def NoTheft (w : World) (_ : Int) : Call → Prop
  | .sctty t => ∀ p, ¬ Controls w t p
  | _ => True

/-- A terminal is the controlling terminal of one session. -/
def OneOwner (w : World) : Prop := ∀ t p p' s s', Controls w t p → Controls w t p' → InSession w p s →
  InSession w p' s' → s = s'

def Owned (w : World) : Prop := ∀ a ∈ w.tasks, ∀ b ∈ w.tasks, a.kern = false → b.kern = false →
  a.tty ≠ none → a.tty = b.tty → a.sid = b.sid

theorem owned_map {w w' : World} (h : Owned w) (f : Task → Task) (e : w'.tasks = w.tasks.map f)
    (hf : ∀ t, ((f t).tty = t.tty ∧ (f t).sid = t.sid ∨ (f t).tty = none) ∧ (f t).kern = t.kern) : Owned w' := by
  intro t ht u hu hk hk' hn he
  rw [e] at ht hu
  obtain ⟨a, ha, rfl⟩ := List.mem_map.mp ht
  obtain ⟨b, hb, rfl⟩ := List.mem_map.mp hu
  have hfa := hf a
  have hfb := hf b
  rcases hfa.1 with ⟨a1, a2⟩ | a1
  · rcases hfb.1 with ⟨b1, b2⟩ | b1
    · rw [a2, b2]
      refine h a ha b hb (by rw [← hfa.2]; exact hk) (by rw [← hfb.2]; exact hk') ?_ ?_
      · rw [← a1]; exact hn
      · rw [← a1, ← b1]; exact he
    · rw [he, b1] at hn; exact absurd rfl hn
  · exact absurd a1 hn

theorem owned_change {w w' : World} (hw : Wf w) (hj : Owned w) {c k me} (hp : w.proc c = some me)
    (ho : NoTheft w c k) (h : Change w c me k w') : Owned w' := by
  obtain ⟨hm, hc, hk⟩ := proc_some hp
  have upd : ∀ x (f : Task → Task), (∀ t, ((f t).tty = t.tty ∧ (f t).sid = t.sid ∨ (f t).tty = none) ∧ (f t).kern = t.kern) →
      Owned (w.upd x f) := by
    intro x f hf
    refine owned_map hj (fun t => if t.tid = x then f t else t) rfl ?_
    intro t
    split
    · exact hf t
    · exact ⟨.inl ⟨rfl, rfl⟩, rfl⟩
  cases h with
  | same e => intro t ht u hu; rw [e] at ht hu; exact hj t ht u hu
  | fork h0 h1 hn =>
    intro t ht u hu hkt hku
    rcases (mem_ins _).mp ht with rfl | ht
    · rcases (mem_ins _).mp hu with rfl | hu
      · exact fun _ _ => rfl
      · exact hj me hm u hu hk hku
    · rcases (mem_ins _).mp hu with rfl | hu
      · exact hj t ht me hm hkt hk
      · exact hj t ht u hu hkt hku
  | exec => exact upd _ _ (fun _ => ⟨.inl ⟨rfl, rfl⟩, rfl⟩)
  | notty => exact upd _ _ (fun _ => ⟨.inr rfl, rfl⟩)
  | exit =>
    refine owned_map hj _ rfl ?_
    intro t
    split
    · exact ⟨.inl ⟨rfl, rfl⟩, rfl⟩
    · split <;> exact ⟨.inl ⟨rfl, rfl⟩, rfl⟩
  | reap =>
    intro t ht u hu
    exact hj t (List.mem_filter.mp ht).1 u (List.mem_filter.mp hu).1
  | setsid hn => exact upd _ _ (fun _ => ⟨.inr rfl, rfl⟩)
  | setpgid ht htk hte hts hx hg hc' => exact upd _ _ (fun _ => ⟨.inl ⟨rfl, rfl⟩, rfl⟩)
  | sctty hy hsc =>
    rename_i y
    intro t ht u hu hkt hku hn he
    obtain ⟨a, ha, rfl⟩ := mem_upd.mp ht
    obtain ⟨b, hb, rfl⟩ := mem_upd.mp hu
    by_cases ea : a.tid = c
    · rw [if_pos ea] at hkt he ⊢
      by_cases eb : b.tid = c
      · rw [if_pos eb]
        have : a = b := uniq hw ha hb (by omega)
        subst this
        rfl
      · rw [if_neg eb] at hku he
        exact absurd ⟨b, hb, hku, rfl, he.symm⟩ (ho b.tid)
    · rw [if_neg ea] at hkt hn he ⊢
      by_cases eb : b.tid = c
      · rw [if_pos eb] at he
        exact absurd ⟨a, ha, hkt, rfl, he⟩ (ho a.tid)
      · rw [if_neg eb] at hku he ⊢
        exact hj a ha b hb hkt hku hn he

theorem owned_boot (ks : List Int) : Owned (boot ks) := by
  intro t ht u hu hk hk' _ _
  have : ∀ x ∈ (boot ks).tasks, x.kern = false → x.sid = 1 := by
    intro x hx hkx
    rcases List.mem_cons.mp hx with rfl | hx
    · rfl
    · obtain ⟨k, _, rfl⟩ := List.mem_map.mp hx
      cases hkx
  rw [this t ht hk, this u hu hk']

theorem owned_reach {w} (h : Reach NoTheft w) : Owned w := by
  induction h with
  | boot ks h hk => exact owned_boot ks
  | step hr ho hs ih =>
    obtain ⟨me, hp, _⟩ := step_me hs
    exact owned_change (wf_reach hr) ih hp ho (step_change (wf_reach hr) hp hs)

/-- C127: a terminal is the controlling terminal of at most one session, if no session leader takes a
terminal that is in use. -/
theorem terminal_one_session_partial {w} (h : Reach NoTheft w) : OneOwner w := by
  have hw := wf_reach h
  rintro t p p' s s' ⟨a, ha, hka, rfl, hta⟩ ⟨b, hb, hkb, rfl, htb⟩ ⟨_, a', ha', _, ea, _, hsa⟩ ⟨_, b', hb', _, eb, _, hsb⟩
  have e1 : a' = a := uniq hw ha' ha ea
  have e2 : b' = b := uniq hw hb' hb eb
  subst e1 e2
  have := owned_reach h a' ha b' hb hka hkb (by rw [hta]; simp) (by rw [hta, htb])
  omega

/-! ### What goes wrong -/

/-- A run; a call that is not possible is skipped. -/
def run (w : World) : List (Int × Call) → World
  | [] => w
  | (c, k) :: l => match step w c k with
    | some (w', _) => run w' l
    | none => run w l

theorem run_reach : ∀ (l : List (Int × Call)) (w : World), Reach Any w → Reach Any (run w l) := by
  intro l
  induction l with
  | nil => intro w h; exact h
  | cons x xs ih =>
    intro w h
    obtain ⟨c, k⟩ := x
    unfold run
    cases hs : step w c k with
    | none => exact ih _ h
    | some r => exact ih _ (.step h trivial hs)

theorem boot_reach (ok) : Reach ok (boot [10000]) := .boot _ (by decide) (by decide)

def out (w : World) (c : Int) (k : Call) : Option Out := (step w c k).map Prod.snd

theorem out_step {w c k o} (h : out w c k = some o) : ∃ w', step w c k = some (w', o) := by
  unfold out at h
  cases hs : step w c k with
  | none => rw [hs] at h; cases h
  | some r => rw [hs] at h; cases h; exact ⟨r.1, rfl⟩

def pick (w : World) (p : Int) : Option Task := w.tasks.find? (fun t => t.tid == p && !t.kern)

theorem pick_is {w : World} {p : Int} {t : Task} (h : pick w p = some t) : t ∈ w.tasks ∧ t.kern = false ∧ t.tid = p := by
  refine ⟨List.mem_of_find?_eq_some h, ?_⟩
  have := List.find?_some h
  simp only [Bool.and_eq_true, beq_iff_eq, Bool.not_eq_true'] at this
  exact ⟨this.2, this.1⟩

theorem is_pick {w : World} {p : Int} {t : Task} (h : pick w p = some t) : Is w p t.pgid t.sid :=
  ⟨t, (pick_is h).1, (pick_is h).2.1, (pick_is h).2.2, rfl, rfl⟩

/-- Two processes, in two sessions, that name the same group. -/
def w1 : World := run (boot [10000])
  [(1, .fork 2), (1, .fork 3), (3, .setsid), (3, .fork 4), (4, .setpgid 0 2), (2, .setpgid 0 0)]

theorem session_split_violated : ∃ w, Reach Any w ∧ ¬ OneSession w := by
  refine ⟨w1, run_reach _ _ (boot_reach _), ?_⟩
  intro h
  have a : Is w1 2 2 1 := ⟨⟨2, 2, 2, 1, 1, some 1, false, false, false⟩, by decide +kernel, rfl, rfl, rfl, rfl⟩
  have b : Is w1 4 2 3 := ⟨⟨4, 4, 2, 3, 3, none, false, false, false⟩, by decide +kernel, rfl, rfl, rfl, rfl⟩
  exact absurd (h 2 2 1 4 3 a b) (by decide)

theorem not_in {w : World} {p : Int} {P : Task → Prop} [DecidablePred P] (h : ∀ t ∈ w.tasks, ¬ (t.kern = false ∧ t.tid = p ∧ P t)) :
    ¬ ∃ t ∈ w.tasks, t.kern = false ∧ t.tid = p ∧ P t := by
  rintro ⟨t, ht, h'⟩
  exact h t ht h'

/-- A process that has called `execve` may not put itself into a group of its own if it names itself by
its id, as shells do. -/
theorem setpgid_own_id_violated : ∃ w c w' o, Reach Any w ∧ step w c (.setpgid c c) = some (w', o) ∧
    Allowed w c c c ∧ o.ret = EACCES := by
  let w := run (boot [10000]) [(1, .fork 2), (2, .exec)]
  have ht : (⟨2, 2, 1, 1, 1, some 1, true, false, false⟩ : Task) ∈ w.tasks := by decide +kernel
  have hs : InSession w 2 1 := ⟨1, _, ht, rfl, rfl, rfl, rfl⟩
  obtain ⟨w', h⟩ := out_step (w := w) (c := 2) (k := .setpgid 2 2) (o := { ret := EACCES }) (by decide +kernel)
  refine ⟨w, 2, w', _, run_reach _ _ (boot_reach _), h, ?_, rfl⟩
  refine ⟨by decide, .inl rfl, .inl rfl, ⟨1, hs, hs⟩, ?_, .inl rfl⟩
  rintro ⟨g, t, ht, h1, h2, _, h3⟩
  have : ∀ t ∈ w.tasks, ¬ (t.kern = false ∧ t.tid = 2 ∧ t.sid = 2) := by decide +kernel
  exact this t ht ⟨h1, h2, h3⟩

/-- A process moves another one that is not its child. -/
theorem setpgid_stranger_violated : ∃ w c p w' o, Reach Any w ∧ step w c (.setpgid p 0) = some (w', o) ∧
    ¬ (target c p = c ∨ ChildOf w (target c p) c) ∧ o.ret = 0 := by
  let w := run (boot [10000]) [(1, .fork 2), (1, .fork 3)]
  obtain ⟨w', h⟩ := out_step (w := w) (c := 2) (k := .setpgid 3 0) (o := { ret := 0 }) (by decide +kernel)
  refine ⟨w, 2, 3, w', _, run_reach _ _ (boot_reach _), h, ?_, rfl⟩
  rintro (e | ⟨t, ht, h1, h2, h3⟩)
  · exact absurd e (by decide)
  · have : ∀ t ∈ w.tasks, ¬ (t.kern = false ∧ t.tid = 3 ∧ t.parent = 2) := by decide +kernel
    exact this t ht ⟨h1, h2, h3⟩

/-- A session leader leaves its own group. -/
theorem setpgid_leader_violated : ∃ w c g w' o, Reach Any w ∧ step w c (.setpgid 0 g) = some (w', o) ∧
    InSession w c c ∧ g ≠ c ∧ 0 < g ∧ o.ret = 0 := by
  let w := run (boot [10000]) [(1, .fork 2), (2, .setsid), (2, .fork 3), (3, .setpgid 0 0)]
  have ht : (⟨2, 2, 2, 2, 1, none, false, false, false⟩ : Task) ∈ w.tasks := by decide +kernel
  obtain ⟨w', h⟩ := out_step (w := w) (c := 2) (k := .setpgid 0 3) (o := { ret := 0 }) (by decide +kernel)
  exact ⟨w, 2, 3, w', _, run_reach _ _ (boot_reach _), h, ⟨2, _, ht, rfl, rfl, rfl, rfl⟩, by decide, by decide, rfl⟩

/-- A process moves into a group that does not exist and is not named after it. -/
theorem setpgid_no_group_violated : ∃ w c g w' o, Reach Any w ∧ step w c (.setpgid 0 g) = some (w', o) ∧
    (∀ q, ¬ InGroup w q g) ∧ g ≠ c ∧ 0 < g ∧ o.ret = 0 := by
  let w := run (boot [10000]) [(1, .fork 2)]
  obtain ⟨w', h⟩ := out_step (w := w) (c := 2) (k := .setpgid 0 77) (o := { ret := 0 }) (by decide +kernel)
  refine ⟨w, 2, 77, w', _, run_reach _ _ (boot_reach _), h, ?_, by decide, by decide, rfl⟩
  rintro q ⟨s, t, ht, _, _, e, _⟩
  have : ∀ t ∈ w.tasks, t.pgid ≠ 77 := by decide +kernel
  exact this t ht e

/-- `getsid` of a process of another session, or of none at all, returns the caller's own session. -/
theorem getsid_violated : ∃ w c w' o w'' o', Reach Any w ∧ step w c (.getsid 3) = some (w', o) ∧ InSession w 3 3 ∧
    o.ret = 1 ∧ step w c (.getsid 77) = some (w'', o') ∧ ¬ Exists w 77 ∧ o'.ret = 1 := by
  let w := run (boot [10000]) [(1, .fork 2), (1, .fork 3), (3, .setsid)]
  have ht : (⟨3, 3, 3, 3, 1, none, false, false, false⟩ : Task) ∈ w.tasks := by decide +kernel
  obtain ⟨w', h⟩ := out_step (w := w) (c := 2) (k := .getsid 3) (o := { ret := 1 }) (by decide +kernel)
  obtain ⟨w'', h'⟩ := out_step (w := w) (c := 2) (k := .getsid 77) (o := { ret := 1 }) (by decide +kernel)
  refine ⟨w, 2, w', _, w'', _, run_reach _ _ (boot_reach _), h, ⟨3, _, ht, rfl, rfl, rfl, rfl⟩, rfl, h', ?_, rfl⟩
  rintro ⟨g, s, t, ht, _, e, _⟩
  have : ∀ t ∈ w.tasks, t.tid ≠ 77 := by decide +kernel
  exact this t ht e

/-- A signal to all processes is sent to init too. -/
theorem broadcast_init_violated : ∃ w c w' o, Reach Any w ∧ step w c (.kill (-1) 15) = some (w', o) ∧ c ≠ 1 ∧ 1 ∈ o.posts := by
  let w := run (boot [10000]) [(1, .fork 2)]
  obtain ⟨w', h⟩ := out_step (w := w) (c := 2) (k := .kill (-1) 15) (o := { ret := 0, posts := [1] }) (by decide +kernel)
  exact ⟨w, 2, w', _, run_reach _ _ (boot_reach _), h, by decide, by decide⟩

/-- A signal to a group whose only living member is init: ESRCH. -/
theorem group_of_init_violated : ∃ w c g w' o, Reach Any w ∧ step w c (.kill (-g) 15) = some (w', o) ∧
    InGroup w 1 g ∧ Alive w 1 ∧ 1 < g ∧ o.ret = ESRCH := by
  let w := run (boot [10000]) [(1, .fork 2), (1, .fork 3), (2, .setpgid 0 0), (1, .setpgid 0 2), (2, .setpgid 0 1)]
  have ht : (⟨1, 1, 2, 1, 0, some 1, false, false, false⟩ : Task) ∈ w.tasks := by decide +kernel
  obtain ⟨w', h⟩ := out_step (w := w) (c := 3) (k := .kill (-2) 15) (o := { ret := ESRCH }) (by decide +kernel)
  exact ⟨w, 3, 2, w', _, run_reach _ _ (boot_reach _), h, ⟨1, _, ht, rfl, rfl, rfl, rfl⟩, ⟨_, ht, rfl, rfl, rfl⟩, by decide, rfl⟩

/-- A session leader takes the terminal of another session. -/
theorem terminal_stolen_violated : ∃ w, Reach Any w ∧ ¬ OneOwner w := by
  let w := run (boot [10000]) [(1, .fork 2), (2, .setsid), (2, .sctty 1)]
  refine ⟨w, run_reach _ _ (boot_reach _), ?_⟩
  intro h
  have a : (⟨1, 1, 1, 1, 0, some 1, false, false, false⟩ : Task) ∈ w.tasks := by decide +kernel
  have b : (⟨2, 2, 2, 2, 1, some 1, false, false, false⟩ : Task) ∈ w.tasks := by decide +kernel
  exact absurd (h 1 1 2 1 2 ⟨_, a, rfl, rfl, rfl⟩ ⟨_, b, rfl, rfl, rfl⟩ ⟨1, _, a, rfl, rfl, rfl, rfl⟩ ⟨2, _, b, rfl, rfl, rfl, rfl⟩) (by decide)

/-- TIOCGPGRP stores nothing, and its result is not 0: tcgetpgrp(3) does not work. -/
theorem tcgetpgrp_violated : ∃ w w' o, Reach Any w ∧ step w 1 (.gpgrp 1) = some (w', o) ∧ Controls w 1 1 ∧
    w.fg 1 = 1 ∧ o.ret = 1 ∧ o.stored = none := by
  let w := boot [10000]
  have ht : (⟨1, 1, 1, 1, 0, some 1, false, false, false⟩ : Task) ∈ w.tasks := by decide +kernel
  obtain ⟨w', h⟩ := out_step (w := w) (c := 1) (k := .gpgrp 1) (o := { ret := 1 }) (by decide +kernel)
  exact ⟨w, w', _, boot_reach _, h, ⟨_, ht, rfl, rfl, rfl⟩, rfl, rfl, rfl⟩

/-- A background process that reads its terminal is not stopped (no SIGTTIN to its group, whose leader's
parent is in the same session): the read fails. -/
theorem background_read_violated : ∃ w w' o, Reach Any w ∧ step w 2 (.read 1) = some (w', o) ∧ Controls w 1 2 ∧
    ChildOf w 2 1 ∧ Is w 1 1 1 ∧ Is w 2 2 1 ∧ w.fg 1 = 1 ∧ o.ret = EIO ∧ o.posts = [] := by
  let w := run (boot [10000]) [(1, .fork 2), (2, .setpgid 0 0)]
  have a : (⟨1, 1, 1, 1, 0, some 1, false, false, false⟩ : Task) ∈ w.tasks := by decide +kernel
  have b : (⟨2, 2, 2, 1, 1, some 1, false, false, false⟩ : Task) ∈ w.tasks := by decide +kernel
  obtain ⟨w', h⟩ := out_step (w := w) (c := 2) (k := .read 1) (o := { ret := EIO }) (by decide +kernel)
  exact ⟨w, w', _, run_reach _ _ (boot_reach _), h, ⟨_, b, rfl, rfl, rfl⟩, ⟨_, b, rfl, rfl, rfl⟩, ⟨_, a, rfl, rfl, rfl, rfl⟩,
    ⟨_, b, rfl, rfl, rfl, rfl⟩, by decide +kernel, rfl, rfl⟩

/-! ### The hypotheses are met -/

def orderlyB (w : World) (c : Int) : Call → Bool
  | .setpgid p g => decide (g ≤ 0 ∨ g = target c p) || w.tasks.any (fun t => !t.kern && t.pgid == g)
  | .fork n => w.tasks.all (fun t => t.kern || t.pgid != n)
  | .sctty t => w.tasks.all (fun x => x.tty != some t)
  | _ => true

theorem orderlyB_ok {w c k} (h : orderlyB w c k = true) : Orderly w c k ∧ NoTheft w c k := by
  cases k with
  | setpgid p g =>
    refine ⟨?_, trivial⟩
    simp only [orderlyB, Bool.or_eq_true, decide_eq_true_eq, List.any_eq_true, Bool.and_eq_true, Bool.not_eq_true', beq_iff_eq] at h
    rcases h with (h | h) | ⟨t, ht, hk, hg⟩
    · exact .inl h
    · exact .inr (.inl h)
    · exact .inr (.inr ⟨t.tid, t.sid, t, ht, hk, rfl, hg, rfl⟩)
  | fork n =>
    refine ⟨?_, trivial⟩
    simp only [orderlyB, List.all_eq_true, Bool.or_eq_true, bne_iff_ne] at h
    rintro p g s ⟨t, ht, hk, _, rfl, _⟩
    rcases h t ht with h | h
    · rw [hk] at h; cases h
    · exact h
  | sctty t =>
    refine ⟨trivial, ?_⟩
    simp only [orderlyB, List.all_eq_true, bne_iff_ne] at h
    rintro p ⟨x, hx, _, _, e⟩
    exact h x hx e
  | exec => exact ⟨trivial, trivial⟩
  | exit => exact ⟨trivial, trivial⟩
  | reap _ => exact ⟨trivial, trivial⟩
  | setsid => exact ⟨trivial, trivial⟩
  | getsid _ => exact ⟨trivial, trivial⟩
  | getpgid _ => exact ⟨trivial, trivial⟩
  | kill _ _ => exact ⟨trivial, trivial⟩
  | notty _ => exact ⟨trivial, trivial⟩
  | gpgrp _ => exact ⟨trivial, trivial⟩
  | spgrp _ _ => exact ⟨trivial, trivial⟩
  | read _ => exact ⟨trivial, trivial⟩

def runO (w : World) : List (Int × Call) → World
  | [] => w
  | (c, k) :: l => if orderlyB w c k = true then
      match step w c k with
      | some (w', _) => runO w' l
      | none => runO w l
    else runO w l

theorem runO_reach : ∀ (l : List (Int × Call)) (w : World), Reach Orderly w ∧ Reach NoTheft w →
    Reach Orderly (runO w l) ∧ Reach NoTheft (runO w l) := by
  intro l
  induction l with
  | nil => intro w h; exact h
  | cons x xs ih =>
    intro w h
    obtain ⟨c, k⟩ := x
    unfold runO
    by_cases hb : orderlyB w c k = true
    · rw [if_pos hb]
      cases hs : step w c k with
      | none => exact ih _ h
      | some r => exact ih _ ⟨.step h.1 (orderlyB_ok hb).1 hs, .step h.2 (orderlyB_ok hb).2 hs⟩
    · rw [if_neg hb]; exact ih _ h

/-- A shell (2, which has a session and the terminal 2) with a job (3 and 4, in the foreground, 4 dead)
and another job (5). -/
def shell : World := runO (boot [10000])
  [(1, .fork 2), (2, .setsid), (2, .sctty 2), (2, .fork 3), (2, .setpgid 3 3), (3, .fork 4), (2, .spgrp 2 (some 3)),
   (3, .exec), (4, .exit), (2, .fork 5), (5, .setpgid 0 0)]

example : Reach Orderly shell ∧ Reach NoTheft shell ∧ Is shell 2 2 2 ∧ Is shell 3 3 2 ∧ Is shell 4 3 2 ∧ Is shell 5 5 2 ∧
    Controls shell 2 3 ∧ shell.fg 2 = 3 := by
  have h := runO_reach [(1, .fork 2), (2, .setsid), (2, .sctty 2), (2, .fork 3), (2, .setpgid 3 3), (3, .fork 4), (2, .spgrp 2 (some 3)),
   (3, .exec), (4, .exit), (2, .fork 5), (5, .setpgid 0 0)] (boot [10000]) ⟨boot_reach _, boot_reach _⟩
  have a2 : (⟨2, 2, 2, 2, 1, some 2, false, false, false⟩ : Task) ∈ shell.tasks := by decide +kernel
  have a3 : (⟨3, 3, 3, 2, 2, some 2, true, false, false⟩ : Task) ∈ shell.tasks := by decide +kernel
  have a4 : (⟨4, 4, 3, 2, 3, some 2, false, true, false⟩ : Task) ∈ shell.tasks := by decide +kernel
  have a5 : (⟨5, 5, 5, 2, 2, some 2, false, false, false⟩ : Task) ∈ shell.tasks := by decide +kernel
  exact ⟨h.1, h.2, ⟨_, a2, rfl, rfl, rfl, rfl⟩, ⟨_, a3, rfl, rfl, rfl, rfl⟩, ⟨_, a4, rfl, rfl, rfl, rfl⟩, ⟨_, a5, rfl, rfl, rfl, rfl⟩,
    ⟨_, a3, rfl, rfl, rfl⟩, by decide +kernel⟩

example : out shell 2 (.setpgid 5 3) = some { ret := 0 } ∧ out shell 2 (.setpgid 3 5) = some { ret := EACCES } ∧
    out shell 1 (.setpgid 5 0) = some { ret := EPERM } ∧ out shell 5 (.setpgid 0 1) = some { ret := EPERM } ∧
    out shell 5 (.setpgid 0 (-1)) = some { ret := EINVAL } ∧ out shell 5 (.setpgid 9 0) = some { ret := ESRCH } ∧
    out shell 3 .setsid = some { ret := EPERM } ∧ out shell 5 (.getpgid 4) = some { ret := 3 } ∧
    out shell 5 (.kill (-3) 2) = some { ret := 0, posts := [3] } ∧ out shell 3 (.kill 0 2) = some { ret := 0, posts := [3] } ∧
    out shell 2 (.kill (-9) 2) = some { ret := ESRCH } ∧ out shell 5 (.kill 4 2) = some { ret := 0 } ∧
    typed shell 2 2 = { ret := 0, posts := [3] } ∧
    out shell 2 (.spgrp 2 (some 5)) = some { ret := 0 } ∧ out shell 2 (.spgrp 2 (some 1)) = some { ret := EPERM } ∧
    out shell 3 (.read 2) = some { ret := 0 } ∧ out shell 5 (.read 2) = some { ret := EIO } := by decide +kernel

end Verif.Pgrp
