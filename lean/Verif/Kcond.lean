/-!
# Condition variables, poll and the wake-up of tasks (kernel/kcond.c, kernel/wobj.c, kernel/poll.c, kernel/select.c)

Properties C82 to C87.

Any number of tasks on one processor. Tasks wait on condition variables, with or without a timeout and a mutex, lock mutexes,
sleep, and wait on several condition variables in `poll`; timers expire, signals are sent, tasks are stopped and continued, and the
processor is given to any runnable task, at any moment. What the code does with preemption disabled is one step. Timers may
expire inside of such a step, but the effect is the same as expiring just after it (`sched_should_return_immediately`, sched.c:1128-1161).

Time is not counted: a timer that is armed can expire at any moment (when timers expire is the subject of `Verif.Timer`). The
panic mode and recursive mutexes are left out, and so are semaphores (`Verif.Ksem`).
-/
namespace Verif.Kcond

abbrev Tid := Nat
abbrev Cond := Nat
abbrev Mx := Nat

/-- `task->state` (include/tilck/kernel/sched.h), without zombies. -/
inductive TState | running | runnable | asleep | stopped
deriving DecidableEq, Repr

/-- `task->wobj`: what the task waits on (include/tilck/kernel/sync.h). `multi` is WOBJ_MWO_WAITER. -/
inductive WObj | none | cond (c : Cond) | mutex (m : Mx) | multi
deriving DecidableEq, Repr

/-- A member of the `wait_list` of a condition variable: the wait object of a task, or the `i`-th element of its multi_obj_waiter. -/
inductive Node | one (t : Tid) | elem (t : Tid) (i : Nat)
deriving DecidableEq, Repr

/-- Where a task is: elsewhere; asleep or just woken up in `kcond_wait` (kcond.c:70); in `kmutex_lock` (kmutex.c:86), called by
itself or at the end of a `kcond_wait` with the given result; at the end of `kcond_wait`; in `kernel_sleep` (timer.c:410); and in
`poll_wait_on_cond`: before poll.c:195, before the check of the `j`-th file with whether a ready one has been found (poll.c:195
called with preemption enabled), asleep or just woken up (poll.c:229), at the end. -/
inductive Pc
  | idle
  | inCond (c : Cond) (timed : Bool) (m : Option Mx)
  | inLock (m : Mx) (k : Option (Cond × Bool))
  | retCond (c : Cond) (r : Bool)
  | inSleep
  | setup (timed : Bool)
  | check (timed : Bool) (j : Nat) (found : Bool)
  | inPoll (timed : Bool)
  | retPoll
deriving DecidableEq, Repr

/-- The fields of `struct task` used here: the state, the wait object, whether `primary_timer` is armed, `timer_ready`,
`stop_pending`, whether a signal is pending; the conditions of its multi_obj_waiter and the `signaled_list` of that. History: how
many times it was sent a signal and its timer expired, and what those counters and the number of signals of the condition were
when its last `kcond_wait` began, when that was, and whether it had a timeout. -/
structure Task where
  st : TState
  wobj : WObj
  timer : Bool
  tready : Bool
  stopP : Bool
  sigP : Bool
  pc : Pc
  watch : List Cond
  sigd : List Nat
  kills : Nat
  fires : Nat
  kills0 : Nat
  fires0 : Nat
  sigs0 : Nat
  since : Nat
  lim : Bool
deriving DecidableEq, Repr

/-- All tasks, the current one (none while the idle task runs), the wait lists of condition variables, owners and wait lists of
mutexes; whether what the condition announces (data in a pipe, for example) is there. `panic`: an ASSERT failed (in builds
without ASSERTs, memory is corrupted). History: who has called `kmutex_lock` and returned and not yet called unlock; whether there was no
call of `kcond_signal_all` since the file became ready; how many calls of kcond_signal_* there were; and time, counted in steps. -/
structure St where
  tasks : Tid → Task
  cur : Option Tid
  list : Cond → List Node
  owner : Mx → Option Tid
  mlist : Mx → List Tid
  ready : Cond → Bool
  panic : Bool
  holds : Mx → List Tid
  fresh : Cond → Bool
  sigs : Cond → Nat
  clock : Nat

/-- Changes one task. -/
def St.setT (s : St) (t : Tid) (f : Task → Task) : St :=
  { s with tasks := fun u => if u = t then f (s.tasks u) else s.tasks u }

/-- Changes the wait list of a condition variable. -/
def St.setL (s : St) (c : Cond) (f : List Node → List Node) : St :=
  { s with list := fun d => if d = c then f (s.list d) else s.list d }

/-- Changes the wait list of a mutex. -/
def St.setM (s : St) (m : Mx) (f : List Tid → List Tid) : St :=
  { s with mlist := fun d => if d = m then f (s.mlist d) else s.mlist d }

/-- `list_remove` for the wait object of a task. -/
def St.unlink (s : St) (t : Tid) : WObj → St
  | .cond c => s.setL c (·.erase (.one t))
  | .mutex m => s.setM m (·.erase t)
  | _ => s

/-- `wait_obj_reset` of the task's own wait object (wobj.c:57-92). -/
def St.reset (s : St) (t : Tid) : St :=
  (s.unlink t (s.tasks t).wobj).setT t fun k => { k with wobj := .none }

/-- `list_add_tail` for the wait object of a task. -/
def St.link (s : St) (t : Tid) : WObj → St
  | .cond c => s.setL c (· ++ [.one t])
  | .mutex m => s.setM m (· ++ [t])
  | _ => s

/-- `prepare_to_wait_on` (wobj.c:94-115) without the change of the state, which is part of `goSleep`. The ASSERT in `wait_obj_set` fails
if the wait object is in use. -/
def St.prepare (s : St) (t : Tid) (w : WObj) : St :=
  if (s.tasks t).wobj ≠ .none then { s with panic := true }
  else (s.link t w).setT t fun k => { k with wobj := w }

/-- `wake_up` (wobj.c:117-197): the next state is given in lines 140-145. The scheduler's bookkeeping is left out. -/
def wakeTask (k : Task) : Task :=
  if k.stopP then { k with st := .stopped, stopP := false } else { k with st := .runnable }

/-- `wake_up` (wobj.c:117-197). -/
def St.wakeUp (s : St) (t : Tid) : St :=
  let s1 := s.reset t
  if s.cur = some t then s1 else s1.setT t wakeTask

/-- TASK_STATE_SLEEPING and `schedule()`: with `timer_ready` set the task keeps running (sched.c:1137-1158), otherwise another task is
chosen later. The task is then at `pc`. -/
def St.goSleep (s : St) (t : Tid) (pc : Pc) : St :=
  if (s.tasks t).tready then s.setT t fun k => { k with tready := false, st := .running, pc := pc }
  else { s.setT t fun k => { k with st := .asleep, pc := pc } with cur := none }

/-- `task_set_wakeup_timer` (timer.c:262-265). -/
def arm (timed : Bool) (k : Task) : Task := if timed then { k with timer := true } else k

/-- `task_cancel_wakeup_timer` (timer.c:272-283). -/
def cancel (k : Task) : Task := { k with timer := false, tready := false }

/-- `kcond_signal_int` (kcond.c:111-177) for the wait object `n` in the list of `c`. -/
def signalNode (c : Cond) (s : St) : Node → St
  | .one t => if (s.tasks t).st ≠ .asleep then s else ((s.setT t cancel).reset t).wakeUp t
  | .elem t i =>
    let s1 := (s.setL c (·.erase (.elem t i))).setT t fun k => { k with sigd := k.sigd ++ [i] }
    if (s.tasks t).st = .asleep then s1.wakeUp t else s1

/-- History of a signal on `c`; `all`: it reaches everybody. -/
def St.sent (s : St) (c : Cond) (all : Bool) : St :=
  { s with sigs := fun d => if d = c then s.sigs d + 1 else s.sigs d,
           fresh := fun d => if d = c ∧ all then false else s.fresh d }

/-- `kcond_signal_one` (kcond.c:179-194). For the history, the signal reaches everybody if at most one is in the list. -/
def signalOne (s : St) (c : Cond) : St :=
  match s.list c with
  | [] => s.sent c true
  | n :: rest => signalNode c (s.sent c rest.isEmpty) n

/-- `kcond_signal_all` (kcond.c:196-208). -/
def signalAll (s : St) (c : Cond) : St := (s.list c).foldl (signalNode c) (s.sent c true)

/-- `kmutex_unlock` (kmutex.c:145-184), called by `t`. -/
def unlock (s : St) (t : Tid) (m : Mx) : St :=
  let s1 := { s with holds := fun d => if d = m then (s.holds d).erase t else s.holds d }
  match s.mlist m with
  | [] => { s1 with owner := fun d => if d = m then none else s.owner d }
  | u :: _ => { s1 with owner := fun d => if d = m then some u else s.owner d }.wakeUp u

/-- Where `kmutex_lock` returns to. -/
def after : Option (Cond × Bool) → Pc
  | none => .idle
  | some (c, r) => .retCond c r

/-- The end of `kmutex_lock`. -/
def locked (s : St) (t : Tid) (m : Mx) (k : Option (Cond × Bool)) : St :=
  { s.setT t (fun x => { x with pc := after k }) with
    holds := fun d => if d = m then t :: s.holds d else s.holds d }

/-- `kmutex_lock` (kmutex.c:33-103) of `t`, after which it does `k`. -/
def lock (s : St) (t : Tid) (m : Mx) (k : Option (Cond × Bool)) : St :=
  if s.owner m = none then locked { s with owner := fun d => if d = m then some t else s.owner d } t m k
  else (s.prepare t (.mutex m)).goSleep t (.inLock m k)

/-- What `kcond_wait` does after preemption is disabled until it sleeps (kcond.c:43-71). -/
def waitBegin (s : St) (t : Tid) (c : Cond) (timed : Bool) (m : Option Mx) : St :=
  let s0 := s.setT t fun k => { k with kills0 := k.kills, fires0 := k.fires, sigs0 := s.sigs c, since := s.clock, lim := timed }
  let s1 := (s0.prepare t (.cond c)).setT t (arm timed)
  let s2 := match m with | none => s1 | some m => unlock s1 t m
  s2.goSleep t (.inCond c timed m)

/-- What `kcond_wait` does after it is woken up (kcond.c:73-107). -/
def waitEnd (s : St) (t : Tid) (c : Cond) (m : Option Mx) : St :=
  let ret : Bool := (s.tasks t).wobj = .none
  let s1 := s.reset t
  match m with
  | none => s1.setT t fun k => { k with pc := .retCond c ret }
  | some m => lock s1 t m (some (c, ret))

/-- `mobj_waiter_set` (wobj.c:248-275) for the next element. -/
def pollAdd (s : St) (t : Tid) (c : Cond) : St :=
  (s.setL c (· ++ [.elem t (s.tasks t).watch.length])).setT t fun k => { k with watch := k.watch ++ [c] }

/-- `mobj_waiter_rearm_signaled` (wobj.c:304-323). -/
def rearmList (t : Tid) (watch : List Cond) : List Nat → St → St
  | [], s => s
  | i :: is, s => rearmList t watch is (s.setL (watch.getD i 0) (· ++ [.elem t i]))

/-- `mobj_waiter_rearm_signaled` (wobj.c:304-323), after which the files are checked again. -/
def rearm (s : St) (t : Tid) (timed : Bool) : St :=
  (rearmList t (s.tasks t).watch (s.tasks t).sigd s).setT t fun k => { k with sigd := [], pc := .check timed 0 false }

/-- Whether a member of a wait list belongs to the multi_obj_waiter of `t`. -/
def Node.elemOf (t : Tid) : Node → Bool
  | .one _ => false
  | .elem u _ => u = t

/-- The end of `poll_wait_on_cond` (poll.c:254-255): `task_cancel_wakeup_timer` and `free_mobj_waiter`. -/
def pollExit (s : St) (t : Tid) : St :=
  { s.setT t (fun k => { cancel k with sigd := [], watch := [], pc := .retPoll }) with
    list := fun c => (s.list c).filter fun n => !n.elemOf t }

/-- After the check of all files (poll.c:195-230); `late`: the time is over. `select_wait_on_cond` (select.c:259-315) is the same. -/
def pollSleep (s : St) (t : Tid) (timed found late : Bool) : St :=
  if found then pollExit s t
  else if (s.tasks t).sigd ≠ [] then rearm s t timed
  else if timed ∧ late then pollExit s t
  else ((s.setT t (arm timed)).prepare t .multi).goSleep t (.inPoll timed)

/-- After waking up (poll.c:233-251). -/
def pollWake (s : St) (t : Tid) (timed : Bool) : St :=
  if (s.tasks t).sigP then pollExit s t
  else if timed ∧ (s.tasks t).wobj ≠ .none then pollExit (s.reset t) t
  else rearm (if timed then s.setT t cancel else s) t timed

/-- `task_primary_timer_fire` (timer.c:232-260), called when the timer expires. -/
def fireTask (k : Task) : Task :=
  let k1 := { k with timer := false, tready := true, fires := k.fires + 1 }
  if k.st = .asleep then wakeTask k1 else k1

/-- Sending a signal with a handler or whose default action is to terminate, not masked: `action_terminate` or a pending handler,
`signal_wakeup_task` (signal.c:262-312). -/
def kill (s : St) (t : Tid) : St :=
  let s1 := s.setT t fun k => { k with sigP := true, kills := k.kills + 1, stopP := false }
  match (s.tasks t).st with
  | .asleep => match (s.tasks t).wobj with
    | .mutex _ => s1
    | _ => s1.wakeUp t
  | .stopped => s1.setT t fun k => { k with st := .runnable }
  | _ => s1

/-- `action_stop` (signal.c:335-375). -/
def stop (s : St) (t : Tid) : St :=
  match (s.tasks t).st with
  | .asleep => s.setT t fun k => { k with stopP := true }
  | .stopped => s
  | .running => { s.setT t fun k => { k with st := .stopped } with cur := none }
  | .runnable => s.setT t fun k => { k with st := .stopped }

/-- `action_continue` (signal.c:377-405). -/
def cont (s : St) (t : Tid) : St :=
  match (s.tasks t).st with
  | .asleep => s.setT t fun k => { k with stopP := false }
  | .stopped => s.setT t fun k => { k with st := .runnable }
  | _ => s

/-- `switch_to_task` (switch.c:330-412, sched.c:1283-1303): the current task, if it is running, becomes runnable. -/
def switchTo (s : St) (t : Tid) : St :=
  let s1 := match s.cur with
    | none => s
    | some u => s.setT u fun k => { k with st := .runnable }
  { s1.setT t fun k => { k with st := .running, tready := false } with cur := some t }

/-- What can happen: events of the environment, a change of a file, and steps of the current task. -/
inductive Ev
  | switch (t : Tid) | consume | fire (t : Tid) | kill (t : Tid) | stop (t : Tid) | cont (t : Tid)
  | setReady (c : Cond) (b : Bool)
  | take | wait (c : Cond) (timed : Bool) (m : Option Mx) | woken | ret
  | one (c : Cond) | all (c : Cond)
  | lock (m : Mx) | unlock (m : Mx) | sleep
  | poll (timed : Bool) | pollAdd (c : Cond) | pollStart | pollCheck | pollSleep (late : Bool)

/-- A file changes: history of announcements. -/
def setReady (s : St) (c : Cond) (b : Bool) : St :=
  { s with ready := fun d => if d = c then b else s.ready d,
           fresh := fun d => if d = c then (if b then s.fresh d || !s.ready d else false) else s.fresh d }

/-- A step of the current task `t`. -/
def act (s : St) (t : Tid) : Ev → Option St
  | .consume => if (s.tasks t).tready then some (s.setT t fun k => { k with tready := false }) else none
  | .take => if (s.tasks t).pc = .idle then some (s.setT t fun k => { k with sigP := false }) else none
  | .wait c timed m =>
    if (s.tasks t).pc = .idle ∧ (∀ x ∈ m, t ∈ s.holds x) then some (waitBegin s t c timed m) else none
  | .woken => match (s.tasks t).pc with
    | .inCond c _ m => some (waitEnd s t c m)
    | .inLock m k => some (locked s t m k)
    | .inSleep => some (s.setT t fun k => { k with pc := .idle })
    | .inPoll timed => some (pollWake s t timed)
    | _ => none
  | .ret => match (s.tasks t).pc with
    | .retCond _ _ => some (s.setT t fun k => { k with pc := .idle })
    | .retPoll => some (s.setT t fun k => { k with pc := .idle })
    | _ => none
  | .one c => if (s.tasks t).pc = .idle then some (signalOne s c) else none
  | .all c => if (s.tasks t).pc = .idle then some (signalAll s c) else none
  | .lock m => if (s.tasks t).pc = .idle ∧ t ∉ s.holds m then some (lock s t m none) else none
  | .unlock m => if (s.tasks t).pc = .idle ∧ t ∈ s.holds m then some (unlock s t m) else none
  | .sleep =>
    if (s.tasks t).pc = .idle then some ((s.setT t (arm true)).goSleep t .inSleep) else none
  | .poll timed => if (s.tasks t).pc = .idle then some (s.setT t fun k => { k with pc := .setup timed }) else none
  | .pollAdd c => match (s.tasks t).pc with
    | .setup _ => some (pollAdd s t c)
    | _ => none
  | .pollStart => match (s.tasks t).pc with
    | .setup timed => some (s.setT t fun k => { k with pc := .check timed 0 false })
    | _ => none
  | .pollCheck => match (s.tasks t).pc with
    | .check timed j found =>
      if j < (s.tasks t).watch.length then
        some (s.setT t fun k => { k with pc := .check timed (j + 1) (found || s.ready (k.watch.getD j 0)) })
      else none
    | _ => none
  | .pollSleep late => match (s.tasks t).pc with
    | .check timed j found => if j = (s.tasks t).watch.length then some (pollSleep s t timed found late) else none
    | _ => none
  | _ => none

/-- One step, without the count of steps. -/
def step1 (s : St) : Ev → Option St
  | .switch t =>
    if (s.tasks t).st = .runnable ∧ (∀ u ∈ s.cur, (s.tasks u).tready = false) then some (switchTo s t) else none
  | .fire t => if (s.tasks t).timer then some (s.setT t fireTask) else none
  | .kill t => some (Kcond.kill s t)
  | .stop t => some (Kcond.stop s t)
  | .cont t => some (Kcond.cont s t)
  | .setReady c b => some (Kcond.setReady s c b)
  | e => match s.cur with
    | none => none
    | some t => act s t e

/-- One step. Nothing happens after a panic. -/
def step (s : St) (e : Ev) : Option St :=
  if s.panic then none else (step1 s e).map fun x => { x with clock := s.clock + 1 }

/-- A new task. -/
def task0 : Task :=
  { st := .runnable, wobj := .none, timer := false, tready := false, stopP := false, sigP := false, pc := .idle, watch := [],
    sigd := [], kills := 0, fires := 0, kills0 := 0, fires0 := 0, sigs0 := 0, since := 0, lim := false }

/-- All tasks are runnable; files are in the state given by `r`. -/
def init (r : Cond → Bool) : St :=
  { tasks := fun _ => task0, cur := none, list := fun _ => [], owner := fun _ => none, mlist := fun _ => [], ready := r,
    panic := false, holds := fun _ => [], fresh := fun _ => false, sigs := fun _ => 0, clock := 0 }

/-- What can be reached with events that `ok` allows. -/
inductive ReachP (ok : St → Ev → Prop) : St → Prop
  | init (r : Cond → Bool) : ReachP ok (init r)
  | step {s s' : St} (e : Ev) : ReachP ok s → ok s e → step s e = some s' → ReachP ok s'

/-- What can be reached. -/
def Reach : St → Prop := ReachP fun _ _ => True

/-- A run of given events. -/
def run (s : St) : List Ev → Option St
  | [] => some s
  | e :: es => (step s e).bind fun x => run x es

/-! Basic facts. -/

theorem setT_same (s : St) (t : Tid) (f : Task → Task) : (s.setT t f).tasks t = f (s.tasks t) := by
  simp [St.setT]

theorem setT_other (s : St) {t u : Tid} (h : u ≠ t) (f : Task → Task) : (s.setT t f).tasks u = s.tasks u := by
  simp [St.setT, h]

/-- In a poll. -/
def Pc.polling : Pc → Bool
  | .setup _ | .check _ _ _ | .inPoll _ => true
  | _ => false

/-- The `i`-th file has been checked in the current pass, and no ready one was found. -/
def Task.Seen (k : Task) (i : Nat) : Prop :=
  match k.pc with
  | .check _ j false => i < j
  | .inPoll _ => True
  | _ => False

/-- The wait lists agree with the tasks, and a file that is ready after it has been checked is either not announced or the
announcement has been noted. -/
structure Core (s : St) : Prop where
  nodup : ∀ c, (s.list c).Nodup
  one : ∀ c t, .one t ∈ s.list c ↔ (s.tasks t).wobj = .cond c
  elem : ∀ c t i, .elem t i ∈ s.list c ↔ (s.tasks t).watch[i]? = some c ∧ i ∉ (s.tasks t).sigd
  sigd : ∀ t, (s.tasks t).sigd.Nodup ∧ ∀ i ∈ (s.tasks t).sigd, i < (s.tasks t).watch.length
  mnodup : ∀ m, (s.mlist m).Nodup
  mone : ∀ m t, t ∈ s.mlist m ↔ (s.tasks t).wobj = .mutex m
  quiet : ∀ t, (s.tasks t).pc.polling = false → (s.tasks t).watch = []
  fresh : ∀ t i c, (s.tasks t).Seen i → (s.tasks t).watch[i]? = some c → s.ready c = true → s.fresh c = true ∨ i ∈ (s.tasks t).sigd

/-- What a sleeping task waits on. -/
def Task.Asleep (k : Task) : Prop :=
  match k.pc with
  | .inCond c _ _ => k.wobj = .cond c
  | .inLock m _ => k.wobj = .mutex m
  | .inSleep => True
  | .inPoll _ => k.wobj = .multi ∧ k.sigd = []
  | _ => False

def AsleepAll (s : St) : Prop := ∀ t, (s.tasks t).st = .asleep → (s.tasks t).Asleep

def CurOK (s : St) : Prop := ∀ t, (s.tasks t).st = .running ↔ s.cur = some t

/-- A change of one task that the wait lists do not depend on. -/
theorem Core.setT {s : St} (h : Core s) (t : Tid) (f : Task → Task) (hw : (f (s.tasks t)).wobj = (s.tasks t).wobj)
    (hwa : (f (s.tasks t)).watch = (s.tasks t).watch) (hs : (f (s.tasks t)).sigd = (s.tasks t).sigd)
    (hq : (f (s.tasks t)).pc.polling = false → (s.tasks t).watch = [])
    (hf : ∀ i, (f (s.tasks t)).Seen i → ∀ c, (s.tasks t).watch[i]? = some c → s.ready c = true → s.fresh c = true ∨ i ∈ (s.tasks t).sigd) :
    Core (s.setT t f) := by
  have key : ∀ u, ((s.setT t f).tasks u).wobj = (s.tasks u).wobj ∧ ((s.setT t f).tasks u).watch = (s.tasks u).watch ∧
      ((s.setT t f).tasks u).sigd = (s.tasks u).sigd := by
    intro u
    by_cases hu : u = t
    · subst hu
      rw [setT_same]
      exact ⟨hw, hwa, hs⟩
    · rw [setT_other s hu]
      exact ⟨rfl, rfl, rfl⟩
  refine ⟨h.nodup, ?_, ?_, ?_, h.mnodup, ?_, ?_, ?_⟩
  · intro c u
    rw [(key u).1]
    exact h.one c u
  · intro c u i
    rw [(key u).2.1, (key u).2.2]
    exact h.elem c u i
  · intro u
    rw [(key u).2.1, (key u).2.2]
    exact h.sigd u
  · intro m u
    rw [(key u).1]
    exact h.mone m u
  · intro u
    rw [(key u).2.1]
    by_cases hu : u = t
    · subst hu
      rw [setT_same]
      exact hq
    · rw [setT_other s hu]
      exact h.quiet u
  · intro u i c
    rw [(key u).2.1, (key u).2.2]
    by_cases hu : u = t
    · subst hu
      rw [setT_same]
      intro a
      exact hf i a c
    · rw [setT_other s hu]
      exact h.fresh u i c

/-- A change of one task that does not concern what it waits on or where it is. -/
theorem Core.setT' {s : St} (h : Core s) (t : Tid) (f : Task → Task) (hw : (f (s.tasks t)).wobj = (s.tasks t).wobj)
    (hwa : (f (s.tasks t)).watch = (s.tasks t).watch) (hs : (f (s.tasks t)).sigd = (s.tasks t).sigd)
    (hp : (f (s.tasks t)).pc = (s.tasks t).pc) : Core (s.setT t f) := by
  refine h.setT t f hw hwa hs ?_ ?_
  · rw [hp]
    exact h.quiet t
  · intro i hi c
    refine h.fresh t i c ?_
    unfold Task.Seen at hi ⊢
    rw [hp] at hi
    exact hi

theorem reset_tasks_same (s : St) (t : Tid) : (s.reset t).tasks t = { s.tasks t with wobj := .none } := by
  unfold St.reset
  rw [setT_same]
  unfold St.unlink
  split <;> rfl

theorem reset_tasks_other (s : St) {t u : Tid} (h : u ≠ t) : (s.reset t).tasks u = s.tasks u := by
  unfold St.reset
  rw [setT_other _ h]
  unfold St.unlink
  split <;> rfl

theorem reset_cur (s : St) (t : Tid) : (s.reset t).cur = s.cur := by
  unfold St.reset St.setT St.unlink
  split <;> rfl

theorem reset_ready (s : St) (t : Tid) : (s.reset t).ready = s.ready := by
  unfold St.reset St.setT St.unlink
  split <;> rfl

theorem reset_fresh (s : St) (t : Tid) : (s.reset t).fresh = s.fresh := by
  unfold St.reset St.setT St.unlink
  split <;> rfl

theorem reset_list (s : St) (t : Tid) (c : Cond) : (s.reset t).list c =
    if (s.tasks t).wobj = .cond c then (s.list c).erase (.one t) else s.list c := by
  unfold St.reset St.setT St.unlink St.setL St.setM
  cases h : (s.tasks t).wobj with
  | cond d =>
    dsimp only
    by_cases hd : c = d
    · subst hd
      rw [if_pos rfl, if_pos rfl]
    · rw [if_neg hd, if_neg]
      intro hx
      exact hd (WObj.cond.inj hx).symm
  | _ => simp

theorem reset_mlist (s : St) (t : Tid) (m : Mx) : (s.reset t).mlist m =
    if (s.tasks t).wobj = .mutex m then (s.mlist m).erase t else s.mlist m := by
  unfold St.reset St.setT St.unlink St.setL St.setM
  cases h : (s.tasks t).wobj with
  | mutex d =>
    dsimp only
    by_cases hd : m = d
    · subst hd
      rw [if_pos rfl, if_pos rfl]
    · rw [if_neg hd, if_neg]
      intro hx
      exact hd (WObj.mutex.inj hx).symm
  | _ => simp

theorem reset_fields (s : St) (t u : Tid) : ((s.reset t).tasks u).watch = (s.tasks u).watch ∧
    ((s.reset t).tasks u).sigd = (s.tasks u).sigd ∧ ((s.reset t).tasks u).pc = (s.tasks u).pc ∧
    ((s.reset t).tasks u).wobj = (if u = t then .none else (s.tasks u).wobj) := by
  by_cases hu : u = t
  · subst hu
    rw [reset_tasks_same, if_pos rfl]
    exact ⟨rfl, rfl, rfl, rfl⟩
  · rw [reset_tasks_other s hu, if_neg hu]
    exact ⟨rfl, rfl, rfl, rfl⟩

theorem seen_of_pc {k k' : Task} (h : k'.pc = k.pc) (i : Nat) : k'.Seen i ↔ k.Seen i := by
  unfold Task.Seen
  rw [h]

theorem Core.reset {s : St} (h : Core s) (t : Tid) : Core (s.reset t) := by
  refine ⟨?_, ?_, ?_, ?_, ?_, ?_, ?_, ?_⟩
  · intro c
    rw [reset_list]
    split
    · exact (h.nodup c).erase _
    · exact h.nodup c
  · intro c u
    rw [(reset_fields s t u).2.2.2, reset_list]
    by_cases hu : u = t
    · subst hu
      rw [if_pos rfl]
      refine ⟨fun hm => ?_, fun hx => by cases hx⟩
      split at hm
      · exact absurd hm (h.nodup c).not_mem_erase
      · next hne => exact absurd ((h.one c u).mp hm) hne
    · rw [if_neg hu, ← h.one c u]
      split
      · rw [List.mem_erase_of_ne]
        intro hx
        exact hu (Node.one.inj hx)
      · rfl
  · intro c u i
    rw [(reset_fields s t u).1, (reset_fields s t u).2.1, ← h.elem c u i, reset_list]
    split
    · rw [List.mem_erase_of_ne]
      intro hx
      cases hx
    · rfl
  · intro u
    rw [(reset_fields s t u).1, (reset_fields s t u).2.1]
    exact h.sigd u
  · intro m
    rw [reset_mlist]
    split
    · exact (h.mnodup m).erase _
    · exact h.mnodup m
  · intro m u
    rw [(reset_fields s t u).2.2.2, reset_mlist]
    by_cases hu : u = t
    · subst hu
      rw [if_pos rfl]
      refine ⟨fun hm => ?_, fun hx => by cases hx⟩
      split at hm
      · exact absurd hm (h.mnodup m).not_mem_erase
      · next hne => exact absurd ((h.mone m u).mp hm) hne
    · rw [if_neg hu, ← h.mone m u]
      split
      · rw [List.mem_erase_of_ne hu]
      · rfl
  · intro u
    rw [(reset_fields s t u).1, (reset_fields s t u).2.2.1]
    exact h.quiet u
  · intro u i c
    rw [(reset_fields s t u).1, (reset_fields s t u).2.1, seen_of_pc (reset_fields s t u).2.2.1, reset_ready, reset_fresh]
    exact h.fresh u i c

theorem wakeTask_fields (k : Task) : (wakeTask k).wobj = k.wobj ∧ (wakeTask k).watch = k.watch ∧ (wakeTask k).sigd = k.sigd ∧
    (wakeTask k).pc = k.pc ∧ (wakeTask k).st ≠ .asleep ∧ (wakeTask k).st ≠ .running := by
  unfold wakeTask
  split <;> simp

theorem Core.wakeUp {s : St} (h : Core s) (t : Tid) : Core (s.wakeUp t) := by
  unfold St.wakeUp
  dsimp only
  split
  · exact h.reset t
  · obtain ⟨h1, h2, h3, h4, -⟩ := wakeTask_fields ((s.reset t).tasks t)
    exact (h.reset t).setT' t _ h1 h2 h3 h4

/-- Linking a free wait object. -/
theorem Core.prepare {s : St} (h : Core s) (t : Tid) (w : WObj) (hn : (s.tasks t).wobj = .none) : Core (s.prepare t w) := by
  unfold St.prepare
  rw [if_neg (by simp [hn])]
  have hl : ∀ c, ((s.link t w).setT t fun k => { k with wobj := w }).list c =
      if w = .cond c then s.list c ++ [.one t] else s.list c := by
    intro c
    unfold St.link St.setT St.setL St.setM
    cases w with
    | cond d =>
      dsimp only
      by_cases hd : c = d
      · subst hd
        rw [if_pos rfl, if_pos rfl]
      · rw [if_neg hd, if_neg]
        intro hx
        exact hd (WObj.cond.inj hx).symm
    | _ => simp
  have hm : ∀ c, ((s.link t w).setT t fun k => { k with wobj := w }).mlist c =
      if w = .mutex c then s.mlist c ++ [t] else s.mlist c := by
    intro c
    unfold St.link St.setT St.setL St.setM
    cases w with
    | mutex d =>
      dsimp only
      by_cases hd : c = d
      · subst hd
        rw [if_pos rfl, if_pos rfl]
      · rw [if_neg hd, if_neg]
        intro hx
        exact hd (WObj.mutex.inj hx).symm
    | _ => simp
  have ht : ∀ u, ((s.link t w).setT t fun k => { k with wobj := w }).tasks u =
      if u = t then { s.tasks u with wobj := w } else s.tasks u := by
    intro u
    unfold St.link St.setT St.setL St.setM
    cases w <;> rfl
  have hr : ((s.link t w).setT t fun k => { k with wobj := w }).ready = s.ready := by
    unfold St.link St.setT St.setL St.setM
    cases w <;> rfl
  have hf : ((s.link t w).setT t fun k => { k with wobj := w }).fresh = s.fresh := by
    unfold St.link St.setT St.setL St.setM
    cases w <;> rfl
  generalize (s.link t w).setT t (fun k => { k with wobj := w }) = s' at *
  have hfl : ∀ u, (s'.tasks u).watch = (s.tasks u).watch ∧ (s'.tasks u).sigd = (s.tasks u).sigd ∧ (s'.tasks u).pc = (s.tasks u).pc ∧
      (s'.tasks u).wobj = if u = t then w else (s.tasks u).wobj := by
    intro u
    rw [ht u]
    split <;> simp
  refine ⟨?_, ?_, ?_, ?_, ?_, ?_, ?_, ?_⟩
  · intro c
    rw [hl]
    split
    · refine List.nodup_append.mpr ⟨h.nodup c, by simp, ?_⟩
      intro a ha b hb hab
      rw [List.mem_singleton] at hb
      subst hab hb
      rw [h.one, hn] at ha
      cases ha
    · exact h.nodup c
  · intro c u
    rw [hl, (hfl u).2.2.2]
    by_cases hu : u = t
    · subst hu
      rw [if_pos rfl]
      split
      · next hw => simp [hw]
      · next hw =>
        rw [h.one, hn]
        exact ⟨fun hx => (by cases hx), fun hx => absurd hx hw⟩
    · rw [if_neg hu, ← h.one]
      split
      · rw [List.mem_append, List.mem_singleton]
        refine ⟨fun hx => hx.resolve_right ?_, Or.inl⟩
        intro hx
        exact hu (Node.one.inj hx)
      · rfl
  · intro c u i
    rw [hl, (hfl u).1, (hfl u).2.1, ← h.elem]
    split
    · rw [List.mem_append, List.mem_singleton]
      exact ⟨fun hx => hx.resolve_right (fun hx => by cases hx), Or.inl⟩
    · rfl
  · intro u
    rw [(hfl u).1, (hfl u).2.1]
    exact h.sigd u
  · intro m
    rw [hm]
    split
    · refine List.nodup_append.mpr ⟨h.mnodup m, by simp, ?_⟩
      intro a ha b hb hab
      rw [List.mem_singleton] at hb
      subst hab hb
      rw [h.mone, hn] at ha
      cases ha
    · exact h.mnodup m
  · intro c u
    rw [hm, (hfl u).2.2.2]
    by_cases hu : u = t
    · subst hu
      rw [if_pos rfl]
      split
      · next hw => simp [hw]
      · next hw =>
        rw [h.mone, hn]
        exact ⟨fun hx => (by cases hx), fun hx => absurd hx hw⟩
    · rw [if_neg hu, ← h.mone]
      split
      · rw [List.mem_append, List.mem_singleton]
        exact ⟨fun hx => hx.resolve_right hu, Or.inl⟩
      · rfl
  · intro u
    rw [(hfl u).1, (hfl u).2.2.1]
    exact h.quiet u
  · intro u i c
    rw [(hfl u).1, (hfl u).2.1, seen_of_pc (hfl u).2.2.1, hr, hf]
    exact h.fresh u i c

/-! Signals on condition variables. -/

theorem Core.signalElem {s : St} (h : Core s) (c : Cond) (t : Tid) (i : Nat) (hm : .elem t i ∈ s.list c) :
    Core ((s.setL c (·.erase (.elem t i))).setT t fun k => { k with sigd := k.sigd ++ [i] }) := by
  have hl : ∀ d, ((s.setL c (·.erase (.elem t i))).setT t fun k => { k with sigd := k.sigd ++ [i] }).list d =
      if d = c then (s.list d).erase (.elem t i) else s.list d := fun d => rfl
  have ht : ∀ u, ((s.setL c (·.erase (.elem t i))).setT t fun k => { k with sigd := k.sigd ++ [i] }).tasks u =
      if u = t then { s.tasks u with sigd := (s.tasks u).sigd ++ [i] } else s.tasks u := fun u => rfl
  have hml : ((s.setL c (·.erase (.elem t i))).setT t fun k => { k with sigd := k.sigd ++ [i] }).mlist = s.mlist := rfl
  have hr : ((s.setL c (·.erase (.elem t i))).setT t fun k => { k with sigd := k.sigd ++ [i] }).ready = s.ready := rfl
  have hf : ((s.setL c (·.erase (.elem t i))).setT t fun k => { k with sigd := k.sigd ++ [i] }).fresh = s.fresh := rfl
  generalize (s.setL c (·.erase (.elem t i))).setT t (fun k => { k with sigd := k.sigd ++ [i] }) = s' at *
  have hfl : ∀ u, (s'.tasks u).watch = (s.tasks u).watch ∧ (s'.tasks u).wobj = (s.tasks u).wobj ∧ (s'.tasks u).pc = (s.tasks u).pc ∧
      (s'.tasks u).sigd = if u = t then (s.tasks u).sigd ++ [i] else (s.tasks u).sigd := by
    intro u
    rw [ht u]
    split <;> simp
  obtain ⟨hwi, hni⟩ := (h.elem c t i).mp hm
  refine ⟨?_, ?_, ?_, ?_, ?_, ?_, ?_, ?_⟩
  · intro d
    rw [hl]
    split
    · exact (h.nodup d).erase _
    · exact h.nodup d
  · intro d u
    rw [hl, (hfl u).2.1, ← h.one]
    split
    · rw [List.mem_erase_of_ne]
      intro hx
      cases hx
    · rfl
  · intro d u j
    rw [hl, (hfl u).1, (hfl u).2.2.2]
    by_cases hu : u = t
    · subst hu
      rw [if_pos rfl, List.mem_append, List.mem_singleton]
      by_cases hj : j = i
      · subst hj
        refine ⟨fun hx => ?_, fun hx => absurd (Or.inr rfl) hx.2⟩
        split at hx
        · exact absurd hx (h.nodup d).not_mem_erase
        · next hd =>
          rw [h.elem, hwi] at hx
          exact absurd (Option.some.inj hx.1).symm hd
      · have e : (d = c → (.elem u j ∈ (s.list d).erase (Node.elem u i) ↔ .elem u j ∈ s.list d)) := by
          intro _
          rw [List.mem_erase_of_ne]
          intro hx
          exact hj (Node.elem.inj hx).2
        have : (.elem u j ∈ if d = c then (s.list d).erase (Node.elem u i) else s.list d) ↔ .elem u j ∈ s.list d := by
          split
          · next hd => exact e hd
          · rfl
        rw [this, h.elem]
        simp [hj]
    · rw [if_neg hu, ← h.elem]
      split
      · rw [List.mem_erase_of_ne]
        intro hx
        exact hu (Node.elem.inj hx).1
      · rfl
  · intro u
    rw [(hfl u).1, (hfl u).2.2.2]
    split
    · next hu =>
      subst hu
      refine ⟨List.nodup_append.mpr ⟨(h.sigd u).1, by simp, ?_⟩, ?_⟩
      · intro a ha b hb hab
        rw [List.mem_singleton] at hb
        subst hab hb
        exact hni ha
      · intro j hj
        rw [List.mem_append, List.mem_singleton] at hj
        rcases hj with hj | hj
        · exact (h.sigd u).2 j hj
        · subst hj
          exact (List.getElem?_eq_some_iff.mp hwi).1
    · exact h.sigd u
  · rw [hml]
    exact h.mnodup
  · intro m u
    rw [hml, (hfl u).2.1]
    exact h.mone m u
  · intro u
    rw [(hfl u).1, (hfl u).2.2.1]
    exact h.quiet u
  · intro u j d
    rw [(hfl u).1, (hfl u).2.2.2, seen_of_pc (hfl u).2.2.1, hr, hf]
    intro h1 h2 h3
    rcases h.fresh u j d h1 h2 h3 with h4 | h4
    · exact Or.inl h4
    · refine Or.inr ?_
      split
      · exact List.mem_append_left _ h4
      · exact h4

theorem Core.signalNode {s : St} (h : Core s) (c : Cond) (n : Node) (hm : n ∈ s.list c) : Core (signalNode c s n) := by
  unfold Kcond.signalNode
  cases n with
  | one t =>
    dsimp only
    split
    · exact h
    · exact ((h.setT' t cancel rfl rfl rfl rfl).reset t).wakeUp t
  | elem t i =>
    dsimp only
    split
    · exact (h.signalElem c t i hm).wakeUp t
    · exact h.signalElem c t i hm

theorem wakeUp_other (s : St) {t u : Tid} (h : u ≠ t) : (s.wakeUp t).tasks u = s.tasks u := by
  unfold St.wakeUp
  dsimp only
  split
  · exact reset_tasks_other s h
  · rw [setT_other _ h]
    exact reset_tasks_other s h

theorem wakeUp_same (s : St) (t : Tid) (hc : s.cur ≠ some t) :
    (s.wakeUp t).tasks t = wakeTask { s.tasks t with wobj := .none } := by
  unfold St.wakeUp
  dsimp only
  rw [if_neg hc, setT_same, reset_tasks_same]

theorem wakeUp_cur (s : St) (t : Tid) : (s.wakeUp t).cur = s.cur := by
  unfold St.wakeUp
  dsimp only
  split
  · exact reset_cur s t
  · exact reset_cur s t

theorem wakeUp_list (s : St) (t : Tid) : (s.wakeUp t).list = (s.reset t).list := by
  unfold St.wakeUp
  dsimp only
  split <;> rfl

/-- The task that a member of a wait list belongs to. -/
def Node.task : Node → Tid
  | .one t => t
  | .elem t _ => t

theorem signalNode_cur (c : Cond) (s : St) (n : Node) : (signalNode c s n).cur = s.cur := by
  unfold signalNode
  cases n with
  | one t =>
    dsimp only
    split
    · rfl
    · rw [wakeUp_cur, reset_cur]
      rfl
  | elem t i =>
    dsimp only
    split
    · rw [wakeUp_cur]
      rfl
    · rfl

theorem signalNode_other (c : Cond) (s : St) (n : Node) {u : Tid} (h : u ≠ n.task) : (signalNode c s n).tasks u = s.tasks u := by
  unfold signalNode
  cases n with
  | one t =>
    have h : u ≠ t := h
    dsimp only
    split
    · rfl
    · rw [wakeUp_other _ h, reset_tasks_other _ h, setT_other _ h]
  | elem t i =>
    have h : u ≠ t := h
    dsimp only
    split
    · rw [wakeUp_other _ h, setT_other _ h]
      rfl
    · rw [setT_other _ h]
      rfl

/-- What happens to the task. -/
theorem signalNode_same (c : Cond) (s : St) (n : Node) (hc : s.cur = some n.task → (s.tasks n.task).st = .running) :
    (signalNode c s n).tasks n.task = match n with
      | .one t => if (s.tasks t).st ≠ .asleep then s.tasks t else wakeTask { cancel (s.tasks t) with wobj := .none }
      | .elem t i => if (s.tasks t).st = .asleep then wakeTask { s.tasks t with sigd := (s.tasks t).sigd ++ [i], wobj := .none }
        else { s.tasks t with sigd := (s.tasks t).sigd ++ [i] } := by
  unfold signalNode
  cases n with
  | one t =>
    dsimp only [Node.task]
    by_cases ha : (s.tasks t).st = .asleep
    · rw [if_neg (by simp [ha]), if_neg (by simp [ha]), wakeUp_same, reset_tasks_same, setT_same]
      rw [reset_cur]
      intro hx
      have := hc hx
      rw [show Node.task (.one t) = t from rfl, ha] at this
      cases this
    · rw [if_pos ha, if_pos ha]
  | elem t i =>
    dsimp only [Node.task]
    by_cases ha : (s.tasks t).st = .asleep
    · rw [if_pos ha, if_pos ha, wakeUp_same, setT_same]
      · rfl
      · intro hx
        have := hc hx
        rw [show Node.task (.elem t i) = t from rfl, ha] at this
        cases this
    · rw [if_neg ha, if_neg ha, setT_same]
      rfl

/-- The state after a signal: not asleep; and it was running before if it is now. -/
theorem signalNode_st (c : Cond) (s : St) (n : Node) (hc : s.cur = some n.task → (s.tasks n.task).st = .running) :
    ((signalNode c s n).tasks n.task).st ≠ .asleep ∧
    (((signalNode c s n).tasks n.task).st = .running ↔ (s.tasks n.task).st = .running) := by
  rw [signalNode_same c s n hc]
  cases n with
  | one t =>
    dsimp only [Node.task]
    by_cases ha : (s.tasks t).st = .asleep
    · rw [if_neg (by simp [ha])]
      have := wakeTask_fields { cancel (s.tasks t) with wobj := .none }
      simp [ha, this]
    · rw [if_pos ha]
      exact ⟨ha, Iff.rfl⟩
  | elem t i =>
    dsimp only [Node.task]
    by_cases ha : (s.tasks t).st = .asleep
    · rw [if_pos ha]
      obtain ⟨-, -, -, -, h1, h2⟩ := wakeTask_fields { s.tasks t with sigd := (s.tasks t).sigd ++ [i], wobj := .none }
      exact ⟨h1, fun hx => absurd hx h2, fun hx => by rw [ha] at hx; cases hx⟩
    · rw [if_neg ha]
      exact ⟨ha, Iff.rfl⟩

/-- The rest of the list stays. -/
theorem signalNode_list (c : Cond) (s : St) (h : Core s) (hs : AsleepAll s) (n : Node) (hm : n ∈ s.list c) (x : Node)
    (hx : x ≠ n) (d : Cond) :
    x ∈ (signalNode c s n).list d ↔ x ∈ s.list d := by
  unfold signalNode
  cases n with
  | one t =>
    have hw := (h.one c t).mp hm
    dsimp only
    split
    · rfl
    · rw [wakeUp_list, reset_list, reset_tasks_same, reset_list, setT_same]
      rw [show (cancel (s.tasks t)).wobj = (s.tasks t).wobj from rfl, hw]
      rw [if_neg (by simp)]
      split
      · rw [List.mem_erase_of_ne hx]
        rfl
      · rfl
  | elem t i =>
    dsimp only
    have e : x ∈ ((s.setL c (·.erase (.elem t i))).setT t fun k => { k with sigd := k.sigd ++ [i] }).list d ↔ x ∈ s.list d := by
      show x ∈ (if d = c then (s.list d).erase (.elem t i) else s.list d) ↔ _
      split
      · rw [List.mem_erase_of_ne hx]
      · rfl
    split
    · next ha =>
      rw [wakeUp_list, reset_list, setT_same]
      split
      · next hw =>
        exfalso
        have hp := hs t ha
        have hwi := ((h.elem c t i).mp hm).1
        have hq : (s.tasks t).pc.polling = true := by
          by_cases hq : (s.tasks t).pc.polling = true
          · exact hq
          · rw [h.quiet t (by simpa using hq)] at hwi
            cases hwi
        have hw : (s.tasks t).wobj = .cond d := hw
        unfold Task.Asleep at hp
        cases hpc : (s.tasks t).pc with
        | inPoll b =>
          rw [hpc] at hp
          rw [hp.1] at hw
          cases hw
        | setup b => rw [hpc] at hp; exact hp
        | check b j f => rw [hpc] at hp; exact hp
        | _ => rw [hpc] at hq; cases hq
      · exact e
    · exact e

/-- The invariant of all executions. -/
structure Inv (s : St) : Prop where
  core : Core s
  asleep : AsleepAll s
  cur : CurOK s

theorem Inv.signalNode {s : St} (h : Inv s) (c : Cond) (n : Node) (hm : n ∈ s.list c) : Inv (signalNode c s n) := by
  have hst := signalNode_st c s n (h.cur n.task).mpr
  refine ⟨h.core.signalNode c n hm, ?_, ?_⟩
  · intro u hu
    by_cases hx : u = n.task
    · subst hx
      exact absurd hu hst.1
    · rw [signalNode_other c s n hx] at hu ⊢
      exact h.asleep u hu
  · intro u
    rw [signalNode_cur, ← h.cur u]
    by_cases hx : u = n.task
    · subst hx
      exact hst.2
    · rw [signalNode_other c s n hx]

/-- Signals to all members of a list. -/
theorem Inv.signalNodes {s : St} (h : Inv s) (c : Cond) : ∀ (l : List Node), l.Nodup → (∀ n ∈ l, n ∈ s.list c) →
    Inv (l.foldl (Kcond.signalNode c) s) := by
  intro l
  induction l generalizing s with
  | nil => intro _ _; exact h
  | cons n l ih =>
    intro hn hl
    have hm := hl n List.mem_cons_self
    refine ih (h.signalNode c n hm) hn.of_cons ?_
    intro x hx
    rw [signalNode_list c s h.core h.asleep n hm x ?_ c]
    · exact hl x (List.mem_cons_of_mem _ hx)
    · rintro rfl
      exact (List.nodup_cons.mp hn).1 hx

theorem reset_sent (s : St) (c : Cond) (b : Bool) (t : Tid) : (s.sent c b).reset t = (s.reset t).sent c b := by
  unfold St.reset
  show ((s.sent c b).unlink t (s.tasks t).wobj).setT t _ = _
  unfold St.unlink
  split <;> rfl

theorem wakeUp_sent (s : St) (c : Cond) (b : Bool) (t : Tid) : (s.sent c b).wakeUp t = (s.wakeUp t).sent c b := by
  unfold St.wakeUp
  dsimp only
  rw [reset_sent, show (s.sent c b).cur = s.cur from rfl]
  split <;> rfl

theorem signalNode_sent (s : St) (c d : Cond) (b : Bool) (n : Node) : signalNode d (s.sent c b) n = (signalNode d s n).sent c b := by
  unfold signalNode
  cases n with
  | one t =>
    dsimp only
    rw [show (s.sent c b).tasks = s.tasks from rfl]
    split
    · rfl
    · rw [show (s.sent c b).setT t cancel = (s.setT t cancel).sent c b from rfl, reset_sent, wakeUp_sent]
  | elem t i =>
    dsimp only
    rw [show (s.sent c b).tasks = s.tasks from rfl]
    split
    · rw [← wakeUp_sent]
      rfl
    · rfl

theorem signalNodes_sent (c d : Cond) (b : Bool) : ∀ (l : List Node) (s : St),
    l.foldl (signalNode d) (s.sent c b) = (l.foldl (signalNode d) s).sent c b := by
  intro l
  induction l with
  | nil => intro s; rfl
  | cons n l ih =>
    intro s
    rw [List.foldl_cons, List.foldl_cons, signalNode_sent, ih]

/-- The record of a signal that has reached everybody who polls. -/
theorem Inv.sent {s : St} (h : Inv s) (c : Cond) (b : Bool) (hb : b = true → ∀ t i, .elem t i ∉ s.list c) : Inv (s.sent c b) := by
  refine ⟨⟨h.core.nodup, h.core.one, h.core.elem, h.core.sigd, h.core.mnodup, h.core.mone, h.core.quiet, ?_⟩, h.asleep, h.cur⟩
  intro t i d h1 h2 h3
  show (if d = c ∧ b = true then false else s.fresh d) = true ∨ _
  by_cases hd : d = c ∧ b = true
  · obtain ⟨rfl, hb'⟩ := hd
    refine Or.inr (Classical.byContradiction fun hx => ?_)
    exact hb hb' t i ((h.core.elem d t i).mpr ⟨h2, hx⟩)
  · rw [if_neg hd]
    exact h.core.fresh t i d h1 h2 h3

/-- An element that has been signalled is not in the list any more. -/
theorem signalNode_elem_gone (c : Cond) (s : St) (h : Core s) (t : Tid) (i : Nat) :
    .elem t i ∉ (signalNode c s (.elem t i)).list c := by
  unfold signalNode
  dsimp only
  have e : .elem t i ∉ ((s.setL c (·.erase (.elem t i))).setT t fun k => { k with sigd := k.sigd ++ [i] }).list c := by
    show .elem t i ∉ (if c = c then (s.list c).erase (.elem t i) else s.list c)
    rw [if_pos rfl]
    exact (h.nodup c).not_mem_erase
  split
  · rw [wakeUp_list, reset_list]
    split
    · intro hx
      exact e (List.mem_of_mem_erase hx)
    · exact e
  · exact e

/-- After signals to all members, the elements among them are gone. -/
theorem signalNodes_gone {s : St} (h : Inv s) (c : Cond) : ∀ (l : List Node), l.Nodup → (∀ n ∈ l, n ∈ s.list c) →
    ∀ t i, .elem t i ∈ (l.foldl (signalNode c) s).list c → .elem t i ∈ s.list c ∧ .elem t i ∉ l := by
  intro l
  induction l generalizing s with
  | nil => intro _ _ t i hx; exact ⟨hx, by simp⟩
  | cons n l ih =>
    intro hn hl t i hx
    have hm := hl n List.mem_cons_self
    have hx' := ih (h.signalNode c n hm) hn.of_cons (by
      intro x hxl
      rw [signalNode_list c s h.core h.asleep n hm x ?_ c]
      · exact hl x (List.mem_cons_of_mem _ hxl)
      · rintro rfl
        exact (List.nodup_cons.mp hn).1 hxl) t i hx
    by_cases he : Node.elem t i = n
    · subst he
      exact absurd hx'.1 (signalNode_elem_gone c s h.core t i)
    · refine ⟨(signalNode_list c s h.core h.asleep n hm _ he c).mp hx'.1, ?_⟩
      rw [List.mem_cons]
      exact fun hy => hy.elim he hx'.2

theorem Inv.signalAll {s : St} (h : Inv s) (c : Cond) : Inv (signalAll s c) := by
  unfold Kcond.signalAll
  rw [signalNodes_sent]
  refine (h.signalNodes c _ (h.core.nodup c) (fun _ hx => hx)).sent c true ?_
  intro _ t i hx
  obtain ⟨h1, h2⟩ := signalNodes_gone h c _ (h.core.nodup c) (fun _ hx => hx) t i hx
  exact h2 h1

theorem Inv.signalOne {s : St} (h : Inv s) (c : Cond) : Inv (signalOne s c) := by
  unfold Kcond.signalOne
  split
  · next hl =>
    refine h.sent c true ?_
    intro _ t i hx
    rw [hl] at hx
    cases hx
  · next n rest hl =>
    rw [signalNode_sent]
    have hm : n ∈ s.list c := by rw [hl]; exact List.mem_cons_self
    refine (h.signalNode c n hm).sent c _ ?_
    intro hr t i hx
    have hr' : rest = [] := by simpa using hr
    subst hr'
    by_cases he : Node.elem t i = n
    · subst he
      exact absurd hx (signalNode_elem_gone c s h.core t i)
    · rw [signalNode_list c s h.core h.asleep n hm _ he c, hl, List.mem_singleton] at hx
      exact he hx

/-! All other steps. -/

/-- A change of one task that is not asleep afterwards. -/
theorem Inv.setT {s : St} (h : Inv s) (t : Tid) (f : Task → Task) (hc : Core (s.setT t f))
    (ha : (f (s.tasks t)).st = .asleep → (f (s.tasks t)).Asleep)
    (hr : (f (s.tasks t)).st = .running ↔ (s.tasks t).st = .running) : Inv (s.setT t f) := by
  refine ⟨hc, ?_, ?_⟩
  · intro u hu
    by_cases hx : u = t
    · subst hx
      rw [setT_same] at hu ⊢
      exact ha hu
    · rw [setT_other s hx] at hu ⊢
      exact h.asleep u hu
  · intro u
    show _ ↔ s.cur = some u
    rw [← h.cur u]
    by_cases hx : u = t
    · subst hx
      rw [setT_same]
      exact hr
    · rw [setT_other s hx]

/-- A change of fields that the invariant does not mention. -/
theorem Inv.setT' {s : St} (h : Inv s) (t : Tid) (f : Task → Task) (hst : (f (s.tasks t)).st = (s.tasks t).st)
    (hw : (f (s.tasks t)).wobj = (s.tasks t).wobj)
    (hwa : (f (s.tasks t)).watch = (s.tasks t).watch) (hs : (f (s.tasks t)).sigd = (s.tasks t).sigd)
    (hp : (f (s.tasks t)).pc = (s.tasks t).pc) : Inv (s.setT t f) := by
  refine h.setT t f (h.core.setT' t f hw hwa hs hp) ?_ (by rw [hst])
  intro ha
  have := h.asleep t (by rw [← hst]; exact ha)
  unfold Task.Asleep at this ⊢
  rw [hp, hw, hs]
  exact this

/-- A task that is not asleep moves on; it is not polling. -/
theorem Inv.move {s : St} (h : Inv s) (t : Tid) (f : Task → Task) (hst : (f (s.tasks t)).st = (s.tasks t).st)
    (hn : (s.tasks t).st ≠ .asleep) (hw : (f (s.tasks t)).wobj = (s.tasks t).wobj)
    (hwa : (f (s.tasks t)).watch = (s.tasks t).watch) (hs : (f (s.tasks t)).sigd = (s.tasks t).sigd)
    (hq : (f (s.tasks t)).pc.polling = false → (s.tasks t).watch = [])
    (hf : ∀ i, (f (s.tasks t)).Seen i → ∀ c, (s.tasks t).watch[i]? = some c → s.ready c = true → s.fresh c = true ∨ i ∈ (s.tasks t).sigd) :
    Inv (s.setT t f) := by
  refine h.setT t f (h.core.setT t f hw hwa hs hq hf) ?_ (by rw [hst])
  intro ha
  rw [hst] at ha
  exact absurd ha hn

theorem Inv.wakeUp {s : St} (h : Inv s) (t : Tid) : Inv (s.wakeUp t) := by
  refine ⟨h.core.wakeUp t, ?_, ?_⟩
  · intro u hu
    by_cases hx : u = t
    · subst hx
      by_cases hc : s.cur = some u
      · exfalso
        unfold St.wakeUp at hu
        dsimp only at hu
        rw [if_pos hc, reset_tasks_same] at hu
        have := (h.cur u).mpr hc
        dsimp only at hu
        rw [this] at hu
        cases hu
      · rw [wakeUp_same s u hc] at hu
        exact absurd hu (wakeTask_fields _).2.2.2.2.1
    · rw [wakeUp_other s hx] at hu ⊢
      exact h.asleep u hu
  · intro u
    rw [wakeUp_cur, ← h.cur u]
    by_cases hx : u = t
    · subst hx
      by_cases hc : s.cur = some u
      · unfold St.wakeUp
        dsimp only
        rw [if_pos hc, reset_tasks_same]
      · rw [wakeUp_same s u hc]
        refine ⟨fun hy => absurd hy (wakeTask_fields _).2.2.2.2.2, fun hy => absurd ((h.cur u).mp hy) hc⟩
    · rw [wakeUp_other s hx]

theorem Inv.reset {s : St} (h : Inv s) (t : Tid) (hn : (s.tasks t).st ≠ .asleep) : Inv (s.reset t) := by
  refine ⟨h.core.reset t, ?_, ?_⟩
  · intro u hu
    by_cases hx : u = t
    · subst hx
      rw [reset_tasks_same] at hu
      exact absurd hu hn
    · rw [reset_tasks_other s hx] at hu ⊢
      exact h.asleep u hu
  · intro u
    rw [reset_cur, ← h.cur u]
    by_cases hx : u = t
    · subst hx
      rw [reset_tasks_same]
    · rw [reset_tasks_other s hx]

theorem prepare_tasks (s : St) (t : Tid) (w : WObj) (hn : (s.tasks t).wobj = .none) (u : Tid) :
    (s.prepare t w).tasks u = if u = t then { s.tasks u with wobj := w } else s.tasks u := by
  unfold St.prepare
  rw [if_neg (by simp [hn])]
  unfold St.link St.setT St.setL St.setM
  cases w <;> rfl

theorem prepare_cur (s : St) (t : Tid) (w : WObj) : (s.prepare t w).cur = s.cur := by
  unfold St.prepare
  split
  · rfl
  · unfold St.link St.setT St.setL St.setM
    cases w <;> rfl

theorem prepare_panic (s : St) (t : Tid) (w : WObj) (hn : (s.tasks t).wobj ≠ .none) : (s.prepare t w).panic = true := by
  unfold St.prepare
  rw [if_pos hn]

theorem prepare_ready (s : St) (t : Tid) (w : WObj) : (s.prepare t w).ready = s.ready ∧ (s.prepare t w).fresh = s.fresh := by
  unfold St.prepare
  split
  · exact ⟨rfl, rfl⟩
  · unfold St.link St.setT St.setL St.setM
    cases w <;> exact ⟨rfl, rfl⟩

theorem Inv.prepare {s : St} (h : Inv s) (t : Tid) (w : WObj) (hn : (s.tasks t).wobj = .none) (ha : (s.tasks t).st ≠ .asleep) :
    Inv (s.prepare t w) := by
  refine ⟨h.core.prepare t w hn, ?_, ?_⟩
  · intro u hu
    rw [prepare_tasks s t w hn] at hu ⊢
    by_cases hx : u = t
    · subst hx
      rw [if_pos rfl] at hu
      exact absurd hu ha
    · rw [if_neg hx] at hu ⊢
      exact h.asleep u hu
  · intro u
    rw [prepare_cur, ← h.cur u, prepare_tasks s t w hn]
    split <;> rfl

theorem Inv.goSleep {s : St} (h : Inv s) (t : Tid) (pc : Pc) (hc : s.cur = some t)
    (hq : pc.polling = false → (s.tasks t).watch = [])
    (hf : ∀ i, ({ s.tasks t with pc := pc } : Task).Seen i → ∀ c, (s.tasks t).watch[i]? = some c → s.ready c = true →
      s.fresh c = true ∨ i ∈ (s.tasks t).sigd)
    (ha : ({ s.tasks t with pc := pc } : Task).Asleep) : Inv (s.goSleep t pc) := by
  have hrun := (h.cur t).mpr hc
  unfold St.goSleep
  split
  · refine h.setT t _ ?_ ?_ ?_
    · exact h.core.setT t (fun k => { k with tready := false, st := .running, pc := pc }) rfl rfl rfl hq hf
    · intro hx
      cases hx
    · simp [hrun]
  · have hcore := h.core.setT t (fun k => { k with st := .asleep, pc := pc }) rfl rfl rfl hq hf
    refine ⟨⟨hcore.nodup, hcore.one, hcore.elem, hcore.sigd, hcore.mnodup, hcore.mone, hcore.quiet, hcore.fresh⟩, ?_, ?_⟩
    · intro u hu
      by_cases hx : u = t
      · subst hx
        show ((s.setT u (fun k => { k with st := .asleep, pc := pc })).tasks u).Asleep
        rw [setT_same]
        exact ha
      · have e : (s.setT t fun k => { k with st := .asleep, pc := pc }).tasks u = s.tasks u := setT_other s hx _
        show ((s.setT t (fun k => { k with st := .asleep, pc := pc })).tasks u).Asleep
        rw [e]
        refine h.asleep u ?_
        rw [← e]
        exact hu
    · intro u
      show ((s.setT t (fun k => { k with st := .asleep, pc := pc })).tasks u).st = .running ↔ none = some u
      by_cases hx : u = t
      · subst hx
        rw [setT_same]
        simp
      · rw [setT_other s hx, h.cur u, hc]
        refine ⟨fun hy => absurd (Option.some.inj hy).symm hx, fun hy => by cases hy⟩

theorem goSleep_panic (s : St) (t : Tid) (pc : Pc) : (s.goSleep t pc).panic = s.panic := by
  unfold St.goSleep
  split <;> rfl

theorem reset_panic (s : St) (t : Tid) : (s.reset t).panic = s.panic := by
  unfold St.reset St.setT St.unlink
  split <;> rfl

theorem wakeUp_panic (s : St) (t : Tid) : (s.wakeUp t).panic = s.panic := by
  unfold St.wakeUp
  dsimp only
  split <;> exact reset_panic s t

theorem unlock_panic (s : St) (t : Tid) (m : Mx) : (unlock s t m).panic = s.panic := by
  unfold unlock
  dsimp only
  split
  · rfl
  · rw [wakeUp_panic]

theorem Inv.unlock {s : St} (h : Inv s) (t : Tid) (m : Mx) : Inv (unlock s t m) := by
  unfold Kcond.unlock
  dsimp only
  split
  · exact ⟨⟨h.core.nodup, h.core.one, h.core.elem, h.core.sigd, h.core.mnodup, h.core.mone, h.core.quiet, h.core.fresh⟩, h.asleep, h.cur⟩
  · refine Inv.wakeUp ?_ _
    exact ⟨⟨h.core.nodup, h.core.one, h.core.elem, h.core.sigd, h.core.mnodup, h.core.mone, h.core.quiet, h.core.fresh⟩, h.asleep, h.cur⟩

theorem unlock_same {s : St} (h : Core s) (t : Tid) (m : Mx) (v : Tid) (hw : (s.tasks v).wobj ≠ .mutex m) :
    (unlock s t m).tasks v = s.tasks v := by
  unfold unlock
  dsimp only
  split
  · rfl
  · next u rest hl =>
    rw [wakeUp_other]
    rintro rfl
    refine hw ((h.mone m v).mp ?_)
    rw [hl]
    exact List.mem_cons_self

theorem unlock_cur (s : St) (t : Tid) (m : Mx) : (unlock s t m).cur = s.cur := by
  unfold unlock
  dsimp only
  split
  · rfl
  · rw [wakeUp_cur]

theorem Inv.locked {s : St} (h : Inv s) (t : Tid) (m : Mx) (k : Option (Cond × Bool)) (hr : (s.tasks t).st = .running)
    (hp : (s.tasks t).pc.polling = false) : Inv (locked s t m k) := by
  have := h.move t (fun x => { x with pc := after k }) rfl
    (by rw [hr]; simp) rfl rfl rfl (fun _ => h.core.quiet t hp) (by
      intro i hi
      unfold Task.Seen at hi
      cases k with
      | none => exact hi.elim
      | some x => exact hi.elim)
  exact ⟨⟨this.core.nodup, this.core.one, this.core.elem, this.core.sigd, this.core.mnodup, this.core.mone, this.core.quiet, this.core.fresh⟩,
    this.asleep, this.cur⟩

theorem Inv.lock {s : St} (h : Inv s) (t : Tid) (m : Mx) (k : Option (Cond × Bool)) (hc : s.cur = some t)
    (hp : (s.tasks t).pc.polling = false) (hn : (lock s t m k).panic = false) : Inv (lock s t m k) := by
  have hr := (h.cur t).mpr hc
  unfold Kcond.lock at hn ⊢
  split
  · refine Inv.locked ?_ t m k hr hp
    exact ⟨⟨h.core.nodup, h.core.one, h.core.elem, h.core.sigd, h.core.mnodup, h.core.mone, h.core.quiet, h.core.fresh⟩, h.asleep, h.cur⟩
  · next ho =>
    rw [if_neg ho, goSleep_panic] at hn
    have hw : (s.tasks t).wobj = .none := by
      refine Classical.byContradiction fun hx => ?_
      rw [prepare_panic s t _ hx] at hn
      cases hn
    have e := prepare_tasks s t (.mutex m) hw t
    rw [if_pos rfl] at e
    refine (h.prepare t (.mutex m) hw (by rw [hr]; simp)).goSleep t _ (by rw [prepare_cur]; exact hc) ?_ ?_ ?_
    · intro _
      rw [e]
      exact h.core.quiet t hp
    · intro i hi
      exact hi.elim
    · rw [e]
      rfl

theorem Inv.waitBegin {s : St} (h : Inv s) (t : Tid) (c : Cond) (timed : Bool) (m : Option Mx) (hc : s.cur = some t)
    (hp : (s.tasks t).pc = .idle) (hn : (waitBegin s t c timed m).panic = false) : Inv (waitBegin s t c timed m) := by
  have hr := (h.cur t).mpr hc
  unfold Kcond.waitBegin at hn ⊢
  dsimp only at hn ⊢
  rw [goSleep_panic] at hn
  have h0 := h.setT' t (fun k => { k with kills0 := k.kills, fires0 := k.fires, sigs0 := s.sigs c, since := s.clock, lim := timed })
    rfl rfl rfl rfl rfl
  have e0 := setT_same s t (fun k => { k with kills0 := k.kills, fires0 := k.fires, sigs0 := s.sigs c, since := s.clock, lim := timed })
  have c0 : (s.setT t (fun k => { k with kills0 := k.kills, fires0 := k.fires, sigs0 := s.sigs c, since := s.clock, lim := timed })).cur = some t := hc
  generalize s.setT t (fun k => { k with kills0 := k.kills, fires0 := k.fires, sigs0 := s.sigs c, since := s.clock, lim := timed }) = s0 at *
  have hr0 : (s0.tasks t).st = .running := by rw [e0]; exact hr
  have hp0 : (s0.tasks t).pc = .idle := by rw [e0]; exact hp
  have hw : (s0.tasks t).wobj = .none := by
    refine Classical.byContradiction fun hx => ?_
    have := prepare_panic s0 t (.cond c) hx
    cases m with
    | none =>
      dsimp only at hn
      rw [show ((s0.prepare t (.cond c)).setT t (arm timed)).panic = (s0.prepare t (.cond c)).panic from rfl, this] at hn
      cases hn
    | some m =>
      dsimp only at hn
      rw [unlock_panic, show ((s0.prepare t (.cond c)).setT t (arm timed)).panic = (s0.prepare t (.cond c)).panic from rfl, this] at hn
      cases hn
  have h1 := h0.prepare t (.cond c) hw (by rw [hr0]; simp)
  have e1 := prepare_tasks s0 t (.cond c) hw t
  rw [if_pos rfl] at e1
  have c1 : (s0.prepare t (.cond c)).cur = some t := by rw [prepare_cur]; exact c0
  generalize s0.prepare t (.cond c) = s1 at *
  have harm : ∀ k : Task, (arm timed k).st = k.st ∧ (arm timed k).wobj = k.wobj ∧ (arm timed k).watch = k.watch ∧
      (arm timed k).sigd = k.sigd ∧ (arm timed k).pc = k.pc := by
    intro k
    unfold arm
    split <;> simp
  obtain ⟨a1, a2, a3, a4, a5⟩ := harm (s1.tasks t)
  have h2 := h1.setT' t (arm timed) a1 a2 a3 a4 a5
  have e2 := setT_same s1 t (arm timed)
  have c2 : (s1.setT t (arm timed)).cur = some t := c1
  generalize s1.setT t (arm timed) = s2 at *
  have hw2 : (s2.tasks t).wobj = .cond c := by rw [e2, a2, e1]
  have hq2 : (s2.tasks t).watch = [] := by
    refine h2.core.quiet t ?_
    rw [e2, a5, e1]
    show (s0.tasks t).pc.polling = false
    rw [hp0]
    rfl
  cases m with
  | none =>
    dsimp only
    refine h2.goSleep t _ c2 (fun _ => hq2) (fun i hi => hi.elim) ?_
    exact hw2
  | some m =>
    dsimp only
    have e3 := unlock_same h2.core t m t (by rw [hw2]; simp)
    refine (h2.unlock t m).goSleep t _ (by rw [unlock_cur]; exact c2) (fun _ => by rw [e3]; exact hq2) (fun i hi => hi.elim) ?_
    rw [e3]
    exact hw2

theorem Inv.waitEnd {s : St} (h : Inv s) (t : Tid) (c : Cond) (m : Option Mx) (hc : s.cur = some t)
    (hp : (s.tasks t).pc.polling = false) (hn : (waitEnd s t c m).panic = false) : Inv (waitEnd s t c m) := by
  have hr := (h.cur t).mpr hc
  have hns : (s.tasks t).st ≠ .asleep := by rw [hr]; simp
  unfold Kcond.waitEnd at hn ⊢
  dsimp only at hn ⊢
  have h1 := h.reset t hns
  have e1 := reset_tasks_same s t
  have c1 : (s.reset t).cur = some t := by rw [reset_cur]; exact hc
  have hp1 : ((s.reset t).tasks t).pc.polling = false := by rw [e1]; exact hp
  cases m with
  | none =>
    refine h1.move t _ rfl (by rw [e1]; exact hns) rfl rfl rfl (fun _ => h1.core.quiet t hp1) (fun i hi => hi.elim)
  | some m => exact h1.lock t m _ c1 hp1 hn

theorem Inv.pollAdd {s : St} (h : Inv s) (t : Tid) (c : Cond) (timed : Bool) (hp : (s.tasks t).pc = .setup timed) :
    Inv (pollAdd s t c) := by
  have hl : ∀ d, (Kcond.pollAdd s t c).list d =
      if d = c then s.list d ++ [.elem t (s.tasks t).watch.length] else s.list d := fun d => rfl
  have ht : ∀ u, (Kcond.pollAdd s t c).tasks u = if u = t then { s.tasks u with watch := (s.tasks u).watch ++ [c] } else s.tasks u :=
    fun u => rfl
  have hml : (Kcond.pollAdd s t c).mlist = s.mlist := rfl
  have hrd : (Kcond.pollAdd s t c).ready = s.ready := rfl
  have hfr : (Kcond.pollAdd s t c).fresh = s.fresh := rfl
  have hcu : (Kcond.pollAdd s t c).cur = s.cur := rfl
  generalize Kcond.pollAdd s t c = s' at *
  have hfl : ∀ u, (s'.tasks u).st = (s.tasks u).st ∧ (s'.tasks u).wobj = (s.tasks u).wobj ∧ (s'.tasks u).pc = (s.tasks u).pc ∧
      (s'.tasks u).sigd = (s.tasks u).sigd ∧
      (s'.tasks u).watch = if u = t then (s.tasks u).watch ++ [c] else (s.tasks u).watch := by
    intro u
    rw [ht u]
    split <;> simp
  have hnew : ∀ d, .elem t (s.tasks t).watch.length ∉ s.list d := by
    intro d hx
    have := ((h.core.elem d t _).mp hx).1
    rw [List.getElem?_eq_none (Nat.le_refl _)] at this
    cases this
  refine ⟨⟨?_, ?_, ?_, ?_, ?_, ?_, ?_, ?_⟩, ?_, ?_⟩
  · intro d
    rw [hl]
    split
    · refine List.nodup_append.mpr ⟨h.core.nodup d, by simp, ?_⟩
      intro a ha b hb hab
      rw [List.mem_singleton] at hb
      subst hab hb
      exact hnew d ha
    · exact h.core.nodup d
  · intro d u
    rw [hl, (hfl u).2.1, ← h.core.one]
    split
    · rw [List.mem_append, List.mem_singleton]
      exact ⟨fun hx => hx.resolve_right (fun hx => by cases hx), Or.inl⟩
    · rfl
  · intro d u i
    rw [hl, (hfl u).2.2.2.1, (hfl u).2.2.2.2]
    by_cases hu : u = t
    · subst hu
      rw [if_pos rfl]
      by_cases hi : i = (s.tasks u).watch.length
      · subst hi
        rw [List.getElem?_append_right (Nat.le_refl _), Nat.sub_self]
        have hns : (s.tasks u).watch.length ∉ (s.tasks u).sigd := fun hx => Nat.lt_irrefl _ ((h.core.sigd u).2 _ hx)
        split
        · next hd => simp [hd, hns]
        · next hd =>
          refine ⟨fun hx => absurd hx (hnew d), fun hx => absurd ?_ hd⟩
          have := hx.1
          simp at this
          exact this.symm
      · have e : ((s.tasks u).watch ++ [c])[i]? = some d ↔ (s.tasks u).watch[i]? = some d := by
          rw [List.getElem?_append]
          split
          · rfl
          · next hge =>
            have : 1 ≤ i - (s.tasks u).watch.length := by omega
            rw [List.getElem?_eq_none (by simpa using this), List.getElem?_eq_none (by omega)]
        rw [e, ← h.core.elem]
        split
        · rw [List.mem_append, List.mem_singleton]
          refine ⟨fun hx => hx.resolve_right ?_, Or.inl⟩
          intro hx
          exact hi (Node.elem.inj hx).2
        · rfl
    · rw [if_neg hu, ← h.core.elem]
      split
      · rw [List.mem_append, List.mem_singleton]
        refine ⟨fun hx => hx.resolve_right ?_, Or.inl⟩
        intro hx
        exact hu (Node.elem.inj hx).1
      · rfl
  · intro u
    rw [(hfl u).2.2.2.1, (hfl u).2.2.2.2]
    refine ⟨(h.core.sigd u).1, fun i hi => ?_⟩
    have := (h.core.sigd u).2 i hi
    split
    · rw [List.length_append]
      omega
    · exact this
  · rw [hml]
    exact h.core.mnodup
  · intro m u
    rw [hml, (hfl u).2.1]
    exact h.core.mone m u
  · intro u hq
    rw [(hfl u).2.2.1] at hq
    rw [(hfl u).2.2.2.2]
    split
    · next hu =>
      subst hu
      rw [hp] at hq
      cases hq
    · exact h.core.quiet u hq
  · intro u i d hs hw
    rw [(hfl u).2.2.2.2] at hw
    rw [(hfl u).2.2.2.1, hrd, hfr]
    rw [seen_of_pc (hfl u).2.2.1] at hs
    split at hw
    · next hu =>
      subst hu
      unfold Task.Seen at hs
      rw [hp] at hs
      exact hs.elim
    · exact h.core.fresh u i d hs hw
  · intro u hu
    rw [(hfl u).1] at hu
    have := h.asleep u hu
    unfold Task.Asleep at this ⊢
    rw [(hfl u).2.1, (hfl u).2.2.1, (hfl u).2.2.2.1]
    exact this
  · intro u
    rw [hcu, (hfl u).1]
    exact h.cur u

theorem rearmList_same (t : Tid) (w : List Cond) : ∀ (l : List Nat) (s : St),
    (rearmList t w l s).tasks = s.tasks ∧ (rearmList t w l s).cur = s.cur ∧ (rearmList t w l s).mlist = s.mlist ∧
    (rearmList t w l s).ready = s.ready ∧ (rearmList t w l s).fresh = s.fresh ∧ (rearmList t w l s).owner = s.owner ∧
    (rearmList t w l s).holds = s.holds ∧ (rearmList t w l s).panic = s.panic ∧ (rearmList t w l s).sigs = s.sigs := by
  intro l
  induction l with
  | nil => intro s; exact ⟨rfl, rfl, rfl, rfl, rfl, rfl, rfl, rfl, rfl⟩
  | cons i l ih =>
    intro s
    unfold rearmList
    exact ih _

theorem rearmList_list (t : Tid) (w : List Cond) : ∀ (l : List Nat) (s : St) (d : Cond) (hl : ∀ i ∈ l, i < w.length),
    (rearmList t w l s).list d = s.list d ++ (l.filter fun i => w[i]? = some d).map (Node.elem t) := by
  intro l
  induction l with
  | nil => intro s d _; simp [rearmList]
  | cons i l ih =>
    intro s d hl
    have hi := hl i List.mem_cons_self
    unfold rearmList
    rw [ih _ d (fun j hj => hl j (List.mem_cons_of_mem _ hj))]
    have e : w.getD i 0 = w[i] := by simp [List.getD, hi]
    have e2 : w[i]? = some w[i] := List.getElem?_eq_getElem hi
    show (if d = w.getD i 0 then s.list d ++ [Node.elem t i] else s.list d) ++ _ = _
    rw [e, List.filter_cons, e2]
    by_cases hd : d = w[i]
    · rw [if_pos hd, if_pos (by simp [hd])]
      simp
    · rw [if_neg hd, if_neg (by simpa using fun hx => hd hx.symm)]

theorem Inv.rearm {s : St} (h : Inv s) (t : Tid) (timed : Bool) (hr : (s.tasks t).st = .running)
    : Inv (rearm s t timed) := by
  obtain ⟨hsn, hsl⟩ := h.core.sigd t
  have hl : ∀ d, (Kcond.rearm s t timed).list d =
      s.list d ++ ((s.tasks t).sigd.filter fun i => (s.tasks t).watch[i]? = some d).map (Node.elem t) :=
    fun d => rearmList_list t _ _ s d hsl
  obtain ⟨k1, k2, k3, k4, k5, -⟩ := rearmList_same t (s.tasks t).watch (s.tasks t).sigd s
  have ht : ∀ u, (Kcond.rearm s t timed).tasks u =
      if u = t then { s.tasks u with sigd := [], pc := .check timed 0 false } else s.tasks u := by
    intro u
    unfold Kcond.rearm
    show (if u = t then _ else _) = _
    rw [k1]
  have hml : (Kcond.rearm s t timed).mlist = s.mlist := k3
  have hrd : (Kcond.rearm s t timed).ready = s.ready := k4
  have hfr : (Kcond.rearm s t timed).fresh = s.fresh := k5
  have hcu : (Kcond.rearm s t timed).cur = s.cur := k2
  generalize Kcond.rearm s t timed = s' at *
  have hfl : ∀ u, (s'.tasks u).st = (s.tasks u).st ∧ (s'.tasks u).wobj = (s.tasks u).wobj ∧ (s'.tasks u).watch = (s.tasks u).watch := by
    intro u
    rw [ht u]
    split <;> simp
  refine ⟨⟨?_, ?_, ?_, ?_, ?_, ?_, ?_, ?_⟩, ?_, ?_⟩
  · intro d
    rw [hl]
    refine List.nodup_append.mpr ⟨h.core.nodup d, ?_, ?_⟩
    · exact List.pairwise_map.mpr ((hsn.filter _).imp fun hab hx => hab (Node.elem.inj hx).2)
    · intro a ha b hb hab
      subst hab
      rw [List.mem_map] at hb
      obtain ⟨i, hi, rfl⟩ := hb
      exact ((h.core.elem d t i).mp ha).2 (List.mem_filter.mp hi).1
  · intro d u
    rw [hl, (hfl u).2.1, ← h.core.one, List.mem_append, List.mem_map]
    refine ⟨fun hx => hx.resolve_right ?_, Or.inl⟩
    rintro ⟨i, -, hx⟩
    cases hx
  · intro d u i
    rw [hl, (hfl u).2.2, List.mem_append, List.mem_map, h.core.elem]
    by_cases hu : u = t
    · subst hu
      rw [ht u, if_pos rfl]
      dsimp only
      constructor
      · rintro (⟨h1, -⟩ | ⟨j, hj, hx⟩)
        · exact ⟨h1, by simp⟩
        · obtain ⟨-, rfl⟩ := Node.elem.inj hx
          exact ⟨by simpa using (List.mem_filter.mp hj).2, by simp⟩
      · rintro ⟨h1, -⟩
        by_cases hi : i ∈ (s.tasks u).sigd
        · exact Or.inr ⟨i, List.mem_filter.mpr ⟨hi, by simp [h1]⟩, rfl⟩
        · exact Or.inl ⟨h1, hi⟩
    · rw [ht u, if_neg hu]
      refine ⟨fun hx => hx.resolve_right ?_, Or.inl⟩
      rintro ⟨j, -, hx⟩
      exact hu (Node.elem.inj hx).1.symm
  · intro u
    rw [ht u]
    split
    · exact ⟨by simp, by simp⟩
    · exact h.core.sigd u
  · rw [hml]
    exact h.core.mnodup
  · intro m u
    rw [hml, (hfl u).2.1]
    exact h.core.mone m u
  · intro u
    rw [ht u]
    split
    · intro hq
      cases hq
    · exact h.core.quiet u
  · intro u i d
    rw [ht u, hrd, hfr]
    split
    · intro hs
      exact absurd hs (Nat.not_lt_zero i)
    · exact h.core.fresh u i d
  · intro u
    rw [ht u]
    split
    · next hu =>
      subst hu
      intro hx
      have hx : (s.tasks u).st = .asleep := hx
      rw [hr] at hx
      cases hx
    · exact h.asleep u
  · intro u
    rw [hcu, (hfl u).1]
    exact h.cur u

theorem Inv.pollExit {s : St} (h : Inv s) (t : Tid) (hr : (s.tasks t).st = .running) : Inv (pollExit s t) := by
  have hl : ∀ d, (Kcond.pollExit s t).list d = (s.list d).filter fun n => !n.elemOf t := fun d => rfl
  have ht : ∀ u, (Kcond.pollExit s t).tasks u =
      if u = t then { cancel (s.tasks u) with sigd := [], watch := [], pc := .retPoll } else s.tasks u := fun u => rfl
  have hml : (Kcond.pollExit s t).mlist = s.mlist := rfl
  have hrd : (Kcond.pollExit s t).ready = s.ready := rfl
  have hfr : (Kcond.pollExit s t).fresh = s.fresh := rfl
  have hcu : (Kcond.pollExit s t).cur = s.cur := rfl
  generalize Kcond.pollExit s t = s' at *
  have hfl : ∀ u, (s'.tasks u).st = (s.tasks u).st ∧ (s'.tasks u).wobj = (s.tasks u).wobj := by
    intro u
    rw [ht u]
    split <;> simp [cancel]
  refine ⟨⟨?_, ?_, ?_, ?_, ?_, ?_, ?_, ?_⟩, ?_, ?_⟩
  · intro d
    rw [hl]
    exact (h.core.nodup d).filter _
  · intro d u
    rw [hl, (hfl u).2, ← h.core.one, List.mem_filter]
    simp [Node.elemOf]
  · intro d u i
    rw [hl, List.mem_filter, h.core.elem, ht u]
    by_cases hu : u = t
    · subst hu
      rw [if_pos rfl]
      simp [Node.elemOf]
    · rw [if_neg hu]
      simp [Node.elemOf, hu]
  · intro u
    rw [ht u]
    split
    · exact ⟨by simp, by simp⟩
    · exact h.core.sigd u
  · rw [hml]
    exact h.core.mnodup
  · intro m u
    rw [hml, (hfl u).2]
    exact h.core.mone m u
  · intro u
    rw [ht u]
    split
    · intro _
      rfl
    · exact h.core.quiet u
  · intro u i d
    rw [ht u, hrd, hfr]
    split
    · intro hs
      exact hs.elim
    · exact h.core.fresh u i d
  · intro u
    rw [ht u]
    split
    · next hu =>
      subst hu
      intro hx
      have hx : (s.tasks u).st = .asleep := hx
      rw [hr] at hx
      cases hx
    · exact h.asleep u
  · intro u
    rw [hcu, (hfl u).1]
    exact h.cur u

theorem arm_fields (timed : Bool) (k : Task) : (arm timed k).st = k.st ∧ (arm timed k).wobj = k.wobj ∧ (arm timed k).watch = k.watch ∧
    (arm timed k).sigd = k.sigd ∧ (arm timed k).pc = k.pc := by
  unfold arm
  split <;> simp

theorem Inv.pollSleep {s : St} (h : Inv s) (t : Tid) (timed found late : Bool) (hc : s.cur = some t)
    (hp : (s.tasks t).pc = .check timed (s.tasks t).watch.length found) (hn : (pollSleep s t timed found late).panic = false) :
    Inv (pollSleep s t timed found late) := by
  have hr := (h.cur t).mpr hc
  unfold Kcond.pollSleep at hn ⊢
  split
  · exact h.pollExit t hr
  · next hf =>
    rw [if_neg hf] at hn
    split
    · exact h.rearm t timed hr
    · next hs =>
      rw [if_neg hs] at hn
      split
      · exact h.pollExit t hr
      · next hl =>
        rw [if_neg hl, goSleep_panic] at hn
        have hs : (s.tasks t).sigd = [] := Classical.byContradiction hs
        obtain ⟨a1, a2, a3, a4, a5⟩ := arm_fields timed (s.tasks t)
        have h1 := h.setT' t (arm timed) a1 a2 a3 a4 a5
        have e1 := setT_same s t (arm timed)
        have hw : ((s.setT t (arm timed)).tasks t).wobj = .none := by
          refine Classical.byContradiction fun hx => ?_
          rw [prepare_panic _ t _ hx] at hn
          cases hn
        have e2 := prepare_tasks (s.setT t (arm timed)) t .multi hw t
        rw [if_pos rfl, e1] at e2
        obtain ⟨r1, r2⟩ := prepare_ready (s.setT t (arm timed)) t .multi
        refine (h1.prepare t .multi hw (by rw [e1, a1, hr]; simp)).goSleep t _ (by rw [prepare_cur]; exact hc) ?_ ?_ ?_
        · intro hx
          cases hx
        · intro i _ c hwc hrd
          rw [r2]
          rw [r1] at hrd
          rw [e2] at hwc ⊢
          have hwc : (arm timed (s.tasks t)).watch[i]? = some c := hwc
          rw [a3] at hwc
          show s.fresh c = true ∨ i ∈ (arm timed (s.tasks t)).sigd
          rw [a4]
          refine h.core.fresh t i c ?_ hwc hrd
          unfold Task.Seen
          rw [hp]
          have : found = false := by simpa using hf
          rw [this]
          exact (List.getElem?_eq_some_iff.mp hwc).1
        · rw [e2]
          refine ⟨rfl, ?_⟩
          show (arm timed (s.tasks t)).sigd = []
          rw [a4, hs]

theorem Inv.pollWake {s : St} (h : Inv s) (t : Tid) (timed : Bool) (hc : s.cur = some t) : Inv (pollWake s t timed) := by
  have hr := (h.cur t).mpr hc
  unfold Kcond.pollWake
  split
  · exact h.pollExit t hr
  · split
    · refine (h.reset t (by rw [hr]; simp)).pollExit t ?_
      rw [reset_tasks_same]
      exact hr
    · split
      · refine (h.setT' t cancel rfl rfl rfl rfl rfl).rearm t timed ?_
        rw [setT_same]
        exact hr
      · exact h.rearm t timed hr

theorem fireTask_fields (k : Task) : (fireTask k).wobj = k.wobj ∧ (fireTask k).watch = k.watch ∧ (fireTask k).sigd = k.sigd ∧
    (fireTask k).pc = k.pc ∧ (fireTask k).st ≠ .asleep ∧ ((fireTask k).st = .running ↔ k.st = .running) := by
  unfold fireTask
  dsimp only
  split
  · next ha =>
    obtain ⟨h1, h2, h3, h4, h5, h6⟩ := wakeTask_fields { k with timer := false, tready := true, fires := k.fires + 1 }
    refine ⟨h1, h2, h3, h4, h5, fun hx => absurd hx h6, fun hx => ?_⟩
    rw [ha] at hx
    cases hx
  · next ha => exact ⟨rfl, rfl, rfl, rfl, ha, Iff.rfl⟩

theorem Inv.fire {s : St} (h : Inv s) (t : Tid) : Inv (s.setT t fireTask) := by
  obtain ⟨h1, h2, h3, h4, h5, h6⟩ := fireTask_fields (s.tasks t)
  exact h.setT t fireTask (h.core.setT' t fireTask h1 h2 h3 h4) (fun hx => absurd hx h5) h6

theorem Inv.kill {s : St} (h : Inv s) (t : Tid) : Inv (kill s t) := by
  have h1 := h.setT' t (fun k => { k with sigP := true, kills := k.kills + 1, stopP := false }) rfl rfl rfl rfl rfl
  unfold Kcond.kill
  dsimp only
  split
  · split
    · exact h1
    · exact h1.wakeUp t
  · next hs =>
    have e := setT_same s t (fun k => { k with sigP := true, kills := k.kills + 1, stopP := false })
    refine h1.setT t _ (h1.core.setT' t _ rfl rfl rfl rfl) (fun hx => by cases hx) ?_
    rw [e]
    simp [hs]
  · exact h1

theorem Inv.stop {s : St} (h : Inv s) (t : Tid) : Inv (stop s t) := by
  unfold Kcond.stop
  split
  · exact h.setT' t _ rfl rfl rfl rfl rfl
  · exact h
  · next hs =>
    have hcur := (h.cur t).mp hs
    have hcore := h.core.setT' t (fun k => { k with st := .stopped }) rfl rfl rfl rfl
    refine ⟨⟨hcore.nodup, hcore.one, hcore.elem, hcore.sigd, hcore.mnodup, hcore.mone, hcore.quiet, hcore.fresh⟩, ?_, ?_⟩
    · intro u hu
      by_cases hx : u = t
      · subst hx
        have hu : ((s.setT u (fun k => { k with st := .stopped })).tasks u).st = .asleep := hu
        rw [setT_same] at hu
        cases hu
      · have e : (s.setT t fun k => { k with st := .stopped }).tasks u = s.tasks u := setT_other s hx _
        show ((s.setT t (fun k => { k with st := .stopped })).tasks u).Asleep
        rw [e]
        refine h.asleep u ?_
        rw [← e]
        exact hu
    · intro u
      show ((s.setT t (fun k => { k with st := .stopped })).tasks u).st = .running ↔ none = some u
      by_cases hx : u = t
      · subst hx
        rw [setT_same]
        simp
      · rw [setT_other s hx, h.cur u, hcur]
        refine ⟨fun hy => absurd (Option.some.inj hy).symm hx, fun hy => by cases hy⟩
  · next hs =>
    exact h.setT t _ (h.core.setT' t _ rfl rfl rfl rfl) (fun hx => by cases hx) (by simp [hs])

theorem Inv.cont {s : St} (h : Inv s) (t : Tid) : Inv (cont s t) := by
  unfold Kcond.cont
  split
  · exact h.setT' t _ rfl rfl rfl rfl rfl
  · next hs => exact h.setT t _ (h.core.setT' t _ rfl rfl rfl rfl) (fun hx => by cases hx) (by simp [hs])
  · exact h

theorem Inv.switchTo {s : St} (h : Inv s) (t : Tid) (hs : (s.tasks t).st = .runnable) : Inv (switchTo s t) := by
  unfold Kcond.switchTo
  dsimp only
  have key : ∀ s1 : St, Core s1 → AsleepAll s1 → (∀ u, (s1.tasks u).st ≠ .running) →
      Inv { s1.setT t fun k => { k with st := .running, tready := false } with cur := some t } := by
    intro s1 hc ha hn
    have hcore := hc.setT' t (fun k => { k with st := .running, tready := false }) rfl rfl rfl rfl
    refine ⟨⟨hcore.nodup, hcore.one, hcore.elem, hcore.sigd, hcore.mnodup, hcore.mone, hcore.quiet, hcore.fresh⟩, ?_, ?_⟩
    · intro u hu
      by_cases hx : u = t
      · subst hx
        have hu : ((s1.setT u (fun k => { k with st := .running, tready := false })).tasks u).st = .asleep := hu
        rw [setT_same] at hu
        cases hu
      · have e : (s1.setT t fun k => { k with st := .running, tready := false }).tasks u = s1.tasks u := setT_other s1 hx _
        show ((s1.setT t (fun k => { k with st := .running, tready := false })).tasks u).Asleep
        rw [e]
        refine ha u ?_
        rw [← e]
        exact hu
    · intro u
      show ((s1.setT t (fun k => { k with st := .running, tready := false })).tasks u).st = .running ↔ some t = some u
      by_cases hx : u = t
      · subst hx
        rw [setT_same]
        simp
      · rw [setT_other s1 hx]
        exact ⟨fun hy => absurd hy (hn u), fun hy => absurd (Option.some.inj hy).symm hx⟩
  cases hcur : s.cur with
  | none =>
    refine key s h.core h.asleep ?_
    intro u hu
    have := (h.cur u).mp hu
    rw [hcur] at this
    cases this
  | some v =>
    refine key _ (h.core.setT' v _ rfl rfl rfl rfl) ?_ ?_
    · intro u hu
      by_cases hx : u = v
      · subst hx
        rw [setT_same] at hu
        cases hu
      · rw [setT_other s hx] at hu ⊢
        exact h.asleep u hu
    · intro u
      by_cases hx : u = v
      · subst hx
        rw [setT_same]
        simp
      · rw [setT_other s hx]
        intro hu
        have := (h.cur u).mp hu
        rw [hcur] at this
        exact hx (Option.some.inj this).symm

theorem Inv.setReady {s : St} (h : Inv s) (c : Cond) (b : Bool) : Inv (setReady s c b) := by
  refine ⟨⟨h.core.nodup, h.core.one, h.core.elem, h.core.sigd, h.core.mnodup, h.core.mone, h.core.quiet, ?_⟩, h.asleep, h.cur⟩
  intro t i d h1 h2 h3
  have h3 : (if d = c then b else s.ready d) = true := h3
  show (if d = c then (if b then s.fresh d || !s.ready d else false) else s.fresh d) = true ∨ _
  by_cases hd : d = c
  · rw [if_pos hd] at h3 ⊢
    rw [if_pos h3]
    cases hrd : s.ready d with
    | false => exact Or.inl (by simp)
    | true =>
      rcases h.core.fresh t i d h1 h2 hrd with h4 | h4
      · exact Or.inl (by simp [h4])
      · exact Or.inr h4
  · rw [if_neg hd] at h3 ⊢
    exact h.core.fresh t i d h1 h2 h3

theorem Inv.act {s s' : St} (h : Inv s) (t : Tid) (e : Ev) (hc : s.cur = some t) (hst : act s t e = some s')
    (hn : s'.panic = false) : Inv s' := by
  have hr := (h.cur t).mpr hc
  have hns : (s.tasks t).st ≠ .asleep := by rw [hr]; simp
  unfold Kcond.act at hst
  split at hst
  · split at hst
    · cases hst
      exact h.setT' t _ rfl rfl rfl rfl rfl
    · cases hst
  · split at hst
    · cases hst
      exact h.setT' t _ rfl rfl rfl rfl rfl
    · cases hst
  · next c timed m =>
    split at hst
    · next hp =>
      cases hst
      exact h.waitBegin t c timed m hc hp.1 hn
    · cases hst
  · split at hst
    · next hp =>
      cases hst
      exact h.waitEnd t _ _ hc (by rw [hp]; rfl) hn
    · next hp =>
      cases hst
      exact h.locked t _ _ hr (by rw [hp]; rfl)
    · next hp =>
      cases hst
      refine h.move t _ rfl hns rfl rfl rfl (fun _ => h.core.quiet t (by rw [hp]; rfl)) (fun i hi => hi.elim)
    · cases hst
      exact h.pollWake t _ hc
    · cases hst
  · split at hst
    · next hp =>
      cases hst
      refine h.move t _ rfl hns rfl rfl rfl (fun _ => h.core.quiet t (by rw [hp]; rfl)) (fun i hi => hi.elim)
    · next hp =>
      cases hst
      refine h.move t _ rfl hns rfl rfl rfl (fun _ => h.core.quiet t (by rw [hp]; rfl)) (fun i hi => hi.elim)
    · cases hst
  · split at hst
    · cases hst
      exact h.signalOne _
    · cases hst
  · split at hst
    · cases hst
      exact h.signalAll _
    · cases hst
  · split at hst
    · next hp =>
      cases hst
      exact h.lock t _ none hc (by rw [hp.1]; rfl) hn
    · cases hst
  · split at hst
    · cases hst
      exact h.unlock t _
    · cases hst
  · split at hst
    · next hp =>
      cases hst
      obtain ⟨a1, a2, a3, a4, a5⟩ := arm_fields true (s.tasks t)
      have h1 := h.setT' t (arm true) a1 a2 a3 a4 a5
      have e1 := setT_same s t (arm true)
      refine h1.goSleep t _ hc (fun _ => ?_) (fun i hi => hi.elim) ?_
      · rw [e1, a3]
        exact h.core.quiet t (by rw [hp]; rfl)
      · trivial
    · cases hst
  · split at hst
    · next hp =>
      cases hst
      refine h.move t _ rfl hns rfl rfl rfl (fun hx => by cases hx) (fun i hi => hi.elim)
    · cases hst
  · split at hst
    · next hp =>
      cases hst
      exact h.pollAdd t _ _ hp
    · cases hst
  · split at hst
    · next hp =>
      cases hst
      refine h.move t _ rfl hns rfl rfl rfl (fun hx => by cases hx) (fun i hi => absurd hi (Nat.not_lt_zero i))
    · cases hst
  · split at hst
    · next timed j found hp =>
      split at hst
      · next hj =>
        cases hst
        refine h.move t _ rfl hns rfl rfl rfl (fun hx => by cases hx) ?_
        intro i hi c hwc hrd
        have hw : (s.tasks t).watch.getD j 0 = (s.tasks t).watch[j] := by simp [List.getD, hj]
        unfold Task.Seen at hi
        dsimp only at hi
        cases hf : (found || s.ready ((s.tasks t).watch.getD j 0)) with
        | true =>
          rw [hf] at hi
          exact hi.elim
        | false =>
          rw [hf] at hi
          have hi : i < j + 1 := hi
          rw [Bool.or_eq_false_iff] at hf
          by_cases hij : i = j
          · subst hij
            rw [List.getElem?_eq_getElem hj] at hwc
            rw [hw, Option.some.inj hwc, hrd] at hf
            cases hf.2
          · refine h.core.fresh t i c ?_ hwc hrd
            unfold Task.Seen
            rw [hp, hf.1]
            show i < j
            omega
      · cases hst
    · cases hst
  · split at hst
    · next timed j found hp =>
      split at hst
      · next hj =>
        cases hst
        refine h.pollSleep t timed found _ hc ?_ hn
        rw [hp, hj]
      · cases hst
    · cases hst
  · cases hst

theorem init_inv (r : Cond → Bool) : Inv (init r) := by
  refine ⟨⟨?_, ?_, ?_, ?_, ?_, ?_, ?_, ?_⟩, ?_, ?_⟩
  · intro c
    exact List.nodup_nil
  · intro c t
    simp [init, task0]
  · intro c t i
    simp [init, task0]
  · intro t
    simp [init, task0]
  · intro c
    exact List.nodup_nil
  · intro c t
    simp [init, task0]
  · intro t _
    rfl
  · intro t i c hs
    exact hs.elim
  · intro t ht
    cases ht
  · intro t
    simp [init, task0]

theorem Inv.step1 {s s' : St} (h : Inv s) (e : Ev) (hst : step1 s e = some s') (hn : s'.panic = false) : Inv s' := by
  unfold Kcond.step1 at hst
  split at hst
  · split at hst
    · next hp =>
      cases hst
      exact h.switchTo _ hp.1
    · cases hst
  · split at hst
    · cases hst
      exact h.fire _
    · cases hst
  · cases hst
    exact h.kill _
  · cases hst
    exact h.stop _
  · cases hst
    exact h.cont _
  · cases hst
    exact h.setReady _ _
  · split at hst
    · cases hst
    · next hc => exact h.act _ _ hc hst hn

theorem step_some {s s' : St} {e : Ev} (h : step s e = some s') :
    s.panic = false ∧ ∃ x, step1 s e = some x ∧ s' = { x with clock := s.clock + 1 } := by
  unfold step at h
  split at h
  · cases h
  · next hp =>
    rw [Option.map_eq_some_iff] at h
    obtain ⟨x, h1, h2⟩ := h
    exact ⟨by simpa using hp, x, h1, h2.symm⟩

theorem reachP_inv {ok : St → Ev → Prop} {s : St} (h : ReachP ok s) : s.panic = false → Inv s := by
  induction h with
  | init r => intro _; exact init_inv r
  | step e h hok hst ih =>
    intro hn
    obtain ⟨hp, x, h1, rfl⟩ := step_some hst
    have := (ih hp).step1 e h1 hn
    exact ⟨⟨this.core.nodup, this.core.one, this.core.elem, this.core.sigd, this.core.mnodup, this.core.mone, this.core.quiet, this.core.fresh⟩,
      this.asleep, this.cur⟩

/-! Poll. -/

/-- C84. While a task sleeps in a poll, a file it watches is ready only if that has not been announced to everybody since it became
ready (that the next announcement wakes it up is `signal_all_wakes`). -/
theorem poll_sees_events {s : St} (h : Reach s) (hn : s.panic = false) (t : Tid) (timed : Bool) (hp : (s.tasks t).pc = .inPoll timed)
    (ha : (s.tasks t).st = .asleep) (c : Cond) (hc : c ∈ (s.tasks t).watch) : s.ready c = true → s.fresh c = true := by
  intro hr
  have hi := reachP_inv h hn
  have hs := hi.asleep t ha
  unfold Task.Asleep at hs
  rw [hp] at hs
  obtain ⟨i, hlt, hget⟩ := List.getElem_of_mem hc
  have := hi.core.fresh t i c (by unfold Task.Seen; rw [hp]; trivial) (by rw [List.getElem?_eq_getElem hlt, hget]) hr
  rw [hs.2] at this
  simpa using this

/-! The order of the wait lists. -/

/-- Members leave, and elements of multi_obj_waiters are added at the end. -/
def ListLe (l l' : List Node) : Prop := ∃ l0 x : List Node, l0.Sublist l ∧ l' = l0 ++ x ∧ ∀ t, .one t ∉ x

theorem ListLe.refl (l : List Node) : ListLe l l := ⟨l, [], List.Sublist.refl l, by simp, by simp⟩

theorem ListLe.of_sublist {l l' : List Node} (h : l'.Sublist l) : ListLe l l' := ⟨l', [], h, by simp, by simp⟩

theorem ListLe.trans {a b c : List Node} (h1 : ListLe a b) (h2 : ListLe b c) : ListLe a c := by
  obtain ⟨l0, x, hs, rfl, hx⟩ := h1
  obtain ⟨l1, y, hs', rfl, hy⟩ := h2
  obtain ⟨p, q, rfl, hp, hq⟩ := List.sublist_append_iff.mp hs'
  refine ⟨p, q ++ y, hp.trans hs, by simp, ?_⟩
  intro t ht
  rcases List.mem_append.mp ht with ht | ht
  · exact hx t (hq.subset ht)
  · exact hy t ht

/-- What a `kcond_wait` has recorded. -/
def Task.begun (k : Task) : Nat × Nat × Nat × Nat × Bool := (k.since, k.kills0, k.fires0, k.sigs0, k.lim)

/-- No `kcond_wait` has begun. -/
def Frame (s s' : St) : Prop := (∀ u, (s'.tasks u).begun = (s.tasks u).begun) ∧ ∀ c, ListLe (s.list c) (s'.list c)

theorem Frame.refl (s : St) : Frame s s := ⟨fun _ => rfl, fun _ => ListLe.refl _⟩

theorem Frame.trans {a b c : St} (h1 : Frame a b) (h2 : Frame b c) : Frame a c :=
  ⟨fun u => (h2.1 u).trans (h1.1 u), fun d => (h1.2 d).trans (h2.2 d)⟩

theorem frame_setT (s : St) (t : Tid) (f : Task → Task) (hf : (f (s.tasks t)).begun = (s.tasks t).begun) : Frame s (s.setT t f) := by
  refine ⟨fun u => ?_, fun _ => ListLe.refl _⟩
  by_cases hx : u = t
  · subst hx
    rw [setT_same]
    exact hf
  · rw [setT_other s hx]

theorem frame_reset (s : St) (t : Tid) : Frame s (s.reset t) := by
  refine ⟨fun u => ?_, fun c => ?_⟩
  · by_cases hx : u = t
    · subst hx
      rw [reset_tasks_same]
      rfl
    · rw [reset_tasks_other s hx]
  · rw [reset_list]
    split
    · exact ListLe.of_sublist List.erase_sublist
    · exact ListLe.refl _

theorem wakeTask_begun (k : Task) : (wakeTask k).begun = k.begun := by
  unfold wakeTask
  split <;> rfl

theorem frame_wakeUp (s : St) (t : Tid) : Frame s (s.wakeUp t) := by
  unfold St.wakeUp
  dsimp only
  split
  · exact frame_reset s t
  · exact (frame_reset s t).trans (frame_setT _ t _ (wakeTask_begun _))

theorem frame_signalNode (c : Cond) (s : St) (n : Node) : Frame s (signalNode c s n) := by
  unfold signalNode
  cases n with
  | one t =>
    dsimp only
    split
    · exact Frame.refl s
    · exact ((frame_setT s t cancel rfl).trans (frame_reset _ t)).trans (frame_wakeUp _ t)
  | elem t i =>
    dsimp only
    have h1 : Frame s (s.setL c (·.erase (.elem t i))) := by
      refine ⟨fun u => rfl, fun d => ?_⟩
      show ListLe (s.list d) (if d = c then (s.list d).erase (.elem t i) else s.list d)
      split
      · exact ListLe.of_sublist List.erase_sublist
      · exact ListLe.refl _
    have h2 := h1.trans (frame_setT _ t (fun k => { k with sigd := k.sigd ++ [i] }) rfl)
    split
    · exact h2.trans (frame_wakeUp _ t)
    · exact h2

theorem frame_signalNodes (c : Cond) : ∀ (l : List Node) (s : St), Frame s (l.foldl (signalNode c) s) := by
  intro l
  induction l with
  | nil => intro s; exact Frame.refl s
  | cons n l ih =>
    intro s
    exact (frame_signalNode c s n).trans (ih _)

theorem frame_sent (s : St) (c : Cond) (b : Bool) : Frame s (s.sent c b) := ⟨fun _ => rfl, fun _ => ListLe.refl _⟩

theorem frame_unlock (s : St) (t : Tid) (m : Mx) : Frame s (unlock s t m) := by
  unfold unlock
  dsimp only
  split
  · exact ⟨fun _ => rfl, fun _ => ListLe.refl _⟩
  · refine Frame.trans ?_ (frame_wakeUp _ _)
    exact ⟨fun _ => rfl, fun _ => ListLe.refl _⟩

theorem frame_prepare (s : St) (t : Tid) (w : WObj) (hw : ∀ c, w ≠ .cond c) : Frame s (s.prepare t w) := by
  unfold St.prepare
  split
  · exact Frame.refl s
  · refine Frame.trans (b := s.link t w) ?_ (frame_setT _ t _ rfl)
    unfold St.link
    split
    · next c => exact absurd rfl (hw c)
    · exact ⟨fun _ => rfl, fun _ => ListLe.refl _⟩
    · exact Frame.refl s

theorem frame_goSleep (s : St) (t : Tid) (pc : Pc) : Frame s (s.goSleep t pc) := by
  unfold St.goSleep
  split
  · exact frame_setT s t _ rfl
  · exact frame_setT s t (fun k => { k with st := .asleep, pc := pc }) rfl

theorem frame_locked (s : St) (t : Tid) (m : Mx) (k : Option (Cond × Bool)) : Frame s (locked s t m k) := by
  unfold locked
  exact frame_setT s t (fun x => { x with pc := after k }) rfl

theorem frame_lock (s : St) (t : Tid) (m : Mx) (k : Option (Cond × Bool)) : Frame s (lock s t m k) := by
  unfold lock
  split
  · exact frame_locked _ t m k
  · exact (frame_prepare s t _ (by simp)).trans (frame_goSleep _ t _)

theorem frame_waitEnd (s : St) (t : Tid) (c : Cond) (m : Option Mx) : Frame s (waitEnd s t c m) := by
  unfold waitEnd
  dsimp only
  refine (frame_reset s t).trans ?_
  split
  · exact frame_setT _ t _ rfl
  · exact frame_lock _ t _ _

theorem frame_rearm (s : St) (h : Core s) (t : Tid) (timed : Bool) : Frame s (rearm s t timed) := by
  unfold rearm
  refine Frame.trans ?_ (frame_setT _ t _ rfl)
  refine ⟨fun u => by rw [(rearmList_same t _ _ s).1], fun d => ?_⟩
  rw [rearmList_list t _ _ s d (h.sigd t).2]
  refine ⟨s.list d, _, List.Sublist.refl _, rfl, ?_⟩
  intro u hu
  rw [List.mem_map] at hu
  obtain ⟨i, -, hx⟩ := hu
  cases hx

theorem frame_pollExit (s : St) (t : Tid) : Frame s (pollExit s t) := by
  unfold pollExit
  refine ⟨fun u => ?_, fun d => ListLe.of_sublist List.filter_sublist⟩
  exact (frame_setT s t (fun k => { cancel k with sigd := [], watch := [], pc := .retPoll }) rfl).1 u

theorem arm_begun (timed : Bool) (k : Task) : (arm timed k).begun = k.begun := by
  unfold arm
  split <;> rfl

theorem frame_pollSleep (s : St) (h : Core s) (t : Tid) (timed found late : Bool) : Frame s (pollSleep s t timed found late) := by
  unfold pollSleep
  split
  · exact frame_pollExit s t
  · split
    · exact frame_rearm s h t timed
    · split
      · exact frame_pollExit s t
      · exact ((frame_setT s t _ (arm_begun timed _)).trans (frame_prepare _ t _ (by simp))).trans (frame_goSleep _ t _)

theorem frame_pollWake (s : St) (h : Core s) (t : Tid) (timed : Bool) : Frame s (pollWake s t timed) := by
  unfold pollWake
  split
  · exact frame_pollExit s t
  · split
    · exact (frame_reset s t).trans (frame_pollExit _ t)
    · split
      · exact (frame_setT s t cancel rfl).trans (frame_rearm _ (h.setT' t cancel rfl rfl rfl rfl) t timed)
      · exact frame_rearm s h t timed

theorem frame_kill (s : St) (t : Tid) : Frame s (kill s t) := by
  unfold kill
  dsimp only
  refine Frame.trans (frame_setT s t (fun k => { k with sigP := true, kills := k.kills + 1, stopP := false }) rfl) ?_
  split
  · split
    · exact Frame.refl _
    · exact frame_wakeUp _ t
  · exact frame_setT _ t _ rfl
  · exact Frame.refl _

theorem frame_stop (s : St) (t : Tid) : Frame s (stop s t) := by
  unfold stop
  split
  · exact frame_setT s t _ rfl
  · exact Frame.refl s
  · exact frame_setT s t (fun k => { k with st := .stopped }) rfl
  · exact frame_setT s t _ rfl

theorem frame_cont (s : St) (t : Tid) : Frame s (cont s t) := by
  unfold cont
  split
  · exact frame_setT s t _ rfl
  · exact frame_setT s t _ rfl
  · exact Frame.refl s

theorem frame_switchTo (s : St) (t : Tid) : Frame s (switchTo s t) := by
  unfold switchTo
  dsimp only
  have : ∀ s1 : St, Frame s1 { s1.setT t fun k => { k with st := .running, tready := false } with cur := some t } :=
    fun s1 => frame_setT s1 t (fun k => { k with st := .running, tready := false }) rfl
  split
  · exact this s
  · next u _ => exact (frame_setT s u (fun k => { k with st := .runnable }) rfl).trans (this _)

theorem fireTask_begun (k : Task) : (fireTask k).begun = k.begun := by
  unfold fireTask
  dsimp only
  split
  · rw [wakeTask_begun]
    rfl
  · rfl

theorem frame_pollAdd (s : St) (t : Tid) (c : Cond) : Frame s (pollAdd s t c) := by
  unfold pollAdd
  refine Frame.trans ?_ (frame_setT _ t _ rfl)
  refine ⟨fun _ => rfl, fun d => ?_⟩
  show ListLe (s.list d) (if d = c then s.list d ++ [.elem t (s.tasks t).watch.length] else s.list d)
  split
  · exact ⟨s.list d, _, List.Sublist.refl _, rfl, by simp⟩
  · exact ListLe.refl _

theorem frame_signalOne (s : St) (c : Cond) : Frame s (signalOne s c) := by
  unfold signalOne
  split
  · exact frame_sent s c true
  · exact (frame_sent s c _).trans (frame_signalNode c _ _)

theorem frame_signalAll (s : St) (c : Cond) : Frame s (signalAll s c) :=
  (frame_sent s c true).trans (frame_signalNodes c _ _)

/-- All steps but the beginning of `kcond_wait`. -/
theorem frame_step1 {s s' : St} (h : Core s) (e : Ev) (he : ∀ c b m, e ≠ .wait c b m) (hst : step1 s e = some s') : Frame s s' := by
  unfold step1 at hst
  split at hst
  · split at hst
    · cases hst
      exact frame_switchTo s _
    · cases hst
  · split at hst
    · cases hst
      exact frame_setT s _ _ (fireTask_begun _)
    · cases hst
  · cases hst
    exact frame_kill s _
  · cases hst
    exact frame_stop s _
  · cases hst
    exact frame_cont s _
  · cases hst
    exact ⟨fun _ => rfl, fun _ => ListLe.refl _⟩
  · split at hst
    · cases hst
    · next t hc =>
      unfold act at hst
      split at hst
      · split at hst
        · cases hst
          exact frame_setT s t _ rfl
        · cases hst
      · split at hst
        · cases hst
          exact frame_setT s t _ rfl
        · cases hst
      · exact absurd rfl (he _ _ _)
      · split at hst
        · cases hst
          exact frame_waitEnd s t _ _
        · cases hst
          exact frame_locked s t _ _
        · cases hst
          exact frame_setT s t _ rfl
        · cases hst
          exact frame_pollWake s h t _
        · cases hst
      · split at hst
        · cases hst
          exact frame_setT s t _ rfl
        · cases hst
          exact frame_setT s t _ rfl
        · cases hst
      · split at hst
        · cases hst
          exact frame_signalOne s _
        · cases hst
      · split at hst
        · cases hst
          exact frame_signalAll s _
        · cases hst
      · split at hst
        · cases hst
          exact frame_lock s t _ none
        · cases hst
      · split at hst
        · cases hst
          exact frame_unlock s t _
        · cases hst
      · split at hst
        · cases hst
          exact (frame_setT s t _ (arm_begun true _)).trans (frame_goSleep _ t _)
        · cases hst
      · split at hst
        · cases hst
          exact frame_setT s t _ rfl
        · cases hst
      · split at hst
        · cases hst
          exact frame_pollAdd s t _
        · cases hst
      · split at hst
        · cases hst
          exact frame_setT s t _ rfl
        · cases hst
      · split at hst
        · split at hst
          · cases hst
            exact frame_setT s t _ rfl
          · cases hst
        · cases hst
      · split at hst
        · split at hst
          · cases hst
            exact frame_pollSleep s h t _ _ _
          · cases hst
        · cases hst
      · cases hst

/-- The order: who has waited longer is first. -/
def Older (s : St) (a b : Node) : Prop := ∀ t u, a = .one t → b = .one u → (s.tasks t).since < (s.tasks u).since

structure Ord (s : St) : Prop where
  list : ∀ c, (s.list c).Pairwise (Older s)
  past : ∀ t, (s.tasks t).since = 0 ∨ (s.tasks t).since < s.clock
  linked : ∀ c t, .one t ∈ s.list c → (s.tasks t).since < s.clock

theorem Ord.frame {s s' : St} (h : Ord s) (hf : Frame s s') (n : Nat) (hc : s.clock ≤ n) : Ord { s' with clock := n } := by
  have hs : ∀ u, (s'.tasks u).since = (s.tasks u).since := fun u => congrArg (·.1) (hf.1 u)
  have hmem : ∀ c t, .one t ∈ s'.list c → .one t ∈ s.list c := by
    intro c t ht
    obtain ⟨l0, x, hsub, hl, hx⟩ := hf.2 c
    rw [hl, List.mem_append] at ht
    exact hsub.subset (ht.resolve_right (hx t))
  refine ⟨?_, ?_, ?_⟩
  · intro c
    show (s'.list c).Pairwise _
    obtain ⟨l0, x, hsub, hl, hx⟩ := hf.2 c
    rw [hl, List.pairwise_append]
    refine ⟨((h.list c).sublist hsub).imp ?_, ?_, ?_⟩
    · intro a b hab t u ha hb
      show (s'.tasks t).since < (s'.tasks u).since
      rw [hs, hs]
      exact hab t u ha hb
    · refine List.pairwise_of_forall_mem_list ?_
      intro a ha b _ t u hat
      rw [hat] at ha
      exact absurd ha (hx t)
    · intro a _ b hb t u _ hbu
      rw [hbu] at hb
      exact absurd hb (hx u)
  · intro t
    show (s'.tasks t).since = 0 ∨ (s'.tasks t).since < n
    rw [hs]
    rcases h.past t with h1 | h1
    · exact Or.inl h1
    · exact Or.inr (by omega)
  · intro c t ht
    show (s'.tasks t).since < n
    rw [hs]
    have := h.linked c t (hmem c t ht)
    omega

theorem prepare_list (s : St) (t : Tid) (w : WObj) (hn : (s.tasks t).wobj = .none) (d : Cond) :
    (s.prepare t w).list d = if w = .cond d then s.list d ++ [.one t] else s.list d := by
  unfold St.prepare
  rw [if_neg (by simp [hn])]
  unfold St.link St.setT St.setL St.setM
  cases w with
  | cond e =>
    dsimp only
    by_cases hd : d = e
    · subst hd
      rw [if_pos rfl, if_pos rfl]
    · rw [if_neg hd, if_neg]
      intro hx
      exact hd (WObj.cond.inj hx).symm
  | _ => simp

/-- What the beginning of `kcond_wait` records, up to where it sleeps. -/
theorem waitBegin_panic (s : St) (t : Tid) (c : Cond) (timed : Bool) (m : Option Mx) (hn : (waitBegin s t c timed m).panic = false) :
    (s.tasks t).wobj = .none := by
  refine Classical.byContradiction fun hx => ?_
  unfold waitBegin at hn
  dsimp only at hn
  rw [goSleep_panic] at hn
  have : ((s.setT t (fun k => { k with kills0 := k.kills, fires0 := k.fires, sigs0 := s.sigs c, since := s.clock, lim := timed })).prepare t
      (.cond c)).panic = true := by
    refine prepare_panic _ t _ ?_
    rw [setT_same]
    exact hx
  cases m with
  | none =>
    dsimp only at hn
    rw [show ∀ x : St, (x.setT t (arm timed)).panic = x.panic from fun _ => rfl, this] at hn
    cases hn
  | some m =>
    dsimp only at hn
    rw [unlock_panic, show ∀ x : St, (x.setT t (arm timed)).panic = x.panic from fun _ => rfl, this] at hn
    cases hn

theorem Ord.waitBegin {s : St} (h : Ord s) (hi : Inv s) (t : Tid) (c : Cond) (timed : Bool) (m : Option Mx)
    (hn : (waitBegin s t c timed m).panic = false) : Ord { waitBegin s t c timed m with clock := s.clock + 1 } := by
  have hw := waitBegin_panic s t c timed m hn
  have hnot : ∀ d, .one t ∉ s.list d := by
    intro d hx
    rw [hi.core.one, hw] at hx
    cases hx
  have hw0 : ((s.setT t (fun k => { k with kills0 := k.kills, fires0 := k.fires, sigs0 := s.sigs c, since := s.clock, lim := timed })).tasks t).wobj = .none := by
    rw [setT_same]
    exact hw
  have hsame : ∀ u, u ≠ t → (((s.setT t (fun k => { k with kills0 := k.kills, fires0 := k.fires, sigs0 := s.sigs c, since := s.clock, lim := timed })).prepare t
      (.cond c)).tasks u).since = (s.tasks u).since := by
    intro u hu
    rw [prepare_tasks _ t _ hw0, if_neg hu, setT_other s hu]
  have hself : (((s.setT t (fun k => { k with kills0 := k.kills, fires0 := k.fires, sigs0 := s.sigs c, since := s.clock, lim := timed })).prepare t
      (.cond c)).tasks t).since = s.clock := by
    rw [prepare_tasks _ t _ hw0, if_pos rfl, setT_same]
  have hlist : ∀ d, ((s.setT t (fun k => { k with kills0 := k.kills, fires0 := k.fires, sigs0 := s.sigs c, since := s.clock, lim := timed })).prepare t
      (.cond c)).list d = if WObj.cond c = .cond d then s.list d ++ [.one t] else s.list d := fun d => prepare_list _ t _ hw0 d
  have hfr : Frame ((s.setT t (fun k => { k with kills0 := k.kills, fires0 := k.fires, sigs0 := s.sigs c, since := s.clock, lim := timed })).prepare t
      (.cond c)) (Kcond.waitBegin s t c timed m) := by
    unfold Kcond.waitBegin
    dsimp only
    refine (Frame.trans (frame_setT _ t _ (arm_begun timed _)) ?_).trans (frame_goSleep _ t _)
    split
    · exact Frame.refl _
    · exact frame_unlock _ t _
  generalize (s.setT t (fun k => { k with kills0 := k.kills, fires0 := k.fires, sigs0 := s.sigs c, since := s.clock, lim := timed })).prepare t
      (.cond c) = s1 at *
  have h1 : Ord { s1 with clock := s.clock + 1 } := by
    refine ⟨?_, ?_, ?_⟩
    · intro d
      show (s1.list d).Pairwise (Older s1)
      have hold : (s.list d).Pairwise (Older s1) := by
        refine List.Pairwise.imp_of_mem ?_ (h.list d)
        intro a b ha hb hab u v hau hbv
        have hu : u ≠ t := by
          rintro rfl
          rw [hau] at ha
          exact hnot d ha
        have hv : v ≠ t := by
          rintro rfl
          rw [hbv] at hb
          exact hnot d hb
        rw [hsame u hu, hsame v hv]
        exact hab u v hau hbv
      rw [hlist]
      split
      · rw [List.pairwise_append]
        refine ⟨hold, List.pairwise_singleton _ _, ?_⟩
        intro a ha b hb u v hau hbv
        rw [List.mem_singleton] at hb
        rw [hb] at hbv
        cases hbv
        rw [hau] at ha
        have hu : u ≠ t := by
          rintro rfl
          exact hnot d ha
        rw [hsame u hu, hself]
        exact h.linked d u ha
      · exact hold
    · intro u
      show (s1.tasks u).since = 0 ∨ (s1.tasks u).since < s.clock + 1
      by_cases hu : u = t
      · rw [hu, hself]
        exact Or.inr (Nat.lt_succ_self _)
      · rw [hsame u hu]
        rcases h.past u with hx | hx
        · exact Or.inl hx
        · exact Or.inr (by omega)
    · intro d u hm
      show (s1.tasks u).since < s.clock + 1
      by_cases hu : u = t
      · rw [hu, hself]
        exact Nat.lt_succ_self _
      · rw [hsame u hu]
        have hm : .one u ∈ s1.list d := hm
        rw [hlist] at hm
        have : .one u ∈ s.list d := by
          split at hm
          · rw [List.mem_append, List.mem_singleton] at hm
            refine hm.resolve_right ?_
            intro hx
            exact hu (Node.one.inj hx)
          · exact hm
        have := h.linked d u this
        omega
  exact h1.frame hfr _ (Nat.le_refl _)

theorem reachP_ord {ok : St → Ev → Prop} {s : St} (h : ReachP ok s) : s.panic = false → Ord s := by
  induction h with
  | init r =>
    intro _
    refine ⟨fun c => List.Pairwise.nil, fun t => Or.inl rfl, fun c t ht => ?_⟩
    cases ht
  | @step s s' e h hok hst ih =>
    intro hn
    obtain ⟨hp, x, h1, rfl⟩ := step_some hst
    have hi := reachP_inv h hp
    by_cases he : ∀ c b m, e ≠ .wait c b m
    · exact (ih hp).frame (frame_step1 hi.core e he h1) _ (Nat.le_succ _)
    · have : ∃ c b m, e = .wait c b m := by
        refine Classical.byContradiction fun hx => he ?_
        intro c b m hy
        exact hx ⟨c, b, m, hy⟩
      obtain ⟨c, b, m, rfl⟩ := this
      unfold step1 at h1
      dsimp only at h1
      split at h1
      · cases h1
      · next t hc =>
        unfold act at h1
        dsimp only at h1
        split at h1
        · cases h1
          exact (ih hp).waitBegin hi t c b m hn
        · cases h1

/-! What the end of a wait reports. -/

/-- There was a signal on the condition, or to the task, since its last `kcond_wait` began. -/
def Told (sigs : Cond → Nat) (k : Task) (c : Cond) : Prop := k.sigs0 < sigs c ∨ k.kills0 < k.kills

def TOK (sigs : Cond → Nat) (k : Task) : Prop :=
  k.kills0 ≤ k.kills ∧
  (∀ c, k.wobj = .cond c → ∃ b m, k.pc = .inCond c b m) ∧
  match k.pc with
  | .inCond c _ _ => k.sigs0 ≤ sigs c ∧ (k.wobj = .cond c ∨ (k.wobj = .none ∧ Told sigs k c))
  | .inLock _ (some (c, r)) => r = true → Told sigs k c
  | .retCond c r => r = true → Told sigs k c
  | _ => True

theorem begun_sigs0 {k k' : Task} (hb : k'.begun = k.begun) : k'.sigs0 = k.sigs0 := by
  unfold Task.begun at hb
  exact congrArg (·.2.2.2.1) hb

theorem begun_kills0 {k k' : Task} (hb : k'.begun = k.begun) : k'.kills0 = k.kills0 := by
  unfold Task.begun at hb
  exact congrArg (·.2.1) hb

theorem Told.mono {sigs sigs' : Cond → Nat} {k k' : Task} {c : Cond} (h : Told sigs k c) (hs : ∀ c, sigs c ≤ sigs' c)
    (hb : k'.begun = k.begun) (hk : k.kills ≤ k'.kills) : Told sigs' k' c := by
  unfold Task.begun at hb
  have h1 : k'.kills0 = k.kills0 := congrArg (·.2.1) hb
  have h2 : k'.sigs0 = k.sigs0 := congrArg (·.2.2.2.1) hb
  have h3 := hs c
  unfold Told at h ⊢
  omega

theorem TOK.mono {sigs sigs' : Cond → Nat} {k k' : Task} (h : TOK sigs k) (hs : ∀ c, sigs c ≤ sigs' c)
    (hb : k'.begun = k.begun) (hk : k.kills ≤ k'.kills) (hp : k'.pc = k.pc) (hw : k'.wobj = k.wobj) : TOK sigs' k' := by
  obtain ⟨h0, h1, h2⟩ := h
  unfold TOK
  rw [hp, hw]
  refine ⟨by rw [begun_kills0 hb]; omega, h1, ?_⟩
  split at h2
  · next c _ _ _ => exact ⟨by rw [begun_sigs0 hb]; exact Nat.le_trans h2.1 (hs c), h2.2.imp id fun hx => ⟨hx.1, hx.2.mono hs hb hk⟩⟩
  · exact fun hr => (h2 hr).mono hs hb hk
  · exact fun hr => (h2 hr).mono hs hb hk
  · trivial

/-- The wait object is reset. -/
theorem TOK.clear {sigs sigs' : Cond → Nat} {k k' : Task} (h : TOK sigs k) (hs : ∀ c, sigs c ≤ sigs' c)
    (hb : k'.begun = k.begun) (hk : k.kills ≤ k'.kills) (hp : k'.pc = k.pc) (hw : k'.wobj = .none)
    (ht : ∀ c b m, k.pc = .inCond c b m → k.wobj = .none ∨ Told sigs' k' c) : TOK sigs' k' := by
  obtain ⟨h0, h1, h2⟩ := h
  unfold TOK
  rw [hp, hw]
  refine ⟨by rw [begun_kills0 hb]; omega, fun c hx => (by cases hx), ?_⟩
  split at h2
  · next c b m hpc =>
    refine ⟨by rw [begun_sigs0 hb]; exact Nat.le_trans h2.1 (hs c), Or.inr ⟨rfl, ?_⟩⟩
    rcases ht c b m hpc with hx | hx
    · rcases h2.2 with h3 | h3
      · rw [hx] at h3
        cases h3
      · exact h3.2.mono hs hb hk
    · exact hx
  · exact fun hr => (h2 hr).mono hs hb hk
  · exact fun hr => (h2 hr).mono hs hb hk
  · trivial

def TokAll (s : St) : Prop := ∀ u, TOK s.sigs (s.tasks u)

/-- Only one task changes. -/
theorem TokAll.one {s s' : St} (h : TokAll s) (t : Tid) (hs : ∀ c, s.sigs c ≤ s'.sigs c) (ho : ∀ u, u ≠ t → s'.tasks u = s.tasks u)
    (ht : TOK s'.sigs (s'.tasks t)) : TokAll s' := by
  intro u
  by_cases hu : u = t
  · subst hu
    exact ht
  · rw [ho u hu]
    exact (h u).mono hs rfl (Nat.le_refl _) rfl rfl

theorem TokAll.setT {s : St} (h : TokAll s) (t : Tid) (f : Task → Task) (hf : TOK s.sigs (f (s.tasks t))) : TokAll (s.setT t f) := by
  refine h.one t (fun c => Nat.le_refl _) (fun u hu => setT_other s hu f) ?_
  rw [setT_same]
  exact hf

/-- A change of unrelated fields. -/
theorem TokAll.setT' {s : St} (h : TokAll s) (t : Tid) (f : Task → Task) (hb : (f (s.tasks t)).begun = (s.tasks t).begun)
    (hk : (s.tasks t).kills ≤ (f (s.tasks t)).kills) (hp : (f (s.tasks t)).pc = (s.tasks t).pc)
    (hw : (f (s.tasks t)).wobj = (s.tasks t).wobj) : TokAll (s.setT t f) :=
  h.setT t f ((h t).mono (fun _ => Nat.le_refl _) hb hk hp hw)

theorem reset_sigs (s : St) (t : Tid) : (s.reset t).sigs = s.sigs := by
  unfold St.reset St.setT St.unlink
  split <;> rfl

theorem wakeUp_sigs (s : St) (t : Tid) : (s.wakeUp t).sigs = s.sigs := by
  unfold St.wakeUp
  dsimp only
  split <;> exact reset_sigs s t

theorem TokAll.reset {s : St} (h : TokAll s) (t : Tid)
    (ht : ∀ c b m, (s.tasks t).pc = .inCond c b m → (s.tasks t).wobj = .none ∨ Told s.sigs (s.tasks t) c) : TokAll (s.reset t) := by
  refine h.one t (fun c => by rw [reset_sigs]; exact Nat.le_refl _) (fun u hu => reset_tasks_other s hu) ?_
  rw [reset_sigs, reset_tasks_same]
  exact (h t).clear (fun _ => Nat.le_refl _) rfl (Nat.le_refl _) rfl rfl ht

theorem wakeTask_kills (k : Task) : (wakeTask k).kills = k.kills := by
  unfold wakeTask
  split <;> rfl

theorem TokAll.wakeUp {s : St} (h : TokAll s) (t : Tid)
    (ht : ∀ c b m, (s.tasks t).pc = .inCond c b m → (s.tasks t).wobj = .none ∨ Told s.sigs (s.tasks t) c) : TokAll (s.wakeUp t) := by
  unfold St.wakeUp
  dsimp only
  split
  · exact h.reset t ht
  · obtain ⟨h1, -, -, h4, -⟩ := wakeTask_fields ((s.reset t).tasks t)
    exact (h.reset t ht).setT' t _ (wakeTask_begun _) (by rw [wakeTask_kills]; exact Nat.le_refl _) h4 h1

/-- A signal on `c`, which has been counted. -/
theorem TokAll.signalNode {s : St} (h : TokAll s) (hc : Core s) (hs : AsleepAll s) (c : Cond) (n : Node) (hm : n ∈ s.list c)
    (htold : ∀ u b m, (s.tasks u).pc = .inCond c b m → Told s.sigs (s.tasks u) c) : TokAll (signalNode c s n) := by
  unfold Kcond.signalNode
  cases n with
  | one t =>
    dsimp only
    split
    · exact h
    · have hw := (hc.one c t).mp hm
      obtain ⟨b, m, hp⟩ := (h t).2.1 c hw
      have h1 := h.setT' t cancel rfl (Nat.le_refl _) rfl rfl
      have e1 := setT_same s t cancel
      have h2 := h1.reset t (by
        intro d b' m' hd
        rw [e1] at hd ⊢
        have hd : (s.tasks t).pc = .inCond d b' m' := hd
        rw [hp] at hd
        cases hd
        exact Or.inr (htold t b m hp))
      refine h2.wakeUp t ?_
      intro d b' m' _
      rw [reset_tasks_same]
      exact Or.inl rfl
  | elem t i =>
    dsimp only
    have h1 : TokAll ((s.setL c (·.erase (.elem t i))).setT t fun k => { k with sigd := k.sigd ++ [i] }) :=
      TokAll.setT' (s := s.setL c (·.erase (.elem t i))) h t _ rfl (Nat.le_refl _) rfl rfl
    split
    · refine h1.wakeUp t ?_
      intro d b m hp
      rw [setT_same] at hp
      have hp : (s.tasks t).pc = .inCond d b m := hp
      exfalso
      have := hc.quiet t (by rw [hp]; rfl)
      have hwi := ((hc.elem c t i).mp hm).1
      rw [this] at hwi
      cases hwi
    · exact h1

theorem signalNode_told (c : Cond) (s : St) (n : Node) (u : Tid) :
    ((signalNode c s n).tasks u).begun = (s.tasks u).begun ∧ ((signalNode c s n).tasks u).kills = (s.tasks u).kills ∧
    ((signalNode c s n).tasks u).pc = (s.tasks u).pc ∧ (signalNode c s n).sigs = s.sigs := by
  have hr : ∀ (x : St) (t : Tid), ((x.reset t).tasks u).kills = (x.tasks u).kills := by
    intro x t
    by_cases hu : u = t
    · subst hu
      rw [reset_tasks_same]
    · rw [reset_tasks_other x hu]
  have hw : ∀ (x : St) (t : Tid), ((x.wakeUp t).tasks u).kills = (x.tasks u).kills ∧ ((x.wakeUp t).tasks u).pc = (x.tasks u).pc := by
    intro x t
    by_cases hu : u = t
    · subst hu
      unfold St.wakeUp
      dsimp only
      split
      · rw [reset_tasks_same]
        exact ⟨rfl, rfl⟩
      · rw [setT_same, wakeTask_kills, (wakeTask_fields _).2.2.2.1, reset_tasks_same]
        exact ⟨rfl, rfl⟩
    · rw [wakeUp_other x hu]
      exact ⟨rfl, rfl⟩
  refine ⟨(frame_signalNode c s n).1 u, ?_⟩
  unfold signalNode
  cases n with
  | one t =>
    dsimp only
    split
    · exact ⟨rfl, rfl, rfl⟩
    · rw [(hw _ t).1, (hw _ t).2, hr, (reset_fields _ t u).2.2.1, wakeUp_sigs, reset_sigs]
      by_cases hu : u = t
      · subst hu
        rw [setT_same]
        exact ⟨rfl, rfl, rfl⟩
      · rw [setT_other s hu]
        exact ⟨rfl, rfl, rfl⟩
  | elem t i =>
    dsimp only
    split
    · rw [(hw _ t).1, (hw _ t).2, wakeUp_sigs]
      by_cases hu : u = t
      · subst hu
        rw [setT_same]
        exact ⟨rfl, rfl, rfl⟩
      · rw [setT_other _ hu]
        exact ⟨rfl, rfl, rfl⟩
    · by_cases hu : u = t
      · subst hu
        rw [setT_same]
        exact ⟨rfl, rfl, rfl⟩
      · rw [setT_other _ hu]
        exact ⟨rfl, rfl, rfl⟩

theorem TokAll.signalNodes {s : St} (h : TokAll s) (hi : Inv s) (c : Cond)
    (htold : ∀ u b m, (s.tasks u).pc = .inCond c b m → Told s.sigs (s.tasks u) c) : ∀ (l : List Node), l.Nodup →
    (∀ n ∈ l, n ∈ s.list c) → TokAll (l.foldl (Kcond.signalNode c) s) := by
  intro l
  induction l generalizing s with
  | nil => intro _ _; exact h
  | cons n l ih =>
    intro hn hl
    have hm := hl n List.mem_cons_self
    refine ih (h.signalNode hi.core hi.asleep c n hm htold) (hi.signalNode c n hm) ?_ hn.of_cons ?_
    · intro u b m hp
      obtain ⟨e1, e2, e3, e4⟩ := signalNode_told c s n u
      rw [e3] at hp
      rw [e4]
      exact (htold u b m hp).mono (fun _ => Nat.le_refl _) e1 (by omega)
    · intro x hx
      rw [signalNode_list c s hi.core hi.asleep n hm x ?_ c]
      · exact hl x (List.mem_cons_of_mem _ hx)
      · rintro rfl
        exact (List.nodup_cons.mp hn).1 hx

theorem sent_le (s : St) (c : Cond) (b : Bool) (d : Cond) : s.sigs d ≤ (s.sent c b).sigs d := by
  show s.sigs d ≤ if d = c then s.sigs d + 1 else s.sigs d
  split <;> omega

theorem sent_told {s : St} (h : TokAll s) (c : Cond) (b : Bool) (u : Tid) (b' : Bool) (m : Option Mx)
    (hp : ((s.sent c b).tasks u).pc = .inCond c b' m) : Told (s.sent c b).sigs ((s.sent c b).tasks u) c := by
  have hp : (s.tasks u).pc = .inCond c b' m := hp
  have := (h u).2.2
  rw [hp] at this
  have := this.1
  refine Or.inl ?_
  show (s.tasks u).sigs0 < if c = c then s.sigs c + 1 else s.sigs c
  rw [if_pos rfl]
  omega

theorem TokAll.sent {s : St} (h : TokAll s) (c : Cond) (b : Bool) : TokAll (s.sent c b) := fun u =>
  (h u).mono (sent_le s c b) rfl (Nat.le_refl _) rfl rfl

/-- The invariant without the part about polls. -/
theorem Core.sent' {s : St} (h : Core s) (c : Cond) : Core (s.sent c false) := by
  refine ⟨h.nodup, h.one, h.elem, h.sigd, h.mnodup, h.mone, h.quiet, ?_⟩
  intro t i d h1 h2 h3
  show (if d = c ∧ false = true then false else s.fresh d) = true ∨ _
  rw [if_neg (by simp)]
  exact h.fresh t i d h1 h2 h3

theorem TokAll.signalAll {s : St} (h : TokAll s) (hi : Inv s) (c : Cond) : TokAll (signalAll s c) := by
  have h1 : TokAll ((s.list c).foldl (Kcond.signalNode c) (s.sent c false)) :=
    TokAll.signalNodes (h.sent c false) ⟨hi.core.sent' c, hi.asleep, hi.cur⟩ c
      (fun u b m hx => sent_told h c false u b m hx) (s.list c) (hi.core.nodup c) (fun _ hx => hx)
  rw [signalNodes_sent] at h1
  unfold Kcond.signalAll
  rw [signalNodes_sent]
  exact h1

theorem TokAll.signalOne {s : St} (h : TokAll s) (hi : Inv s) (c : Cond) : TokAll (signalOne s c) := by
  unfold Kcond.signalOne
  split
  · exact h.sent c true
  · next n rest hl =>
    have hm : n ∈ (s.sent c false).list c := by
      show n ∈ s.list c
      rw [hl]
      exact List.mem_cons_self
    have h1 := TokAll.signalNode (h.sent c false) (hi.core.sent' c) hi.asleep c n hm (fun u b m hx => sent_told h c false u b m hx)
    rw [signalNode_sent] at h1 ⊢
    exact h1

theorem TokAll.unlock {s : St} (h : TokAll s) (hc : Core s) (t : Tid) (m : Mx) : TokAll (unlock s t m) := by
  unfold Kcond.unlock
  dsimp only
  split
  · exact h
  · next u rest hl =>
    have hw : (s.tasks u).wobj = .mutex m := (hc.mone m u).mp (by rw [hl]; exact List.mem_cons_self)
    refine TokAll.wakeUp (s := { s with holds := fun d => if d = m then (s.holds d).erase t else s.holds d, owner := fun d => if d = m then some u else s.owner d }) h u ?_
    intro c b m' hp
    exfalso
    have hp : (s.tasks u).pc = .inCond c b m' := hp
    have := (h u).2.2
    rw [hp] at this
    dsimp only at this
    rw [hw] at this
    rcases this.2 with hx | hx
    · cases hx
    · cases hx.1

theorem goSleep_sigs (s : St) (t : Tid) (pc : Pc) : (s.goSleep t pc).sigs = s.sigs := by
  unfold St.goSleep
  split <;> rfl

theorem goSleep_other (s : St) {t u : Tid} (h : u ≠ t) (pc : Pc) : (s.goSleep t pc).tasks u = s.tasks u := by
  unfold St.goSleep
  split
  · exact setT_other s h _
  · exact setT_other s h (fun k => { k with st := .asleep, pc := pc })

theorem goSleep_same (s : St) (t : Tid) (pc : Pc) : ((s.goSleep t pc).tasks t).pc = pc ∧
    ((s.goSleep t pc).tasks t).wobj = (s.tasks t).wobj ∧ ((s.goSleep t pc).tasks t).begun = (s.tasks t).begun ∧
    ((s.goSleep t pc).tasks t).kills = (s.tasks t).kills ∧ ((s.goSleep t pc).tasks t).sigs0 = (s.tasks t).sigs0 ∧
    ((s.goSleep t pc).tasks t).fires = (s.tasks t).fires ∧ ((s.goSleep t pc).tasks t).timer = (s.tasks t).timer ∧
    ((s.goSleep t pc).tasks t).watch = (s.tasks t).watch := by
  have e : ∀ f : Task → Task, (s.setT t f).tasks t = f (s.tasks t) := setT_same s t
  unfold St.goSleep
  split
  · rw [e]
    exact ⟨rfl, rfl, rfl, rfl, rfl, rfl, rfl, rfl⟩
  · show ((s.setT t (fun k => { k with st := .asleep, pc := pc })).tasks t).pc = pc ∧
      ((s.setT t (fun k => { k with st := .asleep, pc := pc })).tasks t).wobj = _ ∧
      ((s.setT t (fun k => { k with st := .asleep, pc := pc })).tasks t).begun = _ ∧
      ((s.setT t (fun k => { k with st := .asleep, pc := pc })).tasks t).kills = _ ∧
      ((s.setT t (fun k => { k with st := .asleep, pc := pc })).tasks t).sigs0 = _ ∧
      ((s.setT t (fun k => { k with st := .asleep, pc := pc })).tasks t).fires = _ ∧
      ((s.setT t (fun k => { k with st := .asleep, pc := pc })).tasks t).timer = _ ∧
      ((s.setT t (fun k => { k with st := .asleep, pc := pc })).tasks t).watch = _
    rw [e]
    exact ⟨rfl, rfl, rfl, rfl, rfl, rfl, rfl, rfl⟩

theorem TokAll.goSleep {s : St} (h : TokAll s) (t : Tid) (pc : Pc) (hk : TOK s.sigs { s.tasks t with pc := pc }) : TokAll (s.goSleep t pc) := by
  obtain ⟨e1, e2, e3, e4, -⟩ := goSleep_same s t pc
  refine h.one t (fun c => by rw [goSleep_sigs]; exact Nat.le_refl _) (fun u hu => goSleep_other s hu pc) ?_
  rw [goSleep_sigs]
  exact hk.mono (fun _ => Nat.le_refl _) e3 (by rw [e4]; exact Nat.le_refl _) e1 e2

theorem prepare_sigs (s : St) (t : Tid) (w : WObj) : (s.prepare t w).sigs = s.sigs := by
  unfold St.prepare
  split
  · rfl
  · unfold St.link St.setT St.setL St.setM
    cases w <;> rfl

theorem locked_same (s : St) (t : Tid) (m : Mx) (k : Option (Cond × Bool)) : (locked s t m k).tasks t = { s.tasks t with pc := after k } :=
  setT_same s t fun x => { x with pc := after k }

theorem locked_other (s : St) {t u : Tid} (h : u ≠ t) (m : Mx) (k : Option (Cond × Bool)) : (locked s t m k).tasks u = s.tasks u :=
  setT_other s h fun x => { x with pc := after k }

theorem TokAll.locked {s : St} (h : TokAll s) (t : Tid) (m : Mx) (k : Option (Cond × Bool)) (hw : ∀ c, (s.tasks t).wobj ≠ .cond c)
    (hk : ∀ c, k = some (c, true) → Told s.sigs (s.tasks t) c) : TokAll (locked s t m k) := by
  refine h.one t (fun _ => Nat.le_refl _) (fun u hu => locked_other s hu m k) ?_
  rw [locked_same]
  refine ⟨(h t).1, fun c hx => absurd hx (hw c), ?_⟩
  cases k with
  | none => trivial
  | some x =>
    obtain ⟨c, r⟩ := x
    intro hr
    have hr : r = true := hr
    subst hr
    exact hk c rfl

theorem TokAll.lock {s : St} (h : TokAll s) (t : Tid) (m : Mx) (k : Option (Cond × Bool)) (hw : ∀ c, (s.tasks t).wobj ≠ .cond c)
    (hk : ∀ c, k = some (c, true) → Told s.sigs (s.tasks t) c) (hn : (lock s t m k).panic = false) : TokAll (lock s t m k) := by
  unfold Kcond.lock at hn ⊢
  split
  · exact TokAll.locked (s := { s with owner := fun d => if d = m then some t else s.owner d }) h t m k hw hk
  · next ho =>
    rw [if_neg ho, goSleep_panic] at hn
    have hw0 : (s.tasks t).wobj = .none := by
      refine Classical.byContradiction fun hx => ?_
      rw [prepare_panic s t _ hx] at hn
      cases hn
    have e := prepare_tasks s t (.mutex m) hw0
    have h1 : TokAll (s.prepare t (.mutex m)) ∨ True := Or.inr trivial
    have et := e t
    rw [if_pos rfl] at et
    obtain ⟨g1, g2, g3, g4, -⟩ := goSleep_same (s.prepare t (.mutex m)) t (.inLock m k)
    refine h.one t (fun c => by rw [goSleep_sigs, prepare_sigs]; exact Nat.le_refl _)
      (fun u hu => by rw [goSleep_other _ hu, e u, if_neg hu]) ?_
    rw [goSleep_sigs, prepare_sigs]
    refine ⟨by rw [begun_kills0 g3, g4, et]; exact (h t).1, fun c hx => ?_, ?_⟩
    · rw [g2, et] at hx
      cases hx
    · rw [g1]
      cases k with
      | none => trivial
      | some x =>
        obtain ⟨c, r⟩ := x
        intro hr
        have hr : r = true := hr
        subst hr
        refine (hk c rfl).mono (fun _ => Nat.le_refl _) ?_ ?_
        · rw [g3, et]
          rfl
        · rw [g4, et]
          exact Nat.le_refl _

theorem TokAll.waitEnd {s : St} (h : TokAll s) (t : Tid) (c : Cond) (b : Bool) (m : Option Mx) (hp : (s.tasks t).pc = .inCond c b m)
    (hn : (waitEnd s t c m).panic = false) : TokAll (waitEnd s t c m) := by
  have hk := (h t).2.2
  rw [hp] at hk
  dsimp only at hk
  replace hk := hk.2
  have e := reset_tasks_same s t
  unfold Kcond.waitEnd at hn ⊢
  dsimp only at hn ⊢
  have hret : ∀ (sg : Cond → Nat), sg = s.sigs → decide ((s.tasks t).wobj = .none) = true → Told sg ((s.reset t).tasks t) c := by
    intro sg hsg hr
    subst hsg
    rw [e]
    rcases hk with hx | hx
    · rw [hx] at hr
      simp at hr
    · exact hx.2
  cases m with
  | none =>
    refine h.one t (fun d => by show _ ≤ (s.reset t).sigs d; rw [reset_sigs]; exact Nat.le_refl _)
      (fun u hu => by rw [setT_other _ hu, reset_tasks_other s hu]) ?_
    show TOK (s.reset t).sigs _
    rw [setT_same]
    refine ⟨by dsimp only; rw [e]; exact (h t).1, fun d hx => ?_, ?_⟩
    · have hx : ((s.reset t).tasks t).wobj = .cond d := hx
      rw [e] at hx
      cases hx
    · intro hr
      exact hret _ (reset_sigs s t) hr
  | some m =>
    have ht : ∀ c' b' m', (s.tasks t).pc = .inCond c' b' m' → (s.tasks t).wobj = .none ∨ Told s.sigs (s.tasks t) c' → True := fun _ _ _ _ _ => trivial
    -- the task's own record may be inconsistent between the reset and the new position
    dsimp only at hn ⊢
    unfold Kcond.lock at hn ⊢
    split
    · refine h.one t (fun d => by show _ ≤ (s.reset t).sigs d; rw [reset_sigs]; exact Nat.le_refl _) ?_ ?_
      · intro u hu
        rw [locked_other _ hu]
        exact reset_tasks_other s hu
      · show TOK (s.reset t).sigs ((Kcond.locked _ t _ _).tasks t)
        rw [locked_same]
        refine ⟨by dsimp only; rw [e]; exact (h t).1, fun d hx => ?_, ?_⟩
        · have hx : ((s.reset t).tasks t).wobj = .cond d := hx
          rw [e] at hx
          cases hx
        · intro hr
          exact hret _ (reset_sigs s t) hr
    · next ho =>
      rw [if_neg ho, goSleep_panic] at hn
      have hw0 : ((s.reset t).tasks t).wobj = .none := by rw [e]
      have e2 := prepare_tasks (s.reset t) t (.mutex m) hw0
      have et := e2 t
      rw [if_pos rfl] at et
      obtain ⟨g1, g2, g3, g4, -⟩ := goSleep_same ((s.reset t).prepare t (.mutex m)) t (.inLock m (some (c, decide ((s.tasks t).wobj = .none))))
      refine h.one t (fun c => by rw [goSleep_sigs, prepare_sigs, reset_sigs]; exact Nat.le_refl _)
        (fun u hu => by rw [goSleep_other _ hu, e2 u, if_neg hu, reset_tasks_other s hu]) ?_
      rw [goSleep_sigs, prepare_sigs]
      refine ⟨by rw [begun_kills0 g3, g4, et, e]; exact (h t).1, fun c hx => ?_, ?_⟩
      · rw [g2, et] at hx
        cases hx
      · rw [g1]
        intro hr
        refine (hret _ (reset_sigs s t) hr).mono (fun _ => Nat.le_refl _) ?_ ?_
        · rw [g3, et]
          rfl
        · rw [g4, et]
          exact Nat.le_refl _

theorem unlock_sigs (s : St) (t : Tid) (m : Mx) : (unlock s t m).sigs = s.sigs := by
  unfold unlock
  dsimp only
  split
  · rfl
  · rw [wakeUp_sigs]

theorem TokAll.waitBegin {s : St} (h : TokAll s) (hi : Inv s) (t : Tid) (c : Cond) (timed : Bool) (m : Option Mx)
    (hn : (waitBegin s t c timed m).panic = false) : TokAll (waitBegin s t c timed m) := by
  have hw := waitBegin_panic s t c timed m hn
  clear hn
  have hw0 : ((s.setT t (fun k => { k with kills0 := k.kills, fires0 := k.fires, sigs0 := s.sigs c, since := s.clock, lim := timed })).tasks t).wobj = .none := by
    rw [setT_same]
    exact hw
  have hself := prepare_tasks _ t (.cond c) hw0 t
  rw [if_pos rfl, setT_same] at hself
  have hother : ∀ u, u ≠ t → (((s.setT t (fun k => { k with kills0 := k.kills, fires0 := k.fires, sigs0 := s.sigs c, since := s.clock, lim := timed })).prepare t
      (.cond c)).tasks u) = s.tasks u := by
    intro u hu
    rw [prepare_tasks _ t _ hw0, if_neg hu, setT_other s hu]
  have hsg := prepare_sigs (s.setT t (fun k => { k with kills0 := k.kills, fires0 := k.fires, sigs0 := s.sigs c, since := s.clock, lim := timed })) t (.cond c)
  have hml : ∀ x, ((s.setT t (fun k => { k with kills0 := k.kills, fires0 := k.fires, sigs0 := s.sigs c, since := s.clock, lim := timed })).prepare t
      (.cond c)).mlist x = s.mlist x := by
    intro x
    unfold St.prepare
    rw [if_neg (by simp [hw0])]
    rfl
  unfold Kcond.waitBegin
  dsimp only
  generalize (s.setT t (fun k => { k with kills0 := k.kills, fires0 := k.fires, sigs0 := s.sigs c, since := s.clock, lim := timed })).prepare t
      (.cond c) = s1 at *
  have hsg : s1.sigs = s.sigs := hsg
  have hto : ∀ u, u ≠ t → (s1.setT t (arm timed)).tasks u = s.tasks u := by
    intro u hu
    rw [setT_other _ hu]
    exact hother u hu
  have hts : ((s1.setT t (arm timed)).tasks t).wobj = .cond c ∧ ((s1.setT t (arm timed)).tasks t).sigs0 = s.sigs c ∧
      ((s1.setT t (arm timed)).tasks t).kills0 ≤ ((s1.setT t (arm timed)).tasks t).kills := by
    rw [setT_same, hself]
    unfold arm
    split <;> exact ⟨rfl, rfl, Nat.le_refl _⟩
  have hm2 : ∀ x, (s1.setT t (arm timed)).mlist x = s.mlist x := hml
  have hs2 : (s1.setT t (arm timed)).sigs = s.sigs := hsg
  generalize s1.setT t (arm timed) = s2 at *
  -- the mutex is released
  have key : ∀ s3 : St, s3.sigs = s.sigs → TokAll { s3 with tasks := fun u => if u = t then s.tasks t else s3.tasks u } →
      (s3.tasks t).wobj = .cond c → (s3.tasks t).sigs0 = s.sigs c →
      (s3.tasks t).kills0 ≤ (s3.tasks t).kills → TokAll (s3.goSleep t (.inCond c timed m)) := by
    intro s3 e1 e2 e3 e4 e5
    obtain ⟨g1, g2, g3, g4, g5, -⟩ := goSleep_same s3 t (.inCond c timed m)
    intro u
    rw [goSleep_sigs]
    by_cases hu : u = t
    · subst hu
      unfold TOK
      rw [g1, g2, e3, g5, e4, e1, begun_kills0 g3, g4]
      refine ⟨e5, fun d hd => ?_, Nat.le_refl _, Or.inl rfl⟩
      cases hd
      exact ⟨timed, m, rfl⟩
    · rw [goSleep_other _ hu]
      have := e2 u
      dsimp only at this
      rw [if_neg hu] at this
      exact this
  cases m with
  | none =>
    refine key s2 hs2 ?_ hts.1 hts.2.1 hts.2.2
    intro u
    dsimp only
    rw [hs2]
    split
    · exact h t
    · next hu =>
      rw [hto u hu]
      exact h u
  | some m =>
    dsimp only at key ⊢
    have hnt : ∀ v rest, s2.mlist m = v :: rest → (s.tasks v).wobj = .mutex m := by
      intro v rest hl
      rw [hm2] at hl
      exact (hi.core.mone m v).mp (by rw [hl]; exact List.mem_cons_self)
    have hself2 : (Kcond.unlock s2 t m).tasks t = s2.tasks t := by
      unfold Kcond.unlock
      dsimp only
      split
      · rfl
      · next v rest hl =>
        rw [wakeUp_other _ ?_]
        rintro rfl
        have := hnt _ _ hl
        rw [hw] at this
        cases this
    refine key _ (by rw [unlock_sigs]; exact hs2) ?_ (by rw [hself2]; exact hts.1) (by rw [hself2]; exact hts.2.1) (by rw [hself2]; exact hts.2.2)
    intro u
    dsimp only
    rw [unlock_sigs, hs2]
    split
    · exact h t
    · next hu =>
      unfold Kcond.unlock
      dsimp only
      split
      · show TOK s.sigs (s2.tasks u)
        rw [hto u hu]
        exact h u
      · next v rest hl =>
        have hv := hnt v rest hl
        by_cases huv : u = v
        · subst huv
          have e5 : ∀ x : St, x.tasks u = s.tasks u → TOK s.sigs ((x.wakeUp u).tasks u) := by
            intro x hx
            have hp : ∀ d b m', (s.tasks u).pc ≠ .inCond d b m' := by
              intro d b m' hp
              have := (h u).2.2
              rw [hp] at this
              dsimp only at this
              rw [hv] at this
              rcases this.2 with hx | hx
              · cases hx
              · cases hx.1
            unfold St.wakeUp
            dsimp only
            split
            · rw [reset_tasks_same, hx]
              exact (h u).clear (fun _ => Nat.le_refl _) rfl (Nat.le_refl _) rfl rfl (fun d b m' hd => absurd hd (hp d b m'))
            · rw [setT_same, reset_tasks_same, hx]
              have w := wakeTask_fields { s.tasks u with wobj := .none }
              exact (h u).clear (fun _ => Nat.le_refl _) (wakeTask_begun _) (by rw [wakeTask_kills]; exact Nat.le_refl _) w.2.2.2.1 w.1
                (fun d b m' hd => absurd hd (hp d b m'))
          exact e5 _ (hto u hu)
        · rw [wakeUp_other _ huv]
          show TOK s.sigs (s2.tasks u)
          rw [hto u hu]
          exact h u

/-- The task is at a place about which nothing is claimed. -/
def Pc.free : Pc → Bool
  | .inCond _ _ _ => false
  | .inLock _ _ => false
  | .retCond _ _ => false
  | _ => true

theorem TOK.free {sigs : Cond → Nat} {k : Task} (hk : k.kills0 ≤ k.kills) (hp : k.pc.free = true) (hw : ∀ c, k.wobj ≠ .cond c) : TOK sigs k := by
  refine ⟨hk, fun c hx => absurd hx (hw c), ?_⟩
  split
  · next h => rw [h] at hp; cases hp
  · next h => rw [h] at hp; cases hp
  · next h => rw [h] at hp; cases hp
  · trivial

theorem TOK.noCond {sigs : Cond → Nat} {k : Task} (h : TOK sigs k) (hp : ∀ c b m, k.pc ≠ .inCond c b m) (c : Cond) : k.wobj ≠ .cond c := by
  intro hx
  obtain ⟨b, m, hy⟩ := h.2.1 c hx
  exact hp c b m hy

theorem rearm_same (s : St) (t : Tid) (timed : Bool) : ((rearm s t timed).tasks t).pc = .check timed 0 false ∧
    ((rearm s t timed).tasks t).wobj = (s.tasks t).wobj ∧ (∀ u, u ≠ t → (rearm s t timed).tasks u = s.tasks u) ∧
    (rearm s t timed).sigs = s.sigs ∧ ((rearm s t timed).tasks t).begun = (s.tasks t).begun ∧
    ((rearm s t timed).tasks t).kills = (s.tasks t).kills := by
  have e := rearmList_same t (s.tasks t).watch (s.tasks t).sigd s
  have e2 : ∀ (l : List Nat) (w : List Cond) (s : St), (rearmList t w l s).sigs = s.sigs := by
    intro l w
    induction l with
    | nil => intro s; rfl
    | cons i l ih => intro s; exact ih _
  unfold rearm
  refine ⟨by rw [setT_same], by rw [setT_same]; show ((rearmList t _ _ s).tasks t).wobj = _; rw [e.1], fun u hu => by rw [setT_other _ hu, e.1], e2 _ _ _,
    by rw [setT_same]; show ((rearmList t _ _ s).tasks t).begun = _; rw [e.1], by rw [setT_same]; show ((rearmList t _ _ s).tasks t).kills = _; rw [e.1]⟩

theorem pollExit_same (s : St) (t : Tid) : ((pollExit s t).tasks t).pc = .retPoll ∧
    ((pollExit s t).tasks t).wobj = (s.tasks t).wobj ∧ (∀ u, u ≠ t → (pollExit s t).tasks u = s.tasks u) ∧
    (pollExit s t).sigs = s.sigs ∧ ((pollExit s t).tasks t).begun = (s.tasks t).begun ∧
    ((pollExit s t).tasks t).kills = (s.tasks t).kills := by
  have e : (pollExit s t).tasks t = { cancel (s.tasks t) with sigd := [], watch := [], pc := .retPoll } :=
    setT_same s t (fun k => { cancel k with sigd := [], watch := [], pc := .retPoll })
  rw [e]
  exact ⟨rfl, rfl, fun u hu => setT_other s hu (fun k => { cancel k with sigd := [], watch := [], pc := .retPoll }), rfl, rfl, rfl⟩

theorem TokAll.rearm {s : St} (h : TokAll s) (t : Tid) (timed : Bool) (hw : ∀ c, (s.tasks t).wobj ≠ .cond c) : TokAll (rearm s t timed) := by
  obtain ⟨h1, h2, h3, h4, h5⟩ := rearm_same s t timed
  exact h.one t (fun _ => by rw [h4]; exact Nat.le_refl _) h3 (TOK.free (by rw [begun_kills0 h5.1, h5.2]; exact (h t).1) (by rw [h1]; rfl) (by rw [h2]; exact hw))

theorem TokAll.pollExit {s : St} (h : TokAll s) (t : Tid) (hw : ∀ c, (s.tasks t).wobj ≠ .cond c) : TokAll (pollExit s t) := by
  obtain ⟨h1, h2, h3, h4, h5⟩ := pollExit_same s t
  exact h.one t (fun _ => by rw [h4]; exact Nat.le_refl _) h3 (TOK.free (by rw [begun_kills0 h5.1, h5.2]; exact (h t).1) (by rw [h1]; rfl) (by rw [h2]; exact hw))

theorem arm_begun' (b : Bool) (k : Task) : (arm b k).begun = k.begun ∧ (arm b k).kills = k.kills ∧ (arm b k).pc = k.pc ∧ (arm b k).wobj = k.wobj := by
  unfold arm
  split <;> exact ⟨rfl, rfl, rfl, rfl⟩

theorem TokAll.arm {s : St} (h : TokAll s) (t : Tid) (b : Bool) : TokAll (s.setT t (arm b)) := by
  obtain ⟨h1, h2, h3, h4⟩ := arm_begun' b (s.tasks t)
  exact h.setT' t _ h1 (by rw [h2]; exact Nat.le_refl _) h3 h4

theorem TokAll.prepare {s : St} (h : TokAll s) (t : Tid) (w : WObj) (hw : ∀ c, w ≠ .cond c) (hp : ∀ c b m, (s.tasks t).pc ≠ .inCond c b m)
    (hn : (s.prepare t w).panic = false) : TokAll (s.prepare t w) := by
  have hw0 : (s.tasks t).wobj = .none := by
    refine Classical.byContradiction fun hx => ?_
    rw [prepare_panic s t _ hx] at hn
    cases hn
  have e := prepare_tasks s t w hw0
  refine h.one t (fun _ => by rw [prepare_sigs]; exact Nat.le_refl _) (fun u hu => by rw [e u, if_neg hu]) ?_
  rw [e t, if_pos rfl, prepare_sigs]
  have := (h t).2.2
  refine ⟨(h t).1, fun c hx => absurd hx (hw c), ?_⟩
  split
  · next c b m hx => exact absurd hx (hp c b m)
  · next hx => 
    have hx : (s.tasks t).pc = _ := hx
    rw [hx] at this
    exact this
  · next hx => 
    have hx : (s.tasks t).pc = _ := hx
    rw [hx] at this
    exact this
  · trivial

theorem TokAll.pollSleep {s : St} (h : TokAll s) (t : Tid) (timed found late : Bool) (hp : (s.tasks t).pc.free = true)
    (hn : (pollSleep s t timed found late).panic = false) : TokAll (pollSleep s t timed found late) := by
  have hp' : ∀ c b m, (s.tasks t).pc ≠ .inCond c b m := by
    intro c b m hx
    rw [hx] at hp
    cases hp
  have hw := (h t).noCond hp'
  unfold Kcond.pollSleep at hn ⊢
  split
  · exact h.pollExit t hw
  · next h1 =>
    rw [if_neg h1] at hn
    split
    · exact h.rearm t timed hw
    · next h2 =>
      rw [if_neg h2] at hn
      split
      · exact h.pollExit t hw
      · next h3 =>
        rw [if_neg h3, goSleep_panic] at hn
        have ha := h.arm t timed
        have e1 := setT_same s t (Kcond.arm timed)
        have hq : ∀ c b m, ((s.setT t (Kcond.arm timed)).tasks t).pc ≠ .inCond c b m := by
          intro c b m
          rw [e1, (arm_begun' timed _).2.2.1]
          exact hp' c b m
        have hb := ha.prepare t .multi (by simp) hq hn
        refine hb.goSleep t _ (TOK.free (hb t).1 rfl ?_)
        have hw0 : ((s.setT t (Kcond.arm timed)).tasks t).wobj = .none := by
          refine Classical.byContradiction fun hx => ?_
          rw [prepare_panic _ t _ hx] at hn
          cases hn
        have e2 := prepare_tasks _ t .multi hw0 t
        rw [if_pos rfl] at e2
        rw [e2]
        simp

theorem TokAll.pollWake {s : St} (h : TokAll s) (t : Tid) (timed : Bool) (hp : (s.tasks t).pc = .inPoll timed) : TokAll (pollWake s t timed) := by
  have hp' : ∀ c b m, (s.tasks t).pc ≠ .inCond c b m := by
    intro c b m hx
    rw [hx] at hp
    cases hp
  have hw := (h t).noCond hp'
  unfold Kcond.pollWake
  split
  · exact h.pollExit t hw
  · split
    · refine (h.reset t (fun c b m hx => absurd hx (hp' c b m))).pollExit t ?_
      rw [reset_tasks_same]
      simp
    · split
      · refine (h.setT' t cancel rfl (Nat.le_refl _) rfl rfl).rearm t timed ?_
        rw [setT_same]
        exact hw
      · exact h.rearm t timed hw

theorem TokAll.kill {s : St} (h : TokAll s) (t : Tid) : TokAll (kill s t) := by
  unfold Kcond.kill
  dsimp only
  have h1 : TokAll (s.setT t (fun k => { k with sigP := true, kills := k.kills + 1, stopP := false })) :=
    h.setT' t _ rfl (Nat.le_succ _) rfl rfl
  split
  · split
    · exact h1
    · refine h1.wakeUp t ?_
      intro c b m _
      refine Or.inr (Or.inr ?_)
      rw [setT_same]
      exact Nat.lt_succ_of_le (h t).1
  · exact h1.setT' t _ rfl (Nat.le_refl _) rfl rfl
  · exact h1

theorem fireTask_begun' (k : Task) : (fireTask k).begun = k.begun ∧ (fireTask k).kills = k.kills := by
  unfold fireTask
  dsimp only
  split
  · exact ⟨wakeTask_begun _, wakeTask_kills _⟩
  · exact ⟨rfl, rfl⟩

theorem TokAll.act {s s' : St} (h : TokAll s) (hi : Inv s) (t : Tid) (e : Ev) (hc : s.cur = some t) (hst : act s t e = some s')
    (hn : s'.panic = false) : TokAll s' := by
  unfold Kcond.act at hst
  have hidle : (s.tasks t).pc = .idle → ∀ c, (s.tasks t).wobj ≠ .cond c := by
    intro hp
    refine (h t).noCond ?_
    rw [hp]
    simp
  split at hst
  · split at hst
    · cases hst
      exact h.setT' t _ rfl (Nat.le_refl _) rfl rfl
    · cases hst
  · split at hst
    · cases hst
      exact h.setT' t _ rfl (Nat.le_refl _) rfl rfl
    · cases hst
  · next c timed m =>
    split at hst
    · next hp =>
      cases hst
      exact h.waitBegin hi t c timed m hn
    · cases hst
  · split at hst
    · next hp =>
      cases hst
      exact h.waitEnd t _ _ _ hp hn
    · next m k hp =>
      cases hst
      refine h.locked t _ _ ((h t).noCond (by rw [hp]; simp)) ?_
      intro c hk
      have := (h t).2.2
      rw [hp, hk] at this
      exact this rfl
    · next hp =>
      cases hst
      exact h.setT t _ (TOK.free (h t).1 rfl ((h t).noCond (by rw [hp]; simp)))
    · next hp =>
      cases hst
      exact h.pollWake t _ hp
    · cases hst
  · split at hst
    · next hp =>
      cases hst
      exact h.setT t _ (TOK.free (h t).1 rfl ((h t).noCond (by rw [hp]; simp)))
    · next hp =>
      cases hst
      exact h.setT t _ (TOK.free (h t).1 rfl ((h t).noCond (by rw [hp]; simp)))
    · cases hst
  · split at hst
    · cases hst
      exact h.signalOne hi _
    · cases hst
  · split at hst
    · cases hst
      exact h.signalAll hi _
    · cases hst
  · split at hst
    · next hp =>
      cases hst
      exact h.lock t _ none (hidle hp.1) (by simp) hn
    · cases hst
  · split at hst
    · cases hst
      exact h.unlock hi.core t _
    · cases hst
  · split at hst
    · next hp =>
      cases hst
      refine (h.arm t true).goSleep t _ (TOK.free (h.arm t true t).1 rfl ?_)
      rw [setT_same]
      exact hidle hp
    · cases hst
  · split at hst
    · next hp =>
      cases hst
      exact h.setT t _ (TOK.free (h t).1 rfl (hidle hp))
    · cases hst
  · split at hst
    · next hp =>
      cases hst
      exact TokAll.setT' (s := s.setL _ _) h t _ rfl (Nat.le_refl _) rfl rfl
    · cases hst
  · split at hst
    · next hp =>
      cases hst
      exact h.setT t _ (TOK.free (h t).1 rfl ((h t).noCond (by rw [hp]; simp)))
    · cases hst
  · split at hst
    · next timed j found hp =>
      split at hst
      · next hj =>
        cases hst
        exact h.setT t _ (TOK.free (h t).1 rfl ((h t).noCond (by rw [hp]; simp)))
      · cases hst
    · cases hst
  · split at hst
    · next timed j found hp =>
      split at hst
      · next hj =>
        cases hst
        exact h.pollSleep t timed found _ (by rw [hp]; rfl) hn
      · cases hst
    · cases hst
  · cases hst

theorem TokAll.step1 {s s' : St} (h : TokAll s) (hi : Inv s) (e : Ev)
    (hst : step1 s e = some s') (hn : s'.panic = false) : TokAll s' := by
  unfold Kcond.step1 at hst
  split at hst
  · split at hst
    · cases hst
      unfold switchTo
      dsimp only
      split
      · exact h.setT' _ (fun k => { k with st := .running, tready := false }) rfl (Nat.le_refl _) rfl rfl
      · refine TokAll.setT' ?_ _ (fun k => { k with st := .running, tready := false }) rfl (Nat.le_refl _) rfl rfl
        exact h.setT' _ (fun k => { k with st := .runnable }) rfl (Nat.le_refl _) rfl rfl
    · cases hst
  · next t =>
    split at hst
    · cases hst
      have f := fireTask_fields (s.tasks t)
      have g := fireTask_begun' (s.tasks t)
      exact h.setT' t _ g.1 (by rw [g.2]; exact Nat.le_refl _) f.2.2.2.1 f.1
    · cases hst
  · cases hst
    exact h.kill _
  · cases hst
    unfold stop
    split
    · exact h.setT' _ _ rfl (Nat.le_refl _) rfl rfl
    · exact h
    · exact h.setT' _ (fun k => { k with st := .stopped }) rfl (Nat.le_refl _) rfl rfl
    · exact h.setT' _ _ rfl (Nat.le_refl _) rfl rfl
  · cases hst
    unfold cont
    split
    · exact h.setT' _ _ rfl (Nat.le_refl _) rfl rfl
    · exact h.setT' _ _ rfl (Nat.le_refl _) rfl rfl
    · exact h
  · cases hst
    exact h
  · split at hst
    · cases hst
    · next t hc => exact h.act hi t _ hc hst hn

theorem reachP_tok {ok : St → Ev → Prop} {s : St} (h : ReachP ok s) : s.panic = false → TokAll s := by
  induction h with
  | init r =>
    intro _ t
    exact TOK.free (Nat.le_refl _) rfl (by simp [init, task0])
  | @step s s' e h hok hst ih =>
    intro hn
    obtain ⟨hp, x, h1, rfl⟩ := step_some hst
    have := (ih hp).step1 (reachP_inv h hp) e h1 hn
    exact this

/-! When no timer is left over. -/

/-- Places where the task's timer can be armed. -/
def Pc.hot : Pc → Bool
  | .inSleep => true
  | .inCond _ timed _ => timed
  | .inPoll timed => timed
  | _ => false

/-- A `poll` with a timeout. -/
def Pc.timedPoll : Pc → Bool
  | .setup timed => timed
  | .check timed _ _ => timed
  | .inPoll timed => timed
  | _ => false

/-- `false` is, or will be, the result of `kcond_wait`. -/
def Pc.gaveUp : Pc → Bool
  | .inLock _ (some (_, r)) => !r
  | .retCond _ r => !r
  | _ => false

/-- Which parts of the invariant are claimed: `g`, if no timer is left over; `f`, if also wait objects are not left in use; `j`: the
wait of task `tt` that began at `at0` has been signalled. -/
structure Par where
  f : Bool
  g : Bool
  j : Bool
  tt : Tid
  at0 : Nat

structure QT (p : Par) (ow : Mx → Option Tid) (ho : Mx → List Tid) (t : Tid) (k : Task) : Prop where
  cold : p.g = true → k.pc.hot = false → k.timer = false ∧ k.tready = false
  hot : p.g = true → k.pc.hot = true → (∀ b, k.pc ≠ .inPoll b) → k.st ≠ .asleep → k.timer = false ∧ (k.st = .running → k.tready = false)
  fires : k.fires0 ≤ k.fires
  late : p.g = true → ∀ c b m, k.pc = .inCond c b m → k.lim = b ∧ (k.st ≠ .asleep → k.wobj = .cond c → b = true ∧ k.fires0 < k.fires)
  ret : p.g = true → k.pc.gaveUp = true → k.lim = true ∧ k.fires0 < k.fires
  mutex : p.g = true → ∀ m, k.wobj = .mutex m → k.st = .asleep ∧ ∃ x, k.pc = .inLock m x
  lock : p.g = true → ∀ m x, k.pc = .inLock m x → t ∉ ho m ∧ (k.st ≠ .asleep → ow m = some t)
  cond : p.g = true → ∀ c b m, k.pc = .inCond c b (some m) → t ∉ ho m
  multi : p.f = true → p.g = true → k.wobj = .multi → ∃ b, k.pc = .inPoll b ∧ (k.st ≠ .asleep → b = true)
  sig : p.f = true → p.g = true → k.pc.timedPoll = true → k.sigP = false
  told : p.j = true → t = p.tt → k.since = p.at0 → k.pc.gaveUp = false ∧ ∀ c b m, k.pc = .inCond c b m → k.wobj ≠ .cond c

theorem begun_all {k k' : Task} (hb : k'.begun = k.begun) : k'.since = k.since ∧ k'.fires0 = k.fires0 ∧ k'.lim = k.lim := by
  unfold Task.begun at hb
  exact ⟨congrArg (·.1) hb, congrArg (·.2.2.1) hb, congrArg (·.2.2.2.2) hb⟩

/-- The task neither goes to sleep nor wakes up. -/
theorem QT.same {p : Par} {ow : Mx → Option Tid} {ho : Mx → List Tid} {t : Tid} {k k' : Task} (h : QT p ow ho t k)
    (hp : k'.pc = k.pc) (hw : k'.wobj = k.wobj) (hb : k'.begun = k.begun) (hf : k.fires ≤ k'.fires)
    (hs : k'.st = .asleep ↔ k.st = .asleep) (hr : k'.st = .running → k.st = .running ∨ k'.tready = false)
    (ht : k'.timer = true → k.timer = true) (htr : k'.tready = true → k.tready = true)
    (hsg : p.f = true → p.g = true → k.pc.timedPoll = true → k'.sigP = true → k.sigP = true) : QT p ow ho t k' := by
  obtain ⟨b1, b2, b3⟩ := begun_all hb
  have ht' : k.timer = false → k'.timer = false := by
    intro hx
    cases hy : k'.timer with
    | false => rfl
    | true => rw [ht hy] at hx; cases hx
  have htr' : k.tready = false → k'.tready = false := by
    intro hx
    cases hy : k'.tready with
    | false => rfl
    | true => rw [htr hy] at hx; cases hx
  refine ⟨?_, ?_, ?_, ?_, ?_, ?_, ?_, ?_, ?_, ?_, ?_⟩
  · intro g hh
    rw [hp] at hh
    exact ⟨ht' (h.cold g hh).1, htr' (h.cold g hh).2⟩
  · intro g hh hn ha
    rw [hp] at hh
    rw [hp] at hn
    have := h.hot g hh hn (fun hx => ha (hs.mpr hx))
    exact ⟨ht' this.1, fun hx => (hr hx).elim (fun hy => htr' (this.2 hy)) id⟩
  · rw [b2]
    exact Nat.le_trans h.fires hf
  · intro g c b m hh
    rw [hp] at hh
    have := h.late g c b m hh
    rw [b3, hw, b2]
    refine ⟨this.1, fun ha hx => ?_⟩
    have := this.2 (fun hy => ha (hs.mpr hy)) hx
    exact ⟨this.1, by omega⟩
  · intro g hh
    rw [hp] at hh
    have := h.ret g hh
    rw [b3, b2]
    exact ⟨this.1, by omega⟩
  · intro g m hh
    rw [hw] at hh
    rw [hp]
    exact ⟨hs.mpr (h.mutex g m hh).1, (h.mutex g m hh).2⟩
  · intro g m x hh
    rw [hp] at hh
    exact ⟨(h.lock g m x hh).1, fun ha => (h.lock g m x hh).2 (fun hy => ha (hs.mpr hy))⟩
  · intro g c b m hh
    rw [hp] at hh
    exact h.cond g c b m hh
  · intro f g hh
    rw [hw] at hh
    obtain ⟨b, e1, e2⟩ := h.multi f g hh
    exact ⟨b, by rw [hp]; exact e1, fun ha => e2 (fun hy => ha (hs.mpr hy))⟩
  · intro f g hh
    rw [hp] at hh
    have := h.sig f g hh
    cases hy : k'.sigP with
    | false => rfl
    | true => rw [hsg f g hh hy] at this; cases this
  · intro j e hx
    rw [b1] at hx
    rw [hp, hw]
    exact h.told j e hx

/-- The wait object is reset. -/
theorem QT.clear {p : Par} {ow ow' : Mx → Option Tid} {ho ho' : Mx → List Tid} {t : Tid} {k k' : Task} (h : QT p ow ho t k)
    (hp : k'.pc = k.pc) (hw : k'.wobj = .none) (hb : k'.begun = k.begun) (hf : k'.fires = k.fires)
    (ht : k'.timer = true → k.timer = true) (htr : k'.tready = true → k.tready = true)
    (hsg : p.f = true → p.g = true → k.pc.timedPoll = true → k'.sigP = true → k.sigP = true)
    (hho : ∀ m, t ∉ ho m → t ∉ ho' m)
    (c1 : p.g = true → k.pc.hot = true → (∀ b, k.pc ≠ .inPoll b) → k'.st ≠ .asleep → k'.timer = false ∧ (k'.st = .running → k'.tready = false))
    (c2 : p.g = true → ∀ m x, k.pc = .inLock m x → k'.st ≠ .asleep → ow' m = some t) : QT p ow' ho' t k' := by
  obtain ⟨b1, b2, b3⟩ := begun_all hb
  have ht' : k.timer = false → k'.timer = false := by
    intro hx
    cases hy : k'.timer with
    | false => rfl
    | true => rw [ht hy] at hx; cases hx
  have htr' : k.tready = false → k'.tready = false := by
    intro hx
    cases hy : k'.tready with
    | false => rfl
    | true => rw [htr hy] at hx; cases hx
  refine ⟨?_, ?_, ?_, ?_, ?_, ?_, ?_, ?_, ?_, ?_, ?_⟩
  · intro g hh
    rw [hp] at hh
    exact ⟨ht' (h.cold g hh).1, htr' (h.cold g hh).2⟩
  · intro g hh hn ha
    rw [hp] at hh
    rw [hp] at hn
    exact c1 g hh hn ha
  · rw [b2, hf]
    exact h.fires
  · intro g c b m hh
    rw [hp] at hh
    have := h.late g c b m hh
    rw [b3, hw, b2]
    exact ⟨this.1, fun ha hx => by cases hx⟩
  · intro g hh
    rw [hp] at hh
    have := h.ret g hh
    rw [b3, b2, hf]
    exact this
  · intro g m hh
    rw [hw] at hh
    cases hh
  · intro g m x hh
    rw [hp] at hh
    exact ⟨hho m (h.lock g m x hh).1, fun ha => c2 g m x hh ha⟩
  · intro g c b m hh
    rw [hp] at hh
    exact hho m (h.cond g c b m hh)
  · intro f g hh
    rw [hw] at hh
    cases hh
  · intro f g hh
    rw [hp] at hh
    have := h.sig f g hh
    cases hy : k'.sigP with
    | false => rfl
    | true => rw [hsg f g hh hy] at this; cases this
  · intro j e hx
    rw [b1] at hx
    rw [hp, hw]
    exact ⟨(h.told j e hx).1, fun c b m hy hz => by cases hz⟩

theorem wakeTask_more (k : Task) : (wakeTask k).timer = k.timer ∧ (wakeTask k).tready = k.tready ∧ (wakeTask k).fires = k.fires ∧
    (wakeTask k).sigP = k.sigP := by
  unfold wakeTask
  split <;> exact ⟨rfl, rfl, rfl, rfl⟩

theorem QT.fire {p : Par} {ow : Mx → Option Tid} {ho : Mx → List Tid} {t : Tid} {k : Task} (h : QT p ow ho t k) (ht : k.timer = true) :
    QT p ow ho t (fireTask k) := by
  obtain ⟨f1, -, -, f4, f5, f6⟩ := fireTask_fields k
  obtain ⟨b1, b2, b3⟩ := begun_all (fireTask_begun' k).1
  have hfi : (fireTask k).fires = k.fires + 1 := by
    unfold fireTask
    dsimp only
    split
    · rw [(wakeTask_more _).2.2.1]
    · rfl
  have hti : (fireTask k).timer = false := by
    unfold fireTask
    dsimp only
    split
    · rw [(wakeTask_more _).1]
    · rfl
  have hsg : (fireTask k).sigP = k.sigP := by
    unfold fireTask
    dsimp only
    split
    · rw [(wakeTask_more _).2.2.2]
    · rfl
  have hhot : p.g = true → k.pc.hot = true := by
    intro g
    cases hh : k.pc.hot with
    | true => rfl
    | false => rw [(h.cold g hh).1] at ht; cases ht
  have hlast : p.g = true → k.st = .asleep ∨ ∃ b, k.pc = .inPoll b := by
    intro g
    refine Classical.byContradiction fun hx => ?_
    have := (h.hot g (hhot g) (fun b hb => hx (Or.inr ⟨b, hb⟩)) (fun ha => hx (Or.inl ha))).1
    rw [this] at ht
    cases ht
  refine ⟨?_, ?_, ?_, ?_, ?_, ?_, ?_, ?_, ?_, ?_, ?_⟩
  · intro g hh
    rw [f4, hhot g] at hh
    cases hh
  · intro g hh hn ha
    refine ⟨hti, fun hr => ?_⟩
    rw [f4] at hn
    have hr := f6.mp hr
    rcases hlast g with hx | ⟨b, hb⟩
    · rw [hx] at hr; cases hr
    · exact absurd hb (hn b)
  · rw [b2, hfi]
    have := h.fires
    omega
  · intro g c b m hh
    rw [f4] at hh
    rw [b3, b2, hfi]
    have hb : b = true := by
      have := hhot g
      rw [hh] at this
      exact this
    have := h.fires
    exact ⟨(h.late g c b m hh).1, fun _ _ => ⟨hb, by omega⟩⟩
  · intro g hh
    rw [f4] at hh
    rw [b3, b2, hfi]
    have := h.ret g hh
    exact ⟨this.1, by omega⟩
  · intro g m hh
    rw [f1] at hh
    obtain ⟨x, hx⟩ := (h.mutex g m hh).2
    have := hhot g
    rw [hx] at this
    cases this
  · intro g m x hh
    rw [f4] at hh
    have := hhot g
    rw [hh] at this
    cases this
  · intro g c b m hh
    rw [f4] at hh
    exact h.cond g c b m hh
  · intro f g hh
    rw [f1] at hh
    obtain ⟨b, e1, e2⟩ := h.multi f g hh
    refine ⟨b, by rw [f4]; exact e1, fun _ => ?_⟩
    have := hhot g
    rw [e1] at this
    exact this
  · intro f g hh
    rw [f4] at hh
    rw [hsg]
    exact h.sig f g hh
  · intro j e hx
    rw [b1] at hx
    rw [f4, f1]
    exact h.told j e hx

/-- A place where nothing but a quiet timer is needed. -/
theorem QT.plain {p : Par} {ow : Mx → Option Tid} {ho : Mx → List Tid} {t : Tid} {k : Task} (hf : k.fires0 ≤ k.fires)
    (h1 : p.g = true → k.timer = false ∧ k.tready = false) (h2 : p.g = true → ∀ m, k.wobj ≠ .mutex m)
    (h3 : p.f = true → p.g = true → k.wobj ≠ .multi) (h4 : p.f = true → p.g = true → k.pc.timedPoll = true → k.sigP = false)
    (h5 : k.pc.hot = false) (h6 : k.pc.gaveUp = false) (h7 : ∀ m x, k.pc ≠ .inLock m x) (h8 : ∀ c b m, k.pc ≠ .inCond c b m) :
    QT p ow ho t k := by
  refine ⟨?_, ?_, hf, ?_, ?_, ?_, ?_, ?_, ?_, ?_, ?_⟩
  · intro g _
    exact h1 g
  · intro g hh
    rw [h5] at hh
    cases hh
  · intro g c b m hh
    exact absurd hh (h8 c b m)
  · intro g hh
    rw [h6] at hh
    cases hh
  · intro g m hh
    exact absurd hh (h2 g m)
  · intro g m x hh
    exact absurd hh (h7 m x)
  · intro g c b m hh
    exact absurd hh (h8 c b (some m))
  · intro f g hh
    exact absurd hh (h3 f g)
  · exact h4
  · intro j e hx
    exact ⟨h6, fun c b m hh => absurd hh (h8 c b m)⟩

/-- About mutexes, if no timer is left over. -/
structure GOK (s : St) : Prop where
  nodup : ∀ m, (s.holds m).Nodup
  own : ∀ m, ∀ t ∈ s.holds m, s.owner m = some t
  free : ∀ m, s.owner m = none → s.mlist m = []

structure QAll (p : Par) (s : St) : Prop where
  task : ∀ t, QT p s.owner s.holds t (s.tasks t)
  glob : p.g = true → GOK s
  time : p.j = true → p.at0 < s.clock

theorem GOK.sub {s s' : St} (h : GOK s) (ho : s'.owner = s.owner) (hh : s'.holds = s.holds) (hm : ∀ m, (s'.mlist m).Sublist (s.mlist m)) : GOK s' := by
  refine ⟨fun m => by rw [hh]; exact h.nodup m, fun m t ht => ?_, fun m hx => ?_⟩
  · rw [hh] at ht
    rw [ho]
    exact h.own m t ht
  · rw [ho] at hx
    have := hm m
    rw [h.free m hx] at this
    exact List.sublist_nil.mp this

/-- Only one task changes. -/
theorem QAll.one {p : Par} {s s' : St} (h : QAll p s) (t : Tid) (ho : s'.owner = s.owner) (hh : s'.holds = s.holds)
    (hm : ∀ m, (s'.mlist m).Sublist (s.mlist m)) (hc : s'.clock = s.clock) (hot : ∀ u, u ≠ t → s'.tasks u = s.tasks u)
    (ht : QT p s.owner s.holds t (s'.tasks t)) : QAll p s' := by
  refine ⟨fun u => ?_, fun g => (h.glob g).sub ho hh hm, fun j => by rw [hc]; exact h.time j⟩
  rw [ho, hh]
  by_cases hu : u = t
  · subst hu
    exact ht
  · rw [hot u hu]
    exact h.task u

theorem QAll.setT {p : Par} {s : St} (h : QAll p s) (t : Tid) (f : Task → Task) (hf : QT p s.owner s.holds t (f (s.tasks t))) :
    QAll p (s.setT t f) :=
  h.one t rfl rfl (fun _ => List.Sublist.refl _) rfl (fun u hu => setT_other s hu f) (by rw [setT_same]; exact hf)

theorem reset_more (s : St) (t : Tid) : (s.reset t).owner = s.owner ∧ (s.reset t).holds = s.holds ∧ (s.reset t).clock = s.clock ∧
    ∀ m, ((s.reset t).mlist m).Sublist (s.mlist m) := by
  refine ⟨?_, ?_, ?_, ?_⟩
  · unfold St.reset St.setT St.unlink
    split <;> rfl
  · unfold St.reset St.setT St.unlink
    split <;> rfl
  · unfold St.reset St.setT St.unlink
    split <;> rfl
  · intro m
    rw [reset_mlist]
    split
    · exact List.erase_sublist
    · exact List.Sublist.refl _

theorem wakeUp_more (s : St) (t : Tid) : (s.wakeUp t).owner = s.owner ∧ (s.wakeUp t).holds = s.holds ∧ (s.wakeUp t).clock = s.clock ∧
    ∀ m, ((s.wakeUp t).mlist m).Sublist (s.mlist m) := by
  unfold St.wakeUp
  dsimp only
  split <;> exact reset_more s t

/-- The task after `wake_up`. -/
theorem wakeUp_at (s : St) (t : Tid) (hc : s.cur ≠ some t) : (s.wakeUp t).tasks t = wakeTask { s.tasks t with wobj := .none } := by
  rw [wakeUp_same s t hc]

/-- `wake_up` of a sleeping task. -/
theorem QAll.wakeUp {p : Par} {s : St} (h : QAll p s) (t : Tid) (hcur : p.g = true → s.cur ≠ some t)
    (c1 : p.g = true → (s.tasks t).pc.hot = true → (∀ b, (s.tasks t).pc ≠ .inPoll b) → (s.tasks t).timer = false)
    (c2 : p.g = true → ∀ m x, (s.tasks t).pc = .inLock m x → s.owner m = some t) : QAll p (s.wakeUp t) := by
  obtain ⟨e1, e2, e3, e4⟩ := wakeUp_more s t
  refine h.one t e1 e2 e4 e3 (fun u hu => wakeUp_other s hu) ?_
  by_cases hc : s.cur = some t
  · have hg : p.g = true → False := fun g => hcur g hc
    unfold St.wakeUp
    dsimp only
    rw [if_pos hc, reset_tasks_same]
    exact (h.task t).clear rfl rfl rfl rfl id id (fun _ _ _ hx => hx) (fun _ hx => hx) (fun g => (hg g).elim) (fun g => (hg g).elim)
  rw [wakeUp_at s t hc]
  obtain ⟨w1, w2, w3, w4⟩ := wakeTask_more { s.tasks t with wobj := .none }
  have w := wakeTask_fields { s.tasks t with wobj := .none }
  refine (h.task t).clear w.2.2.2.1 w.1 (wakeTask_begun _) w3 (by rw [w1]; exact id) (by rw [w2]; exact id)
    (by rw [w4]; exact fun _ _ _ hx => hx) (fun _ hx => hx) ?_ ?_
  · intro g hh hn _
    rw [w1]
    exact ⟨c1 g hh hn, fun hr => absurd hr w.2.2.2.2.2⟩
  · intro g m x hx _
    exact c2 g m x hx

theorem QAll.signalNode {p : Par} {s : St} (h : QAll p s) (hk : TokAll s) (hi : Inv s) (c : Cond) (n : Node) (hm : n ∈ s.list c) :
    QAll p (signalNode c s n) := by
  unfold Kcond.signalNode
  cases n with
  | one t =>
    dsimp only
    split
    · exact h
    · next hst =>
      have hst : (s.tasks t).st = .asleep := Classical.byContradiction hst
      have hw := (hi.core.one c t).mp hm
      obtain ⟨b, m, hp⟩ := (hk t).2.1 c hw
      have h1 : QAll p (s.setT t cancel) := h.setT t _ ((h.task t).same rfl rfl rfl (Nat.le_refl _) Iff.rfl (fun hx => Or.inl hx)
        (fun hx => by cases hx) (fun hx => by cases hx) (fun _ _ _ hx => hx))
      have e1 := setT_same s t cancel
      have hcur : s.cur ≠ some t := by
        intro hx
        rw [(hi.cur t).mpr hx] at hst
        cases hst
      have h2 : QAll p ((s.setT t cancel).reset t) := by
        obtain ⟨e1, e2, e3, e4⟩ := reset_more (s.setT t cancel) t
        refine h1.one t e1 e2 e4 e3 (fun u hu => reset_tasks_other _ hu) ?_
        rw [reset_tasks_same]
        refine (h1.task t).clear rfl rfl rfl rfl id id (fun _ _ _ hx => hx) (fun _ hx => hx) ?_ ?_
        · intro _ _ _ _
          rw [setT_same]
          exact ⟨rfl, fun _ => rfl⟩
        · intro _ m' x hx
          rw [setT_same] at hx
          have hx : (s.tasks t).pc = .inLock m' x := hx
          rw [hp] at hx
          cases hx
      refine h2.wakeUp t (fun _ => by rw [reset_cur]; exact hcur) ?_ ?_
      · intro _ _ _
        rw [reset_tasks_same, e1]
        rfl
      · intro _ m' x hx
        rw [reset_tasks_same, e1] at hx
        have hx : (s.tasks t).pc = .inLock m' x := hx
        rw [hp] at hx
        cases hx
  | elem t i =>
    dsimp only
    have h1 : QAll p ((s.setL c (·.erase (.elem t i))).setT t fun k => { k with sigd := k.sigd ++ [i] }) := by
      refine QAll.setT (s := s.setL c (·.erase (.elem t i))) ⟨h.task, fun g => (h.glob g).sub rfl rfl (fun _ => List.Sublist.refl _), h.time⟩ t _ ?_
      exact (h.task t).same rfl rfl rfl (Nat.le_refl _) Iff.rfl (fun hx => Or.inl hx) id id (fun _ _ _ hx => hx)
    split
    · next hst =>
      have hcur : s.cur ≠ some t := by
        intro hx
        rw [(hi.cur t).mpr hx] at hst
        cases hst
      have hpol : (s.tasks t).pc.polling = true := by
        cases hx : (s.tasks t).pc.polling with
        | true => rfl
        | false =>
          have := hi.core.quiet t hx
          have hwi := ((hi.core.elem c t i).mp hm).1
          rw [this] at hwi
          cases hwi
      have e1 := setT_same (s.setL c (·.erase (.elem t i))) t fun k => { k with sigd := k.sigd ++ [i] }
      refine h1.wakeUp t (fun _ => hcur) ?_ ?_
      · intro _ hh hn
        rw [e1] at hh hn
        exfalso
        have hh : (s.tasks t).pc.hot = true := hh
        have hn : ∀ b, (s.tasks t).pc ≠ .inPoll b := hn
        generalize (s.tasks t).pc = pc at *
        cases pc <;> first | (cases hpol; done) | (cases hh; done) | exact hn _ rfl
      · intro _ m x hx
        rw [e1] at hx
        have hx : (s.tasks t).pc = .inLock m x := hx
        rw [hx] at hpol
        cases hpol
    · exact h1

theorem QAll.signalNodes {p : Par} {s : St} (h : QAll p s) (hk : TokAll s) (hi : Inv s) (c : Cond)
    (htold : ∀ u b m, (s.tasks u).pc = .inCond c b m → Told s.sigs (s.tasks u) c) : ∀ (l : List Node), l.Nodup →
    (∀ n ∈ l, n ∈ s.list c) → QAll p (l.foldl (Kcond.signalNode c) s) := by
  intro l
  induction l generalizing s with
  | nil => intro _ _; exact h
  | cons n l ih =>
    intro hn hl
    have hm := hl n List.mem_cons_self
    refine ih (h.signalNode hk hi c n hm) (hk.signalNode hi.core hi.asleep c n hm htold) (hi.signalNode c n hm) ?_ hn.of_cons ?_
    · intro u b m hp
      obtain ⟨e1, e2, e3, e4⟩ := signalNode_told c s n u
      rw [e3] at hp
      rw [e4]
      exact (htold u b m hp).mono (fun _ => Nat.le_refl _) e1 (by omega)
    · intro x hx
      rw [signalNode_list c s hi.core hi.asleep n hm x ?_ c]
      · exact hl x (List.mem_cons_of_mem _ hx)
      · rintro rfl
        exact (List.nodup_cons.mp hn).1 hx

theorem QAll.sent {p : Par} {s : St} (h : QAll p s) (c : Cond) (b : Bool) : QAll p (s.sent c b) :=
  ⟨h.task, fun g => (h.glob g).sub rfl rfl (fun _ => List.Sublist.refl _), h.time⟩

theorem QAll.ofSent {p : Par} {s : St} {c : Cond} {b : Bool} (b' : Bool) (h : QAll p (s.sent c b)) : QAll p (s.sent c b') :=
  ⟨h.task, fun g => (h.glob g).sub rfl rfl (fun _ => List.Sublist.refl _), h.time⟩

theorem QAll.signalAll {p : Par} {s : St} (h : QAll p s) (hk : TokAll s) (hi : Inv s) (c : Cond) : QAll p (signalAll s c) := by
  have h1 : QAll p ((s.list c).foldl (Kcond.signalNode c) (s.sent c false)) :=
    QAll.signalNodes (h.sent c false) (hk.sent c false) ⟨hi.core.sent' c, hi.asleep, hi.cur⟩ c
      (fun u b m hx => sent_told hk c false u b m hx) (s.list c) (hi.core.nodup c) (fun _ hx => hx)
  rw [signalNodes_sent] at h1
  unfold Kcond.signalAll
  rw [signalNodes_sent]
  exact h1.ofSent true

theorem QAll.signalOne {p : Par} {s : St} (h : QAll p s) (hk : TokAll s) (hi : Inv s) (c : Cond) : QAll p (signalOne s c) := by
  unfold Kcond.signalOne
  split
  · exact h.sent c true
  · next n rest hl =>
    have hm : n ∈ (s.sent c false).list c := by
      show n ∈ s.list c
      rw [hl]
      exact List.mem_cons_self
    have h1 := QAll.signalNode (h.sent c false) (hk.sent c false) ⟨hi.core.sent' c, hi.asleep, hi.cur⟩ c n hm
    rw [signalNode_sent] at h1 ⊢
    exact h1.ofSent _

theorem QT.owner {p : Par} {ow ow' : Mx → Option Tid} {ho ho' : Mx → List Tid} {t : Tid} {k : Task} (h : QT p ow ho t k)
    (hho : ∀ m, t ∉ ho m → t ∉ ho' m) (hl : p.g = true → ∀ m x, k.pc = .inLock m x → k.st ≠ .asleep → ow' m = some t) : QT p ow' ho' t k :=
  ⟨h.cold, h.hot, h.fires, h.late, h.ret, h.mutex, fun g m x hx => ⟨hho m (h.lock g m x hx).1, hl g m x hx⟩,
    fun g c b m hx => hho m (h.cond g c b m hx), h.multi, h.sig, h.told⟩

/-- The owner `t`, which does not wait, gives up a mutex. -/
theorem QAll.give {p : Par} {s : St} (h : QAll p s) (t : Tid) (m : Mx) (o : Option Tid) (hp : ∀ x, (s.tasks t).pc ≠ .inLock m x)
    (hh : p.g = true → t ∈ s.holds m) (ho : o = none → s.mlist m = []) :
    QAll p { s with holds := fun d => if d = m then (s.holds d).erase t else s.holds d, owner := fun d => if d = m then o else s.owner d } := by
  refine ⟨fun u => ?_, fun g => ⟨?_, ?_, ?_⟩, h.time⟩
  · refine (h.task u).owner ?_ ?_
    · intro d hd
      dsimp only
      split
      · exact fun hx => hd (List.mem_of_mem_erase hx)
      · exact hd
    · intro g d x hx ha
      have := ((h.task u).lock g d x hx).2 ha
      dsimp only
      split
      · next hd =>
        subst hd
        rw [(h.glob g).own d t (hh g)] at this
        cases this
        exact absurd hx (hp x)
      · exact this
  · intro d
    dsimp only
    split
    · exact ((h.glob g).nodup d).erase t
    · exact (h.glob g).nodup d
  · intro d u hu
    dsimp only at hu ⊢
    split at hu
    · next hd =>
      subst hd
      exfalso
      have h1 := (h.glob g).own d t (hh g)
      have h2 := (h.glob g).own d u (List.mem_of_mem_erase hu)
      rw [h1] at h2
      cases h2
      exact ((List.Nodup.mem_erase_iff ((h.glob g).nodup d)).mp hu).1 rfl
    · next hd =>
      rw [if_neg hd]
      exact (h.glob g).own d u hu
  · intro d hd
    dsimp only at hd ⊢
    split at hd
    · next he =>
      subst he
      exact ho hd
    · exact (h.glob g).free d hd

theorem QAll.unlock {p : Par} {s : St} (h : QAll p s) (hi : Inv s) (t : Tid) (m : Mx) (hp : ∀ x, (s.tasks t).pc ≠ .inLock m x)
    (hh : p.g = true → t ∈ s.holds m) : QAll p (unlock s t m) := by
  unfold Kcond.unlock
  dsimp only
  split
  · next hl => exact h.give t m none hp hh (fun _ => hl)
  · next u rest hl =>
    have hw : (s.tasks u).wobj = .mutex m := (hi.core.mone m u).mp (by rw [hl]; exact List.mem_cons_self)
    refine (h.give t m (some u) hp hh (fun hx => by cases hx)).wakeUp u ?_ ?_ ?_
    · intro g hx
      have := (h.task u).mutex g m hw
      have hx : s.cur = some u := hx
      rw [(hi.cur u).mpr hx] at this
      cases this.1
    · intro g hx
      obtain ⟨x, hy⟩ := ((h.task u).mutex g m hw).2
      have hx : (s.tasks u).pc.hot = true := hx
      rw [hy] at hx
      cases hx
    · intro g d x hx
      obtain ⟨y, hy⟩ := ((h.task u).mutex g m hw).2
      have hx : (s.tasks u).pc = .inLock d x := hx
      rw [hy] at hx
      cases hx
      dsimp only
      rw [if_pos rfl]

theorem goSleep_at (s : St) (t : Tid) (pc : Pc) : (s.goSleep t pc).tasks t =
    if (s.tasks t).tready then { s.tasks t with tready := false, st := .running, pc := pc } else { s.tasks t with st := .asleep, pc := pc } := by
  unfold St.goSleep
  split
  · exact setT_same s t fun k => { k with tready := false, st := .running, pc := pc }
  · exact setT_same s t fun k => { k with st := .asleep, pc := pc }

theorem goSleep_more (s : St) (t : Tid) (pc : Pc) : (s.goSleep t pc).owner = s.owner ∧ (s.goSleep t pc).holds = s.holds ∧
    (s.goSleep t pc).clock = s.clock ∧ (s.goSleep t pc).mlist = s.mlist := by
  unfold St.goSleep
  split <;> exact ⟨rfl, rfl, rfl, rfl⟩

theorem prepare_more (s : St) (t : Tid) (w : WObj) : (s.prepare t w).owner = s.owner ∧ (s.prepare t w).holds = s.holds ∧
    (s.prepare t w).clock = s.clock := by
  unfold St.prepare
  split
  · exact ⟨rfl, rfl, rfl⟩
  · unfold St.link
    cases w <;> exact ⟨rfl, rfl, rfl⟩

/-- What is needed of a task that is about to own the mutex. -/
theorem QAll.locked {p : Par} {s : St} (h : QAll p s) (t : Tid) (m : Mx) (k : Option (Cond × Bool))
    (ht : QT p s.owner s.holds t { s.tasks t with pc := after k }) (ho : p.g = true → s.owner m = some t) (hh : p.g = true → t ∉ s.holds m) :
    QAll p (locked s t m k) := by
  refine ⟨fun u => ?_, fun g => ⟨?_, ?_, ?_⟩, h.time⟩
  · show QT p s.owner (fun d => if d = m then t :: s.holds d else s.holds d) u _
    by_cases hu : u = t
    · subst hu
      rw [locked_same]
      refine ⟨ht.cold, ht.hot, ht.fires, ht.late, ht.ret, ht.mutex, ?_, ?_, ht.multi, ht.sig, ht.told⟩
      · intro _ d x hx
        cases k with
        | none => cases hx
        | some x => cases hx
      · intro _ c b d hx
        cases k with
        | none => cases hx
        | some x => cases hx
    · rw [locked_other s hu]
      refine (h.task u).owner ?_ ?_
      · intro d hd
        split
        · rw [List.mem_cons]
          exact fun hx => hx.elim hu hd
        · exact hd
      · intro g d x hx ha
        exact ((h.task u).lock g d x hx).2 ha
  · intro d
    show (if d = m then t :: s.holds d else s.holds d).Nodup
    split
    · next hd =>
      subst hd
      exact List.nodup_cons.mpr ⟨hh g, (h.glob g).nodup d⟩
    · exact (h.glob g).nodup d
  · intro d u hu
    have hu2 : u ∈ if d = m then t :: s.holds d else s.holds d := hu
    show s.owner d = some u
    clear hu
    split at hu2
    · next hd =>
      subst hd
      rcases List.mem_cons.mp hu2 with rfl | hu
      · exact ho g
      · exact (h.glob g).own d u hu
    · exact (h.glob g).own d u hu2
  · intro d hd
    exact (h.glob g).free d hd

theorem QAll.lock {p : Par} {s : St} (h : QAll p s) (t : Tid) (m : Mx) (k : Option (Cond × Bool))
    (ht : QT p s.owner s.holds t { s.tasks t with pc := after k }) (hh : p.g = true → t ∉ s.holds m)
    (hn : (lock s t m k).panic = false) : QAll p (lock s t m k) := by
  unfold Kcond.lock at hn ⊢
  split
  · next ho =>
    refine QAll.locked (s := { s with owner := fun d => if d = m then some t else s.owner d }) ?_ t m k ?_ ?_ hh
    · refine ⟨fun u => ?_, fun g => ⟨(h.glob g).nodup, ?_, ?_⟩, h.time⟩
      · refine (h.task u).owner (fun _ hd => hd) ?_
        intro g d x hx ha
        have := ((h.task u).lock g d x hx).2 ha
        dsimp only
        split
        · next hd =>
          subst hd
          rw [ho] at this
          cases this
        · exact this
      · intro d u hu
        have := (h.glob g).own d u hu
        dsimp only
        split
        · next hd =>
          subst hd
          rw [ho] at this
          cases this
        · exact this
      · intro d hd
        dsimp only at hd
        split at hd
        · cases hd
        · exact (h.glob g).free d hd
    · refine ht.owner (fun _ hd => hd) ?_
      intro g d x hx ha
      cases k with
      | none => cases hx
      | some x => cases hx
    · intro _
      dsimp only
      rw [if_pos rfl]
  · next ho =>
    rw [if_neg ho, goSleep_panic] at hn
    have hw0 : (s.tasks t).wobj = .none := by
      refine Classical.byContradiction fun hx => ?_
      rw [prepare_panic s t _ hx] at hn
      cases hn
    have e := prepare_tasks s t (.mutex m) hw0
    have et := e t
    rw [if_pos rfl] at et
    obtain ⟨a1, a2, a3⟩ := prepare_more s t (.mutex m)
    obtain ⟨g1, g2, g3, g4⟩ := goSleep_more (s.prepare t (.mutex m)) t (.inLock m k)
    have hml : ∀ d, (s.prepare t (.mutex m)).mlist d = if d = m then s.mlist d ++ [t] else s.mlist d := by
      intro d
      unfold St.prepare
      rw [if_neg (by simp [hw0])]
      rfl
    refine ⟨fun u => ?_, fun g => ⟨?_, ?_, ?_⟩, fun j => by rw [g3, a3]; exact h.time j⟩
    · rw [g1, a1, g2, a2]
      by_cases hu : u = t
      · subst hu
        have hgu : Pc.gaveUp (.inLock m k) = (after k).gaveUp := by
          cases k with
          | none => rfl
          | some x => rfl
        have hcold : p.g = true → (s.tasks u).timer = false ∧ (s.tasks u).tready = false := by
          intro g
          refine ht.cold g ?_
          cases k with
          | none => rfl
          | some x => rfl
        rw [goSleep_at, et]
        dsimp only
        split
        · next hr =>
          refine ⟨?_, ?_, ht.fires, ?_, ?_, ?_, ?_, ?_, ?_, ?_, ?_⟩
          · intro g _
            exact ⟨(hcold g).1, rfl⟩
          · intro g hx
            cases hx
          · intro g c b d hx
            cases hx
          · intro g hx
            exact ht.ret g (hgu.symm.trans hx)
          · intro g d hx
            rw [(hcold g).2] at hr
            cases hr
          · intro g d x hx
            rw [(hcold g).2] at hr
            cases hr
          · intro g c b d hx
            cases hx
          · intro f g hx
            cases hx
          · intro f g hx
            cases hx
          · intro j e hx
            exact ⟨hgu.trans (ht.told j e hx).1, fun c b d hx => by cases hx⟩
        · refine ⟨?_, ?_, ht.fires, ?_, ?_, ?_, ?_, ?_, ?_, ?_, ?_⟩
          · intro g _
            exact hcold g
          · intro g hx
            cases hx
          · intro g c b d hx
            cases hx
          · intro g hx
            exact ht.ret g (hgu.symm.trans hx)
          · intro g d hx
            cases hx
            exact ⟨rfl, k, rfl⟩
          · intro g d x hx
            cases hx
            exact ⟨hh g, fun hx => absurd rfl hx⟩
          · intro g c b d hx
            cases hx
          · intro f g hx
            cases hx
          · intro f g hx
            cases hx
          · intro j e hx
            exact ⟨hgu.trans (ht.told j e hx).1, fun c b d hx => by cases hx⟩
      · rw [goSleep_other _ hu, e u, if_neg hu]
        exact h.task u
    · intro d
      rw [g2, a2]
      exact (h.glob g).nodup d
    · intro d u hu
      rw [g2, a2] at hu
      rw [g1, a1]
      exact (h.glob g).own d u hu
    · intro d hd
      rw [g1, a1] at hd
      rw [g4, hml, if_neg ?_]
      · exact (h.glob g).free d hd
      · rintro rfl
        exact ho hd

theorem QAll.waitEnd {p : Par} {s : St} (h : QAll p s) (hk : TokAll s) (hi : Inv s) (t : Tid) (c : Cond) (b : Bool) (m : Option Mx)
    (hc : s.cur = some t) (hp : (s.tasks t).pc = .inCond c b m) (hn : (waitEnd s t c m).panic = false) : QAll p (waitEnd s t c m) := by
  have hr := (hi.cur t).mpr hc
  have hq := h.task t
  have hcold : p.g = true → (s.tasks t).timer = false ∧ (s.tasks t).tready = false := by
    intro g
    cases b with
    | false => exact hq.cold g (by rw [hp]; rfl)
    | true =>
      have := hq.hot g (by rw [hp]; rfl) (by rw [hp]; simp) (by rw [hr]; simp)
      exact ⟨this.1, this.2 hr⟩
  have hw : (s.tasks t).wobj = .cond c ∨ (s.tasks t).wobj = .none := by
    have := (hk t).2.2
    rw [hp] at this
    exact this.2.imp id fun hx => hx.1
  have hlate : p.g = true → (s.tasks t).wobj ≠ .none → (s.tasks t).lim = true ∧ (s.tasks t).fires0 < (s.tasks t).fires := by
    intro g hx
    have := hq.late g c b m hp
    have h2 := this.2 (by rw [hr]; simp) (hw.resolve_right hx)
    exact ⟨this.1.trans h2.1, h2.2⟩
  have e := reset_tasks_same s t
  obtain ⟨r1, r2, r3, r4⟩ := reset_more s t
  have h1 : QAll p (s.reset t) := by
    refine h.one t r1 r2 r4 r3 (fun u hu => reset_tasks_other s hu) ?_
    rw [e]
    refine hq.clear rfl rfl rfl rfl id id (fun _ _ _ hx => hx) (fun _ hx => hx) ?_ ?_
    · intro g _ _ _
      exact ⟨(hcold g).1, fun _ => (hcold g).2⟩
    · intro g d x hx
      rw [hp] at hx
      cases hx
  have hafter : QT p (s.reset t).owner (s.reset t).holds t
      { (s.reset t).tasks t with pc := .retCond c (decide ((s.tasks t).wobj = .none)) } := by
    rw [e]
    refine ⟨?_, ?_, hq.fires, ?_, ?_, ?_, ?_, ?_, ?_, ?_, ?_⟩
    · intro g _
      exact hcold g
    · intro g hx
      cases hx
    · intro g c b d hx
      cases hx
    · intro g hx
      refine hlate g ?_
      intro hy
      have hx : (!decide ((s.tasks t).wobj = .none)) = true := hx
      rw [hy] at hx
      simp at hx
    · intro g d hx
      cases hx
    · intro g d x hx
      cases hx
    · intro g c b d hx
      cases hx
    · intro f g hx
      cases hx
    · intro f g hx
      cases hx
    · intro j e hx
      have := (hq.told j e hx).2 c b m hp
      refine ⟨?_, fun c b d hx => by cases hx⟩
      show (!decide ((s.tasks t).wobj = .none)) = false
      rw [hw.resolve_left this]
      simp
  unfold Kcond.waitEnd at hn ⊢
  dsimp only at hn ⊢
  cases m with
  | none => exact h1.setT t _ hafter
  | some m =>
    refine h1.lock t m _ hafter ?_ hn
    intro g
    rw [r2]
    exact hq.cond g c b m hp

theorem unlock_agree {s s2 : St} (t : Tid) (m : Mx) (ht : ∀ u, u ≠ t → s2.tasks u = s.tasks u) (ho : s2.owner = s.owner) (hh : s2.holds = s.holds)
    (hm : s2.mlist = s.mlist) (hc : s2.clock = s.clock) (hcu : s2.cur = s.cur) (hne : ∀ u rest, s.mlist m = u :: rest → u ≠ t) :
    (∀ u, u ≠ t → (unlock s2 t m).tasks u = (unlock s t m).tasks u) ∧ (unlock s2 t m).tasks t = s2.tasks t ∧
    (unlock s2 t m).owner = (unlock s t m).owner ∧
    (unlock s2 t m).holds = (unlock s t m).holds ∧ (unlock s2 t m).mlist = (unlock s t m).mlist ∧ (unlock s2 t m).clock = (unlock s t m).clock := by
  unfold unlock
  rw [hm]
  dsimp only
  cases hl : s.mlist m with
  | nil =>
    dsimp only
    rw [ho, hh, hc]
    exact ⟨ht, rfl, rfl, rfl, rfl, rfl⟩
  | cons u rest =>
    dsimp only
    have hu := hne u rest hl
    refine ⟨?_, ?_, ?_, ?_, ?_, ?_⟩
    · intro v hv
      by_cases hvu : v = u
      · subst hvu
        unfold St.wakeUp
        dsimp only
        rw [hcu]
        split
        · rw [reset_tasks_same, reset_tasks_same]
          dsimp only
          rw [ht v hv]
        · rw [setT_same, setT_same, reset_tasks_same, reset_tasks_same]
          dsimp only
          rw [ht v hv]
      · rw [wakeUp_other _ hvu, wakeUp_other _ hvu]
        exact ht v hv
    · rw [wakeUp_other _ (Ne.symm hu)]
    · rw [(wakeUp_more _ u).1, (wakeUp_more _ u).1]
      dsimp only
      rw [ho]
    · rw [(wakeUp_more _ u).2.1, (wakeUp_more _ u).2.1]
      dsimp only
      rw [hh]
    · have hwm : ∀ x : St, (x.wakeUp u).mlist = (x.reset u).mlist := by
        intro x
        unfold St.wakeUp
        dsimp only
        split <;> rfl
      rw [hwm, hwm]
      funext d
      rw [reset_mlist, reset_mlist]
      dsimp only
      rw [ht u hu]
    · rw [(wakeUp_more _ u).2.2.1, (wakeUp_more _ u).2.2.1]
      exact hc

theorem QAll.waitBegin {p : Par} {s : St} (h : QAll p s) (hi : Inv s) (t : Tid) (c : Cond) (timed : Bool) (m : Option Mx)
    (hp : (s.tasks t).pc = .idle) (hm : p.g = true → ∀ x ∈ m, t ∈ s.holds x)
    (hn : (waitBegin s t c timed m).panic = false) : QAll p (waitBegin s t c timed m) := by
  have hw := waitBegin_panic s t c timed m hn
  clear hn
  have hcold := fun g => (h.task t).cold g (by rw [hp]; rfl)
  have hw0 : ((s.setT t (fun k => { k with kills0 := k.kills, fires0 := k.fires, sigs0 := s.sigs c, since := s.clock, lim := timed })).tasks t).wobj = .none := by
    rw [setT_same]
    exact hw
  have hself := prepare_tasks _ t (.cond c) hw0 t
  rw [if_pos rfl, setT_same] at hself
  have hother : ∀ u, u ≠ t → (((s.setT t (fun k => { k with kills0 := k.kills, fires0 := k.fires, sigs0 := s.sigs c, since := s.clock, lim := timed })).prepare t
      (.cond c)).tasks u) = s.tasks u := by
    intro u hu
    rw [prepare_tasks _ t _ hw0, if_neg hu, setT_other s hu]
  have hmore := prepare_more (s.setT t (fun k => { k with kills0 := k.kills, fires0 := k.fires, sigs0 := s.sigs c, since := s.clock, lim := timed })) t (.cond c)
  have hcu := prepare_cur (s.setT t (fun k => { k with kills0 := k.kills, fires0 := k.fires, sigs0 := s.sigs c, since := s.clock, lim := timed })) t (.cond c)
  have hml : ((s.setT t (fun k => { k with kills0 := k.kills, fires0 := k.fires, sigs0 := s.sigs c, since := s.clock, lim := timed })).prepare t
      (.cond c)).mlist = s.mlist := by
    unfold St.prepare
    rw [if_neg (by simp [hw0])]
    rfl
  unfold Kcond.waitBegin
  dsimp only
  generalize (s.setT t (fun k => { k with kills0 := k.kills, fires0 := k.fires, sigs0 := s.sigs c, since := s.clock, lim := timed })).prepare t
      (.cond c) = s1 at *
  have hto : ∀ u, u ≠ t → (s1.setT t (arm timed)).tasks u = s.tasks u := by
    intro u hu
    rw [setT_other _ hu]
    exact hother u hu
  have hts : (s1.setT t (arm timed)).tasks t = arm timed { s.tasks t with kills0 := (s.tasks t).kills, fires0 := (s.tasks t).fires, sigs0 := s.sigs c, since := s.clock, lim := timed, wobj := .cond c } := by
    rw [setT_same, hself]
  have e1 : (s1.setT t (arm timed)).owner = s.owner := hmore.1
  have e2 : (s1.setT t (arm timed)).holds = s.holds := hmore.2.1
  have e3 : (s1.setT t (arm timed)).clock = s.clock := hmore.2.2
  have e4 : (s1.setT t (arm timed)).mlist = s.mlist := hml
  have e5 : (s1.setT t (arm timed)).cur = s.cur := hcu
  generalize s1.setT t (arm timed) = s2 at *
  -- the record of the waiting task
  have key : ∀ (S s3 : St), QAll p S → S.clock = s.clock → (∀ u, u ≠ t → s3.tasks u = S.tasks u) → s3.owner = S.owner → s3.holds = S.holds → s3.mlist = S.mlist →
      s3.clock = S.clock → s3.tasks t = s2.tasks t → (p.g = true → ∀ x ∈ m, t ∉ S.holds x) → QAll p (s3.goSleep t (.inCond c timed m)) := by
    intro S s3 hS hSc k1 k2 k3 k4 k5 k6 k7
    obtain ⟨g1, g2, g3, g4⟩ := goSleep_more s3 t (.inCond c timed m)
    refine hS.one t (g1.trans k2) (g2.trans k3) (fun d => by rw [g4, k4]; exact List.Sublist.refl _) (g3.trans k5)
      (fun u hu => by rw [goSleep_other _ hu]; exact k1 u hu) ?_
    have hold : p.j = true → s.clock ≠ p.at0 := by
      intro j hx
      have := h.time j
      omega
    have hf : (arm timed { s.tasks t with kills0 := (s.tasks t).kills, fires0 := (s.tasks t).fires, sigs0 := s.sigs c, since := s.clock, lim := timed, wobj := .cond c }) =
        { s.tasks t with kills0 := (s.tasks t).kills, fires0 := (s.tasks t).fires, sigs0 := s.sigs c, since := s.clock, lim := timed, wobj := .cond c, timer := (timed || (s.tasks t).timer) } := by
      unfold Kcond.arm
      cases timed <;> rfl
    rw [goSleep_at, k6, hts, hf]
    dsimp only
    split
    · next hr =>
      have hng : p.g = true → False := by
        intro g
        rw [(hcold g).2] at hr
        cases hr
      refine ⟨fun g => (hng g).elim, fun g => (hng g).elim, Nat.le_refl _, fun g => (hng g).elim, fun g => (hng g).elim, fun g => (hng g).elim,
        fun g => (hng g).elim, fun g => (hng g).elim, fun _ g => (hng g).elim, fun _ g => (hng g).elim, ?_⟩
      intro j e hx
      exact absurd hx (hold j)
    · refine ⟨?_, ?_, Nat.le_refl _, ?_, ?_, ?_, ?_, ?_, ?_, ?_, ?_⟩
      · intro g hx
        have hx : timed = false := hx
        refine ⟨?_, (hcold g).2⟩
        dsimp only
        rw [hx, (hcold g).1]
        rfl
      · intro g _ _ hx
        exact absurd rfl hx
      · intro g d b x hx
        cases hx
        exact ⟨rfl, fun hx => absurd rfl hx⟩
      · intro g hx
        cases hx
      · intro g d hx
        cases hx
      · intro g d x hx
        cases hx
      · intro g d b x hx
        cases hx
        exact k7 g x rfl
      · intro f g hx
        cases hx
      · intro f g hx
        cases hx
      · intro j e hx
        exact absurd hx (hold j)
  cases m with
  | none => exact key s s2 h rfl hto e1 e2 e4 e3 rfl (fun _ x hx => by cases hx)
  | some m =>
    dsimp only at key ⊢
    have hne : ∀ u rest, s.mlist m = u :: rest → u ≠ t := by
      intro u rest hl hu
      subst hu
      have : (s.tasks u).wobj = .mutex m := (hi.core.mone m u).mp (by rw [hl]; exact List.mem_cons_self)
      rw [hw] at this
      cases this
    obtain ⟨a1, a2, a3, a4, a5, a6⟩ := unlock_agree t m hto e1 e2 e4 e3 e5 hne
    have hu := h.unlock hi t m (by rw [hp]; simp) (fun g => hm g m rfl)
    have hclk : (Kcond.unlock s t m).clock = s.clock := by
      unfold Kcond.unlock
      dsimp only
      split
      · rfl
      · rw [(wakeUp_more _ _).2.2.1]
    refine key (Kcond.unlock s t m) _ hu hclk a1 a3 a4 a5 a6 a2 ?_
    intro g x hx
    cases hx
    have hhe : (Kcond.unlock s t m).holds m = (s.holds m).erase t := by
      unfold Kcond.unlock
      dsimp only
      split
      · dsimp only
        rw [if_pos rfl]
      · rw [(wakeUp_more _ _).2.1]
        dsimp only
        rw [if_pos rfl]
    rw [hhe]
    intro hx
    exact ((List.Nodup.mem_erase_iff ((h.glob g).nodup m)).mp hx).1 rfl

theorem rearm_at (s : St) (t : Tid) (timed : Bool) : (rearm s t timed).tasks t = { s.tasks t with sigd := [], pc := .check timed 0 false } ∧
    (rearm s t timed).owner = s.owner ∧ (rearm s t timed).holds = s.holds ∧ (rearm s t timed).mlist = s.mlist ∧ (rearm s t timed).clock = s.clock := by
  have e := rearmList_same t (s.tasks t).watch (s.tasks t).sigd s
  have e2 : ∀ (l : List Nat) (w : List Cond) (s : St), (rearmList t w l s).owner = s.owner ∧ (rearmList t w l s).holds = s.holds ∧
      (rearmList t w l s).mlist = s.mlist ∧ (rearmList t w l s).clock = s.clock := by
    intro l w
    induction l with
    | nil => intro s; exact ⟨rfl, rfl, rfl, rfl⟩
    | cons i l ih => intro s; exact ih _
  unfold rearm
  refine ⟨?_, e2 _ _ _⟩
  rw [setT_same, e.1]

theorem pollExit_at (s : St) (t : Tid) : (pollExit s t).tasks t = { cancel (s.tasks t) with sigd := [], watch := [], pc := .retPoll } :=
  setT_same s t (fun k => { cancel k with sigd := [], watch := [], pc := .retPoll })

theorem QAll.rearm {p : Par} {s : St} (h : QAll p s) (t : Tid) (timed : Bool) (h1 : p.g = true → (s.tasks t).timer = false ∧ (s.tasks t).tready = false)
    (h2 : p.g = true → ∀ m, (s.tasks t).wobj ≠ .mutex m) (h3 : p.f = true → p.g = true → (s.tasks t).wobj ≠ .multi)
    (h4 : p.f = true → p.g = true → timed = true → (s.tasks t).sigP = false) : QAll p (rearm s t timed) := by
  obtain ⟨e1, e2, e3, e4, e5⟩ := rearm_at s t timed
  refine h.one t e2 e3 (fun d => by rw [e4]; exact List.Sublist.refl _) e5 (rearm_same s t timed).2.2.1 ?_
  rw [e1]
  exact QT.plain (h.task t).fires h1 h2 h3 h4 rfl rfl (by simp) (by simp)

theorem QAll.pollExit {p : Par} {s : St} (h : QAll p s) (t : Tid)
    (h2 : p.g = true → ∀ m, (s.tasks t).wobj ≠ .mutex m) (h3 : p.f = true → p.g = true → (s.tasks t).wobj ≠ .multi) : QAll p (pollExit s t) := by
  refine h.one t rfl rfl (fun d => List.Sublist.refl _) rfl (pollExit_same s t).2.2.1 ?_
  rw [pollExit_at]
  exact QT.plain (h.task t).fires (fun _ => ⟨rfl, rfl⟩) h2 h3 (fun _ _ hx => by cases hx) rfl rfl (by simp) (by simp)

theorem QT.noMutex {p : Par} {ow : Mx → Option Tid} {ho : Mx → List Tid} {t : Tid} {k : Task} (h : QT p ow ho t k)
    (hp : ∀ m x, k.pc ≠ .inLock m x) : p.g = true → ∀ m, k.wobj ≠ .mutex m := by
  intro g m hx
  obtain ⟨x, hy⟩ := (h.mutex g m hx).2
  exact hp m x hy

theorem QT.noMulti {p : Par} {ow : Mx → Option Tid} {ho : Mx → List Tid} {t : Tid} {k : Task} (h : QT p ow ho t k)
    (hp : ∀ b, k.pc ≠ .inPoll b) : p.f = true → p.g = true → k.wobj ≠ .multi := by
  intro f g hx
  obtain ⟨b, hy, _⟩ := h.multi f g hx
  exact hp b hy

theorem arm_eq (timed : Bool) (k : Task) : arm timed k = { k with timer := (timed || k.timer) } := by
  unfold arm
  cases timed <;> rfl

theorem QAll.pollSleep {p : Par} {s : St} (h : QAll p s) (t : Tid) (timed found late : Bool) (j : Nat) (hp : (s.tasks t).pc = .check timed j found)
    (hn : (pollSleep s t timed found late).panic = false) : QAll p (pollSleep s t timed found late) := by
  have hq := h.task t
  have h2 := hq.noMutex (by rw [hp]; simp)
  have h3 := hq.noMulti (by rw [hp]; simp)
  have hcold := fun g => hq.cold g (by rw [hp]; rfl)
  have hsig : p.f = true → p.g = true → timed = true → (s.tasks t).sigP = false := by
    intro f g hx
    refine hq.sig f g ?_
    rw [hp]
    exact hx
  unfold Kcond.pollSleep at hn ⊢
  split
  · exact h.pollExit t h2 h3
  · next c1 =>
    rw [if_neg c1] at hn
    split
    · exact h.rearm t timed hcold h2 h3 hsig
    · next c2 =>
      rw [if_neg c2] at hn
      split
      · exact h.pollExit t h2 h3
      · next c3 =>
        rw [if_neg c3, goSleep_panic] at hn
        have hw0 : ((s.setT t (Kcond.arm timed)).tasks t).wobj = .none := by
          refine Classical.byContradiction fun hx => ?_
          rw [prepare_panic _ t _ hx] at hn
          cases hn
        have e := prepare_tasks _ t .multi hw0
        have et := e t
        rw [if_pos rfl, setT_same, arm_eq] at et
        obtain ⟨a1, a2, a3⟩ := prepare_more (s.setT t (Kcond.arm timed)) t .multi
        obtain ⟨g1, g2, g3, g4⟩ := goSleep_more ((s.setT t (Kcond.arm timed)).prepare t .multi) t (.inPoll timed)
        have hml : ((s.setT t (Kcond.arm timed)).prepare t .multi).mlist = s.mlist := by
          unfold St.prepare
          rw [if_neg (by simp [hw0])]
          rfl
        refine h.one t (g1.trans a1) (g2.trans a2) (fun d => by rw [g4, hml]; exact List.Sublist.refl _) (g3.trans a3) ?_ ?_
        · intro u hu
          rw [goSleep_other _ hu, e u, if_neg hu, setT_other s hu]
        · rw [goSleep_at, et]
          dsimp only
          split
          · next hr =>
            have hng : p.g = true → False := by
              intro g
              rw [(hcold g).2] at hr
              cases hr
            refine ⟨fun g => (hng g).elim, fun g => (hng g).elim, hq.fires, fun g => (hng g).elim, fun g => (hng g).elim, fun g => (hng g).elim,
              fun g => (hng g).elim, fun g => (hng g).elim, fun _ g => (hng g).elim, fun _ g => (hng g).elim, ?_⟩
            intro j e hx
            exact ⟨rfl, fun c b m hy => by cases hy⟩
          · refine ⟨?_, ?_, hq.fires, ?_, ?_, ?_, ?_, ?_, ?_, ?_, ?_⟩
            · intro g hx
              have hx : timed = false := hx
              refine ⟨?_, (hcold g).2⟩
              dsimp only
              rw [hx, (hcold g).1]
              rfl
            · intro g _ hx
              exact absurd rfl (hx timed)
            · intro g d b x hx
              cases hx
            · intro g hx
              cases hx
            · intro g d hx
              cases hx
            · intro g d x hx
              cases hx
            · intro g d b x hx
              cases hx
            · intro f g _
              exact ⟨timed, rfl, fun hx => absurd rfl hx⟩
            · intro f g hx
              exact hsig f g hx
            · intro j e hx
              exact ⟨rfl, fun c b m hy => by cases hy⟩

theorem QAll.pollWake {p : Par} {s : St} (h : QAll p s) (t : Tid) (timed : Bool) (hr : (s.tasks t).st = .running)
    (hp : (s.tasks t).pc = .inPoll timed) : QAll p (pollWake s t timed) := by
  have hq := h.task t
  have h2 := hq.noMutex (by rw [hp]; simp)
  have hsig : p.f = true → p.g = true → timed = true → (s.tasks t).sigP = false := by
    intro f g hx
    refine hq.sig f g ?_
    rw [hp]
    exact hx
  have hm : p.f = true → p.g = true → (s.tasks t).wobj = .multi → timed = true := by
    intro f g hx
    obtain ⟨b, e1, e2⟩ := hq.multi f g hx
    rw [hp] at e1
    cases e1
    exact e2 (by rw [hr]; simp)
  unfold Kcond.pollWake
  split
  · next hs =>
    refine h.pollExit t h2 ?_
    intro f g hx
    rw [hsig f g (hm f g hx)] at hs
    cases hs
  · split
    · have e := reset_tasks_same s t
      obtain ⟨r1, r2, r3, r4⟩ := reset_more s t
      have h1 : QAll p (s.reset t) := by
        refine h.one t r1 r2 r4 r3 (fun u hu => reset_tasks_other s hu) ?_
        rw [e]
        refine hq.clear rfl rfl rfl rfl id id (fun _ _ _ hx => hx) (fun _ hx => hx) ?_ ?_
        · intro g _ hx
          exact absurd hp (hx timed)
        · intro g d x hx
          rw [hp] at hx
          cases hx
      refine h1.pollExit t ?_ ?_
      · rw [e]
        simp
      · rw [e]
        simp
    · next c2 =>
      cases timed with
      | true =>
        rw [if_pos rfl]
        have h1 : QAll p (s.setT t cancel) := h.setT t _ (hq.same rfl rfl rfl (Nat.le_refl _) Iff.rfl (fun hx => Or.inl hx)
          (fun hx => by cases hx) (fun hx => by cases hx) (fun _ _ _ hx => hx))
        have e := setT_same s t cancel
        refine h1.rearm t true ?_ ?_ ?_ ?_
        · rw [e]
          exact fun _ => ⟨rfl, rfl⟩
        · rw [e]
          exact h2
        · rw [e]
          intro _ _ hx
          have hx : (s.tasks t).wobj = .multi := hx
          refine c2 ⟨rfl, ?_⟩
          rw [hx]
          simp
        · rw [e]
          exact hsig
      | false =>
        rw [if_neg (by simp)]
        refine h.rearm t false (fun g => hq.cold g (by rw [hp]; rfl)) h2 ?_ hsig
        intro f g hx
        cases hm f g hx

/-- No signal is sent to a task asleep in `kernel_sleep` or in `kcond_wait` with a timeout. -/
def Quiet1 (s : St) (e : Ev) : Prop :=
  ∀ t, e = .kill t → (s.tasks t).st = .asleep → (s.tasks t).pc ≠ .inSleep ∧ ∀ c m, (s.tasks t).pc ≠ .inCond c true m

/-- Moreover, no signal is sent to a task in `poll` with a timeout, which is not called with a pending signal. -/
def Quiet2 (s : St) (e : Ev) : Prop :=
  Quiet1 s e ∧ (∀ t, e = .kill t → (s.tasks t).pc.timedPoll = false) ∧ (∀ t, e = .poll true → s.cur = some t → (s.tasks t).sigP = false)

theorem QAll.kill {p : Par} {s : St} (h : QAll p s) (hi : Inv s) (t : Tid) (h1 : p.g = true → Quiet1 s (.kill t))
    (h2 : p.f = true → p.g = true → Quiet2 s (.kill t)) : QAll p (kill s t) := by
  have hq := h.task t
  unfold Kcond.kill
  dsimp only
  have h3 : QAll p (s.setT t (fun k => { k with sigP := true, kills := k.kills + 1, stopP := false })) := by
    refine h.setT t _ (hq.same rfl rfl rfl (Nat.le_refl _) Iff.rfl (fun hx => Or.inl hx) id id ?_)
    intro f g hx
    rw [(h2 f g).2.1 t rfl] at hx
    cases hx
  have e := setT_same s t (fun k => { k with sigP := true, kills := k.kills + 1, stopP := false })
  split
  · next hst =>
    split
    · exact h3
    · next hnm =>
      refine h3.wakeUp t ?_ ?_ ?_
      · intro _ hx
        have hx : s.cur = some t := hx
        rw [(hi.cur t).mpr hx] at hst
        cases hst
      · intro g hh hn
        rw [e] at hh hn
        have hh : (s.tasks t).pc.hot = true := hh
        have hn : ∀ b, (s.tasks t).pc ≠ .inPoll b := hn
        exfalso
        obtain ⟨q1, q2⟩ := h1 g t rfl hst
        generalize (s.tasks t).pc = pc at *
        cases pc with
        | inSleep => exact q1 rfl
        | inCond c b m =>
          have : b = true := hh
          subst this
          exact q2 c m rfl
        | inPoll b => exact hn b rfl
        | _ => cases hh
      · intro g m x hx
        rw [e] at hx
        have hx : (s.tasks t).pc = .inLock m x := hx
        have := hi.asleep t hst
        unfold Task.Asleep at this
        rw [hx] at this
        exact absurd this (hnm m)
  · next hst =>
    refine h3.setT t _ ((h3.task t).same rfl rfl rfl (Nat.le_refl _) ?_ ?_ id id (fun _ _ _ hx => hx))
    · rw [e]
      dsimp only
      rw [hst]
      simp
    · intro hx
      cases hx
  · exact h3

theorem QAll.act {p : Par} {s s' : St} (h : QAll p s) (hk : TokAll s) (hi : Inv s) (t : Tid) (e : Ev) (hc : s.cur = some t)
    (hst : act s t e = some s') (hn : s'.panic = false) (hq2 : p.f = true → p.g = true → Quiet2 s e) : QAll p s' := by
  have hr := (hi.cur t).mpr hc
  have hq := h.task t
  have hcold := fun g hp => hq.cold g hp
  unfold Kcond.act at hst
  split at hst
  · split at hst
    · cases hst
      exact h.setT t _ (hq.same rfl rfl rfl (Nat.le_refl _) Iff.rfl (fun hx => Or.inl hx) id (fun hx => by cases hx) (fun _ _ _ hx => hx))
    · cases hst
  · split at hst
    · cases hst
      exact h.setT t _ (hq.same rfl rfl rfl (Nat.le_refl _) Iff.rfl (fun hx => Or.inl hx) id id (fun _ _ _ hx => by cases hx))
    · cases hst
  · next c timed m =>
    split at hst
    · next hp =>
      cases hst
      exact h.waitBegin hi t c timed m hp.1 (fun _ => hp.2) hn
    · cases hst
  · split at hst
    · next hp =>
      cases hst
      exact h.waitEnd hk hi t _ _ _ hc hp hn
    · next m k hp =>
      cases hst
      have hgu : Pc.gaveUp (.inLock m k) = (after k).gaveUp := by
        cases k with
        | none => rfl
        | some x => rfl
      have hlk := fun g => hq.lock g m k hp
      refine h.locked t _ _ ?_ (fun g => (hlk g).2 (by rw [hr]; simp)) (fun g => (hlk g).1)
      refine ⟨?_, ?_, hq.fires, ?_, ?_, ?_, ?_, ?_, ?_, ?_, ?_⟩
      · intro g _
        exact hq.cold g (by rw [hp]; rfl)
      · intro g hx
        cases k <;> cases hx
      · intro g c b d hx
        cases k <;> cases hx
      · intro g hx
        refine hq.ret g ?_
        rw [hp, hgu]
        exact hx
      · intro g d hx
        have := (hq.mutex g d hx).1
        rw [hr] at this
        cases this
      · intro g d x hx
        cases k <;> cases hx
      · intro g c b d hx
        cases k <;> cases hx
      · intro f g hx
        exact absurd hx (hq.noMulti (by rw [hp]; simp) f g)
      · intro f g hx
        cases k <;> cases hx
      · intro j e hx
        have := (hq.told j e hx).1
        rw [hp, hgu] at this
        refine ⟨this, fun c b d hy => ?_⟩
        cases k <;> cases hy
    · next hp =>
      cases hst
      refine h.setT t _ (QT.plain hq.fires ?_ (hq.noMutex (by rw [hp]; simp)) (hq.noMulti (by rw [hp]; simp)) (fun _ _ hx => by cases hx) rfl rfl (by simp) (by simp))
      intro g
      have := hq.hot g (by rw [hp]; rfl) (by rw [hp]; simp) (by rw [hr]; simp)
      exact ⟨this.1, this.2 hr⟩
    · next hp =>
      cases hst
      exact h.pollWake t _ hr hp
    · cases hst
  · split at hst
    · next hp =>
      cases hst
      exact h.setT t _ (QT.plain hq.fires (fun g => hq.cold g (by rw [hp]; rfl)) (hq.noMutex (by rw [hp]; simp)) (hq.noMulti (by rw [hp]; simp))
        (fun _ _ hx => by cases hx) rfl rfl (by simp) (by simp))
    · next hp =>
      cases hst
      exact h.setT t _ (QT.plain hq.fires (fun g => hq.cold g (by rw [hp]; rfl)) (hq.noMutex (by rw [hp]; simp)) (hq.noMulti (by rw [hp]; simp))
        (fun _ _ hx => by cases hx) rfl rfl (by simp) (by simp))
    · cases hst
  · split at hst
    · cases hst
      exact h.signalOne hk hi _
    · cases hst
  · split at hst
    · cases hst
      exact h.signalAll hk hi _
    · cases hst
  · split at hst
    · next hp =>
      cases hst
      refine h.lock t _ none ?_ (fun _ => hp.2) hn
      have e : ({ s.tasks t with pc := after none } : Task) = s.tasks t := by
        have : after none = (s.tasks t).pc := hp.1.symm
        rw [this]
      rw [e]
      exact hq
    · cases hst
  · split at hst
    · next hp =>
      cases hst
      exact h.unlock hi t _ (by rw [hp.1]; simp) (fun _ => hp.2)
    · cases hst
  · split at hst
    · next hp =>
      cases hst
      have e := setT_same s t (arm true)
      obtain ⟨g1, g2, g3, g4⟩ := goSleep_more (s.setT t (arm true)) t .inSleep
      refine h.one t g1 g2 (fun d => by rw [g4]; exact List.Sublist.refl _) g3 (fun u hu => by rw [goSleep_other _ hu, setT_other s hu]) ?_
      rw [goSleep_at, e, arm_eq]
      dsimp only
      have hcold := fun g => hq.cold g (by rw [hp]; rfl)
      have h2 := hq.noMutex (by rw [hp]; simp)
      have h3 := hq.noMulti (by rw [hp]; simp)
      split
      · next hr =>
        have hng : p.g = true → False := by
          intro g
          rw [(hcold g).2] at hr
          cases hr
        refine ⟨fun g => (hng g).elim, fun g => (hng g).elim, hq.fires, fun g => (hng g).elim, fun g => (hng g).elim, fun g => (hng g).elim,
          fun g => (hng g).elim, fun g => (hng g).elim, fun _ g => (hng g).elim, fun _ g => (hng g).elim, ?_⟩
        intro j e hx
        exact ⟨rfl, fun c b m hy => by cases hy⟩
      · refine ⟨?_, ?_, hq.fires, ?_, ?_, ?_, ?_, ?_, ?_, ?_, ?_⟩
        · intro g hx
          cases hx
        · intro g _ _ hx
          exact absurd rfl hx
        · intro g d b x hx
          cases hx
        · intro g hx
          cases hx
        · intro g d hx
          exact absurd hx (h2 g d)
        · intro g d x hx
          cases hx
        · intro g d b x hx
          cases hx
        · intro f g hx
          exact absurd hx (h3 f g)
        · intro f g hx
          cases hx
        · intro j e hx
          exact ⟨rfl, fun c b m hy => by cases hy⟩
    · cases hst
  · next timed =>
    split at hst
    · next hp =>
      cases hst
      refine h.setT t _ (QT.plain hq.fires (fun g => hq.cold g (by rw [hp]; rfl)) (hq.noMutex (by rw [hp]; simp)) (hq.noMulti (by rw [hp]; simp))
        ?_ rfl rfl (by simp) (by simp))
      intro f g hx
      have hx : timed = true := hx
      subst hx
      exact (hq2 f g).2.2 t rfl hc
    · cases hst
  · split at hst
    · next hp =>
      cases hst
      refine QAll.setT (s := s.setL _ _) ⟨h.task, fun g => (h.glob g).sub rfl rfl (fun _ => List.Sublist.refl _), h.time⟩ t _ ?_
      exact hq.same rfl rfl rfl (Nat.le_refl _) Iff.rfl (fun hx => Or.inl hx) id id (fun _ _ _ hx => hx)
    · cases hst
  · split at hst
    · next timed hp =>
      cases hst
      refine h.setT t _ (QT.plain hq.fires (fun g => hq.cold g (by rw [hp]; rfl)) (hq.noMutex (by rw [hp]; simp)) (hq.noMulti (by rw [hp]; simp))
        ?_ rfl rfl (by simp) (by simp))
      intro f g hx
      exact hq.sig f g (by rw [hp]; exact hx)
    · cases hst
  · split at hst
    · next timed j found hp =>
      split at hst
      · next hj =>
        cases hst
        refine h.setT t _ (QT.plain hq.fires (fun g => hq.cold g (by rw [hp]; rfl)) (hq.noMutex (by rw [hp]; simp)) (hq.noMulti (by rw [hp]; simp))
          ?_ rfl rfl (by simp) (by simp))
        intro f g hx
        exact hq.sig f g (by rw [hp]; exact hx)
      · cases hst
    · cases hst
  · split at hst
    · next timed j found hp =>
      split at hst
      · next hj =>
        cases hst
        exact h.pollSleep t timed found _ j hp hn
      · cases hst
    · cases hst
  · cases hst

theorem QAll.step1 {p : Par} {s s' : St} (h : QAll p s) (hk : TokAll s) (hi : Inv s) (e : Ev)
    (hst : step1 s e = some s') (hn : s'.panic = false) (hq1 : p.g = true → Quiet1 s e) (hq2 : p.f = true → p.g = true → Quiet2 s e) : QAll p s' := by
  unfold Kcond.step1 at hst
  split at hst
  · next t =>
    split at hst
    · next hp =>
      cases hst
      have key : ∀ s1 : St, QAll p s1 → (s1.tasks t).st = .runnable →
          QAll p { s1.setT t (fun k => { k with st := .running, tready := false }) with cur := some t } := by
        intro s1 h1 hs
        have h2 := h1.setT t (fun k => { k with st := .running, tready := false }) ((h1.task t).same rfl rfl rfl (Nat.le_refl _)
          (by rw [hs]; simp) (fun _ => Or.inr rfl) id (fun hx => by cases hx) (fun _ _ _ hx => hx))
        exact ⟨h2.task, fun g => (h2.glob g).sub rfl rfl (fun _ => List.Sublist.refl _), h2.time⟩
      unfold switchTo
      dsimp only
      cases hcur : s.cur with
      | none => exact key s h hp.1
      | some u =>
        dsimp only
        have hru := (hi.cur u).mpr hcur
        refine key _ (h.setT u (fun k => { k with st := .runnable }) ((h.task u).same rfl rfl rfl (Nat.le_refl _) (by rw [hru]; simp)
          (fun hx => by cases hx) id id (fun _ _ _ hx => hx))) ?_
        by_cases hx : t = u
        · subst hx
          rw [setT_same]
        · rw [setT_other s hx]
          exact hp.1
    · cases hst
  · next t =>
    split at hst
    · next ht =>
      cases hst
      exact h.setT t _ ((h.task t).fire ht)
    · cases hst
  · cases hst
    exact h.kill hi _ hq1 hq2
  · next t =>
    cases hst
    have hq := h.task t
    unfold stop
    split
    · exact h.setT t _ (hq.same rfl rfl rfl (Nat.le_refl _) Iff.rfl (fun hx => Or.inl hx) id id (fun _ _ _ hx => hx))
    · exact h
    · next hs =>
      have h2 := h.setT t (fun k => { k with st := .stopped }) (hq.same rfl rfl rfl (Nat.le_refl _) (by rw [hs]; simp) (fun hx => by cases hx) id id (fun _ _ _ hx => hx))
      exact ⟨h2.task, fun g => (h2.glob g).sub rfl rfl (fun _ => List.Sublist.refl _), h2.time⟩
    · next hs =>
      exact h.setT t (fun k => { k with st := .stopped }) (hq.same rfl rfl rfl (Nat.le_refl _) (by rw [hs]; simp) (fun hx => by cases hx) id id (fun _ _ _ hx => hx))
  · next t =>
    cases hst
    have hq := h.task t
    unfold cont
    split
    · exact h.setT t _ (hq.same rfl rfl rfl (Nat.le_refl _) Iff.rfl (fun hx => Or.inl hx) id id (fun _ _ _ hx => hx))
    · next hs =>
      exact h.setT t (fun k => { k with st := .runnable }) (hq.same rfl rfl rfl (Nat.le_refl _) (by rw [hs]; simp) (fun hx => by cases hx) id id (fun _ _ _ hx => hx))
    · exact h
  · cases hst
    exact ⟨h.task, fun g => (h.glob g).sub rfl rfl (fun _ => List.Sublist.refl _), h.time⟩
  · split at hst
    · cases hst
    · next t hc => exact h.act hk hi t _ hc hst hn hq2

theorem QAll.tick {p : Par} {s : St} (h : QAll p s) (n : Nat) (hn : s.clock ≤ n) : QAll p { s with clock := n } :=
  ⟨h.task, fun g => (h.glob g).sub rfl rfl (fun _ => List.Sublist.refl _), fun j => Nat.lt_of_lt_of_le (h.time j) hn⟩

theorem init_qall (p : Par) (hj : p.j = false) (r : Cond → Bool) : QAll p (init r) := by
  refine ⟨fun t => ?_, fun _ => ⟨?_, ?_, ?_⟩, ?_⟩
  · exact QT.plain (Nat.le_refl _) (fun _ => ⟨rfl, rfl⟩) (fun _ m hx => by cases hx) (fun _ _ hx => by cases hx) (fun _ _ _ => rfl) rfl rfl
      (fun _ _ hx => by cases hx) (fun _ _ _ hx => by cases hx)
  · intro m
    exact List.nodup_nil
  · intro m t ht
    cases ht
  · intro m _
    rfl
  · intro j
    rw [hj] at j
    cases j

theorem reachP_q {ok : St → Ev → Prop} (p : Par) (hj : p.j = false) (h1 : p.g = true → ∀ s e, ok s e → Quiet1 s e)
    (h2 : p.f = true → p.g = true → ∀ s e, ok s e → Quiet2 s e) {s : St} (h : ReachP ok s) : s.panic = false → QAll p s := by
  induction h with
  | init r => exact fun _ => init_qall p hj r
  | @step s s' e h hok hst ih =>
    intro hn
    obtain ⟨hp, x, hx, rfl⟩ := step_some hst
    have := (ih hp).step1 (reachP_tok h hp) (reachP_inv h hp) e hx hn (fun g => h1 g s e hok) (fun f g => h2 f g s e hok)
    exact ⟨this.task, fun g => (this.glob g).sub rfl rfl (fun _ => List.Sublist.refl _), fun j => by rw [hj] at j; cases j⟩

theorem ReachP.mono {ok ok' : St → Ev → Prop} (h : ∀ s e, ok s e → ok' s e) {s : St} (hs : ReachP ok s) : ReachP ok' s := by
  induction hs with
  | init r => exact .init r
  | step e _ hok hst ih => exact .step e ih (h _ _ hok) hst

/-- `s'` comes after `s`. -/
inductive Later (s : St) : St → Prop
  | refl : Later s s
  | step {s1 s2 : St} (e : Ev) : Later s s1 → Kcond.step s1 e = some s2 → Later s s2

theorem run_reach {ok : St → Ev → Prop} (es : List Ev) (hok : ∀ e ∈ es, ∀ s, ok s e) {s s' : St} (h : ReachP ok s) (hr : run s es = some s') :
    ReachP ok s' := by
  induction es generalizing s with
  | nil =>
    cases hr
    exact h
  | cons e es ih =>
    unfold run at hr
    obtain ⟨x, hx, hy⟩ := Option.bind_eq_some_iff.mp hr
    exact ih (fun e' he' => hok e' (List.mem_cons_of_mem _ he')) (.step e h (hok e List.mem_cons_self s) hx) hy

/-- For examples: a run from the initial state that ends in a given way. -/
theorem run_example (r : Cond → Bool) (es : List Ev) (P : St → Bool) (h : (run (init r) es).any P = true) : ∃ s, Reach s ∧ P s = true := by
  cases hr : run (init r) es with
  | none =>
    rw [hr] at h
    cases h
  | some s =>
    rw [hr] at h
    exact ⟨s, run_reach es (fun _ _ _ => trivial) (.init r) hr, h⟩

/-! ## C82: what the result of `kcond_wait` means -/

/-- If `kcond_wait` returns true, the condition was signalled after the call began, or a signal (kill) was sent to the task. -/
theorem wait_true_cause {s : St} (h : Reach s) (hn : s.panic = false) (t : Tid) (c : Cond) (hp : (s.tasks t).pc = .retCond c true) :
    (s.tasks t).sigs0 < s.sigs c ∨ (s.tasks t).kills0 < (s.tasks t).kills := by
  have := (reachP_tok h hn t).2.2
  rw [hp] at this
  exact this rfl

/-- If `kcond_wait` returns false, it had a timeout and the timer of the task expired after the call began. Missing: when signals are
sent to tasks asleep with a timeout (`wait_forever_times_out_violated`). -/
theorem wait_false_cause_partial {s : St} (h : ReachP Quiet1 s) (hn : s.panic = false) (t : Tid) (c : Cond)
    (hp : (s.tasks t).pc = .retCond c false) : (s.tasks t).lim = true ∧ (s.tasks t).fires0 < (s.tasks t).fires := by
  have := reachP_q ⟨false, true, false, 0, 0⟩ rfl (fun _ _ _ hq => hq) (fun hf => by cases hf) h hn
  exact (this.task t).ret rfl (by rw [hp]; rfl)

theorem Later.reach {s1 s2 : St} (h : Later s1 s2) (hr : Reach s1) : Reach s2 := by
  induction h with
  | refl => exact hr
  | step e _ hst ih => exact .step e ih trivial hst

theorem later_q (p : Par) (hg : p.g = false) {s1 s2 : St} (h : Later s1 s2) (hr : Reach s1) (hq : QAll p s1) : s2.panic = false → QAll p s2 := by
  induction h with
  | refl => exact fun _ => hq
  | @step s s' e h hst ih =>
    intro hn
    obtain ⟨hp, x, hx, rfl⟩ := step_some hst
    have hs := h.reach hr
    have hng : p.g = true → False := by
      intro g
      rw [hg] at g
      cases g
    have := (ih hp).step1 (reachP_tok hs hp) (reachP_inv hs hp) e hx hn (fun g => (hng g).elim) (fun _ g => (hng g).elim)
    exact ⟨this.task, fun g => (hng g).elim, fun j => Nat.lt_succ_of_lt ((ih hp).time j)⟩

theorem signalNodes_other (c : Cond) (t : Tid) : ∀ (l : List Node) (s : St), (∀ n ∈ l, n.task ≠ t) →
    (l.foldl (signalNode c) s).tasks t = s.tasks t := by
  intro l
  induction l with
  | nil => intro s _; rfl
  | cons n l ih =>
    intro s hl
    rw [List.foldl_cons, ih _ (fun m hm => hl m (List.mem_cons_of_mem _ hm))]
    exact signalNode_other c s n (fun hx => hl n List.mem_cons_self hx.symm)

theorem signalNodes_awake {s : St} (h : Inv s) (c : Cond) (t : Tid) : ∀ (l : List Node), l.Nodup → (∀ n ∈ l, n ∈ s.list c) →
    ((s.tasks t).st ≠ .asleep ∨ ∃ n ∈ l, n.task = t) → ((l.foldl (signalNode c) s).tasks t).st ≠ .asleep := by
  intro l
  induction l generalizing s with
  | nil =>
    intro _ _ hx
    rcases hx with hx | ⟨n, hn, _⟩
    · exact hx
    · cases hn
  | cons n l ih =>
    intro hnd hl hx
    have hm := hl n List.mem_cons_self
    have hcur : s.cur = some n.task → (s.tasks n.task).st = .running := fun hc => (h.cur n.task).mpr hc
    refine ih (h.signalNode c n hm) hnd.of_cons ?_ ?_
    · intro x hy
      rw [signalNode_list c s h.core h.asleep n hm x ?_ c]
      · exact hl x (List.mem_cons_of_mem _ hy)
      · rintro rfl
        exact (List.nodup_cons.mp hnd).1 hy
    · by_cases ht : n.task = t
      · left
        subst ht
        exact (signalNode_st c s n hcur).1
      · rw [signalNode_other c s n (fun hx => ht hx.symm)]
        rcases hx with hx | ⟨m, hm, hmt⟩
        · exact Or.inl hx
        · rcases List.mem_cons.mp hm with rfl | hm
          · exact absurd hmt ht
          · exact Or.inr ⟨m, hm, hmt⟩

theorem signalNodes_one (c : Cond) (t : Tid) : ∀ (l : List Node) (s : St), l.Nodup → (∀ n ∈ l, n.task = t → n = .one t) → .one t ∈ l →
    (s.tasks t).st = .asleep → s.cur ≠ some t → (l.foldl (signalNode c) s).tasks t = wakeTask { cancel (s.tasks t) with wobj := .none } := by
  intro l
  induction l with
  | nil => intro s _ _ hx; cases hx
  | cons n l ih =>
    intro s hnd hu hm ha hc
    rw [List.foldl_cons]
    by_cases hn : n.task = t
    · have := hu n List.mem_cons_self hn
      subst this
      rw [signalNodes_other c t l]
      · have := signalNode_same c s (.one t) (fun hx => absurd hx hc)
        dsimp only at this
        rw [if_neg (by simp [ha])] at this
        exact this
      · intro m hm hx
        have := hu m (List.mem_cons_of_mem _ hm) hx
        subst this
        exact (List.nodup_cons.mp hnd).1 hm
    · have e := signalNode_other c s n (u := t) (fun hx => hn hx.symm)
      rw [ih _ hnd.of_cons (fun m hm => hu m (List.mem_cons_of_mem _ hm)) ?_ (by rw [e]; exact ha) (by rw [signalNode_cur]; exact hc), e]
      rcases List.mem_cons.mp hm with rfl | hm
      · exact absurd rfl hn
      · exact hm

/-- The step of a call of `kcond_signal_all`. -/
theorem step_all {s s' : St} {c : Cond} (h : step s (.all c) = some s') : s.panic = false ∧ (∃ v, s.cur = some v ∧ (s.tasks v).pc = .idle) ∧
    s' = { signalAll s c with clock := s.clock + 1 } := by
  obtain ⟨hp, x, hx, rfl⟩ := step_some h
  unfold step1 at hx
  dsimp only at hx
  split at hx
  · cases hx
  · next v hv =>
    unfold act at hx
    dsimp only at hx
    split at hx
    · next hi =>
      cases hx
      exact ⟨hp, ⟨v, hv, hi⟩, rfl⟩
    · cases hx

theorem step_one {s s' : St} {c : Cond} (h : step s (.one c) = some s') : s.panic = false ∧ (∃ v, s.cur = some v ∧ (s.tasks v).pc = .idle) ∧
    s' = { signalOne s c with clock := s.clock + 1 } := by
  obtain ⟨hp, x, hx, rfl⟩ := step_some h
  unfold step1 at hx
  dsimp only at hx
  split at hx
  · cases hx
  · next v hv =>
    unfold act at hx
    dsimp only at hx
    split at hx
    · next hi =>
      cases hx
      exact ⟨hp, ⟨v, hv, hi⟩, rfl⟩
    · cases hx

/-- The only member of a wait list that belongs to a task in `kcond_wait`. -/
theorem Core.onlyOne {s : St} (h : Core s) (c : Cond) (t : Tid) (hp : (s.tasks t).pc.polling = false) :
    ∀ n ∈ s.list c, n.task = t → n = .one t := by
  intro n hn ht
  cases n with
  | one u =>
    have ht : u = t := ht
    rw [ht]
  | elem u i =>
    have ht : u = t := ht
    subst ht
    have := ((h.elem c u i).mp hn).1
    rw [h.quiet u hp] at this
    cases this

/-- A task asleep in `kcond_wait` on a condition when `kcond_signal_all` is called for it: whatever happens later, if this call of
`kcond_wait` returns, it returns true. -/
theorem signalled_wait_result {s1 s2 s3 : St} (h : Reach s1) (c : Cond) (hs : step s1 (.all c) = some s2) (t : Tid) (b : Bool) (m : Option Mx)
    (ha : (s1.tasks t).st = .asleep) (hp : (s1.tasks t).pc = .inCond c b m) (hl : Later s2 s3) (hn : s3.panic = false)
    (hsame : (s3.tasks t).since = (s1.tasks t).since) (d : Cond) (r : Bool) (hr : (s3.tasks t).pc = .retCond d r) : r = true := by
  obtain ⟨hp1, ⟨v, hv, hidle⟩, rfl⟩ := step_all hs
  have hi := reachP_inv h hp1
  have ho := reachP_ord h hp1
  have hw : (s1.tasks t).wobj = .cond c := by
    have := hi.asleep t ha
    unfold Task.Asleep at this
    rw [hp] at this
    exact this
  have hmem : .one t ∈ s1.list c := (hi.core.one c t).mpr hw
  have hcur : s1.cur ≠ some t := by
    intro hx
    rw [(hi.cur t).mpr hx] at ha
    cases ha
  have ht : (signalAll s1 c).tasks t = wakeTask { cancel (s1.tasks t) with wobj := .none } :=
    signalNodes_one c t (s1.list c) (s1.sent c true) (hi.core.nodup c) (hi.core.onlyOne c t (by rw [hp]; rfl)) hmem ha hcur
  have q0 : QAll ⟨false, false, false, t, (s1.tasks t).since⟩ s1 := reachP_q _ rfl (fun hg => by cases hg) (fun hf => by cases hf) h hp1
  have q1 := q0.signalAll (reachP_tok h hp1) hi c
  have hclk : (s1.tasks t).since < s1.clock := ho.linked c t hmem
  have q2 : QAll ⟨false, false, true, t, (s1.tasks t).since⟩ { signalAll s1 c with clock := s1.clock + 1 } := by
    refine ⟨fun u => ?_, fun hg => (by cases hg), fun _ => Nat.lt_succ_of_lt hclk⟩
    have := q1.task u
    refine ⟨fun hg => (by cases hg), fun hg => (by cases hg), this.fires, fun hg => (by cases hg), fun hg => (by cases hg), fun hg => (by cases hg),
      fun hg => (by cases hg), fun hg => (by cases hg), fun hf => (by cases hf), fun hf => (by cases hf), ?_⟩
    intro _ hu _
    have hu : u = t := hu
    subst hu
    show ((signalAll s1 c).tasks u).pc.gaveUp = false ∧ ∀ c' b m, ((signalAll s1 c).tasks u).pc = .inCond c' b m → ((signalAll s1 c).tasks u).wobj ≠ .cond c'
    have w := wakeTask_fields { cancel (s1.tasks u) with wobj := .none }
    have hpc : ((signalAll s1 c).tasks u).pc = .inCond c b m := by
      rw [ht, w.2.2.2.1]
      exact hp
    have hwo : ((signalAll s1 c).tasks u).wobj = .none := by
      rw [ht, w.1]
    rw [hpc, hwo]
    exact ⟨rfl, fun _ _ _ _ hx => by cases hx⟩
  have q3 := later_q _ rfl hl (.step _ h trivial hs) q2 hn
  have := ((q3.task t).told rfl rfl hsame).1
  rw [hr] at this
  have this : (!r) = false := this
  cases r with
  | true => rfl
  | false => cases this

/-! ## C83: whom a signal on a condition wakes up -/

/-- The task sleeps, in `kcond_wait` or in `poll`, and waits for the condition. -/
def Task.waitsOn (k : Task) (c : Cond) : Prop :=
  k.st = .asleep ∧ ((∃ b m, k.pc = .inCond c b m) ∨ ((∃ b, k.pc = .inPoll b) ∧ c ∈ k.watch))

/-- `kcond_signal_all` wakes up every task that waits for the condition, and changes no other sleeping task. -/
theorem signal_all_wakes {s s' : St} (h : Reach s) (c : Cond) (hs : step s (.all c) = some s') (t : Tid) :
    ((s.tasks t).waitsOn c → (s'.tasks t).st ≠ .asleep) ∧ ((s.tasks t).st = .asleep → ¬ (s.tasks t).waitsOn c → s'.tasks t = s.tasks t) := by
  obtain ⟨hp1, ⟨v, hv, hidle⟩, rfl⟩ := step_all hs
  have hi := reachP_inv h hp1
  have hk := reachP_tok h hp1
  constructor
  · rintro ⟨ha, hw⟩
    have hi' : Inv (s.sent c false) := ⟨hi.core.sent' c, hi.asleep, hi.cur⟩
    have hex : ∃ n ∈ s.list c, n.task = t := by
      rcases hw with ⟨b, m, hp⟩ | ⟨⟨b, hp⟩, hcw⟩
      · have := hi.asleep t ha
        unfold Task.Asleep at this
        rw [hp] at this
        exact ⟨.one t, (hi.core.one c t).mpr this, rfl⟩
      · have := hi.asleep t ha
        unfold Task.Asleep at this
        rw [hp] at this
        obtain ⟨i, hiw⟩ := List.getElem?_of_mem hcw
        refine ⟨.elem t i, (hi.core.elem c t i).mpr ⟨hiw, ?_⟩, rfl⟩
        rw [this.2]
        simp
    have := signalNodes_awake hi' c t (s.list c) (hi.core.nodup c) (fun _ hx => hx) (Or.inr hex)
    rw [signalNodes_sent] at this
    show ((signalAll s c).tasks t).st ≠ .asleep
    unfold signalAll
    rw [signalNodes_sent]
    exact this
  · intro ha hw
    show (signalAll s c).tasks t = s.tasks t
    unfold signalAll
    rw [signalNodes_other c t]
    · rfl
    · intro n hn ht
      apply hw
      refine ⟨ha, ?_⟩
      cases n with
      | one u =>
        have ht : u = t := ht
        subst ht
        exact Or.inl ((hk u).2.1 c ((hi.core.one c u).mp hn))
      | elem u i =>
        have ht : u = t := ht
        subst ht
        have hiw := ((hi.core.elem c u i).mp hn).1
        have hpol : (s.tasks u).pc.polling = true := by
          cases hx : (s.tasks u).pc.polling with
          | true => rfl
          | false =>
            rw [hi.core.quiet u hx] at hiw
            cases hiw
        refine Or.inr ⟨?_, List.mem_of_getElem? hiw⟩
        have := hi.asleep u ha
        unfold Task.Asleep at this
        generalize (s.tasks u).pc = pc at *
        cases pc with
        | inPoll b => exact ⟨b, rfl⟩
        | setup b => exact this.elim
        | check b j f => exact this.elim
        | _ => cases hpol

/-- `kcond_signal_one`: if no `poll` watches the condition, and the task that has been registered for it for the longest time is
asleep, it wakes up that task and no other. Missing: what happens otherwise (`signal_one_lost_violated`, `poll_steals_signal_violated`). -/
theorem signal_one_wakes_partial {s s' : St} (h : Reach s) (c : Cond) (hs : step s (.one c) = some s')
    (hpoll : ∀ u, c ∉ (s.tasks u).watch) (t : Tid) (b : Bool) (m : Option Mx)
    (ha : (s.tasks t).st = .asleep) (hp : (s.tasks t).pc = .inCond c b m)
    (hfirst : ∀ u, u ≠ t → (s.tasks u).wobj = .cond c → (s.tasks t).since ≤ (s.tasks u).since) :
    (s'.tasks t).st ≠ .asleep ∧ ∀ u, u ≠ t → s'.tasks u = s.tasks u := by
  obtain ⟨hp1, ⟨v, hv, hidle⟩, rfl⟩ := step_one hs
  have hi := reachP_inv h hp1
  have ho := reachP_ord h hp1
  have hw : (s.tasks t).wobj = .cond c := by
    have := hi.asleep t ha
    unfold Task.Asleep at this
    rw [hp] at this
    exact this
  have hmem : .one t ∈ s.list c := (hi.core.one c t).mpr hw
  have hpw := ho.list c
  have hhead : ∃ rest, s.list c = .one t :: rest := by
    cases hl : s.list c with
    | nil =>
      rw [hl] at hmem
      cases hmem
    | cons n rest =>
      refine ⟨rest, ?_⟩
      have hn : n ∈ s.list c := by
        rw [hl]
        exact List.mem_cons_self
      cases n with
      | elem u i =>
        exact absurd (List.mem_of_getElem? ((hi.core.elem c u i).mp hn).1) (hpoll u)
      | one u =>
        by_cases hu : u = t
        · rw [hu]
        · exfalso
          rw [hl] at hmem hpw
          rcases List.mem_cons.mp hmem with hx | hx
          · exact hu (Node.one.inj hx).symm
          · have h1 := (List.pairwise_cons.mp hpw).1 _ hx u t rfl rfl
            have h2 := hfirst u hu ((hi.core.one c u).mp hn)
            omega
  obtain ⟨rest, hl⟩ := hhead
  have e : signalOne s c = signalNode c (s.sent c rest.isEmpty) (.one t) := by
    unfold signalOne
    rw [hl]
  have hcur : (s.sent c rest.isEmpty).cur = some (Node.one t).task → ((s.sent c rest.isEmpty).tasks (Node.one t).task).st = .running :=
    fun hc => (hi.cur t).mpr hc
  constructor
  · show ((signalOne s c).tasks t).st ≠ .asleep
    rw [e]
    exact (signalNode_st c _ (.one t) hcur).1
  · intro u hu
    show (signalOne s c).tasks u = s.tasks u
    rw [e, signalNode_other c _ (.one t) hu]
    rfl

/-! ## C85: mutexes and leftover timers -/

/-- At most one task has returned from `kmutex_lock` and not yet called `kmutex_unlock`. Missing: when signals are
sent to tasks asleep with a timeout (`two_owners_violated`). -/
theorem mutex_exclusive_partial {s : St} (h : ReachP Quiet1 s) (hn : s.panic = false) (m : Mx) (t u : Tid) (ht : t ∈ s.holds m)
    (hu : u ∈ s.holds m) : t = u := by
  have := (reachP_q ⟨false, true, false, 0, 0⟩ rfl (fun _ _ _ hq => hq) (fun hf => by cases hf) h hn).glob rfl
  have h1 := this.own m t ht
  have h2 := this.own m u hu
  rw [h1] at h2
  exact Option.some.inj h2

/-- A task that waits for a mutex is not woken up before it owns it. -/
theorem mutex_wait_partial {s : St} (h : ReachP Quiet1 s) (hn : s.panic = false) (m : Mx) (t : Tid) (k : Option (Cond × Bool))
    (hp : (s.tasks t).pc = .inLock m k) (ha : (s.tasks t).st ≠ .asleep) : s.owner m = some t :=
  (((reachP_q ⟨false, true, false, 0, 0⟩ rfl (fun _ _ _ hq => hq) (fun hf => by cases hf) h hn).task t).lock rfl m k hp).2 ha

/-! ## C86: no wait object is in use when a wait begins -/

theorem signalNode_panic (c : Cond) (s : St) (n : Node) : (signalNode c s n).panic = s.panic := by
  unfold signalNode
  cases n with
  | one t =>
    dsimp only
    split
    · rfl
    · rw [wakeUp_panic, reset_panic]
      rfl
  | elem t i =>
    dsimp only
    split
    · rw [wakeUp_panic]
      rfl
    · rfl

theorem signalNodes_panic (c : Cond) : ∀ (l : List Node) (s : St), (l.foldl (signalNode c) s).panic = s.panic := by
  intro l
  induction l with
  | nil => intro s; rfl
  | cons n l ih => intro s; exact (ih _).trans (signalNode_panic c s n)

theorem prepare_ok (s : St) (t : Tid) (w : WObj) (hn : (s.tasks t).wobj = .none) : (s.prepare t w).panic = s.panic := by
  unfold St.prepare
  rw [if_neg (by simp [hn])]
  unfold St.link
  cases w <;> rfl

theorem lock_ok (s : St) (t : Tid) (m : Mx) (k : Option (Cond × Bool)) (hn : (s.tasks t).wobj = .none) : (lock s t m k).panic = s.panic := by
  unfold lock
  split
  · rfl
  · rw [goSleep_panic, prepare_ok s t _ hn]

theorem rearm_panic (s : St) (t : Tid) (timed : Bool) : (rearm s t timed).panic = s.panic := by
  have e2 : ∀ (l : List Nat) (w : List Cond) (s : St), (rearmList t w l s).panic = s.panic := by
    intro l w
    induction l with
    | nil => intro s; rfl
    | cons i l ih => intro s; exact ih _
  exact e2 _ _ _

theorem act_panic {s s' : St} (t : Tid) (e : Ev) (h : ∀ pc, (s.tasks t).pc = pc → (pc = .idle ∨ ∃ b j f, pc = .check b j f) → (s.tasks t).wobj = .none)
    (hst : act s t e = some s') : s'.panic = s.panic := by
  unfold act at hst
  split at hst
  · split at hst
    · cases hst
      rfl
    · cases hst
  · split at hst
    · cases hst
      rfl
    · cases hst
  · next c timed m =>
    split at hst
    · next hp =>
      cases hst
      have hw := h .idle hp.1 (Or.inl rfl)
      unfold waitBegin
      dsimp only
      rw [goSleep_panic]
      have e0 : ((s.setT t (fun k => { k with kills0 := k.kills, fires0 := k.fires, sigs0 := s.sigs c, since := s.clock, lim := timed })).prepare t
          (.cond c)).panic = s.panic := by
        rw [prepare_ok]
        · rfl
        · rw [setT_same]
          exact hw
      cases m with
      | none => exact e0
      | some m =>
        dsimp only
        rw [unlock_panic]
        exact e0
    · cases hst
  · split at hst
    · cases hst
      unfold waitEnd
      dsimp only
      split
      · exact reset_panic s t
      · rw [lock_ok, reset_panic]
        rw [reset_tasks_same]
    · cases hst
      rfl
    · cases hst
      rfl
    · cases hst
      unfold pollWake
      split
      · rfl
      · split
        · exact reset_panic s t
        · rw [rearm_panic]
          split <;> rfl
    · cases hst
  · split at hst
    · cases hst
      rfl
    · cases hst
      rfl
    · cases hst
  · split at hst
    · cases hst
      unfold signalOne
      split
      · rfl
      · rw [signalNode_panic]
        rfl
    · cases hst
  · split at hst
    · cases hst
      exact signalNodes_panic _ _ _
    · cases hst
  · split at hst
    · next hp =>
      cases hst
      exact lock_ok s t _ none (h .idle hp.1 (Or.inl rfl))
    · cases hst
  · split at hst
    · cases hst
      exact unlock_panic s t _
    · cases hst
  · split at hst
    · cases hst
      exact goSleep_panic _ _ _
    · cases hst
  · split at hst
    · cases hst
      rfl
    · cases hst
  · split at hst
    · cases hst
      rfl
    · cases hst
  · split at hst
    · cases hst
      rfl
    · cases hst
  · split at hst
    · split at hst
      · cases hst
        rfl
      · cases hst
    · cases hst
  · split at hst
    · next timed j found hp =>
      split at hst
      · cases hst
        have hw := h _ hp (Or.inr ⟨timed, j, found, rfl⟩)
        unfold pollSleep
        split
        · rfl
        · split
          · exact rearm_panic s t timed
          · split
            · rfl
            · rw [goSleep_panic, prepare_ok]
              · rfl
              · rw [setT_same, arm_eq]
                exact hw
      · cases hst
    · cases hst
  · cases hst

theorem step1_panic {s s' : St} (e : Ev)
    (h : ∀ t, (s.tasks t).pc = .idle ∨ (∃ b j f, (s.tasks t).pc = .check b j f) → (s.tasks t).wobj = .none)
    (hst : step1 s e = some s') : s'.panic = s.panic := by
  unfold step1 at hst
  split at hst
  · split at hst
    · cases hst
      unfold switchTo
      dsimp only
      split <;> rfl
    · cases hst
  · split at hst
    · cases hst
      rfl
    · cases hst
  · cases hst
    unfold kill
    dsimp only
    split
    · split
      · rfl
      · rw [wakeUp_panic]
        rfl
    · rfl
    · rfl
  · cases hst
    unfold stop
    split <;> rfl
  · cases hst
    unfold cont
    split <;> rfl
  · cases hst
    rfl
  · split at hst
    · cases hst
    · next t hc => exact act_panic t _ (fun pc hp hx => h t (by rw [hp]; exact hx)) hst

/-- No ASSERT fails: whenever a task begins to wait, its wait object is not in use. Missing: when signals are sent to tasks asleep with
a timeout, or in `poll` with a timeout (`wait_object_in_use_violated`). -/
theorem wait_object_free_partial {s : St} (h : ReachP Quiet2 s) : s.panic = false := by
  induction h with
  | init r => rfl
  | @step s s' e h hok hst ih =>
    obtain ⟨hp, x, hx, rfl⟩ := step_some hst
    have hq := reachP_q ⟨true, true, false, 0, 0⟩ rfl (fun _ _ _ hq => hq.1) (fun _ _ _ _ hq => hq) h hp
    have hk := reachP_tok h hp
    show x.panic = false
    rw [step1_panic e ?_ hx, hp]
    intro t ht
    cases hw : (s.tasks t).wobj with
    | none => rfl
    | cond c =>
      obtain ⟨b, m, hy⟩ := (hk t).2.1 c hw
      rw [hy] at ht
      rcases ht with ht | ⟨_, _, _, ht⟩ <;> cases ht
    | mutex m =>
      obtain ⟨y, hy⟩ := ((hq.task t).mutex rfl m hw).2
      rw [hy] at ht
      rcases ht with ht | ⟨_, _, _, ht⟩ <;> cases ht
    | multi =>
      obtain ⟨b, hy, _⟩ := (hq.task t).multi rfl rfl hw
      rw [hy] at ht
      rcases ht with ht | ⟨_, _, _, ht⟩ <;> cases ht

/-! ## C87: signals interrupt sleep -/

theorem kill_wakes {s s' : St} (hi : Inv s) (t : Tid) (hs : step s (.kill t) = some s') (ha : (s.tasks t).st = .asleep)
    (hw : ∀ m, (s.tasks t).wobj ≠ .mutex m) : (s'.tasks t).st ≠ .asleep ∧ (s'.tasks t).sigP = true := by
  obtain ⟨hp, x, hx, rfl⟩ := step_some hs
  cases hx
  have hcur : s.cur ≠ some t := by
    intro hx
    rw [(hi.cur t).mpr hx] at ha
    cases ha
  show ((kill s t).tasks t).st ≠ .asleep ∧ ((kill s t).tasks t).sigP = true
  unfold kill
  dsimp only
  rw [ha]
  dsimp only
  have key : ((s.setT t (fun k => { k with sigP := true, kills := k.kills + 1, stopP := false })).wakeUp t).tasks t =
      wakeTask { (s.setT t (fun k => { k with sigP := true, kills := k.kills + 1, stopP := false })).tasks t with wobj := .none } :=
    wakeUp_at _ t hcur
  have w := wakeTask_fields { (s.setT t (fun k => { k with sigP := true, kills := k.kills + 1, stopP := false })).tasks t with wobj := .none }
  have w2 := wakeTask_more { (s.setT t (fun k => { k with sigP := true, kills := k.kills + 1, stopP := false })).tasks t with wobj := .none }
  split
  · next m hx => exact absurd hx (hw m)
  · rw [key]
    refine ⟨w.2.2.2.2.1, ?_⟩
    rw [w2.2.2.2, setT_same]

/-- A signal sent to a task that sleeps in `kcond_wait` or in `poll` wakes it up. Missing: a signal sent to a task that is about to sleep
(`signal_before_sleep_violated`). -/
theorem kill_wakes_wait_partial {s s' : St} (h : Reach s) (t : Tid) (hs : step s (.kill t) = some s') (ha : (s.tasks t).st = .asleep)
    (hp : (∃ c b m, (s.tasks t).pc = .inCond c b m) ∨ ∃ b, (s.tasks t).pc = .inPoll b) :
    (s'.tasks t).st ≠ .asleep ∧ (s'.tasks t).sigP = true := by
  have hi := reachP_inv h (step_some hs).1
  refine kill_wakes hi t hs ha ?_
  intro m hx
  have h1 := hi.asleep t ha
  unfold Task.Asleep at h1
  rw [hx] at h1
  rcases hp with ⟨c, b, m', hp⟩ | ⟨b, hp⟩
  · rw [hp] at h1
    cases h1
  · rw [hp] at h1
    cases h1.1

/-- The same for `kernel_sleep`, if no timer is left over from before. -/
theorem kill_wakes_sleep_partial {s s' : St} (h : ReachP Quiet1 s) (t : Tid) (hs : step s (.kill t) = some s') (ha : (s.tasks t).st = .asleep)
    (hp : (s.tasks t).pc = .inSleep) : (s'.tasks t).st ≠ .asleep ∧ (s'.tasks t).sigP = true := by
  have hn := (step_some hs).1
  have hi := reachP_inv h hn
  refine kill_wakes hi t hs ha ?_
  exact ((reachP_q ⟨false, true, false, 0, 0⟩ rfl (fun _ _ _ hq => hq) (fun hf => by cases hf) h hn).task t).noMutex (by rw [hp]; simp) rfl

/-! ## Violations and examples

All tasks start as runnable, files not ready. -/

def notReady : Cond → Bool := fun _ => false

/-- C82 violated: `kcond_wait` returns true though the condition was never signalled: a signal was sent to the task. -/
theorem wait_interrupted_violated : ∃ s t, Reach s ∧ s.panic = false ∧ (s.tasks t).pc = .retCond 0 true ∧ s.sigs 0 = 0 := by
  obtain ⟨s, hs, hp⟩ := run_example notReady [.switch 1, .wait 0 true none, .kill 1, .switch 1, .woken]
    (fun s => decide (s.panic = false ∧ (s.tasks 1).pc = .retCond 0 true ∧ s.sigs 0 = 0)) (by decide +kernel)
  exact ⟨s, 1, hs, of_decide_eq_true hp⟩

/-- C82 violated: `kcond_wait` without a timeout, on a condition never signalled, returns false: the timer of a `kernel_sleep` that
was interrupted is still armed and expires while the task waits. -/
theorem wait_forever_times_out_violated : ∃ s t, Reach s ∧ s.panic = false ∧ (s.tasks t).pc = .retCond 0 false ∧ (s.tasks t).lim = false := by
  obtain ⟨s, hs, hp⟩ := run_example notReady [.switch 1, .sleep, .kill 1, .switch 1, .woken, .take, .wait 0 false none, .fire 1, .switch 1, .woken]
    (fun s => decide (s.panic = false ∧ (s.tasks 1).pc = .retCond 0 false ∧ (s.tasks 1).lim = false)) (by decide +kernel)
  exact ⟨s, 1, hs, of_decide_eq_true hp⟩

/-- C83 violated: two tasks wait for a condition, `kcond_signal_one` is called, and nobody gets the signal: the time of the first one
is over but it has not run yet, and it will return false. -/
theorem signal_one_lost_violated : ∃ s t u, Reach s ∧ s.panic = false ∧ s.sigs 0 = 1 ∧ (s.tasks t).pc = .retCond 0 false ∧ (s.tasks u).waitsOn 0 := by
  obtain ⟨s, hs, hp⟩ := run_example notReady [.switch 1, .wait 0 true none, .switch 2, .wait 0 false none, .switch 3, .fire 1, .one 0, .switch 1, .woken]
    (fun s => decide (s.panic = false ∧ s.sigs 0 = 1 ∧ (s.tasks 1).pc = .retCond 0 false ∧ (s.tasks 2).st = .asleep ∧
      (s.tasks 2).pc = .inCond 0 false none)) (by decide +kernel)
  obtain ⟨h1, h2, h3, h4, h5⟩ := of_decide_eq_true hp
  exact ⟨s, 1, 2, hs, h1, h2, h3, h4, Or.inl ⟨false, none, h5⟩⟩

/-- C83 violated: a task in `poll` takes the signal of `kcond_signal_one`, and the task that waits in `kcond_wait` stays asleep though the file
is ready. -/
theorem poll_steals_signal_violated : ∃ s t u, Reach s ∧ s.panic = false ∧ s.ready 0 = true ∧ s.sigs 0 = 1 ∧ (s.tasks t).pc = .retPoll ∧
    (s.tasks u).waitsOn 0 := by
  obtain ⟨s, hs, hp⟩ := run_example notReady [.switch 1, .poll false, .pollAdd 0, .pollStart, .pollCheck, .pollSleep false, .switch 2, .wait 0 false none,
      .switch 3, .setReady 0 true, .one 0, .switch 1, .woken, .pollCheck, .pollSleep false]
    (fun s => decide (s.panic = false ∧ s.ready 0 = true ∧ s.sigs 0 = 1 ∧ (s.tasks 1).pc = .retPoll ∧ (s.tasks 2).st = .asleep ∧
      (s.tasks 2).pc = .inCond 0 false none)) (by decide +kernel)
  obtain ⟨h1, h2, h3, h4, h5, h6⟩ := of_decide_eq_true hp
  exact ⟨s, 1, 2, hs, h1, h2, h3, h4, h5, Or.inl ⟨false, none, h6⟩⟩

/-- C85 violated: two tasks have locked the same mutex: a timer left over from an interrupted `kernel_sleep` wakes up a task that
waits in `kmutex_lock`, which takes that for the ownership. -/
theorem two_owners_violated : ∃ s t u m, Reach s ∧ s.panic = false ∧ t ≠ u ∧ t ∈ s.holds m ∧ u ∈ s.holds m := by
  obtain ⟨s, hs, hp⟩ := run_example notReady [.switch 0, .lock 0, .switch 1, .sleep, .kill 1, .switch 1, .woken, .take, .lock 0, .fire 1, .switch 1, .woken]
    (fun s => decide (s.panic = false ∧ 0 ∈ s.holds 0 ∧ 1 ∈ s.holds 0)) (by decide +kernel)
  obtain ⟨h1, h2, h3⟩ := of_decide_eq_true hp
  exact ⟨s, 0, 1, 0, hs, h1, by decide, h2, h3⟩

/-- C86 violated: the time of a `poll` is over and then a signal arrives, before the task runs: `poll` returns without resetting the wait
object, and the next call that has to wait fails an ASSERT. -/
theorem wait_object_in_use_violated : ∃ s, Reach s ∧ s.panic = true := by
  obtain ⟨s, hs, hp⟩ := run_example notReady [.switch 1, .poll true, .pollAdd 0, .pollStart, .pollCheck, .pollSleep false, .fire 1, .kill 1, .switch 1, .woken,
      .ret, .take, .wait 0 false none] (fun s => s.panic) (by decide +kernel)
  exact ⟨s, hs, hp⟩

/-- C87 violated: a signal sent to a task just before it calls `kcond_wait` does not interrupt the wait. -/
theorem signal_before_sleep_violated : ∃ s t, Reach s ∧ s.panic = false ∧ (s.tasks t).sigP = true ∧ (s.tasks t).waitsOn 0 := by
  obtain ⟨s, hs, hp⟩ := run_example notReady [.switch 1, .kill 1, .wait 0 false none]
    (fun s => decide (s.panic = false ∧ (s.tasks 1).sigP = true ∧ (s.tasks 1).st = .asleep ∧ (s.tasks 1).pc = .inCond 0 false none)) (by decide +kernel)
  obtain ⟨h1, h2, h3, h4⟩ := of_decide_eq_true hp
  exact ⟨s, 1, hs, h1, h2, h3, Or.inl ⟨false, none, h4⟩⟩

/-- C87 violated: the same while `poll` checks the files. -/
theorem signal_during_poll_violated : ∃ s t, Reach s ∧ s.panic = false ∧ (s.tasks t).sigP = true ∧ (s.tasks t).st = .asleep ∧ (s.tasks t).pc = .inPoll false := by
  obtain ⟨s, hs, hp⟩ := run_example notReady [.switch 1, .poll false, .pollAdd 0, .pollStart, .pollCheck, .kill 1, .pollSleep false]
    (fun s => decide (s.panic = false ∧ (s.tasks 1).sigP = true ∧ (s.tasks 1).st = .asleep ∧ (s.tasks 1).pc = .inPoll false)) (by decide +kernel)
  exact ⟨s, 1, hs, of_decide_eq_true hp⟩

/-- Events of examples without signals and polls. -/
def Ev.calm : Ev → Bool
  | .kill _ => false
  | .poll true => false
  | _ => true

theorem calm_quiet (e : Ev) (h : e.calm = true) (s : St) : Quiet2 s e := by
  refine ⟨?_, ?_, ?_⟩
  · rintro t rfl
    cases h
  · rintro t rfl
    cases h
  · rintro t rfl
    cases h

theorem calm_example (r : Cond → Bool) (es : List Ev) (hc : es.all Ev.calm = true) (P : St → Bool) (h : (run (init r) es).any P = true) :
    ∃ s, ReachP Quiet2 s ∧ P s = true := by
  cases hr : run (init r) es with
  | none =>
    rw [hr] at h
    cases h
  | some s =>
    rw [hr] at h
    exact ⟨s, run_reach es (fun e he s => calm_quiet e (List.all_eq_true.mp hc e he) s) (.init r) hr, h⟩

/-- Both results of `kcond_wait` are possible: with a mutex, a signal, and another one whose time is over. -/
example : ∃ s, ReachP Quiet2 s ∧ ((s.tasks 1).pc = .retCond 0 true ∧ (s.tasks 2).pc = .retCond 0 false) := by
  obtain ⟨s, hs, hp⟩ := calm_example notReady [.switch 1, .lock 5, .wait 0 true (some 5), .switch 2, .wait 0 true none, .switch 3, .fire 2, .one 0,
      .switch 1, .woken, .switch 2, .woken] rfl
    (fun s => decide ((s.tasks 1).pc = .retCond 0 true ∧ (s.tasks 2).pc = .retCond 0 false)) (by decide +kernel)
  exact ⟨s, hs, of_decide_eq_true hp⟩

/-- A mutex is held while another task waits for it, and a third task has been given another mutex that it was waiting for. -/
example : ∃ s, ReachP Quiet2 s ∧ (0 ∈ s.holds 5 ∧ (s.tasks 1).pc = .inLock 5 none ∧ (s.tasks 2).pc = .inLock 6 none ∧ (s.tasks 2).st = .runnable) := by
  obtain ⟨s, hs, hp⟩ := calm_example notReady [.switch 0, .lock 5, .lock 6, .switch 1, .lock 5, .switch 2, .lock 6, .switch 0, .unlock 6] rfl
    (fun s => decide (0 ∈ s.holds 5 ∧ (s.tasks 1).pc = .inLock 5 none ∧ (s.tasks 2).pc = .inLock 6 none ∧ (s.tasks 2).st = .runnable)) (by decide +kernel)
  exact ⟨s, hs, of_decide_eq_true hp⟩

/-- A task waits in `kcond_wait` and another in `poll`; a third one signals all. -/
example : ∃ s s', Reach s ∧ step s (.all 0) = some s' ∧ (s.tasks 1).waitsOn 0 ∧ (s.tasks 2).waitsOn 0 ∧ (s.tasks 4).waitsOn 1 := by
  obtain ⟨s, hs, hp⟩ := run_example notReady [.switch 1, .wait 0 false none, .switch 2, .poll false, .pollAdd 7, .pollAdd 0, .pollStart, .pollCheck, .pollCheck,
      .pollSleep false, .switch 4, .wait 1 true none, .switch 3]
    (fun s => decide ((step s (.all 0)).isSome ∧ ((s.tasks 1).st = .asleep ∧ (s.tasks 1).pc = .inCond 0 false none) ∧ ((s.tasks 2).st = .asleep ∧
      (s.tasks 2).pc = .inPoll false ∧ 0 ∈ (s.tasks 2).watch) ∧ (s.tasks 4).st = .asleep ∧ (s.tasks 4).pc = .inCond 1 true none)) (by decide +kernel)
  obtain ⟨h1, h2, h3, h4⟩ := of_decide_eq_true hp
  obtain ⟨s', h1⟩ := Option.isSome_iff_exists.mp h1
  exact ⟨s, s', hs, h1, ⟨h2.1, Or.inl ⟨false, none, h2.2⟩⟩, ⟨h3.1, Or.inr ⟨⟨false, h3.2.1⟩, h3.2.2⟩⟩, ⟨h4.1, Or.inl ⟨true, none, h4.2⟩⟩⟩

/-- Two tasks wait, the first of them being the oldest, and a third one signals one of them. -/
example : ∃ s s', Reach s ∧ step s (.one 0) = some s' ∧ (s.tasks 1).st = .asleep ∧ (s.tasks 1).pc = .inCond 0 false none ∧
    (s.tasks 2).wobj = .cond 0 ∧ (s.tasks 1).since < (s.tasks 2).since := by
  obtain ⟨s, hs, hp⟩ := run_example notReady [.switch 1, .wait 0 false none, .switch 2, .wait 0 true none, .switch 3]
    (fun s => decide ((step s (.one 0)).isSome ∧ (s.tasks 1).st = .asleep ∧ (s.tasks 1).pc = .inCond 0 false none ∧
      (s.tasks 2).wobj = .cond 0 ∧ (s.tasks 1).since < (s.tasks 2).since)) (by decide +kernel)
  obtain ⟨h1, h2⟩ := of_decide_eq_true hp
  obtain ⟨s', h1⟩ := Option.isSome_iff_exists.mp h1
  exact ⟨s, s', hs, h1, h2⟩

/-- A task sleeps in `poll` on a file that is ready but not yet announced. -/
example : ∃ s, Reach s ∧ ((s.tasks 1).st = .asleep ∧ (s.tasks 1).pc = .inPoll true ∧ 0 ∈ (s.tasks 1).watch ∧ s.ready 0 = true ∧ s.fresh 0 = true) := by
  obtain ⟨s, hs, hp⟩ := run_example notReady [.switch 1, .poll true, .pollAdd 0, .pollStart, .pollCheck, .setReady 0 true, .pollSleep false]
    (fun s => decide ((s.tasks 1).st = .asleep ∧ (s.tasks 1).pc = .inPoll true ∧ 0 ∈ (s.tasks 1).watch ∧ s.ready 0 = true ∧ s.fresh 0 = true)) (by decide +kernel)
  exact ⟨s, hs, of_decide_eq_true hp⟩

end Verif.Kcond
