/-!
# Kernel mutex (`kernel/kmutex.c`)

Tilck runs on one CPU; every body of `kmutex_lock`, `kmutex_trylock` and `kmutex_unlock` runs with
preemption disabled (kernel/kmutex.c:42,110,146), so each one is one atomic step of the model, except
that `kmutex_lock` may go to sleep in the middle (kernel/kmutex.c:79-86) and returns in a second step,
`resume`, taken when the scheduler runs the task again.  A schedule is an arbitrary list of steps of
arbitrary tasks.

The specification speaks only about the *events* visible at the API: when a call returned with the
mutex held, when it was released, and when a call had to wait.
-/

namespace Verif.Kmutex

/-- Task identifier: stands for the `struct task *` pointer. -/
abbrev Tid := Nat

/-- Where a task is with respect to this mutex.  `idle`: not inside `kmutex_lock`.  `sleeping`: inside
`kmutex_lock`, TASK_STATE_SLEEPING (kmutex.c:79-86).  `woken`: inside `kmutex_lock`, made RUNNABLE
again but not yet run (wobj.c:116-196). -/
inductive TState | idle | sleeping | woken
deriving DecidableEq, Repr

/-- What a user of the API can observe. -/
inductive Ev
  /-- `kmutex_lock` (or a successful `kmutex_trylock`) by `t` returned without waiting -/
  | acqNow (t : Tid)
  /-- `kmutex_lock` by `t` found the mutex taken and queued itself -/
  | block (t : Tid)
  /-- a `kmutex_lock` by `t` that had waited returned -/
  | acqWaited (t : Tid)
  /-- `kmutex_trylock` by `t` returned false -/
  | tryFail (t : Tid)
  /-- `kmutex_unlock` by `t` returned -/
  | rel (t : Tid)
  /-- an ASSERT of the code failed (panic in debug builds, ignored in release builds) -/
  | assertFail (t : Tid)
deriving DecidableEq, Repr

/-- `struct kmutex` (include/tilck/kernel/sync.h:175-186) plus the per-task bits it uses: the wait
state of every task and whether the task's primary wake-up timer is still armed
(include/tilck/kernel/sched.h:172).  Simplified: `lock_count` is an unbounded counter (u32 in C), the
statistics fields are left out, the intrusive wait list is a list of tasks. -/
structure St where
  owner : Option Tid
  recursive : Bool
  count : Nat
  waitq : List Tid
  ts : Tid → TState
  timer : Tid → Bool

/-- kernel/kmutex.c:15-21 `kmutex_init`. -/
def init (r : Bool) : St :=
  { owner := none, recursive := r, count := 0, waitq := [], ts := fun _ => .idle,
    timer := fun _ => false }

/-- One step of the schedule. -/
inductive Op
  | lock (t : Tid)
  | trylock (t : Tid)
  | unlock (t : Tid)
  /-- the scheduler runs a woken task, which returns from `kmutex_lock` -/
  | resume (t : Tid)
  /-- the task slept with a timeout elsewhere (`kernel_sleep`, timer.c:382-411, or a timed `kcond_wait`,
  kcond.c:48-49) and was woken by a signal (signal.c:298-299): nobody cancels its wake-up timer -/
  | interruptedSleep (t : Tid)
  /-- the task's wake-up timer expires: timer.c:232-260 `task_primary_timer_fire` -/
  | timerFire (t : Tid)
deriving DecidableEq, Repr

/-- Update of a function at one point. -/
def upd {α : Type} (f : Tid → α) (t : Tid) (v : α) : Tid → α := fun u => if u = t then v else f u

/-- kernel/kmutex.c:40-86, first part of `kmutex_lock` (up to going to sleep). -/
def lockStep (s : St) (t : Tid) : St × List Ev :=
  match s.owner with
  | none =>                                            -- :45-58
      ({ s with owner := some t, count := if s.recursive then s.count + 1 else s.count },
       (if s.recursive && s.count != 0 then [.assertFail t] else []) ++ [.acqNow t])
  | some o =>
      if s.recursive then                              -- :60-68
        if o = t then
          ({ s with count := s.count + 1 },
           (if s.count = 0 then [.assertFail t] else []) ++ [.acqNow t])
        else
          ({ s with waitq := s.waitq ++ [t], ts := upd s.ts t .sleeping },
           (if s.count = 0 then [.assertFail t] else []) ++ [.block t])
      else                                             -- :70-72, :79-86
        ({ s with waitq := s.waitq ++ [t], ts := upd s.ts t .sleeping },
         (if o = t then [.assertFail t] else []) ++ [.block t])

/-- kernel/kmutex.c:88-104, second part of `kmutex_lock`, after the sleep.  In release builds the ASSERTs
are compiled out, so the call returns to its caller in every case. -/
def resumeStep (s : St) (t : Tid) : St × List Ev :=
  ({ s with ts := upd s.ts t .idle },
   (if s.owner = some t ∧ (s.recursive = true → s.count = 1) then [] else [.assertFail t])
     ++ [.acqWaited t])

/-- kernel/kmutex.c:106-142 `kmutex_trylock`. -/
def trylockStep (s : St) (t : Tid) : St × List Ev :=
  match s.owner with
  | none =>
      ({ s with owner := some t, count := if s.recursive then s.count + 1 else s.count }, [.acqNow t])
  | some o =>
      if s.recursive then
        if o = t then ({ s with count := s.count + 1 }, [.acqNow t]) else (s, [.tryFail t])
      else (s, (if o = t then [.assertFail t] else []) ++ [.tryFail t])

/-- kernel/kmutex.c:163-181: the mutex is released and handed to the first waiter, if any; `wake_up`
(wobj.c:116-196) takes it off the wait list. -/
def handOff (s : St) : St :=
  match s.waitq with
  | [] => { s with owner := none }
  | w :: ws => { s with owner := some w, count := if s.recursive then s.count + 1 else s.count,
                        waitq := ws, ts := upd s.ts w .woken }

/-- kernel/kmutex.c:144-184 `kmutex_unlock`. -/
def unlockStep (s : St) (t : Tid) : St × List Ev :=
  let pre := if s.owner = some t ∧ (s.recursive = true → 0 < s.count) then [] else [Ev.assertFail t]
  if s.recursive then
    let s1 := { s with count := s.count - 1 }
    if 0 < s.count - 1 then (s1, pre ++ [.rel t])      -- :155-158
    else (handOff s1, pre ++ [.rel t])
  else (handOff s, pre ++ [.rel t])

/-- One step of the schedule; `none` when the task is not in a position to take it (a task that sleeps
or has not yet returned from `kmutex_lock` makes no call; only a woken task resumes; only an armed
timer fires). -/
def step (s : St) : Op → Option (St × List Ev)
  | .lock t => if s.ts t = .idle then some (lockStep s t) else none
  | .trylock t => if s.ts t = .idle then some (trylockStep s t) else none
  | .unlock t => if s.ts t = .idle then some (unlockStep s t) else none
  | .resume t => if s.ts t = .woken then some (resumeStep s t) else none
  | .interruptedSleep t =>
      if s.ts t = .idle then some ({ s with timer := upd s.timer t true }, []) else none
  | .timerFire t =>
      if s.timer t then
        some ({ s with timer := upd s.timer t false,
                       ts := if s.ts t = .sleeping then upd s.ts t .woken else s.ts }, [])
      else none

/-! ## Specification: read off the events only -/

/-- A call by `t` returned holding the mutex. -/
def isAcq (t : Tid) : Ev → Bool
  | .acqNow u => u == t
  | .acqWaited u => u == t
  | _ => false

/-- A release by `t`. -/
def isRel (t : Tid) : Ev → Bool
  | .rel u => u == t
  | _ => false

/-- How many times `t` holds the mutex after the events `evs`: acquisitions minus releases. -/
def holds (evs : List Ev) (t : Tid) : Int := (evs.countP (isAcq t) : Int) - (evs.countP (isRel t) : Int)

/-- The calls that had to wait, in order of arrival. -/
def arrivals (evs : List Ev) : List Tid := evs.filterMap fun | .block t => some t | _ => none

/-- The calls that returned after waiting, in order. -/
def grants (evs : List Ev) : List Tid := evs.filterMap fun | .acqWaited t => some t | _ => none

/-- The rules callers must follow: only a holder unlocks; a non-recursive mutex is not locked again by
its holder. -/
def Contract (r : Bool) (evs : List Ev) : Op → Prop
  | .unlock t => 0 < holds evs t
  | .lock t => r = false → holds evs t = 0
  | .trylock t => r = false → holds evs t = 0
  | _ => True

/-- No left-over wake-up timer expires for a task asleep on this mutex. -/
def NoStaleTimer (s : St) : Op → Prop
  | .timerFire t => s.ts t ≠ .sleeping
  | _ => True

/-- Executions: all interleavings of all calls whose callers follow the rules; `extra` restricts the
schedule further. -/
inductive Exec (r : Bool) (extra : St → Op → Prop) : St → List Ev → Prop
  | init : Exec r extra (init r) []
  | step {s evs op s' es} : Exec r extra s evs → Contract r evs op → extra s op →
      step s op = some (s', es) → Exec r extra s' (evs ++ es)

/-! ## Proofs -/

theorem holds_append (a b : List Ev) (t : Tid) : holds (a ++ b) t = holds a t + holds b t := by
  simp [holds, List.countP_append]; omega

theorem arrivals_append (a b : List Ev) : arrivals (a ++ b) = arrivals a ++ arrivals b := by
  simp [arrivals, List.filterMap_append]

theorem grants_append (a b : List Ev) : grants (a ++ b) = grants a ++ grants b := by
  simp [grants, List.filterMap_append]

/-- The inductive invariant. -/
structure Inv (r : Bool) (s : St) (evs : List Ev) : Prop where
  hrec : s.recursive = r
  noassert : ∀ t, Ev.assertFail t ∉ evs
  nodup : s.waitq.Nodup
  sleep : ∀ t, s.ts t = .sleeping ↔ t ∈ s.waitq
  free : s.owner = none → s.waitq = [] ∧ s.count = 0 ∧ (∀ t, s.ts t = .idle) ∧ ∀ t, holds evs t = 0
  others : ∀ o, s.owner = some o → ∀ t, t ≠ o → holds evs t = 0 ∧ s.ts t ≠ .woken
  ownIdle : ∀ o, s.owner = some o → s.ts o = .idle →
    holds evs o = (if r then (s.count : Int) else 1) ∧ (r = true → 0 < s.count)
  ownWoken : ∀ o, s.owner = some o → s.ts o = .woken → holds evs o = 0 ∧ (r = true → s.count = 1)
  ownAwake : ∀ o, s.owner = some o → s.ts o ≠ .sleeping
  plain : r = false → s.count = 0
  order : arrivals evs = grants evs ++
    (match s.owner with
      | some o => if s.ts o = .woken then [o] else []
      | none => []) ++ s.waitq

theorem inv_init (r : Bool) : Inv r (init r) [] := by
  constructor <;> simp [init, holds, arrivals, grants]

theorem upd_same {α} (f : Tid → α) (t v) : upd f t v t = v := by simp [upd]
theorem upd_other {α} (f : Tid → α) {t u : Tid} (v) (h : u ≠ t) : upd f t v u = f u := by
  simp [upd, h]

theorem ne_of_count_acqNow (t u : Tid) : holds [.acqNow t] u = if u = t then 1 else 0 := by
  by_cases h : u = t
  · subst h; simp [holds, isAcq, isRel]
  · have : ¬ t = u := fun e => h e.symm
    simp [holds, isAcq, isRel, h, this]

theorem holds_acqWaited (t u : Tid) : holds [.acqWaited t] u = if u = t then 1 else 0 := by
  by_cases h : u = t
  · subst h; simp [holds, isAcq, isRel]
  · have : ¬ t = u := fun e => h e.symm
    simp [holds, isAcq, isRel, h, this]

theorem holds_rel (t u : Tid) : holds [.rel t] u = if u = t then -1 else 0 := by
  by_cases h : u = t
  · subst h; simp [holds, isAcq, isRel]
  · have : ¬ t = u := fun e => h e.symm
    simp [holds, isAcq, isRel, h, this]

theorem holds_block (t u : Tid) : holds [.block t] u = 0 := by simp [holds, isAcq, isRel]
theorem holds_tryFail (t u : Tid) : holds [.tryFail t] u = 0 := by simp [holds, isAcq, isRel]

/-- The mutex is free and `t` takes it. -/
theorem inv_take {r s evs} (t : Tid) (hi : Inv r s evs) (ho : s.owner = none) :
    Inv r { s with owner := some t, count := if s.recursive then s.count + 1 else s.count }
      (evs ++ [.acqNow t]) := by
  obtain ⟨hq, hc, hidle, hz⟩ := hi.free ho
  have hord := hi.order
  constructor
  · exact hi.hrec
  · intro u hu; simp only [List.mem_append, List.mem_singleton] at hu
    rcases hu with hu | hu
    · exact hi.noassert u hu
    · cases hu
  · exact hi.nodup
  · exact hi.sleep
  · intro h; cases h
  · intro o h u hu; cases h
    rw [holds_append, ne_of_count_acqNow, if_neg hu, hz u]
    exact ⟨rfl, by simp [hidle u]⟩
  · intro o h _; cases h
    rw [holds_append, ne_of_count_acqNow, if_pos rfl, hz t]
    cases r <;> simp [hi.hrec, hc]
  · intro o h hw; simp [hidle o] at hw
  · intro o h; simp [hidle o]
  · intro h; simp [hi.hrec, h, hc]
  · rw [arrivals_append, grants_append, hord, ho]
    simp [arrivals, grants, hidle t, hq]

/-- `t` queues itself. -/
theorem inv_block {r s evs} (t o : Tid) (hi : Inv r s evs) (ho : s.owner = some o) (hto : t ≠ o)
    (ht : s.ts t = .idle) :
    Inv r { s with waitq := s.waitq ++ [t], ts := upd s.ts t .sleeping } (evs ++ [.block t]) := by
  have hord := hi.order
  have hot : o ≠ t := fun e => hto e.symm
  have hnotin : t ∉ s.waitq := by rw [← hi.sleep t, ht]; simp
  constructor
  · exact hi.hrec
  · intro u hu; simp only [List.mem_append, List.mem_singleton] at hu
    rcases hu with hu | hu
    · exact hi.noassert u hu
    · cases hu
  · show (s.waitq ++ [t]).Nodup
    rw [List.nodup_append]
    refine ⟨hi.nodup, by simp, ?_⟩
    intro a ha b hb
    simp at hb; subst hb
    exact fun e => hnotin (e ▸ ha)
  · intro u
    show upd s.ts t .sleeping u = .sleeping ↔ u ∈ s.waitq ++ [t]
    by_cases h : u = t
    · subst h; simp [upd_same]
    · rw [upd_other _ _ h, List.mem_append, hi.sleep u]; simp [h]
  · intro h; simp [ho] at h
  · intro o' h u hu
    show _ ∧ upd s.ts t .sleeping u ≠ .woken
    rw [holds_append, holds_block]
    have := hi.others o' h u hu
    by_cases e : u = t
    · subst e; rw [upd_same]; simp [this.1]
    · rw [upd_other _ _ e]; simpa using this
  · intro o' h hidle
    simp only [ho] at h; cases h
    rw [holds_append, holds_block]
    have hidle : upd s.ts t .sleeping o = .idle := hidle
    rw [upd_other _ _ hot] at hidle
    simpa using hi.ownIdle o ho hidle
  · intro o' h hw
    simp only [ho] at h; cases h
    rw [holds_append, holds_block]
    have hw : upd s.ts t .sleeping o = .woken := hw
    rw [upd_other _ _ hot] at hw
    simpa using hi.ownWoken o ho hw
  · intro o' h
    simp only [ho] at h; cases h
    show upd s.ts t .sleeping o ≠ _
    rw [upd_other _ _ hot]; exact hi.ownAwake o ho
  · exact hi.plain
  · rw [arrivals_append, grants_append, hord, ho]
    simp [ho, upd_other _ _ hot, arrivals, grants]

/-- The owner of a recursive mutex takes it again. -/
theorem inv_again {r s evs} (t : Tid) (hi : Inv r s evs) (ho : s.owner = some t) (hr : r = true)
    (ht : s.ts t = .idle) :
    Inv r { s with count := s.count + 1 } (evs ++ [.acqNow t]) := by
  have hord := hi.order
  constructor
  · exact hi.hrec
  · intro u hu; simp only [List.mem_append, List.mem_singleton] at hu
    rcases hu with hu | hu
    · exact hi.noassert u hu
    · cases hu
  · exact hi.nodup
  · exact hi.sleep
  · intro h; simp [ho] at h
  · intro o h u hu
    rw [holds_append, ne_of_count_acqNow]
    simp only [ho] at h; cases h
    simpa [hu] using hi.others t ho u hu
  · intro o h hidle
    simp only [ho] at h; cases h
    rw [holds_append, ne_of_count_acqNow]
    have := hi.ownIdle t ho ht
    simp only [hr, if_true] at this ⊢
    refine ⟨?_, fun _ => by simp⟩
    rw [this.1]; simp
  · intro o h hw
    simp only [ho] at h; cases h
    simp [ht] at hw
  · exact hi.ownAwake
  · intro h; simp [hr] at h
  · rw [arrivals_append, grants_append, hord]
    simp [arrivals, grants, ho, ht]

theorem inv_lock {r s evs} (t : Tid) (hi : Inv r s evs) (ht : s.ts t = .idle)
    (hc : r = false → holds evs t = 0) : Inv r (lockStep s t).1 (evs ++ (lockStep s t).2) := by
  rcases ho : s.owner with _ | o
  · have h := inv_take t hi ho
    obtain ⟨-, hc0, -, -⟩ := hi.free ho
    simpa [lockStep, ho, hc0] using h
  · have hidle := hi.ownIdle o ho
    have hwoken := hi.ownWoken o ho
    have hpos : r = true → s.count ≠ 0 := by
      intro hr
      rcases h : s.ts o with _ | _ | _
      · have := (hidle h).2 hr; omega
      · exact absurd h (hi.ownAwake o ho)
      · have := (hwoken h).2 hr; omega
    by_cases hr : r = true
    · by_cases hot : o = t
      · subst hot
        have := inv_again o hi ho hr ht
        simpa [lockStep, ho, hi.hrec, hr, hpos hr] using this
      · have := inv_block t o hi ho (fun e => hot e.symm) ht
        simpa [lockStep, ho, hi.hrec, hr, hpos hr, hot] using this
    · have hr : r = false := by simpa using hr
      have hot : o ≠ t := by
        intro e; subst e
        have h1 := (hidle ht).1
        have h2 := hc hr
        simp [hr] at h1; omega
      have := inv_block t o hi ho (fun e => hot e.symm) ht
      simpa [lockStep, ho, hi.hrec, hr, hot] using this

theorem inv_noop {r s evs} {e : Ev} (hi : Inv r s evs) (h1 : ∀ t, holds [e] t = 0)
    (h2 : arrivals [e] = []) (h3 : grants [e] = []) (h4 : ∀ t, e ≠ .assertFail t) :
    Inv r s (evs ++ [e]) := by
  have hh : ∀ t, holds (evs ++ [e]) t = holds evs t := by
    intro t; rw [holds_append, h1]; simp
  constructor
  · exact hi.hrec
  · intro u hu; simp only [List.mem_append, List.mem_singleton] at hu
    rcases hu with hu | hu
    · exact hi.noassert u hu
    · exact h4 u hu.symm
  · exact hi.nodup
  · exact hi.sleep
  · simpa only [hh] using hi.free
  · simpa only [hh] using hi.others
  · simpa only [hh] using hi.ownIdle
  · simpa only [hh] using hi.ownWoken
  · exact hi.ownAwake
  · exact hi.plain
  · rw [arrivals_append, grants_append, h2, h3]; simpa using hi.order

theorem inv_trylock {r s evs} (t : Tid) (hi : Inv r s evs) (ht : s.ts t = .idle)
    (hc : r = false → holds evs t = 0) : Inv r (trylockStep s t).1 (evs ++ (trylockStep s t).2) := by
  rcases ho : s.owner with _ | o
  · simpa [trylockStep, ho] using inv_take t hi ho
  · have hno : Inv r s (evs ++ [.tryFail t]) :=
      inv_noop hi (holds_tryFail t) (by simp [arrivals]) (by simp [grants]) (by intro u h; cases h)
    by_cases hr : r = true
    · by_cases hot : o = t
      · subst hot
        simpa [trylockStep, ho, hi.hrec, hr] using inv_again o hi ho hr ht
      · simpa [trylockStep, ho, hi.hrec, hr, hot] using hno
    · have hr : r = false := by simpa using hr
      have hot : o ≠ t := by
        intro e; subst e
        have h1 := (hi.ownIdle o ho ht).1
        have h2 := hc hr
        simp [hr] at h1; omega
      simpa [trylockStep, ho, hi.hrec, hr, hot] using hno

theorem inv_resume {r s evs} (t : Tid) (hi : Inv r s evs) (ht : s.ts t = .woken) :
    Inv r (resumeStep s t).1 (evs ++ (resumeStep s t).2) := by
  have ho : s.owner = some t := by
    rcases ho : s.owner with _ | o
    · have := (hi.free ho).2.2.1 t; simp [ht] at this
    · by_cases e : t = o
      · rw [e]
      · exact absurd ht (hi.others o ho t e).2
  have hw := hi.ownWoken t ho ht
  have hcond : s.owner = some t ∧ (s.recursive = true → s.count = 1) :=
    ⟨ho, fun h => hw.2 (hi.hrec ▸ h)⟩
  have hord := hi.order
  simp only [resumeStep]
  rw [if_pos hcond, List.nil_append]
  constructor
  · exact hi.hrec
  · intro u hu; simp only [List.mem_append, List.mem_singleton] at hu
    rcases hu with hu | hu
    · exact hi.noassert u hu
    · cases hu
  · exact hi.nodup
  · intro u
    show upd s.ts t .idle u = .sleeping ↔ u ∈ s.waitq
    by_cases e : u = t
    · subst e; rw [upd_same]
      have := hi.sleep u
      rw [ht] at this
      simp at this
      simp [this]
    · rw [upd_other _ _ e]; exact hi.sleep u
  · intro h; simp [ho] at h
  · intro o h u hu
    show _ ∧ upd s.ts t .idle u ≠ .woken
    simp only [ho] at h; cases h
    rw [holds_append, holds_acqWaited, if_neg hu, upd_other _ _ hu]
    simpa using hi.others t ho u hu
  · intro o h hidle
    simp only [ho] at h; cases h
    rw [holds_append, holds_acqWaited, if_pos rfl, hw.1]
    cases r
    · simp
    · simp [hw.2 rfl]
  · intro o h hw'
    simp only [ho] at h; cases h
    have hw' : upd s.ts t .idle t = .woken := hw'
    simp [upd_same] at hw'
  · intro o h
    simp only [ho] at h; cases h
    show upd s.ts t .idle t ≠ _
    simp [upd_same]
  · exact hi.plain
  · rw [arrivals_append, grants_append, hord]
    simp [arrivals, grants, ho, ht, upd_same]

/-- Hand-over after the last release by `t`: `s'` is `s` with the count already decremented to 0. -/
theorem inv_handOff {r s evs} (t : Tid) (hi : Inv r s evs) (ho : s.owner = some t)
    (ht : s.ts t = .idle) (hh : holds evs t = 1) :
    Inv r (handOff { s with count := 0 }) (evs ++ [.rel t]) := by
  have hord := hi.order
  have hz : ∀ u, holds (evs ++ [.rel t]) u = 0 := by
    intro u
    rw [holds_append, holds_rel]
    by_cases e : u = t
    · subst e; rw [if_pos rfl, hh]; rfl
    · rw [if_neg e, (hi.others t ho u e).1]; rfl
  have hna : ∀ u, Ev.assertFail u ∉ evs ++ [.rel t] := by
    intro u hu; simp only [List.mem_append, List.mem_singleton] at hu
    rcases hu with hu | hu
    · exact hi.noassert u hu
    · cases hu
  have hnw : ∀ u, s.ts u ≠ .woken := by
    intro u
    by_cases e : u = t
    · subst e; simp [ht]
    · exact (hi.others t ho u e).2
  rcases hq : s.waitq with _ | ⟨w, ws⟩
  · have hnsl : ∀ u, s.ts u ≠ .sleeping := by
      intro u h; have := (hi.sleep u).1 h; simp [hq] at this
    have hidle : ∀ u, s.ts u = .idle := by
      intro u; rcases h : s.ts u with _ | _ | _
      · rfl
      · exact absurd h (hnsl u)
      · exact absurd h (hnw u)
    simp only [handOff, hq]
    constructor
    · exact hi.hrec
    · exact hna
    · simp [hq]
    · intro u; simp [hidle u, hq]
    · intro _; exact ⟨rfl, rfl, hidle, hz⟩
    · intro o h; cases h
    · intro o h; cases h
    · intro o h; cases h
    · intro o h; cases h
    · intro _; rfl
    · rw [arrivals_append, grants_append, hord]
      simp [arrivals, grants, ho, ht, hq]
  · have hnd : w ∉ ws ∧ ws.Nodup := by have := hi.nodup; rw [hq] at this; simpa using this
    have hwt : w ≠ t := by
      intro e; have := (hi.sleep w).2 (by simp [hq]); rw [e, ht] at this; simp at this
    simp only [handOff, hq]
    constructor
    · exact hi.hrec
    · exact hna
    · exact hnd.2
    · intro u
      show upd s.ts w .woken u = .sleeping ↔ u ∈ ws
      by_cases e : u = w
      · subst e; simp [upd_same, hnd.1]
      · rw [upd_other _ _ e, hi.sleep u, hq]; simp [e]
    · intro h; cases h
    · intro o h u hu; cases h
      refine ⟨hz u, ?_⟩
      show upd s.ts w .woken u ≠ .woken
      rw [upd_other _ _ hu]; exact hnw u
    · intro o h hidle; cases h
      have hidle : upd s.ts w .woken w = .idle := hidle
      simp [upd_same] at hidle
    · intro o h _; cases h
      refine ⟨hz w, fun hr => ?_⟩
      simp [hi.hrec, hr]
    · intro o h; cases h
      show upd s.ts w .woken w ≠ _
      simp [upd_same]
    · intro h; simp [hi.hrec, h]
    · rw [arrivals_append, grants_append, hord]
      simp [arrivals, grants, ho, ht, hq, upd_same]

theorem inv_unlock {r s evs} (t : Tid) (hi : Inv r s evs) (ht : s.ts t = .idle)
    (hc : 0 < holds evs t) : Inv r (unlockStep s t).1 (evs ++ (unlockStep s t).2) := by
  have ho : s.owner = some t := by
    rcases ho : s.owner with _ | o
    · have := (hi.free ho).2.2.2 t; omega
    · by_cases e : t = o
      · rw [e]
      · have := (hi.others o ho t e).1; omega
  have hown := hi.ownIdle t ho ht
  by_cases hr : r = true
  · have hpos := hown.2 hr
    have hpre : s.owner = some t ∧ (s.recursive = true → 0 < s.count) := ⟨ho, fun _ => hpos⟩
    have hh := hown.1
    simp only [hr, if_true] at hh
    by_cases hlast : 0 < s.count - 1
    · simp only [unlockStep, hi.hrec, hr, hlast, if_true]
      rw [if_pos ⟨ho, fun _ => hpos⟩]
      have hord := hi.order
      simp only [List.nil_append]
      constructor
      · rfl
      · intro u hu; simp only [List.mem_append, List.mem_singleton] at hu
        rcases hu with hu | hu
        · exact hi.noassert u hu
        · cases hu
      · exact hi.nodup
      · exact hi.sleep
      · intro h; simp [ho] at h
      · intro o h u hu
        simp only [ho] at h; cases h
        rw [holds_append, holds_rel, if_neg hu]
        simpa using hi.others t ho u hu
      · intro o h _
        simp only [ho] at h; cases h
        rw [holds_append, holds_rel, if_pos rfl, hh]
        simp only [if_true]
        refine ⟨by omega, fun _ => hlast⟩
      · intro o h hw
        simp only [ho] at h; cases h
        simp [ht] at hw
      · exact hi.ownAwake
      · intro h; cases h
      · rw [arrivals_append, grants_append, hord]
        simp [arrivals, grants, ho, ht]
    · have hc1 : s.count = 1 := by omega
      have h := inv_handOff t hi ho ht (by rw [hh, hc1]; rfl)
      simp only [unlockStep, hi.hrec, hr, if_true, hc1]
      rw [if_neg (by simp), if_pos ⟨ho, by simp⟩]
      have hs : s.recursive = true := hr ▸ hi.hrec
      simpa [hr, hs] using h
  · have hr : r = false := by simpa using hr
    have hh := hown.1
    simp only [hr, Bool.false_eq_true, if_false] at hh
    have h := inv_handOff t hi ho ht hh
    have hc0 : s.count = 0 := hi.plain hr
    have hs : { s with count := 0 } = s := by cases s; simp at hc0; subst hc0; rfl
    rw [hs] at h
    simp only [unlockStep, hi.hrec, hr, Bool.false_eq_true, if_false]
    rw [if_pos ⟨ho, by simp⟩]
    simpa [hr] using h

theorem inv_timer {r s evs} (f : Tid → Bool) (hi : Inv r s evs) : Inv r { s with timer := f } evs :=
  ⟨hi.hrec, hi.noassert, hi.nodup, hi.sleep, hi.free, hi.others, hi.ownIdle, hi.ownWoken, hi.ownAwake,
    hi.plain, hi.order⟩

theorem some_pair {α β : Type} {x : α × β} {a : α} {b : β} (h : some x = some (a, b)) :
    a = x.1 ∧ b = x.2 := by cases h; exact ⟨rfl, rfl⟩

theorem inv_step {r s evs op s' es} (hi : Inv r s evs) (hc : Contract r evs op)
    (hx : NoStaleTimer s op) (h : step s op = some (s', es)) : Inv r s' (evs ++ es) := by
  cases op with
  | lock t =>
    simp only [step] at h; split at h
    · obtain ⟨rfl, rfl⟩ := some_pair h; exact inv_lock t hi (by assumption) hc
    · cases h
  | trylock t =>
    simp only [step] at h; split at h
    · obtain ⟨rfl, rfl⟩ := some_pair h; exact inv_trylock t hi (by assumption) hc
    · cases h
  | unlock t =>
    simp only [step] at h; split at h
    · obtain ⟨rfl, rfl⟩ := some_pair h; exact inv_unlock t hi (by assumption) hc
    · cases h
  | resume t =>
    simp only [step] at h; split at h
    · obtain ⟨rfl, rfl⟩ := some_pair h; exact inv_resume t hi (by assumption)
    · cases h
  | interruptedSleep t =>
    simp only [step] at h; split at h
    · cases h; simpa using inv_timer _ hi
    · cases h
  | timerFire t =>
    simp only [NoStaleTimer] at hx
    simp only [step, hx, if_false] at h; split at h
    · cases h; simpa using inv_timer _ hi
    · cases h

theorem exec_inv {r s evs} (h : Exec r NoStaleTimer s evs) : Inv r s evs := by
  induction h with
  | init => exact inv_init r
  | step _ hc hx hs ih => exact inv_step ih hc hx hs

/-! ## Theorems -/

/-- C11, with one restriction: no left-over wake-up timer of a task asleep on the mutex expires.  At every
point of every such execution (any number of tasks, any interleaving, recursive or not) at most one
task is between an acquisition and its release; a non-recursive mutex is held at most once; and no
ASSERT of the code fails. -/
theorem mutual_exclusion_partial {r : Bool} {s : St} {evs : List Ev} (h : Exec r NoStaleTimer s evs) :
    (∀ t u, t ≠ u → 0 < holds evs t → holds evs u = 0) ∧
    (∀ t, 0 ≤ holds evs t) ∧ (r = false → ∀ t, holds evs t ≤ 1) ∧ (∀ t, Ev.assertFail t ∉ evs) := by
  have hi := exec_inv h
  have hnn : ∀ t, 0 ≤ holds evs t ∧ (r = false → holds evs t ≤ 1) := by
    intro t
    rcases ho : s.owner with _ | o
    · have := (hi.free ho).2.2.2 t; omega
    · by_cases e : t = o
      · subst e
        rcases hts : s.ts t with _ | _ | _
        · have := (hi.ownIdle t ho hts).1
          cases r <;> simp at this <;> simp <;> omega
        · exact absurd hts (hi.ownAwake t ho)
        · have := (hi.ownWoken t ho hts).1; omega
      · have := (hi.others o ho t e).1; omega
  refine ⟨?_, fun t => (hnn t).1, fun hr t => (hnn t).2 hr, hi.noassert⟩
  intro t u hne ht
  rcases ho : s.owner with _ | o
  · exact (hi.free ho).2.2.2 u
  · by_cases e : t = o
    · exact (hi.others o ho u (fun e' => hne (by rw [e, e']))).1
    · have := (hi.others o ho t e).1; omega

/-- C11 fails in general: a task whose timed sleep was cut short by a signal keeps its wake-up timer
(timer.c:382-411, signal.c:298-299, syscalls.c:46); if it then waits for a mutex, the timer's expiry
makes it runnable (timer.c:238-257) and `kmutex_lock` returns although task 1 still holds the mutex.
(In a debug build the ASSERT at kmutex.c:95 panics instead.) -/
theorem mutual_exclusion_violated :
    ∃ s evs, Exec false (fun _ _ => True) s evs ∧ 0 < holds evs 1 ∧ 0 < holds evs 2 := by
  refine ⟨_, _, .step (op := .resume 2) (.step (op := .timerFire 2) (.step (op := .lock 2)
    (.step (op := .lock 1) (.step (op := .interruptedSleep 2) .init trivial trivial rfl)
    ?_ trivial rfl) ?_ trivial rfl) trivial trivial rfl) trivial trivial rfl, ?_, ?_⟩ <;>
  first | decide | (intro _; decide)

/-- C12 (ordering): in every execution the calls that had to wait are granted the mutex in the order they
arrived: the grants so far are an initial segment of the arrivals. -/
theorem waiters_served_fifo_partial {r : Bool} {s : St} {evs : List Ev}
    (h : Exec r NoStaleTimer s evs) : ∃ pending, arrivals evs = grants evs ++ pending := by
  have hi := exec_inv h
  exact ⟨_, by rw [hi.order, List.append_assoc]⟩

/-- C12 (no overtaking): a task that did not have to wait never gets the mutex ahead of a waiting one:
when an acquisition without waiting by a task that does not hold the mutex happens, nobody waits. -/
theorem no_barging_partial {r : Bool} {s s' : St} {evs es : List Ev} {op : Op} {t : Tid}
    (h : Exec r NoStaleTimer s evs) (hc : Contract r evs op) (hx : NoStaleTimer s op)
    (hs : step s op = some (s', es)) (ha : Ev.acqNow t ∈ es) (h0 : holds evs t = 0) :
    arrivals evs = grants evs := by
  have hi := exec_inv h
  have key : s.owner = none → arrivals evs = grants evs := by
    intro ho
    rw [hi.order, ho, (hi.free ho).1]; simp
  cases op with
  | lock u =>
    simp only [step] at hs; split at hs
    · rename_i hidle
      obtain ⟨rfl, rfl⟩ := some_pair hs
      rcases ho : s.owner with _ | o
      · exact key ho
      · simp only [lockStep, ho] at ha
        split at ha
        · rename_i hrec
          split at ha
          · rename_i hou
            simp only [List.mem_append, List.mem_singleton] at ha
            rcases ha with ha | ha
            · split at ha <;> simp at ha
            · cases ha
              subst hou
              have := hi.ownIdle o ho hidle
              rw [hi.hrec] at hrec
              have h2 := this.2 hrec
              rw [hrec] at this; simp at this; omega
          · simp only [List.mem_append, List.mem_singleton] at ha
            rcases ha with ha | ha
            · split at ha <;> simp at ha
            · cases ha
        · simp only [List.mem_append, List.mem_singleton] at ha
          rcases ha with ha | ha
          · split at ha <;> simp at ha
          · cases ha
    · cases hs
  | trylock u =>
    simp only [step] at hs; split at hs
    · rename_i hidle
      obtain ⟨rfl, rfl⟩ := some_pair hs
      rcases ho : s.owner with _ | o
      · exact key ho
      · simp only [trylockStep, ho] at ha
        split at ha
        · rename_i hrec
          split at ha
          · rename_i hou
            simp only [List.mem_singleton] at ha
            cases ha
            subst hou
            have := hi.ownIdle o ho hidle
            rw [hi.hrec] at hrec
            have h2 := this.2 hrec
            rw [hrec] at this; simp at this; omega
          · simp at ha
        · simp only [List.mem_append, List.mem_singleton] at ha
          rcases ha with ha | ha
          · split at ha <;> simp at ha
          · cases ha
    · cases hs
  | unlock u =>
    simp only [step] at hs; split at hs
    · obtain ⟨rfl, rfl⟩ := some_pair hs
      simp only [unlockStep] at ha
      repeat' split at ha
      all_goals simp at ha
    · cases hs
  | resume u =>
    simp only [step] at hs; split at hs
    · obtain ⟨rfl, rfl⟩ := some_pair hs
      simp only [resumeStep] at ha
      split at ha <;> simp at ha
    · cases hs
  | interruptedSleep u =>
    simp only [step] at hs; split at hs
    · cases hs; simp at ha
    · cases hs
  | timerFire u =>
    simp only [step] at hs; split at hs
    · cases hs; simp at ha
    · cases hs

/-- C12 (no lost wakeup): whenever some call is waiting (arrived, not granted), either some task holds the
mutex, or the call at the head of the line has already been made runnable and returns as soon as the
scheduler runs it. -/
theorem no_lost_wakeup_partial {r : Bool} {s : St} {evs : List Ev} (h : Exec r NoStaleTimer s evs)
    {w : Tid} {rest : List Tid} (hw : arrivals evs = grants evs ++ w :: rest) :
    (∃ o, 0 < holds evs o) ∨ ∃ s', step s (.resume w) = some (s', [.acqWaited w]) := by
  have hi := exec_inv h
  rcases ho : s.owner with _ | o
  · have h1 := hi.order
    rw [ho, (hi.free ho).1, hw] at h1
    simp at h1
  · rcases hts : s.ts o with _ | _ | _
    · left
      refine ⟨o, ?_⟩
      have := hi.ownIdle o ho hts
      cases r
      · have h1 := this.1; simp at h1; omega
      · have h1 := this.1; have h2 := this.2 rfl; simp at h1; omega
    · exact absurd hts (hi.ownAwake o ho)
    · right
      have h1 := hi.order
      simp only [ho, hts, if_true, List.append_assoc] at h1
      rw [hw] at h1
      have h1 := List.append_cancel_left h1
      simp only [List.singleton_append, List.cons.injEq] at h1
      obtain ⟨rfl, -⟩ := h1
      have hwk := hi.ownWoken w ho hts
      refine ⟨{ s with ts := upd s.ts w .idle }, ?_⟩
      simp only [step, hts, if_true, resumeStep]
      rw [if_pos ⟨ho, fun hr => hwk.2 (hi.hrec ▸ hr)⟩]; rfl

/-- C12/C13 (hand-over): when the holder makes its last release and calls are waiting, the one that has
waited longest is made runnable by that very `kmutex_unlock`; when nobody waits the mutex becomes
free, so that any task's next `kmutex_lock` or `kmutex_trylock` succeeds at once. -/
theorem last_unlock_hands_over_partial {r : Bool} {s : St} {evs : List Ev} (h : Exec r NoStaleTimer s evs)
    {t : Tid} (hh : holds evs t = 1) :
    ∃ s', step s (.unlock t) = some (s', [.rel t]) ∧
      (∀ w rest, arrivals evs = grants evs ++ w :: rest →
        ∃ s'', step s' (.resume w) = some (s'', [.acqWaited w])) ∧
      (arrivals evs = grants evs → ∀ u, ∃ s1 s2, step s' (.lock u) = some (s1, [.acqNow u]) ∧
        step s' (.trylock u) = some (s2, [.acqNow u])) := by
  have hi := exec_inv h
  have ho : s.owner = some t := by
    rcases ho : s.owner with _ | o
    · have := (hi.free ho).2.2.2 t; omega
    · by_cases e : t = o
      · rw [e]
      · have := (hi.others o ho t e).1; omega
  have hts : s.ts t = .idle := by
    rcases hts : s.ts t with _ | _ | _
    · rfl
    · exact absurd hts (hi.ownAwake t ho)
    · have := (hi.ownWoken t ho hts).1; omega
  have hown := hi.ownIdle t ho hts
  have hst : step s (.unlock t) = some (handOff { s with count := 0 }, [.rel t]) := by
    simp only [step, hts, if_true, unlockStep]
    by_cases hr : r = true
    · have h1 := hown.1
      simp only [hr, if_true] at h1
      have hc1 : s.count = 1 := by omega
      have hrec : s.recursive = true := hr ▸ hi.hrec
      simp [hrec, hc1, ho]
    · have hr : r = false := by simpa using hr
      have hc0 : s.count = 0 := hi.plain hr
      have hs : { s with count := 0 } = s := by cases s; simp at hc0; subst hc0; rfl
      have hrec : s.recursive = false := hr ▸ hi.hrec
      rw [hs]
      simp [hrec, ho]
  have hinv := inv_handOff t hi ho hts hh
  refine ⟨_, hst, ?_, ?_⟩
  · intro w rest hw
    have h1 := hi.order
    simp only [ho, hts, reduceCtorEq, if_false, List.append_nil] at h1
    rw [hw] at h1
    have hq : s.waitq = w :: rest := (List.append_cancel_left h1).symm
    have hwk : step (handOff { s with count := 0 }) (.resume w)
        = some (resumeStep (handOff { s with count := 0 }) w) := by
      simp [step, handOff, hq, upd_same]
    refine ⟨(resumeStep (handOff { s with count := 0 }) w).1, ?_⟩
    rw [hwk]
    simp [resumeStep, handOff, hq]
  · intro hw u
    have h1 := hi.order
    simp only [ho, hts, reduceCtorEq, if_false, List.append_nil] at h1
    rw [hw] at h1
    have hq : s.waitq = [] := by
      have := congrArg List.length h1
      simp at this; exact this
    have hno : (handOff { s with count := 0 }).owner = none := by simp [handOff, hq]
    have hidle := (hinv.free hno).2.2.1 u
    have hcnt := (hinv.free hno).2.1
    refine ⟨(lockStep (handOff { s with count := 0 }) u).1,
      (trylockStep (handOff { s with count := 0 }) u).1, ?_, ?_⟩
    · simp only [step, hidle, if_true, lockStep, hno, hcnt]
      simp
    · simp only [step, hidle, if_true, trylockStep, hno]

/-- C13: a mutex held `k > 1` times by `t` is still held (`k-1` times) by `t` after one `kmutex_unlock`;
nobody else is woken, and every other task's `kmutex_trylock` still fails. -/
theorem inner_unlock_keeps_partial {r : Bool} {s : St} {evs : List Ev} (h : Exec r NoStaleTimer s evs)
    {t : Tid} (hh : 1 < holds evs t) :
    ∃ s', step s (.unlock t) = some (s', [.rel t]) ∧ holds (evs ++ [.rel t]) t = holds evs t - 1 ∧
      (∀ u, step s' (.resume u) = none) ∧
      ∀ u, u ≠ t → s.ts u = .idle → step s' (.trylock u) = some (s', [.tryFail u]) := by
  have hi := exec_inv h
  have ho : s.owner = some t := by
    rcases ho : s.owner with _ | o
    · have := (hi.free ho).2.2.2 t; omega
    · by_cases e : t = o
      · rw [e]
      · have := (hi.others o ho t e).1; omega
  have hts : s.ts t = .idle := by
    rcases hts : s.ts t with _ | _ | _
    · rfl
    · exact absurd hts (hi.ownAwake t ho)
    · have := (hi.ownWoken t ho hts).1; omega
  have hown := hi.ownIdle t ho hts
  have hr : r = true := by
    cases r
    · have h1 := hown.1; simp at h1; omega
    · rfl
  have h1 := hown.1
  simp only [hr, if_true] at h1
  have hrec : s.recursive = true := hr ▸ hi.hrec
  refine ⟨{ s with count := s.count - 1 }, ?_, ?_, ?_, ?_⟩
  · simp only [step, hts, if_true, unlockStep, hrec]
    rw [if_pos (by omega), if_pos ⟨ho, fun _ => by omega⟩]; rfl
  · rw [holds_append, holds_rel, if_pos rfl]; omega
  · intro u
    have : s.ts u ≠ .woken := by
      by_cases e : u = t
      · subst e; simp [hts]
      · exact (hi.others t ho u e).2
    simp [step, this]
  · intro u hne hu
    have : ¬ t = u := fun e => hne e.symm
    simp [step, hu, trylockStep, ho, hrec, this]

/-- Progress: in every reachable state the head waiter is granted after finitely many steps that only the
holder and the waiter themselves take — as many unlocks as the holder has holds, then one resume. -/
theorem head_waiter_granted_partial {r : Bool} {s : St} {evs : List Ev} (h : Exec r NoStaleTimer s evs)
    {w : Tid} {rest : List Tid} (hw : arrivals evs = grants evs ++ w :: rest) :
    ∃ s' es, Exec r NoStaleTimer s' (evs ++ es) ∧ grants (evs ++ es) = grants evs ++ [w] ∧
      arrivals (evs ++ es) = arrivals evs := by
  rcases no_lost_wakeup_partial h hw with ⟨o, ho⟩ | ⟨s', hs'⟩
  · obtain ⟨n, hn⟩ : ∃ n : Nat, holds evs o = (n : Int) + 1 := ⟨(holds evs o - 1).toNat, by omega⟩
    clear ho
    induction n generalizing s evs with
    | zero =>
      obtain ⟨s1, h1, hres, -⟩ := last_unlock_hands_over_partial (t := o) h (by omega)
      obtain ⟨s2, h2⟩ := hres w rest hw
      refine ⟨s2, [.rel o] ++ [.acqWaited w], ?_, ?_, ?_⟩
      · rw [← List.append_assoc]
        exact .step (op := .resume w) (.step (op := .unlock o) h (by simp [Contract]; omega) trivial h1)
          trivial trivial h2
      · rw [grants_append]; simp [grants]
      · rw [arrivals_append]; simp [arrivals]
    | succ n ih =>
      obtain ⟨s1, h1, h2, -, -⟩ := inner_unlock_keeps_partial (t := o) h (by omega)
      have h3 : Exec r NoStaleTimer s1 (evs ++ [.rel o]) :=
        .step (op := .unlock o) h (by simp [Contract]; omega) trivial h1
      have hg : grants (evs ++ [.rel o]) = grants evs := by rw [grants_append]; simp [grants]
      have ha : arrivals (evs ++ [.rel o]) = arrivals evs := by rw [arrivals_append]; simp [arrivals]
      obtain ⟨s', es, e1, e2, e3⟩ := ih h3 (by rw [ha, hg, hw]) (by rw [h2, hn]; omega)
      refine ⟨s', [.rel o] ++ es, by rw [← List.append_assoc]; exact e1, ?_, ?_⟩
      · rw [← List.append_assoc, e2, hg]
      · rw [← List.append_assoc, e3, ha]
  · refine ⟨s', [.acqWaited w], .step (op := .resume w) h trivial trivial hs', ?_, ?_⟩
    · rw [grants_append]; simp [grants]
    · rw [arrivals_append]; simp [arrivals]

/-! ## Non-vacuity -/

/-- Run a schedule. -/
def run (s : St) : List Op → Option (St × List Ev)
  | [] => some (s, [])
  | op :: ops => match step s op with
    | none => none
    | some (s', es) => match run s' ops with
      | none => none
      | some (s'', es') => some (s'', es ++ es')

/-- Three tasks contend for a recursive mutex; 1 holds it twice, 2 and 3 queue up, 1 releases twice, 2 gets
it, releases, 3 gets it. -/
example : (run (init true) [.lock 1, .lock 1, .lock 2, .lock 3, .trylock 4, .unlock 1, .unlock 1,
    .resume 2, .unlock 2, .resume 3]).map (·.2) =
    some [.acqNow 1, .acqNow 1, .block 2, .block 3, .tryFail 4, .rel 1, .rel 1, .acqWaited 2, .rel 2,
      .acqWaited 3] := by decide

/-- The hypotheses of the theorems above hold in a state with a waiter. -/
example : ∃ s, Exec false NoStaleTimer s [.acqNow 1, .block 2, .block 3] ∧
    arrivals [Ev.acqNow 1, .block 2, .block 3] = grants [Ev.acqNow 1, .block 2, .block 3] ++ 2 :: [3] ∧
    holds [Ev.acqNow 1, .block 2, .block 3] 1 = 1 := by
  refine ⟨_, .step (op := .lock 3) (es := [.block 3]) (evs := [.acqNow 1, .block 2])
    (.step (op := .lock 2) (es := [.block 2]) (evs := [.acqNow 1])
      (.step (op := .lock 1) (es := [.acqNow 1]) .init ?_ trivial rfl) ?_ trivial rfl)
    ?_ trivial rfl, ?_, ?_⟩ <;> first | decide | (intro _; decide)

end Verif.Kmutex
