import Verif.Kmutex

/-!
# Kernel semaphore (`kernel/ksem.c`)

As for the mutex, every body runs with preemption disabled, so a schedule is a list of atomic steps;
`ksem_wait` may sleep in the middle (ksem.c:46-60) and continues in a `resume` step.
-/

namespace Verif.Ksem

open Verif.Kmutex (Tid upd upd_same upd_other some_pair)

/-- Why a task inside `ksem_do_wait` is (not) asleep: `sleeping`; `promised`: woken by `ksem_signal`, which
took it off the wait list (ksem.c:142-146); `fired`: woken by its timeout, still linked in the wait list
(ksem.c:65-73, timer.c:232-260). -/
inductive Phase | sleeping | promised | fired
deriving DecidableEq, Repr

/-- A task inside `ksem_do_wait`: its `units` (kept in `wobj.extra`, ksem.c:53) and whether the wait has a
timeout. -/
structure W where
  units : Int
  timed : Bool
  phase : Phase
deriving DecidableEq, Repr

/-- `struct ksem` (sync.h:148-153; `max = none` is KSEM_NO_MAX) and the tasks inside `ksem_do_wait`.
`prom` is a ghost: the tasks in phase `promised`, oldest first. -/
structure St where
  max : Option Int
  counter : Int
  waitq : List Tid
  ts : Tid → Option W
  prom : List Tid

/-- Time-out argument of `ksem_wait` (sync.h:155-157). -/
inductive Mode | noWait | forever | timed
deriving DecidableEq, Repr

/-- API-visible events. -/
inductive Ev
  /-- `ksem_wait` returned 0 -/
  | acquired (t : Tid) (u : Int)
  /-- `ksem_wait` returned -ETIME -/
  | timedOut (t : Tid) (u : Int)
  /-- `ksem_wait` returned -EINVAL -/
  | waitInval (t : Tid) (u : Int)
  /-- `ksem_signal` returned 0 -/
  | signalled (u : Int)
  /-- `ksem_signal` returned -EINVAL -/
  | sigInval (u : Int)
  /-- `ksem_signal` returned -EDQUOT -/
  | sigQuota (u : Int)
deriving DecidableEq, Repr

/-- Steps. `wait t u mode expired`: `expired` says whether the deadline is already over when ksem.c:49 is
evaluated for the first time; `resume t expired` likewise when a woken task runs again. -/
inductive Op
  | wait (t : Tid) (u : Int) (mode : Mode) (expired : Bool)
  | signal (u : Int)
  | resume (t : Tid) (expired : Bool)
  | fire (t : Tid)
deriving DecidableEq, Repr

/-- Addition on C `int`: the kernel is built with -fwrapv (other/cmake/compiler_flags.cmake:138). -/
def wrap32 (x : Int) : Int := (x + 2147483648) % 4294967296 - 2147483648

/-- kernel/ksem.c:11-17 `ksem_init`. -/
def init (v : Int) (max : Option Int) : St :=
  { max := max, counter := v, waitq := [], ts := fun _ => none, prom := [] }

/-- kernel/ksem.c:53-56: link into the wait list and sleep. -/
def goSleep (s : St) (t : Tid) (u : Int) (timed : Bool) : St :=
  { s with waitq := s.waitq ++ [t], ts := upd s.ts t (some ⟨u, timed, .sleeping⟩) }

/-- The tests at ksem.c:82-85 and :110-115: `s->max != KSEM_NO_MAX && units > s->max`. -/
def tooMany : Option Int → Int → Bool
  | some m, u => decide (m < u)
  | none, _ => false

/-- The test at ksem.c:110,117: `s->max != KSEM_NO_MAX && s->counter > s->max - units`. -/
def overQuota : Option Int → Int → Int → Bool
  | some m, c, u => decide (m - u < c)
  | none, _, _ => false

/-- kernel/ksem.c:77-99 `ksem_wait` up to the first sleep. -/
def waitStep (s : St) (t : Tid) (u : Int) (mode : Mode) (expired : Bool) : St × List Ev :=
  if tooMany s.max u then (s, [.waitInval t u])
  else if u ≤ s.counter then ({ s with counter := s.counter - u }, [.acquired t u])
  else match mode with
    | .noWait => (s, [.timedOut t u])
    | .forever => (goSleep s t u false, [])
    | .timed => if expired then (s, [.timedOut t u]) else (goSleep s t u true, [])

/-- kernel/ksem.c:59-99: a task that slept in `ksem_do_wait` runs again.  `wait_obj_reset` (:74) unlinks it
if it is still linked. -/
def resumeStep (s : St) (t : Tid) (w : W) (expired : Bool) : St × List Ev :=
  let out : St := { s with waitq := s.waitq.erase t, ts := upd s.ts t none, prom := s.prom.erase t }
  if w.units ≤ s.counter then ({ out with counter := s.counter - w.units }, [.acquired t w.units])
  else if w.timed && expired then (out, [.timedOut t w.units])
  else (goSleep { s with prom := s.prom.erase t } t w.units w.timed, [])

/-- kernel/ksem.c:131-147: the walk over the wait list.  Returns the new task states, the wait list
left over and the tasks woken, in order. -/
def walk (ts : Tid → Option W) (rem : Int) : List Tid → (Tid → Option W) × List Tid × List Tid
  | [] => (ts, [], [])
  | t :: q =>
    if rem ≤ 0 then (ts, t :: q, [])
    else match ts t with
      | none => let r := walk ts rem q; (r.1, t :: r.2.1, r.2.2)   -- not reachable: every node is a waiter
      | some w =>
        if w.units ≤ rem then
          let r := walk (upd ts t (some { w with phase := .promised })) (rem - w.units) q
          (r.1, r.2.1, t :: r.2.2)
        else
          let r := walk ts rem q
          (r.1, t :: r.2.1, r.2.2)

/-- kernel/ksem.c:101-152 `ksem_signal`. -/
def signalStep (s : St) (u : Int) : St × List Ev :=
  if tooMany s.max u then (s, [.sigInval u])
  else if overQuota s.max s.counter u then
    (s, [.sigQuota u])
  else
    let c := wrap32 (s.counter + u)
    let r := walk s.ts c s.waitq
    ({ s with counter := c, ts := r.1, waitq := r.2.1, prom := s.prom ++ r.2.2 }, [.signalled u])

/-- One step; `none` when it cannot happen: a task inside `ksem_wait` makes no other call, `units > 0`
(ASSERTs at ksem.c:80,106), only a task woken resumes, only a sleeping timed waiter times out, a
time-out wake-up implies that the deadline is over (ksem.c:36,39,49). -/
def step (s : St) : Op → Option (St × List Ev)
  | .wait t u m e => if 0 < u ∧ s.ts t = none then some (waitStep s t u m e) else none
  | .signal u => if 0 < u then some (signalStep s u) else none
  | .resume t e => match s.ts t with
    | some w => if w.phase = .promised ∨ (w.phase = .fired ∧ e = true) then
        some (resumeStep s t w e) else none
    | none => none
  | .fire t => match s.ts t with
    | some w => if w.timed ∧ w.phase = .sleeping then
        some ({ s with ts := upd s.ts t (some { w with phase := .fired }) }, []) else none
    | none => none

/-! ## Specification -/

/-- Units put in by successful signals. -/
def totalSignalled : List Ev → Int
  | [] => 0
  | .signalled u :: r => u + totalSignalled r
  | _ :: r => totalSignalled r

/-- Units taken by successful waits. -/
def totalAcquired : List Ev → Int
  | [] => 0
  | .acquired _ u :: r => u + totalAcquired r
  | _ :: r => totalAcquired r

/-- The value of a semaphore initialised to `v` after the events `evs`. -/
def value (v : Int) (evs : List Ev) : Int := v + totalSignalled evs - totalAcquired evs

/-- A legal initialisation: `0 ≤ v ≤ max ≤ INT_MAX`. -/
def InitOK (v : Int) : Option Int → Prop
  | some m => 0 ≤ v ∧ v ≤ m ∧ m < 2147483648
  | none => 0 ≤ v ∧ v < 2147483648

/-- All interleavings.  `ok` can restrict the steps taken (used below for semaphores without a maximum). -/
inductive Exec (v : Int) (max : Option Int) (ok : List Ev → Op → Prop) : St → List Ev → Prop
  | init : Exec v max ok (init v max) []
  | step {s evs op s' es} : Exec v max ok s evs → ok evs op → step s op = some (s', es) →
      Exec v max ok s' (evs ++ es)

/-- Without a maximum, the value stays representable in a C `int`. -/
def NoIntOverflow (v : Int) (max : Option Int) (evs : List Ev) : Op → Prop
  | .signal u => max = none → value v evs + u < 2147483648
  | _ => True

/-! ## Proofs -/

theorem totalSignalled_append (a b : List Ev) :
    totalSignalled (a ++ b) = totalSignalled a + totalSignalled b := by
  induction a with
  | nil => simp [totalSignalled]
  | cons e r ih => cases e <;> simp [totalSignalled, ih] ; omega

theorem totalAcquired_append (a b : List Ev) :
    totalAcquired (a ++ b) = totalAcquired a + totalAcquired b := by
  induction a with
  | nil => simp [totalAcquired]
  | cons e r ih => cases e <;> simp [totalAcquired, ih] ; omega

theorem value_append (v : Int) (a b : List Ev) :
    value v (a ++ b) = value v a + totalSignalled b - totalAcquired b := by
  simp [value, totalSignalled_append, totalAcquired_append]; omega

theorem wrap32_id {x : Int} (h0 : -2147483648 ≤ x) (h1 : x < 2147483648) : wrap32 x = x := by
  unfold wrap32; omega

/-- The value fits the maximum (or, without one, a C int). -/
def Fits (c : Int) : Option Int → Prop
  | some m => c ≤ m ∧ m < 2147483648
  | none => c < 2147483648

/-- Invariant for C14. -/
structure Inv (v : Int) (max : Option Int) (s : St) (evs : List Ev) : Prop where
  hmax : s.max = max
  val : s.counter = value v evs
  lo : 0 ≤ s.counter
  hi : Fits s.counter max

theorem inv_init {v max} (h : InitOK v max) : Inv v max (init v max) [] := by
  cases max with
  | none => exact ⟨rfl, by simp [init, value, totalSignalled, totalAcquired], h.1, h.2⟩
  | some m => exact ⟨rfl, by simp [init, value, totalSignalled, totalAcquired], h.1, h.2.1, h.2.2⟩

theorem inv_same {v max s evs s' es} (h : Inv v max s evs) (h1 : s'.max = s.max)
    (h2 : s'.counter = s.counter) (h3 : totalSignalled es = 0) (h4 : totalAcquired es = 0) :
    Inv v max s' (evs ++ es) := by
  refine ⟨h1.trans h.hmax, ?_, by rw [h2]; exact h.lo, by rw [h2]; exact h.hi⟩
  rw [value_append, h3, h4, h2, h.val]; omega

theorem inv_take {v max s evs s' es u} (h : Inv v max s evs) (h1 : s'.max = s.max)
    (hu : 0 < u) (hle : u ≤ s.counter)
    (h2 : s'.counter = s.counter - u) (h3 : totalSignalled es = 0) (h4 : totalAcquired es = u) :
    Inv v max s' (evs ++ es) := by
  refine ⟨h1.trans h.hmax, ?_, by rw [h2]; omega, ?_⟩
  · rw [value_append, h3, h4, h2, h.val]; omega
  · have := h.hi
    cases max with
    | none => simp only [Fits] at this ⊢; omega
    | some m => simp only [Fits] at this ⊢; omega

/-- All recorded unit counts are positive. -/
def PosUnits (s : St) : Prop := ∀ t w, s.ts t = some w → 0 < w.units

theorem walk_units (ts : Tid → Option W) (rem : Int) (q : List Tid)
    (h : ∀ t w, ts t = some w → 0 < w.units) :
    ∀ t w, (walk ts rem q).1 t = some w → 0 < w.units := by
  induction q generalizing ts rem with
  | nil => simpa [walk] using h
  | cons a q ih =>
    unfold walk
    split
    · exact h
    · split
      · exact ih ts rem h
      · rename_i w hw
        split
        · apply ih
          intro t w' ht
          by_cases e : t = a
          · subst e; rw [upd_same] at ht; cases ht; exact h t w hw
          · rw [upd_other _ _ e] at ht; exact h t w' ht
        · exact ih ts rem h

theorem pos_goSleep {s t u b} (h : PosUnits s) (hu : 0 < u) : PosUnits (goSleep s t u b) := by
  intro t' w ht
  simp only [goSleep] at ht
  by_cases e : t' = t
  · subst e; rw [upd_same] at ht; cases ht; exact hu
  · rw [upd_other _ _ e] at ht; exact h t' w ht

theorem pos_step {s op s' es} (h : PosUnits s) (hs : step s op = some (s', es)) : PosUnits s' := by
  cases op with
  | wait t u m e =>
    simp only [step] at hs; split at hs
    · rename_i hc
      obtain ⟨rfl, rfl⟩ := some_pair hs
      simp only [waitStep]
      split
      · exact h
      · split
        · exact h
        · cases m
          · exact h
          · exact pos_goSleep h hc.1
          · dsimp only; split
            · exact h
            · exact pos_goSleep h hc.1
    · cases hs
  | signal u =>
    simp only [step] at hs; split at hs
    · obtain ⟨rfl, rfl⟩ := some_pair hs
      simp only [signalStep]
      split
      · exact h
      · split
        · exact h
        · exact walk_units _ _ _ h
    · cases hs
  | resume t e =>
    simp only [step] at hs; split at hs
    · rename_i w hw
      split at hs
      · obtain ⟨rfl, rfl⟩ := some_pair hs
        have hdel : ∀ t' w', upd s.ts t none t' = some w' → 0 < w'.units := by
          intro t' w' ht
          by_cases e : t' = t
          · subst e; rw [upd_same] at ht; cases ht
          · rw [upd_other _ _ e] at ht; exact h t' w' ht
        simp only [resumeStep]
        split
        · exact hdel
        · split
          · exact hdel
          · exact pos_goSleep (s := { s with prom := s.prom.erase t }) h (h t w hw)
      · cases hs
    · cases hs
  | fire t =>
    simp only [step] at hs; split at hs
    · rename_i w hw
      split at hs
      · cases hs
        intro t' w' ht
        simp only at ht
        by_cases e : t' = t
        · subst e; rw [upd_same] at ht; cases ht; exact h _ w hw
        · rw [upd_other _ _ e] at ht; exact h t' w' ht
      · cases hs
    · cases hs

theorem inv_step {v max s evs op s' es} (h : Inv v max s evs) (hp : PosUnits s)
    (hok : NoIntOverflow v max evs op) (hs : step s op = some (s', es)) : Inv v max s' (evs ++ es) := by
  cases op with
  | wait t u m e =>
    simp only [step] at hs; split at hs
    · rename_i hc
      obtain ⟨rfl, rfl⟩ := some_pair hs
      simp only [waitStep]
      split
      · exact inv_same h rfl rfl rfl rfl
      · split
        · exact inv_take h rfl hc.1 (by assumption) rfl rfl (by simp [totalAcquired])
        · cases m
          · exact inv_same h rfl rfl rfl rfl
          · exact inv_same h rfl rfl rfl rfl
          · dsimp only; split <;> exact inv_same h rfl rfl rfl rfl
    · cases hs
  | signal u =>
    simp only [step] at hs; split at hs
    · rename_i hu
      obtain ⟨rfl, rfl⟩ := some_pair hs
      simp only [signalStep]
      split
      · exact inv_same h rfl rfl rfl rfl
      · split
        · exact inv_same h rfl rfl rfl rfl
        · rename_i h1 h2
          have hlo := h.lo
          have hhi := h.hi
          have hsum : s.counter + u < 2147483648 ∧ Fits (s.counter + u) max := by
            cases max with
            | none => have := hok rfl; rw [h.val]; exact ⟨this, this⟩
            | some m =>
              simp only [h.hmax, tooMany, overQuota, decide_eq_true_eq] at h1 h2
              simp only [Fits] at hhi ⊢
              omega
          have hw : wrap32 (s.counter + u) = s.counter + u := wrap32_id (by omega) hsum.1
          refine ⟨h.hmax, ?_, ?_, ?_⟩
          · show wrap32 _ = _
            rw [hw, value_append, h.val]; simp [totalSignalled, totalAcquired]
          · show 0 ≤ wrap32 _
            rw [hw]; omega
          · show Fits (wrap32 _) max
            rw [hw]; exact hsum.2
    · cases hs
  | resume t e =>
    simp only [step] at hs; split at hs
    · rename_i w hw
      split at hs
      · obtain ⟨rfl, rfl⟩ := some_pair hs
        simp only [resumeStep]
        split
        · exact inv_take h rfl (hp t w hw) (by assumption) rfl rfl (by simp [totalAcquired])
        · split <;> exact inv_same h rfl rfl rfl rfl
      · cases hs
    · cases hs
  | fire t =>
    simp only [step] at hs; split at hs
    · split at hs
      · cases hs; exact inv_same h rfl rfl rfl rfl
      · cases hs
    · cases hs

theorem exec_pos {v max ok s evs} (h : Exec v max ok s evs) : PosUnits s := by
  induction h with
  | init => intro t w h; simp [init] at h
  | step _ _ hs ih => exact pos_step ih hs

theorem exec_inv {v max s evs} (hi : InitOK v max) (h : Exec v max (NoIntOverflow v max) s evs) :
    Inv v max s evs := by
  induction h with
  | init => exact inv_init hi
  | step he hok hs ih => exact inv_step ih (exec_pos he) hok hs

/-! ## Theorems: C14 -/

/-- C14, conservation, for semaphores with a maximum: in every execution the value (initial + signalled −
acquired, computed from the return values alone) stays between 0 and the maximum, and it is the
counter stored in the semaphore. -/
theorem units_conserved {v m : Int} (hi : 0 ≤ v ∧ v ≤ m ∧ m < 2147483648) {s : St} {evs : List Ev}
    (h : Exec v (some m) (fun _ _ => True) s evs) :
    0 ≤ value v evs ∧ value v evs ≤ m ∧ s.counter = value v evs := by
  have h' : Exec v (some m) (NoIntOverflow v (some m)) s evs := by
    induction h with
    | init => exact .init
    | step _ _ hs ih => exact .step ih (by cases ‹Op› <;> simp [NoIntOverflow]) hs
  have := exec_inv (max := some m) hi h'
  have h1 := this.hi
  have h2 := this.lo
  rw [← this.val]
  exact ⟨h2, h1.1, rfl⟩

/-- C14 for semaphores without a maximum: the same, as long as the value stays representable. -/
theorem units_conserved_nomax_partial {v : Int} (hi : 0 ≤ v ∧ v < 2147483648) {s : St} {evs : List Ev}
    (h : Exec v none (NoIntOverflow v none) s evs) :
    0 ≤ value v evs ∧ value v evs < 2147483648 ∧ s.counter = value v evs := by
  have := exec_inv (max := none) hi h
  have h1 := this.hi
  have h2 := this.lo
  rw [← this.val]
  exact ⟨h2, h1, rfl⟩

/-- A semaphore without maximum loses all its units when signalled past INT_MAX: the signal returns 0 and
the next non-blocking wait for one unit fails (ksem.c:128 has no check when `max == KSEM_NO_MAX`). -/
theorem units_conserved_nomax_violated :
    ∃ s s' evs, Exec 2147483647 none (fun _ _ => True) s evs ∧ value 2147483647 evs = 2147483648 ∧
      step s (.wait 1 1 .noWait false) = some (s', [.timedOut 1 1]) := by
  refine ⟨_, _, _, .step (op := .signal 1) .init trivial rfl, ?_, rfl⟩
  decide

/-- C14, decision logic: `ksem_signal` is refused exactly when it should be, and a refused call changes
nothing; a wait that may not sleep succeeds exactly when the units are there. -/
theorem signal_and_trywait_decisions {v m : Int} (hi : 0 ≤ v ∧ v ≤ m ∧ m < 2147483648) {s : St}
    {evs : List Ev} (h : Exec v (some m) (fun _ _ => True) s evs) {u : Int} (hu : 0 < u) :
    (m < u → step s (.signal u) = some (s, [.sigInval u])) ∧
    (u ≤ m → m < value v evs + u → step s (.signal u) = some (s, [.sigQuota u])) ∧
    (value v evs + u ≤ m → ∃ s', step s (.signal u) = some (s', [.signalled u])) ∧
    (∀ t e, s.ts t = none →
      (m < u → step s (.wait t u .noWait e) = some (s, [.waitInval t u])) ∧
      (u ≤ m → value v evs < u → step s (.wait t u .noWait e) = some (s, [.timedOut t u])) ∧
      (u ≤ value v evs → ∃ s', step s (.wait t u .noWait e) = some (s', [.acquired t u]))) := by
  obtain ⟨h0, h1, h2⟩ := units_conserved hi h
  have hm : s.max = some m := by
    clear h0 h1 h2
    induction h with
    | init => rfl
    | step _ _ hs ih =>
      rename_i s op s' es _ _
      cases op with
      | wait t u md e =>
        simp only [step] at hs; split at hs
        · obtain ⟨rfl, rfl⟩ := some_pair hs
          simp only [waitStep]; (repeat' split) <;> exact ih
        · cases hs
      | signal u =>
        simp only [step] at hs; split at hs
        · obtain ⟨rfl, rfl⟩ := some_pair hs
          simp only [signalStep]; (repeat' split) <;> exact ih
        · cases hs
      | resume t e =>
        simp only [step] at hs; split at hs
        · split at hs
          · obtain ⟨rfl, rfl⟩ := some_pair hs
            simp only [resumeStep]; (repeat' split) <;> exact ih
          · cases hs
        · cases hs
      | fire t =>
        simp only [step] at hs; split at hs
        · split at hs
          · cases hs; exact ih
          · cases hs
        · cases hs
  refine ⟨?_, ?_, ?_, ?_⟩
  · intro h; simp [step, hu, signalStep, hm, tooMany, h]
  · intro ha hb
    have : ¬ m < u := by omega
    have : m - u < value v evs := by omega
    simp [step, hu, signalStep, hm, tooMany, overQuota, *]
  · intro ha
    have e1 : ¬ m < u := by omega
    have e2 : ¬ m - u < s.counter := by omega
    refine ⟨(signalStep s u).1, ?_⟩
    simp [step, hu, signalStep, hm, tooMany, overQuota, e1, e2]
  · intro t e ht
    refine ⟨?_, ?_, ?_⟩
    · intro h; simp [step, hu, ht, waitStep, hm, tooMany, h]
    · intro ha hb
      have e1 : ¬ m < u := by omega
      have e2 : ¬ u ≤ s.counter := by omega
      simp [step, hu, ht, waitStep, hm, tooMany, e1, e2]
    · intro ha
      have e1 : ¬ m < u := by omega
      have e2 : u ≤ s.counter := by omega
      refine ⟨(waitStep s t u .noWait e).1, ?_⟩
      simp [step, hu, ht, waitStep, hm, tooMany, e1, e2]

/-! ## C15 -/

/-- Sum of the units the tasks of a list asked for. -/
def unitsOf (ts : Tid → Option W) : List Tid → Int
  | [] => 0
  | t :: r => (match ts t with | some w => w.units | none => 0) + unitsOf ts r

/-- The wait list holds exactly the tasks that sleep or timed out but have not run yet. -/
structure QInv (s : St) : Prop where
  nodup : s.waitq.Nodup
  memq : ∀ t, t ∈ s.waitq ↔ ∃ w, s.ts t = some w ∧ w.phase ≠ .promised
  promNodup : s.prom.Nodup
  memp : ∀ t, t ∈ s.prom ↔ ∃ w, s.ts t = some w ∧ w.phase = .promised
  ft : ∀ t w, s.ts t = some w → w.phase = .fired → w.timed = true

theorem unitsOf_congr {ts ts' : Tid → Option W} {l : List Tid} (h : ∀ t ∈ l, ts' t = ts t) :
    unitsOf ts' l = unitsOf ts l := by
  induction l with
  | nil => rfl
  | cons a l ih =>
    simp only [unitsOf]
    rw [h a (by simp), ih (fun t ht => h t (List.mem_cons_of_mem _ ht))]

theorem unitsOf_nonneg {ts : Tid → Option W} (hpos : ∀ t w, ts t = some w → 0 < w.units)
    (l : List Tid) : 0 ≤ unitsOf ts l := by
  induction l with
  | nil => simp [unitsOf]
  | cons b l ih =>
    simp only [unitsOf]
    rcases hb : ts b with _ | wb
    · simp; exact ih
    · have := hpos b wb hb; simp; omega

theorem unitsOf_append (ts : Tid → Option W) (a b : List Tid) :
    unitsOf ts (a ++ b) = unitsOf ts a + unitsOf ts b := by
  induction a with
  | nil => simp [unitsOf]
  | cons x a ih => simp [unitsOf, ih]; omega

/-- What the walk does. -/
theorem walk_spec (ts : Tid → Option W) (rem : Int) (q : List Tid) (hnd : q.Nodup)
    (hq : ∀ t ∈ q, ∃ w, ts t = some w) (hpos : ∀ t w, ts t = some w → 0 < w.units) :
    let r := walk ts rem q
    (∀ t, t ∉ r.2.2 → r.1 t = ts t) ∧
    (∀ t ∈ r.2.2, ∃ w, ts t = some w ∧ r.1 t = some { w with phase := .promised }) ∧
    (∀ t, t ∈ q ↔ t ∈ r.2.1 ∨ t ∈ r.2.2) ∧ (∀ t ∈ r.2.1, t ∉ r.2.2) ∧
    r.2.1.Nodup ∧ r.2.2.Nodup ∧
    (∀ t ∈ r.2.1, ∀ w, ts t = some w → rem - unitsOf ts r.2.2 < w.units) ∧
    (0 ≤ rem → unitsOf ts r.2.2 ≤ rem) := by
  induction q generalizing ts rem with
  | nil => simp [walk, unitsOf]
  | cons a q ih =>
    obtain ⟨hna, hnd'⟩ := List.nodup_cons.1 hnd
    unfold walk
    by_cases hrem : rem ≤ 0
    · rw [if_pos hrem]
      refine ⟨fun _ _ => rfl, by simp, by simp, by simp, hnd, by simp, ?_, by simp [unitsOf]⟩
      intro t _ w hw
      have := hpos t w hw
      simp [unitsOf]; omega
    · rw [if_neg hrem]
      obtain ⟨w, hw⟩ := hq a (by simp)
      simp only [hw]
      by_cases hle : w.units ≤ rem
      · rw [if_pos hle]
        have hpos' : ∀ t w', upd ts a (some { w with phase := Phase.promised }) t = some w' →
            0 < w'.units := by
          intro t w' ht
          by_cases e : t = a
          · subst e; rw [upd_same] at ht; cases ht; exact hpos t w hw
          · rw [upd_other _ _ e] at ht; exact hpos t w' ht
        obtain ⟨i1, i2, i3, i4, i5, i6, i7, i8⟩ :=
          ih (upd ts a (some { w with phase := .promised })) (rem - w.units) hnd'
            (by
              intro t ht
              by_cases e : t = a
              · subst e; exact ⟨_, upd_same _ _ _⟩
              · rw [upd_other _ _ e]; exact hq t (List.mem_cons_of_mem _ ht)) hpos'
        generalize walk (upd ts a (some { w with phase := Phase.promised })) (rem - w.units) q = r at *
        have har : a ∉ r.2.2 := fun hm => hna ((i3 a).2 (.inr hm))
        have har1 : a ∉ r.2.1 := fun hm => hna ((i3 a).2 (.inl hm))
        have hu : unitsOf (upd ts a (some { w with phase := Phase.promised })) r.2.2 = unitsOf ts r.2.2 := by
          apply unitsOf_congr
          intro t ht
          exact upd_other _ _ (fun e => har (e ▸ ht))
        rw [hu] at i7 i8
        refine ⟨?_, ?_, ?_, ?_, i5, ?_, ?_, ?_⟩
        · intro t ht
          simp only [List.mem_cons, not_or] at ht
          rw [i1 t ht.2, upd_other _ _ ht.1]
        · intro t ht
          simp only [List.mem_cons] at ht
          rcases ht with rfl | ht
          · refine ⟨w, hw, ?_⟩
            rw [i1 t har, upd_same]
          · obtain ⟨w', h1, h2⟩ := i2 t ht
            have e : t ≠ a := fun e => har (e ▸ ht)
            rw [upd_other _ _ e] at h1
            exact ⟨w', h1, h2⟩
        · intro t
          simp only [List.mem_cons, i3 t]
          constructor
          · rintro (h | h | h) <;> simp [h]
          · rintro (h | h | h) <;> simp [h]
        · intro t ht
          simp only [List.mem_cons, not_or]
          exact ⟨fun e => har1 (e ▸ ht), i4 t ht⟩
        · exact List.nodup_cons.2 ⟨har, i6⟩
        · intro t ht w' hw'
          have e : t ≠ a := fun e => har1 (e ▸ ht)
          have := i7 t ht w' (by rw [upd_other _ _ e]; exact hw')
          simp only [unitsOf, hw]; omega
        · intro _
          have := i8 (by omega)
          simp only [unitsOf, hw]; omega
      · rw [if_neg hle]
        obtain ⟨i1, i2, i3, i4, i5, i6, i7, i8⟩ :=
          ih ts rem hnd' (fun t ht => hq t (List.mem_cons_of_mem _ ht)) hpos
        generalize walk ts rem q = r at *
        have har : a ∉ r.2.2 := fun hm => hna ((i3 a).2 (.inr hm))
        have har1 : a ∉ r.2.1 := fun hm => hna ((i3 a).2 (.inl hm))
        refine ⟨i1, i2, ?_, ?_, ?_, i6, ?_, i8⟩
        · intro t
          simp only [List.mem_cons, i3 t]
          constructor
          · rintro (h | h | h) <;> simp [h]
          · rintro ((h | h) | h) <;> simp [h]
        · intro t ht
          simp only [List.mem_cons] at ht
          rcases ht with rfl | ht
          · exact har
          · exact i4 t ht
        · exact List.nodup_cons.2 ⟨har1, i5⟩
        · intro t ht w' hw'
          simp only [List.mem_cons] at ht
          rcases ht with rfl | ht
          · rw [hw] at hw'; cases hw'
            have := unitsOf_nonneg hpos r.2.2
            show rem - unitsOf ts r.2.2 < _
            omega
          · exact i7 t ht w' hw'

theorem erase_mem_iff {l : List Tid} (h : l.Nodup) (a b : Tid) : a ∈ l.erase b ↔ a ≠ b ∧ a ∈ l := by
  rw [h.mem_erase_iff]

theorem qinv_init (v max) : QInv (init v max) := by
  constructor <;> simp [init]

theorem qinv_goSleep {s t u b} (h : QInv s) (ht : s.ts t = none) : QInv (goSleep s t u b) := by
  have h1 : t ∉ s.waitq := by
    intro hm; obtain ⟨w, hw, -⟩ := (h.memq t).1 hm; rw [ht] at hw; cases hw
  have h2 : t ∉ s.prom := by
    intro hm; obtain ⟨w, hw, -⟩ := (h.memp t).1 hm; rw [ht] at hw; cases hw
  constructor
  · show (s.waitq ++ [t]).Nodup
    rw [List.nodup_append]
    refine ⟨h.nodup, by simp, ?_⟩
    intro a ha c hc; simp at hc; subst hc
    exact fun e => h1 (e ▸ ha)
  · intro t'
    show t' ∈ s.waitq ++ [t] ↔ ∃ w, upd s.ts t _ t' = some w ∧ _
    by_cases e : t' = t
    · subst e; rw [upd_same]; simp
    · rw [upd_other _ _ e, List.mem_append, h.memq t']; simp [e]
  · exact h.promNodup
  · intro t'
    show t' ∈ s.prom ↔ ∃ w, upd s.ts t _ t' = some w ∧ _
    by_cases e : t' = t
    · subst e; rw [upd_same]; simp [h2]
    · rw [upd_other _ _ e, h.memp t']
  · intro t' w hw hph
    have hw : upd s.ts t _ t' = some w := hw
    by_cases e : t' = t
    · subst e; rw [upd_same] at hw; cases hw; cases hph
    · rw [upd_other _ _ e] at hw; exact h.ft t' w hw hph

/-- Taking a task out of the semaphore. -/
theorem qinv_out {s : St} {t : Tid} (h : QInv s) (c : Int) : QInv
    { s with waitq := s.waitq.erase t, ts := upd s.ts t none, prom := s.prom.erase t, counter := c } := by
  constructor
  · exact h.nodup.erase t
  · intro t'
    show t' ∈ s.waitq.erase t ↔ ∃ w, upd s.ts t none t' = some w ∧ _
    rw [erase_mem_iff h.nodup]
    by_cases e : t' = t
    · subst e; rw [upd_same]; simp
    · rw [upd_other _ _ e, h.memq t']; simp [e]
  · exact h.promNodup.erase t
  · intro t'
    show t' ∈ s.prom.erase t ↔ ∃ w, upd s.ts t none t' = some w ∧ _
    rw [erase_mem_iff h.promNodup]
    by_cases e : t' = t
    · subst e; rw [upd_same]; simp
    · rw [upd_other _ _ e, h.memp t']; simp [e]
  · intro t' w hw hph
    have hw : upd s.ts t _ t' = some w := hw
    by_cases e : t' = t
    · subst e; rw [upd_same] at hw; cases hw
    · rw [upd_other _ _ e] at hw; exact h.ft t' w hw hph

theorem upd_upd {α} (f : Tid → α) (t a b) : upd (upd f t a) t b = upd f t b := by
  funext u; simp [upd]; split <;> rfl

theorem qinv_signal {s u} (h : QInv s) (hp : PosUnits s) : QInv (signalStep s u).1 := by
  simp only [signalStep]
  split
  · exact h
  · split
    · exact h
    · obtain ⟨i1, i2, i3, i4, i5, i6, -, -⟩ := walk_spec s.ts (wrap32 (s.counter + u)) s.waitq h.nodup
        (fun t ht => by obtain ⟨w, hw, -⟩ := (h.memq t).1 ht; exact ⟨w, hw⟩) hp
      generalize walk s.ts (wrap32 (s.counter + u)) s.waitq = r at *
      have hdisj : ∀ t, t ∈ r.2.2 → t ∉ s.prom := by
        intro t ht hm
        obtain ⟨w, hw, hph⟩ := (h.memp t).1 hm
        obtain ⟨w', hw', hph'⟩ := (h.memq t).1 ((i3 t).2 (.inr ht))
        rw [hw] at hw'; cases hw'; exact hph' hph
      constructor
      · exact i5
      · intro t
        show t ∈ r.2.1 ↔ ∃ w, r.1 t = some w ∧ w.phase ≠ .promised
        by_cases hm : t ∈ r.2.2
        · obtain ⟨w, hw, hr⟩ := i2 t hm
          rw [hr]
          simp only [Option.some.injEq, exists_eq_left', ne_eq, not_true, iff_false]
          exact fun hh => i4 t hh hm
        · rw [i1 t hm, ← h.memq t, i3 t]; simp [hm]
      · show (s.prom ++ r.2.2).Nodup
        rw [List.nodup_append]
        refine ⟨h.promNodup, i6, ?_⟩
        intro a ha b hb e; subst e; exact hdisj a hb ha
      · intro t
        show t ∈ s.prom ++ r.2.2 ↔ ∃ w, r.1 t = some w ∧ w.phase = .promised
        by_cases hm : t ∈ r.2.2
        · obtain ⟨w, hw, hr⟩ := i2 t hm
          rw [hr]; simp [hm]
        · rw [i1 t hm, ← h.memp t]; simp [hm]
      · intro t w hw hph
        have hw : r.1 t = some w := hw
        by_cases hm : t ∈ r.2.2
        · obtain ⟨w', -, hr⟩ := i2 t hm
          rw [hr] at hw; cases hw; cases hph
        · rw [i1 t hm] at hw; exact h.ft t w hw hph

theorem qinv_step {s op s' es} (h : QInv s) (hp : PosUnits s) (hs : step s op = some (s', es)) :
    QInv s' := by
  cases op with
  | wait t u m e =>
    simp only [step] at hs; split at hs
    · rename_i hc
      obtain ⟨rfl, rfl⟩ := some_pair hs
      simp only [waitStep]
      split
      · exact h
      · split
        · exact ⟨h.nodup, h.memq, h.promNodup, h.memp, h.ft⟩
        · cases m
          · exact h
          · exact qinv_goSleep h hc.2
          · dsimp only; split
            · exact h
            · exact qinv_goSleep h hc.2
    · cases hs
  | signal u =>
    simp only [step] at hs; split at hs
    · obtain ⟨rfl, rfl⟩ := some_pair hs; exact qinv_signal h hp
    · cases hs
  | resume t e =>
    simp only [step] at hs; split at hs
    · rename_i w hw
      split at hs
      · rename_i hph
        obtain ⟨rfl, rfl⟩ := some_pair hs
        simp only [resumeStep]
        split
        · exact qinv_out h _
        · split
          · exact qinv_out h s.counter
          · by_cases hpr : w.phase = .promised
            · have hnq : t ∉ s.waitq := by
                intro hm; obtain ⟨w', hw', hp'⟩ := (h.memq t).1 hm
                rw [hw] at hw'; cases hw'; exact hp' hpr
              have h1 := qinv_goSleep (t := t) (u := w.units) (b := w.timed)
                (qinv_out (t := t) h s.counter) (upd_same _ _ _)
              simp only [goSleep, upd_upd, List.erase_of_not_mem hnq] at h1 ⊢
              exact h1
            · -- a task woken by its time-out does not go back to sleep
              rename_i hte
              exfalso
              rcases hph with hph | ⟨hph, rfl⟩
              · exact hpr hph
              · simp [h.ft t w hw hph] at hte
      · cases hs
    · cases hs
  | fire t =>
    simp only [step] at hs; split at hs
    · rename_i w hw
      split at hs
      · rename_i hph
        cases hs
        constructor
        · exact h.nodup
        · intro t'
          show t' ∈ s.waitq ↔ ∃ w', upd s.ts t _ t' = some w' ∧ _
          by_cases e : t' = t
          · subst e; rw [upd_same, h.memq t', hw]; simp [hph.2]
          · rw [upd_other _ _ e, h.memq t']
        · exact h.promNodup
        · intro t'
          show t' ∈ s.prom ↔ ∃ w', upd s.ts t _ t' = some w' ∧ _
          by_cases e : t' = t
          · subst e; rw [upd_same, h.memp t', hw]; simp [hph.2]
          · rw [upd_other _ _ e, h.memp t']
        · intro t' w' hw' hph'
          have hw' : upd s.ts t _ t' = some w' := hw'
          by_cases e : t' = t
          · subst e; rw [upd_same] at hw'; cases hw'; exact hph.1
          · rw [upd_other _ _ e] at hw'; exact h.ft t' w' hw' hph'
      · cases hs
    · cases hs

theorem exec_qinv {v max ok s evs} (h : Exec v max ok s evs) : QInv s := by
  induction h with
  | init => exact qinv_init _ _
  | step he _ hs ih => exact qinv_step ih (exec_pos he) hs

theorem unitsOf_promised {ts ts' : Tid → Option W} (l : List Tid)
    (h : ∀ t ∈ l, ∃ w, ts t = some w ∧ ts' t = some { w with phase := .promised }) :
    unitsOf ts' l = unitsOf ts l := by
  induction l with
  | nil => rfl
  | cons a l ih =>
    obtain ⟨w, h1, h2⟩ := h a (by simp)
    simp only [unitsOf, h1, h2]
    rw [ih (fun t ht => h t (List.mem_cons_of_mem _ ht))]

/-- C15: when `ksem_signal` returns 0, in any state any execution can reach, no task is left asleep whose
units are available once the units of the woken tasks that have not run yet (`s'.prom`) are set aside. -/
theorem signal_leaves_no_satisfiable_sleeper {v : Int} {max : Option Int} {ok} {s s' : St}
    {evs : List Ev} {u : Int} (h : Exec v max ok s evs)
    (hs : step s (.signal u) = some (s', [.signalled u])) :
    (∀ t, t ∈ s'.prom ↔ ∃ w, s'.ts t = some w ∧ w.phase = .promised) ∧ s'.prom.Nodup ∧
    ∀ t w, s'.ts t = some w → w.phase = .sleeping → s'.counter - unitsOf s'.ts s'.prom < w.units := by
  have hq := exec_qinv h
  have hp := exec_pos h
  have hq' := qinv_step hq hp hs
  have hp' := pos_step hp hs
  refine ⟨hq'.memp, hq'.promNodup, ?_⟩
  intro t w hw hph
  have htq := (hq'.memq t).2 ⟨w, hw, by simp [hph]⟩
  simp only [step] at hs; split at hs
  · obtain ⟨e1, e2⟩ := some_pair hs
    simp only [signalStep] at e1 e2
    split at e1
    · rename_i hc; rw [if_pos hc] at e2; cases e2
    · rename_i hc1
      split at e1
      · rename_i hc; rw [if_neg hc1, if_pos hc] at e2; cases e2
      · obtain ⟨i1, i2, i3, i4, i5, i6, i7, -⟩ := walk_spec s.ts (wrap32 (s.counter + u)) s.waitq
          hq.nodup (fun t ht => by obtain ⟨w, hw, -⟩ := (hq.memq t).1 ht; exact ⟨w, hw⟩) hp
        subst e1
        simp only at hw htq hp' ⊢
        generalize walk s.ts (wrap32 (s.counter + u)) s.waitq = r at *
        have hnw := i4 t htq
        rw [i1 t hnw] at hw
        have h7 := i7 t htq w hw
        rw [unitsOf_append]
        have h8 := unitsOf_nonneg hp' s.prom
        have h9 : unitsOf r.1 r.2.2 = unitsOf s.ts r.2.2 := unitsOf_promised r.2.2 i2
        simp only at h8
        omega
  · cases hs

/-- As an invariant of whole executions C15 fails when waiters ask for different numbers of units: the
units promised to a woken waiter can be taken by a newcomer, the woken waiter goes back to sleep, and
another waiter whose request is satisfiable is not woken.  Here task 2 sleeps for 1 unit, one unit is
available and no woken task is on its way. -/
theorem satisfiable_sleeper_violated :
    ∃ s evs, Exec 0 (some 10) (fun _ _ => True) s evs ∧ s.prom = [] ∧ s.counter = 1 ∧
      s.ts 2 = some ⟨1, false, .sleeping⟩ := by
  refine ⟨_, _, .step (op := .resume 1 false) (.step (op := .wait 3 1 .noWait false)
    (.step (op := .signal 2) (.step (op := .wait 2 1 .forever false)
      (.step (op := .wait 1 2 .forever false) .init trivial rfl) trivial rfl) trivial rfl)
      trivial rfl) trivial rfl, ?_, ?_, ?_⟩ <;> decide

/-- Every wait asks for `k` units. -/
def Uniform (k : Int) (_ : List Ev) : Op → Prop
  | .wait _ u _ _ => u = k
  | _ => True

/-- Invariant for the uniform case. -/
structure UInv (k : Int) (s : St) : Prop where
  units : ∀ t w, s.ts t = some w → w.units = k
  nosat : (∃ t w, s.ts t = some w ∧ w.phase = .sleeping) → s.counter - k * s.prom.length < k

theorem unitsOf_uniform {k : Int} {ts : Tid → Option W} {l : List Tid}
    (h : ∀ t ∈ l, ∃ w, ts t = some w ∧ w.units = k) : unitsOf ts l = k * l.length := by
  induction l with
  | nil => simp [unitsOf]
  | cons a l ih =>
    obtain ⟨w, h1, h2⟩ := h a (by simp)
    simp only [unitsOf, h1, h2, ih (fun t ht => h t (List.mem_cons_of_mem _ ht)), List.length_cons]
    push_cast
    rw [Int.mul_add]; omega

theorem uinv_step {k : Int} (hk : 0 < k) {s op s' es} (hu : UInv k s) (hq : QInv s) (hp : PosUnits s)
    (hok : Uniform k [] op) (hs : step s op = some (s', es)) : UInv k s' := by
  have hmul : ∀ n : Nat, 0 ≤ k * n := fun n => Int.mul_nonneg (by omega) (by omega)
  have hsl : ∀ t b (s1 : St), (∀ t w, s1.ts t = some w → w.units = k) → s1.counter < k →
      UInv k (goSleep s1 t k b) := by
    intro t b s1 h1 h2
    refine ⟨?_, ?_⟩
    · intro t' w hw
      have hw : upd s1.ts t _ t' = some w := hw
      by_cases e : t' = t
      · subst e; rw [upd_same] at hw; cases hw; rfl
      · rw [upd_other _ _ e] at hw; exact h1 t' w hw
    · intro _
      show s1.counter - k * s1.prom.length < k
      have := hmul s1.prom.length; omega
  cases op with
  | wait t u m e =>
    simp only [Uniform] at hok; subst hok
    simp only [step] at hs; split at hs
    · rename_i hc
      obtain ⟨rfl, rfl⟩ := some_pair hs
      simp only [waitStep]
      split
      · exact hu
      · split
        · refine ⟨hu.units, ?_⟩
          intro hx
          have := hu.nosat hx
          show s.counter - u - u * (s.prom.length : Int) < u
          omega
        · cases m
          · exact hu
          · exact hsl _ _ _ hu.units (by omega)
          · dsimp only; split
            · exact hu
            · exact hsl _ _ _ hu.units (by omega)
    · cases hs
  | signal u =>
    simp only [step] at hs; split at hs
    · obtain ⟨rfl, rfl⟩ := some_pair hs
      simp only [signalStep]
      split
      · exact hu
      · split
        · exact hu
        · obtain ⟨i1, i2, i3, i4, i5, i6, i7, -⟩ := walk_spec s.ts (wrap32 (s.counter + u)) s.waitq
            hq.nodup (fun t ht => by obtain ⟨w, hw, -⟩ := (hq.memq t).1 ht; exact ⟨w, hw⟩) hp
          generalize walk s.ts (wrap32 (s.counter + u)) s.waitq = r at *
          refine ⟨?_, ?_⟩
          · intro t w hw
            have hw : r.1 t = some w := hw
            by_cases hm : t ∈ r.2.2
            · obtain ⟨w', hw', hr⟩ := i2 t hm
              rw [hr] at hw; cases hw; exact hu.units t w' hw'
            · rw [i1 t hm] at hw; exact hu.units t w hw
          · rintro ⟨t, w, hw, hph⟩
            have hw : r.1 t = some w := hw
            have hm : t ∉ r.2.2 := by
              intro hm
              obtain ⟨w', -, hr⟩ := i2 t hm
              rw [hr] at hw; cases hw; cases hph
            rw [i1 t hm] at hw
            have hin : t ∈ r.2.1 := by
              have := (i3 t).1 ((hq.memq t).2 ⟨w, hw, by simp [hph]⟩)
              simpa [hm] using this
            have h7 := i7 t hin w hw
            rw [hu.units t w hw, unitsOf_uniform (k := k)] at h7
            · show wrap32 _ - k * ((s.prom ++ r.2.2).length : Int) < k
              rw [List.length_append]; push_cast
              rw [Int.mul_add]
              have := hmul s.prom.length
              omega
            · intro t' ht'
              obtain ⟨w', h1, -⟩ := i2 t' ht'
              exact ⟨w', h1, hu.units t' w' h1⟩
    · cases hs
  | resume t e =>
    simp only [step] at hs; split at hs
    · rename_i w hw
      split at hs
      · rename_i hph
        obtain ⟨rfl, rfl⟩ := some_pair hs
        have hwk := hu.units t w hw
        have hdel : ∀ t' w', upd s.ts t none t' = some w' → s.ts t' = some w' := by
          intro t' w' ht
          by_cases e : t' = t
          · subst e; rw [upd_same] at ht; cases ht
          · rw [upd_other _ _ e] at ht; exact ht
        simp only [resumeStep]
        split
        · refine ⟨fun t' w' h => hu.units t' w' (hdel t' w' h), ?_⟩
          rintro ⟨t', w', h1, h2⟩
          have hn := hu.nosat ⟨t', w', hdel t' w' h1, h2⟩
          show s.counter - w.units - k * ((s.prom.erase t).length : Int) < k
          rw [hwk]
          by_cases hm : t ∈ s.prom
          · have hl : (s.prom.erase t).length = s.prom.length - 1 := List.length_erase_of_mem hm
            have hpos : 0 < s.prom.length := List.length_pos_of_mem hm
            have : (s.prom.length : Int) = ((s.prom.erase t).length : Int) + 1 := by omega
            rw [this, Int.mul_add] at hn
            omega
          · rw [List.erase_of_not_mem hm]; omega
        · rename_i hlt
          split
          · refine ⟨fun t' w' h => hu.units t' w' (hdel t' w' h), ?_⟩
            intro _
            show s.counter - k * ((s.prom.erase t).length : Int) < k
            have := hmul (s.prom.erase t).length
            omega
          · rw [hwk]
            exact hsl _ _ { s with prom := s.prom.erase t } hu.units (by show s.counter < k; omega)
      · cases hs
    · cases hs
  | fire t =>
    simp only [step] at hs; split at hs
    · rename_i w hw
      split at hs
      · rename_i hph
        cases hs
        refine ⟨?_, ?_⟩
        · intro t' w' hw'
          have hw' : upd s.ts t _ t' = some w' := hw'
          by_cases e : t' = t
          · subst e; rw [upd_same] at hw'; cases hw'; exact hu.units _ w hw
          · rw [upd_other _ _ e] at hw'; exact hu.units t' w' hw'
        · rintro ⟨t', w', h1, h2⟩
          have h1 : upd s.ts t _ t' = some w' := h1
          by_cases e : t' = t
          · subst e; rw [upd_same] at h1; cases h1; cases h2
          · rw [upd_other _ _ e] at h1; exact hu.nosat ⟨t', w', h1, h2⟩
      · cases hs
    · cases hs

/-- C15 at every point of every execution, when all waits ask for the same number of units (the case of
every use in the kernel: one unit): if a task sleeps, the units left after serving all woken tasks are
not enough for it. -/
theorem uniform_no_satisfiable_sleeper {v k : Int} (hk : 0 < k) {max : Option Int} {s : St}
    {evs : List Ev} (h : Exec v max (Uniform k) s evs) {t : Tid} {w : W} (hw : s.ts t = some w)
    (hph : w.phase = .sleeping) :
    s.counter - k * s.prom.length < w.units ∧
    ∀ u, u ∈ s.prom ↔ ∃ w', s.ts u = some w' ∧ w'.phase = .promised := by
  have hu : UInv k s := by
    clear hw hph
    induction h with
    | init => exact ⟨by simp [init], by simp [init]⟩
    | step he hok hs ih =>
      exact uinv_step hk ih (exec_qinv he) (exec_pos he) (by cases ‹Op› <;> exact hok) hs
  rw [hu.units t w hw]
  exact ⟨hu.nosat ⟨t, w, hw, hph⟩, (exec_qinv h).memp⟩

/-- A task woken by a signal and scheduled next gets its units. -/
theorem promised_waiter_gets_units {s : St} {t : Tid} {w : W} {e : Bool} (hw : s.ts t = some w)
    (hp : w.phase = .promised) (hc : w.units ≤ s.counter) :
    ∃ s', step s (.resume t e) = some (s', [.acquired t w.units]) := by
  refine ⟨(resumeStep s t w e).1, ?_⟩
  simp [step, hw, hp, resumeStep, hc]

/-! ## Non-vacuity -/

/-- Two waiters (2 and 1 units), a signal of 2 wakes the first, leaves the second asleep. -/
example : ∃ s evs, Exec 0 (some 10) (fun _ _ => True) s evs ∧ s.prom = [1] ∧
    s.ts 2 = some ⟨1, false, .sleeping⟩ ∧ value 0 evs = 2 := by
  refine ⟨_, _, .step (op := .signal 2) (.step (op := .wait 2 1 .forever false)
      (.step (op := .wait 1 2 .forever false) .init trivial rfl) trivial rfl) trivial rfl,
      ?_, ?_, ?_⟩ <;> decide

/-- A uniform execution with a sleeper and a promised waiter. -/
example : ∃ s evs, Exec 0 (some 1) (Uniform 1) s evs ∧ s.prom = [1] ∧
    s.ts 2 = some ⟨1, true, .sleeping⟩ := by
  refine ⟨_, _, .step (op := .signal 1) (.step (op := .wait 2 1 .timed false)
      (.step (op := .wait 1 1 .forever false) .init rfl rfl) rfl rfl) trivial rfl, ?_, ?_⟩ <;> decide

end Verif.Ksem
