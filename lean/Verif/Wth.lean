import Verif.Sort
/-!
# Worker threads (kernel/wth.c, kernel/wth_aux.c)

Property C46.

The first part is one worker thread with its queue, and everything that can happen to it on the single processor: other
tasks and interrupt handlers that enqueue jobs (nested in any way, at any moment), timer interrupts that hand expired
timers to the worker, the scheduler, and jobs that wait for something. `safe_ringbuf` is a queue whose writes and reads are
atomic, which is what `Verif.SafeRingbuf` proves; everything else that is shared is read and written in separate steps. What is
executed with interrupts disabled is one step.

The second part is the choice among workers.
-/
namespace Verif.Wth

/-- `task->state`. -/
inductive TState | running | runnable | sleeping
deriving DecidableEq, Repr

/-- Where the worker is in `wth_run` (wth.c:205-282) and `wth_process_single_job` (wth.c:178-203): before line 217; in
`run_pending_ktimers` (only worker 0); before the read of the ring buffer; in a job; before line 225; before line 256; before
line 258; before `schedule()`. -/
inductive Pc (Job : Type) | top | drain | read | run (j : Job) | check | after | normalize | sched
deriving DecidableEq, Repr

/-- Where a producer is: in `wth_enqueue_on` after the write (line 119), with `was_empty`; or in `wth_wakeup` before the flag
is cleared, or before the state is changed. -/
inductive Frame | wrote (wasEmpty : Bool) | clear | cas
deriving DecidableEq, Repr

/-- A worker thread. `accepted`, `done`, `expired` and `fired` are history: the jobs for which `wth_enqueue_on` returned true,
those that have been executed, the deferred timers that have expired and those that have been called. -/
structure Wk (Job : Type) where
  cap : Nat
  first : Bool
  queue : List Job
  deferred : List Job
  state : TState
  waiting : Bool
  pc : Pc Job
  blocked : Bool
  onCpu : Bool
  frames : List Frame
  accepted : List Job
  done : List Job
  expired : List Job
  fired : List Job

/-- `wth_create_thread` (wth.c:302-357): the thread is runnable, its queue empty. -/
def Wk.init {Job : Type} (cap : Nat) (first : Bool) : Wk Job :=
  ⟨cap, first, [], [], .runnable, false, .top, false, false, [], [], [], [], []⟩

/-- What can happen: someone calls `wth_enqueue_on`, a deferred timer expires (`tick_all_timers`), the innermost producer
does its next step, the worker does its next step, its job begins to wait, what the job waits for happens, another task gets
the processor, the worker gets it. -/
inductive Ev (Job : Type)
  | enqueue (j : Job)
  | expire (t : Job)
  | producer
  | worker
  | block
  | unblock
  | preempt
  | dispatch

/-- `wth_wakeup` (wth_aux.c:38): SLEEPING becomes RUNNABLE. -/
def TState.woken : TState → TState
  | .sleeping => .runnable
  | s => s

/-- The steps of a producer: wth.c:119-121, wth_aux.c:37, wth_aux.c:38. -/
def producer {Job : Type} (w : Wk Job) : Option (Wk Job) :=
  match w.frames with
  | [] => none
  | .wrote e :: fs => some { w with frames := if e && w.waiting then .clear :: fs else fs }
  | .clear :: fs => some { w with waiting := false, frames := .cas :: fs }
  | .cas :: fs => some { w with state := w.state.woken, frames := fs }

/-- The steps of the worker, in `wth_run`. A job that is woken up while it waits goes on, and ends. -/
def worker {Job : Type} (w : Wk Job) : Wk Job :=
  match w.pc with
  | .top => { w with waiting := false, pc := .drain }
  | .drain =>
    match w.deferred with
    | [] => { w with pc := .read }
    | t :: ts => { w with deferred := ts, fired := w.fired ++ [t] }
  | .read =>
    match w.queue with
    | [] => { w with pc := .check }
    | j :: js => { w with queue := js, pc := .run j }
  | .run j => { w with done := w.done ++ [j], blocked := false, pc := .drain }
  | .check =>
    if w.queue.isEmpty && (!w.first || w.deferred.isEmpty) then { w with state := .sleeping, waiting := true, pc := .after }
    else { w with pc := .after }
  | .after => { w with pc := if w.waiting then .sched else .normalize }
  | .normalize => { w with state := (if w.state = .runnable then .running else w.state), pc := .top }
  | .sched => { w with state := (if w.state = .running then .runnable else w.state), onCpu := false, pc := .top }

/-- One event; `none` if it cannot happen. The worker and the scheduler do nothing while a producer is active: interrupt
handlers run to their end, and `wth_enqueue_on` disables preemption. -/
def step {Job : Type} (w : Wk Job) : Ev Job → Option (Wk Job)
  | .enqueue j =>
    if w.queue.length < w.cap then
      some { w with queue := w.queue ++ [j], accepted := w.accepted ++ [j], frames := .wrote w.queue.isEmpty :: w.frames }
    else some w
  | .expire t =>
    if w.first then some { w with deferred := w.deferred ++ [t], expired := w.expired ++ [t], frames := .clear :: w.frames } else none
  | .producer => producer w
  | .worker => if w.onCpu ∧ w.frames = [] then some (worker w) else none
  | .block =>
    match w.pc with
    | .run _ => if w.onCpu ∧ w.frames = [] then some { w with state := .sleeping, blocked := true, onCpu := false } else none
    | _ => none
  | .unblock => if w.blocked then some { w with blocked := false, state := w.state.woken } else none
  | .preempt =>
    if w.onCpu ∧ w.frames = [] then some { w with onCpu := false, state := (if w.state = .running then .runnable else w.state) } else none
  | .dispatch => if ¬ w.onCpu ∧ w.frames = [] ∧ w.state = .runnable then some { w with onCpu := true, state := .running } else none

/-- The result of `wth_enqueue_on`: `success` (wth.c:117). -/
def accepts {Job : Type} (w : Wk Job) : Bool := decide (w.queue.length < w.cap)

/-- The states of a worker after any sequence of events. -/
inductive Reach {Job : Type} (cap : Nat) (first : Bool) : Wk Job → Prop
  | init : Reach cap first (.init cap first)
  | step {w w' ev} : Reach cap first w → step w ev = some w' → Reach cap first w'

/-! ### The choice of a worker -/

/-- What is needed of `struct worker_thread` for the choice: whether it has a name, its priority, whether its queue has room and
whether it is runnable. -/
structure Info where
  named : Bool
  prio : Nat
  room : Bool
  runnable : Bool
deriving DecidableEq, Repr

/-- The loop of `wth_enqueue_anywhere` (wth.c:135-147), from `i` - 1 downwards; the index of the worker that takes the job. -/
def anyLoop (ws : List Info) (lowest : Nat) : Nat → Option Nat
  | 0 => none
  | i + 1 =>
    match ws[i]? with
    | none => none
    | some w =>
      if w.named then anyLoop ws lowest i
      else if w.prio > lowest then anyLoop ws lowest i
      else if w.room then some i
      else anyLoop ws lowest i

/-- `wth_enqueue_anywhere` (wth.c:127-150). -/
def anywhere (ws : List Info) (lowest : Nat) : Option Nat :=
  if lowest = 0 then (match ws[0]? with | some w => if w.room then some 0 else none | none => none)
  else anyLoop ws lowest ws.length

/-- The loop of `wth_find_worker` (wth.c:160-171). -/
def findLoop (ws : List Info) (lowest : Nat) : Nat → Nat
  | 0 => 0
  | i + 1 =>
    match ws[i]? with
    | none => 0
    | some w => if w.named then findLoop ws lowest i else if w.prio ≤ lowest then i else findLoop ws lowest i

/-- `wth_find_worker` (wth.c:152-174). -/
def find (ws : List Info) (lowest : Nat) : Nat := if lowest = 0 then 0 else findLoop ws lowest ws.length

/-- The loop of `wth_get_runnable_thread` (wth.c:290-297) over the workers from `i`. -/
def pickLoop : List Info → Nat → Option (Nat × Nat) → Option (Nat × Nat)
  | [], _, sel => sel
  | w :: ws, i, sel =>
    pickLoop ws (i + 1) (if w.runnable then
      (match sel with
        | none => some (i, w.prio)
        | some (k, p) => if w.prio < p then some (i, w.prio) else some (k, p)) else sel)

/-- `wth_get_runnable_thread` (wth.c:284-300). -/
def pick (ws : List Info) : Option Nat := (pickLoop ws 0 none).map (·.1)

/-- `wth_cmp_func` (wth.c:81-86). -/
def cmpPrio (a b : Info) : Int := (a.prio : Int) - b.prio

/-- `wth_create_thread` (wth.c:302-357): the new worker is appended and all are sorted; `max` is WTH_MAX_THREADS. The assertion of
line 323 is a precondition (`Created`). -/
def create (max : Nat) (ws : List Info) (w : Info) : Option (List Info) :=
  if ws.length ≥ max then none else Verif.Sort.insertionSort cmpPrio (ws ++ [w])

/-- The array of workers: `init_worker_threads` creates the generic one with the best priority; the others have a lower one. -/
inductive Created (max : Nat) : List Info → Prop
  | first {w} : w.prio = 0 → w.named = false → Created max [w]
  | create {ws w ws'} : Created max ws → 0 < w.prio → create max ws w = some ws' → Created max ws'
  | change {ws ws'} : Created max ws → ws'.map (fun w => (w.named, w.prio)) = ws.map (fun w => (w.named, w.prio)) → Created max ws'

/-! ### Specification -/

/-- The job that is being executed. -/
def Wk.current {Job : Type} (w : Wk Job) : List Job :=
  match w.pc with
  | .run j => [j]
  | _ => []

/-! ### Invariant -/

section
variable {Job : Type}

/-- The places where the worker is about to give up the processor. -/
def Pc.idle : Pc Job → Bool
  | .after | .sched | .normalize => true
  | _ => false

structure Inv (w : Wk Job) : Prop where
  acc : w.accepted = w.done ++ w.current ++ w.queue
  cap : w.queue.length ≤ w.cap
  exp : w.expired = w.fired ++ w.deferred
  nof : w.first = false → w.deferred = [] ∧ (∀ f ∈ w.frames, (∃ e, f = .wrote e) ∨ w.pc = .after ∨ w.pc = .sched ∨ w.pc = .top)
  bst : w.first = false → w.blocked = true → w.state = .sleeping ∧ w.onCpu = false
  wpc : w.waiting = true → w.pc = .after ∨ w.pc = .sched ∨ w.pc = .top
  nq : w.waiting = true → w.queue ≠ [] → .wrote true ∈ w.frames ∨ .clear ∈ w.frames
  nd : w.waiting = true → w.deferred ≠ [] → .clear ∈ w.frames
  slp : w.state = .sleeping → w.waiting = true ∨ w.blocked = true ∨ .cas ∈ w.frames
  blk : w.blocked = true → ∃ j, w.pc = .run j
  cpu : w.onCpu = true → w.pc.idle = false → w.state = .running
  off : w.onCpu = false → w.state ≠ .running
  nrm : w.pc = .normalize → w.state ≠ .sleeping

theorem inv_init (cap : Nat) (first : Bool) : Inv (Wk.init (Job := Job) cap first) := by
  constructor <;> simp [Wk.init, Wk.current]

theorem woken_ne (s : TState) : s.woken ≠ .sleeping := by cases s <;> simp [TState.woken]

theorem woken_running {s : TState} : s.woken = .running ↔ s = .running := by cases s <;> simp [TState.woken]

theorem inv_enqueue {w w' : Wk Job} (h : Inv w) {j : Job} (hs : step w (.enqueue j) = some w') : Inv w' := by
  unfold step at hs
  dsimp only at hs
  split at hs
  · next hl =>
    cases hs
    obtain ⟨acc, cap, exp, nof, bst, wpc, nq, nd, slp, blk, cpu, off, nrm⟩ := h
    constructor <;> dsimp only
    · rw [acc]
      simp [Wk.current]
    · simp; omega
    · exact exp
    · intro hf
      refine ⟨(nof hf).1, fun f hm => ?_⟩
      rcases List.mem_cons.mp hm with e | hm
      · exact Or.inl ⟨_, e⟩
      · exact (nof hf).2 f hm
    · exact bst
    · exact wpc
    · intro hw _
      cases hq : w.queue with
      | nil => exact Or.inl (by simp)
      | cons a as =>
        rcases nq hw (by rw [hq]; simp) with h | h
        · exact Or.inl (List.mem_cons_of_mem _ h)
        · exact Or.inr (List.mem_cons_of_mem _ h)
    · intro hw hd
      exact List.mem_cons_of_mem _ (nd hw hd)
    · intro hs
      rcases slp hs with h | h | h
      · exact Or.inl h
      · exact Or.inr (Or.inl h)
      · exact Or.inr (Or.inr (List.mem_cons_of_mem _ h))
    · exact blk
    · exact cpu
    · exact off
    · exact nrm
  · cases hs; exact h

theorem inv_expire {w w' : Wk Job} (h : Inv w) {j : Job} (hs : step w (.expire j) = some w') : Inv w' := by
  unfold step at hs
  dsimp only at hs
  split at hs
  · next hl =>
    cases hs
    obtain ⟨acc, cap, exp, nof, bst, wpc, nq, nd, slp, blk, cpu, off, nrm⟩ := h
    constructor <;> dsimp only
    · exact acc
    · exact cap
    · rw [exp]; simp
    · intro hf; rw [hl] at hf; cases hf
    · exact bst
    · exact wpc
    · intro _ _; exact Or.inr (List.Mem.head _)
    · intro _ _; exact List.Mem.head _
    · intro hs
      rcases slp hs with h | h | h
      · exact Or.inl h
      · exact Or.inr (Or.inl h)
      · exact Or.inr (Or.inr (List.mem_cons_of_mem _ h))
    · exact blk
    · exact cpu
    · exact off
    · exact nrm
  · cases hs

theorem inv_producer {w w' : Wk Job} (h : Inv w) (hs : step w .producer = some w') : Inv w' := by
  change producer w = some w' at hs
  unfold producer at hs
  obtain ⟨acc, cap, exp, nof, bst, wpc, nq, nd, slp, blk, cpu, off, nrm⟩ := h
  cases hf : w.frames with
  | nil => rw [hf] at hs; cases hs
  | cons f fs =>
    rw [hf] at hs nof nq nd slp
    cases f with
    | wrote e =>
      cases hs
      have hcl : e = true → w.waiting = true → (if (e && w.waiting) = true then Frame.clear :: fs else fs) = .clear :: fs := by
        intro h1 h2; rw [h1, h2]; rfl
      have hsub : ∀ x ∈ fs, x ∈ (if (e && w.waiting) = true then Frame.clear :: fs else fs) := by
        intro x hx
        split
        · exact List.mem_cons_of_mem _ hx
        · exact hx
      constructor <;> dsimp only
      · exact acc
      · exact cap
      · exact exp
      · intro h1
        refine ⟨(nof h1).1, fun f hm => ?_⟩
        split at hm
        · next hc =>
          rw [Bool.and_eq_true] at hc
          exact Or.inr (wpc hc.2)
        · exact (nof h1).2 f (List.mem_cons_of_mem _ hm)
      · exact bst
      · exact wpc
      · intro hw hq
        rcases nq hw hq with h | h
        · rcases List.mem_cons.mp h with h | h
          · cases h
            rw [hcl rfl hw]
            exact Or.inr (List.Mem.head _)
          · exact Or.inl (hsub _ h)
        · rcases List.mem_cons.mp h with h | h
          · cases h
          · exact Or.inr (hsub _ h)
      · intro hw hd
        rcases List.mem_cons.mp (nd hw hd) with h | h
        · cases h
        · exact hsub _ h
      · intro h1
        rcases slp h1 with h | h | h
        · exact Or.inl h
        · exact Or.inr (Or.inl h)
        · rcases List.mem_cons.mp h with h | h
          · cases h
          · exact Or.inr (Or.inr (hsub _ h))
      · exact blk
      · exact cpu
      · exact off
      · exact nrm
    | clear =>
      cases hs
      constructor <;> dsimp only
      · exact acc
      · exact cap
      · exact exp
      · intro h1
        refine ⟨(nof h1).1, fun f hm => ?_⟩
        rcases List.mem_cons.mp hm with h | h
        · rcases (nof h1).2 .clear (List.Mem.head _) with ⟨_, h⟩ | h
          · cases h
          · exact Or.inr h
        · exact (nof h1).2 f (List.mem_cons_of_mem _ h)
      · exact bst
      · intro h1; cases h1
      · intro h1; cases h1
      · intro h1; cases h1
      · intro _; exact Or.inr (Or.inr (List.Mem.head _))
      · exact blk
      · exact cpu
      · exact off
      · exact nrm
    | cas =>
      cases hs
      constructor <;> dsimp only
      · exact acc
      · exact cap
      · exact exp
      · intro h1
        exact ⟨(nof h1).1, fun f hm => (nof h1).2 f (List.mem_cons_of_mem _ hm)⟩
      · intro h1 h2
        obtain ⟨j, hj⟩ := blk h2
        rcases (nof h1).2 .cas (List.Mem.head _) with ⟨_, h⟩ | h | h | h
        · cases h
        all_goals (rw [hj] at h; cases h)
      · exact wpc
      · intro hw hq
        rcases nq hw hq with h | h
        · rcases List.mem_cons.mp h with h | h
          · cases h
          · exact Or.inl h
        · rcases List.mem_cons.mp h with h | h
          · cases h
          · exact Or.inr h
      · intro hw hd
        rcases List.mem_cons.mp (nd hw hd) with h | h
        · cases h
        · exact h
      · intro h1; exact absurd h1 (woken_ne _)
      · exact blk
      · intro h1 h2; exact woken_running.mpr (cpu h1 h2)
      · intro h1 h2; exact off h1 (woken_running.mp h2)
      · intro _; exact woken_ne _

theorem inv_worker {w w' : Wk Job} (h : Inv w) (hs : step w .worker = some w') : Inv w' := by
  change (if w.onCpu = true ∧ w.frames = [] then some (worker w) else none) = some w' at hs
  by_cases hc : w.onCpu = true ∧ w.frames = []
  case neg => rw [if_neg hc] at hs; cases hs
  rw [if_pos hc] at hs
  obtain ⟨hcpu, hfr⟩ := hc
  cases hs
  obtain ⟨acc, cap, exp, nof, bst, wpc, nq, nd, slp, blk, cpu, off, nrm⟩ := h
  rw [hfr] at nq nd slp nof
  have nq' : w.waiting = true → w.queue = [] := by
    intro h
    cases hq : w.queue with
    | nil => rfl
    | cons a as => rcases nq h (by rw [hq]; simp) with h | h <;> cases h
  have nd' : w.waiting = true → w.deferred = [] := by
    intro h
    cases hq : w.deferred with
    | nil => rfl
    | cons a as => cases nd h (by rw [hq]; simp)
  have slp' : w.state = .sleeping → w.waiting = true ∨ w.blocked = true := by
    intro h
    rcases slp h with h | h | h
    · exact Or.inl h
    · exact Or.inr h
    · cases h
  have bst' : w.first = false → w.blocked = false := by
    intro h
    cases hb : w.blocked with
    | false => rfl
    | true => have := (bst h hb).2; rw [hcpu] at this; cases this
  unfold worker
  cases hp : w.pc with
  | top =>
    have hb : w.blocked = false := by
      cases hb : w.blocked with
      | false => rfl
      | true => obtain ⟨j, hj⟩ := blk hb; rw [hp] at hj; cases hj
    have hst := cpu hcpu (by rw [hp]; rfl)
    constructor <;> dsimp only
    · rw [acc]; simp [Wk.current, hp]
    · exact cap
    · exact exp
    · intro h; exact ⟨(nof h).1, by rw [hfr]; simp⟩
    · intro h1 h2; rw [hb] at h2; cases h2
    · intro h; cases h
    · intro h; cases h
    · intro h; cases h
    · intro h; rw [hst] at h; cases h
    · intro h; rw [hb] at h; cases h
    · intro _ _; exact hst
    · intro h; rw [hcpu] at h; cases h
    · intro h; cases h
  | drain =>
    have hb : w.blocked = false := by
      cases hb : w.blocked with
      | false => rfl
      | true => obtain ⟨j, hj⟩ := blk hb; rw [hp] at hj; cases hj
    have hst := cpu hcpu (by rw [hp]; rfl)
    have hw : w.waiting = false := by
      cases hw : w.waiting with
      | false => rfl
      | true => rcases wpc hw with h | h | h <;> (rw [hp] at h; cases h)
    cases hd : w.deferred with
    | nil =>
      constructor <;> dsimp only
      · rw [acc]; simp [Wk.current, hp]
      · exact cap
      · rw [exp, hd]
      · intro h; exact ⟨rfl, by rw [hfr]; simp⟩
      · intro h1 h2; rw [hb] at h2; cases h2
      · intro h; rw [hw] at h; cases h
      · intro h; rw [hw] at h; cases h
      · intro h; rw [hw] at h; cases h
      · intro h; rw [hst] at h; cases h
      · intro h; rw [hb] at h; cases h
      · intro _ _; exact hst
      · intro h; rw [hcpu] at h; cases h
      · intro h; cases h
    | cons t ts =>
      constructor <;> dsimp only
      · rw [acc]; simp [Wk.current, hp]
      · exact cap
      · rw [exp, hd]; simp
      · intro h; have := (nof h).1; rw [hd] at this; cases this
      · intro h1 h2; rw [hb] at h2; cases h2
      · intro h; rw [hw] at h; cases h
      · intro h; rw [hw] at h; cases h
      · intro h; rw [hw] at h; cases h
      · intro h; rw [hst] at h; cases h
      · intro h; rw [hb] at h; cases h
      · intro _ _; exact hst
      · intro h; rw [hcpu] at h; cases h
      · intro h; cases h
  | read =>
    have hb : w.blocked = false := by
      cases hb : w.blocked with
      | false => rfl
      | true => obtain ⟨j, hj⟩ := blk hb; rw [hp] at hj; cases hj
    have hst := cpu hcpu (by rw [hp]; rfl)
    have hw : w.waiting = false := by
      cases hw : w.waiting with
      | false => rfl
      | true => rcases wpc hw with h | h | h <;> (rw [hp] at h; cases h)
    cases hd : w.queue with
    | nil =>
      constructor <;> dsimp only
      · rw [acc]; simp [Wk.current, hp, hd]
      · simp
      · exact exp
      · intro h; exact ⟨(nof h).1, by rw [hfr]; simp⟩
      · intro h1 h2; rw [hb] at h2; cases h2
      · intro h; rw [hw] at h; cases h
      · intro h; rw [hw] at h; cases h
      · intro h; rw [hw] at h; cases h
      · intro h; rw [hst] at h; cases h
      · intro h; rw [hb] at h; cases h
      · intro _ _; exact hst
      · intro h; rw [hcpu] at h; cases h
      · intro h; cases h
    | cons t ts =>
      constructor <;> dsimp only
      · rw [acc]; simp [Wk.current, hp, hd]
      · rw [hd] at cap; simp at cap; omega
      · exact exp
      · intro h; exact ⟨(nof h).1, by rw [hfr]; simp⟩
      · intro h1 h2; rw [hb] at h2; cases h2
      · intro h; rw [hw] at h; cases h
      · intro h; rw [hw] at h; cases h
      · intro h; rw [hw] at h; cases h
      · intro h; rw [hst] at h; cases h
      · intro h; rw [hb] at h; cases h
      · intro _ _; exact hst
      · intro h; rw [hcpu] at h; cases h
      · intro h; cases h
  | run j =>
    have hst := cpu hcpu (by rw [hp]; rfl)
    have hw : w.waiting = false := by
      cases hw : w.waiting with
      | false => rfl
      | true => rcases wpc hw with h | h | h <;> (rw [hp] at h; cases h)
    constructor <;> dsimp only
    · rw [acc]; simp [Wk.current, hp]
    · exact cap
    · exact exp
    · intro h; exact ⟨(nof h).1, by rw [hfr]; simp⟩
    · intro h1 h2; cases h2
    · intro h; rw [hw] at h; cases h
    · intro h; rw [hw] at h; cases h
    · intro h; rw [hw] at h; cases h
    · intro h; rw [hst] at h; cases h
    · intro h; cases h
    · intro _ _; exact hst
    · intro h; rw [hcpu] at h; cases h
    · intro h; cases h
  | check =>
    have hb : w.blocked = false := by
      cases hb : w.blocked with
      | false => rfl
      | true => obtain ⟨j, hj⟩ := blk hb; rw [hp] at hj; cases hj
    have hst := cpu hcpu (by rw [hp]; rfl)
    have hw : w.waiting = false := by
      cases hw : w.waiting with
      | false => rfl
      | true => rcases wpc hw with h | h | h <;> (rw [hp] at h; cases h)
    dsimp only
    split
    · next hc =>
      have hq : w.queue = [] := List.isEmpty_iff.mp ((Bool.and_eq_true _ _).mp hc).1
      have hd : w.deferred = [] := by
        have := ((Bool.and_eq_true _ _).mp hc).2
        cases hf : w.first with
        | false => exact (nof hf).1
        | true => rw [hf] at this; simpa using this
      constructor <;> dsimp only
      · rw [acc]; simp [Wk.current, hp]
      · exact cap
      · exact exp
      · intro h; exact ⟨(nof h).1, by rw [hfr]; simp⟩
      · intro h1 h2; rw [hb] at h2; cases h2
      · intro _; exact Or.inl rfl
      · intro _ h; exact absurd hq h
      · intro _ h; exact absurd hd h
      · intro _; exact Or.inl rfl
      · intro h; rw [hb] at h; cases h
      · intro _ h; cases h
      · intro h; rw [hcpu] at h; cases h
      · intro h; cases h
    · constructor <;> dsimp only
      · rw [acc]; simp [Wk.current, hp]
      · exact cap
      · exact exp
      · intro h; exact ⟨(nof h).1, by rw [hfr]; simp⟩
      · intro h1 h2; rw [hb] at h2; cases h2
      · intro h; rw [hw] at h; cases h
      · intro h; rw [hw] at h; cases h
      · intro h; rw [hw] at h; cases h
      · intro h; rw [hst] at h; cases h
      · intro h; rw [hb] at h; cases h
      · intro _ h; cases h
      · intro h; rw [hcpu] at h; cases h
      · intro h; cases h
  | after =>
    have hb : w.blocked = false := by
      cases hb : w.blocked with
      | false => rfl
      | true => obtain ⟨j, hj⟩ := blk hb; rw [hp] at hj; cases hj
    cases hw : w.waiting with
    | true =>
      constructor <;> dsimp only
      · rw [acc]; simp [Wk.current, hp]
      · exact cap
      · exact exp
      · intro h; exact ⟨(nof h).1, by rw [hfr]; simp⟩
      · intro h1 h2; rw [hb] at h2; cases h2
      · intro _; exact Or.inr (Or.inl rfl)
      · intro h1 h2; exact absurd (nq' hw) h2
      · intro h1 h2; exact absurd (nd' hw) h2
      · intro _; exact Or.inl rfl
      · intro h; rw [hb] at h; cases h
      · intro _ h; cases h
      · intro h; rw [hcpu] at h; cases h
      · intro h; cases h
    | false =>
      have hns : w.state ≠ .sleeping := by
        intro h
        rcases slp' h with h | h
        · rw [hw] at h; cases h
        · rw [hb] at h; cases h
      constructor <;> dsimp only
      · rw [acc]; simp [Wk.current, hp]
      · exact cap
      · exact exp
      · intro h; exact ⟨(nof h).1, by rw [hfr]; simp⟩
      · intro h1 h2; rw [hb] at h2; cases h2
      · intro h; cases h
      · intro h; cases h
      · intro h; cases h
      · intro h; exact absurd h hns
      · intro h; rw [hb] at h; cases h
      · intro _ h; cases h
      · intro h; rw [hcpu] at h; cases h
      · intro _; exact hns
  | normalize =>
    have hb : w.blocked = false := by
      cases hb : w.blocked with
      | false => rfl
      | true => obtain ⟨j, hj⟩ := blk hb; rw [hp] at hj; cases hj
    have hw : w.waiting = false := by
      cases hw : w.waiting with
      | false => rfl
      | true => rcases wpc hw with h | h | h <;> (rw [hp] at h; cases h)
    have hns := nrm hp
    have hr : (if w.state = .runnable then TState.running else w.state) = .running := by
      cases hx : w.state with
      | sleeping => exact absurd hx hns
      | running => rfl
      | runnable => rfl
    constructor <;> dsimp only
    · rw [acc]; simp [Wk.current, hp]
    · exact cap
    · exact exp
    · intro h; exact ⟨(nof h).1, by rw [hfr]; simp⟩
    · intro h1 h2; rw [hb] at h2; cases h2
    · intro h; rw [hw] at h; cases h
    · intro h; rw [hw] at h; cases h
    · intro h; rw [hw] at h; cases h
    · intro h; rw [hr] at h; cases h
    · intro h; rw [hb] at h; cases h
    · intro _ _; exact hr
    · intro h; rw [hcpu] at h; cases h
    · intro h; cases h
  | sched =>
    have hb : w.blocked = false := by
      cases hb : w.blocked with
      | false => rfl
      | true => obtain ⟨j, hj⟩ := blk hb; rw [hp] at hj; cases hj
    constructor <;> dsimp only
    · rw [acc]; simp [Wk.current, hp]
    · exact cap
    · exact exp
    · intro h; exact ⟨(nof h).1, by rw [hfr]; simp⟩
    · intro h1 h2; rw [hb] at h2; cases h2
    · intro _; exact Or.inr (Or.inr rfl)
    · intro h1 h2; exact absurd (nq' h1) h2
    · intro h1 h2; exact absurd (nd' h1) h2
    · intro h
      split at h
      · cases h
      · rcases slp' h with h | h
        · exact Or.inl h
        · rw [hb] at h; cases h
    · intro h; rw [hb] at h; cases h
    · intro h; cases h
    · intro _ h
      split at h
      · cases h
      · next hx => exact hx h
    · intro h; cases h

theorem inv_step {w w' : Wk Job} (h : Inv w) {ev : Ev Job} (hs : step w ev = some w') : Inv w' := by
  cases ev with
  | enqueue j => exact inv_enqueue h hs
  | expire j => exact inv_expire h hs
  | producer => exact inv_producer h hs
  | worker => exact inv_worker h hs
  | block =>
    obtain ⟨acc, cap, exp, nof, bst, wpc, nq, nd, slp, blk, cpu, off, nrm⟩ := h
    unfold step at hs
    cases hp : w.pc with
    | run j =>
      rw [hp] at hs
      dsimp only at hs
      split at hs
      · next hc =>
        cases hs
        have hw : w.waiting = false := by
          cases hw : w.waiting with
          | false => rfl
          | true => rcases wpc hw with h | h | h <;> (rw [hp] at h; cases h)
        constructor <;> dsimp only
        · rw [acc]; simp [Wk.current, hp]
        · exact cap
        · exact exp
        · intro h; exact ⟨(nof h).1, by rw [hc.2]; simp⟩
        · intro _ _; exact ⟨rfl, rfl⟩
        · intro h; rw [hw] at h; cases h
        · intro h; rw [hw] at h; cases h
        · intro h; rw [hw] at h; cases h
        · intro _; exact Or.inr (Or.inl rfl)
        · intro _; exact ⟨j, rfl⟩
        · intro h; cases h
        · intro _ h; cases h
        · intro h; cases h
      · cases hs
    | _ => rw [hp] at hs; cases hs
  | unblock =>
    obtain ⟨acc, cap, exp, nof, bst, wpc, nq, nd, slp, blk, cpu, off, nrm⟩ := h
    unfold step at hs
    dsimp only at hs
    split at hs
    · cases hs
      constructor <;> dsimp only
      · exact acc
      · exact cap
      · exact exp
      · exact nof
      · intro _ h; cases h
      · exact wpc
      · exact nq
      · exact nd
      · intro h; exact absurd h (woken_ne _)
      · intro h; cases h
      · intro h1 h2; exact woken_running.mpr (cpu h1 h2)
      · intro h1 h2; exact off h1 (woken_running.mp h2)
      · intro _; exact woken_ne _
    · cases hs
  | preempt =>
    obtain ⟨acc, cap, exp, nof, bst, wpc, nq, nd, slp, blk, cpu, off, nrm⟩ := h
    unfold step at hs
    dsimp only at hs
    split at hs
    · next hc =>
      cases hs
      have hsl : (if w.state = .running then TState.runnable else w.state) = .sleeping → w.state = .sleeping := by
        intro h
        split at h
        · cases h
        · exact h
      constructor <;> dsimp only
      · exact acc
      · exact cap
      · exact exp
      · exact nof
      · intro h1 h2
        have := (bst h1 h2).2
        rw [hc.1] at this
        cases this
      · exact wpc
      · exact nq
      · exact nd
      · intro h; exact slp (hsl h)
      · exact blk
      · intro h; cases h
      · intro _ h
        split at h
        · cases h
        · next hx => exact hx h
      · intro h1 h2; exact nrm h1 (hsl h2)
    · cases hs
  | dispatch =>
    obtain ⟨acc, cap, exp, nof, bst, wpc, nq, nd, slp, blk, cpu, off, nrm⟩ := h
    unfold step at hs
    dsimp only at hs
    split at hs
    · next hc =>
      cases hs
      constructor <;> dsimp only
      · exact acc
      · exact cap
      · exact exp
      · exact nof
      · intro h1 h2
        have := (bst h1 h2).1
        rw [hc.2.2] at this
        cases this
      · exact wpc
      · exact nq
      · exact nd
      · intro h; cases h
      · exact blk
      · intro _ _; rfl
      · intro h; cases h
      · intro _ h; cases h
    · cases hs

theorem reach_inv {cap : Nat} {first : Bool} {w : Wk Job} (h : Reach cap first w) : Inv w := by
  induction h with
  | init => exact inv_init _ _
  | step _ hs ih => exact inv_step ih hs

end

section
variable {Job : Type}

/-! ### The worker left alone -/

/-- Nobody enqueues anything any more, no timer expires and jobs do not wait: a producer that is active goes on, else the worker
does, if it has the processor, else it gets it. -/
def solo (w : Wk Job) : Wk Job :=
  match step w .producer with
  | some v => v
  | none =>
    match step w .worker with
    | some v => v
    | none =>
      match step w .dispatch with
      | some v => v
      | none => w

def alone : Nat → Wk Job → Wk Job
  | 0, w => w
  | n + 1, w => alone n (solo w)

/-- Everything that has been accepted gets executed, and all timers get called; then the worker waits for jobs. -/
def Finishes (w : Wk Job) : Prop :=
  ∃ n, (alone n w).done = w.accepted ∧ (alone n w).fired = w.expired ∧ (alone n w).waiting = true ∧ (alone n w).frames = []

theorem inv_solo {w : Wk Job} (h : Inv w) : Inv (solo w) := by
  unfold solo
  split
  · next hs => exact inv_step h hs
  · split
    · next hs => exact inv_step h hs
    · split
      · next hs => exact inv_step h hs
      · exact h

theorem producer_hist {w w' : Wk Job} (h : producer w = some w') : w'.accepted = w.accepted ∧ w'.expired = w.expired := by
  unfold producer at h
  split at h <;> cases h <;> exact ⟨rfl, rfl⟩

theorem worker_hist (w : Wk Job) : (worker w).accepted = w.accepted ∧ (worker w).expired = w.expired := by
  unfold worker
  split
  · exact ⟨rfl, rfl⟩
  · split <;> exact ⟨rfl, rfl⟩
  · split <;> exact ⟨rfl, rfl⟩
  · exact ⟨rfl, rfl⟩
  · split <;> exact ⟨rfl, rfl⟩
  · exact ⟨rfl, rfl⟩
  · exact ⟨rfl, rfl⟩
  · exact ⟨rfl, rfl⟩

theorem solo_hist (w : Wk Job) : (solo w).accepted = w.accepted ∧ (solo w).expired = w.expired := by
  unfold solo
  split
  · next hs => exact producer_hist hs
  · split
    · next hs =>
      change (if w.onCpu = true ∧ w.frames = [] then some (worker w) else none) = some _ at hs
      split at hs
      · cases hs; exact worker_hist w
      · cases hs
    · split
      · next hs =>
        unfold step at hs
        dsimp only at hs
        split at hs
        · cases hs; exact ⟨rfl, rfl⟩
        · cases hs
      · exact ⟨rfl, rfl⟩

theorem Finishes.back {w : Wk Job} (h : Finishes (solo w)) : Finishes w := by
  obtain ⟨n, h1, h2, h3, h4⟩ := h
  rw [(solo_hist w).1] at h1
  rw [(solo_hist w).2] at h2
  exact ⟨n + 1, h1, h2, h3, h4⟩

theorem solo_worker {w : Wk Job} (hf : w.frames = []) (hc : w.onCpu = true) : solo w = worker w := by
  have h1 : step w .producer = none := by
    change producer w = none
    unfold producer
    rw [hf]
  have h2 : step w .worker = some (worker w) := by
    change (if w.onCpu = true ∧ w.frames = [] then some (worker w) else none) = _
    exact if_pos ⟨hc, hf⟩
  unfold solo
  rw [h1, h2]

theorem solo_dispatch {w : Wk Job} (hf : w.frames = []) (hc : w.onCpu = false) (hs : w.state = .runnable) :
    solo w = { w with onCpu := true, state := .running } := by
  have h1 : step w .producer = none := by
    change producer w = none
    unfold producer
    rw [hf]
  have h2 : step w .worker = none := by
    change (if w.onCpu = true ∧ w.frames = [] then some (worker w) else none) = _
    exact if_neg (by simp [hc])
  have h3 : step w .dispatch = some { w with onCpu := true, state := .running } := by
    unfold step
    exact if_pos ⟨by simp [hc], hf, hs⟩
  unfold solo
  rw [h1, h2, h3]

theorem solo_producer {w w' : Wk Job} (h : producer w = some w') : solo w = w' := by
  have h1 : step w .producer = some w' := h
  unfold solo
  rw [h1]

theorem Inv.empty {w : Wk Job} (h : Inv w) (hf : w.frames = []) (hw : w.waiting = true) :
    w.queue = [] ∧ w.deferred = [] ∧ w.accepted = w.done ∧ w.expired = w.fired := by
  have hq : w.queue = [] := by
    cases hq : w.queue with
    | nil => rfl
    | cons a as =>
      have := h.nq hw (by rw [hq]; simp)
      rw [hf] at this
      rcases this with h | h <;> cases h
  have hd : w.deferred = [] := by
    cases hq : w.deferred with
    | nil => rfl
    | cons a as =>
      have := h.nd hw (by rw [hq]; simp)
      rw [hf] at this
      cases this
  have hc : w.current = [] := by
    unfold Wk.current
    rcases h.wpc hw with h | h | h <;> rw [h]
  refine ⟨hq, hd, ?_, ?_⟩
  · rw [h.acc, hq, hc]; simp
  · rw [h.exp, hd]; simp

theorem fin_waiting {w : Wk Job} (h : Inv w) (hf : w.frames = []) (hw : w.waiting = true) : Finishes w := by
  obtain ⟨_, _, h1, h2⟩ := h.empty hf hw
  exact ⟨0, h1.symm, h2.symm, hw, hf⟩

/-- `run_pending_ktimers` and then the queue. -/
theorem fin_drain : ∀ (nq nd : Nat) (w : Wk Job), Inv w → w.frames = [] → w.onCpu = true → w.pc = .drain → w.queue.length = nq →
    w.deferred.length = nd → Finishes w := by
  intro nq
  induction nq with
  | zero =>
    intro nd
    induction nd with
    | zero =>
      intro w hi hf hc hp hq hd
      have hq := List.eq_nil_of_length_eq_zero hq
      have hd := List.eq_nil_of_length_eq_zero hd
      apply Finishes.back
      have hi1 := inv_solo hi
      rw [solo_worker hf hc] at hi1 ⊢
      have e1 : worker w = { w with pc := .read } := by unfold worker; rw [hp, hd]
      rw [e1] at hi1 ⊢
      apply Finishes.back
      have hi2 := inv_solo hi1
      rw [solo_worker (w := { w with pc := .read }) hf hc] at hi2 ⊢
      have e2 : worker { w with pc := .read } = { w with pc := .check } := by unfold worker; dsimp only; rw [hq]
      rw [e2] at hi2 ⊢
      apply Finishes.back
      have hi3 := inv_solo hi2
      rw [solo_worker (w := { w with pc := .check }) hf hc] at hi3 ⊢
      have e3 : worker { w with pc := .check } = { w with state := .sleeping, waiting := true, pc := .after } := by
        unfold worker
        dsimp only
        rw [if_pos (by simp [hq, hd])]
      rw [e3] at hi3 ⊢
      exact fin_waiting hi3 hf rfl
    | succ nd ih =>
      intro w hi hf hc hp hq hd
      cases hl : w.deferred with
      | nil => rw [hl] at hd; cases hd
      | cons t ts =>
        apply Finishes.back
        have hi1 := inv_solo hi
        rw [solo_worker hf hc] at hi1 ⊢
        have e1 : worker w = { w with deferred := ts, fired := w.fired ++ [t] } := by unfold worker; rw [hp, hl]
        rw [e1] at hi1 ⊢
        exact ih _ hi1 hf hc hp hq (by rw [hl] at hd; simpa using hd)
  | succ nq ihq =>
    intro nd
    induction nd with
    | zero =>
      intro w hi hf hc hp hq hd
      have hd := List.eq_nil_of_length_eq_zero hd
      cases hl : w.queue with
      | nil => rw [hl] at hq; cases hq
      | cons j js =>
        apply Finishes.back
        have hi1 := inv_solo hi
        rw [solo_worker hf hc] at hi1 ⊢
        have e1 : worker w = { w with pc := .read } := by unfold worker; rw [hp, hd]
        rw [e1] at hi1 ⊢
        apply Finishes.back
        have hi2 := inv_solo hi1
        rw [solo_worker (w := { w with pc := .read }) hf hc] at hi2 ⊢
        have e2 : worker { w with pc := .read } = { w with queue := js, pc := .run j } := by unfold worker; dsimp only; rw [hl]
        rw [e2] at hi2 ⊢
        apply Finishes.back
        have hi3 := inv_solo hi2
        rw [solo_worker (w := { w with queue := js, pc := .run j }) hf hc] at hi3 ⊢
        have e3 : worker { w with queue := js, pc := .run j } = { w with queue := js, done := w.done ++ [j], blocked := false, pc := .drain } := rfl
        rw [e3] at hi3 ⊢
        exact ihq 0 _ hi3 hf hc rfl (by rw [hl] at hq; simpa using hq) (by dsimp only; rw [hd]; rfl)
    | succ nd ih =>
      intro w hi hf hc hp hq hd
      cases hl : w.deferred with
      | nil => rw [hl] at hd; cases hd
      | cons t ts =>
        apply Finishes.back
        have hi1 := inv_solo hi
        rw [solo_worker hf hc] at hi1 ⊢
        have e1 : worker w = { w with deferred := ts, fired := w.fired ++ [t] } := by unfold worker; rw [hp, hl]
        rw [e1] at hi1 ⊢
        exact ih _ hi1 hf hc hp hq (by rw [hl] at hd; simpa using hd)

theorem fin_top {w : Wk Job} (hi : Inv w) (hf : w.frames = []) (hc : w.onCpu = true) (hp : w.pc = .top) : Finishes w := by
  apply Finishes.back
  have hi1 := inv_solo hi
  rw [solo_worker hf hc] at hi1 ⊢
  have e1 : worker w = { w with waiting := false, pc := .drain } := by unfold worker; rw [hp]
  rw [e1] at hi1 ⊢
  exact fin_drain _ _ _ hi1 hf hc rfl rfl rfl

theorem fin_normalize {w : Wk Job} (hi : Inv w) (hf : w.frames = []) (hc : w.onCpu = true) (hp : w.pc = .normalize) : Finishes w := by
  apply Finishes.back
  have hi1 := inv_solo hi
  rw [solo_worker hf hc] at hi1 ⊢
  have e1 : worker w = { w with state := (if w.state = .runnable then .running else w.state), pc := .top } := by unfold worker; rw [hp]
  rw [e1] at hi1 ⊢
  exact fin_top hi1 hf hc rfl

theorem fin_after {w : Wk Job} (hi : Inv w) (hf : w.frames = []) (hc : w.onCpu = true) (hp : w.pc = .after) : Finishes w := by
  cases hw : w.waiting with
  | true => exact fin_waiting hi hf hw
  | false =>
    apply Finishes.back
    have hi1 := inv_solo hi
    rw [solo_worker hf hc] at hi1 ⊢
    have e1 : worker w = { w with pc := .normalize } := by unfold worker; rw [hp]; dsimp only; rw [hw]; rfl
    rw [e1] at hi1 ⊢
    exact fin_normalize hi1 hf hc rfl

theorem fin_check {w : Wk Job} (hi : Inv w) (hf : w.frames = []) (hc : w.onCpu = true) (hp : w.pc = .check) : Finishes w := by
  apply Finishes.back
  have hi1 := inv_solo hi
  rw [solo_worker hf hc] at hi1 ⊢
  by_cases hx : (w.queue.isEmpty && (!w.first || w.deferred.isEmpty)) = true
  · have e1 : worker w = { w with state := .sleeping, waiting := true, pc := .after } := by
      unfold worker; rw [hp]; exact if_pos hx
    rw [e1] at hi1 ⊢
    exact fin_after hi1 hf hc rfl
  · have e1 : worker w = { w with pc := .after } := by
      unfold worker; rw [hp]; exact if_neg hx
    rw [e1] at hi1 ⊢
    exact fin_after hi1 hf hc rfl

theorem fin_run {w : Wk Job} (hi : Inv w) (hf : w.frames = []) (hc : w.onCpu = true) {j : Job} (hp : w.pc = .run j) : Finishes w := by
  apply Finishes.back
  have hi1 := inv_solo hi
  rw [solo_worker hf hc] at hi1 ⊢
  have e1 : worker w = { w with done := w.done ++ [j], blocked := false, pc := .drain } := by unfold worker; rw [hp]
  rw [e1] at hi1 ⊢
  exact fin_drain _ _ _ hi1 hf hc rfl rfl rfl

theorem fin_read {w : Wk Job} (hi : Inv w) (hf : w.frames = []) (hc : w.onCpu = true) (hp : w.pc = .read) : Finishes w := by
  apply Finishes.back
  have hi1 := inv_solo hi
  rw [solo_worker hf hc] at hi1 ⊢
  cases hq : w.queue with
  | nil =>
    have e1 : worker w = { w with pc := .check } := by unfold worker; rw [hp]; dsimp only; rw [hq]
    rw [e1] at hi1 ⊢
    exact fin_check hi1 hf hc rfl
  | cons j js =>
    have e1 : worker w = { w with queue := js, pc := .run j } := by unfold worker; rw [hp]; dsimp only; rw [hq]
    rw [e1] at hi1 ⊢
    exact fin_run hi1 hf hc rfl

/-- On the processor, not about to leave it. -/
theorem fin_on {w : Wk Job} (hi : Inv w) (hf : w.frames = []) (hc : w.onCpu = true) (hp : w.pc ≠ .sched) : Finishes w := by
  cases hx : w.pc with
  | top => exact fin_top hi hf hc hx
  | drain => exact fin_drain _ _ _ hi hf hc hx rfl rfl
  | read => exact fin_read hi hf hc hx
  | run j => exact fin_run hi hf hc hx
  | check => exact fin_check hi hf hc hx
  | after => exact fin_after hi hf hc hx
  | normalize => exact fin_normalize hi hf hc hx
  | sched => exact absurd hx hp

theorem Inv.awake {w : Wk Job} (hi : Inv w) (hf : w.frames = []) (hw : w.waiting = false) (hb : w.blocked = false) : w.state ≠ .sleeping := by
  intro h
  rcases hi.slp h with h | h | h
  · rw [hw] at h; cases h
  · rw [hb] at h; cases h
  · rw [hf] at h; cases h

theorem fin_off {w : Wk Job} (hi : Inv w) (hf : w.frames = []) (hc : w.onCpu = false) (hb : w.blocked = false) (hp : w.pc ≠ .sched) : Finishes w := by
  cases hw : w.waiting with
  | true => exact fin_waiting hi hf hw
  | false =>
    have h1 := hi.awake hf hw hb
    have h2 := hi.off hc
    have hr : w.state = .runnable := by
      cases hs : w.state with
      | running => exact absurd hs h2
      | sleeping => exact absurd hs h1
      | runnable => rfl
    apply Finishes.back
    have hi1 := inv_solo hi
    rw [solo_dispatch hf hc hr] at hi1 ⊢
    exact fin_on hi1 hf rfl hp

theorem fin_sched {w : Wk Job} (hi : Inv w) (hf : w.frames = []) (hc : w.onCpu = true) (hb : w.blocked = false) (hp : w.pc = .sched) : Finishes w := by
  apply Finishes.back
  have hi1 := inv_solo hi
  rw [solo_worker hf hc] at hi1 ⊢
  have e1 : worker w = { w with state := (if w.state = .running then .runnable else w.state), onCpu := false, pc := .top } := by unfold worker; rw [hp]
  rw [e1] at hi1 ⊢
  exact fin_off hi1 hf rfl hb (by simp)

theorem fin_quiet {w : Wk Job} (hi : Inv w) (hf : w.frames = []) (hb : w.blocked = false) : Finishes w := by
  cases hw : w.waiting with
  | true => exact fin_waiting hi hf hw
  | false =>
    cases hc : w.onCpu with
    | true =>
      by_cases hp : w.pc = .sched
      · exact fin_sched hi hf hc hb hp
      · exact fin_on hi hf hc hp
    | false =>
      by_cases hp : w.pc = .sched
      · have h1 := hi.awake hf hw hb
        have h2 := hi.off hc
        have hr : w.state = .runnable := by
          cases hs : w.state with
          | running => exact absurd hs h2
          | sleeping => exact absurd hs h1
          | runnable => rfl
        apply Finishes.back
        have hi1 := inv_solo hi
        rw [solo_dispatch hf hc hr] at hi1 ⊢
        exact fin_sched hi1 hf rfl hb hp
      · exact fin_off hi hf hc hb hp

def Frame.rank : Frame → Nat
  | .wrote _ => 3
  | .clear => 2
  | .cas => 1

theorem producer_rank {w : Wk Job} (hf : w.frames ≠ []) : ∃ v, producer w = some v ∧ v.blocked = w.blocked ∧
    (v.frames.map Frame.rank).sum < (w.frames.map Frame.rank).sum := by
  unfold producer
  cases h : w.frames with
  | nil => exact absurd h hf
  | cons f fs =>
    cases f with
    | wrote e =>
      refine ⟨_, rfl, rfl, ?_⟩
      dsimp only
      split <;> simp [Frame.rank]
    | clear => exact ⟨_, rfl, rfl, by simp [Frame.rank]⟩
    | cas => exact ⟨_, rfl, rfl, by simp [Frame.rank]⟩

theorem fin_all : ∀ (n : Nat) (w : Wk Job), (w.frames.map Frame.rank).sum ≤ n → Inv w → w.blocked = false → Finishes w := by
  intro n
  induction n with
  | zero =>
    intro w hn hi hb
    by_cases hf : w.frames = []
    · exact fin_quiet hi hf hb
    · obtain ⟨v, _, _, h3⟩ := producer_rank hf
      omega
  | succ n ih =>
    intro w hn hi hb
    by_cases hf : w.frames = []
    · exact fin_quiet hi hf hb
    · obtain ⟨v, h1, h2, h3⟩ := producer_rank hf
      apply Finishes.back
      have hi1 := inv_solo hi
      rw [solo_producer h1] at hi1 ⊢
      exact ih v (by omega) hi1 (by rw [h2]; exact hb)

/-! ### Theorems about one worker -/

/-- C46: at every moment the jobs accepted so far are those executed, the current one and those that wait, in this order: each
accepted job is executed exactly once, in the order of acceptance. The same holds for deferred timers. -/
theorem jobs_in_order {cap : Nat} {first : Bool} {w : Wk Job} (h : Reach cap first w) :
    w.accepted = w.done ++ w.current ++ w.queue ∧ w.expired = w.fired ++ w.deferred ∧ w.queue.length ≤ w.cap :=
  ⟨(reach_inv h).acc, (reach_inv h).exp, (reach_inv h).cap⟩

/-- The capacity never changes. -/
theorem cap_const {cap : Nat} {first : Bool} {w : Wk Job} (h : Reach cap first w) : w.cap = cap ∧ w.first = first := by
  induction h with
  | init => exact ⟨rfl, rfl⟩
  | @step w w' ev _ hs ih =>
    have key : w'.cap = w.cap ∧ w'.first = w.first := by
      cases ev with
      | enqueue j =>
        unfold step at hs; dsimp only at hs
        split at hs <;> (cases hs; exact ⟨rfl, rfl⟩)
      | expire j =>
        unfold step at hs; dsimp only at hs
        split at hs <;> cases hs
        exact ⟨rfl, rfl⟩
      | producer =>
        change producer w = some w' at hs
        unfold producer at hs
        split at hs <;> cases hs <;> exact ⟨rfl, rfl⟩
      | worker =>
        change (if w.onCpu = true ∧ w.frames = [] then some (worker w) else none) = some w' at hs
        split at hs
        · cases hs
          unfold worker
          split
          · exact ⟨rfl, rfl⟩
          · split <;> exact ⟨rfl, rfl⟩
          · split <;> exact ⟨rfl, rfl⟩
          · exact ⟨rfl, rfl⟩
          · split <;> exact ⟨rfl, rfl⟩
          · exact ⟨rfl, rfl⟩
          · exact ⟨rfl, rfl⟩
          · exact ⟨rfl, rfl⟩
        · cases hs
      | block =>
        unfold step at hs; dsimp only at hs
        split at hs
        · split at hs <;> cases hs
          exact ⟨rfl, rfl⟩
        · cases hs
      | unblock =>
        unfold step at hs; dsimp only at hs
        split at hs <;> cases hs
        exact ⟨rfl, rfl⟩
      | preempt =>
        unfold step at hs; dsimp only at hs
        split at hs <;> cases hs
        exact ⟨rfl, rfl⟩
      | dispatch =>
        unfold step at hs; dsimp only at hs
        split at hs <;> cases hs
        exact ⟨rfl, rfl⟩
    exact ⟨key.1.trans ih.1, key.2.trans ih.2⟩

/-- C46: `wth_enqueue_on` fails exactly if as many jobs as the queue can hold are accepted and not yet begun; then nothing changes. -/
theorem enqueue_answer {cap : Nat} {first : Bool} {w w' : Wk Job} (h : Reach cap first w) {j : Job} (hs : step w (.enqueue j) = some w') :
    (accepts w = true ↔ w.accepted.length < w.done.length + w.current.length + cap) ∧
    (accepts w = true → w'.accepted = w.accepted ++ [j]) ∧ (accepts w = false → w' = w) := by
  have hi := reach_inv h
  have hc := (cap_const h).1
  have hl : w.accepted.length = w.done.length + w.current.length + w.queue.length := by
    rw [hi.acc]; simp; omega
  unfold step at hs
  dsimp only at hs
  unfold accepts
  split at hs
  · next hx =>
    cases hs
    refine ⟨by simp [hx]; omega, fun _ => rfl, fun hy => by simp [hx] at hy⟩
  · next hx =>
    cases hs
    refine ⟨by simp; omega, fun hy => ?_, fun _ => rfl⟩
    have := of_decide_eq_true hy
    exact absurd this hx

/-- C46: no job and no timer is forgotten: while there is one that has not been begun, and no producer is active, the worker is
not asleep, unless its current job waits for something. -/
theorem never_stranded {cap : Nat} {first : Bool} {w : Wk Job} (h : Reach cap first w) (hf : w.frames = [])
    (hw : w.accepted ≠ w.done ∨ w.expired ≠ w.fired) : w.state ≠ .sleeping ∨ (w.blocked = true ∧ w.current ≠ []) := by
  have hi := reach_inv h
  cases hb : w.blocked with
  | true =>
    obtain ⟨j, hj⟩ := hi.blk hb
    exact Or.inr ⟨rfl, by simp [Wk.current, hj]⟩
  | false =>
    refine Or.inl (hi.awake hf ?_ hb)
    cases hx : w.waiting with
    | false => rfl
    | true =>
      obtain ⟨_, _, h1, h2⟩ := hi.empty hf hx
      rcases hw with h | h
      · exact absurd h1 h
      · exact absurd h2 h

/-- C46: once producers are silent and jobs do not wait any more, the worker executes all accepted jobs and calls all timers, from
whatever state. -/
theorem all_executed {cap : Nat} {first : Bool} {w : Wk Job} (h : Reach cap first w) (hb : w.blocked = false) : Finishes w :=
  fin_all _ w (Nat.le_refl _) (reach_inv h) hb

/-- C46: `wth_wait_for_completion` returns when it sees `waiting_for_jobs`, and then all jobs accepted so far have been executed. (It
is called by a task, so no producer is active.) -/
theorem completion {cap : Nat} {first : Bool} {w : Wk Job} (h : Reach cap first w) (hf : w.frames = []) (hw : w.waiting = true) :
    w.done = w.accepted ∧ w.current = [] ∧ w.fired = w.expired := by
  have hi := reach_inv h
  obtain ⟨_, _, h1, h2⟩ := hi.empty hf hw
  refine ⟨h1.symm, ?_, h2.symm⟩
  unfold Wk.current
  rcases hi.wpc hw with h | h | h <;> rw [h]

/-- C46: a job that waits for something sleeps until it happens. Only for workers other than the first one: for that one it is
wrong. -/
theorem job_waits_partial {cap : Nat} {w : Wk Job} (h : Reach cap false w) (hb : w.blocked = true) : w.state = .sleeping ∧ w.onCpu = false :=
  (reach_inv h).bst (cap_const h).2 hb

/-- Part of C46 that fails: `wth_wakeup_top` wakes the first worker up also if it sleeps in a job (kernel/timer.c:337-338,
wth_aux.c:38). The job goes on although what it waits for, for example a mutex, has not happened. -/
theorem timer_wakes_job_violated : ∃ w : Wk Nat, Reach 4 true w ∧ w.blocked = true ∧ w.onCpu = true ∧ w.state = .running ∧ w.current = [7] := by
  let s0 : Wk Nat := .init 4 true
  let evs : List (Ev Nat) := [.enqueue 7, .producer, .dispatch, .worker, .worker, .worker, .block, .expire 1, .producer, .producer, .dispatch]
  let run : List (Ev Nat) → Option (Wk Nat) → Option (Wk Nat) := fun evs w => evs.foldl (fun w ev => w.bind (step · ev)) w
  have key : ∀ (evs : List (Ev Nat)) (w : Wk Nat), Reach 4 true w → ∀ v, run evs (some w) = some v → Reach 4 true v := by
    intro evs
    induction evs with
    | nil => intro w h v hv; cases hv; exact h
    | cons ev evs ih =>
      intro w h v hv
      change run evs (step w ev) = some v at hv
      cases hs : step w ev with
      | none =>
        rw [hs] at hv
        have : run evs none = none := by
          clear ih hv hs
          induction evs with
          | nil => rfl
          | cons e es ih => exact ih
        rw [this] at hv
        cases hv
      | some u =>
        rw [hs] at hv
        exact ih u (.step h hs) v hv
  have e : run evs (some s0) = some ((run evs (some s0)).get rfl) := rfl
  exact ⟨_, key evs s0 .init _ e, rfl, rfl, rfl, rfl⟩

end

/-! ### The choice of a worker: proofs -/

/-- Sorted by priority, the first is the generic one. -/
structure Ordered (ws : List Info) : Prop where
  sorted : ws.Pairwise (fun a b => a.prio ≤ b.prio)
  head : ∃ w rest, ws = w :: rest ∧ w.prio = 0 ∧ w.named = false ∧ ∀ x ∈ rest, 0 < x.prio

theorem isCmp : Verif.Sort.IsCmp cmpPrio := by
  constructor
  · intro a b; unfold cmpPrio; omega
  · intro a b c; unfold cmpPrio; omega

theorem zero_unique {ws : List Info} (h : Ordered ws) {v : Info} (hv : v ∈ ws) (h0 : v.prio = 0) : v.named = false := by
  obtain ⟨_, w, rest, e, h1, h2, h3⟩ := h
  subst e
  rcases List.mem_cons.mp hv with e | hv
  · rw [e]; exact h2
  · exact absurd h0 (by have := h3 v hv; omega)

theorem ordered_map {ws ws' : List Info} (h : Ordered ws) (e : ws'.map (fun w => (w.named, w.prio)) = ws.map (fun w => (w.named, w.prio))) :
    Ordered ws' := by
  have key : ∀ l : List Info, Ordered l ↔ (l.map (fun w => (w.named, w.prio))).Pairwise (fun a b => a.2 ≤ b.2) ∧
      ∃ p r, l.map (fun w => (w.named, w.prio)) = p :: r ∧ p.2 = 0 ∧ p.1 = false ∧ ∀ x ∈ r, 0 < x.2 := by
    intro l
    constructor
    · rintro ⟨h1, w, rest, e, h2, h3, h4⟩
      refine ⟨List.pairwise_map.mpr h1, _, _, by rw [e]; rfl, h2, h3, ?_⟩
      intro x hx
      obtain ⟨y, hy, rfl⟩ := List.mem_map.mp hx
      exact h4 y hy
    · rintro ⟨h1, p, r, e, h2, h3, h4⟩
      refine ⟨(List.pairwise_map (R := fun a b : Bool × Nat => a.2 ≤ b.2)).mp h1, ?_⟩
      cases l with
      | nil => cases e
      | cons w rest =>
        cases e
        exact ⟨w, rest, rfl, h2, h3, fun x hx => h4 _ (List.mem_map_of_mem hx)⟩
  rw [key] at h ⊢
  rw [e]
  exact h

theorem created_ordered {max : Nat} {ws : List Info} (h : Created max ws) : Ordered ws := by
  induction h with
  | @first w h1 h2 => exact ⟨List.pairwise_singleton _ _, w, [], rfl, h1, h2, by simp⟩
  | @create ws w ws' _ hp hc ih =>
    unfold create at hc
    split at hc
    · cases hc
    · obtain ⟨b, hb, hperm, hs, hst⟩ := Verif.Sort.insertion_sort_correct cmpPrio isCmp (ws ++ [w])
      rw [hb] at hc
      have hc := Option.some.inj hc
      subst hc
      have hs' : b.Pairwise (fun a b => a.prio ≤ b.prio) := hs.imp (fun {a b} h => by unfold cmpPrio at h; omega)
      refine ⟨hs', ?_⟩
      obtain ⟨_, g, rest, e, h1, h2, h3⟩ := ih
      have hg : g ∈ b := hperm.symm.subset (by rw [e]; simp)
      have hfil : b.filter (fun y => cmpPrio g y == 0) = [g] := by
        rw [hst g, e, List.cons_append, List.filter_cons_of_pos (by simp [cmpPrio])]
        congr 1
        rw [List.filter_eq_nil_iff]
        intro y hy
        have : 0 < y.prio := by
          rcases List.mem_append.mp hy with hy | hy
          · exact h3 y hy
          · rw [List.mem_singleton.mp hy]; exact hp
        simp [cmpPrio]
        omega
      cases b with
      | nil => cases hg
      | cons x xs =>
        have hx0 : x.prio = 0 := by
          rcases List.mem_cons.mp hg with e | hm
          · rw [← e]; exact h1
          · have := List.rel_of_pairwise_cons hs' hm
            omega
        rw [List.filter_cons_of_pos (by simp [cmpPrio]; omega)] at hfil
        have e1 := (List.cons.inj hfil).1
        have e2 := (List.cons.inj hfil).2
        refine ⟨x, xs, rfl, hx0, by rw [e1]; exact h2, fun y hy => ?_⟩
        have := List.filter_eq_nil_iff.mp e2 y hy
        simp [cmpPrio] at this
        omega
  | change _ e ih => exact ordered_map ih e

/-- C46: creating a worker keeps the others, and fails exactly if there are too many. -/
theorem create_keeps (max : Nat) (ws : List Info) (w : Info) :
    (ws.length ≥ max → create max ws w = none) ∧ (ws.length < max → ∃ ws', create max ws w = some ws' ∧ ws'.Perm (ws ++ [w])) := by
  unfold create
  constructor
  · intro h; exact if_pos h
  · intro h
    rw [if_neg (by omega)]
    exact Verif.Sort.insertion_sort_perm _ _

/-- The workers that `wth_enqueue_anywhere` may use. -/
def Usable (lowest : Nat) (w : Info) : Prop := w.named = false ∧ w.prio ≤ lowest

theorem anyLoop_spec {ws : List Info} (hs : ws.Pairwise (fun a b => a.prio ≤ b.prio)) (lowest : Nat) : ∀ n, n ≤ ws.length →
    (∀ i, anyLoop ws lowest n = some i → ∃ w, ws[i]? = some w ∧ Usable lowest w ∧ w.room = true ∧
      ∀ k v, k < n → ws[k]? = some v → Usable lowest v → v.room = true → v.prio ≤ w.prio) ∧
    (anyLoop ws lowest n = none → ∀ k v, k < n → ws[k]? = some v → Usable lowest v → v.room = false) := by
  intro n
  induction n with
  | zero => intro _; exact ⟨fun i h => (by cases h), fun _ k v hk => absurd hk (by omega)⟩
  | succ n ih =>
    intro hn
    obtain ⟨ih1, ih2⟩ := ih (by omega)
    have hw : ws[n]? = some ws[n] := List.getElem?_eq_getElem (by omega)
    have skip : (Usable lowest ws[n] → ws[n].room = false) → anyLoop ws lowest (n + 1) = anyLoop ws lowest n →
        (∀ i, anyLoop ws lowest (n + 1) = some i → ∃ w, ws[i]? = some w ∧ Usable lowest w ∧ w.room = true ∧
          ∀ k v, k < n + 1 → ws[k]? = some v → Usable lowest v → v.room = true → v.prio ≤ w.prio) ∧
        (anyLoop ws lowest (n + 1) = none → ∀ k v, k < n + 1 → ws[k]? = some v → Usable lowest v → v.room = false) := by
      intro hu he
      rw [he]
      constructor
      · intro i hi
        obtain ⟨w, h1, h2, h3, h4⟩ := ih1 i hi
        refine ⟨w, h1, h2, h3, fun k v hk hv hv1 hv2 => ?_⟩
        by_cases e : k = n
        · subst e
          rw [hw] at hv
          cases hv
          rw [hu hv1] at hv2
          cases hv2
        · exact h4 k v (by omega) hv hv1 hv2
      · intro hi k v hk hv hv1
        by_cases e : k = n
        · subst e
          rw [hw] at hv
          cases hv
          exact hu hv1
        · exact ih2 hi k v (by omega) hv hv1
    have he : anyLoop ws lowest (n + 1) = (if ws[n].named then anyLoop ws lowest n
      else if ws[n].prio > lowest then anyLoop ws lowest n
      else if ws[n].room then some n else anyLoop ws lowest n) := by
      conv => lhs; unfold anyLoop
      rw [hw]
    by_cases h1 : ws[n].named = true
    · rw [if_pos h1] at he
      exact skip (fun hu => by rw [hu.1] at h1; cases h1) he
    · rw [if_neg h1] at he
      by_cases h2 : ws[n].prio > lowest
      · rw [if_pos h2] at he
        exact skip (fun hu => absurd hu.2 (by omega)) he
      · rw [if_neg h2] at he
        by_cases h3 : ws[n].room = true
        · rw [if_pos h3] at he
          rw [he]
          constructor
          · intro i hi
            cases hi
            refine ⟨ws[n], hw, ⟨by simpa using h1, by omega⟩, h3, fun k v hk hv _ _ => ?_⟩
            by_cases e : k = n
            · subst e
              rw [hw] at hv
              cases hv
              exact Nat.le_refl _
            · have hkl : k < ws.length := by omega
              rw [List.getElem?_eq_getElem hkl] at hv
              cases hv
              exact List.pairwise_iff_getElem.mp hs k n hkl (by omega) (by omega)
          · intro h; cases h
        · rw [if_neg h3] at he
          exact skip (fun _ => by simpa using h3) he

/-- C46: `wth_enqueue_anywhere` gives the job to a generic worker that is urgent enough and has room, among these to the least
urgent one; it fails exactly if there is none. -/
theorem anywhere_answer {max : Nat} {ws : List Info} (h : Created max ws) (lowest : Nat) :
    (∀ i, anywhere ws lowest = some i → ∃ w, ws[i]? = some w ∧ Usable lowest w ∧ w.room = true ∧
      ∀ v ∈ ws, Usable lowest v → v.room = true → v.prio ≤ w.prio) ∧
    (anywhere ws lowest = none ↔ ∀ v ∈ ws, Usable lowest v → v.room = false) := by
  have ho := created_ordered h
  obtain ⟨g, rest, e, h1, h2, h3⟩ := ho.head
  have key : (∀ i, anywhere ws lowest = some i → ∃ w, ws[i]? = some w ∧ Usable lowest w ∧ w.room = true ∧
      ∀ v ∈ ws, Usable lowest v → v.room = true → v.prio ≤ w.prio) ∧
      (anywhere ws lowest = none → ∀ v ∈ ws, Usable lowest v → v.room = false) := by
    unfold anywhere
    by_cases hl : lowest = 0
    · rw [if_pos hl]
      have e0 : ws[0]? = some g := by rw [e]; rfl
      rw [e0]
      have hu : ∀ v ∈ ws, Usable lowest v → v = g := by
        intro v hv hv1
        rw [e] at hv
        rcases List.mem_cons.mp hv with e | hv
        · exact e
        · have := h3 v hv
          exact absurd hv1.2 (by omega)
      dsimp only
      by_cases hr : g.room = true
      · rw [if_pos hr]
        refine ⟨fun i hi => ?_, fun hi => (by cases hi)⟩
        cases hi
        exact ⟨g, e0, ⟨h2, by omega⟩, hr, fun v hv hv1 _ => by rw [hu v hv hv1]; exact Nat.le_refl _⟩
      · rw [if_neg hr]
        exact ⟨fun i hi => (by cases hi), fun _ v hv hv1 => by rw [hu v hv hv1]; simpa using hr⟩
    · rw [if_neg hl]
      obtain ⟨k1, k2⟩ := anyLoop_spec ho.sorted lowest ws.length (Nat.le_refl _)
      constructor
      · intro i hi
        obtain ⟨w, a1, a2, a3, a4⟩ := k1 i hi
        refine ⟨w, a1, a2, a3, fun v hv => ?_⟩
        obtain ⟨k, hk, rfl⟩ := List.mem_iff_getElem.mp hv
        exact a4 k _ hk (List.getElem?_eq_getElem hk)
      · intro hi v hv
        obtain ⟨k, hk, rfl⟩ := List.mem_iff_getElem.mp hv
        exact k2 hi k _ hk (List.getElem?_eq_getElem hk)
  refine ⟨key.1, key.2, ?_⟩
  intro hn
  cases hx : anywhere ws lowest with
  | none => rfl
  | some i =>
    obtain ⟨w, a1, a2, a3, _⟩ := key.1 i hx
    have := hn w (List.mem_of_getElem? a1) a2
    rw [a3] at this
    cases this

theorem findLoop_spec {ws : List Info} (hs : ws.Pairwise (fun a b => a.prio ≤ b.prio)) (lowest : Nat) : ∀ n, n ≤ ws.length →
    (∃ w, ws[findLoop ws lowest n]? = some w ∧ Usable lowest w ∧ ∀ k v, k < n → ws[k]? = some v → Usable lowest v → v.prio ≤ w.prio) ∨
    (findLoop ws lowest n = 0 ∧ ∀ k v, k < n → ws[k]? = some v → ¬ Usable lowest v) := by
  intro n
  induction n with
  | zero => intro _; exact Or.inr ⟨rfl, fun k v hk => absurd hk (by omega)⟩
  | succ n ih =>
    intro hn
    have hw : ws[n]? = some ws[n] := List.getElem?_eq_getElem (by omega)
    have he : findLoop ws lowest (n + 1) = (if ws[n].named then findLoop ws lowest n else if ws[n].prio ≤ lowest then n else findLoop ws lowest n) := by
      conv => lhs; unfold findLoop
      rw [hw]
    have skip : ¬ Usable lowest ws[n] → findLoop ws lowest (n + 1) = findLoop ws lowest n →
      (∃ w, ws[findLoop ws lowest (n + 1)]? = some w ∧ Usable lowest w ∧ ∀ k v, k < n + 1 → ws[k]? = some v → Usable lowest v → v.prio ≤ w.prio) ∨
      (findLoop ws lowest (n + 1) = 0 ∧ ∀ k v, k < n + 1 → ws[k]? = some v → ¬ Usable lowest v) := by
      intro hu he
      rw [he]
      rcases ih (by omega) with ⟨w, h1, h2, h3⟩ | ⟨h1, h2⟩
      · refine Or.inl ⟨w, h1, h2, fun k v hk hv hv1 => ?_⟩
        by_cases e : k = n
        · subst e; rw [hw] at hv; cases hv; exact absurd hv1 hu
        · exact h3 k v (by omega) hv hv1
      · refine Or.inr ⟨h1, fun k v hk hv => ?_⟩
        by_cases e : k = n
        · subst e; rw [hw] at hv; cases hv; exact hu
        · exact h2 k v (by omega) hv
    by_cases h1 : ws[n].named = true
    · rw [if_pos h1] at he
      exact skip (fun hu => by rw [hu.1] at h1; cases h1) he
    · rw [if_neg h1] at he
      by_cases h2 : ws[n].prio ≤ lowest
      · rw [if_pos h2] at he
        rw [he]
        refine Or.inl ⟨ws[n], hw, ⟨by simpa using h1, h2⟩, fun k v hk hv _ => ?_⟩
        by_cases e : k = n
        · subst e; rw [hw] at hv; cases hv; exact Nat.le_refl _
        · have hkl : k < ws.length := by omega
          rw [List.getElem?_eq_getElem hkl] at hv
          cases hv
          exact List.pairwise_iff_getElem.mp hs k n hkl (by omega) (by omega)
      · rw [if_neg h2] at he
        exact skip (fun hu => h2 hu.2) he

/-- C46: `wth_find_worker` returns the least urgent generic worker among those that are urgent enough. -/
theorem find_answer {max : Nat} {ws : List Info} (h : Created max ws) (lowest : Nat) :
    ∃ w, ws[find ws lowest]? = some w ∧ Usable lowest w ∧ ∀ v ∈ ws, Usable lowest v → v.prio ≤ w.prio := by
  have ho := created_ordered h
  obtain ⟨g, rest, e, h1, h2, h3⟩ := ho.head
  have e0 : ws[0]? = some g := by rw [e]; rfl
  unfold find
  by_cases hl : lowest = 0
  · rw [if_pos hl]
    refine ⟨g, e0, ⟨h2, by omega⟩, fun v _ hv => ?_⟩
    have := hv.2
    omega
  · rw [if_neg hl]
    rcases findLoop_spec ho.sorted lowest ws.length (Nat.le_refl _) with ⟨w, k1, k2, k3⟩ | ⟨_, k2⟩
    · refine ⟨w, k1, k2, fun v hv => ?_⟩
      obtain ⟨k, hk, rfl⟩ := List.mem_iff_getElem.mp hv
      exact k3 k _ hk (List.getElem?_eq_getElem hk)
    · exact absurd ⟨h2, by omega⟩ (k2 0 g (by rw [e]; simp) e0)

theorem pickLoop_spec (ws : List Info) : ∀ (i : Nat) (sel : Option (Nat × Nat)),
    match pickLoop ws i sel with
    | none => sel = none ∧ ∀ v ∈ ws, v.runnable = false
    | some (k, p) => (sel = some (k, p) ∨ ∃ w, i ≤ k ∧ ws[k - i]? = some w ∧ w.runnable = true ∧ w.prio = p) ∧
        (∀ q, sel = some q → p ≤ q.2) ∧ ∀ v ∈ ws, v.runnable = true → p ≤ v.prio := by
  induction ws with
  | nil =>
    intro i sel
    show match sel with | none => _ | some (k, p) => _
    cases sel with
    | none => exact ⟨rfl, by simp⟩
    | some q => exact ⟨Or.inl rfl, fun q' h => by cases h; exact Nat.le_refl _, by simp⟩
  | cons w ws ih =>
    intro i sel
    let sel' := if w.runnable then
      (match sel with
        | none => some (i, w.prio)
        | some (k, p) => if w.prio < p then some (i, w.prio) else some (k, p)) else sel
    have e : pickLoop (w :: ws) i sel = pickLoop ws (i + 1) sel' := rfl
    have hsel : (sel' = sel ∨ sel' = some (i, w.prio) ∧ w.runnable = true) ∧ (∀ q, sel = some q → ∃ q', sel' = some q' ∧ q'.2 ≤ q.2) ∧
        (w.runnable = true → ∃ q', sel' = some q' ∧ q'.2 ≤ w.prio) := by
      cases hr : w.runnable with
      | false =>
        have : sel' = sel := by show (if w.runnable = true then _ else sel) = sel; rw [hr]; rfl
        rw [this]
        exact ⟨Or.inl rfl, fun q h => ⟨q, h, Nat.le_refl _⟩, fun h => by cases h⟩
      | true =>
        cases sel with
        | none =>
          have : sel' = some (i, w.prio) := by show (if w.runnable = true then _ else none) = _; rw [hr]; rfl
          rw [this]
          exact ⟨Or.inr ⟨rfl, rfl⟩, (fun q h => by cases h), fun _ => ⟨_, rfl, Nat.le_refl _⟩⟩
        | some q =>
          obtain ⟨k, p⟩ := q
          have : sel' = if w.prio < p then some (i, w.prio) else some (k, p) := by
            show (if w.runnable = true then (if w.prio < p then some (i, w.prio) else some (k, p)) else _) = _
            rw [hr]; rfl
          rw [this]
          by_cases hlt : w.prio < p
          · rw [if_pos hlt]
            exact ⟨Or.inr ⟨rfl, rfl⟩, fun q h => ⟨_, rfl, by cases h; exact Nat.le_of_lt hlt⟩, fun _ => ⟨_, rfl, Nat.le_refl _⟩⟩
          · rw [if_neg hlt]
            exact ⟨Or.inl rfl, fun q h => ⟨_, rfl, by cases h; exact Nat.le_refl _⟩, fun _ => ⟨_, rfl, by simpa using hlt⟩⟩
    have hih := ih (i + 1) sel'
    rw [e]
    obtain ⟨s1, s2, s3⟩ := hsel
    clear_value sel'
    cases hres : pickLoop ws (i + 1) sel' with
    | none =>
      rw [hres] at hih
      obtain ⟨a1, a2⟩ := hih
      have hsn : sel = none := by
        cases sel with
        | none => rfl
        | some q => obtain ⟨q', h, _⟩ := s2 q rfl; rw [a1] at h; cases h
      refine ⟨hsn, fun v hv => ?_⟩
      rcases List.mem_cons.mp hv with e | hv
      · rw [e]
        cases hr : w.runnable with
        | false => rfl
        | true => obtain ⟨q', h, _⟩ := s3 hr; rw [a1] at h; cases h
      · exact a2 v hv
    | some r =>
      obtain ⟨k, p⟩ := r
      rw [hres] at hih
      obtain ⟨a1, a2, a3⟩ := hih
      refine ⟨?_, ?_, ?_⟩
      · rcases a1 with a1 | ⟨x, b1, b2, b3, b4⟩
        · rcases s1 with s1 | ⟨s1, hr⟩
          · exact Or.inl (by rw [← s1]; exact a1)
          · rw [s1] at a1
            cases a1
            exact Or.inr ⟨w, Nat.le_refl _, by simp, hr, rfl⟩
        · refine Or.inr ⟨x, by omega, ?_, b3, b4⟩
          have : k - i = (k - (i + 1)) + 1 := by omega
          rw [this]
          exact b2
      · intro q hq
        obtain ⟨q', h, hle⟩ := s2 q hq
        exact Nat.le_trans (a2 q' h) hle
      · intro v hv hr
        rcases List.mem_cons.mp hv with e | hv
        · rw [e] at hr ⊢
          obtain ⟨q', h, hle⟩ := s3 hr
          exact Nat.le_trans (a2 q' h) hle
        · exact a3 v hv hr

/-- C46: `wth_get_runnable_thread` returns a most urgent runnable worker, and none exactly if no worker is runnable. -/
theorem pick_answer (ws : List Info) :
    (∀ i, pick ws = some i → ∃ w, ws[i]? = some w ∧ w.runnable = true ∧ ∀ v ∈ ws, v.runnable = true → w.prio ≤ v.prio) ∧
    (pick ws = none ↔ ∀ v ∈ ws, v.runnable = false) := by
  have h := pickLoop_spec ws 0 none
  unfold pick
  cases hr : pickLoop ws 0 none with
  | none =>
    rw [hr] at h
    exact ⟨fun i hi => (by cases hi), fun _ => h.2, fun _ => rfl⟩
  | some r =>
    obtain ⟨k, p⟩ := r
    rw [hr] at h
    obtain ⟨a1, _, a3⟩ := h
    rcases a1 with a1 | ⟨w, _, b2, b3, b4⟩
    · cases a1
    · refine ⟨fun i hi => ?_, fun hi => (by cases hi), fun hn => ?_⟩
      · cases hi
        exact ⟨w, b2, b3, fun v hv hv1 => by rw [b4]; exact a3 v hv hv1⟩
      · have := hn w (List.mem_of_getElem? b2)
        rw [b3] at this
        cases this

/-- Three workers: the generic one, a dedicated one and another generic one. -/
example : Created 16 [⟨false, 0, true, true⟩, ⟨true, 1, true, false⟩, ⟨false, 3, true, true⟩] := by
  have h1 : Created 16 [⟨false, 0, true, true⟩] := .first rfl rfl
  have h2 : Created 16 [⟨false, 0, true, true⟩, ⟨false, 3, true, true⟩] := .create h1 (w := ⟨false, 3, true, true⟩) (by decide) rfl
  exact .create h2 (w := ⟨true, 1, true, false⟩) (by decide) rfl

/-- Two jobs, an interrupt during the first enqueue, and the worker executes both. -/
example : ∃ w : Wk Nat, Reach 2 true w ∧ w.accepted = [5, 6] ∧ w.frames = [.wrote false, .wrote true] ∧ w.blocked = false ∧ accepts w = false := by
  have h1 := Reach.step (Job := Nat) (w' := _) (ev := .enqueue 5) (.init (cap := 2) (first := true)) rfl
  have h2 := Reach.step (w' := _) (ev := .enqueue 6) h1 rfl
  exact ⟨_, h2, rfl, rfl, rfl, rfl⟩

end Verif.Wth
