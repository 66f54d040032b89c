import Verif.Kmutex
/-!
# `waitpid` (`kernel/waitpid.c`, `kernel/exit.c`, parts of `fork.c`, `signal.c`, `wobj.c`)

User processes have one thread, so task and process are the same thing; pids are positive naturals, `0` is the
kernel process, `1` is init.  Every step is a section executed with preemption disabled.  Not modelled: copying
the status and the resource usage to user memory, kernel threads (`kthread_join`), pending signal sets (a signal
that interrupts a wait is the step `sigWake` followed by `resume _ true`).
-/

namespace Verif.Waitpid

open Verif.Kmutex (upd upd_same upd_other some_pair)

/-- Arguments of `wait4`: the pid argument and the options WUNTRACED, WCONTINUED, WNOHANG. -/
structure WArg where
  tid : Int
  untraced : Bool
  cont : Bool
  nohang : Bool
deriving DecidableEq, Repr

/-- `wstatus` (exit.c:262, signal.c:340, 381). -/
inductive Status | exited (code : Nat) | stoppedBy (sig : Nat) | continued
deriving DecidableEq, Repr

/-- Task state; `run` is RUNNING or RUNNABLE, `sleepW a` is SLEEPING on a `WOBJ_TASK` object (in `wait4` with
arguments `a`), `sleepO` is SLEEPING on anything else. -/
inductive PSt | run | sleepW (a : WArg) | sleepO | stopped | zombie
deriving DecidableEq, Repr

/-- The fields of `struct task` and `struct process` used here (sched.h:120-216, process.h:30-60).
`waiters` is `tasks_waiting_list`, `call` says that the process is inside `wait4`. -/
structure Proc where
  parent : Nat
  pgid : Nat
  state : PSt
  stopPending : Bool := false
  stopRep : Bool := false
  vforkStopped : Bool := false
  vforked : Bool := false
  wstatus : Status := .exited 0
  ignChld : Bool := false
  autoReap : Bool := false
  children : List Nat := []
  waiters : List Nat := []
  call : Option WArg := none
deriving DecidableEq, Repr

abbrev Table := Nat → Option Proc

inductive Reason | died | stopped | continued
deriving DecidableEq, Repr

/-- Observable events. -/
inductive Ev
  | forked (p c : Nat)
  | exited (c : Nat) (st : Status) (reaped : Bool)
  | stopSig (c : Nat)
  | contSig (c : Nat)
  /-- `wait4` returned the pid of the child `c` with this status; `dead`: the child was removed. -/
  | waited (p : Nat) (a : WArg) (c : Nat) (st : Status) (dead : Bool)
  | echild (p : Nat) (a : WArg)
  | zero (p : Nat) (a : WArg)
  | eintr (p : Nat) (a : WArg)
deriving DecidableEq, Repr

/-! ## Model -/

def modify (s : Table) (p : Nat) (f : Proc → Proc) : Table :=
  match s p with
  | none => s
  | some P => upd s p (some (f P))

/-- waitpid.c:14-57 `waitpid_should_skip_child`. -/
def skip (W : Proc) (c : Nat) (C : Proc) (tid : Int) : Bool :=
  if tid > 0 then decide ((c : Int) ≠ tid)
  else if tid < -1 then decide ((C.pgid : Int) ≠ -tid)
  else if tid = 0 then decide (C.pgid ≠ W.pgid)
  else false

/-- sched.h:237-243 `is_task_stopped`. -/
def isStopped (C : Proc) : Bool :=
  match C.state with
  | .stopped => true
  | .sleepW _ => C.stopPending
  | .sleepO => C.stopPending
  | _ => false

/-- waitpid.c:59-87 `get_task_if_changed`: the new value of `stop_reported`, or `none` for "not changed". -/
def changed (C : Proc) (a : WArg) : Option Bool :=
  if C.state = .zombie then some C.stopRep
  else if isStopped C && !C.stopRep && a.untraced then some true
  else if !isStopped C && C.stopRep && a.cont then some false
  else none

/-- waitpid.c:89-113 `get_child_with_changed_status`: the child found with its new flag, and the count. -/
def scan (s : Table) (W : Proc) (a : WArg) : List Nat → Option (Nat × Bool) × Nat
  | [] => (none, 0)
  | c :: cs =>
    match s c with
    | none => scan s W a cs
    | some C =>
      if skip W c C a.tid then scan s W a cs
      else match changed C a with
        | some b => (some (c, b), 1)
        | none => ((scan s W a cs).1, (scan s W a cs).2 + 1)

/-- wobj.c:52-86 `wait_obj_reset`: removal from the list of the awaited task. -/
def dropWaiter (s : Table) (c w : Nat) : Table :=
  modify s c (fun C => { C with waiters := C.waiters.filter (· ≠ w) })

/-- wobj.c:113-187 `wake_up` of a task sleeping in `wait4`. -/
def wake (s : Table) (w : Nat) : Table :=
  match s w with
  | none => s
  | some W =>
    match W.state with
    | .sleepW a =>
      let s1 := if a.tid > 0 then dropWaiter s a.tid.toNat w else s
      modify s1 w (fun W => { W with state := if W.stopPending then .stopped else .run, stopPending := false })
    | _ => s

/-- waitpid.c:130-137 `is_good_reason_to_wake_up_task`. -/
def goodReason (a : WArg) (r : Reason) : Bool :=
  decide (r = .died) || (decide (r = .stopped) && a.untraced) || (decide (r = .continued) && a.cont)

/-- The arguments of the `wait4` in which `w` sleeps. -/
def sleepingArg (s : Table) (w : Nat) : Option WArg :=
  match s w with
  | some W => match W.state with
    | .sleepW a => some a
    | _ => none
  | none => none

/-- waitpid.c:146-164: the loop over `tasks_waiting_list`. -/
def wakeList (r : Reason) : List Nat → Table → Table
  | [], s => s
  | w :: ws, s =>
    match sleepingArg s w with
    | some a => wakeList r ws (if goodReason a r then wake s w else s)
    | none => wakeList r ws s

/-- waitpid.c:166-176 (with `is_waiting_on_multiple_children`, 115-128). -/
def wakeParent (r : Reason) (s : Table) (c : Nat) : Table :=
  match s c with
  | none => s
  | some C =>
    if C.parent > 0 then
      match s C.parent with
      | none => s
      | some P =>
        match sleepingArg s C.parent with
        | none => s
        | some a => if a.tid < 0 ∧ skip P c C a.tid = false ∧ goodReason a r then wake s C.parent else s
    else s

/-- waitpid.c:139-180 `wake_up_tasks_waiting_on` (the SIGCHLD signal is a separate step). -/
def wakeOn (r : Reason) (s : Table) (c : Nat) : Table :=
  match s c with
  | none => s
  | some C => wakeParent r (wakeList r C.waiters s) c

/-- Removal of a task: sched.c:870-886 `remove_task`, process.c:375-390 `free_task`. -/
def remove (s : Table) (c : Nat) : Table :=
  match s c with
  | none => s
  | some C => modify (upd s c none) C.parent (fun P => { P with children := P.children.filter (· ≠ c) })

/-- exit.c:74-95, one iteration of `handle_children_of_dying_process`. -/
def adopt (p : Nat) (ign : Bool) (s : Table) (c : Nat) : Table :=
  let s1 := modify s p (fun P => { P with children := P.children.filter (· ≠ c) })
  let s2 := modify s1 1 (fun P => { P with children := P.children ++ [c] })
  let s3 := modify s2 c (fun C => { C with parent := 1, autoReap := C.autoReap || ign })
  match s3 c with
  | some C => if C.state = .zombie then wakeOn .died s3 c else s3
  | none => s3

def adoptAll (p : Nat) (ign : Bool) : List Nat → Table → Table
  | [], s => s
  | c :: cs, s => adoptAll p ign cs (adopt p ign s c)

/-- process.c:543-558 `unblock_parent_of_vforked_child`; `none`: failed assertion. -/
def unblockParent (s : Table) (p : Nat) : Option Table :=
  match s p with
  | some P =>
    if P.state = .stopped ∧ P.vforkStopped = true then
      some (upd s p (some { P with state := .run, vforkStopped := false }))
    else none
  | none => none

/-- `parent->pi->sa_handlers[SIGCHLD - 1] == SIG_IGN` (exit.c:317-319). -/
def ignores (s : Table) (p : Nat) : Bool := match s p with | some P => P.ignChld | none => false

/-- exit.c:262-330 `terminate_process` from the change of state on, and the removal by
`free_mem_for_zombie_task` (switch.c:381-389, process.c:172-178).  Init does not terminate. -/
def doExit (s : Table) (p : Nat) (P : Proc) (st : Status) : Option (Table × List Ev) :=
  let s1 := upd s p (some { P with state := .zombie, wstatus := st, call := none })
  let s2 := adoptAll p P.ignChld P.children s1
  let s3 := wakeOn .died s2 p
  let s4 := if P.vforked then unblockParent s3 P.parent else some s3
  match s4 with
  | none => none
  | some s4 =>
    let auto := P.autoReap || ignores s4 P.parent
    if auto then some (remove s4 p, [.exited p st true])
    else some (s4, [.exited p st false])

/-- waitpid.c:189-300, one iteration of the loop in `sys_wait4` for the process `p`. -/
def waitIter (s : Table) (p : Nat) (P : Proc) (a : WArg) : Table × List Ev :=
  let ret (s : Table) : Table := modify s p (fun P => { P with call := none })
  let found (c : Nat) (b : Bool) : Table × List Ev :=
    match s c with
    | none => (s, [])
    | some C =>
      if C.state = .zombie then (ret (remove s c), [.waited p a c C.wstatus true])
      else (ret (upd s c (some { C with stopRep := b })), [.waited p a c C.wstatus false])
  let sleep (s : Table) : Table := modify s p (fun P => { P with call := some a, state := .sleepW a })
  if a.tid > 0 then
    match s a.tid.toNat with
    | none => (ret s, [.echild p a])
    | some C =>
      if C.parent ≠ p then (ret s, [.echild p a])
      else match changed C a with
        | some b => found a.tid.toNat b
        | none =>
          if a.nohang then (ret s, [.zero p a])
          else (sleep (upd s a.tid.toNat (some { C with waiters := C.waiters ++ [p] })), [])
  else
    let r := scan s P a P.children
    match r.1 with
    | some (c, b) => found c b
    | none =>
      if r.2 = 0 then (ret s, [.echild p a])
      else if a.nohang then (ret s, [.zero p a])
      else (sleep s, [])

inductive Op
  | fork (p c : Nat)
  | vfork (p c : Nat)
  | exec (c : Nat)
  | exit (p code : Nat)
  | stop (c sig : Nat)
  | cont (c : Nat)
  | sigWake (p : Nat)
  | wait (p : Nat) (a : WArg)
  | resume (p : Nat) (sig : Bool)
  | setIgn (p : Nat) (b : Bool)
  | setpgid (c g : Nat)
  | sleepO (p : Nat)
  | wakeO (p : Nat)
deriving DecidableEq, Repr

/-- process.c:236-243, 289 and fork.c:99-139: the child is a copy of the parent. -/
def childOf (p : Nat) (P : Proc) (v : Bool) : Proc :=
  { P with parent := p, state := .run, vforked := v, autoReap := false, children := [], waiters := [], call := none }

/-- `set` the state after a stop signal (signal.c:362-370). -/
def stopState (C : Proc) : Proc :=
  match C.state with
  | .run => { C with state := .stopped }
  | .sleepW _ => { C with stopPending := true }
  | .sleepO => { C with stopPending := true }
  | _ => C

/-- signal.c:397-403 -/
def contState (C : Proc) : Proc :=
  match C.state with
  | .stopped => { C with state := .run }
  | .sleepW _ => { C with stopPending := false }
  | .sleepO => { C with stopPending := false }
  | _ => C

/-- One step; `none`: not possible in this state. -/
def step (s : Table) : Op → Option (Table × List Ev)
  | .fork p c =>
    match s p with
    | none => none
    | some P =>
      if P.state = .run ∧ P.call = none ∧ s c = none ∧ 0 < c ∧ 0 < p then
        some (upd (upd s p (some { P with children := P.children ++ [c] })) c (some (childOf p P false)),
          [.forked p c])
      else none
  | .vfork p c =>
    match s p with
    | none => none
    | some P =>
      if P.state = .run ∧ P.call = none ∧ s c = none ∧ 0 < c ∧ 0 < p then
        some (upd (upd s p (some { P with children := P.children ++ [c], state := .stopped, vforkStopped := true }))
          c (some (childOf p P true)), [.forked p c])
      else none
  | .exec c =>
    match s c with
    | none => none
    | some C =>
      if C.state = .run ∧ C.call = none then
        if C.vforked then
          match unblockParent s C.parent with
          | none => none
          | some s1 => some (modify s1 c (fun C => { C with vforked := false }), [])
        else some (s, [])
      else none
  | .exit p code =>
    match s p with
    | none => none
    | some P => if P.state = .run ∧ p ≠ 1 ∧ 0 < p then doExit s p P (.exited code) else none
  | .stop c sig =>
    match s c with
    | none => none
    | some C =>
      if C.state = .zombie ∨ c = 0 ∨ c = 1 then none
      else some (modify (wakeOn .stopped (modify s c (fun C => { C with wstatus := .stoppedBy sig })) c) c stopState,
        [.stopSig c])
  | .cont c =>
    match s c with
    | none => none
    | some C =>
      if C.state = .zombie ∨ c = 0 ∨ c = 1 ∨ C.vforkStopped = true then none
      else some (modify (wakeOn .continued (modify s c (fun C => { C with wstatus := .continued })) c) c contState,
        [.contSig c])
  | .sigWake p =>
    match s p with
    | none => none
    | some P =>
      if P.vforkStopped then none
      else match P.state with
        | .sleepW _ => some (wake (modify s p (fun P => { P with stopPending := false })) p, [])
        | .sleepO => some (modify s p (fun P => { P with stopPending := false, state := .run }), [])
        | .stopped => some (modify s p (fun P => { P with stopPending := false, state := .run }), [])
        | _ => none
  | .wait p a =>
    match s p with
    | none => none
    | some P => if P.state = .run ∧ P.call = none ∧ 0 < p then some (waitIter s p P a) else none
  | .resume p sig =>
    match s p with
    | none => none
    | some P =>
      match P.call with
      | none => none
      | some a =>
        if P.state = .run ∧ 0 < p then
          if sig then some (modify s p (fun P => { P with call := none }), [.eintr p a])
          else some (waitIter s p P a)
        else none
  | .setIgn p b =>
    match s p with
    | none => none
    | some P => if P.state = .run ∧ P.call = none then some (modify s p (fun P => { P with ignChld := b }), []) else none
  | .setpgid c g => some (modify s c (fun C => { C with pgid := g }), [])
  | .sleepO p =>
    match s p with
    | none => none
    | some P => if P.state = .run ∧ P.call = none then some (modify s p (fun P => { P with state := .sleepO }), []) else none
  | .wakeO p =>
    match s p with
    | none => none
    | some P =>
      if P.state = .sleepO then
        some (modify s p (fun P => { P with state := if P.stopPending then .stopped else .run, stopPending := false }), [])
      else none

/-- Only init exists at the beginning. -/
def init : Table := fun p => if p = 1 then some { parent := 0, pgid := 1, state := .run } else none

/-- All histories; `zg` allows `setpgid` on a dead (not yet reaped) process. -/
inductive Exec (zg : Bool) : Table → List Ev → Prop
  | init : Exec zg init []
  | step {s tr op s' evs} : Exec zg s tr →
      (zg = true ∨ ∀ c g, op = .setpgid c g → ∀ C, s c = some C → C.state ≠ .zombie) →
      step s op = some (s', evs) → Exec zg s' (tr ++ evs)

/-! ## Specification -/

/-- `c` is a child of `p` covered by the pid argument `tid` of `waitpid`. -/
def Matches (s : Table) (p c : Nat) (tid : Int) : Prop :=
  ∃ P C, s p = some P ∧ s c = some C ∧ C.parent = p ∧
    ((tid > 0 ∧ tid = c) ∨ tid = -1 ∨ (tid < -1 ∧ (C.pgid : Int) = -tid) ∨ (tid = 0 ∧ C.pgid = P.pgid))

/-- What the history says about a pid. -/
inductive Life | absent | alive | dead (st : Status)
deriving DecidableEq, Repr

def lifeStep (c : Nat) (l : Life) : Ev → Life
  | .forked _ x => if x = c then .alive else l
  | .exited x st r => if x = c then (if r then .absent else .dead st) else l
  | .waited _ _ x _ d => if x = c ∧ d = true then .absent else l
  | _ => l

def life (c : Nat) (tr : List Ev) : Life := tr.foldl (lifeStep c) (if c = 1 then .alive else .absent)

/-! ## Proofs -/

/-- `s'` is `s` with changes that do not affect the family tree, groups, deaths, and put nobody to sleep in
`wait4`. -/
structure MildP (s' : Table) (P P' : Proc) : Prop where
  par : P'.parent = P.parent
  grp : P'.pgid = P.pgid
  kids : P'.children = P.children
  wst : P.state = .zombie → P'.wstatus = P.wstatus
  st : P'.state = P.state ∨ (P.state ≠ .zombie ∧ P'.state ≠ .zombie ∧ ∀ a, P'.state ≠ .sleepW a)
  wait : ∀ w ∈ P.waiters, w ∈ P'.waiters ∨ sleepingArg s' w = none

def Mild (s s' : Table) : Prop :=
  ∀ x, (s x = none ∧ s' x = none) ∨ ∃ P P', s x = some P ∧ s' x = some P' ∧ MildP s' P P'

theorem sleepingArg_eq {s : Table} {w a} : sleepingArg s w = some a ↔ ∃ W, s w = some W ∧ W.state = .sleepW a := by
  unfold sleepingArg
  cases h : s w with
  | none => simp
  | some W =>
    simp
    cases hs : W.state <;> simp

theorem mild_sleep {s s' : Table} (h : Mild s s') {w a} (hs : sleepingArg s' w = some a) : sleepingArg s w = some a := by
  obtain ⟨W', h1, h2⟩ := sleepingArg_eq.1 hs
  rcases h w with ⟨_, e⟩ | ⟨P, P', e1, e2, m⟩
  · rw [e] at h1; cases h1
  · rw [e2] at h1; injection h1 with h1; subst h1
    refine sleepingArg_eq.2 ⟨P, e1, ?_⟩
    rcases m.st with e | ⟨_, _, e⟩
    · rw [← e]; exact h2
    · exact absurd h2 (e a)

theorem mild_refl (s : Table) : Mild s s := by
  intro x
  cases h : s x with
  | none => exact .inl ⟨rfl, rfl⟩
  | some P => exact .inr ⟨P, P, rfl, rfl, rfl, rfl, rfl, fun _ => rfl, .inl rfl, fun w h => .inl h⟩

theorem mild_trans {s s' s'' : Table} (h1 : Mild s s') (h2 : Mild s' s'') : Mild s s'' := by
  intro x
  rcases h1 x with ⟨a, b⟩ | ⟨P, P', a, b, m⟩
  · rcases h2 x with ⟨c, d⟩ | ⟨Q, Q', c, d, n⟩
    · exact .inl ⟨a, d⟩
    · rw [b] at c; cases c
  · rcases h2 x with ⟨c, d⟩ | ⟨Q, Q', c, d, n⟩
    · rw [b] at c; cases c
    · rw [b] at c; injection c with c; subst c
      refine .inr ⟨P, Q', a, d, n.par.trans m.par, n.grp.trans m.grp, n.kids.trans m.kids, ?_, ?_, ?_⟩
      · intro hz
        have hz' : P'.state = .zombie := by
          rcases m.st with e | ⟨e, _⟩
          · rw [e, hz]
          · exact absurd hz e
        rw [n.wst hz', m.wst hz]
      · rcases m.st with e | ⟨e1, e2, e3⟩
        · rcases n.st with f | ⟨f1, f2, f3⟩
          · exact .inl (f.trans e)
          · exact .inr ⟨e ▸ f1, f2, f3⟩
        · rcases n.st with f | ⟨f1, f2, f3⟩
          · exact .inr ⟨e1, by rw [f]; exact e2, by rw [f]; exact e3⟩
          · exact .inr ⟨e1, f2, f3⟩
      · intro w hw
        rcases m.wait w hw with e | e
        · exact n.wait w e
        · right
          cases hh : sleepingArg s'' w with
          | none => rfl
          | some a => have := mild_sleep h2 hh; rw [e] at this; cases this

/-- A change of one entry that satisfies `MildP`. -/
theorem mild_upd {s : Table} {p : Nat} {P P' : Proc} (hp : s p = some P)
    (hm : MildP (upd s p (some P')) P P') : Mild s (upd s p (some P')) := by
  intro x
  by_cases e : x = p
  · subst e; exact .inr ⟨P, P', hp, upd_same _ _ _, hm⟩
  · rw [upd_other _ _ e]; rcases mild_refl s x with h | ⟨Q, Q', a, b, m⟩
    · exact .inl h
    · rw [a] at b; injection b with b; subst b
      exact .inr ⟨Q, Q, a, a, rfl, rfl, rfl, fun _ => rfl, .inl rfl, fun w h => .inl h⟩

theorem modify_some {s : Table} {p : Nat} {P : Proc} (f : Proc → Proc) (hp : s p = some P) :
    modify s p f = upd s p (some (f P)) := by simp [modify, hp]

theorem modify_none {s : Table} {p : Nat} (f : Proc → Proc) (hp : s p = none) : modify s p f = s := by
  simp [modify, hp]

theorem modify_other {s : Table} {p x : Nat} (f : Proc → Proc) (h : x ≠ p) : modify s p f x = s x := by
  cases hp : s p with
  | none => rw [modify_none f hp]
  | some P => rw [modify_some f hp, upd_other _ _ h]

/-- A change of one entry that keeps `waiters`. -/
theorem mild_modify {s : Table} {p : Nat} {f : Proc → Proc}
    (h : ∀ P, s p = some P → (f P).parent = P.parent ∧ (f P).pgid = P.pgid ∧ (f P).children = P.children ∧
      (f P).waiters = P.waiters ∧ (P.state = .zombie → (f P).wstatus = P.wstatus) ∧
      ((f P).state = P.state ∨ (P.state ≠ .zombie ∧ (f P).state ≠ .zombie ∧ ∀ a, (f P).state ≠ .sleepW a))) :
    Mild s (modify s p f) := by
  cases hp : s p with
  | none => rw [modify_none f hp]; exact mild_refl s
  | some P =>
    rw [modify_some f hp]
    obtain ⟨h1, h2, h3, h4, h5, h6⟩ := h P hp
    exact mild_upd hp ⟨h1, h2, h3, h5, h6, fun w hw => .inl (by rw [h4]; exact hw)⟩

/-- The waiting relation: who sleeps for a particular child is on that child's list. -/
def WaitOk (s : Table) : Prop := ∀ w a, sleepingArg s w = some a → a.tid > 0 →
  ∃ C, s a.tid.toNat = some C ∧ C.parent = w ∧ w ∈ C.waiters

theorem waitOk_mild {s s' : Table} (h : Mild s s') (hw : WaitOk s) : WaitOk s' := by
  intro w a hs ha
  obtain ⟨C, c1, c2, c3⟩ := hw w a (mild_sleep h hs) ha
  rcases h a.tid.toNat with ⟨e, _⟩ | ⟨P, P', e1, e2, m⟩
  · rw [e] at c1; cases c1
  · rw [e1] at c1; injection c1 with c1; subst c1
    refine ⟨P', e2, m.par.trans c2, ?_⟩
    rcases m.wait w c3 with e | e
    · exact e
    · rw [e] at hs; cases hs

/-! ### Wake-ups -/

theorem wake_arg (s : Table) (w : Nat) : sleepingArg (wake s w) w = none := by
  unfold wake
  cases h : s w with
  | none => simp [sleepingArg, h]
  | some W =>
    cases hs : W.state with
    | sleepW a =>
      simp only [hs]
      have key : ∀ t : Table, ∀ T, t w = some T →
          sleepingArg (modify t w (fun W => { W with state := if W.stopPending then .stopped else .run, stopPending := false })) w = none := by
        intro t T ht
        rw [modify_some _ ht]
        unfold sleepingArg
        rw [upd_same]
        simp only
        cases T.stopPending <;> simp
      split
      · unfold dropWaiter
        cases hc : s a.tid.toNat with
        | none => rw [modify_none _ hc]; exact key s W h
        | some C =>
          rw [modify_some _ hc]
          by_cases e : w = a.tid.toNat
          · subst e; exact key _ _ (upd_same _ _ _)
          · exact key _ W (by rw [upd_other _ _ e]; exact h)
      · exact key s W h
    | run => simp [sleepingArg, h, hs]
    | sleepO => simp [sleepingArg, h, hs]
    | stopped => simp [sleepingArg, h, hs]
    | zombie => simp [sleepingArg, h, hs]

/-- Two-entry description of `wake`. -/
theorem mild_wake (s : Table) (w : Nat) : Mild s (wake s w) := by
  have hnone := wake_arg s w
  unfold wake at hnone ⊢
  cases h : s w with
  | none => exact mild_refl s
  | some W =>
    simp only [h] at hnone ⊢
    cases hs : W.state with
    | sleepW a =>
      simp only [hs] at hnone ⊢
      generalize hf : (fun W : Proc => { W with state := if W.stopPending then PSt.stopped else .run, stopPending := false }) = f at hnone ⊢
      have fp : ∀ P, (f P).parent = P.parent ∧ (f P).pgid = P.pgid ∧ (f P).children = P.children ∧
          (f P).waiters = P.waiters ∧ (f P).wstatus = P.wstatus ∧ (f P).state ≠ .zombie ∧ ∀ a, (f P).state ≠ .sleepW a := by
        intro P; subst hf
        refine ⟨rfl, rfl, rfl, rfl, rfl, ?_, ?_⟩
        · simp only; split <;> simp
        · intro a; simp only; split <;> simp
      have hz : W.state ≠ .zombie := by rw [hs]; simp
      by_cases ht : a.tid > 0
      · simp only [ht, if_true] at hnone ⊢
        unfold dropWaiter at hnone ⊢
        cases hc : s a.tid.toNat with
        | none =>
          rw [modify_none _ hc, modify_some _ h]
          obtain ⟨a1, a2, a3, a4, a5, a6, a7⟩ := fp W
          exact mild_upd h ⟨a1, a2, a3, fun _ => a5, .inr ⟨hz, a6, a7⟩, fun w hw => .inl (a4 ▸ hw)⟩
        | some C =>
          rw [modify_some _ hc] at hnone ⊢
          have mono : ∀ v, v ∈ C.waiters → v ∈ C.waiters.filter (· ≠ w) ∨ v = w := by
            intro v hv
            by_cases e : v = w
            · exact .inr e
            · exact .inl (List.mem_filter.2 ⟨hv, by simpa using e⟩)
          intro x
          by_cases exw : x = w
          · subst exw
            right
            refine ⟨W, f (if x = a.tid.toNat then { C with waiters := C.waiters.filter (· ≠ x) } else W), h, ?_, ?_⟩
            · by_cases e : x = a.tid.toNat
              · rw [if_pos e]
                subst e
                rw [modify_some _ (upd_same _ _ _), upd_same]
              · rw [if_neg e, modify_some (P := W) _ (by rw [upd_other _ _ e]; exact h), upd_same]
            · by_cases e : x = a.tid.toNat
              · have hCW : C = W := by
                  have := h; rw [e, hc] at this; injection this
                rw [if_pos e]
                obtain ⟨a1, a2, a3, a4, a5, a6, a7⟩ := fp { C with waiters := C.waiters.filter (· ≠ x) }
                subst hCW
                refine ⟨a1, a2, a3, fun _ => a5, .inr ⟨hz, a6, a7⟩, ?_⟩
                intro v hv
                rw [a4]
                rcases mono v hv with m | m
                · exact .inl m
                · subst m; exact .inr hnone
              · rw [if_neg e]
                obtain ⟨a1, a2, a3, a4, a5, a6, a7⟩ := fp W
                exact ⟨a1, a2, a3, fun _ => a5, .inr ⟨hz, a6, a7⟩, fun w hw => .inl (a4 ▸ hw)⟩
          · have hx : modify (upd s a.tid.toNat (some { C with waiters := C.waiters.filter (· ≠ w) })) w f x =
                upd s a.tid.toNat (some { C with waiters := C.waiters.filter (· ≠ w) }) x := by
              exact modify_other _ exw
            by_cases e : x = a.tid.toNat
            · right
              subst e
              refine ⟨C, { C with waiters := C.waiters.filter (· ≠ w) }, hc, by rw [hx, upd_same], rfl, rfl, rfl, fun _ => rfl, .inl rfl, ?_⟩
              intro v hv
              rcases mono v hv with m | m
              · exact .inl m
              · subst m; exact .inr hnone
            · rw [hx, upd_other _ _ e]
              cases hsx : s x with
              | none => exact .inl ⟨rfl, rfl⟩
              | some Q => exact .inr ⟨Q, Q, rfl, rfl, rfl, rfl, rfl, fun _ => rfl, .inl rfl, fun w h => .inl h⟩
      · simp only [ht, if_false]
        rw [modify_some _ h]
        obtain ⟨a1, a2, a3, a4, a5, a6, a7⟩ := fp W
        exact mild_upd h ⟨a1, a2, a3, fun _ => a5, .inr ⟨hz, a6, a7⟩, fun w hw => .inl (a4 ▸ hw)⟩
    | run => exact mild_refl s
    | sleepO => exact mild_refl s
    | stopped => exact mild_refl s
    | zombie => exact mild_refl s

theorem mild_wakeList (r : Reason) : ∀ ws s, Mild s (wakeList r ws s) := by
  intro ws
  induction ws with
  | nil => intro s; exact mild_refl s
  | cons w ws ih =>
    intro s
    unfold wakeList
    split
    · rename_i a _
      split
      · exact mild_trans (mild_wake s w) (ih _)
      · exact ih _
    · exact ih _

theorem mild_wakeParent (r : Reason) (s : Table) (c : Nat) : Mild s (wakeParent r s c) := by
  unfold wakeParent
  repeat' split
  all_goals first | exact mild_refl s | exact mild_wake s _

theorem mild_wakeOn (r : Reason) (s : Table) (c : Nat) : Mild s (wakeOn r s c) := by
  unfold wakeOn
  split
  · exact mild_refl s
  · exact mild_trans (mild_wakeList r _ s) (mild_wakeParent r _ c)

theorem wakeList_died : ∀ ws s w, w ∈ ws → sleepingArg (wakeList .died ws s) w = none := by
  intro ws
  induction ws with
  | nil => intro s w h; cases h
  | cons v ws ih =>
    intro s w h
    unfold wakeList
    have good : ∀ a, goodReason a .died = true := by intro a; simp [goodReason]
    have later : ∀ t : Table, sleepingArg t w = none → sleepingArg (wakeList .died ws t) w = none := by
      intro t ht
      cases hh : sleepingArg (wakeList .died ws t) w with
      | none => rfl
      | some a => have := mild_sleep (mild_wakeList .died ws t) hh; rw [ht] at this; cases this
    rcases List.mem_cons.1 h with e | e
    · subst e
      split
      · rw [if_pos (good _)]; exact later _ (wake_arg s w)
      · rename_i hn; exact later _ hn
    · split
      · exact ih _ _ e
      · exact ih _ _ e

/-- After the wake-ups for the death of `c`, nobody sleeps in a call that covers `c` (except `waitpid(0)`). -/
theorem wakeOn_died {s : Table} {c : Nat} {C : Proc} (hw : WaitOk s) (hc : s c = some C) (h0 : s 0 = none)
    {w W a} (hs : wakeOn .died s c w = some W) (ha : W.state = .sleepW a) (hz : a.tid ≠ 0) (hp : C.parent = w)
    (hk : skip W c C a.tid = false) : False := by
  have hsl : sleepingArg (wakeOn .died s c) w = some a := sleepingArg_eq.2 ⟨W, hs, ha⟩
  have hsl0 := mild_sleep (mild_wakeOn .died s c) hsl
  unfold wakeOn at hsl hs
  simp only [hc] at hsl hs
  have hsl1 := mild_sleep (mild_wakeParent .died _ c) hsl
  by_cases hpos : a.tid > 0
  · obtain ⟨C', c1, c2, c3⟩ := hw w a hsl0 hpos
    have : a.tid.toNat = c := by
      unfold skip at hk; rw [if_pos hpos] at hk; simp at hk; omega
    rw [this, hc] at c1; injection c1 with c1; subst c1
    rw [wakeList_died _ s w c3] at hsl1
    cases hsl1
  · -- the parent's branch
    rcases mild_wakeList .died C.waiters s c with ⟨e, _⟩ | ⟨P, C1, e1, e2, m⟩
    · rw [hc] at e; cases e
    · rw [hc] at e1; injection e1 with e1; subst e1
      obtain ⟨W1, w1, w2⟩ := sleepingArg_eq.1 hsl1
      have hwpos : w > 0 := by
        apply Nat.pos_of_ne_zero
        intro e; subst e
        rcases mild_wakeList .died C.waiters s 0 with ⟨_, e⟩ | ⟨_, _, e, _⟩
        · rw [e] at w1; cases w1
        · rw [h0] at e; cases e
      have : wakeParent .died (wakeList .died C.waiters s) c = wake (wakeList .died C.waiters s) w := by
        unfold wakeParent
        simp only [e2]
        have hpar : C1.parent = w := m.par.trans hp
        rw [if_pos (by rw [hpar]; exact hwpos)]
        simp only [hpar, w1, hsl1]
        rw [if_pos]
        refine ⟨by omega, ?_, by simp [goodReason]⟩
        unfold skip at hk ⊢
        rw [if_neg hpos] at hk ⊢
        rw [m.grp]
        by_cases h2 : a.tid < -1
        · rw [if_pos h2] at hk ⊢; exact hk
        · rw [if_neg h2, if_neg hz]
      rw [this, wake_arg] at hsl
      cases hsl

/-! ### The invariant -/

/-- `E`: dead processes whose waiters have not been woken yet; `K`: dead processes that still have children
(both empty between steps). -/
structure Inv (zg : Bool) (E K : Nat → Prop) (s : Table) : Prop where
  zero : s 0 = none
  one : ∃ I, s 1 = some I ∧ I.state ≠ .zombie ∧ I.parent = 0
  par : ∀ c C, s c = some C → c ≠ 1 → ∃ P, s C.parent = some P
  self : ∀ c C, s c = some C → C.parent ≠ c
  kids : ∀ p P, s p = some P → ∀ c, c ∈ P.children ↔ ∃ C, s c = some C ∧ C.parent = p
  nodup : ∀ p P, s p = some P → P.children.Nodup
  zk : ∀ c C, s c = some C → C.state = .zombie → C.children = [] ∨ K c
  wait : WaitOk s
  lost : ∀ w W a c C, s w = some W → W.state = .sleepW a → (a.tid > 0 ∨ (zg = false ∧ a.tid < 0)) →
    s c = some C → C.parent = w → C.state = .zombie → skip W c C a.tid = false → E c

theorem skip_congr {W W' : Proc} {C C' : Proc} {c : Nat} {t : Int} (h1 : W'.pgid = W.pgid) (h2 : C'.pgid = C.pgid) :
    skip W' c C' t = skip W c C t := by unfold skip; rw [h1, h2]

theorem mild_back {s s' : Table} (h : Mild s s') {x P'} (hx : s' x = some P') : ∃ P, s x = some P ∧ MildP s' P P' := by
  rcases h x with ⟨_, e⟩ | ⟨P, Q, e1, e2, m⟩
  · rw [e] at hx; cases hx
  · rw [e2] at hx; injection hx with hx; subst hx; exact ⟨P, e1, m⟩

theorem mild_fwd {s s' : Table} (h : Mild s s') {x P} (hx : s x = some P) : ∃ P', s' x = some P' ∧ MildP s' P P' := by
  rcases h x with ⟨e, _⟩ | ⟨Q, P', e1, e2, m⟩
  · rw [e] at hx; cases hx
  · rw [e1] at hx; injection hx with hx; subst hx; exact ⟨P', e2, m⟩

theorem mild_none {s s' : Table} (h : Mild s s') {x} (hx : s x = none) : s' x = none := by
  rcases h x with ⟨_, e⟩ | ⟨Q, P', e1, e2, m⟩
  · exact e
  · rw [e1] at hx; cases hx

theorem MildP.zom {s' P P'} (m : MildP s' P P') : P'.state = .zombie ↔ P.state = .zombie := by
  rcases m.st with e | ⟨e1, e2, _⟩
  · rw [e]
  · exact ⟨fun h => absurd h e2, fun h => absurd h e1⟩

theorem inv_mild {zg E K} {s s' : Table} (h : Mild s s') (hi : Inv zg E K s) : Inv zg E K s' := by
  refine ⟨mild_none h hi.zero, ?_, ?_, ?_, ?_, ?_, ?_, waitOk_mild h hi.wait, ?_⟩
  · obtain ⟨I, a, b, c⟩ := hi.one
    obtain ⟨I', d, m⟩ := mild_fwd h a
    exact ⟨I', d, fun e => b (m.zom.1 e), m.par.trans c⟩
  · intro c C hc h1
    obtain ⟨C0, a, m⟩ := mild_back h hc
    obtain ⟨P, hp⟩ := hi.par c C0 a h1
    obtain ⟨P', hp', _⟩ := mild_fwd h hp
    exact ⟨P', by rw [m.par]; exact hp'⟩
  · intro c C hc
    obtain ⟨C0, a, m⟩ := mild_back h hc
    rw [m.par]; exact hi.self c C0 a
  · intro p P hp c
    obtain ⟨P0, a, m⟩ := mild_back h hp
    rw [m.kids, hi.kids p P0 a c]
    constructor
    · rintro ⟨C, x, y⟩
      obtain ⟨C', x', n⟩ := mild_fwd h x
      exact ⟨C', x', n.par.trans y⟩
    · rintro ⟨C, x, y⟩
      obtain ⟨C', x', n⟩ := mild_back h x
      exact ⟨C', x', n.par.symm.trans y⟩
  · intro p P hp
    obtain ⟨P0, a, m⟩ := mild_back h hp
    rw [m.kids]; exact hi.nodup p P0 a
  · intro c C hc hz
    obtain ⟨C0, a, m⟩ := mild_back h hc
    rw [m.kids]; exact hi.zk c C0 a (m.zom.1 hz)
  · intro w W a c C hw ha ht hc hp hz hk
    obtain ⟨C0, c0, m⟩ := mild_back h hc
    obtain ⟨W0, w0, n⟩ := mild_back h hw
    have := mild_sleep h (sleepingArg_eq.2 ⟨W, hw, ha⟩)
    obtain ⟨W1, w1, w2⟩ := sleepingArg_eq.1 this
    rw [w0] at w1; injection w1 with w1; subst w1
    exact hi.lost w W0 a c C0 w0 w2 ht c0 (m.par.symm.trans hp) (m.zom.1 hz) (by rw [← skip_congr n.grp m.grp]; exact hk)

def lifeOf (s : Table) (c : Nat) : Life :=
  match s c with
  | none => .absent
  | some C => if C.state = .zombie then .dead C.wstatus else .alive

theorem lifeOf_mild {s s' : Table} (h : Mild s s') (x : Nat) : lifeOf s' x = lifeOf s x := by
  unfold lifeOf
  rcases h x with ⟨a, b⟩ | ⟨P, P', a, b, m⟩
  · rw [a, b]
  · rw [a, b]
    simp only
    by_cases hz : P.state = .zombie
    · rw [if_pos hz, if_pos (m.zom.2 hz), m.wst hz]
    · rw [if_neg hz, if_neg (fun e => hz (m.zom.1 e))]

theorem sleepingArg_upd {s : Table} {p : Nat} {P : Proc} {w} :
    sleepingArg (upd s p (some P)) w = if w = p then (match P.state with | .sleepW a => some a | _ => none) else sleepingArg s w := by
  unfold sleepingArg
  by_cases h : w = p
  · subst h; rw [upd_same, if_pos rfl]
  · rw [upd_other _ _ h, if_neg h]

/-- Removal of a dead process whose death has been announced. -/
theorem inv_remove {zg} {s : Table} {c C} (hi : Inv zg (fun _ => False) (fun _ => False) s) (hc : s c = some C)
    (hz : C.state = .zombie) : Inv zg (fun _ => False) (fun _ => False) (remove s c) := by
  have hc1 : c ≠ 1 := by
    rintro rfl
    obtain ⟨I, a, b, _⟩ := hi.one
    rw [hc] at a; injection a with a; subst a; exact b hz
  have hself := hi.self c C hc
  obtain ⟨P, hP⟩ := hi.par c C hc hc1
  have hk : C.children = [] := by rcases hi.zk c C hc hz with h | h; exact h; exact h.elim
  have nokid : ∀ x X, s x = some X → X.parent ≠ c := by
    intro x X hx e
    have := (hi.kids c C hc x).2 ⟨X, hx, e⟩
    rw [hk] at this; cases this
  have e : remove s c = upd (upd s c none) C.parent (some { P with children := P.children.filter (· ≠ c) }) := by
    unfold remove; simp only [hc]
    exact modify_some _ (by rw [upd_other _ _ hself]; exact hP)
  rw [e]
  have hval : ∀ x, upd (upd s c none) C.parent (some { P with children := P.children.filter (· ≠ c) }) x =
      if x = C.parent then some { P with children := P.children.filter (· ≠ c) } else if x = c then none else s x := by
    intro x; simp [upd]
  have lookup : ∀ x X, upd (upd s c none) C.parent (some { P with children := P.children.filter (· ≠ c) }) x = some X →
      x ≠ c ∧ ∃ X0, s x = some X0 ∧ X.parent = X0.parent ∧ X.pgid = X0.pgid ∧ X.state = X0.state ∧
        X.waiters = X0.waiters ∧ X.children = X0.children.filter (· ≠ c) := by
    intro x X hx
    rw [hval] at hx
    split at hx
    · rename_i e1
      injection hx with hx; subst hx
      exact ⟨by rw [e1]; exact hself, P, by rw [e1]; exact hP, rfl, rfl, rfl, rfl, rfl⟩
    · rename_i e1
      split at hx
      · cases hx
      · rename_i e2
        refine ⟨e2, X, hx, rfl, rfl, rfl, rfl, ?_⟩
        symm
        apply List.filter_eq_self.2
        intro y hy
        have : y ≠ c := by
          rintro rfl
          obtain ⟨Y, hy1, hy2⟩ := (hi.kids x X hx y).1 hy
          rw [hc] at hy1; injection hy1 with hy1; subst hy1; exact e1 hy2.symm
        simpa using this
  have back : ∀ x X0, x ≠ c → s x = some X0 → ∃ X, upd (upd s c none) C.parent (some { P with children := P.children.filter (· ≠ c) }) x = some X ∧
      X.parent = X0.parent ∧ X.state = X0.state ∧ X.waiters = X0.waiters := by
    intro x X0 hx h0
    rw [hval]
    split
    · rename_i e1
      rw [e1, hP] at h0; injection h0 with h0; subst h0
      exact ⟨_, rfl, rfl, rfl, rfl⟩
    · exact ⟨X0, h0, rfl, rfl, rfl⟩
  refine ⟨?_, ?_, ?_, ?_, ?_, ?_, ?_, ?_, ?_⟩
  · rw [hval]
    have h0 : C.parent ≠ 0 := by
      intro e0
      rw [e0, hi.zero] at hP; cases hP
    rw [if_neg (Ne.symm h0)]
    split
    · rfl
    · exact hi.zero
  · obtain ⟨I, a, b, d⟩ := hi.one
    obtain ⟨X, x1, x2, x3, _⟩ := back 1 I (Ne.symm hc1) a
    exact ⟨X, x1, by rw [x3]; exact b, x2.trans d⟩
  · intro x X hx h1
    obtain ⟨n, X0, a, b, _⟩ := lookup x X hx
    obtain ⟨Q, hQ⟩ := hi.par x X0 a h1
    obtain ⟨Q', hQ', _⟩ := back X0.parent Q (nokid x X0 a) hQ
    exact ⟨Q', by rw [b]; exact hQ'⟩
  · intro x X hx
    obtain ⟨n, X0, a, b, _⟩ := lookup x X hx
    rw [b]; exact hi.self x X0 a
  · intro p X hx y
    obtain ⟨n, X0, a, _, _, _, _, b⟩ := lookup p X hx
    rw [b, List.mem_filter, hi.kids p X0 a y]
    constructor
    · rintro ⟨⟨Y, y1, y2⟩, y3⟩
      obtain ⟨Y', z1, z2, _⟩ := back y Y (by simpa using y3) y1
      exact ⟨Y', z1, z2.trans y2⟩
    · rintro ⟨Y, y1, y2⟩
      obtain ⟨m, Y0, z1, z2, _⟩ := lookup y Y y1
      exact ⟨⟨Y0, z1, z2.symm.trans y2⟩, by simpa using m⟩
  · intro p X hx
    obtain ⟨n, X0, a, _, _, _, _, b⟩ := lookup p X hx
    rw [b]; exact (hi.nodup p X0 a).filter _
  · intro x X hx hzx
    obtain ⟨n, X0, a, _, _, b, _, d⟩ := lookup x X hx
    rcases hi.zk x X0 a (b ▸ hzx) with h | h
    · left; rw [d, h]; rfl
    · exact .inr h
  · intro w a hs ha
    obtain ⟨W, w1, w2⟩ := sleepingArg_eq.1 hs
    obtain ⟨n, W0, x1, _, _, x2, _, _⟩ := lookup w W w1
    obtain ⟨D, d1, d2, d3⟩ := hi.wait w a (sleepingArg_eq.2 ⟨W0, x1, x2 ▸ w2⟩) ha
    have hne : a.tid.toNat ≠ c := by
      intro e1
      have hD : D = C := by rw [e1, hc] at d1; injection d1 with d1; exact d1.symm
      subst hD
      exact hi.lost w W0 a c D x1 (x2 ▸ w2) (.inl ha) hc d2 hz (by unfold skip; rw [if_pos ha]; simp; omega)
    obtain ⟨D', e1, e2, _, e4⟩ := back _ D hne d1
    exact ⟨D', e1, e2.trans d2, e4 ▸ d3⟩
  · intro w W a x X hw ha ht hx hp hzx hkx
    obtain ⟨_, W0, w1, _, w2, w3, _⟩ := lookup w W hw
    obtain ⟨_, X0, x1, x2, x3, x4, _⟩ := lookup x X hx
    exact hi.lost w W0 a x X0 w1 (w3 ▸ ha) ht x1 (x2 ▸ hp) (x4 ▸ hzx) (by rw [← skip_congr w2 x3]; exact hkx)

theorem lifeOf_remove {s : Table} {c C} (hc : s c = some C) (hself : C.parent ≠ c) (x : Nat) :
    lifeOf (remove s c) x = if x = c then .absent else lifeOf s x := by
  unfold remove; simp only [hc]
  unfold lifeOf
  by_cases h : x = c
  · subst h; rw [modify_other _ (Ne.symm hself), upd_same, if_pos rfl]
  · rw [if_neg h]
    by_cases h2 : x = C.parent
    · cases hp : s x with
      | none =>
        rw [modify_none _ (by rw [← h2, upd_other _ _ h]; exact hp), upd_other _ _ h, hp]
      | some P =>
        rw [modify_some (P := P) _ (by rw [← h2, upd_other _ _ h]; exact hp), h2, upd_same]
    · rw [modify_other _ h2, upd_other _ _ h]

/-! ### Reparenting -/

theorem adopt_spec {zg} {s : Table} {p c : Nat} {P : Proc} {ign : Bool}
    (hi : Inv zg (fun x => x = p) (fun x => x = p) s) (hp : s p = some P) (hz : P.state = .zombie)
    (hc : c ∈ P.children) :
    Inv zg (fun x => x = p) (fun x => x = p) (adopt p ign s c) ∧
    (∀ x, lifeOf (adopt p ign s c) x = lifeOf s x) ∧
    ∃ P', adopt p ign s c p = some P' ∧ P'.children = P.children.filter (· ≠ c) ∧ P'.state = .zombie ∧
      P'.wstatus = P.wstatus ∧ P'.parent = P.parent := by
  obtain ⟨C, hC, hCp⟩ := (hi.kids p P hp c).1 hc
  obtain ⟨I, hI, hIz, hI0⟩ := hi.one
  have hp1 : p ≠ 1 := by rintro rfl; rw [hp] at hI; injection hI with hI; subst hI; exact hIz hz
  have hp0 : p ≠ 0 := by rintro rfl; rw [hi.zero] at hp; cases hp
  have hcp : c ≠ p := by rintro rfl; exact hi.self c C hC hCp
  have hc1 : c ≠ 1 := by rintro rfl; rw [hI] at hC; injection hC with hC; subst hC; omega
  let P' : Proc := { P with children := P.children.filter (· ≠ c) }
  let I' : Proc := { I with children := I.children ++ [c] }
  let C' : Proc := { C with parent := 1, autoReap := C.autoReap || ign }
  let s3 : Table := upd (upd (upd s p (some P')) 1 (some I')) c (some C')
  have e3 : adopt p ign s c = if C'.state = .zombie then wakeOn .died s3 c else s3 := by
    unfold adopt
    simp only
    rw [modify_some _ hp]
    rw [modify_some (p := 1) (P := I) _ (by rw [upd_other _ _ (Ne.symm hp1)]; exact hI)]
    rw [modify_some (p := c) (P := C) _ (by rw [upd_other _ _ hc1, upd_other _ _ hcp]; exact hC)]
    simp only [upd_same]; rfl
  have v : ∀ x, s3 x = if x = c then some C' else if x = 1 then some I' else if x = p then some P' else s x := by
    intro x; simp [s3, upd]
  have vc : s3 c = some C' := by rw [v, if_pos rfl]
  have v1 : s3 1 = some I' := by rw [v, if_neg (Ne.symm hc1), if_pos rfl]
  have vp : s3 p = some P' := by rw [v, if_neg (Ne.symm hcp), if_neg hp1, if_pos rfl]
  -- every entry of s3 comes from s
  have lk : ∀ x X, s3 x = some X → ∃ X0, s x = some X0 ∧ X.pgid = X0.pgid ∧ X.state = X0.state ∧
      X.waiters = X0.waiters ∧ X.wstatus = X0.wstatus ∧
      X.parent = (if x = c then 1 else X0.parent) ∧
      X.children = (if x = 1 then X0.children ++ [c] else if x = p then X0.children.filter (· ≠ c) else X0.children) := by
    intro x X hx
    rw [v] at hx
    split at hx
    · rename_i e; subst e; injection hx with hx; subst hx
      exact ⟨C, hC, rfl, rfl, rfl, rfl, by rw [if_pos rfl], by rw [if_neg hc1, if_neg hcp]⟩
    · rename_i ec
      split at hx
      · rename_i e; subst e; injection hx with hx; subst hx
        exact ⟨I, hI, rfl, rfl, rfl, rfl, by rw [if_neg ec], by rw [if_pos rfl]⟩
      · rename_i e1
        split at hx
        · rename_i e; subst e; injection hx with hx; subst hx
          exact ⟨P, hp, rfl, rfl, rfl, rfl, by rw [if_neg ec], by rw [if_neg e1, if_pos rfl]⟩
        · rename_i ep
          exact ⟨X, hx, rfl, rfl, rfl, rfl, by rw [if_neg ec], by rw [if_neg e1, if_neg ep]⟩
  have fw : ∀ x X0, s x = some X0 → ∃ X, s3 x = some X ∧ X.parent = (if x = c then 1 else X0.parent) ∧
      X.state = X0.state ∧ X.waiters = X0.waiters := by
    intro x X0 hx
    have : ∃ X, s3 x = some X := by
      rw [v]; repeat' split
      all_goals first | exact ⟨_, rfl⟩ | exact ⟨X0, hx⟩
    obtain ⟨X, hX⟩ := this
    obtain ⟨X1, a, _, b, d, _, e, _⟩ := lk x X hX
    rw [hx] at a; injection a with a; subst a
    exact ⟨X, hX, e, b, d⟩
  have inv3 : Inv zg (fun x => x = p ∨ x = c) (fun x => x = p) s3 := by
    refine ⟨?_, ⟨I', v1, hIz, hI0⟩, ?_, ?_, ?_, ?_, ?_, ?_, ?_⟩
    · have hc0 : c ≠ 0 := by rintro rfl; rw [hi.zero] at hC; cases hC
      rw [v, if_neg (Ne.symm hc0), if_neg (by omega), if_neg (Ne.symm hp0)]; exact hi.zero
    · intro x X hx h1
      obtain ⟨X0, a, _, _, _, _, b, _⟩ := lk x X hx
      by_cases exc : x = c
      · rw [if_pos exc] at b; exact ⟨I', by rw [b]; exact v1⟩
      · rw [if_neg exc] at b
        obtain ⟨Q, hQ⟩ := hi.par x X0 a h1
        obtain ⟨Q', hQ', _⟩ := fw _ Q hQ
        exact ⟨Q', by rw [b]; exact hQ'⟩
    · intro x X hx
      obtain ⟨X0, a, _, _, _, _, b, _⟩ := lk x X hx
      by_cases exc : x = c
      · rw [if_pos exc] at b; rw [b, exc]; exact Ne.symm hc1
      · rw [if_neg exc] at b; rw [b]; exact hi.self x X0 a
    · intro q Q hq y
      obtain ⟨Q0, a, _, _, _, _, _, b⟩ := lk q Q hq
      have rhs : (∃ Y, s3 y = some Y ∧ Y.parent = q) ↔
          if y = c then q = 1 else ∃ Y, s y = some Y ∧ Y.parent = q := by
        constructor
        · rintro ⟨Y, y1, y2⟩
          obtain ⟨Y0, z1, _, _, _, _, z2, _⟩ := lk y Y y1
          split
          · rename_i e; rw [if_pos e] at z2; omega
          · rename_i e; rw [if_neg e] at z2; exact ⟨Y0, z1, z2.symm.trans y2⟩
        · split
          · rename_i e; intro h; subst e; exact ⟨C', vc, h.symm⟩
          · rename_i e
            rintro ⟨Y, y1, y2⟩
            obtain ⟨Y', z1, z2, _⟩ := fw y Y y1
            rw [if_neg e] at z2
            exact ⟨Y', z1, z2.trans y2⟩
      rw [rhs, b]
      have hk := hi.kids q Q0 a y
      have hcq : ∀ r R, s r = some R → c ∈ R.children → r = p := by
        intro r R hr hm
        obtain ⟨C2, x1, x2⟩ := (hi.kids r R hr c).1 hm
        rw [hC] at x1; injection x1 with x1; subst x1; omega
      by_cases q1 : q = 1
      · rw [if_pos q1, List.mem_append]
        by_cases yc : y = c
        · simp [yc, q1]
        · rw [if_neg yc, hk]; simp [yc]
      · rw [if_neg q1]
        by_cases qp : q = p
        · rw [if_pos qp, List.mem_filter, hk]
          by_cases yc : y = c
          · simp [yc, q1]
          · simp [yc]
        · rw [if_neg qp]
          by_cases yc : y = c
          · rw [if_pos yc]
            constructor
            · intro hm; rw [yc] at hm; exact absurd (hcq q Q0 a hm) qp
            · intro e; exact absurd e q1
          · rw [if_neg yc]; exact hk
    · intro q Q hq
      obtain ⟨Q0, a, _, _, _, _, _, b⟩ := lk q Q hq
      rw [b]
      have nd := hi.nodup q Q0 a
      split
      · rename_i q1
        rw [List.nodup_append]
        refine ⟨nd, by simp, ?_⟩
        intro x hx y hy
        simp at hy; subst hy
        rintro rfl
        obtain ⟨C2, x1, x2⟩ := (hi.kids q Q0 a x).1 hx
        rw [hC] at x1; injection x1 with x1; subst x1; omega
      · split
        · exact nd.filter _
        · exact nd
    · intro x X hx hzx
      obtain ⟨X0, a, _, b, _, _, _, d⟩ := lk x X hx
      rcases hi.zk x X0 a (b ▸ hzx) with h | h
      · rw [d]
        split
        · rename_i e; subst e; rw [hI] at a; injection a with a; subst a; exact absurd (b ▸ hzx) hIz
        · split
          · rename_i e; exact .inr e
          · exact .inl h
      · exact .inr h
    · intro w a hs ha
      obtain ⟨W, w1, w2⟩ := sleepingArg_eq.1 hs
      obtain ⟨W0, x1, _, x2, _⟩ := lk w W w1
      obtain ⟨D, d1, d2, d3⟩ := hi.wait w a (sleepingArg_eq.2 ⟨W0, x1, x2 ▸ w2⟩) ha
      obtain ⟨D', y1, y2, _, y3⟩ := fw _ D d1
      have hne : a.tid.toNat ≠ c := by
        intro e
        rw [e, hC] at d1; injection d1 with d1; subst d1
        have : w = p := d2.symm.trans hCp
        subst this
        rw [hp] at x1; injection x1 with x1; subst x1
        rw [← x2, w2] at hz; cases hz
      rw [if_neg hne] at y2
      exact ⟨D', y1, y2.trans d2, y3 ▸ d3⟩
    · intro w W a x X hw ha ht hx hpar hzx hkx
      obtain ⟨W0, w1, w2, w3, _⟩ := lk w W hw
      obtain ⟨X0, x1, x2, x3, _, _, x4, _⟩ := lk x X hx
      by_cases exc : x = c
      · exact .inr exc
      · rw [if_neg exc] at x4
        exact .inl (hi.lost w W0 a x X0 w1 (w3 ▸ ha) ht x1 (x4.symm.trans hpar) (x3 ▸ hzx)
          (by rw [← skip_congr w2 x2]; exact hkx))
  have life3 : ∀ x, lifeOf s3 x = lifeOf s x := by
    intro x
    unfold lifeOf
    cases hx : s x with
    | none =>
      have : s3 x = none := by
        cases h3 : s3 x with
        | none => rfl
        | some X => obtain ⟨X0, a, _⟩ := lk x X h3; rw [hx] at a; cases a
      rw [this]
    | some X0 =>
      obtain ⟨X, hX, _⟩ := fw x X0 hx
      obtain ⟨X1, a, _, b, _, d, _⟩ := lk x X hX
      rw [hx] at a; injection a with a; subst a
      rw [hX]; simp only [b, d]
  rw [e3]
  by_cases hCz : C'.state = .zombie
  · rw [if_pos hCz]
    have m := mild_wakeOn .died s3 c
    refine ⟨?_, fun x => (lifeOf_mild m x).trans (life3 x), ?_⟩
    · have i := inv_mild m inv3
      refine ⟨i.zero, i.one, i.par, i.self, i.kids, i.nodup, i.zk, i.wait, ?_⟩
      intro w W a x X hw ha ht hx hpar hzx hkx
      rcases i.lost w W a x X hw ha ht hx hpar hzx hkx with e | e
      · exact e
      · subst e
        exfalso
        obtain ⟨X0, x1, n⟩ := mild_back m hx
        rw [vc] at x1; injection x1 with x1; subst x1
        exact wakeOn_died inv3.wait vc inv3.zero hw ha (by omega) (n.par.symm.trans hpar)
          (by rw [← skip_congr rfl n.grp]; exact hkx)
    · obtain ⟨Q, q1, n⟩ := mild_fwd m vp
      exact ⟨Q, q1, n.kids, n.zom.2 hz, n.wst hz, n.par⟩
  · rw [if_neg hCz]
    refine ⟨⟨inv3.zero, inv3.one, inv3.par, inv3.self, inv3.kids, inv3.nodup, inv3.zk, inv3.wait, ?_⟩, life3,
      P', vp, rfl, hz, rfl, rfl⟩
    intro w W a x X hw ha ht hx hpar hzx hkx
    rcases inv3.lost w W a x X hw ha ht hx hpar hzx hkx with e | e
    · exact e
    · subst e
      rw [vc] at hx; injection hx with hx; subst hx
      exact absurd hzx hCz

theorem adoptAll_spec {zg} {p : Nat} {ign : Bool} : ∀ (cs : List Nat) (s : Table) (P : Proc),
    Inv zg (fun x => x = p) (fun x => x = p) s → s p = some P → P.state = .zombie → P.children = cs →
    Inv zg (fun x => x = p) (fun x => x = p) (adoptAll p ign cs s) ∧
    (∀ x, lifeOf (adoptAll p ign cs s) x = lifeOf s x) ∧
    ∃ P', adoptAll p ign cs s p = some P' ∧ P'.children = [] ∧ P'.state = .zombie ∧ P'.wstatus = P.wstatus ∧
      P'.parent = P.parent := by
  intro cs
  induction cs with
  | nil => intro s P hi hp hz hc; exact ⟨hi, fun _ => rfl, P, hp, hc, hz, rfl, rfl⟩
  | cons c cs ih =>
    intro s P hi hp hz hc
    obtain ⟨i, l, P', p1, p2, p3, p4, p5⟩ := adopt_spec (ign := ign) hi hp hz (by rw [hc]; exact List.mem_cons_self)
    have nd := hi.nodup p P hp
    rw [hc, List.nodup_cons] at nd
    have hcs : P'.children = cs := by
      rw [p2, hc, List.filter_cons_of_neg (by simp)]
      apply List.filter_eq_self.2
      intro y hy
      have : y ≠ c := by rintro rfl; exact nd.1 hy
      simpa using this
    obtain ⟨j, l', P'', q1, q2, q3, q4, q5⟩ := ih _ P' i p1 p3 hcs
    exact ⟨j, fun x => (l' x).trans (l x), P'', q1, q2, q3, q4.trans p4, q5.trans p5⟩

/-! ### Preservation by the steps -/

abbrev Ok (zg : Bool) (s : Table) : Prop := Inv zg (fun _ => False) (fun _ => False) s

theorem inv_fork {zg} {s : Table} {p c : Nat} {P P' C : Proc} (hi : Ok zg s) (hp : s p = some P) (hc : s c = none)
    (h0 : 0 < c) (e1 : P'.parent = P.parent) (e2 : P'.pgid = P.pgid) (e3 : P'.waiters = P.waiters)
    (e4 : P'.children = P.children ++ [c]) (e5 : P'.state ≠ .zombie) (e6 : ∀ a, P'.state ≠ .sleepW a)
    (f1 : C.parent = p) (f2 : C.children = []) (f3 : C.state = .run) (f4 : P.state ≠ .zombie) :
    Ok zg (upd (upd s p (some P')) c (some C)) := by
  have hpc : p ≠ c := by rintro rfl; rw [hp] at hc; cases hc
  have v : ∀ x, upd (upd s p (some P')) c (some C) x = if x = c then some C else if x = p then some P' else s x := by
    intro x; simp [upd]
  generalize upd (upd s p (some P')) c (some C) = s' at v
  have vp : s' p = some P' := by rw [v, if_neg hpc, if_pos rfl]
  have vc : s' c = some C := by rw [v, if_pos rfl]
  have c1 : c ≠ 1 := by rintro rfl; obtain ⟨I, hI, _⟩ := hi.one; rw [hI] at hc; cases hc
  have p0 : p ≠ 0 := by rintro rfl; rw [hi.zero] at hp; cases hp
  have nochild : ∀ x X, s x = some X → X.parent ≠ c := by
    intro x X hx e
    by_cases h1 : x = 1
    · subst h1; obtain ⟨I, hI, _, h⟩ := hi.one; rw [hI] at hx; injection hx with hx; subst hx; omega
    · obtain ⟨Q, hQ⟩ := hi.par x X hx h1; rw [e, hc] at hQ; cases hQ
  have lk : ∀ x X, s' x = some X → (x = c ∧ X = C) ∨ (x ≠ c ∧ ∃ X0, s x = some X0 ∧ X.parent = X0.parent ∧
      X.pgid = X0.pgid ∧ X.waiters = X0.waiters ∧ X.children = (if x = p then X0.children ++ [c] else X0.children) ∧
      (X.state = .zombie ↔ X0.state = .zombie) ∧ (∀ a, X.state = .sleepW a → X0.state = .sleepW a)) := by
    intro x X hx
    rw [v] at hx
    split at hx
    · rename_i e; injection hx with hx; exact .inl ⟨e, hx.symm⟩
    · rename_i ec
      split at hx
      · rename_i e; subst e; injection hx with hx; subst hx
        exact .inr ⟨ec, P, hp, e1, e2, e3, by rw [if_pos rfl]; exact e4, by simp [e5, f4], fun a h => absurd h (e6 a)⟩
      · rename_i ep
        exact .inr ⟨ec, X, hx, rfl, rfl, rfl, by rw [if_neg ep], Iff.rfl, fun a h => h⟩
  have fw : ∀ x X0, s x = some X0 → ∃ X, s' x = some X ∧ X.parent = X0.parent ∧ X.waiters = X0.waiters := by
    intro x X0 hx
    by_cases ep : x = p
    · subst ep; rw [hp] at hx; injection hx with hx; subst hx; exact ⟨P', vp, e1, e3⟩
    · have ec : x ≠ c := by rintro rfl; rw [hc] at hx; cases hx
      exact ⟨X0, by rw [v, if_neg ec, if_neg ep]; exact hx, rfl, rfl⟩
  refine ⟨?_, ?_, ?_, ?_, ?_, ?_, ?_, ?_, ?_⟩
  · rw [v, if_neg (Ne.symm (Nat.ne_of_gt h0)), if_neg (Ne.symm p0)]; exact hi.zero
  · obtain ⟨I, a, b, d⟩ := hi.one
    obtain ⟨X, x1, x2, _⟩ := fw 1 I a
    refine ⟨X, x1, ?_, x2.trans d⟩
    rcases lk 1 X x1 with ⟨e, _⟩ | ⟨_, X0, y1, _, _, _, _, y2, _⟩
    · exact absurd e.symm c1
    · rw [a] at y1; injection y1 with y1; subst y1; exact fun h => b (y2.1 h)
  · intro x X hx h1
    rcases lk x X hx with ⟨_, e⟩ | ⟨_, X0, y1, y2, _⟩
    · subst e; exact ⟨P', by rw [f1]; exact vp⟩
    · obtain ⟨Q, hQ⟩ := hi.par x X0 y1 h1
      obtain ⟨Q', q, _⟩ := fw _ Q hQ
      exact ⟨Q', by rw [y2]; exact q⟩
  · intro x X hx
    rcases lk x X hx with ⟨e, e'⟩ | ⟨_, X0, y1, y2, _⟩
    · subst e'; rw [f1, e]; exact hpc
    · rw [y2]; exact hi.self x X0 y1
  · intro q Q hq y
    have rhs : (∃ Y, s' y = some Y ∧ Y.parent = q) ↔ if y = c then q = p else ∃ Y, s y = some Y ∧ Y.parent = q := by
      split
      · rename_i e; subst e
        constructor
        · rintro ⟨Y, y1, y2⟩; rw [vc] at y1; injection y1 with y1; subst y1; omega
        · intro e; exact ⟨C, vc, f1.trans e.symm⟩
      · rename_i e
        constructor
        · rintro ⟨Y, y1, y2⟩
          rcases lk y Y y1 with ⟨e', _⟩ | ⟨_, Y0, z1, z2, _⟩
          · exact absurd e' e
          · exact ⟨Y0, z1, z2.symm.trans y2⟩
        · rintro ⟨Y, y1, y2⟩
          obtain ⟨Y', z1, z2, _⟩ := fw y Y y1
          exact ⟨Y', z1, z2.trans y2⟩
    rw [rhs]
    rcases lk q Q hq with ⟨e, e'⟩ | ⟨qc, Q0, y1, _, _, _, y2, _⟩
    · subst e'
      rw [f2]
      constructor
      · intro h; cases h
      · intro h
        split at h
        · exact absurd (h.symm.trans e) hpc
        · obtain ⟨Y, z1, z2⟩ := h; rw [e] at z2; exact absurd z2 (nochild y Y z1)
    · have hk := hi.kids q Q0 y1 y
      have hcn : ¬ ∃ Y, s c = some Y ∧ Y.parent = q := by rintro ⟨Y, h, _⟩; rw [hc] at h; cases h
      rw [y2]
      by_cases qp : q = p
      · rw [if_pos qp, List.mem_append, hk]
        by_cases yc : y = c
        · subst yc; simp [qp]
        · simp [yc]
      · rw [if_neg qp, hk]
        by_cases yc : y = c
        · subst yc; rw [if_pos rfl]; exact ⟨fun h => absurd h hcn, fun h => absurd h qp⟩
        · rw [if_neg yc]
  · intro q Q hq
    rcases lk q Q hq with ⟨e, e'⟩ | ⟨qc, Q0, y1, _, _, _, y2, _⟩
    · subst e'; rw [f2]; exact List.nodup_nil
    · rw [y2]
      have nd := hi.nodup q Q0 y1
      split
      · rw [List.nodup_append]
        refine ⟨nd, by simp, ?_⟩
        intro x hx y hy
        simp at hy; subst hy
        rintro rfl
        obtain ⟨Y, z, _⟩ := (hi.kids q Q0 y1 x).1 hx
        rw [hc] at z; cases z
      · exact nd
  · intro x X hx hz
    rcases lk x X hx with ⟨e, e'⟩ | ⟨_, X0, y1, _, _, _, y2, y3, _⟩
    · subst e'; exact .inl f2
    · rcases hi.zk x X0 y1 (y3.1 hz) with h | h
      · by_cases ep : x = p
        · exfalso; subst ep; rw [hp] at y1; injection y1 with y1; subst y1; exact f4 (y3.1 hz)
        · left; rw [y2, if_neg ep]; exact h
      · exact .inr h
  · intro w a hs ha
    obtain ⟨W, w1, w2⟩ := sleepingArg_eq.1 hs
    rcases lk w W w1 with ⟨e, e'⟩ | ⟨_, W0, y1, _, _, _, _, _, y4⟩
    · subst e'; rw [f3] at w2; cases w2
    · obtain ⟨D, d1, d2, d3⟩ := hi.wait w a (sleepingArg_eq.2 ⟨W0, y1, y4 a w2⟩) ha
      obtain ⟨D', x1, x2, x3⟩ := fw _ D d1
      exact ⟨D', x1, x2.trans d2, x3 ▸ d3⟩
  · intro w W a x X hw ha ht hx hpar hz hk
    rcases lk w W hw with ⟨e, e'⟩ | ⟨_, W0, y1, _, y2, _, _, _, y4⟩
    · subst e'; rw [f3] at ha; cases ha
    · rcases lk x X hx with ⟨e, e'⟩ | ⟨_, X0, z1, z2, z3, _, _, z4, _⟩
      · subst e'; rw [f3] at hz; cases hz
      · exact hi.lost w W0 a x X0 y1 (y4 a ha) ht z1 (z2.symm.trans hpar) (z4.1 hz)
          (by rw [← skip_congr y2 z3]; exact hk)

/-- A change of the entry of `p` which keeps the family tree; `p` may go to sleep, or die. -/
theorem inv_entry {zg E K} {s : Table} {p : Nat} {P P' : Proc} (hi : Inv zg E K s) (hp : s p = some P)
    (e1 : P'.parent = P.parent) (e2 : P'.children = P.children) (e3 : ∀ w ∈ P.waiters, w ∈ P'.waiters)
    (e4 : P.state ≠ .zombie) {E' K' : Nat → Prop} (hE : ∀ x, E x → E' x) (hK : ∀ x, K x → K' x)
    (e5 : P'.state = .zombie → p ≠ 1 ∧ E' p ∧ K' p)
    (e6 : ∀ c C, s c = some C → C.state = .zombie → C.parent = p →
      ∀ a, P'.state = .sleepW a → (a.tid > 0 ∨ (zg = false ∧ a.tid < 0)) → skip P' c C a.tid = false → E' c)
    (e7 : ∀ a, P'.state = .sleepW a → a.tid > 0 → ∃ C, s a.tid.toNat = some C ∧ C.parent = p ∧ p ∈ C.waiters) :
    Inv zg E' K' (upd s p (some P')) := by
  have lk : ∀ x X, upd s p (some P') x = some X → ∃ X0, s x = some X0 ∧ X.parent = X0.parent ∧ X.children = X0.children ∧
      ((x = p ∧ X = P' ∧ X0 = P) ∨ (x ≠ p ∧ X = X0)) := by
    intro x X hx
    by_cases e : x = p
    · subst e; rw [upd_same] at hx; injection hx with hx; subst hx
      exact ⟨P, hp, e1, e2, .inl ⟨rfl, rfl, rfl⟩⟩
    · rw [upd_other _ _ e] at hx; exact ⟨X, hx, rfl, rfl, .inr ⟨e, rfl⟩⟩
  have fw : ∀ x X0, s x = some X0 → ∃ X, upd s p (some P') x = some X ∧ X.parent = X0.parent ∧ (∀ w ∈ X0.waiters, w ∈ X.waiters) := by
    intro x X0 hx
    by_cases e : x = p
    · subst e; rw [hp] at hx; injection hx with hx; subst hx; exact ⟨P', upd_same _ _ _, e1, e3⟩
    · exact ⟨X0, by rw [upd_other _ _ e]; exact hx, rfl, fun _ h => h⟩
  refine ⟨?_, ?_, ?_, ?_, ?_, ?_, ?_, ?_, ?_⟩
  · have : (0 : Nat) ≠ p := by rintro rfl; rw [hi.zero] at hp; cases hp
    rw [upd_other _ _ this]; exact hi.zero
  · obtain ⟨I, a, b, d⟩ := hi.one
    obtain ⟨X, x1, x2, _⟩ := fw 1 I a
    refine ⟨X, x1, ?_, x2.trans d⟩
    obtain ⟨X0, y1, _, _, h | h⟩ := lk 1 X x1
    · intro hz; rw [h.2.1] at hz; exact (e5 hz).1 h.1.symm
    · rw [a] at y1; injection y1 with y1; subst y1; rw [h.2]; exact b
  · intro x X hx h1
    obtain ⟨X0, y1, y2, _⟩ := lk x X hx
    obtain ⟨Q, hQ⟩ := hi.par x X0 y1 h1
    obtain ⟨Q', q, _⟩ := fw _ Q hQ
    exact ⟨Q', by rw [y2]; exact q⟩
  · intro x X hx
    obtain ⟨X0, y1, y2, _⟩ := lk x X hx
    rw [y2]; exact hi.self x X0 y1
  · intro q Q hq y
    obtain ⟨Q0, y1, _, y2, _⟩ := lk q Q hq
    rw [y2, hi.kids q Q0 y1 y]
    constructor
    · rintro ⟨Y, z1, z2⟩
      obtain ⟨Y', w1, w2, _⟩ := fw y Y z1
      exact ⟨Y', w1, w2.trans z2⟩
    · rintro ⟨Y, z1, z2⟩
      obtain ⟨Y0, w1, w2, _⟩ := lk y Y z1
      exact ⟨Y0, w1, w2.symm.trans z2⟩
  · intro q Q hq
    obtain ⟨Q0, y1, _, y2, _⟩ := lk q Q hq
    rw [y2]; exact hi.nodup q Q0 y1
  · intro x X hx hz
    obtain ⟨X0, y1, _, y2, h | h⟩ := lk x X hx
    · right; rw [h.1]; rw [h.2.1] at hz; exact (e5 hz).2.2
    · rw [h.2] at hz ⊢
      rcases hi.zk x X0 y1 hz with k | k
      · exact .inl k
      · exact .inr (hK x k)
  · intro w a hs ha
    obtain ⟨W, w1, w2⟩ := sleepingArg_eq.1 hs
    have : ∃ D, s a.tid.toNat = some D ∧ D.parent = w ∧ w ∈ D.waiters := by
      obtain ⟨W0, y1, _, _, h | h⟩ := lk w W w1
      · rw [h.2.1] at w2; rw [h.1]; exact e7 a w2 ha
      · rw [h.2] at w2; exact hi.wait w a (sleepingArg_eq.2 ⟨W0, y1, w2⟩) ha
    obtain ⟨D, d1, d2, d3⟩ := this
    obtain ⟨D', x1, x2, x3⟩ := fw _ D d1
    exact ⟨D', x1, x2.trans d2, x3 w d3⟩
  · intro w W a x X hw ha ht hx hpar hz hk
    obtain ⟨X0, z1, z2, _, h | h⟩ := lk x X hx
    · rw [h.1]; rw [h.2.1] at hz; exact (e5 hz).2.1
    · have hX : X = X0 := h.2
      subst hX
      obtain ⟨W0, y1, _, _, g | g⟩ := lk w W hw
      · rw [g.2.1] at ha hk; rw [g.1] at hpar
        exact e6 x X z1 hz hpar a ha ht hk
      · rw [g.2] at ha hk
        exact hE x (hi.lost w W0 a x X y1 ha ht z1 hpar hz hk)

theorem changed_zombie {C : Proc} (a : WArg) (h : C.state = .zombie) : changed C a = some C.stopRep := by
  unfold changed; rw [if_pos h]

theorem scan_none {s : Table} {W : Proc} {a : WArg} : ∀ cs, (scan s W a cs).1 = none →
    ∀ c ∈ cs, ∀ C, s c = some C → skip W c C a.tid = false → changed C a = none := by
  intro cs
  induction cs with
  | nil => intro _ c h; cases h
  | cons d cs ih =>
    intro h c hc C hC hk
    unfold scan at h
    rcases List.mem_cons.1 hc with e | e
    · subst e
      simp only [hC, hk] at h
      cases hch : changed C a with
      | none => rfl
      | some b => rw [hch] at h; cases h
    · cases hd : s d with
      | none => simp only [hd] at h; exact ih h c e C hC hk
      | some D =>
        simp only [hd] at h
        split at h
        · exact ih h c e C hC hk
        · split at h
          · cases h
          · exact ih h c e C hC hk

theorem scan_count {s : Table} {W : Proc} {a : WArg} : ∀ cs, (scan s W a cs).1 = none →
    ((scan s W a cs).2 = 0 ↔ ∀ c ∈ cs, ∀ C, s c = some C → skip W c C a.tid = true) := by
  intro cs
  induction cs with
  | nil => intro _; simp [scan]
  | cons d cs ih =>
    intro h
    unfold scan at h ⊢
    cases hd : s d with
    | none =>
      simp only [hd] at h ⊢
      rw [ih h]
      simp only [List.mem_cons, forall_eq_or_imp, hd]
      simp
    | some D =>
      simp only [hd] at h ⊢
      cases hk : skip W d D a.tid with
      | true =>
        simp only [hk, if_true] at h ⊢
        rw [ih h]
        simp only [List.mem_cons, forall_eq_or_imp, hd]
        constructor
        · intro g; exact ⟨fun C e => by injection e with e; rw [← e]; exact hk, g⟩
        · exact fun g => g.2
      | false =>
        simp only [hk] at h ⊢
        cases hch : changed D a with
        | some b => rw [hch] at h; cases h
        | none =>
          constructor
          · intro g; simp at g
          · intro g
            have := g d List.mem_cons_self D hd
            rw [hk] at this; cases this

theorem scan_found {s : Table} {W : Proc} {a : WArg} {c b} : ∀ cs, (scan s W a cs).1 = some (c, b) →
    c ∈ cs ∧ ∃ C, s c = some C ∧ skip W c C a.tid = false ∧ changed C a = some b := by
  intro cs
  induction cs with
  | nil => intro h; cases h
  | cons d cs ih =>
    intro h
    have lift : (c ∈ cs ∧ ∃ C, s c = some C ∧ skip W c C a.tid = false ∧ changed C a = some b) →
        (c ∈ d :: cs ∧ ∃ C, s c = some C ∧ skip W c C a.tid = false ∧ changed C a = some b) :=
      fun g => ⟨List.mem_cons_of_mem _ g.1, g.2⟩
    unfold scan at h
    cases hd : s d with
    | none => simp only [hd] at h; exact lift (ih h)
    | some D =>
      simp only [hd] at h
      cases hk : skip W d D a.tid with
      | true => simp only [hk, if_true] at h; exact lift (ih h)
      | false =>
        simp only [hk] at h
        cases hch : changed D a with
        | none => rw [hch] at h; exact lift (ih h)
        | some b' =>
          rw [hch] at h
          simp at h
          obtain ⟨rfl, rfl⟩ := h
          exact ⟨List.mem_cons_self, D, hd, hk, hch⟩

theorem ok_weaken {zg E K} {s : Table} (hi : Inv zg E K s) {E' K' : Nat → Prop} (hE : ∀ x, E x → E' x)
    (hK : ∀ x, K x → K' x) : Inv zg E' K' s :=
  ⟨hi.zero, hi.one, hi.par, hi.self, hi.kids, hi.nodup,
   fun c C h z => (hi.zk c C h z).imp_right (hK c), hi.wait,
   fun w W a c C h1 h2 h3 h4 h5 h6 h7 => hE c (hi.lost w W a c C h1 h2 h3 h4 h5 h6 h7)⟩

/-- What one iteration of `wait4` did. -/
inductive WaitOutcome (s : Table) (p : Nat) (P : Proc) (a : WArg) : Table → List Ev → Prop
  | echild {s'} : Mild s s' → (∀ c, ¬ Matches s p c a.tid) → WaitOutcome s p P a s' [.echild p a]
  | zero {s'} : Mild s s' → (∃ c, Matches s p c a.tid) → a.nohang = true →
      (∀ c C, Matches s p c a.tid → s c = some C → changed C a = none) → WaitOutcome s p P a s' [.zero p a]
  | dead {s' c C} : s c = some C → C.state = .zombie → Matches s p c a.tid → Mild (remove s c) s' →
      WaitOutcome s p P a s' [.waited p a c C.wstatus true]
  | report {s' c C b} : s c = some C → C.state ≠ .zombie → Matches s p c a.tid → changed C a = some b →
      Mild s s' → (∃ C', s' c = some C' ∧ C'.stopRep = b) → WaitOutcome s p P a s' [.waited p a c C.wstatus false]
  | sleep {s' s1 P1} : Mild s s1 → s1 p = some P1 → P1.state = .run →
      (∃ c, Matches s p c a.tid) → a.nohang = false →
      (∀ c C, Matches s p c a.tid → s c = some C → changed C a = none) →
      (a.tid > 0 → ∃ C, s1 a.tid.toNat = some C ∧ C.parent = p ∧ p ∈ C.waiters) →
      s' = upd s1 p (some { P1 with call := some a, state := .sleepW a }) → WaitOutcome s p P a s' []

theorem matches_skip {zg E K} {s : Table} (hi : Inv zg E K s) {p P} (hp : s p = some P) {c C} (hc : s c = some C) {t : Int} :
    Matches s p c t ↔ C.parent = p ∧ skip P c C t = false := by
  unfold Matches skip
  constructor
  · rintro ⟨P', C', a, b, d, h⟩
    rw [hp] at a; injection a with a; subst a
    rw [hc] at b; injection b with b; subst b
    refine ⟨d, ?_⟩
    rcases h with ⟨h1, h2⟩ | h | ⟨h1, h2⟩ | ⟨h1, h2⟩
    · rw [if_pos h1]; simp [h2]
    · rw [if_neg (by omega), if_neg (by omega), if_neg (by omega)]
    · rw [if_neg (by omega), if_pos h1]; simp [h2]
    · rw [if_neg (by omega), if_neg (by omega), if_pos h1]; simp [h2]
  · rintro ⟨h1, h2⟩
    refine ⟨P, C, hp, hc, h1, ?_⟩
    split at h2
    · rename_i h; left; simp at h2; exact ⟨h, h2.symm⟩
    · split at h2
      · rename_i h; right; right; left; simp at h2; exact ⟨h, h2⟩
      · split at h2
        · rename_i h; right; right; right; simp at h2; exact ⟨h, h2⟩
        · right; left; omega

theorem mild_ret (s : Table) (p : Nat) : Mild s (modify s p (fun P => { P with call := none })) :=
  mild_modify (fun _ _ => ⟨rfl, rfl, rfl, rfl, fun _ => rfl, .inl rfl⟩)

theorem waitIter_spec {zg} {s : Table} {p : Nat} {P : Proc} {a : WArg} (hi : Ok zg s) (hp : s p = some P)
    (hr : P.state = .run) (h0 : 0 < p) : WaitOutcome s p P a (waitIter s p P a).1 (waitIter s p P a).2 := by
  have found : ∀ c C b, s c = some C → Matches s p c a.tid → changed C a = some b →
      WaitOutcome s p P a
        (match s c with
          | none => (s, [])
          | some C =>
            if C.state = PSt.zombie then (modify (remove s c) p (fun P => { P with call := none }), [Ev.waited p a c C.wstatus true])
            else (modify (upd s c (some { C with stopRep := b })) p (fun P => { P with call := none }), [.waited p a c C.wstatus false])).1
        (match s c with
          | none => (s, [])
          | some C =>
            if C.state = PSt.zombie then (modify (remove s c) p (fun P => { P with call := none }), [Ev.waited p a c C.wstatus true])
            else (modify (upd s c (some { C with stopRep := b })) p (fun P => { P with call := none }), [.waited p a c C.wstatus false])).2 := by
    intro c C b hc hm hch
    simp only [hc]
    split
    · rename_i hz
      exact .dead hc hz hm (mild_ret _ _)
    · rename_i hz
      have m1 : Mild s (upd s c (some { C with stopRep := b })) :=
        mild_upd hc ⟨rfl, rfl, rfl, fun _ => rfl, .inl rfl, fun w h => .inl h⟩
      refine .report hc hz hm hch (mild_trans m1 (mild_ret _ _)) ?_
      by_cases e : c = p
      · subst e
        rw [modify_some _ (upd_same _ _ _)]
        exact ⟨_, upd_same _ _ _, rfl⟩
      · exact ⟨{ C with stopRep := b }, (modify_other _ e).trans (upd_same _ _ _), rfl⟩
  unfold waitIter
  simp only
  by_cases hpos : a.tid > 0
  · simp only [hpos, if_true]
    cases hC : s a.tid.toNat with
    | none =>
      refine .echild (mild_ret _ _) ?_
      rintro c ⟨_, C, _, h2, _, h | h | h | h⟩
      · have : c = a.tid.toNat := by omega
        rw [this, hC] at h2; cases h2
      all_goals omega
    | some C =>
      simp only
      have hm : ∀ c, Matches s p c a.tid → c = a.tid.toNat := by
        rintro c ⟨_, _, _, _, _, h | h | h | h⟩ <;> omega
      by_cases hpar : C.parent ≠ p
      · rw [if_pos hpar]
        refine .echild (mild_ret _ _) ?_
        intro c hc
        have e := hm c hc
        obtain ⟨_, C', _, h2, h3, _⟩ := hc
        rw [e, hC] at h2; injection h2 with h2; subst h2; exact hpar h3
      · rw [if_neg hpar]
        have hpar' : C.parent = p := by simpa using hpar
        have hmt : Matches s p a.tid.toNat a.tid := ⟨P, C, hp, hC, hpar', .inl ⟨hpos, by omega⟩⟩
        cases hch : changed C a with
        | some b => have := found a.tid.toNat C b hC hmt hch; simpa only [hC] using this
        | none =>
          have hall : ∀ c C', Matches s p c a.tid → s c = some C' → changed C' a = none := by
            intro c C' hc hc'
            rw [hm c hc, hC] at hc'; injection hc' with hc'; subst hc'; exact hch
          simp only
          split
          · rename_i hn; exact .zero (mild_ret _ _) ⟨_, hmt⟩ hn hall
          · rename_i hn
            have hne : p ≠ a.tid.toNat := by rintro e; apply hi.self _ C hC; rw [← e]; exact hpar'
            have hp1 : upd s a.tid.toNat (some { C with waiters := C.waiters ++ [p] }) p = some P := by
              rw [upd_other _ _ hne]; exact hp
            refine .sleep (s1 := upd s a.tid.toNat (some { C with waiters := C.waiters ++ [p] })) (P1 := P)
              (mild_upd hC ⟨rfl, rfl, rfl, fun _ => rfl, .inl rfl, fun w h => .inl (List.mem_append_left _ h)⟩)
              hp1 hr ⟨_, hmt⟩ (by simpa using hn) hall ?_ (modify_some _ hp1)
            intro _
            exact ⟨_, upd_same _ _ _, hpar', by simp⟩
  · simp only [hpos, if_false]
    have kid : ∀ c, c ∈ P.children ↔ ∃ C, s c = some C ∧ C.parent = p := hi.kids p P hp
    cases hs : (scan s P a P.children).1 with
    | some r =>
      obtain ⟨c, b⟩ := r
      obtain ⟨k1, C, k2, k3, k4⟩ := scan_found _ hs
      obtain ⟨C', l1, l2⟩ := (kid c).1 k1
      rw [k2] at l1; injection l1 with l1; subst l1
      have := found c C b k2 ((matches_skip hi hp k2).2 ⟨l2, k3⟩) k4
      simpa only [k2] using this
    | none =>
      have hall : ∀ c C', Matches s p c a.tid → s c = some C' → changed C' a = none := by
        intro c C' hc hc'
        obtain ⟨h1, h2⟩ := (matches_skip hi hp hc').1 hc
        exact scan_none _ hs c ((kid c).2 ⟨C', hc', h1⟩) C' hc' h2
      have hcnt := scan_count _ hs
      simp only
      split
      · rename_i hz
        refine .echild (mild_ret _ _) ?_
        intro c hc
        obtain ⟨_, C, _, h2, h3, _⟩ := id hc
        have hk := hcnt.1 hz c ((kid c).2 ⟨C, h2, h3⟩) C h2
        have := ((matches_skip hi hp h2).1 hc).2
        rw [hk] at this; cases this
      · rename_i hz
        have hex : ∃ c, Matches s p c a.tid := by
          apply Classical.byContradiction
          intro hn
          apply hz
          apply hcnt.2
          intro c hc C hC
          obtain ⟨C', l1, l2⟩ := (kid c).1 hc
          rw [hC] at l1; injection l1 with l1; subst l1
          cases hk : skip P c C a.tid with
          | true => rfl
          | false => exact absurd ⟨c, (matches_skip hi hp hC).2 ⟨l2, hk⟩⟩ hn
        split
        · rename_i hn; exact .zero (mild_ret _ _) hex hn hall
        · rename_i hn
          exact .sleep (mild_refl s) hp hr hex (by simpa using hn) hall (fun h => absurd h hpos)
            (modify_some _ hp)

/-- Events and the family tree. -/
def LifeOk (s : Table) (tr : List Ev) : Prop := ∀ c, life c tr = lifeOf s c

theorem life_append (c : Nat) (tr evs) : life c (tr ++ evs) = evs.foldl (lifeStep c) (life c tr) := by
  unfold life; rw [List.foldl_append]

theorem lifeOk_nil {s s' tr} (h : Mild s s') (hl : LifeOk s tr) : LifeOk s' (tr ++ []) := by
  intro c; rw [List.append_nil, hl c, lifeOf_mild h]

theorem lifeOk_one {s s' tr e} (hl : LifeOk s tr) (h : ∀ c, lifeOf s' c = lifeStep c (lifeOf s c) e) :
    LifeOk s' (tr ++ [e]) := by
  intro c; rw [life_append, hl c]; exact (h c).symm

theorem lifeOf_upd {s : Table} {p P x} : lifeOf (upd s p (some P)) x =
    if x = p then (if P.state = .zombie then .dead P.wstatus else .alive) else lifeOf s x := by
  unfold lifeOf
  by_cases h : x = p
  · subst h; rw [upd_same, if_pos rfl]
  · rw [upd_other _ _ h, if_neg h]

theorem wait_step {zg} {s s' : Table} {p P a tr evs} (hi : Ok zg s) (hl : LifeOk s tr) (hp : s p = some P)
    (ho : WaitOutcome s p P a s' evs) : Ok zg s' ∧ LifeOk s' (tr ++ evs) := by
  cases ho with
  | echild m _ => exact ⟨inv_mild m hi, lifeOk_one hl (fun c => by rw [lifeOf_mild m]; rfl)⟩
  | zero m _ _ _ => exact ⟨inv_mild m hi, lifeOk_one hl (fun c => by rw [lifeOf_mild m]; rfl)⟩
  | dead hc hz hm m =>
    rename_i c C
    refine ⟨inv_mild m (inv_remove hi hc hz), lifeOk_one hl (fun x => ?_)⟩
    rw [lifeOf_mild m, lifeOf_remove hc (hi.self c C hc)]
    simp only [lifeStep]
    by_cases e : x = c
    · subst e; simp
    · rw [if_neg e, if_neg (by intro h; exact e h.1.symm)]
  | report _ _ _ _ m _ =>
    refine ⟨inv_mild m hi, lifeOk_one hl (fun x => ?_)⟩
    rw [lifeOf_mild m]; simp [lifeStep]
  | @sleep s1 P1 m h1 h2 _ _ hall hw he =>
    subst he
    have i1 := inv_mild m hi
    refine ⟨?_, ?_⟩
    · refine inv_entry (P' := { P1 with call := some a, state := .sleepW a }) i1 h1 rfl rfl (fun _ h => h) (by rw [h2]; simp) (fun _ h => h) (fun _ h => h) (fun h => PSt.noConfusion h) ?_ ?_
      · intro c C hc hz hpar b hb ht hk
        simp at hb; subst hb
        obtain ⟨C0, c0, n⟩ := mild_back m hc
        have hz0 := n.zom.1 hz
        obtain ⟨P', hp', n'⟩ := mild_fwd m hp
        have e1 : P' = P1 := by rw [h1] at hp'; injection hp' with e; exact e.symm
        subst e1
        have hk' : skip P c C0 a.tid = false := by
          rw [← skip_congr (W' := { P' with call := some a, state := .sleepW a }) (C' := C) n'.grp n.grp]; exact hk
        have := hall c C0 ((matches_skip hi hp c0).2 ⟨n.par.symm.trans hpar, hk'⟩) c0
        rw [changed_zombie a hz0] at this; cases this
      · intro b hb ht
        simp at hb; subst hb
        exact hw ht
    · intro c
      rw [List.append_nil, hl c, ← lifeOf_mild m, lifeOf_upd]
      by_cases e : c = p
      · subst e; rw [if_pos rfl]; unfold lifeOf; rw [h1]; simp [h2]
      · rw [if_neg e]

theorem mild_unblock {s s' : Table} {p : Nat} (h : unblockParent s p = some s') : Mild s s' := by
  unfold unblockParent at h
  split at h
  · rename_i P hp
    split at h
    · rename_i hs
      injection h with h; subst h
      exact mild_upd hp ⟨rfl, rfl, rfl, fun _ => rfl, .inr ⟨by rw [hs.1]; simp, by simp, by simp⟩, fun w h => .inl h⟩
    · cases h
  · cases h

theorem exit_step {zg} {s s' : Table} {p P st tr evs} (hi : Ok zg s) (hl : LifeOk s tr) (hp : s p = some P)
    (hr : P.state = .run) (h1 : p ≠ 1) (hs : doExit s p P st = some (s', evs)) : Ok zg s' ∧ LifeOk s' (tr ++ evs) := by
  unfold doExit at hs
  simp only at hs
  have i1 : Inv zg (fun x => x = p) (fun x => x = p)
      (upd s p (some { P with state := .zombie, wstatus := st, call := none })) :=
    inv_entry (P' := { P with state := .zombie, wstatus := st, call := none }) hi hp rfl rfl (fun _ h => h)
      (by rw [hr]; simp) (fun _ h => h.elim) (fun _ h => h.elim) (fun _ => ⟨h1, rfl, rfl⟩)
      (fun _ _ _ _ _ _ h => PSt.noConfusion h) (fun _ h => PSt.noConfusion h)
  obtain ⟨i2, l2, P2, p1, p2, p3, p4, p5⟩ := adoptAll_spec (ign := P.ignChld) P.children _ _ i1 (upd_same _ _ _) rfl rfl
  have m := mild_wakeOn .died (adoptAll p P.ignChld P.children
    (upd s p (some { P with state := .zombie, wstatus := st, call := none }))) p
  have i3 : Ok zg (wakeOn .died (adoptAll p P.ignChld P.children
      (upd s p (some { P with state := .zombie, wstatus := st, call := none }))) p) := by
    have i := inv_mild m i2
    refine ⟨i.zero, i.one, i.par, i.self, i.kids, i.nodup, ?_, i.wait, ?_⟩
    · intro c C hc hz
      rcases i.zk c C hc hz with h | h
      · exact .inl h
      · subst h
        obtain ⟨C0, c0, n⟩ := mild_back m hc
        rw [p1] at c0; injection c0 with c0; subst c0
        exact .inl (n.kids.trans p2)
    · intro w W a x X hw ha ht hx hpar hz hk
      have e := i.lost w W a x X hw ha ht hx hpar hz hk
      subst e
      obtain ⟨X0, x0, n⟩ := mild_back m hx
      rw [p1] at x0; injection x0 with x0; subst x0
      exact wakeOn_died i2.wait p1 i2.zero hw ha (by omega) (n.par.symm.trans hpar)
        (by rw [← skip_congr rfl n.grp]; exact hk)
  have l3 : ∀ x, lifeOf (wakeOn .died (adoptAll p P.ignChld P.children
      (upd s p (some { P with state := .zombie, wstatus := st, call := none }))) p) x =
      if x = p then .dead st else lifeOf s x := by
    intro x
    rw [lifeOf_mild m, l2, lifeOf_upd]
    simp
  generalize hs3 : wakeOn .died (adoptAll p P.ignChld P.children
      (upd s p (some { P with state := .zombie, wstatus := st, call := none }))) p = s3 at i3 l3 hs
  have step4 : ∀ s4, Mild s3 s4 → Ok zg s4 ∧ (∀ x, lifeOf s4 x = if x = p then .dead st else lifeOf s x) ∧
      ∃ P4, s4 p = some P4 ∧ P4.state = .zombie := by
    intro s4 m4
    refine ⟨inv_mild m4 i3, fun x => (lifeOf_mild m4 x).trans (l3 x), ?_⟩
    obtain ⟨P3, a, n⟩ := mild_fwd m p1
    rw [hs3] at a
    obtain ⟨P4, b, n'⟩ := mild_fwd m4 a
    exact ⟨P4, b, n'.zom.2 (n.zom.2 p3)⟩
  have fin : ∀ s4, Mild s3 s4 → (if (P.autoReap || ignores s4 P.parent) = true then some (remove s4 p, [Ev.exited p st true])
      else some (s4, [.exited p st false])) = some (s', evs) → Ok zg s' ∧ LifeOk s' (tr ++ evs) := by
    intro s4 m4 hs
    obtain ⟨i4, l4, P4, q1, q2⟩ := step4 s4 m4
    split at hs
    · injection hs with hs; injection hs with e1 e2; subst e1; subst e2
      refine ⟨inv_remove i4 q1 q2, lifeOk_one hl (fun x => ?_)⟩
      rw [lifeOf_remove q1 (i4.self p P4 q1), l4]
      simp only [lifeStep]
      by_cases e : x = p
      · subst e; simp
      · simp [e, Ne.symm e]
    · injection hs with hs; injection hs with e1 e2; subst e1; subst e2
      refine ⟨i4, lifeOk_one hl (fun x => ?_)⟩
      rw [l4]
      simp only [lifeStep]
      by_cases e : x = p
      · subst e; simp
      · simp [e, Ne.symm e]
  by_cases hv : P.vforked = true
  · simp only [hv, if_true] at hs
    split at hs
    · cases hs
    · rename_i s4 h4
      exact fin s4 (mild_unblock h4) hs
  · simp only [hv] at hs
    exact fin s3 (mild_refl _) hs

theorem life_init (c : Nat) : lifeOf init c = if c = 1 then .alive else .absent := by
  unfold lifeOf init
  by_cases h : c = 1
  · simp [h]
  · simp [h]

theorem ok_init (zg : Bool) : Ok zg init := by
  have h : ∀ x X, init x = some X → x = 1 ∧ X = { parent := 0, pgid := 1, state := .run } := by
    intro x X hx
    unfold init at hx
    split at hx
    · injection hx with hx; exact ⟨by assumption, hx.symm⟩
    · cases hx
  refine ⟨rfl, ⟨_, rfl, by simp, rfl⟩, ?_, ?_, ?_, ?_, ?_, ?_, ?_⟩
  · intro c C hc h1; exact absurd (h c C hc).1 h1
  · intro c C hc; obtain ⟨rfl, rfl⟩ := h c C hc; simp
  · intro p P hp c
    obtain ⟨rfl, rfl⟩ := h p P hp
    simp
    intro C hc e; obtain ⟨_, rfl⟩ := h c C hc; simp at e
  · intro p P hp; obtain ⟨rfl, rfl⟩ := h p P hp; simp
  · intro p P hp; obtain ⟨rfl, rfl⟩ := h p P hp; simp
  · intro w a hs
    obtain ⟨W, w1, w2⟩ := sleepingArg_eq.1 hs
    obtain ⟨rfl, rfl⟩ := h w W w1; cases w2
  · intro w W a c C hw ha
    obtain ⟨rfl, rfl⟩ := h w W hw; cases ha

theorem inv_setpgid {zg} {s : Table} {c g : Nat} (hi : Ok zg s) (hc : zg = true ∨ ∀ C, s c = some C → C.state ≠ .zombie) :
    Ok zg (modify s c (fun C => { C with pgid := g })) := by
  cases hC : s c with
  | none => rw [modify_none _ hC]; exact hi
  | some C =>
    rw [modify_some _ hC]
    by_cases hz : C.state = .zombie
    · -- only `zg = true` remains: the invariant says nothing about groups
      have hzg : zg = true := by
        rcases hc with h | h
        · exact h
        · exact absurd hz (h C hC)
      subst hzg
      have lk : ∀ x X, upd s c (some { C with pgid := g }) x = some X → ∃ X0, s x = some X0 ∧ X.parent = X0.parent ∧
          X.children = X0.children ∧ X.state = X0.state ∧ X.waiters = X0.waiters := by
        intro x X hx
        by_cases e : x = c
        · subst e; rw [upd_same] at hx; injection hx with hx; subst hx; exact ⟨C, hC, rfl, rfl, rfl, rfl⟩
        · rw [upd_other _ _ e] at hx; exact ⟨X, hx, rfl, rfl, rfl, rfl⟩
      have fw : ∀ x X0, s x = some X0 → ∃ X, upd s c (some { C with pgid := g }) x = some X ∧ X.parent = X0.parent ∧
          X.state = X0.state ∧ X.waiters = X0.waiters := by
        intro x X0 hx
        by_cases e : x = c
        · subst e; rw [hC] at hx; injection hx with hx; subst hx; exact ⟨_, upd_same _ _ _, rfl, rfl, rfl⟩
        · exact ⟨X0, by rw [upd_other _ _ e]; exact hx, rfl, rfl, rfl⟩
      refine ⟨?_, ?_, ?_, ?_, ?_, ?_, ?_, ?_, ?_⟩
      · have : (0 : Nat) ≠ c := by rintro rfl; rw [hi.zero] at hC; cases hC
        rw [upd_other _ _ this]; exact hi.zero
      · obtain ⟨I, a, b, d⟩ := hi.one
        obtain ⟨X, x1, x2, x3, _⟩ := fw 1 I a
        exact ⟨X, x1, by rw [x3]; exact b, x2.trans d⟩
      · intro x X hx h1
        obtain ⟨X0, y1, y2, _⟩ := lk x X hx
        obtain ⟨Q, hQ⟩ := hi.par x X0 y1 h1
        obtain ⟨Q', q, _⟩ := fw _ Q hQ
        exact ⟨Q', by rw [y2]; exact q⟩
      · intro x X hx
        obtain ⟨X0, y1, y2, _⟩ := lk x X hx
        rw [y2]; exact hi.self x X0 y1
      · intro q Q hq y
        obtain ⟨Q0, y1, _, y2, _⟩ := lk q Q hq
        rw [y2, hi.kids q Q0 y1 y]
        constructor
        · rintro ⟨Y, z1, z2⟩
          obtain ⟨Y', w1, w2, _⟩ := fw y Y z1
          exact ⟨Y', w1, w2.trans z2⟩
        · rintro ⟨Y, z1, z2⟩
          obtain ⟨Y0, w1, w2, _⟩ := lk y Y z1
          exact ⟨Y0, w1, w2.symm.trans z2⟩
      · intro q Q hq
        obtain ⟨Q0, y1, _, y2, _⟩ := lk q Q hq
        rw [y2]; exact hi.nodup q Q0 y1
      · intro x X hx hz
        obtain ⟨X0, y1, _, y2, y3, _⟩ := lk x X hx
        rw [y2]; exact hi.zk x X0 y1 (y3 ▸ hz)
      · intro w a hs ha
        obtain ⟨W, w1, w2⟩ := sleepingArg_eq.1 hs
        obtain ⟨W0, y1, _, _, y3, _⟩ := lk w W w1
        obtain ⟨D, d1, d2, d3⟩ := hi.wait w a (sleepingArg_eq.2 ⟨W0, y1, y3 ▸ w2⟩) ha
        obtain ⟨D', x1, x2, _, x3⟩ := fw _ D d1
        exact ⟨D', x1, x2.trans d2, x3 ▸ d3⟩
      · intro w W a x X hw ha ht hx hpar hz hk
        obtain ⟨W0, y1, _, _, y3, _⟩ := lk w W hw
        obtain ⟨X0, z1, z2, _, z3, _⟩ := lk x X hx
        have hpos : a.tid > 0 := by
          rcases ht with h | h
          · exact h
          · cases h.1
        refine hi.lost w W0 a x X0 y1 (y3 ▸ ha) ht z1 (z2.symm.trans hpar) (z3 ▸ hz) ?_
        unfold skip at hk ⊢
        rw [if_pos hpos] at hk ⊢; exact hk
    · refine inv_entry (P' := { C with pgid := g }) hi hC rfl rfl (fun _ h => h) hz (fun _ h => h) (fun _ h => h) (fun h => absurd h hz) ?_ ?_
      · intro x X hx hzx hpar a ha ht hk
        refine hi.lost c C a x X hC ha ht hx hpar hzx ?_
        unfold skip at hk ⊢
        by_cases hpos : a.tid > 0
        · rw [if_pos hpos] at hk ⊢; exact hk
        · rw [if_neg hpos] at hk ⊢
          have h0 : a.tid ≠ 0 := by omega
          rw [if_neg h0] at hk ⊢; exact hk
      · intro a ha ht
        exact hi.wait c a (sleepingArg_eq.2 ⟨C, hC, ha⟩) ht

theorem lifeOf_setpgid {s : Table} {c g x : Nat} : lifeOf (modify s c (fun C => { C with pgid := g })) x = lifeOf s x := by
  cases hC : s c with
  | none => rw [modify_none _ hC]
  | some C =>
    rw [modify_some _ hC, lifeOf_upd]
    by_cases e : x = c
    · subst e; rw [if_pos rfl]; unfold lifeOf; rw [hC]
    · rw [if_neg e]

theorem stopState_state (C : Proc) : (stopState C).parent = C.parent ∧ (stopState C).pgid = C.pgid ∧
    (stopState C).children = C.children ∧ (stopState C).waiters = C.waiters ∧ (stopState C).wstatus = C.wstatus ∧
    ((stopState C).state = C.state ∨ (C.state ≠ .zombie ∧ (stopState C).state ≠ .zombie ∧ ∀ a, (stopState C).state ≠ .sleepW a)) := by
  unfold stopState
  split <;> simp_all

theorem contState_state (C : Proc) : (contState C).parent = C.parent ∧ (contState C).pgid = C.pgid ∧
    (contState C).children = C.children ∧ (contState C).waiters = C.waiters ∧ (contState C).wstatus = C.wstatus ∧
    ((contState C).state = C.state ∨ (C.state ≠ .zombie ∧ (contState C).state ≠ .zombie ∧ ∀ a, (contState C).state ≠ .sleepW a)) := by
  unfold contState
  split <;> simp_all

/-- Every step preserves the invariant and the correspondence with the history. -/
theorem ok_step {zg} {s s' : Table} {tr evs op} (hi : Ok zg s) (hl : LifeOk s tr)
    (hc : zg = true ∨ ∀ c g, op = .setpgid c g → ∀ C, s c = some C → C.state ≠ .zombie)
    (hs : step s op = some (s', evs)) : Ok zg s' ∧ LifeOk s' (tr ++ evs) := by
  have quiet : ∀ s1, Mild s s1 → s' = s1 → evs = [] → Ok zg s' ∧ LifeOk s' (tr ++ evs) := by
    rintro s1 m rfl rfl; exact ⟨inv_mild m hi, lifeOk_nil m hl⟩
  have note : ∀ s1 e, Mild s s1 → (∀ c l, lifeStep c l e = l) → s' = s1 → evs = [e] → Ok zg s' ∧ LifeOk s' (tr ++ evs) := by
    rintro s1 e m he rfl rfl
    exact ⟨inv_mild m hi, lifeOk_one hl (fun c => by rw [lifeOf_mild m, he])⟩
  cases op with
  | fork p c =>
    simp only [step] at hs
    split at hs
    · cases hs
    · rename_i P hp
      split at hs
      · rename_i g
        obtain ⟨g1, g2, g3, g4, g5⟩ := g
        injection hs with hs; injection hs with e1 e2; subst e1; subst e2
        have hpc : p ≠ c := by rintro rfl; rw [hp] at g3; cases g3
        refine ⟨inv_fork hi hp g3 g4 rfl rfl rfl rfl (by rw [g1]; simp) (by intro a; rw [g1]; simp) rfl rfl rfl
          (by rw [g1]; simp), lifeOk_one hl (fun x => ?_)⟩
        rw [lifeOf_upd, lifeOf_upd]
        simp only [lifeStep]
        by_cases e : x = c
        · subst e; simp [childOf]
        · simp only [e, Ne.symm e, if_false]
          split
          · rename_i e'; subst e'; unfold lifeOf; rw [hp]; try simp [g1]
          · rfl
      · cases hs
  | vfork p c =>
    simp only [step] at hs
    split at hs
    · cases hs
    · rename_i P hp
      split at hs
      · rename_i g
        obtain ⟨g1, g2, g3, g4, g5⟩ := g
        injection hs with hs; injection hs with e1 e2; subst e1; subst e2
        have hpc : p ≠ c := by rintro rfl; rw [hp] at g3; cases g3
        refine ⟨inv_fork hi hp g3 g4 rfl rfl rfl rfl (by simp) (by intro a; simp) rfl rfl rfl
          (by rw [g1]; simp), lifeOk_one hl (fun x => ?_)⟩
        rw [lifeOf_upd, lifeOf_upd]
        simp only [lifeStep]
        by_cases e : x = c
        · subst e; simp [childOf]
        · simp only [e, Ne.symm e, if_false]
          split
          · rename_i e'; subst e'; unfold lifeOf; rw [hp]; simp [g1]
          · rfl
      · cases hs
  | exec c =>
    simp only [step] at hs
    split at hs
    · cases hs
    · rename_i C hC
      split at hs
      · split at hs
        · split at hs
          · cases hs
          · rename_i s1 h1
            injection hs with hs; injection hs with e1 e2
            refine quiet _ (mild_trans (mild_unblock h1) (mild_modify ?_)) e1.symm e2.symm
            exact fun _ _ => ⟨rfl, rfl, rfl, rfl, fun _ => rfl, .inl rfl⟩
        · injection hs with hs; injection hs with e1 e2
          exact quiet s (mild_refl s) e1.symm e2.symm
      · cases hs
  | exit p code =>
    simp only [step] at hs
    split at hs
    · cases hs
    · rename_i P hp
      split at hs
      · rename_i g
        exact exit_step hi hl hp g.1 g.2.1 hs
      · cases hs
  | stop c sig =>
    simp only [step] at hs
    split at hs
    · cases hs
    · rename_i C hC
      split at hs
      · cases hs
      · rename_i g
        injection hs with hs; injection hs with e1 e2
        refine note _ (.stopSig c) (mild_trans (mild_trans (mild_modify ?_) (mild_wakeOn .stopped _ c)) (mild_modify ?_))
          (fun _ _ => rfl) e1.symm e2.symm
        · intro P hP
          rw [hC] at hP; injection hP with hP; subst hP
          exact ⟨rfl, rfl, rfl, rfl, fun h => absurd h (fun h => g (.inl h)), .inl rfl⟩
        · intro P _
          obtain ⟨a1, a2, a3, a4, a5, a6⟩ := stopState_state P
          exact ⟨a1, a2, a3, a4, fun _ => a5, a6⟩
  | cont c =>
    simp only [step] at hs
    split at hs
    · cases hs
    · rename_i C hC
      split at hs
      · cases hs
      · rename_i g
        injection hs with hs; injection hs with e1 e2
        refine note _ (.contSig c) (mild_trans (mild_trans (mild_modify ?_) (mild_wakeOn .continued _ c)) (mild_modify ?_))
          (fun _ _ => rfl) e1.symm e2.symm
        · intro P hP
          rw [hC] at hP; injection hP with hP; subst hP
          exact ⟨rfl, rfl, rfl, rfl, fun h => absurd h (fun h => g (.inl h)), .inl rfl⟩
        · intro P _
          obtain ⟨a1, a2, a3, a4, a5, a6⟩ := contState_state P
          exact ⟨a1, a2, a3, a4, fun _ => a5, a6⟩
  | sigWake p =>
    simp only [step] at hs
    split at hs
    · cases hs
    · rename_i P hp
      split at hs
      · cases hs
      · split at hs
        · injection hs with hs; injection hs with e1 e2
          refine quiet _ (mild_trans (mild_modify ?_) (mild_wake _ p)) e1.symm e2.symm
          exact fun _ _ => ⟨rfl, rfl, rfl, rfl, fun _ => rfl, .inl rfl⟩
        · rename_i hst
          injection hs with hs; injection hs with e1 e2
          refine quiet _ (mild_modify ?_) e1.symm e2.symm
          intro Q hQ
          rw [hp] at hQ; injection hQ with hQ; subst hQ
          exact ⟨rfl, rfl, rfl, rfl, fun _ => rfl, .inr ⟨by rw [hst]; simp, by simp, by simp⟩⟩
        · rename_i hst
          injection hs with hs; injection hs with e1 e2
          refine quiet _ (mild_modify ?_) e1.symm e2.symm
          intro Q hQ
          rw [hp] at hQ; injection hQ with hQ; subst hQ
          exact ⟨rfl, rfl, rfl, rfl, fun _ => rfl, .inr ⟨by rw [hst]; simp, by simp, by simp⟩⟩
        · cases hs
  | wait p a =>
    simp only [step] at hs
    split at hs
    · cases hs
    · rename_i P hp
      split at hs
      · rename_i g
        obtain ⟨rfl, rfl⟩ := some_pair hs
        exact wait_step hi hl hp (waitIter_spec hi hp g.1 g.2.2)
      · cases hs
  | resume p sig =>
    simp only [step] at hs
    split at hs
    · cases hs
    · rename_i P hp
      split at hs
      · cases hs
      · rename_i a _
        split at hs
        · rename_i g
          split at hs
          · injection hs with hs; injection hs with e1 e2
            exact note _ (.eintr p a) (mild_ret s p) (fun _ _ => rfl) e1.symm e2.symm
          · obtain ⟨rfl, rfl⟩ := some_pair hs
            exact wait_step hi hl hp (waitIter_spec hi hp g.1 g.2)
        · cases hs
  | setIgn p b =>
    simp only [step] at hs
    split at hs
    · cases hs
    · split at hs
      · injection hs with hs; injection hs with e1 e2
        refine quiet _ (mild_modify ?_) e1.symm e2.symm
        exact fun _ _ => ⟨rfl, rfl, rfl, rfl, fun _ => rfl, .inl rfl⟩
      · cases hs
  | setpgid c g =>
    simp only [step] at hs
    injection hs with hs; injection hs with e1 e2; subst e1; subst e2
    refine ⟨inv_setpgid hi (hc.imp_right (fun h => h c g rfl)), ?_⟩
    intro x; rw [List.append_nil, hl x, lifeOf_setpgid]
  | sleepO p =>
    simp only [step] at hs
    split at hs
    · cases hs
    · rename_i P hp
      split at hs
      · rename_i g
        injection hs with hs; injection hs with e1 e2
        refine quiet _ (mild_modify ?_) e1.symm e2.symm
        intro Q hQ
        rw [hp] at hQ; injection hQ with hQ; subst hQ
        exact ⟨rfl, rfl, rfl, rfl, fun _ => rfl, .inr ⟨by rw [g.1]; simp, by simp, by simp⟩⟩
      · cases hs
  | wakeO p =>
    simp only [step] at hs
    split at hs
    · cases hs
    · rename_i P hp
      split at hs
      · rename_i g
        injection hs with hs; injection hs with e1 e2
        refine quiet _ (mild_modify ?_) e1.symm e2.symm
        intro Q hQ
        rw [hp] at hQ; injection hQ with hQ; subst hQ
        refine ⟨rfl, rfl, rfl, rfl, fun _ => rfl, .inr ⟨by rw [g]; simp, ?_, ?_⟩⟩
        · simp only; split <;> simp
        · intro a; simp only; split <;> simp
      · cases hs

theorem exec_ok {zg} {s : Table} {tr} (h : Exec zg s tr) : Ok zg s ∧ LifeOk s tr := by
  induction h with
  | init => exact ⟨ok_init zg, fun c => by rw [life_init]; rfl⟩
  | step _ hc hs ih => exact ok_step ih.1 ih.2 hc hs

/-! ## Main theorems -/

theorem outcome_of_wait {zg} {s s' : Table} {tr evs op p a} (h : Exec zg s tr) (hs : step s op = some (s', evs))
    (ho : op = .wait p a ∨ (∃ P, op = .resume p false ∧ s p = some P ∧ P.call = some a)) :
    ∃ P, s p = some P ∧ WaitOutcome s p P a s' evs := by
  obtain ⟨hi, _⟩ := exec_ok h
  rcases ho with rfl | ⟨P, rfl, hp, hca⟩
  · simp only [step] at hs
    split at hs
    · cases hs
    · rename_i P hp
      split at hs
      · rename_i g
        obtain ⟨rfl, rfl⟩ := some_pair hs
        exact ⟨P, hp, waitIter_spec hi hp g.1 g.2.2⟩
      · cases hs
  · simp only [step, hp, hca] at hs
    split at hs
    · rename_i g
      simp at hs
      obtain ⟨rfl, rfl⟩ : s' = (waitIter s p P a).1 ∧ evs = (waitIter s p P a).2 := by rw [hs]; exact ⟨rfl, rfl⟩
      exact ⟨P, hp, waitIter_spec hi hp g.1 g.2⟩
    · cases hs

/-- C24, what is returned: after any history, when a call of `waitpid` (or its continuation after a wake-up)
returns a pid, it is the pid of a child of the caller covered by the pid argument, with its status; the child
is dead and no longer exists afterwards, or it is alive and "stopped, not reported yet, and WUNTRACED was given"
or "not stopped, a stop was reported, and WCONTINUED was given". -/
theorem wait_returns_matching_child {zg} {s s' : Table} {tr evs op p a c st d} (h : Exec zg s tr)
    (hs : step s op = some (s', evs))
    (ho : op = .wait p a ∨ (∃ P, op = .resume p false ∧ s p = some P ∧ P.call = some a))
    (he : Ev.waited p a c st d ∈ evs) :
    Matches s p c a.tid ∧ ∃ C, s c = some C ∧ st = C.wstatus ∧
      ((d = true ∧ C.state = .zombie ∧ s' c = none) ∨
       (d = false ∧ C.state ≠ .zombie ∧ ∃ C', s' c = some C' ∧
         ((isStopped C = true ∧ C.stopRep = false ∧ a.untraced = true ∧ C'.stopRep = true) ∨
          (isStopped C = false ∧ C.stopRep = true ∧ a.cont = true ∧ C'.stopRep = false)))) := by
  obtain ⟨hi, _⟩ := exec_ok h
  obtain ⟨P, hp, o⟩ := outcome_of_wait h hs ho
  cases o with
  | echild m _ => simp at he
  | zero m _ _ _ => simp at he
  | dead hc hz hm m =>
    rename_i c' C
    simp at he
    obtain ⟨rfl, rfl, rfl⟩ := he
    refine ⟨hm, C, hc, rfl, .inl ⟨rfl, hz, ?_⟩⟩
    apply mild_none m
    have := lifeOf_remove hc (hi.self _ C hc) c
    rw [if_pos rfl] at this
    unfold lifeOf at this
    cases hh : remove s c c with
    | none => rfl
    | some X => rw [hh] at this; simp only at this; split at this <;> cases this
  | report hc hz hm hch m hr =>
    rename_i c' C b
    simp at he
    obtain ⟨rfl, rfl, rfl⟩ := he
    obtain ⟨C', c1, c2⟩ := hr
    refine ⟨hm, C, hc, rfl, .inr ⟨rfl, hz, C', c1, ?_⟩⟩
    unfold changed at hch
    rw [if_neg hz] at hch
    split at hch
    · rename_i g
      simp at g hch
      exact .inl ⟨g.1.1, g.1.2, g.2, by rw [c2, ← hch]⟩
    · split at hch
      · rename_i g
        simp at g hch
        exact .inr ⟨g.1.1, g.1.2, g.2, by rw [c2, hch]⟩
      · cases hch
  | sleep => simp at he

/-- C24, -ECHILD: a call returns -ECHILD exactly when the caller has no child covered by the pid argument. -/
theorem wait_echild_iff {zg} {s s' : Table} {tr evs op p a} (h : Exec zg s tr) (hs : step s op = some (s', evs))
    (ho : op = .wait p a ∨ (∃ P, op = .resume p false ∧ s p = some P ∧ P.call = some a)) :
    Ev.echild p a ∈ evs ↔ ∀ c, ¬ Matches s p c a.tid := by
  obtain ⟨P, hp, o⟩ := outcome_of_wait h hs ho
  cases o with
  | echild m hn => simp; exact hn
  | zero m hex _ _ => simp; exact hex
  | dead hc hz hm m => simp; exact ⟨_, hm⟩
  | report hc hz hm hch m hr => simp; exact ⟨_, hm⟩
  | sleep m h1 h2 hex => simp; exact hex

/-- C24: a call blocks or returns 0 only if no child it covers is dead. -/
theorem wait_blocks_only_if_none_dead {zg} {s s' : Table} {tr evs op p a} (h : Exec zg s tr)
    (hs : step s op = some (s', evs))
    (ho : op = .wait p a ∨ (∃ P, op = .resume p false ∧ s p = some P ∧ P.call = some a))
    (he : evs = [] ∨ Ev.zero p a ∈ evs) :
    ∀ c C, Matches s p c a.tid → s c = some C → C.state ≠ .zombie := by
  obtain ⟨P, hp, o⟩ := outcome_of_wait h hs ho
  cases o with
  | echild m hn => simp at he
  | dead hc hz hm m => simp at he
  | report hc hz hm hch m hr => simp at he
  | zero m hex _ hall =>
    intro c C hm hc hz
    have := hall c C hm hc
    rw [changed_zombie a hz] at this; cases this
  | sleep m h1 h2 hex hn hall =>
    intro c C hm hc hz
    have := hall c C hm hc
    rw [changed_zombie a hz] at this; cases this

/-- Only `wait4` steps report children. -/
theorem waited_only_by_wait {s s' : Table} {op evs p a c st d} (hs : step s op = some (s', evs))
    (he : Ev.waited p a c st d ∈ evs) : op = .wait p a ∨ (∃ P, op = .resume p false ∧ s p = some P ∧ P.call = some a) := by
  have arg : ∀ P q b, Ev.waited p a c st d ∈ (waitIter s q P b).2 → p = q ∧ a = b := by
    intro P q b hm
    unfold waitIter at hm
    simp only at hm
    split at hm
    · split at hm
      · simp at hm
      · split at hm
        · simp at hm
        · split at hm
          · split at hm
            · simp at hm
            · split at hm <;> simp at hm <;> exact ⟨hm.1, hm.2.1⟩
          · split at hm <;> simp at hm
    · split at hm
      · split at hm
        · simp at hm
        · split at hm <;> simp at hm <;> exact ⟨hm.1, hm.2.1⟩
      · split at hm
        · simp at hm
        · split at hm <;> simp at hm
  cases op with
  | wait q b =>
    simp only [step] at hs
    split at hs
    · cases hs
    · split at hs
      · obtain ⟨rfl, rfl⟩ := some_pair hs
        obtain ⟨rfl, rfl⟩ := arg _ _ _ he
        exact .inl rfl
      · cases hs
  | resume q sig =>
    simp only [step] at hs
    split at hs
    · cases hs
    · rename_i P hp
      split at hs
      · cases hs
      · rename_i b hb
        split at hs
        · split at hs
          · injection hs with hs; injection hs with e1 e2; subst e2; simp at he
          · rename_i hsig
            obtain ⟨rfl, rfl⟩ := some_pair hs
            obtain ⟨rfl, rfl⟩ := arg _ _ _ he
            exact .inr ⟨P, by rw [show sig = false by simpa using hsig], hp, hb⟩
        · cases hs
  | exit q code =>
    simp only [step] at hs
    split at hs
    · cases hs
    · split at hs
      · unfold doExit at hs
        simp only at hs
        split at hs
        · cases hs
        · split at hs <;> (injection hs with hs; injection hs with e1 e2; subst e2; simp at he)
      · cases hs
  | fork => simp only [step] at hs; (repeat' split at hs); all_goals first | (cases hs; done) | (injection hs with hs; injection hs with e1 e2; subst e2; simp at he)
  | vfork => simp only [step] at hs; (repeat' split at hs); all_goals first | (cases hs; done) | (injection hs with hs; injection hs with e1 e2; subst e2; simp at he)
  | exec => simp only [step] at hs; (repeat' split at hs); all_goals first | (cases hs; done) | (injection hs with hs; injection hs with e1 e2; subst e2; simp at he)
  | stop => simp only [step] at hs; (repeat' split at hs); all_goals first | (cases hs; done) | (injection hs with hs; injection hs with e1 e2; subst e2; simp at he)
  | cont => simp only [step] at hs; (repeat' split at hs); all_goals first | (cases hs; done) | (injection hs with hs; injection hs with e1 e2; subst e2; simp at he)
  | sigWake => simp only [step] at hs; (repeat' split at hs); all_goals first | (cases hs; done) | (injection hs with hs; injection hs with e1 e2; subst e2; simp at he)
  | setIgn => simp only [step] at hs; (repeat' split at hs); all_goals first | (cases hs; done) | (injection hs with hs; injection hs with e1 e2; subst e2; simp at he)
  | setpgid => simp only [step] at hs; injection hs with hs; injection hs with e1 e2; subst e2; simp at he
  | sleepO => simp only [step] at hs; (repeat' split at hs); all_goals first | (cases hs; done) | (injection hs with hs; injection hs with e1 e2; subst e2; simp at he)
  | wakeO => simp only [step] at hs; (repeat' split at hs); all_goals first | (cases hs; done) | (injection hs with hs; injection hs with e1 e2; subst e2; simp at he)

/-- One event per step at most. -/
theorem step_one {s s' : Table} {op evs} (hs : step s op = some (s', evs)) (e : Ev) (he : e ∈ evs) : evs = [e] := by
  have wi : ∀ P q b, e ∈ (waitIter s q P b).2 → (waitIter s q P b).2 = [e] := by
    intro P q b hm
    have key : ∀ l : List Ev, l.length ≤ 1 → e ∈ l → l = [e] := by
      intro l hl hm
      match l with
      | [] => cases hm
      | [x] => simp at hm; rw [hm]
      | _ :: _ :: _ => simp at hl
    refine key _ ?_ hm
    unfold waitIter
    simp only
    repeat' split
    all_goals simp
  cases op with
  | wait q b =>
    simp only [step] at hs
    split at hs
    · cases hs
    · split at hs
      · obtain ⟨rfl, rfl⟩ := some_pair hs; exact wi _ _ _ he
      · cases hs
  | resume q sig =>
    simp only [step] at hs
    split at hs
    · cases hs
    · split at hs
      · cases hs
      · split at hs
        · split at hs
          · injection hs with hs; injection hs with e1 e2; subst e2; simp at he; rw [he]
          · obtain ⟨rfl, rfl⟩ := some_pair hs; exact wi _ _ _ he
        · cases hs
  | exit q code =>
    simp only [step] at hs
    split at hs
    · cases hs
    · split at hs
      · unfold doExit at hs
        simp only at hs
        split at hs
        · cases hs
        · split at hs <;> (injection hs with hs; injection hs with e1 e2; subst e2; simp at he; rw [he])
      · cases hs
  | fork => simp only [step] at hs; (repeat' split at hs); all_goals first | (cases hs; done) | (injection hs with hs; injection hs with e1 e2; subst e2; simp at he; first | rw [he] | exact he.elim)
  | vfork => simp only [step] at hs; (repeat' split at hs); all_goals first | (cases hs; done) | (injection hs with hs; injection hs with e1 e2; subst e2; simp at he; first | rw [he] | exact he.elim)
  | exec => simp only [step] at hs; (repeat' split at hs); all_goals first | (cases hs; done) | (injection hs with hs; injection hs with e1 e2; subst e2; simp at he)
  | stop => simp only [step] at hs; (repeat' split at hs); all_goals first | (cases hs; done) | (injection hs with hs; injection hs with e1 e2; subst e2; simp at he; rw [he])
  | cont => simp only [step] at hs; (repeat' split at hs); all_goals first | (cases hs; done) | (injection hs with hs; injection hs with e1 e2; subst e2; simp at he; rw [he])
  | sigWake => simp only [step] at hs; (repeat' split at hs); all_goals first | (cases hs; done) | (injection hs with hs; injection hs with e1 e2; subst e2; simp at he)
  | setIgn => simp only [step] at hs; (repeat' split at hs); all_goals first | (cases hs; done) | (injection hs with hs; injection hs with e1 e2; subst e2; simp at he)
  | setpgid => simp only [step] at hs; injection hs with hs; injection hs with e1 e2; subst e2; simp at he
  | sleepO => simp only [step] at hs; (repeat' split at hs); all_goals first | (cases hs; done) | (injection hs with hs; injection hs with e1 e2; subst e2; simp at he)
  | wakeO => simp only [step] at hs; (repeat' split at hs); all_goals first | (cases hs; done) | (injection hs with hs; injection hs with e1 e2; subst e2; simp at he)

/-- C24, each death is reported at most once and truthfully: in any history, whenever `waitpid` reports the death
of `c` with status `st`, the events before it say that `c` exited with status `st` and has not been reaped
since (reporting it makes it absent, so a second report needs a new fork of that pid and a new exit). -/
theorem death_reported_once {zg} {s : Table} {tr} (h : Exec zg s tr) {pre post p a c st}
    (ht : tr = pre ++ Ev.waited p a c st true :: post) : life c pre = .dead st := by
  induction h generalizing pre post with
  | init => cases pre <;> cases ht
  | @step s0 tr0 op s1 evs h0 hc hs ih =>
    rcases List.append_eq_append_iff.1 ht with ⟨l, e1, e2⟩ | ⟨l, e1, e2⟩
    · -- the event is in `evs`
      have hm : Ev.waited p a c st true ∈ evs := by rw [e2]; simp
      have h1 := step_one hs _ hm
      have hl : l = [] := by
        rw [h1] at e2
        cases l with
        | nil => rfl
        | cons x xs =>
          have hlen := congrArg List.length e2
          simp at hlen
      rw [hl, List.append_nil] at e1
      subst e1
      obtain ⟨_, C, hC, hst, g | g⟩ := wait_returns_matching_child h0 hs (waited_only_by_wait hs hm) hm
      · rw [(exec_ok h0).2 c]
        unfold lifeOf; rw [hC]; simp only [g.2.1, if_true, hst]
      · cases g.1
    · cases l with
      | nil =>
        simp at e2
        have hm : Ev.waited p a c st true ∈ evs := by rw [← e2]; simp
        rw [List.append_nil] at e1
        subst e1
        obtain ⟨_, C, hC, hst, g | g⟩ := wait_returns_matching_child h0 hs (waited_only_by_wait hs hm) hm
        · rw [(exec_ok h0).2 c]
          unfold lifeOf; rw [hC]; simp only [g.2.1, if_true, hst]
        · cases g.1
      | cons x xs =>
        simp at e2
        obtain ⟨rfl, e2⟩ := e2
        exact ih e1

/-- C24: a dead process that nobody has waited for is not lost: as long as the history says that `c` died with
status `st` and was not reaped, it is in the table with that status, as a child of a process that is alive and can
wait for it. -/
theorem dead_waits_for_live_parent {zg} {s : Table} {tr c st} (h : Exec zg s tr) (hd : life c tr = .dead st) :
    ∃ C P, s c = some C ∧ C.state = .zombie ∧ C.wstatus = st ∧ s C.parent = some P ∧ P.state ≠ .zombie ∧
      Matches s C.parent c (-1) ∧ Matches s C.parent c c := by
  obtain ⟨hi, hl⟩ := exec_ok h
  rw [hl c] at hd
  unfold lifeOf at hd
  split at hd
  · cases hd
  · rename_i C hc
    split at hd
    · rename_i hz
      injection hd with hd
      have h1 : c ≠ 1 := by
        rintro rfl
        obtain ⟨I, a, b, _⟩ := hi.one
        rw [hc] at a; injection a with a; subst a; exact b hz
      have h0 : c ≠ 0 := by rintro rfl; rw [hi.zero] at hc; cases hc
      obtain ⟨P, hP⟩ := hi.par c C hc h1
      refine ⟨C, P, hc, hz, hd, hP, ?_, ⟨P, C, hP, hc, rfl, .inr (.inl rfl)⟩, ⟨P, C, hP, hc, rfl, .inl ⟨by omega, rfl⟩⟩⟩
      intro hzp
      have := (hi.kids _ P hP c).2 ⟨C, hc, rfl⟩
      rcases hi.zk _ P hP hzp with e | e
      · rw [e] at this; cases this
      · exact e
    · cases hd

/-- C25: after any history (in which groups of dead processes are not changed), no process sleeps in a
`waitpid` call while a child covered by that call is dead, `waitpid(0, ..)` excepted. -/
theorem waiter_woken_partial {s : Table} {tr w W a c C} (h : Exec false s tr) (hw : s w = some W)
    (ha : W.state = .sleepW a) (hz : a.tid ≠ 0) (hm : Matches s w c a.tid) (hc : s c = some C) :
    C.state ≠ .zombie := by
  intro hzom
  obtain ⟨hi, _⟩ := exec_ok h
  obtain ⟨h1, h2⟩ := (matches_skip hi hw hc).1 hm
  exact hi.lost w W a c C hw ha ((Int.lt_or_lt_of_ne hz).elim (fun h => .inr ⟨rfl, h⟩) .inl) hc h1 hzom h2

/-- C25 for `waitpid(pid > 0)`: no restriction on `setpgid`. -/
theorem waiter_for_pid_woken {s : Table} {tr w W a c C} (h : Exec true s tr) (hw : s w = some W)
    (ha : W.state = .sleepW a) (hz : a.tid > 0) (hm : Matches s w c a.tid) (hc : s c = some C) :
    C.state ≠ .zombie := by
  intro hzom
  obtain ⟨hi, _⟩ := exec_ok h
  obtain ⟨h1, h2⟩ := (matches_skip hi hw hc).1 hm
  exact hi.lost w W a c C hw ha (.inl hz) hc h1 hzom h2

/-- Runs a list of steps. -/
def run (s : Table) : List Op → Option (Table × List Ev)
  | [] => some (s, [])
  | o :: os => match step s o with
    | none => none
    | some (s1, e1) => match run s1 os with
      | none => none
      | some (s2, e2) => some (s2, e1 ++ e2)

theorem exec_run {zg} : ∀ (os : List Op) (s : Table) tr s' evs, Exec zg s tr → (∀ o ∈ os, ∀ c g, o ≠ .setpgid c g) →
    run s os = some (s', evs) → Exec zg s' (tr ++ evs) := by
  intro os
  induction os with
  | nil => intro s tr s' evs h _ hr; cases hr; rw [List.append_nil]; exact h
  | cons o os ih =>
    intro s tr s' evs h hn hr
    unfold run at hr
    split at hr
    · cases hr
    · rename_i s1 e1 h1
      split at hr
      · cases hr
      · rename_i s2 e2 h2
        injection hr with hr; injection hr with a b; subst a; subst b
        rw [← List.append_assoc]
        refine ih s1 _ s2 e2 (.step h (.inr ?_) h1) (fun o' h' => hn o' (List.mem_cons_of_mem _ h')) h2
        intro c g e; exact absurd e (hn o List.mem_cons_self c g)

/-- C25 fails for `waitpid(0, ..)`: a process whose child (in the same group) dies stays asleep. -/
theorem waitpid_zero_violated : ∃ s tr w W a c C, Exec false s tr ∧ s w = some W ∧ W.state = .sleepW a ∧
    Matches s w c a.tid ∧ s c = some C ∧ C.state = .zombie := by
  let a : WArg := ⟨0, false, false, false⟩
  let os : List Op := [.fork 1 2, .fork 2 3, .wait 2 a, .exit 3 7]
  obtain ⟨s, evs, hr⟩ : ∃ s evs, run init os = some (s, evs) := ⟨_, _, rfl⟩
  have e2 : (run init os).map (fun r => r.1 2) =
      some (some { parent := 1, pgid := 1, state := .sleepW a, children := [3], call := some a }) := by decide
  have e3 : (run init os).map (fun r => r.1 3) =
      some (some { parent := 2, pgid := 1, state := .zombie, wstatus := .exited 7 }) := by decide
  rw [hr] at e2 e3
  simp only [Option.map_some, Option.some.injEq] at e2 e3
  refine ⟨s, evs, 2, _, a, 3, _, ?_, e2, rfl, ⟨_, _, e2, e3, rfl, .inr (.inr (.inr ⟨rfl, rfl⟩))⟩, e3, rfl⟩
  have := exec_run (zg := false) os init [] s evs .init (by simp [os]) hr
  simpa using this

/-- Part of C24 that fails: a process that called `vfork` is reported as stopped, although nobody stopped it. -/
theorem vfork_reported_stopped_violated : ∃ s tr p a c st, Exec false s tr ∧
    Ev.waited p a c st false ∈ tr ∧ Ev.stopSig c ∉ tr ∧ Ev.contSig c ∉ tr := by
  let a : WArg := ⟨-1, true, false, true⟩
  let os : List Op := [.fork 1 2, .vfork 2 3, .wait 1 a]
  obtain ⟨s, evs, hr⟩ : ∃ s evs, run init os = some (s, evs) := ⟨_, _, rfl⟩
  have e : (run init os).map (fun r => r.2) = some [.forked 1 2, .forked 2 3, .waited 1 a 2 (.exited 0) false] := by decide
  rw [hr] at e
  simp only [Option.map_some, Option.some.injEq] at e
  subst e
  refine ⟨s, _, 1, a, 2, .exited 0, by simpa using exec_run os init [] s _ .init (by simp [os]) hr, by simp, by simp, by simp⟩

/-- Part of C24 that fails: the flag "stop reported" is inherited by fork, so a new child is reported as
continued although it was never stopped or continued. -/
theorem inherited_stop_flag_violated : ∃ s tr p a c st, Exec false s tr ∧
    Ev.waited p a c st false ∈ tr ∧ Ev.stopSig c ∉ tr ∧ Ev.contSig c ∉ tr := by
  let a : WArg := ⟨-1, true, false, true⟩
  let b : WArg := ⟨-1, false, true, true⟩
  let os : List Op := [.fork 1 2, .stop 2 19, .wait 1 a, .cont 2, .fork 2 3, .wait 2 b]
  obtain ⟨s, evs, hr⟩ : ∃ s evs, run init os = some (s, evs) := ⟨_, _, rfl⟩
  have e : (run init os).map (fun r => r.2) = some [.forked 1 2, .stopSig 2, .waited 1 a 2 (.stoppedBy 19) false,
      .contSig 2, .forked 2 3, .waited 2 b 3 .continued false] := by decide
  rw [hr] at e
  simp only [Option.map_some, Option.some.injEq] at e
  subst e
  refine ⟨s, _, 2, b, 3, .continued, by simpa using exec_run os init [] s _ .init (by simp [os]) hr, by simp, by simp, by simp⟩

/-! ## Non-vacuity -/

/-- A parent waits for its two children, one in another group; both deaths are reported, the second after a
wake-up, then -ECHILD. -/
example : (run init [.fork 1 2, .fork 2 3, .fork 2 4, .setpgid 4 4, .exit 3 5, .wait 2 ⟨-1, false, false, false⟩,
    .wait 2 ⟨-4, false, false, false⟩, .exit 4 6, .resume 2 false, .wait 2 ⟨-1, false, false, false⟩]).map (·.2) =
    some [.forked 1 2, .forked 2 3, .forked 2 4, .exited 3 (.exited 5) false,
      .waited 2 ⟨-1, false, false, false⟩ 3 (.exited 5) true, .exited 4 (.exited 6) false,
      .waited 2 ⟨-4, false, false, false⟩ 4 (.exited 6) true, .echild 2 ⟨-1, false, false, false⟩] := by decide

end Verif.Waitpid
