import Verif.Kmutex
import Verif.Ringbuf

/-!
# Pipes (`kernel/pipe.c`)

Everything but the two handle counters is accessed under `p->mutex`; `kcond_wait` enqueues the caller and
releases the mutex in one preemption-disabled section (kcond.c:45-53).  With mutual exclusion
(`Verif.Kmutex`) every critical section is one atomic step.  The handle counters are atomics incremented
outside of the mutex: `dup` is a step of its own.  The ring buffer is the one of `Verif.Ringbuf`.
The per-handle `O_NONBLOCK` flag is an argument of the calls.  Not modelled: the debug history, the `err_cond`
(only used by `poll`), `SIGSTOP` of a waiting task, destruction of the pipe.
-/

namespace Verif.Pipe

open Verif.Kmutex (Tid upd upd_same upd_other some_pair)
open Verif.Ringbuf (RB Rep readBytes writeBytes isEmpty isFull)

/-- Where a task is: not in a call; asleep in `pipe_read` (pipe.c:132) / woken from there; asleep in
`pipe_write` (pipe.c:200) / woken; asleep in `poll` on the read end / woken. -/
inductive PC
  | out
  | rdSleep (n : Nat) | rdAwake (n : Nat)
  | wrSleep (d : List Nat) | wrAwake (d : List Nat)
  | plSleep | plAwake
deriving DecidableEq, Repr

/-- `struct pipe` (pipe.c:43-64): ring buffer, handle counters, wait lists of `not_empty_cond` (`ne`) and
`not_full_cond` (`nf`), and the program counters. -/
structure St where
  rb : RB Nat
  rh : Int
  wh : Int
  ne : List Tid
  nf : List Tid
  pc : Tid → PC

inductive Err | eagain | eintr | epipe
deriving DecidableEq, Repr

/-- API-visible events. -/
inductive Ev
  /-- `read(fd, buf, n)` returned the bytes `bs` (their number is the return value) -/
  | readOk (t : Tid) (n : Nat) (bs : List Nat)
  | readErr (t : Tid) (n : Nat) (e : Err)
  /-- `write(fd, d, |d|)` returned `k` -/
  | writeOk (t : Tid) (d : List Nat) (k : Nat)
  | writeErr (t : Tid) (d : List Nat) (e : Err)
  /-- `SIGPIPE` sent to the caller -/
  | sigpipe (t : Tid)
  /-- a handle of the read / write end was duplicated or closed -/
  | openR | openW | closeR | closeW
  /-- `poll` on the read end returned "readable" -/
  | pollRet (t : Tid)
  /-- out-of-bounds access or failed ASSERT inside the ring buffer -/
  | fault
deriving DecidableEq, Repr

/-- Steps of the schedule. -/
inductive Op
  | read (t : Tid) (n : Nat) (nonblock : Bool)
  | write (t : Tid) (d : List Nat) (nonblock : Bool)
  /-- a woken task runs; `pend`: it has a pending signal (pipe.c:135, 203) -/
  | resume (t : Tid) (pend : Bool)
  /-- a signal wakes a sleeping task: `wake_up` unlinks it (signal.c:298-299, wobj.c:116-121) -/
  | sigWake (t : Tid)
  /-- a timer wakes a sleeping task without unlinking it (timer.c:232-260) -/
  | timerWake (t : Tid)
  | dupR | dupW | closeR | closeW
  /-- a task polls the read end -/
  | poll (t : Tid)
deriving DecidableEq, Repr

/-- `create_pipe` (pipe.c:475-511) and one handle for each end (pipe.c:513-535). -/
def init (storage : List Nat) : St :=
  { rb := Ringbuf.init storage, rh := 1, wh := 1, ne := [], nf := [], pc := fun _ => .out }

/-- State change of a sleeping task that is woken; `none`: not sleeping. -/
def wakePC : PC → Option PC
  | .rdSleep n => some (.rdAwake n)
  | .wrSleep d => some (.wrAwake d)
  | .plSleep => some .plAwake
  | _ => none

/-- kcond.c:179-194 `kcond_signal_one`: the signal is lost when the first waiter is no longer sleeping
(kcond.c:168-171). -/
def signalOne (l : List Tid) (pc : Tid → PC) : List Tid × (Tid → PC) :=
  match l with
  | [] => ([], pc)
  | t :: r =>
    match wakePC (pc t) with
    | some p => (r, upd pc t p)
    | none => (t :: r, pc)

/-- kcond.c:196-208 `kcond_signal_all`. -/
def signalAll (l : List Tid) (pc : Tid → PC) : List Tid × (Tid → PC) :=
  match l with
  | [] => ([], pc)
  | t :: r =>
    match wakePC (pc t) with
    | some p => signalAll r (upd pc t p)
    | none => (t :: (signalAll r pc).1, (signalAll r pc).2)

def signalNf (s : St) : St := { s with nf := (signalOne s.nf s.pc).1, pc := (signalOne s.nf s.pc).2 }
def signalNe (s : St) : St := { s with ne := (signalOne s.ne s.pc).1, pc := (signalOne s.ne s.pc).2 }

/-- pipe.c:153-162: the way out of `pipe_read`. -/
def rdExit (s : St) (t : Tid) (e : Ev) : St × List Ev :=
  let s1 := signalNf { s with pc := upd s.pc t .out }
  (if isEmpty s1.rb then s1 else signalNe s1, [e])

/-- pipe.c:213-222: the way out of `pipe_write`. -/
def wrExit (s : St) (t : Tid) (es : List Ev) : St × List Ev :=
  let s1 := signalNe { s with pc := upd s.pc t .out }
  (if isFull s1.rb then s1 else signalNf s1, es)

/-- pipe.c:116-132: one iteration of the loop of `pipe_read`. -/
def rdBody (s : St) (t : Tid) (n : Nat) (nonblock : Bool) : St × List Ev :=
  match readBytes s.rb n with
  | none => (s, [.fault])
  | some (rb, bs) =>
    if bs ≠ [] then rdExit { s with rb := rb } t (.readOk t n bs)
    else if s.wh = 0 then rdExit { s with rb := rb } t (.readOk t n [])
    else if nonblock then rdExit { s with rb := rb } t (.readErr t n .eagain)
    else ({ s with rb := rb, ne := s.ne ++ [t], pc := upd s.pc t (.rdSleep n) }, [])

/-- pipe.c:181-200: one iteration of the loop of `pipe_write`. -/
def wrBody (s : St) (t : Tid) (d : List Nat) (nonblock : Bool) : St × List Ev :=
  if s.rh = 0 then wrExit s t [.sigpipe t, .writeErr t d .epipe]
  else match writeBytes s.rb d with
    | none => (s, [.fault])
    | some (rb, k) =>
      if k ≠ 0 then wrExit { s with rb := rb } t [.writeOk t d k]
      else if nonblock then wrExit { s with rb := rb } t [.writeErr t d .eagain]
      else ({ s with rb := rb, nf := s.nf ++ [t], pc := upd s.pc t (.wrSleep d) }, [])

/-- pipe.c:437-441: the last handle of an end was closed. -/
def broadcast (s : St) : St :=
  let a := signalAll s.nf s.pc
  let b := signalAll s.ne a.2
  { s with nf := a.1, ne := b.1, pc := b.2 }

/-- pipe.c:225-238. -/
def readable (s : St) : Bool := !isEmpty s.rb || s.wh == 0

/-- `poll` on the read end (kernel/fs/poll.c): return if readable, otherwise register on the condition and
sleep. -/
def pollBody (s : St) (t : Tid) : St × List Ev :=
  if readable s then ({ s with pc := upd s.pc t .out }, [.pollRet t])
  else ({ s with ne := s.ne ++ [t], pc := upd s.pc t .plSleep }, [])

/-- A woken task continues (pipe.c:134-139, 202-207). -/
def resumeStep (s : St) (t : Tid) (pend : Bool) : Option (St × List Ev) :=
  match s.pc t with
  | .rdAwake n =>
      let s1 := { s with ne := s.ne.erase t }
      some (if pend then rdExit s1 t (.readErr t n .eintr) else rdBody s1 t n false)
  | .wrAwake d =>
      let s1 := { s with nf := s.nf.erase t }
      some (if pend then wrExit s1 t [.writeErr t d .eintr] else wrBody s1 t d false)
  | .plAwake => some (pollBody s t)
  | _ => none

/-- One step; `none` when the task is not in a position to take it. -/
def step (s : St) : Op → Option (St × List Ev)
  | .read t n nb =>
      if s.pc t = .out then
        if n = 0 then some (s, [.readOk t 0 []]) else some (rdBody s t n nb)
      else none
  | .write t d nb =>
      if s.pc t = .out then
        if d.length = 0 then some (s, [.writeOk t d 0]) else some (wrBody s t d nb)
      else none
  | .resume t pend => resumeStep s t pend
  | .sigWake t =>
      match wakePC (s.pc t) with
      | some p => some ({ s with ne := s.ne.erase t, nf := s.nf.erase t, pc := upd s.pc t p }, [])
      | none => none
  | .timerWake t =>
      if s.pc t = .plSleep then none
      else match wakePC (s.pc t) with
        | some p => some ({ s with pc := upd s.pc t p }, [])
        | none => none
  | .dupR => some ({ s with rh := s.rh + 1 }, [.openR])
  | .dupW => some ({ s with wh := s.wh + 1 }, [.openW])
  | .closeR =>
      let s1 := { s with rh := s.rh - 1 }
      some (if s.rh = 1 then broadcast s1 else s1, [.closeR])
  | .closeW =>
      let s1 := { s with wh := s.wh - 1 }
      some (if s.wh = 1 then broadcast s1 else s1, [.closeW])
  | .poll t => if s.pc t = .out then some (pollBody s t) else none

/-! ## Specification, from the events only -/

/-- All bytes returned by reads, in order. -/
def received : List Ev → List Nat
  | [] => []
  | .readOk _ _ bs :: r => bs ++ received r
  | _ :: r => received r

/-- All bytes accepted by writes, in order. -/
def accepted : List Ev → List Nat
  | [] => []
  | .writeOk _ d k :: r => d.take k ++ accepted r
  | _ :: r => accepted r

/-- Change of the number of open read / write handles. -/
def readersDelta : List Ev → Int
  | [] => 0
  | .openR :: r => 1 + readersDelta r
  | .closeR :: r => -1 + readersDelta r
  | _ :: r => readersDelta r

def writersDelta : List Ev → Int
  | [] => 0
  | .openW :: r => 1 + writersDelta r
  | .closeW :: r => -1 + writersDelta r
  | _ :: r => writersDelta r

/-- Number of open handles; a pipe is created with one for each end. -/
def openReaders (evs : List Ev) : Int := 1 + readersDelta evs
def openWriters (evs : List Ev) : Int := 1 + writersDelta evs

/-- Only open handles can be duplicated or closed; `polls = false`: nobody polls the pipe. -/
def Contract (polls : Bool) (evs : List Ev) : Op → Prop
  | .dupR => 0 < openReaders evs
  | .closeR => 0 < openReaders evs
  | .dupW => 0 < openWriters evs
  | .closeW => 0 < openWriters evs
  | .poll _ => polls = true
  | _ => True

/-- All interleavings. -/
inductive Exec (polls : Bool) (storage : List Nat) : St → List Ev → Prop
  | init : Exec polls storage (init storage) []
  | step {s evs op s' es} : Exec polls storage s evs → Contract polls evs op →
      step s op = some (s', es) → Exec polls storage s' (evs ++ es)

/-! ## Proofs: wait lists -/

inductive Kind | out | rs | ra | ws | wa | ps | pa
deriving DecidableEq

def kind : PC → Kind
  | .out => .out
  | .rdSleep _ => .rs
  | .rdAwake _ => .ra
  | .wrSleep _ => .ws
  | .wrAwake _ => .wa
  | .plSleep => .ps
  | .plAwake => .pa

/-- `k'` is `k` or its woken version. -/
def woke (k k' : Kind) : Prop := k' = k ∨ (k = .rs ∧ k' = .ra) ∨ (k = .ws ∧ k' = .wa) ∨ (k = .ps ∧ k' = .pa)

theorem wakePC_some {p p'} (h : wakePC p = some p') :
    (kind p = .rs ∧ kind p' = .ra) ∨ (kind p = .ws ∧ kind p' = .wa) ∨ (kind p = .ps ∧ kind p' = .pa) := by
  cases p <;> simp [wakePC] at h <;> subst h <;> simp [kind]

theorem wakePC_none {p} (h : wakePC p = none) : kind p ≠ .rs ∧ kind p ≠ .ws ∧ kind p ≠ .ps := by
  cases p <;> simp [wakePC] at h <;> simp [kind]

/-- A task inside a call asked for a non-empty transfer (pipe.c:109-110, 174-175). -/
def okPC : PC → Prop
  | .rdSleep n => n ≠ 0
  | .rdAwake n => n ≠ 0
  | .wrSleep d => d.length ≠ 0
  | .wrAwake d => d.length ≠ 0
  | _ => True

theorem okPC_wake {p p'} (h : wakePC p = some p') (ho : okPC p) : okPC p' := by
  cases p <;> simp [wakePC] at h <;> subst h <;> exact ho

theorem ok_upd {pc : Tid → PC} {t p} (h : ∀ u, okPC (pc u)) (hp : okPC p) : ∀ u, okPC (upd pc t p u) := by
  intro u
  by_cases e : u = t
  · subst e; rw [upd_same]; exact hp
  · rw [upd_other _ _ e]; exact h u

structure WF (ne nf : List Tid) (pc : Tid → PC) : Prop where
  neN : ne.Nodup
  nfN : nf.Nodup
  neMem : ∀ t ∈ ne, kind (pc t) = .rs ∨ kind (pc t) = .ra ∨ kind (pc t) = .ps
  nfMem : ∀ t ∈ nf, kind (pc t) = .ws ∨ kind (pc t) = .wa
  rs : ∀ t, kind (pc t) = .rs → t ∈ ne
  ps : ∀ t, kind (pc t) = .ps → t ∈ ne
  ws : ∀ t, kind (pc t) = .ws → t ∈ nf
  sz : ∀ t, okPC (pc t)

def Mono (pc pc' : Tid → PC) : Prop := ∀ t, woke (kind (pc t)) (kind (pc' t))

theorem Mono.refl (pc) : Mono pc pc := fun _ => .inl rfl

theorem Mono.trans {a b c} (h : Mono a b) (g : Mono b c) : Mono a c := by
  intro t
  have h1 := h t; have h2 := g t
  unfold woke at *
  generalize kind (a t) = x at *
  generalize kind (b t) = y at *
  generalize kind (c t) = z at *
  rcases h1 with h1 | ⟨h1, h3⟩ | ⟨h1, h3⟩ | ⟨h1, h3⟩ <;>
  rcases h2 with h2 | ⟨h2, h4⟩ | ⟨h2, h4⟩ | ⟨h2, h4⟩ <;> simp_all

/-- If a reader sleeps, some reader is awake. -/
def RA (pc : Tid → PC) : Prop := (∃ t, kind (pc t) = .rs) → ∃ t, kind (pc t) = .ra
def WA (pc : Tid → PC) : Prop := (∃ t, kind (pc t) = .ws) → ∃ t, kind (pc t) = .wa

theorem Mono.ra {pc pc'} (h : Mono pc pc') (g : RA pc) : RA pc' := by
  intro ⟨t, ht⟩
  have h1 : kind (pc t) = .rs := by
    have := h t; rw [ht] at this; unfold woke at this; simp at this; exact this.symm
  obtain ⟨u, hu⟩ := g ⟨t, h1⟩
  refine ⟨u, ?_⟩
  have := h u; rw [hu] at this; unfold woke at this; simpa using this

theorem Mono.wa {pc pc'} (h : Mono pc pc') (g : WA pc) : WA pc' := by
  intro ⟨t, ht⟩
  have h1 : kind (pc t) = .ws := by
    have := h t; rw [ht] at this; unfold woke at this; simp at this; exact this.symm
  obtain ⟨u, hu⟩ := g ⟨t, h1⟩
  refine ⟨u, ?_⟩
  have := h u; rw [hu] at this; unfold woke at this; simpa using this

theorem Mono.nors {pc pc'} (h : Mono pc pc') (g : ∀ t, kind (pc t) ≠ .rs) : ∀ t, kind (pc' t) ≠ .rs := by
  intro t e
  have := h t; rw [e] at this; unfold woke at this; simp at this; exact g t this.symm

theorem Mono.nows {pc pc'} (h : Mono pc pc') (g : ∀ t, kind (pc t) ≠ .ws) : ∀ t, kind (pc' t) ≠ .ws := by
  intro t e
  have := h t; rw [e] at this; unfold woke at this; simp at this; exact g t this.symm

def NoPoll (pc : Tid → PC) : Prop := ∀ t, kind (pc t) ≠ .ps ∧ kind (pc t) ≠ .pa

theorem Mono.nopoll {pc pc'} (h : Mono pc pc') (g : NoPoll pc) : NoPoll pc' := by
  intro t
  have h1 := g t
  have := h t
  unfold woke at this
  rcases this with e | ⟨e, e'⟩ | ⟨e, e'⟩ | ⟨e, e'⟩ <;> simp_all

/-- Changing one task's kind. -/
theorem kind_upd (pc : Tid → PC) (t u : Tid) (p : PC) :
    kind (upd pc t p u) = if u = t then kind p else kind (pc u) := by
  by_cases e : u = t
  · subst e; rw [upd_same]; simp
  · rw [upd_other _ _ e]; simp [e]

theorem mono_wake {pc : Tid → PC} {t p} (h : wakePC (pc t) = some p) : Mono pc (upd pc t p) := by
  intro u
  rw [kind_upd]
  split
  · rename_i e; subst e; exact .inr (wakePC_some h)
  · exact .inl rfl

/-- Waking and unlinking a task that is on one of the lists. -/
theorem wf_wake_erase {ne nf pc t p} (h : WF ne nf pc) (hp : wakePC (pc t) = some p) :
    WF (ne.erase t) (nf.erase t) (upd pc t p) := by
  have hk := wakePC_some hp
  constructor
  · exact h.neN.erase t
  · exact h.nfN.erase t
  · intro u hu
    have hu := (h.neN.mem_erase_iff).1 hu
    rw [kind_upd, if_neg hu.1]; exact h.neMem u hu.2
  · intro u hu
    have hu := (h.nfN.mem_erase_iff).1 hu
    rw [kind_upd, if_neg hu.1]; exact h.nfMem u hu.2
  · intro u hu; rw [kind_upd] at hu
    split at hu
    · rcases hk with ⟨_, e⟩ | ⟨_, e⟩ | ⟨_, e⟩ <;> rw [e] at hu <;> cases hu
    · rename_i e; exact (h.neN.mem_erase_iff).2 ⟨e, h.rs u hu⟩
  · intro u hu; rw [kind_upd] at hu
    split at hu
    · rcases hk with ⟨_, e⟩ | ⟨_, e⟩ | ⟨_, e⟩ <;> rw [e] at hu <;> cases hu
    · rename_i e; exact (h.neN.mem_erase_iff).2 ⟨e, h.ps u hu⟩
  · intro u hu; rw [kind_upd] at hu
    split at hu
    · rcases hk with ⟨_, e⟩ | ⟨_, e⟩ | ⟨_, e⟩ <;> rw [e] at hu <;> cases hu
    · rename_i e; exact (h.nfN.mem_erase_iff).2 ⟨e, h.ws u hu⟩
  · exact ok_upd h.sz (okPC_wake hp (h.sz t))

theorem nf_not_ne {ne nf pc t} (h : WF ne nf pc) (ht : t ∈ nf) : t ∉ ne := by
  intro h1
  rcases h.nfMem t ht with e | e <;> rcases h.neMem t h1 with e' | e' | e' <;> rw [e] at e' <;> cases e'

theorem signalNf_spec {s : St} (h : WF s.ne s.nf s.pc) :
    WF (signalNf s).ne (signalNf s).nf (signalNf s).pc ∧ Mono s.pc (signalNf s).pc ∧
    WA (signalNf s).pc ∧ (signalNf s).rb = s.rb ∧ (signalNf s).rh = s.rh ∧ (signalNf s).wh = s.wh := by
  refine ⟨?_, ?_, ?_, rfl, rfl, rfl⟩ <;>
  (unfold signalNf signalOne
   split
   · rename_i hn
     first
      | (simpa [hn] using h)
      | exact Mono.refl _
      | (intro ⟨t, ht⟩; have := h.ws t ht; rw [hn] at this; cases this)
   · rename_i t r hn
     have ht : t ∈ s.nf := by simp [hn]
     split
     · rename_i p hp
       first
        | (have h1 := wf_wake_erase h hp
           have e1 : s.ne.erase t = s.ne := List.erase_of_not_mem (nf_not_ne h ht)
           have e2 : s.nf.erase t = r := by rw [hn]; simp
           rw [e1, e2] at h1; exact h1)
        | exact mono_wake hp
        | (intro _
           refine ⟨t, ?_⟩
           show kind (upd s.pc t p t) = _
           rw [upd_same]
           rcases wakePC_some hp with ⟨e, e'⟩ | ⟨e, e'⟩ | ⟨e, e'⟩
           · rcases h.nfMem t ht with x | x <;> rw [e] at x <;> cases x
           · exact e'
           · rcases h.nfMem t ht with x | x <;> rw [e] at x <;> cases x)
     · rename_i hp
       first
        | (simpa [hn] using h)
        | exact Mono.refl _
        | (intro _
           refine ⟨t, ?_⟩
           have := wakePC_none hp
           rcases h.nfMem t ht with x | x
           · exact absurd x this.2.1
           · exact x))

theorem signalNe_spec {s : St} (h : WF s.ne s.nf s.pc) :
    WF (signalNe s).ne (signalNe s).nf (signalNe s).pc ∧ Mono s.pc (signalNe s).pc ∧
    (NoPoll s.pc → RA (signalNe s).pc) ∧
    (signalNe s).rb = s.rb ∧ (signalNe s).rh = s.rh ∧ (signalNe s).wh = s.wh := by
  refine ⟨?_, ?_, ?_, rfl, rfl, rfl⟩ <;>
  (unfold signalNe signalOne
   split
   · rename_i hn
     first
      | (simpa [hn] using h)
      | exact Mono.refl _
      | (intro _ ⟨t, ht⟩; have := h.rs t ht; rw [hn] at this; cases this)
   · rename_i t r hn
     have ht : t ∈ s.ne := by simp [hn]
     split
     · rename_i p hp
       first
        | (have h1 := wf_wake_erase h hp
           have e1 : s.nf.erase t = s.nf := List.erase_of_not_mem (fun x => nf_not_ne h x ht)
           have e2 : s.ne.erase t = r := by rw [hn]; simp
           rw [e1, e2] at h1; exact h1)
        | exact mono_wake hp
        | (intro np _
           refine ⟨t, ?_⟩
           show kind (upd s.pc t p t) = _
           rw [upd_same]
           rcases wakePC_some hp with ⟨e, e'⟩ | ⟨e, e'⟩ | ⟨e, e'⟩
           · exact e'
           · rcases h.neMem t ht with x | x | x <;> rw [e] at x <;> cases x
           · exact absurd e (np t).1)
     · rename_i hp
       first
        | (simpa [hn] using h)
        | exact Mono.refl _
        | (intro np _
           refine ⟨t, ?_⟩
           have := wakePC_none hp
           rcases h.neMem t ht with x | x | x
           · exact absurd x this.1
           · exact x
           · exact absurd x this.2.2))

/-- `kcond_signal_all`: generic facts. -/
theorem signalAll_spec (l : List Tid) : ∀ (pc : Tid → PC), l.Nodup →
    Mono pc (signalAll l pc).2 ∧
    (∀ t ∈ l, wakePC ((signalAll l pc).2 t) = none) ∧
    (∀ t, t ∉ l → (signalAll l pc).2 t = pc t) ∧
    (∀ t, t ∈ (signalAll l pc).1 ↔ t ∈ l ∧ wakePC (pc t) = none) ∧
    (∀ t, wakePC (pc t) = none → (signalAll l pc).2 t = pc t) ∧
    (signalAll l pc).1.Nodup := by
  induction l with
  | nil => intro pc _; simp [signalAll, Mono.refl]
  | cons a l ih =>
    intro pc hn
    have hn' : a ∉ l ∧ l.Nodup := by simpa using hn
    unfold signalAll
    split
    · rename_i p hp
      obtain ⟨h1, h2, h3, h4, h6, h5⟩ := ih (upd pc a p) hn'.2
      refine ⟨(mono_wake hp).trans h1, ?_, ?_, ?_, ?_, h5⟩
      · intro t ht
        rcases List.mem_cons.1 ht with e | e
        · subst e; rw [h3 t hn'.1, upd_same]
          cases hpc : pc t <;> rw [hpc] at hp <;> simp [wakePC] at hp <;> subst hp <;> rfl
        · exact h2 t e
      · intro t ht
        simp only [List.mem_cons, not_or] at ht
        rw [h3 t ht.2, upd_other _ _ ht.1]
      · intro t
        rw [h4]
        by_cases e : t = a
        · subst e; simp [hn'.1, hp]
        · rw [upd_other _ _ e]; simp [e]
      · intro t ht
        have e : t ≠ a := by intro e; subst e; rw [hp] at ht; cases ht
        rw [h6 t (by rw [upd_other _ _ e]; exact ht), upd_other _ _ e]
    · rename_i hp
      obtain ⟨h1, h2, h3, h4, h6, h5⟩ := ih pc hn'.2
      refine ⟨h1, ?_, ?_, ?_, h6, ?_⟩
      · intro t ht
        rcases List.mem_cons.1 ht with e | e
        · subst e; rw [h3 t hn'.1]; exact hp
        · exact h2 t e
      · intro t ht
        simp only [List.mem_cons, not_or] at ht
        exact h3 t ht.2
      · intro t; simp only [List.mem_cons]; rw [h4]
        constructor
        · intro h
          rcases h with e | e
          · subst e; exact ⟨.inl rfl, hp⟩
          · exact ⟨.inr e.1, e.2⟩
        · intro ⟨h, h'⟩
          rcases h with e | e
          · exact .inl e
          · exact .inr ⟨e, h'⟩
      · simp only [List.nodup_cons]
        exact ⟨fun h => hn'.1 ((h4 a).1 h).1, h5⟩

theorem signalAll_ok (l : List Tid) : ∀ (pc : Tid → PC), (∀ t, okPC (pc t)) →
    ∀ t, okPC ((signalAll l pc).2 t) := by
  induction l with
  | nil => intro pc h; exact h
  | cons a l ih =>
    intro pc h
    unfold signalAll
    split
    · rename_i p hp; exact ih _ (ok_upd h (okPC_wake hp (h a)))
    · exact ih pc h

theorem asleep {p : PC} (h : kind p = .rs ∨ kind p = .ws ∨ kind p = .ps) : wakePC p ≠ none := by
  intro e
  have := wakePC_none e
  rcases h with h | h | h
  · exact this.1 h
  · exact this.2.1 h
  · exact this.2.2 h

theorem broadcast_spec {s : St} (h : WF s.ne s.nf s.pc) :
    WF (broadcast s).ne (broadcast s).nf (broadcast s).pc ∧ Mono s.pc (broadcast s).pc ∧
    (∀ t, kind ((broadcast s).pc t) ≠ .rs) ∧ (∀ t, kind ((broadcast s).pc t) ≠ .ws) ∧
    (broadcast s).rb = s.rb ∧ (broadcast s).rh = s.rh ∧ (broadcast s).wh = s.wh := by
  obtain ⟨a1, a2, a3, a4, a6, a5⟩ := signalAll_spec s.nf s.pc h.nfN
  obtain ⟨b1, b2, b3, b4, b6, b5⟩ := signalAll_spec s.ne (signalAll s.nf s.pc).2 h.neN
  have nows : ∀ t, kind ((signalAll s.nf s.pc).2 t) ≠ .ws := by
    intro t e
    by_cases ht : t ∈ s.nf
    · exact asleep (.inr (.inl e)) (a2 t ht)
    · rw [a3 t ht] at e; exact ht (h.ws t e)
  have nors : ∀ t, kind ((broadcast s).pc t) ≠ .rs := by
    intro t e
    show False
    have e : kind ((signalAll s.ne (signalAll s.nf s.pc).2).2 t) = .rs := e
    by_cases ht : t ∈ s.ne
    · exact asleep (.inl e) (b2 t ht)
    · rw [b3 t ht] at e
      have : kind (s.pc t) = .rs := by
        have := a1 t; rw [e] at this; unfold woke at this; simp at this; exact this.symm
      exact ht (h.rs t this)
  have nops : ∀ t, kind ((broadcast s).pc t) ≠ .ps := by
    intro t e
    show False
    have e : kind ((signalAll s.ne (signalAll s.nf s.pc).2).2 t) = .ps := e
    by_cases ht : t ∈ s.ne
    · exact asleep (.inr (.inr e)) (b2 t ht)
    · rw [b3 t ht] at e
      have : kind (s.pc t) = .ps := by
        have := a1 t; rw [e] at this; unfold woke at this; simp at this; exact this.symm
      exact ht (h.ps t this)
  have nows' : ∀ t, kind ((broadcast s).pc t) ≠ .ws := b1.nows nows
  refine ⟨?_, a1.trans b1, nors, nows', rfl, rfl, rfl⟩
  constructor
  · exact b5
  · exact a5
  · intro t ht
    have ht := (b4 t).1 ht
    have e : (broadcast s).pc t = s.pc t := by
      show (signalAll s.ne (signalAll s.nf s.pc).2).2 t = _
      rw [b6 t ht.2]
      apply a3
      intro x; exact nf_not_ne h x ht.1
    rw [e]; exact h.neMem t ht.1
  · intro t ht
    have ht := (a4 t).1 ht
    have e : (broadcast s).pc t = s.pc t := by
      show (signalAll s.ne (signalAll s.nf s.pc).2).2 t = _
      rw [b3 t (nf_not_ne h ht.1)]
      exact a6 t ht.2
    rw [e]; exact h.nfMem t ht.1
  · intro t e; exact absurd e (nors t)
  · intro t e; exact absurd e (nops t)
  · intro t e; exact absurd e (nows' t)
  · exact signalAll_ok _ _ (signalAll_ok _ _ h.sz)

/-! ## Proofs: the invariant -/

theorem rc_append (a b : List Ev) : received (a ++ b) = received a ++ received b := by
  induction a with
  | nil => rfl
  | cons e a ih => cases e <;> simp [received, ih]

theorem ac_append (a b : List Ev) : accepted (a ++ b) = accepted a ++ accepted b := by
  induction a with
  | nil => rfl
  | cons e a ih => cases e <;> simp [accepted, ih]

theorem rd_append (a b : List Ev) : readersDelta (a ++ b) = readersDelta a + readersDelta b := by
  induction a with
  | nil => simp [readersDelta]
  | cons e a ih => cases e <;> simp [readersDelta, ih] <;> omega

theorem wd_append (a b : List Ev) : writersDelta (a ++ b) = writersDelta a + writersDelta b := by
  induction a with
  | nil => simp [writersDelta]
  | cons e a ih => cases e <;> simp [writersDelta, ih] <;> omega

/-- Data part of the invariant; `q` is the buffered data. -/
structure DInv (cap : Nat) (s : St) (evs : List Ev) (q : List Nat) : Prop where
  rep : Rep s.rb q
  cap : s.rb.maxElems = cap
  stream : received evs ++ q = accepted evs
  rh : s.rh = openReaders evs
  wh : s.wh = openWriters evs
  rh0 : 0 ≤ s.rh
  wh0 : 0 ≤ s.wh
  nofault : Ev.fault ∉ evs

/-- Wait-list part, without the wake-up guarantees. -/
structure Q0 (polls : Bool) (s : St) : Prop where
  wf : WF s.ne s.nf s.pc
  np : polls = false → NoPoll s.pc
  eof : s.wh = 0 → ∀ t, kind (s.pc t) ≠ .rs
  brk : s.rh = 0 → ∀ t, kind (s.pc t) ≠ .ws

/-- Wait-list part of the invariant. -/
structure QInv (polls : Bool) (cap : Nat) (s : St) (q : List Nat) : Prop extends Q0 polls s where
  ra : polls = false → q ≠ [] → RA s.pc
  wa : q.length < cap → WA s.pc

theorem isEmpty_rep {rb : RB Nat} {q} (h : Rep rb q) : isEmpty rb = true ↔ q = [] := by
  unfold isEmpty; rw [h.cnt]; cases q <;> simp

theorem isFull_rep {rb : RB Nat} {q} (h : Rep rb q) : isFull rb = true ↔ ¬ q.length < rb.maxElems := by
  unfold isFull; rw [h.cnt]; have := h.le; simp; omega

/-- `t` leaves a call: its pc becomes `out`, provided it is on no list. -/
theorem q0_out {polls} {s : St} (h : Q0 polls s) (t : Tid) (hne : t ∉ s.ne) (hnf : t ∉ s.nf) :
    Q0 polls { s with pc := upd s.pc t .out } := by
  constructor
  · constructor
    · exact h.wf.neN
    · exact h.wf.nfN
    · intro u hu
      have e : u ≠ t := by intro e; subst e; exact hne hu
      show kind (upd s.pc t .out u) = _ ∨ kind (upd s.pc t .out u) = _ ∨ kind (upd s.pc t .out u) = _
      rw [kind_upd, if_neg e]; exact h.wf.neMem u hu
    · intro u hu
      have e : u ≠ t := by intro e; subst e; exact hnf hu
      show kind (upd s.pc t .out u) = _ ∨ kind (upd s.pc t .out u) = _
      rw [kind_upd, if_neg e]; exact h.wf.nfMem u hu
    · intro u hu
      have hu : kind (upd s.pc t .out u) = _ := hu
      rw [kind_upd] at hu
      split at hu
      · cases hu
      · exact h.wf.rs u hu
    · intro u hu
      have hu : kind (upd s.pc t .out u) = _ := hu
      rw [kind_upd] at hu
      split at hu
      · cases hu
      · exact h.wf.ps u hu
    · intro u hu
      have hu : kind (upd s.pc t .out u) = _ := hu
      rw [kind_upd] at hu
      split at hu
      · cases hu
      · exact h.wf.ws u hu
    · exact ok_upd h.wf.sz trivial
  · intro hp u
    show kind (upd s.pc t .out u) ≠ _ ∧ kind (upd s.pc t .out u) ≠ _
    rw [kind_upd]
    split
    · simp [kind]
    · exact h.np hp u
  · intro hw u
    show kind (upd s.pc t .out u) ≠ _
    rw [kind_upd]
    split
    · simp [kind]
    · exact h.eof hw u
  · intro hw u
    show kind (upd s.pc t .out u) ≠ _
    rw [kind_upd]
    split
    · simp [kind]
    · exact h.brk hw u

theorem q0_mono {polls} {s s' : St} (h : Q0 polls s) (hwf : WF s'.ne s'.nf s'.pc) (m : Mono s.pc s'.pc)
    (e1 : s'.rh = s.rh) (e2 : s'.wh = s.wh) : Q0 polls s' :=
  ⟨hwf, fun hp => m.nopoll (h.np hp), fun hw => m.nors (h.eof (e2 ▸ hw)), fun hw => m.nows (h.brk (e1 ▸ hw))⟩

theorem rdExit_inv {polls cap} {s : St} {t e q} (h : Q0 polls s) (hne : t ∉ s.ne) (hnf : t ∉ s.nf)
    (hr : Rep s.rb q) :
    QInv polls cap (rdExit s t e).1 q ∧ (rdExit s t e).1.rb = s.rb ∧ (rdExit s t e).1.rh = s.rh ∧
    (rdExit s t e).1.wh = s.wh := by
  have h0 := q0_out h t hne hnf
  obtain ⟨a1, a2, a3, a4, a5, a6⟩ := signalNf_spec h0.wf
  have h1 := q0_mono h0 a1 a2 a5 a6
  unfold rdExit
  simp only
  split
  · rename_i hemp
    rw [a4] at hemp
    have := (isEmpty_rep hr).1 hemp
    exact ⟨⟨h1, fun _ hq => absurd this hq, fun _ => a3⟩, rfl, rfl, rfl⟩
  · obtain ⟨b1, b2, b3, b4, b5, b6⟩ := signalNe_spec h1.wf
    exact ⟨⟨q0_mono h1 b1 b2 b5 b6, fun hp _ => b3 (h1.np hp), fun _ => b2.wa a3⟩, rfl, rfl, rfl⟩

theorem wrExit_inv {polls cap} {s : St} {t es q} (h : Q0 polls s) (hne : t ∉ s.ne) (hnf : t ∉ s.nf)
    (hr : Rep s.rb q) (hc : s.rb.maxElems = cap) :
    QInv polls cap (wrExit s t es).1 q ∧ (wrExit s t es).1.rb = s.rb ∧ (wrExit s t es).1.rh = s.rh ∧
    (wrExit s t es).1.wh = s.wh := by
  have h0 := q0_out h t hne hnf
  obtain ⟨a1, a2, a3, a4, a5, a6⟩ := signalNe_spec h0.wf
  have h1 := q0_mono h0 a1 a2 a5 a6
  unfold wrExit
  simp only
  split
  · rename_i hfull
    rw [a4] at hfull
    have := (isFull_rep hr).1 hfull
    rw [hc] at this
    exact ⟨⟨h1, fun hp _ => a3 (h0.np hp), fun x => absurd x this⟩, rfl, rfl, rfl⟩
  · obtain ⟨b1, b2, b3, b4, b5, b6⟩ := signalNf_spec h1.wf
    exact ⟨⟨q0_mono h1 b1 b2 b5 b6, fun hp _ => b2.ra (a3 (h0.np hp)), fun _ => b3⟩, rfl, rfl, rfl⟩

/-- A task that is on no list goes to sleep on `ne`. -/
theorem wf_sleep_ne {s : St} {t p} (h : WF s.ne s.nf s.pc) (hne : t ∉ s.ne) (hnf : t ∉ s.nf)
    (hp : kind p = .rs ∨ kind p = .ps) (ho : okPC p) : WF (s.ne ++ [t]) s.nf (upd s.pc t p) := by
  constructor
  · rw [List.nodup_append]
    refine ⟨h.neN, by simp, ?_⟩
    intro a ha b hb e
    simp at hb
    subst hb; subst e; exact hne ha
  · exact h.nfN
  · intro u hu
    rw [kind_upd]
    split
    · rcases hp with e | e <;> simp [e]
    · rename_i e
      simp [e] at hu
      exact h.neMem u hu
  · intro u hu
    have e : u ≠ t := by intro e; subst e; exact hnf hu
    rw [kind_upd, if_neg e]; exact h.nfMem u hu
  · intro u hu
    rw [kind_upd] at hu
    split at hu
    · rename_i e; simp [e]
    · simp [h.rs u hu]
  · intro u hu
    rw [kind_upd] at hu
    split at hu
    · rename_i e; simp [e]
    · simp [h.ps u hu]
  · intro u hu
    rw [kind_upd] at hu
    split at hu
    · rcases hp with e | e <;> rw [e] at hu <;> cases hu
    · exact h.ws u hu
  · exact ok_upd h.sz ho

theorem wf_sleep_nf {s : St} {t p} (h : WF s.ne s.nf s.pc) (hne : t ∉ s.ne) (hnf : t ∉ s.nf)
    (hp : kind p = .ws) (ho : okPC p) : WF s.ne (s.nf ++ [t]) (upd s.pc t p) := by
  constructor
  · exact h.neN
  · rw [List.nodup_append]
    refine ⟨h.nfN, by simp, ?_⟩
    intro a ha b hb e
    simp at hb
    subst hb; subst e; exact hnf ha
  · intro u hu
    have e : u ≠ t := by intro e; subst e; exact hne hu
    rw [kind_upd, if_neg e]; exact h.neMem u hu
  · intro u hu
    rw [kind_upd]
    split
    · simp [hp]
    · rename_i e
      simp [e] at hu
      exact h.nfMem u hu
  · intro u hu
    rw [kind_upd] at hu
    split at hu
    · rw [hp] at hu; cases hu
    · exact h.rs u hu
  · intro u hu
    rw [kind_upd] at hu
    split at hu
    · rw [hp] at hu; cases hu
    · exact h.ps u hu
  · intro u hu
    rw [kind_upd] at hu
    split at hu
    · rename_i e; simp [e]
    · simp [h.ws u hu]
  · exact ok_upd h.sz ho

theorem rdBody_inv {polls cap} {s : St} {evs q t n nb} (hD : DInv cap s evs q) (h : Q0 polls s)
    (hne : t ∉ s.ne) (hnf : t ∉ s.nf) (hk : kind (s.pc t) = .out ∨ kind (s.pc t) = .ra)
    (hn : n ≠ 0) (hwa : q.length < cap → WA s.pc) :
    ∃ q', DInv cap (rdBody s t n nb).1 (evs ++ (rdBody s t n nb).2) q' ∧
      QInv polls cap (rdBody s t n nb).1 q' := by
  obtain ⟨rb', h1, h2, h3⟩ := Ringbuf.sim_readBytes hD.rep n
  have mk : ∀ (es : List Ev) (s' : St) (q' : List Nat), Rep s'.rb q' → s'.rb.maxElems = cap → s'.rh = s.rh →
      s'.wh = s.wh → received es ++ q' = q → accepted es = [] → readersDelta es = 0 → writersDelta es = 0 →
      Ev.fault ∉ es → DInv cap s' (evs ++ es) q' := by
    intro es s' q' r1 r2 r3 r4 r5 r6 r7 r8 r9
    refine ⟨r1, r2, ?_, ?_, ?_, r3 ▸ hD.rh0, r4 ▸ hD.wh0, ?_⟩
    · rw [rc_append, ac_append, r6, List.append_nil, List.append_assoc, r5, hD.stream]
    · rw [r3, hD.rh]; unfold openReaders; rw [rd_append]; omega
    · rw [r4, hD.wh]; unfold openWriters; rw [wd_append]; omega
    · simp [hD.nofault, r9]
  unfold rdBody
  rw [h1]
  simp only
  have h4 : rb'.maxElems = cap := h2.trans hD.cap
  split
  · have hb := rdExit_inv (polls := polls) (cap := cap) (s := { s with rb := rb' }) (t := t) (e := .readOk t n (q.take n)) (q := q.drop n)
      ⟨h.wf, h.np, h.eof, h.brk⟩ hne hnf h3
    refine ⟨q.drop n, ?_, hb.1⟩
    apply mk [.readOk t n (q.take n)]
    · rw [hb.2.1]; exact h3
    · rw [hb.2.1]; exact h4
    · exact hb.2.2.1
    · exact hb.2.2.2
    · simp [received]
    · rfl
    · rfl
    · rfl
    · simp
  · rename_i hemp
    have hq : q = [] := by
      cases q with
      | nil => rfl
      | cons a q => cases n with
        | zero => exact absurd rfl hn
        | succ n => simp at hemp
    subst hq
    simp only [List.drop_nil] at h3
    have h' : Q0 polls { s with rb := rb' } := ⟨h.wf, h.np, h.eof, h.brk⟩
    split
    · have hb := rdExit_inv (polls := polls) (cap := cap) (s := { s with rb := rb' }) (t := t) (e := .readOk t n []) (q := [])
        h' hne hnf h3
      refine ⟨[], ?_, hb.1⟩
      apply mk [.readOk t n []]
      · rw [hb.2.1]; exact h3
      · rw [hb.2.1]; exact h4
      · exact hb.2.2.1
      · exact hb.2.2.2
      · simp [received]
      · rfl
      · rfl
      · rfl
      · simp
    · rename_i hwh
      split
      · have hb := rdExit_inv (polls := polls) (cap := cap) (s := { s with rb := rb' }) (t := t) (e := .readErr t n .eagain) (q := [])
          h' hne hnf h3
        refine ⟨[], ?_, hb.1⟩
        apply mk [.readErr t n .eagain]
        · rw [hb.2.1]; exact h3
        · rw [hb.2.1]; exact h4
        · exact hb.2.2.1
        · exact hb.2.2.2
        · simp [received]
        · rfl
        · rfl
        · rfl
        · simp
      · refine ⟨[], ?_, ?_⟩
        · apply mk []
          · exact h3
          · exact h4
          · rfl
          · rfl
          all_goals simp [received, accepted, readersDelta, writersDelta]
        · refine ⟨⟨wf_sleep_ne h.wf hne hnf (.inl rfl) hn, ?_, ?_, ?_⟩, fun _ x => absurd rfl x, ?_⟩
          · intro hp u
            show kind (upd s.pc t _ u) ≠ _ ∧ kind (upd s.pc t _ u) ≠ _
            rw [kind_upd]; split
            · simp [kind]
            · exact h.np hp u
          · intro x; exact absurd x hwh
          · intro x u
            show kind (upd s.pc t _ u) ≠ _
            rw [kind_upd]; split
            · simp [kind]
            · exact h.brk x u
          · intro hl
            have hw := hwa hl
            intro ⟨u, hu⟩
            have hu : kind (upd s.pc t (.rdSleep n) u) = _ := hu
            rw [kind_upd] at hu
            split at hu
            · cases hu
            · obtain ⟨v, hv⟩ := hw ⟨u, hu⟩
              refine ⟨v, ?_⟩
              show kind (upd s.pc t (.rdSleep n) v) = _
              rw [kind_upd, if_neg, hv]
              intro e; subst e
              rcases hk with e | e <;> rw [e] at hv <;> cases hv

theorem wrBody_inv {polls cap} {s : St} {evs q t d nb} (hD : DInv cap s evs q) (h : Q0 polls s)
    (hne : t ∉ s.ne) (hnf : t ∉ s.nf) (hk : kind (s.pc t) = .out ∨ kind (s.pc t) = .wa)
    (hn : d.length ≠ 0) (hra : polls = false → q ≠ [] → RA s.pc) :
    ∃ q', DInv cap (wrBody s t d nb).1 (evs ++ (wrBody s t d nb).2) q' ∧
      QInv polls cap (wrBody s t d nb).1 q' := by
  obtain ⟨rb', h1, h2, h3⟩ := Ringbuf.sim_writeBytes hD.rep d
  have mk : ∀ (es : List Ev) (s' : St) (q' : List Nat), Rep s'.rb q' → s'.rb.maxElems = cap → s'.rh = s.rh →
      s'.wh = s.wh → received es = [] → q' = q ++ accepted es → readersDelta es = 0 → writersDelta es = 0 →
      Ev.fault ∉ es → DInv cap s' (evs ++ es) q' := by
    intro es s' q' r1 r2 r3 r4 r5 r6 r7 r8 r9
    refine ⟨r1, r2, ?_, ?_, ?_, r3 ▸ hD.rh0, r4 ▸ hD.wh0, ?_⟩
    · rw [rc_append, ac_append, r5, List.append_nil, r6, ← List.append_assoc, hD.stream]
    · rw [r3, hD.rh]; unfold openReaders; rw [rd_append]; omega
    · rw [r4, hD.wh]; unfold openWriters; rw [wd_append]; omega
    · simp [hD.nofault, r9]
  have h4 : rb'.maxElems = cap := h2.trans hD.cap
  unfold wrBody
  split
  · have hb := wrExit_inv (polls := polls) (cap := cap) (s := s) (t := t) (es := [.sigpipe t, .writeErr t d .epipe]) h hne hnf hD.rep hD.cap
    refine ⟨q, ?_, hb.1⟩
    apply mk [.sigpipe t, .writeErr t d .epipe]
    · rw [hb.2.1]; exact hD.rep
    · rw [hb.2.1]; exact hD.cap
    · exact hb.2.2.1
    · exact hb.2.2.2
    · rfl
    · simp [accepted]
    · rfl
    · rfl
    · simp
  · rename_i hrh
    rw [h1]
    simp only
    split
    · have hb := wrExit_inv (polls := polls) (cap := cap) (s := { s with rb := rb' }) (t := t)
        (es := [.writeOk t d (min d.length (s.rb.maxElems - q.length))])
        ⟨h.wf, h.np, h.eof, h.brk⟩ hne hnf h3 h4
      refine ⟨_, ?_, hb.1⟩
      apply mk [.writeOk t d (min d.length (s.rb.maxElems - q.length))]
      · rw [hb.2.1]; exact h3
      · rw [hb.2.1]; exact h4
      · exact hb.2.2.1
      · exact hb.2.2.2
      · rfl
      · simp only [accepted, List.append_nil]
        rw [Nat.min_comm, ← List.take_take, List.take_length]
      · rfl
      · rfl
      · simp
    · rename_i hk0
      have hfull : ¬ q.length < cap := by
        rw [← hD.cap]
        simp only [ne_eq, Decidable.not_not] at hk0
        omega
      have hq : q ++ d.take (s.rb.maxElems - q.length) = q := by
        rw [hD.cap, show cap - q.length = 0 by omega]; simp
      rw [hq] at h3
      have h' : Q0 polls { s with rb := rb' } := ⟨h.wf, h.np, h.eof, h.brk⟩
      split
      · have hb := wrExit_inv (polls := polls) (cap := cap) (s := { s with rb := rb' }) (t := t)
          (es := [.writeErr t d .eagain]) h' hne hnf h3 h4
        refine ⟨_, ?_, hb.1⟩
        apply mk [.writeErr t d .eagain]
        · rw [hb.2.1]; exact h3
        · rw [hb.2.1]; exact h4
        · exact hb.2.2.1
        · exact hb.2.2.2
        · rfl
        · simp [accepted]
        · rfl
        · rfl
        · simp
      · refine ⟨q, ?_, ?_⟩
        · apply mk []
          · exact h3
          · exact h4
          · rfl
          · rfl
          all_goals simp [received, accepted, readersDelta, writersDelta]
        · refine ⟨⟨wf_sleep_nf h.wf hne hnf rfl hn, ?_, ?_, ?_⟩, ?_, fun x => absurd x hfull⟩
          · intro hp u
            show kind (upd s.pc t _ u) ≠ _ ∧ kind (upd s.pc t _ u) ≠ _
            rw [kind_upd]; split
            · simp [kind]
            · exact h.np hp u
          · intro x u
            show kind (upd s.pc t _ u) ≠ _
            rw [kind_upd]; split
            · simp [kind]
            · exact h.eof x u
          · intro x; exact absurd x hrh
          · intro hp hl
            have hw := hra hp hl
            intro ⟨u, hu⟩
            have hu : kind (upd s.pc t (.wrSleep d) u) = _ := hu
            rw [kind_upd] at hu
            split at hu
            · cases hu
            · obtain ⟨v, hv⟩ := hw ⟨u, hu⟩
              refine ⟨v, ?_⟩
              show kind (upd s.pc t (.wrSleep d) v) = _
              rw [kind_upd, if_neg, hv]
              intro e; subst e
              rcases hk with e | e <;> rw [e] at hv <;> cases hv

theorem notIn_of_kind {s : St} {t} (h : WF s.ne s.nf s.pc)
    (hk : kind (s.pc t) = .out ∨ kind (s.pc t) = .pa) : t ∉ s.ne ∧ t ∉ s.nf := by
  constructor
  · intro x; rcases h.neMem t x with e | e | e <;> rcases hk with y | y <;> rw [e] at y <;> cases y
  · intro x; rcases h.nfMem t x with e | e <;> rcases hk with y | y <;> rw [e] at y <;> cases y

/-- A woken task unlinks itself (`wait_obj_reset`, kcond.c:84). -/
theorem q0_unlink {polls} {s : St} {t} (h : Q0 polls s) (hk : kind (s.pc t) = .ra ∨ kind (s.pc t) = .wa) :
    Q0 polls { s with ne := s.ne.erase t } ∧ Q0 polls { s with nf := s.nf.erase t } := by
  have ns : ∀ u, (kind (s.pc u) = .rs ∨ kind (s.pc u) = .ps ∨ kind (s.pc u) = .ws) → u ≠ t := by
    intro u hu e; subst e
    rcases hk with y | y <;> rw [y] at hu <;> simp at hu
  refine ⟨⟨⟨h.wf.neN.erase t, h.wf.nfN, ?_, h.wf.nfMem, ?_, ?_, h.wf.ws, h.wf.sz⟩, h.np, h.eof, h.brk⟩,
    ⟨⟨h.wf.neN, h.wf.nfN.erase t, h.wf.neMem, ?_, h.wf.rs, h.wf.ps, ?_, h.wf.sz⟩, h.np, h.eof, h.brk⟩⟩
  · intro u hu; exact h.wf.neMem u (List.mem_of_mem_erase hu)
  · intro u hu; exact (h.wf.neN.mem_erase_iff).2 ⟨ns u (.inl hu), h.wf.rs u hu⟩
  · intro u hu; exact (h.wf.neN.mem_erase_iff).2 ⟨ns u (.inr (.inl hu)), h.wf.ps u hu⟩
  · intro u hu; exact h.wf.nfMem u (List.mem_of_mem_erase hu)
  · intro u hu; exact (h.wf.nfN.mem_erase_iff).2 ⟨ns u (.inr (.inr hu)), h.wf.ws u hu⟩

theorem dinv_move {cap} {s s' : St} {evs es q} (h : DInv cap s evs q) (e1 : s'.rb = s.rb) (e2 : s'.rh = s.rh)
    (e3 : s'.wh = s.wh) (r1 : received es = []) (r2 : accepted es = []) (r3 : readersDelta es = 0)
    (r4 : writersDelta es = 0) (r5 : Ev.fault ∉ es) : DInv cap s' (evs ++ es) q := by
  refine ⟨e1 ▸ h.rep, e1 ▸ h.cap, ?_, ?_, ?_, e2 ▸ h.rh0, e3 ▸ h.wh0, ?_⟩
  · rw [rc_append, ac_append, r1, r2, List.append_nil, List.append_nil, h.stream]
  · rw [e2, h.rh]; unfold openReaders; rw [rd_append]; omega
  · rw [e3, h.wh]; unfold openWriters; rw [wd_append]; omega
  · simp [h.nofault, r5]

theorem poll_inv {polls cap} {s : St} {evs q t} (hD : DInv cap s evs q) (hQ : QInv polls cap s q)
    (hk : kind (s.pc t) = .out ∨ kind (s.pc t) = .pa) (hp : polls = true) :
    DInv cap (pollBody s t).1 (evs ++ (pollBody s t).2) q ∧ QInv polls cap (pollBody s t).1 q := by
  obtain ⟨hne, hnf⟩ := notIn_of_kind hQ.wf hk
  have nw : ∀ p, kind p ≠ .ws → kind p ≠ .wa → WA s.pc → WA (upd s.pc t p) := by
    intro p h1 h2 hw ⟨u, hu⟩
    rw [kind_upd] at hu
    split at hu
    · exact absurd hu h1
    · obtain ⟨v, hv⟩ := hw ⟨u, hu⟩
      refine ⟨v, ?_⟩
      rw [kind_upd, if_neg, hv]
      intro e; subst e
      rcases hk with e | e <;> rw [e] at hv <;> cases hv
  unfold pollBody
  split
  · refine ⟨dinv_move hD rfl rfl rfl rfl rfl rfl rfl (by simp), q0_out hQ.toQ0 t hne hnf, ?_, ?_⟩
    · intro x; rw [hp] at x; cases x
    · intro hl; exact nw _ (by simp [kind]) (by simp [kind]) (hQ.wa hl)
  · rename_i hr
    refine ⟨dinv_move hD rfl rfl rfl rfl rfl rfl rfl (by simp),
      ⟨wf_sleep_ne hQ.wf hne hnf (.inr rfl) trivial, ?_, ?_, ?_⟩, ?_, ?_⟩
    · intro x; rw [hp] at x; cases x
    · intro x u
      have x : s.wh = 0 := x
      simp [readable, x] at hr
    · intro x u
      show kind (upd s.pc t _ u) ≠ _
      rw [kind_upd]; split
      · simp [kind]
      · exact hQ.brk x u
    · intro x; rw [hp] at x; cases x
    · intro hl; exact nw _ (by simp [kind]) (by simp [kind]) (hQ.wa hl)

theorem step_inv {polls cap} {s : St} {evs q op s' es} (hD : DInv cap s evs q) (hQ : QInv polls cap s q)
    (hc : Contract polls evs op) (hs : step s op = some (s', es)) :
    ∃ q', DInv cap s' (evs ++ es) q' ∧ QInv polls cap s' q' := by
  cases op with
  | read t n nb =>
    simp only [step] at hs
    split at hs
    · rename_i hp
      have hk : kind (s.pc t) = .out := by rw [hp]; rfl
      obtain ⟨hne, hnf⟩ := notIn_of_kind hQ.wf (.inl hk)
      split at hs
      · obtain ⟨rfl, rfl⟩ := some_pair hs
        exact ⟨q, dinv_move hD rfl rfl rfl rfl rfl rfl rfl (by simp), hQ⟩
      · obtain ⟨rfl, rfl⟩ := some_pair hs
        exact rdBody_inv hD hQ.toQ0 hne hnf (.inl hk) (by assumption) hQ.wa
    · cases hs
  | write t d nb =>
    simp only [step] at hs
    split at hs
    · rename_i hp
      have hk : kind (s.pc t) = .out := by rw [hp]; rfl
      obtain ⟨hne, hnf⟩ := notIn_of_kind hQ.wf (.inl hk)
      split at hs
      · obtain ⟨rfl, rfl⟩ := some_pair hs
        exact ⟨q, dinv_move hD rfl rfl rfl rfl (by simp [accepted]) rfl rfl (by simp), hQ⟩
      · obtain ⟨rfl, rfl⟩ := some_pair hs
        exact wrBody_inv hD hQ.toQ0 hne hnf (.inl hk) (by assumption) hQ.ra
    · cases hs
  | resume t pend =>
    simp only [step, resumeStep] at hs
    split at hs
    · rename_i n hp
      have hk : kind (s.pc t) = .ra := by rw [hp]; rfl
      have hn : n ≠ 0 := by have := hQ.wf.sz t; rw [hp] at this; exact this
      have h1 := (q0_unlink hQ.toQ0 (.inl hk)).1
      have hne : t ∉ s.ne.erase t := fun x => ((hQ.wf.neN.mem_erase_iff).1 x).1 rfl
      have hnf : t ∉ s.nf := by
        intro x; rcases hQ.wf.nfMem t x with e | e <;> rw [hk] at e <;> cases e
      have hD1 : DInv cap { s with ne := s.ne.erase t } evs q := ⟨hD.1, hD.2, hD.3, hD.4, hD.5, hD.6, hD.7, hD.8⟩
      split at hs
      · obtain ⟨rfl, rfl⟩ := some_pair hs
        have hb := rdExit_inv (polls := polls) (cap := cap) (s := { s with ne := s.ne.erase t }) (t := t)
          (e := .readErr t n .eintr) h1 hne hnf hD.rep
        exact ⟨q, dinv_move hD1 hb.2.1 hb.2.2.1 hb.2.2.2 rfl rfl rfl rfl (by simp [rdExit]), hb.1⟩
      · obtain ⟨rfl, rfl⟩ := some_pair hs
        exact rdBody_inv hD1 h1 hne hnf (.inr hk) hn hQ.wa
    · rename_i d hp
      have hk : kind (s.pc t) = .wa := by rw [hp]; rfl
      have hn : d.length ≠ 0 := by have := hQ.wf.sz t; rw [hp] at this; exact this
      have h1 := (q0_unlink hQ.toQ0 (.inr hk)).2
      have hnf : t ∉ s.nf.erase t := fun x => ((hQ.wf.nfN.mem_erase_iff).1 x).1 rfl
      have hne : t ∉ s.ne := by
        intro x; rcases hQ.wf.neMem t x with e | e | e <;> rw [hk] at e <;> cases e
      have hD1 : DInv cap { s with nf := s.nf.erase t } evs q := ⟨hD.1, hD.2, hD.3, hD.4, hD.5, hD.6, hD.7, hD.8⟩
      split at hs
      · obtain ⟨rfl, rfl⟩ := some_pair hs
        have hb := wrExit_inv (polls := polls) (cap := cap) (s := { s with nf := s.nf.erase t }) (t := t)
          (es := [.writeErr t d .eintr]) h1 hne hnf hD.rep hD.cap
        exact ⟨q, dinv_move hD1 hb.2.1 hb.2.2.1 hb.2.2.2 rfl rfl rfl rfl (by simp [wrExit]), hb.1⟩
      · obtain ⟨rfl, rfl⟩ := some_pair hs
        exact wrBody_inv hD1 h1 hne hnf (.inr hk) hn hQ.ra
    · rename_i hp
      have hk : kind (s.pc t) = .pa := by rw [hp]; rfl
      obtain ⟨rfl, rfl⟩ := some_pair hs
      have hpl : polls = true := by
        cases polls with
        | true => rfl
        | false => exact absurd hk (hQ.np rfl t).2
      exact ⟨q, poll_inv hD hQ (.inr hk) hpl⟩
    · cases hs
  | sigWake t =>
    simp only [step] at hs
    split at hs
    · rename_i p hp
      obtain ⟨rfl, rfl⟩ := some_pair hs
      have m : Mono s.pc (upd s.pc t p) := mono_wake hp
      exact ⟨q, dinv_move hD rfl rfl rfl rfl rfl rfl rfl (by simp),
        q0_mono (s' := { s with ne := s.ne.erase t, nf := s.nf.erase t, pc := upd s.pc t p }) hQ.toQ0
          (wf_wake_erase hQ.wf hp) m rfl rfl, fun a b => m.ra (hQ.ra a b), fun a => m.wa (hQ.wa a)⟩
    · cases hs
  | timerWake t =>
    simp only [step] at hs
    split at hs
    · cases hs
    · rename_i hps
      split at hs
      · rename_i p hp
        obtain ⟨rfl, rfl⟩ := some_pair hs
        have m : Mono s.pc (upd s.pc t p) := mono_wake hp
        have hk := wakePC_some hp
        have hk' : kind (s.pc t) = .rs ∧ kind p = .ra ∨ kind (s.pc t) = .ws ∧ kind p = .wa := by
          rcases hk with e | e | e
          · exact .inl e
          · exact .inr e
          · exfalso; apply hps
            cases hpc : s.pc t <;> rw [hpc] at e <;> simp [kind] at e
        have hwf : WF s.ne s.nf (upd s.pc t p) := by
          have ns : ∀ u, kind (upd s.pc t p u) = .rs ∨ kind (upd s.pc t p u) = .ps ∨
              kind (upd s.pc t p u) = .ws → kind (upd s.pc t p u) = kind (s.pc u) := by
            intro u hu
            rw [kind_upd] at hu ⊢
            split at hu
            · rcases hk' with ⟨_, e⟩ | ⟨_, e⟩ <;> rw [e] at hu <;> simp at hu
            · rename_i e; rw [if_neg e]
          refine ⟨hQ.wf.neN, hQ.wf.nfN, ?_, ?_, ?_, ?_, ?_, ok_upd hQ.wf.sz (okPC_wake hp (hQ.wf.sz t))⟩
          · intro u hu
            rw [kind_upd]
            split
            · rename_i e; subst e
              rcases hk' with ⟨_, e⟩ | ⟨e, _⟩
              · simp [e]
              · rcases hQ.wf.neMem u hu with x | x | x <;> rw [e] at x <;> cases x
            · exact hQ.wf.neMem u hu
          · intro u hu
            rw [kind_upd]
            split
            · rename_i e; subst e
              rcases hk' with ⟨e, _⟩ | ⟨_, e⟩
              · rcases hQ.wf.nfMem u hu with x | x <;> rw [e] at x <;> cases x
              · simp [e]
            · exact hQ.wf.nfMem u hu
          · intro u hu; rw [ns u (.inl hu)] at hu; exact hQ.wf.rs u hu
          · intro u hu; rw [ns u (.inr (.inl hu))] at hu; exact hQ.wf.ps u hu
          · intro u hu; rw [ns u (.inr (.inr hu))] at hu; exact hQ.wf.ws u hu
        exact ⟨q, dinv_move hD rfl rfl rfl rfl rfl rfl rfl (by simp),
          q0_mono (s' := { s with pc := upd s.pc t p }) hQ.toQ0 hwf m rfl rfl, fun a b => m.ra (hQ.ra a b),
          fun a => m.wa (hQ.wa a)⟩
      · cases hs
  | dupR =>
    simp only [step] at hs
    obtain ⟨rfl, rfl⟩ := some_pair hs
    have h0 := hD.rh0
    refine ⟨q, ⟨hD.rep, hD.cap, ?_, ?_, ?_, ?_, hD.wh0, by simp [hD.nofault]⟩,
      ⟨hQ.wf, hQ.np, hQ.eof, ?_⟩, hQ.ra, hQ.wa⟩
    · rw [rc_append, ac_append]; simp [received, accepted, hD.stream]
    · show s.rh + 1 = _; rw [hD.rh]; unfold openReaders; rw [rd_append]; simp [readersDelta]; omega
    · show s.wh = _; rw [hD.wh]; unfold openWriters; rw [wd_append]; simp [writersDelta]
    · show 0 ≤ s.rh + 1; omega
    · intro x; have x : s.rh + 1 = 0 := x; omega
  | dupW =>
    simp only [step] at hs
    obtain ⟨rfl, rfl⟩ := some_pair hs
    have h0 := hD.wh0
    refine ⟨q, ⟨hD.rep, hD.cap, ?_, ?_, ?_, hD.rh0, ?_, by simp [hD.nofault]⟩,
      ⟨hQ.wf, hQ.np, ?_, hQ.brk⟩, hQ.ra, hQ.wa⟩
    · rw [rc_append, ac_append]; simp [received, accepted, hD.stream]
    · show s.rh = _; rw [hD.rh]; unfold openReaders; rw [rd_append]; simp [readersDelta]
    · show s.wh + 1 = _; rw [hD.wh]; unfold openWriters; rw [wd_append]; simp [writersDelta]; omega
    · show 0 ≤ s.wh + 1; omega
    · intro x; have x : s.wh + 1 = 0 := x; omega
  | closeR =>
    have hc : 0 < openReaders evs := hc
    simp only [step] at hs
    obtain ⟨rfl, rfl⟩ := some_pair hs
    obtain ⟨b1, b2, b3, b4, b5, b6, b7⟩ := broadcast_spec (s := { s with rh := s.rh - 1 }) hQ.wf
    have hrh := hD.rh
    have hrd : s.rh - 1 = openReaders (evs ++ [.closeR]) := by
      rw [hrh]; unfold openReaders; rw [rd_append]; simp [readersDelta]; omega
    have hwd : s.wh = openWriters (evs ++ [.closeR]) := by
      rw [hD.wh]; unfold openWriters; rw [wd_append]; simp [writersDelta]
    have hst : received (evs ++ [.closeR]) ++ q = accepted (evs ++ [.closeR]) := by
      rw [rc_append, ac_append]; simp [received, accepted, hD.stream]
    have hnn : 0 ≤ s.rh - 1 := by omega
    refine ⟨q, ?_, ?_⟩
    · split
      · exact ⟨b5 ▸ hD.rep, b5 ▸ hD.cap, hst, b6 ▸ hrd, b7 ▸ hwd, b6 ▸ hnn, b7 ▸ hD.wh0, by simp [hD.nofault]⟩
      · exact ⟨hD.rep, hD.cap, hst, hrd, hwd, hnn, hD.wh0, by simp [hD.nofault]⟩
    · split
      · exact ⟨⟨b1, fun hp => b2.nopoll (hQ.np hp), fun _ => b3, fun _ => b4⟩,
          fun a b => b2.ra (hQ.ra a b), fun a => b2.wa (hQ.wa a)⟩
      · rename_i h1
        refine ⟨⟨hQ.wf, hQ.np, hQ.eof, ?_⟩, hQ.ra, hQ.wa⟩
        intro x; have x : s.rh - 1 = 0 := x; omega
  | closeW =>
    have hc : 0 < openWriters evs := hc
    simp only [step] at hs
    obtain ⟨rfl, rfl⟩ := some_pair hs
    obtain ⟨b1, b2, b3, b4, b5, b6, b7⟩ := broadcast_spec (s := { s with wh := s.wh - 1 }) hQ.wf
    have hwh := hD.wh
    have hrd : s.rh = openReaders (evs ++ [.closeW]) := by
      rw [hD.rh]; unfold openReaders; rw [rd_append]; simp [readersDelta]
    have hwd : s.wh - 1 = openWriters (evs ++ [.closeW]) := by
      rw [hwh]; unfold openWriters; rw [wd_append]; simp [writersDelta]; omega
    have hst : received (evs ++ [.closeW]) ++ q = accepted (evs ++ [.closeW]) := by
      rw [rc_append, ac_append]; simp [received, accepted, hD.stream]
    have hnn : 0 ≤ s.wh - 1 := by omega
    refine ⟨q, ?_, ?_⟩
    · split
      · exact ⟨b5 ▸ hD.rep, b5 ▸ hD.cap, hst, b6 ▸ hrd, b7 ▸ hwd, b6 ▸ hD.rh0, b7 ▸ hnn, by simp [hD.nofault]⟩
      · exact ⟨hD.rep, hD.cap, hst, hrd, hwd, hD.rh0, hnn, by simp [hD.nofault]⟩
    · split
      · exact ⟨⟨b1, fun hp => b2.nopoll (hQ.np hp), fun _ => b3, fun _ => b4⟩,
          fun a b => b2.ra (hQ.ra a b), fun a => b2.wa (hQ.wa a)⟩
      · rename_i h1
        refine ⟨⟨hQ.wf, hQ.np, ?_, hQ.brk⟩, hQ.ra, hQ.wa⟩
        intro x; have x : s.wh - 1 = 0 := x; omega
  | poll t =>
    simp only [step] at hs
    split at hs
    · rename_i hp
      have hk : kind (s.pc t) = .out := by rw [hp]; rfl
      obtain ⟨rfl, rfl⟩ := some_pair hs
      exact ⟨q, poll_inv hD hQ (.inl hk) hc⟩
    · cases hs

/-- Storage sizes `ringbuf_init` is used with (PIPE_BUF_SIZE = 4096, include/tilck/kernel/pipe.h:7). -/
def OkStorage (storage : List Nat) : Prop := 0 < storage.length ∧ storage.length ≤ 2147483648

theorem exec_inv {polls storage s evs} (ho : OkStorage storage) (h : Exec polls storage s evs) :
    ∃ q, DInv storage.length s evs q ∧ QInv polls storage.length s q := by
  induction h with
  | init =>
    refine ⟨[], ⟨Ringbuf.rep_init _ ho.1 ho.2, rfl, rfl, rfl, rfl, by simp [init], by simp [init], by simp⟩,
      ⟨⟨by simp [init], by simp [init], by simp [init], by simp [init], ?_, ?_, ?_, fun _ => trivial⟩,
        ?_, ?_, ?_⟩, ?_, ?_⟩
    · intro t x; simp [init, kind] at x
    · intro t x; simp [init, kind] at x
    · intro t x; simp [init, kind] at x
    · intro _ t; simp [init, kind]
    · intro _ t; simp [init, kind]
    · intro _ t; simp [init, kind]
    · intro _ x; exact absurd rfl x
    · intro _ ⟨t, x⟩; simp [init, kind] at x
  | step _ hc hs ih =>
    obtain ⟨q, h1, h2⟩ := ih
    exact step_inv h1 h2 hc hs

/-! ## Theorems -/

/-- C18: for every schedule, the bytes returned by reads so far, followed by what a large enough read would
return now, are the bytes accepted by writes so far; at most the capacity is buffered; the ring buffer never
faults. -/
theorem pipe_stream {polls : Bool} {storage : List Nat} {s : St} {evs : List Ev} (ho : OkStorage storage)
    (h : Exec polls storage s evs) :
    Ev.fault ∉ evs ∧
    ∃ rb q, readBytes s.rb storage.length = some (rb, q) ∧ received evs ++ q = accepted evs ∧
      q.length ≤ storage.length := by
  obtain ⟨q, hD, _⟩ := exec_inv ho h
  refine ⟨hD.nofault, ?_⟩
  obtain ⟨rb', h1, _, _⟩ := Ringbuf.sim_readBytes hD.rep storage.length
  have hle : q.length ≤ storage.length := by have := hD.rep.le; rw [hD.cap] at this; exact this
  refine ⟨rb', q, ?_, hD.stream, hle⟩
  rw [h1, List.take_of_length_le hle]

/-- C18: a read returns the next bytes of the stream, at most as many as asked for. -/
theorem pipe_read_next {polls : Bool} {storage : List Nat} {s s' : St} {evs es : List Ev} {op : Op}
    {t : Tid} {n : Nat} {bs : List Nat} (ho : OkStorage storage) (h : Exec polls storage s evs)
    (hc : Contract polls evs op) (hs : step s op = some (s', es)) (he : Ev.readOk t n bs ∈ es) :
    bs.length ≤ n ∧ received evs ++ bs <+: accepted evs := by
  obtain ⟨q, hD, hQ⟩ := exec_inv ho h
  have key : ∀ (s1 : St) t' n' nb, s1.rb = s.rb → Ev.readOk t n bs ∈ (rdBody s1 t' n' nb).2 →
      bs.length ≤ n ∧ received evs ++ bs <+: accepted evs := by
    intro s1 t' n' nb hrb he
    obtain ⟨rb', h1, _, _⟩ := Ringbuf.sim_readBytes hD.rep n'
    unfold rdBody at he
    rw [hrb, h1] at he
    simp only at he
    split at he
    · simp [rdExit] at he
      obtain ⟨_, rfl, rfl⟩ := he
      refine ⟨by simp; omega, ?_⟩
      rw [← hD.stream]
      exact ⟨q.drop n, by rw [List.append_assoc, List.take_append_drop]⟩
    · split at he
      · simp [rdExit] at he
        obtain ⟨_, rfl, rfl⟩ := he
        refine ⟨by simp, ?_⟩
        rw [← hD.stream]; simp
      · split at he <;> simp [rdExit] at he
  have nowr : ∀ (s1 : St) t' d' nb, Ev.readOk t n bs ∉ (wrBody s1 t' d' nb).2 := by
    intro s1 t' d' nb he
    unfold wrBody at he
    repeat' split at he
    all_goals simp [wrExit] at he
  have nopl : ∀ t', Ev.readOk t n bs ∉ (pollBody s t').2 := by
    intro t' he
    unfold pollBody at he
    split at he <;> simp at he
  cases op with
  | read t' n' nb =>
    simp only [step] at hs
    split at hs
    · split at hs
      · obtain ⟨rfl, rfl⟩ := some_pair hs
        simp at he
        obtain ⟨_, rfl, rfl⟩ := he
        refine ⟨by simp, ?_⟩
        rw [← hD.stream]; simp
      · obtain ⟨rfl, rfl⟩ := some_pair hs; exact key s t' n' nb rfl he
    · cases hs
  | write t' d' nb =>
    simp only [step] at hs
    split at hs
    · split at hs
      · obtain ⟨rfl, rfl⟩ := some_pair hs; simp at he
      · obtain ⟨rfl, rfl⟩ := some_pair hs; exact absurd he (nowr _ _ _ _)
    · cases hs
  | resume t' pend =>
    simp only [step, resumeStep] at hs
    split at hs
    · split at hs
      · obtain ⟨rfl, rfl⟩ := some_pair hs; simp [rdExit] at he
      · obtain ⟨rfl, rfl⟩ := some_pair hs; rename_i n0 _ _; exact key { s with ne := s.ne.erase t' } t' n0 false rfl he
    · split at hs
      · obtain ⟨rfl, rfl⟩ := some_pair hs; simp [wrExit] at he
      · obtain ⟨rfl, rfl⟩ := some_pair hs; exact absurd he (nowr _ _ _ _)
    · obtain ⟨rfl, rfl⟩ := some_pair hs; exact absurd he (nopl _)
    · cases hs
  | sigWake t' =>
    simp only [step] at hs
    split at hs
    · obtain ⟨rfl, rfl⟩ := some_pair hs; simp at he
    · cases hs
  | timerWake t' =>
    simp only [step] at hs
    split at hs
    · cases hs
    · split at hs
      · obtain ⟨rfl, rfl⟩ := some_pair hs; simp at he
      · cases hs
  | poll t' =>
    simp only [step] at hs
    split at hs
    · obtain ⟨rfl, rfl⟩ := some_pair hs; exact absurd he (nopl _)
    · cases hs
  | dupR => simp only [step] at hs; obtain ⟨rfl, rfl⟩ := some_pair hs; simp at he
  | dupW => simp only [step] at hs; obtain ⟨rfl, rfl⟩ := some_pair hs; simp at he
  | closeR => simp only [step] at hs; obtain ⟨rfl, rfl⟩ := some_pair hs; simp at he
  | closeW => simp only [step] at hs; obtain ⟨rfl, rfl⟩ := some_pair hs; simp at he

/-- The outcome of one iteration of `pipe_read`. -/
theorem rdBody_events {cap} {s : St} {evs q} (hD : DInv cap s evs q) (t n nb) (hn : n ≠ 0) :
    (rdBody s t n nb).2 =
      if q ≠ [] then [Ev.readOk t n (q.take n)]
      else if openWriters evs = 0 then [.readOk t n []]
      else if nb then [.readErr t n .eagain] else [] := by
  obtain ⟨rb', h1, _, _⟩ := Ringbuf.sim_readBytes hD.rep n
  unfold rdBody
  rw [h1]
  simp only
  have : q.take n ≠ [] ↔ q ≠ [] := by
    cases q with
    | nil => simp
    | cons a q => cases n with
      | zero => exact absurd rfl hn
      | succ n => simp
  rw [← hD.wh]
  by_cases hq : q = []
  · subst hq
    simp
    split
    · rfl
    · split
      · rfl
      · rfl
  · rw [if_pos (this.2 hq), if_pos hq]; rfl

/-- The outcome of one iteration of `pipe_write`. -/
theorem wrBody_events {cap} {s : St} {evs q} (hD : DInv cap s evs q) (t d nb) (hn : d.length ≠ 0) :
    (wrBody s t d nb).2 =
      if openReaders evs = 0 then [Ev.sigpipe t, .writeErr t d .epipe]
      else if q.length < cap then [.writeOk t d (min d.length (cap - q.length))]
      else if nb then [.writeErr t d .eagain] else [] := by
  obtain ⟨rb', h1, _, _⟩ := Ringbuf.sim_writeBytes hD.rep d
  unfold wrBody
  rw [h1, ← hD.rh, hD.cap]
  split
  · rfl
  · simp only
    by_cases hq : q.length < cap
    · rw [if_pos (by omega), if_pos hq]; rfl
    · rw [if_neg (by omega), if_neg hq]
      split <;> rfl

/-- C19, end of file: the outcome of every `read(fd, buf, n)`, `n > 0`, whether at its first attempt or
when it continues after having slept (without a pending signal), is determined by the stream and the open
handles: data if there is any; otherwise 0 exactly when no write handle is open; otherwise -EAGAIN for a
non-blocking handle; otherwise it sleeps (no event). -/
theorem pipe_read_outcome {polls : Bool} {storage : List Nat} {s s' : St} {evs es : List Ev} {t : Tid}
    {n : Nat} {nb : Bool} (ho : OkStorage storage) (h : Exec polls storage s evs) (hn : n ≠ 0)
    (hs : step s (.read t n nb) = some (s', es) ∨
      (s.pc t = .rdAwake n ∧ nb = false ∧ step s (.resume t false) = some (s', es))) :
    ∃ q, received evs ++ q = accepted evs ∧
    es = if q ≠ [] then [Ev.readOk t n (q.take n)]
      else if openWriters evs = 0 then [.readOk t n []]
      else if nb then [.readErr t n .eagain] else [] := by
  obtain ⟨q, hD, hQ⟩ := exec_inv ho h
  refine ⟨q, hD.stream, ?_⟩
  rcases hs with hs | ⟨hp, rfl, hs⟩
  · simp only [step] at hs
    split at hs
    · try rw [if_neg hn] at hs
      obtain ⟨rfl, rfl⟩ := some_pair hs
      exact rdBody_events hD t n nb hn
    · cases hs
  · simp only [step, resumeStep, hp] at hs
    obtain ⟨rfl, rfl⟩ := some_pair hs
    have hD1 : DInv storage.length { s with ne := s.ne.erase t } evs q :=
      ⟨hD.1, hD.2, hD.3, hD.4, hD.5, hD.6, hD.7, hD.8⟩
    exact rdBody_events hD1 t n false hn

/-- C19, broken pipe: the outcome of every `write(fd, d, |d|)`, `|d| > 0`, at its first attempt or after
having slept: -EPIPE and SIGPIPE exactly when no read handle is open; otherwise as much as fits if anything
fits; otherwise -EAGAIN for a non-blocking handle; otherwise it sleeps. -/
theorem pipe_write_outcome {polls : Bool} {storage : List Nat} {s s' : St} {evs es : List Ev} {t : Tid}
    {d : List Nat} {nb : Bool} (ho : OkStorage storage) (h : Exec polls storage s evs) (hn : d.length ≠ 0)
    (hs : step s (.write t d nb) = some (s', es) ∨
      (s.pc t = .wrAwake d ∧ nb = false ∧ step s (.resume t false) = some (s', es))) :
    ∃ q, received evs ++ q = accepted evs ∧
    es = if openReaders evs = 0 then [Ev.sigpipe t, .writeErr t d .epipe]
      else if q.length < storage.length then [.writeOk t d (min d.length (storage.length - q.length))]
      else if nb then [.writeErr t d .eagain] else [] := by
  obtain ⟨q, hD, hQ⟩ := exec_inv ho h
  refine ⟨q, hD.stream, ?_⟩
  rcases hs with hs | ⟨hp, rfl, hs⟩
  · simp only [step] at hs
    split at hs
    · try rw [if_neg hn] at hs
      obtain ⟨rfl, rfl⟩ := some_pair hs
      exact wrBody_events hD t d nb hn
    · cases hs
  · simp only [step, resumeStep, hp] at hs
    obtain ⟨rfl, rfl⟩ := some_pair hs
    have hD1 : DInv storage.length { s with nf := s.nf.erase t } evs q :=
      ⟨hD.1, hD.2, hD.3, hD.4, hD.5, hD.6, hD.7, hD.8⟩
    exact wrBody_events hD1 t d false hn

/-- C53: no lost wake-up, as long as nobody polls the pipe.  If a reader sleeps although data is buffered
or no write handle is open, then some reader has been woken and is about to run; likewise a writer sleeps
although there is room or no read handle is open only if some writer has been woken. -/
theorem pipe_no_lost_wakeup_partial {storage : List Nat} {s : St} {evs : List Ev} (ho : OkStorage storage)
    (h : Exec false storage s evs) (t : Tid) :
    (∀ n, s.pc t = .rdSleep n → accepted evs ≠ received evs ∨ openWriters evs = 0 →
      ∃ u m, s.pc u = .rdAwake m) ∧
    (∀ d, s.pc t = .wrSleep d →
      (accepted evs).length < (received evs).length + storage.length ∨ openReaders evs = 0 →
      ∃ u d', s.pc u = .wrAwake d') := by
  obtain ⟨q, hD, hQ⟩ := exec_inv ho h
  have hst := hD.stream
  refine ⟨?_, ?_⟩
  · intro n hp hor
    have hk : kind (s.pc t) = .rs := by rw [hp]; rfl
    rcases hor with hne | hw
    · have hq : q ≠ [] := by
        intro e; subst e; rw [List.append_nil] at hst; exact hne hst.symm
      obtain ⟨u, hu⟩ := hQ.ra rfl hq ⟨t, hk⟩
      cases hpu : s.pc u with
      | rdAwake m => exact ⟨u, m, hpu⟩
      | _ => rw [hpu] at hu; cases hu
    · rw [← hD.wh] at hw
      exact absurd hk (hQ.eof hw t)
  · intro d hp hor
    have hk : kind (s.pc t) = .ws := by rw [hp]; rfl
    rcases hor with hlt | hw
    · have hq : q.length < storage.length := by
        rw [← hst, List.length_append] at hlt; omega
      obtain ⟨u, hu⟩ := hQ.wa hq ⟨t, hk⟩
      cases hpu : s.pc u with
      | wrAwake m => exact ⟨u, m, hpu⟩
      | _ => rw [hpu] at hu; cases hu
    · rw [← hD.rh] at hw
      exact absurd hk (hQ.brk hw t)

/-- C53 fails when a task polls the read end: `poll` and `read` waiters share `not_empty_cond`, a write
signals only one of them, and a poller that is woken does not pass the wake-up on.  Here task 1 polls, task
2 blocks in `read`, task 3 writes a byte: the poller is told, the reader sleeps on although a byte is there
and no other reader is awake. -/
theorem pipe_no_lost_wakeup_violated :
    ∃ s, Exec true [0, 0] s [.writeOk 3 [7] 1, .pollRet 1] ∧ s.pc 2 = .rdSleep 1 ∧
      accepted [Ev.writeOk 3 [7] 1, .pollRet 1] ≠ received [Ev.writeOk 3 [7] 1, .pollRet 1] ∧
      s.pc 1 = .out ∧ s.pc 3 = .out ∧ ∀ u, u ≠ 2 → s.pc u = .out := by
  refine ⟨_, .step (op := .resume 1 false) (es := [.pollRet 1]) (evs := [.writeOk 3 [7] 1])
    (.step (op := .write 3 [7] false) (es := [.writeOk 3 [7] 1]) (evs := [])
    (.step (op := .read 2 1 false) (es := []) (evs := [])
    (.step (op := .poll 1) (es := []) (evs := []) .init rfl rfl) trivial rfl) trivial rfl) trivial rfl,
    ?_, ?_, ?_, ?_, ?_⟩
  · decide
  · decide
  · decide
  · decide
  · intro u hu
    by_cases h1 : u = 1
    · subst h1; decide
    · by_cases h3 : u = 3
      · subst h3; decide
      · simp [pollBody, readable, isEmpty, wrBody, writeBytes, isFull, wrExit, signalNe, signalNf, signalOne, rdBody, readBytes,
          init, Ringbuf.init, Ringbuf.blit, Ringbuf.u32, upd, wakePC, hu, h1, h3]

/-! ## Non-vacuity -/

/-- A reader sleeps, a writer wakes it, the reader gets the data; the last writer leaves; end of file. -/
example : ∃ s, Exec false [0, 0, 0] s [.writeOk 2 [5, 6, 7, 8] 3, .readOk 1 2 [5, 6], .closeW,
    .readOk 1 9 [7], .readOk 1 9 [], .closeR, .sigpipe 2, .writeErr 2 [1] .epipe] := by
  refine ⟨_, .step (op := .write 2 [1] false) (es := [.sigpipe 2, .writeErr 2 [1] .epipe])
    (evs := [.writeOk 2 [5, 6, 7, 8] 3, .readOk 1 2 [5, 6], .closeW, .readOk 1 9 [7], .readOk 1 9 [], .closeR])
    (.step (op := .closeR) (es := [.closeR])
    (evs := [.writeOk 2 [5, 6, 7, 8] 3, .readOk 1 2 [5, 6], .closeW, .readOk 1 9 [7], .readOk 1 9 []])
    (.step (op := .read 1 9 false) (es := [.readOk 1 9 []])
    (evs := [.writeOk 2 [5, 6, 7, 8] 3, .readOk 1 2 [5, 6], .closeW, .readOk 1 9 [7]])
    (.step (op := .read 1 9 false) (es := [.readOk 1 9 [7]])
    (evs := [.writeOk 2 [5, 6, 7, 8] 3, .readOk 1 2 [5, 6], .closeW])
    (.step (op := .closeW) (es := [.closeW])
    (evs := [.writeOk 2 [5, 6, 7, 8] 3, .readOk 1 2 [5, 6]])
    (.step (op := .resume 1 false) (es := [.readOk 1 2 [5, 6]])
    (evs := [.writeOk 2 [5, 6, 7, 8] 3])
    (.step (op := .write 2 [5, 6, 7, 8] false) (es := [.writeOk 2 [5, 6, 7, 8] 3])
    (evs := [])
    (.step (op := .read 1 2 false) (es := []) (evs := []) .init trivial rfl) trivial rfl) trivial rfl)
    ?_ rfl) trivial rfl) trivial rfl) ?_ rfl) trivial rfl⟩ <;>
  (simp only [Contract]; decide)

example : OkStorage (List.replicate 4096 0) := by rw [OkStorage, List.length_replicate]; omega

end Verif.Pipe
