/-!
# The queue of requests of a terminal
(include/tilck/kernel/term_aux.h, kernel/tty/term_aux.c, modules/console/term_action_wrappers.c.h,
modules/serial/serial_term.c)

Properties C115 to C117.

Any task may ask a terminal to write a text (or for another action) at any time.  The request goes to
a queue; the task which finds the queue empty executes everything in it, under a lock; the others
return at once.

All interleavings of the steps of any number of tasks are considered.  A request of a task whose
preemption is disabled (`printk`) runs to its end without other tasks.  Simplifications: the queue is
a list with a capacity (the ring buffer itself is module `SafeRingbuf`); the mutex gives itself to
any waiter, not the first one (module `Kmutex`), which allows more orders than the code; requests
from interrupts, and a full queue when preemption is disabled (`panic`), are not modelled.
-/
namespace Verif.TermQueue

/-- A request: the buffer it points to, and (history only) what was in it when the request was
made. -/
structure Item where
  buf : Nat
  text : List Nat
  deriving DecidableEq, Repr

/-- Where a task is in `term_execute_or_enqueue_action_template` (term_aux.h:53-101). -/
inductive Pc
  | idle
  | want                    -- found the queue empty: in `kmutex_lock`, line 96
  | fullWant (x : Item)     -- in `kmutex_lock` of `term_handle_full_ringbuf` (term_aux.c:47)
  | fullHold (x : Item)     -- owns the lock there
  | drain                   -- in `term_exec_everything`, between two requests
  | exec (k : Nat)          -- executing request number `k`
  | stuck (k : Nat)         -- executing request `k`, and in `kmutex_lock` of a nested request
  deriving DecidableEq, Repr

/-- What is recorded about the execution of requests. -/
inductive Tr
  | start (k : Nat)
  | finish (k : Nat)
  deriving DecidableEq, Repr

/-- `struct term_rb_data` (term_aux.h:13-16), the tasks, the contents of buffers; and as history the
requests accepted (`sent`), those executed with the text that was shown (`shown`), and `trace`. -/
structure S where
  q : List Item
  lock : Option Nat
  pc : Nat → Pc
  mem : Nat → List Nat
  sent : List Item
  shown : List (Item × List Nat)
  trace : List Tr

/-- What can happen. -/
inductive Ev
  | req (p b : Nat)         -- task `p`, preemption enabled, asks to write buffer `b`
  | reqNoPreempt (b : Nat)  -- the same with preemption disabled
  | poke (b : Nat) (text : List Nat)  -- somebody puts other text into buffer `b`
  | lock (p : Nat)          -- `p` gets the lock
  | put (p : Nat)           -- `p` tries again to put its request into the queue
  | start (p : Nat)         -- `p` takes a request from the queue
  | finish (p : Nat)
  | leave (p : Nat)         -- `p` finds the queue empty, releases the lock and returns
  | nested (p b : Nat)      -- executing a request, `p` makes another one (an answer of the console
                            -- that is echoed: console.c:318-350, tty_input.c:55-140)
  deriving DecidableEq, Repr

def S.setPc (s : S) (p : Nat) (c : Pc) : S := { s with pc := fun i => if i = p then c else s.pc i }

/-- `safe_ringbuf_write_elem` with room in the queue. -/
def S.push (s : S) (x : Item) : S := { s with q := s.q ++ [x], sent := s.sent ++ [x] }

/-- Take the first request and show the text its buffer holds now (`safe_ringbuf_read_elem` and
`a->ptr`, term_action_wrappers.c.h:68). -/
def S.pop (s : S) (x : Item) (r : List Item) : S :=
  { s with q := r, shown := s.shown ++ [(x, s.mem x.buf)], trace := s.trace ++ [Tr.start s.shown.length] }

/-- `term_exec_everything` without interruption. -/
def S.all (s : S) : List Item → S
  | [] => { s with q := [] }
  | x :: r =>
    S.all { s with shown := s.shown ++ [(x, s.mem x.buf)],
                   trace := s.trace ++ [Tr.start s.shown.length, Tr.finish s.shown.length] } r

/-- include/tilck/kernel/term_aux.h:53-101 `term_execute_or_enqueue_action_template` and
kernel/tty/term_aux.c:6-57 `term_handle_full_ringbuf`, step by step, for a queue of `cap` requests. -/
def step (cap : Nat) (s : S) : Ev → Option S
  | .req p b =>
    if s.pc p = .idle then
      if s.q.length < cap then
        some ((s.push ⟨b, s.mem b⟩).setPc p (if s.q = [] then .want else .idle))
      else some (s.setPc p (.fullWant ⟨b, s.mem b⟩))
    else none
  | .reqNoPreempt b =>
    if s.q.length < cap then
      if s.q = [] then some ((s.push ⟨b, s.mem b⟩).all [⟨b, s.mem b⟩]) else some (s.push ⟨b, s.mem b⟩)
    else none
  | .poke b text => some { s with mem := fun i => if i = b then text else s.mem i }
  | .lock p =>
    if s.lock = none then
      match s.pc p with
      | .want => some ({ s with lock := some p }.setPc p .drain)
      | .fullWant x => some ({ s with lock := some p }.setPc p (.fullHold x))
      | _ => none
    else none
  | .put p =>
    match s.pc p with
    | .fullHold x =>
      if s.q.length < cap then
        some ({ s.push x with lock := none }.setPc p (if s.q = [] then .want else .idle))
      else some ({ s with lock := none }.setPc p (.fullWant x))
    | _ => none
  | .start p =>
    if s.pc p = .drain then
      match s.q with
      | [] => none
      | x :: r => some ((s.pop x r).setPc p (.exec s.shown.length))
    else none
  | .finish p =>
    match s.pc p with
    | .exec k => some (S.setPc { s with trace := s.trace ++ [Tr.finish k] } p .drain)
    | _ => none
  | .leave p =>
    if s.pc p = .drain ∧ s.q = [] then some ({ s with lock := none }.setPc p .idle) else none
  | .nested p b =>
    match s.pc p with
    | .exec k =>
      if s.q.length < cap then
        some ((s.push ⟨b, s.mem b⟩).setPc p (if s.q = [] then .stuck k else .exec k))
      else some (s.setPc p (.stuck k))
    | _ => none

/-- A terminal nobody uses yet. -/
def start (mem : Nat → List Nat) : S :=
  { q := [], lock := none, pc := fun _ => .idle, mem, sent := [], shown := [], trace := [] }

/-- The states the terminal can be in, when only the events `ok` happen. -/
inductive ReachP (cap : Nat) (ok : S → Ev → Prop) : S → Prop
  | init (mem) : ReachP cap ok (start mem)
  | step {s s' : S} {e : Ev} : ReachP cap ok s → ok s e → step cap s e = some s' → ReachP cap ok s'

/-- A given sequence of events. -/
def run (cap : Nat) (s : S) : List Ev → Option S
  | [] => some s
  | e :: l => (step cap s e).bind fun s => run cap s l

/-! ## Specification -/

/-- Requests are executed one at a time: each one finishes before the next one starts. -/
def Serial : List Tr → Prop
  | [] => True
  | [.start _] => True
  | .start k :: .finish m :: r => k = m ∧ Serial r
  | _ => False

/-- Nobody changes a buffer which a request still waiting points to. -/
def Careful (s : S) : Ev → Prop
  | .poke b _ => (∀ x ∈ s.q, x.buf ≠ b) ∧ ∀ p x, (s.pc p = .fullWant x ∨ s.pc p = .fullHold x) → x.buf ≠ b
  | _ => True

/-- No request with preemption disabled comes while another task is executing one, and executing a
request makes no other one. -/
def Calm (s : S) : Ev → Prop
  | .reqNoPreempt _ => ∀ p k, s.pc p ≠ .exec k
  | .nested _ _ => False
  | _ => True

/-! ## Every request is executed once, in order -/

theorem all_q (l : List Item) : ∀ s : S, (s.all l).q = [] ∧ (s.all l).sent = s.sent ∧
    (s.all l).shown = s.shown ++ l.map (fun x => (x, s.mem x.buf)) ∧ (s.all l).pc = s.pc ∧
    (s.all l).lock = s.lock ∧ (s.all l).mem = s.mem := by
  induction l with
  | nil => intro s; exact ⟨rfl, rfl, by simp [S.all], rfl, rfl, rfl⟩
  | cons x r ih =>
    intro s
    obtain ⟨h1, h2, h3, h4, h5, h6⟩ := ih { s with
      shown := s.shown ++ [(x, s.mem x.buf)]
      trace := s.trace ++ [Tr.start s.shown.length, Tr.finish s.shown.length] }
    refine ⟨h1, h2, ?_, h4, h5, h6⟩
    show (S.all _ r).shown = _
    rw [h3]
    simp

/-- C115: in every interleaving, every request accepted is executed exactly once, in the order in
which the requests were accepted: those executed and those waiting are, in this order, all there
were. -/
theorem executed_once_in_order {cap : Nat} {ok : S → Ev → Prop} {s : S} (h : ReachP cap ok s) :
    s.sent = s.shown.map Prod.fst ++ s.q := by
  induction h with
  | init => rfl
  | @step s s' e _ _ hs ih =>
    cases e with
    | req p b =>
      dsimp only [step] at hs
      split at hs
      · split at hs
        · cases hs
          show s.sent ++ _ = s.shown.map _ ++ (s.q ++ _)
          rw [ih, List.append_assoc]
        · cases hs; exact ih
      · cases hs
    | reqNoPreempt b =>
      dsimp only [step] at hs
      split at hs
      · split at hs
        · rename_i hq
          cases hs
          obtain ⟨h1, h2, h3, _, _, _⟩ := all_q [⟨b, s.mem b⟩] (s.push ⟨b, s.mem b⟩)
          rw [h1, h2, h3]
          show s.sent ++ _ = _
          rw [ih, hq]
          simp [S.push]
        · cases hs
          show s.sent ++ _ = s.shown.map _ ++ (s.q ++ _)
          rw [ih, List.append_assoc]
      · cases hs
    | poke b t => cases hs; exact ih
    | lock p =>
      dsimp only [step] at hs
      split at hs
      · split at hs
        · cases hs; exact ih
        · cases hs; exact ih
        · cases hs
      · cases hs
    | put p =>
      dsimp only [step] at hs
      split at hs
      · split at hs
        · cases hs
          show s.sent ++ _ = s.shown.map _ ++ (s.q ++ _)
          rw [ih, List.append_assoc]
        · cases hs; exact ih
      · cases hs
    | start p =>
      dsimp only [step] at hs
      split at hs
      · split at hs
        · cases hs
        · rename_i x r hq
          cases hs
          show s.sent = (s.shown ++ [(x, s.mem x.buf)]).map _ ++ r
          rw [ih, hq]
          simp
      · cases hs
    | finish p =>
      dsimp only [step] at hs
      split at hs
      · cases hs; exact ih
      · cases hs
    | leave p =>
      dsimp only [step] at hs
      split at hs
      · cases hs; exact ih
      · cases hs
    | nested p b =>
      dsimp only [step] at hs
      split at hs
      · split at hs
        · cases hs
          show s.sent ++ _ = s.shown.map _ ++ (s.q ++ _)
          rw [ih, List.append_assoc]
        · cases hs; exact ih
      · cases hs

/-! ## One at a time -/

/-- The task inside the lock. -/
def Inside (c : Pc) : Prop :=
  match c with
  | .fullHold _ | .drain | .exec _ | .stuck _ => True
  | _ => False

instance (c : Pc) : Decidable (Inside c) := by
  cases c <;> first | exact isTrue trivial | exact isFalse (fun h => h)

theorem set_self (s : S) (p : Nat) (c : Pc) : (s.setPc p c).pc p = c := if_pos rfl

theorem set_other (s : S) {p i : Nat} (c : Pc) (h : i ≠ p) : (s.setPc p c).pc i = s.pc i := if_neg h

/-- Taking the lock, or giving it back, or neither, keeps "inside" and "owner" the same. -/
theorem inside_set {s : S} (h : ∀ i, Inside (s.pc i) ↔ s.lock = some i) (s' : S) (p : Nat) (c : Pc)
    (hpc : s'.pc = s.pc) (hl : (s'.lock = s.lock ∧ (Inside c ↔ Inside (s.pc p))) ∨
      (s.lock = none ∧ s'.lock = some p ∧ Inside c) ∨
      (s.lock = some p ∧ s'.lock = none ∧ ¬ Inside c)) (i : Nat) :
    Inside ((s'.setPc p c).pc i) ↔ s'.lock = some i := by
  by_cases hi : i = p
  · subst hi
    rw [set_self]
    rcases hl with ⟨a, b⟩ | ⟨_, b, c'⟩ | ⟨_, b, c'⟩
    · rw [b, a]; exact h i
    · rw [b]; exact ⟨fun _ => rfl, fun _ => c'⟩
    · rw [b]; exact ⟨fun x => absurd x c', fun x => by cases x⟩
  · rw [set_other _ _ hi, hpc, h i]
    rcases hl with ⟨a, _⟩ | ⟨a, b, _⟩ | ⟨a, b, _⟩
    · rw [a]
    · rw [a, b]; exact ⟨(by intro x; cases x), fun x => by cases x; exact absurd rfl hi⟩
    · rw [a, b]; exact ⟨fun x => by cases x; exact absurd rfl hi, (by intro x; cases x)⟩

/-- C115: only the owner of the lock is between `kmutex_lock` and `kmutex_unlock`, in every
interleaving. -/
theorem owner_inside {cap : Nat} {ok : S → Ev → Prop} {s : S} (h : ReachP cap ok s) :
    ∀ i, Inside (s.pc i) ↔ s.lock = some i := by
  induction h with
  | init => intro i; exact ⟨(fun h => h.elim), (fun h => by cases h)⟩
  | @step s s' e _ _ hs ih =>
    cases e with
    | req p b =>
      dsimp only [step] at hs
      split at hs
      · rename_i hi
        split at hs
        · cases hs
          refine inside_set ih (s.push _) p _ rfl (.inl ⟨rfl, ?_⟩)
          rw [hi]; split <;> exact Iff.rfl
        · cases hs
          refine inside_set ih s p _ rfl (.inl ⟨rfl, ?_⟩)
          rw [hi]; exact Iff.rfl
      · cases hs
    | reqNoPreempt b =>
      dsimp only [step] at hs
      split at hs
      · split at hs
        · cases hs
          obtain ⟨_, _, _, h4, h5, _⟩ := all_q [⟨b, s.mem b⟩] (s.push ⟨b, s.mem b⟩)
          intro i
          rw [h4, h5]
          exact ih i
        · cases hs; exact ih
      · cases hs
    | poke b t => cases hs; exact ih
    | lock p =>
      dsimp only [step] at hs
      split at hs
      · rename_i hl
        split at hs
        · cases hs
          exact inside_set ih { s with lock := some p } p _ rfl (.inr (.inl ⟨hl, rfl, trivial⟩))
        · cases hs
          exact inside_set ih { s with lock := some p } p _ rfl (.inr (.inl ⟨hl, rfl, trivial⟩))
        · cases hs
      · cases hs
    | put p =>
      dsimp only [step] at hs
      split at hs
      · rename_i x hx
        have hl : s.lock = some p := (ih p).mp (by rw [hx]; trivial)
        split at hs
        · cases hs
          refine inside_set ih { s.push x with lock := none } p _ rfl (.inr (.inr ⟨hl, rfl, ?_⟩))
          split <;> exact fun h => h
        · cases hs
          exact inside_set ih { s with lock := none } p _ rfl (.inr (.inr ⟨hl, rfl, fun h => h⟩))
      · cases hs
    | start p =>
      dsimp only [step] at hs
      split at hs
      · rename_i hp
        split at hs
        · cases hs
        · cases hs
          refine inside_set ih (s.pop _ _) p _ rfl (.inl ⟨rfl, ?_⟩)
          rw [hp]; exact Iff.rfl
      · cases hs
    | finish p =>
      dsimp only [step] at hs
      split at hs
      · rename_i k hp
        cases hs
        refine inside_set ih { s with trace := s.trace ++ [Tr.finish k] } p _ rfl (.inl ⟨rfl, ?_⟩)
        rw [hp]; exact Iff.rfl
      · cases hs
    | leave p =>
      dsimp only [step] at hs
      split at hs
      · rename_i hp
        have hl : s.lock = some p := (ih p).mp (by rw [hp.1]; trivial)
        cases hs
        exact inside_set ih { s with lock := none } p _ rfl (.inr (.inr ⟨hl, rfl, fun h => h⟩))
      · cases hs
    | nested p b =>
      dsimp only [step] at hs
      split at hs
      · rename_i k hp
        split at hs
        · cases hs
          refine inside_set ih (s.push _) p _ rfl (.inl ⟨rfl, ?_⟩)
          rw [hp]; split <;> exact Iff.rfl
        · cases hs
          refine inside_set ih s p _ rfl (.inl ⟨rfl, ?_⟩)
          rw [hp]; exact Iff.rfl
      · cases hs

/-- A record in which everything started has finished. -/
inductive Closed : List Tr → Prop
  | nil : Closed []
  | snoc {t : List Tr} (k : Nat) : Closed t → Closed (t ++ [Tr.start k, Tr.finish k])

theorem serial_pair (k : Nat) (t : List Tr) : Serial (Tr.start k :: Tr.finish k :: t) = (k = k ∧ Serial t) := rfl

theorem closed_cons {t : List Tr} (k : Nat) (h : Closed t) : Closed (Tr.start k :: Tr.finish k :: t) := by
  induction h with
  | nil => exact Closed.snoc k Closed.nil
  | snoc m _ ih => exact Closed.snoc m ih

theorem serial_append {t : List Tr} (h : Closed t) : ∀ r, Serial r → Serial (t ++ r) := by
  induction h with
  | nil => intro r hr; exact hr
  | snoc k _ ih =>
    intro r hr
    rw [List.append_assoc]
    exact ih _ ⟨rfl, hr⟩

/-- What holds of the record. -/
structure Rec (s : S) : Prop where
  running : ∀ p k, s.pc p = .exec k → ∃ t, Closed t ∧ s.trace = t ++ [Tr.start k]
  quiet : (∀ p k, s.pc p ≠ .exec k) → Closed s.trace
  noStuck : ∀ p k, s.pc p ≠ .stuck k

/-- A step after which no other tasks execute. -/
theorem rec_same {s s' : S} (h : Rec s) (ht : s'.trace = s.trace)
    (hp : ∀ p k, s'.pc p = .exec k ↔ s.pc p = .exec k) (hn : ∀ p k, s'.pc p ≠ .stuck k) : Rec s' :=
  ⟨fun p k hk => by rw [ht]; exact h.running p k ((hp p k).mp hk),
   fun hq => by rw [ht]; exact h.quiet (fun p k hk => hq p k ((hp p k).mpr hk)), hn⟩

theorem rec_set {s : S} (h : Rec s) (s' : S) (p : Nat) (c : Pc) (hpc : s'.pc = s.pc)
    (ht : s'.trace = s.trace) (hc : ∀ k, c ≠ .exec k) (hc2 : ∀ k, c ≠ .stuck k)
    (ho : ∀ k, s.pc p ≠ .exec k) : Rec (s'.setPc p c) := by
  refine rec_same (s' := s'.setPc p c) h ht ?_ ?_
  · intro i k
    by_cases hi : i = p
    · subst hi
      rw [set_self]
      exact ⟨fun x => absurd x (hc k), fun x => absurd x (ho k)⟩
    · rw [set_other _ _ hi, hpc]
  · intro i k
    by_cases hi : i = p
    · subst hi
      rw [set_self]
      exact hc2 k
    · rw [set_other _ _ hi, hpc]
      exact h.noStuck i k

theorem rec_all (l : List Item) : ∀ s : S, Closed s.trace → Closed (s.all l).trace := by
  induction l with
  | nil => intro s h; exact h
  | cons x r ih => intro s h; exact ih _ (Closed.snoc _ h)

theorem record {cap : Nat} {s : S} (h : ReachP cap Calm s) : Rec s := by
  induction h with
  | init => exact ⟨(fun _ _ h => by cases h), (fun _ => Closed.nil), (fun _ _ h => by cases h)⟩
  | @step s s' e hr hok hs ih =>
    have own := owner_inside hr
    cases e with
    | req p b =>
      dsimp only [step] at hs
      split at hs
      · rename_i hi
        split at hs
        · cases hs
          refine rec_set ih (s.push _) p _ rfl rfl ?_ ?_ (by rw [hi]; intro k hk; cases hk) <;>
            (intro k; split <;> (intro hk; cases hk))
        · cases hs
          exact rec_set ih s p _ rfl rfl (fun k hk => by cases hk) (fun k hk => by cases hk)
            (by rw [hi]; intro k hk; cases hk)
      · cases hs
    | reqNoPreempt b =>
      dsimp only [step] at hs
      split at hs
      · split at hs
        · cases hs
          obtain ⟨_, _, _, h4, _, _⟩ := all_q [⟨b, s.mem b⟩] (s.push ⟨b, s.mem b⟩)
          refine ⟨fun p k hk => ?_, fun _ => rec_all _ (s.push _) (ih.quiet hok), fun p k hk => ?_⟩
          · rw [h4] at hk; exact absurd hk (hok p k)
          · rw [h4] at hk; exact ih.noStuck p k hk
        · cases hs; exact rec_same ih rfl (fun _ _ => Iff.rfl) ih.noStuck
      · cases hs
    | poke b t => cases hs; exact rec_same ih rfl (fun _ _ => Iff.rfl) ih.noStuck
    | lock p =>
      dsimp only [step] at hs
      split at hs
      · split at hs
        · rename_i hp
          cases hs
          exact rec_set ih { s with lock := some p } p _ rfl rfl (fun k hk => by cases hk)
            (fun k hk => by cases hk) (by rw [hp]; intro k hk; cases hk)
        · rename_i hp
          cases hs
          exact rec_set ih { s with lock := some p } p _ rfl rfl (fun k hk => by cases hk)
            (fun k hk => by cases hk) (by rw [hp]; intro k hk; cases hk)
        · cases hs
      · cases hs
    | put p =>
      dsimp only [step] at hs
      split at hs
      · rename_i x hp
        split at hs
        · cases hs
          refine rec_set ih { s.push x with lock := none } p _ rfl rfl ?_ ?_
            (by rw [hp]; intro k hk; cases hk) <;> (intro k; split <;> (intro hk; cases hk))
        · cases hs
          exact rec_set ih { s with lock := none } p _ rfl rfl (fun k hk => by cases hk)
            (fun k hk => by cases hk) (by rw [hp]; intro k hk; cases hk)
      · cases hs
    | start p =>
      dsimp only [step] at hs
      split at hs
      · rename_i hp
        have hl : s.lock = some p := (own p).mp (by rw [hp]; trivial)
        have hno : ∀ i k, s.pc i ≠ .exec k := by
          intro i k hk
          have := (own i).mp (by rw [hk]; trivial)
          rw [hl] at this
          cases this
          rw [hp] at hk
          cases hk
        split at hs
        · cases hs
        · cases hs
          refine ⟨fun i k hk => ?_, fun hq => ?_, fun i k hk => ?_⟩
          · by_cases hi : i = p
            · subst hi
              rw [set_self] at hk
              cases hk
              exact ⟨s.trace, ih.quiet hno, rfl⟩
            · rw [set_other _ _ hi] at hk
              exact absurd hk (hno i k)
          · exact absurd (set_self _ _ _) (hq p s.shown.length)
          · by_cases hi : i = p
            · subst hi
              rw [set_self] at hk
              cases hk
            · rw [set_other _ _ hi] at hk
              exact ih.noStuck i k hk
      · cases hs
    | finish p =>
      dsimp only [step] at hs
      split at hs
      · rename_i k hp
        have hl : s.lock = some p := (own p).mp (by rw [hp]; trivial)
        have hno : ∀ i, i ≠ p → ∀ k, s.pc i ≠ .exec k := by
          intro i hi k hk
          have := (own i).mp (by rw [hk]; trivial)
          rw [hl] at this
          cases this
          exact hi rfl
        obtain ⟨t, ht, he⟩ := ih.running p k hp
        cases hs
        refine ⟨fun i m hk => ?_, fun hq => ?_, fun i m hk => ?_⟩
        · by_cases hi : i = p
          · subst hi
            rw [set_self] at hk
            cases hk
          · rw [set_other _ _ hi] at hk
            exact absurd hk (hno i hi m)
        · show Closed (s.trace ++ [Tr.finish k])
          rw [he, List.append_assoc]
          exact Closed.snoc k ht
        · by_cases hi : i = p
          · subst hi
            rw [set_self] at hk
            cases hk
          · rw [set_other _ _ hi] at hk
            exact ih.noStuck i m hk
      · cases hs
    | leave p =>
      dsimp only [step] at hs
      split at hs
      · rename_i hp
        cases hs
        exact rec_set ih { s with lock := none } p _ rfl rfl (fun k hk => by cases hk)
          (fun k hk => by cases hk) (by rw [hp.1]; intro k hk; cases hk)
      · cases hs
    | nested p b => exact hok.elim

/-- C115: requests are executed one at a time, when none comes with preemption disabled while
another task is executing one, and executing a request makes no other one. -/
theorem one_at_a_time_partial {cap : Nat} {s : S} (h : ReachP cap Calm s) : Serial s.trace := by
  have hr := record h
  by_cases hx : ∃ p k, s.pc p = .exec k
  · obtain ⟨p, k, hk⟩ := hx
    obtain ⟨t, ht, he⟩ := hr.running p k hk
    rw [he]
    exact serial_append ht _ trivial
  · have := hr.quiet (fun p k hk => hx ⟨p, k, hk⟩)
    have h2 := serial_append this [] trivial
    rwa [List.append_nil] at h2

/-! ## Somebody always takes care of the queue -/

/-- The task will execute what is in the queue. -/
def Bound (c : Pc) : Prop := c = .want ∨ c = .drain ∨ ∃ k, c = .exec k

/-- C115: whenever requests are waiting, some task is bound to execute them (none is forgotten). -/
theorem never_forgotten_partial {cap : Nat} {s : S} (h : ReachP cap Calm s) :
    s.q ≠ [] → ∃ p, Bound (s.pc p) := by
  induction h with
  | init => intro h; exact absurd rfl h
  | @step s s' e hr hok hs ih =>
    have own := owner_inside hr
    have keep : ∀ (s1 : S) (p : Nat) (c : Pc), s1.pc = s.pc → (∃ i, Bound (s.pc i)) →
        (Bound (s.pc p) → Bound c) → ∃ i, Bound ((s1.setPc p c).pc i) := by
      intro s1 p c hpc ⟨i, hi⟩ hc
      by_cases h : i = p
      · subst h
        exact ⟨i, by rw [set_self]; exact hc hi⟩
      · exact ⟨i, by rw [set_other _ _ h, hpc]; exact hi⟩
    cases e with
    | req p b =>
      dsimp only [step] at hs
      split at hs
      · rename_i hi
        have nb : ¬ Bound (s.pc p) := by
          rw [hi]; rintro (h | h | ⟨k, h⟩) <;> cases h
        split at hs
        · cases hs
          intro _
          by_cases hq : s.q = []
          · exact ⟨p, by rw [set_self, if_pos hq]; exact .inl rfl⟩
          · exact keep (s.push _) p _ rfl (ih hq) (fun h => absurd h nb)
        · cases hs
          intro hq
          exact keep s p _ rfl (ih hq) (fun h => absurd h nb)
      · cases hs
    | reqNoPreempt b =>
      dsimp only [step] at hs
      split at hs
      · split at hs
        · cases hs
          intro hq
          exact absurd (all_q _ _).1 hq
        · rename_i hq
          cases hs
          intro _
          exact ih hq
      · cases hs
    | poke b t => cases hs; exact ih
    | lock p =>
      dsimp only [step] at hs
      split at hs
      · split at hs
        · cases hs
          intro _
          exact ⟨p, by rw [set_self]; exact .inr (.inl rfl)⟩
        · rename_i x hp
          cases hs
          intro hq
          exact keep { s with lock := some p } p _ rfl (ih hq)
            (fun h => by rw [hp] at h; rcases h with h | h | ⟨k, h⟩ <;> cases h)
        · cases hs
      · cases hs
    | put p =>
      dsimp only [step] at hs
      split at hs
      · rename_i x hp
        have nb : ¬ Bound (s.pc p) := by
          rw [hp]; rintro (h | h | ⟨k, h⟩) <;> cases h
        split at hs
        · cases hs
          intro _
          by_cases hq : s.q = []
          · exact ⟨p, by rw [set_self, if_pos hq]; exact .inl rfl⟩
          · exact keep { s.push x with lock := none } p _ rfl (ih hq) (fun h => absurd h nb)
        · cases hs
          intro hq
          exact keep { s with lock := none } p _ rfl (ih hq) (fun h => absurd h nb)
      · cases hs
    | start p =>
      dsimp only [step] at hs
      split at hs
      · split at hs
        · cases hs
        · cases hs
          intro _
          exact ⟨p, by rw [set_self]; exact .inr (.inr ⟨_, rfl⟩)⟩
      · cases hs
    | finish p =>
      dsimp only [step] at hs
      split at hs
      · cases hs
        intro _
        exact ⟨p, by rw [set_self]; exact .inr (.inl rfl)⟩
      · cases hs
    | leave p =>
      dsimp only [step] at hs
      split at hs
      · rename_i hp
        cases hs
        intro hq
        exact absurd hp.2 hq
      · cases hs
    | nested p b => exact hok.elim

/-- What the tasks can do by themselves, without new requests. -/
def Own : Ev → Prop
  | .lock _ | .put _ | .start _ | .finish _ | .leave _ => True
  | _ => False

/-- C117: no deadlock: while some task has not returned from its request, some task can take a
step. -/
theorem no_deadlock_partial {cap : Nat} {s : S} (h : ReachP cap Calm s) {p : Nat}
    (hp : s.pc p ≠ .idle) : ∃ e s', Own e ∧ step cap s e = some s' := by
  have own := owner_inside h
  have hr := record h
  -- a task inside the lock can go on
  have go : ∀ i, Inside (s.pc i) → ∃ e s', Own e ∧ step cap s e = some s' := by
    intro i hi
    cases hc : s.pc i with
    | idle => rw [hc] at hi; exact hi.elim
    | want => rw [hc] at hi; exact hi.elim
    | fullWant x => rw [hc] at hi; exact hi.elim
    | fullHold x =>
      refine ⟨.put i, ?_⟩
      dsimp only [step]
      rw [hc]
      dsimp only
      by_cases hq : s.q.length < cap
      · exact ⟨_, trivial, if_pos hq⟩
      · exact ⟨_, trivial, if_neg hq⟩
    | drain =>
      cases hq : s.q with
      | nil => exact ⟨.leave i, _, trivial, if_pos ⟨hc, hq⟩⟩
      | cons x r =>
        refine ⟨.start i, (s.pop x r).setPc i (.exec s.shown.length), trivial, ?_⟩
        dsimp only [step]
        rw [if_pos hc, hq]
    | exec k =>
      refine ⟨.finish i, S.setPc { s with trace := s.trace ++ [Tr.finish k] } i .drain, trivial, ?_⟩
      dsimp only [step]
      rw [hc]
    | stuck k => exact absurd hc (hr.noStuck i k)
  cases hl : s.lock with
  | some i => exact go i ((own i).mpr hl)
  | none =>
    cases hc : s.pc p with
    | idle => exact absurd hc hp
    | want =>
      refine ⟨.lock p, S.setPc { s with lock := some p } p .drain, trivial, ?_⟩
      dsimp only [step]
      rw [if_pos hl, hc]
    | fullWant x =>
      refine ⟨.lock p, S.setPc { s with lock := some p } p (.fullHold x), trivial, ?_⟩
      dsimp only [step]
      rw [if_pos hl, hc]
    | fullHold x => exact go p (by rw [hc]; trivial)
    | drain => exact go p (by rw [hc]; trivial)
    | exec k => exact go p (by rw [hc]; trivial)
    | stuck k => exact go p (by rw [hc]; trivial)

/-- C115, C116: when a task which had to wait returns, everything requested so far has been
executed, its own request included. -/
theorem all_done_at_return {cap : Nat} {ok : S → Ev → Prop} {s s' : S} {p : Nat}
    (h : ReachP cap ok s) (hs : step cap s (.leave p) = some s') :
    s'.shown.map Prod.fst = s'.sent := by
  have h1 := executed_once_in_order h
  dsimp only [step] at hs
  split at hs
  · rename_i hp
    cases hs
    rw [hp.2, List.append_nil] at h1
    exact h1.symm
  · cases hs

/-! ## A text is shown as it was when it was passed -/

/-- What the buffers of requests not yet executed hold. -/
def Kept (s : S) : Prop :=
  (∀ x ∈ s.q, s.mem x.buf = x.text) ∧
  (∀ p x, (s.pc p = .fullWant x ∨ s.pc p = .fullHold x) → s.mem x.buf = x.text) ∧
  ∀ y ∈ s.shown, y.2 = y.1.text

theorem kept {cap : Nat} {s : S} (h : ReachP cap Careful s) : Kept s := by
  induction h with
  | init => exact ⟨(fun _ h => by cases h), (fun _ _ h => by rcases h with h | h <;> cases h),
      (fun _ h => by cases h)⟩
  | @step s s' e hr hok hs ih =>
    obtain ⟨i1, i2, i3⟩ := ih
    have setK : ∀ (s1 : S) (p : Nat) (c : Pc), s1.pc = s.pc → s1.mem = s.mem →
        (∀ x, (c = .fullWant x ∨ c = .fullHold x) → s.mem x.buf = x.text) →
        ∀ i x, ((s1.setPc p c).pc i = .fullWant x ∨ (s1.setPc p c).pc i = .fullHold x) →
          s1.mem x.buf = x.text := by
      intro s1 p c hpc hm hc i x hx
      rw [hm]
      by_cases h : i = p
      · subst h
        rw [set_self] at hx
        exact hc x hx
      · rw [set_other _ _ h, hpc] at hx
        exact i2 i x hx
    have pushK : ∀ y : Item, s.mem y.buf = y.text → ∀ x ∈ s.q ++ [y], s.mem x.buf = x.text := by
      intro y hy x hx
      rcases List.mem_append.mp hx with h | h
      · exact i1 x h
      · cases List.mem_singleton.mp h; exact hy
    cases e with
    | req p b =>
      dsimp only [step] at hs
      split at hs
      · split at hs
        · cases hs
          refine ⟨pushK _ rfl, setK (s.push _) p _ rfl rfl ?_, i3⟩
          intro x hx
          split at hx <;> rcases hx with h | h <;> cases h
        · cases hs
          refine ⟨i1, setK s p _ rfl rfl ?_, i3⟩
          intro x hx
          rcases hx with h | h
          · cases h; rfl
          · cases h
      · cases hs
    | reqNoPreempt b =>
      dsimp only [step] at hs
      split at hs
      · split at hs
        · cases hs
          obtain ⟨h1, _, h3, h4, _, h6⟩ := all_q [⟨b, s.mem b⟩] (s.push ⟨b, s.mem b⟩)
          refine ⟨?_, ?_, ?_⟩
          · rw [h1]; intro x hx; cases hx
          · rw [h4, h6]; exact i2
          · rw [h3]
            intro y hy
            rcases List.mem_append.mp hy with h | h
            · exact i3 y h
            · cases List.mem_singleton.mp h; rfl
        · cases hs
          exact ⟨pushK _ rfl, i2, i3⟩
      · cases hs
    | poke b t =>
      cases hs
      refine ⟨fun x hx => ?_, fun p x hx => ?_, i3⟩
      · show (if x.buf = b then t else s.mem x.buf) = _
        rw [if_neg (hok.1 x hx)]
        exact i1 x hx
      · show (if x.buf = b then t else s.mem x.buf) = _
        rw [if_neg (hok.2 p x hx)]
        exact i2 p x hx
    | lock p =>
      dsimp only [step] at hs
      split at hs
      · split at hs
        · cases hs
          exact ⟨i1, setK { s with lock := some p } p _ rfl rfl
            (fun x hx => by rcases hx with h | h <;> cases h), i3⟩
        · rename_i y hp
          cases hs
          refine ⟨i1, setK { s with lock := some p } p _ rfl rfl ?_, i3⟩
          intro x hx
          rcases hx with h | h
          · cases h
          · cases h; exact i2 p y (.inl hp)
        · cases hs
      · cases hs
    | put p =>
      dsimp only [step] at hs
      split at hs
      · rename_i y hp
        have hy := i2 p y (.inr hp)
        split at hs
        · cases hs
          refine ⟨pushK _ hy, setK { s.push y with lock := none } p _ rfl rfl ?_, i3⟩
          intro x hx
          split at hx <;> rcases hx with h | h <;> cases h
        · cases hs
          refine ⟨i1, setK { s with lock := none } p _ rfl rfl ?_, i3⟩
          intro x hx
          rcases hx with h | h
          · cases h; exact hy
          · cases h
      · cases hs
    | start p =>
      dsimp only [step] at hs
      split at hs
      · split at hs
        · cases hs
        · rename_i x r hq
          cases hs
          refine ⟨fun y hy => i1 y (by rw [hq]; exact List.mem_cons_of_mem _ hy),
            setK (s.pop x r) p _ rfl rfl (fun x hx => by rcases hx with h | h <;> cases h), ?_⟩
          intro y hy
          rcases List.mem_append.mp hy with h | h
          · exact i3 y h
          · cases List.mem_singleton.mp h
            exact i1 x (by rw [hq]; exact List.mem_cons_self)
      · cases hs
    | finish p =>
      dsimp only [step] at hs
      split at hs
      · rename_i k _
        cases hs
        exact ⟨i1, setK { s with trace := s.trace ++ [Tr.finish k] } p _ rfl rfl
          (fun x hx => by rcases hx with h | h <;> cases h), i3⟩
      · cases hs
    | leave p =>
      dsimp only [step] at hs
      split at hs
      · cases hs
        exact ⟨i1, setK { s with lock := none } p _ rfl rfl
          (fun x hx => by rcases hx with h | h <;> cases h), i3⟩
      · cases hs
    | nested p b =>
      dsimp only [step] at hs
      split at hs
      · split at hs
        · cases hs
          refine ⟨pushK _ rfl, setK (s.push _) p _ rfl rfl ?_, i3⟩
          intro x hx
          split at hx <;> rcases hx with h | h <;> cases h
        · cases hs
          refine ⟨i1, setK s p _ rfl rfl ?_, i3⟩
          intro x hx
          rcases hx with h | h <;> cases h
      · cases hs

/-- C116: the texts shown are, in order, those the buffers held when the requests were made,
provided that nobody changes a buffer which a waiting request points to. -/
theorem texts_shown_partial {cap : Nat} {s : S} (h : ReachP cap Careful s) :
    s.shown.map Prod.snd ++ s.q.map Item.text = s.sent.map Item.text := by
  rw [executed_once_in_order h, List.map_append, List.map_map]
  congr 1
  apply List.map_congr_left
  intro y hy
  exact (kept h).2.2 y hy

/-! ## What goes wrong -/

theorem run_reach {cap : Nat} {ok : S → Ev → Prop} (l : List Ev) : ∀ {s s' : S}, ReachP cap ok s →
    (∀ s, ∀ e ∈ l, ok s e) → run cap s l = some s' → ReachP cap ok s' := by
  induction l with
  | nil => intro s s' h _ hr; cases hr; exact h
  | cons e l ih =>
    intro s s' h hok hr
    dsimp only [run] at hr
    cases hs : step cap s e with
    | none => rw [hs] at hr; cases hr
    | some s1 =>
      rw [hs] at hr
      exact ih (h.step (hok s e List.mem_cons_self) hs)
        (fun s e he => hok s e (List.mem_cons_of_mem _ he)) hr

/-- Only requests from tasks which do not execute one (nothing is nested). -/
def Flat (_ : S) : Ev → Prop
  | .nested _ _ => False
  | _ => True

instance (s : S) (e : Ev) : Decidable (Flat s e) := by
  cases e <;> first | exact isTrue trivial | exact isFalse (fun h => h)

/-- Buffers 0, 1, 2 hold the texts "0", "1", "2"... -/
def mem0 (b : Nat) : List Nat := [48 + b]

/-- Task 0 is in the middle of writing a text when a message of the kernel (preemption disabled)
comes: it finds the queue empty, and is executed without the lock. -/
def overlapRun : List Ev := [.req 0 0, .lock 0, .start 0, .reqNoPreempt 1, .finish 0]

/-- C115 fails: a request with preemption disabled is executed in the middle of another one (of
another task), whose state (a half-read escape sequence, a row being moved) it finds as it is. -/
theorem overlap_violated : ∃ s, ReachP 32 Flat s ∧ ¬ Serial s.trace ∧
    s.trace = [.start 0, .start 1, .finish 1, .finish 0] := by
  have h : (run 32 (start mem0) overlapRun).isSome = true := by decide +kernel
  obtain ⟨s, hs⟩ := Option.isSome_iff_exists.mp h
  have ht : (run 32 (start mem0) overlapRun).map S.trace =
      some [.start 0, .start 1, .finish 1, .finish 0] := by decide +kernel
  rw [hs] at ht
  have ht : s.trace = [.start 0, .start 1, .finish 1, .finish 0] := Option.some.inj ht
  refine ⟨s, run_reach overlapRun (.init mem0) ?_ hs, ?_, ht⟩
  · intro _ e he
    revert e
    unfold overlapRun
    intro e he
    simp only [List.mem_cons, List.not_mem_nil, or_false] at he
    rcases he with rfl | rfl | rfl | rfl | rfl <;> trivial
  · rw [ht]; exact fun h => h

/-- Task 0 has put its request into the queue and is preempted before it gets the lock.  Task 1
writes "1": its request joins the queue and it returns.  It then puts its next text "X" into the same
buffer (`io_copybuf`, or a variable on the stack) and writes that too.  Task 0 goes on. -/
def staleRun : List Ev :=
  [.req 0 0, .req 1 1, .poke 1 [88], .req 1 1, .lock 0, .start 0, .finish 0, .start 0, .finish 0,
   .start 0, .finish 0, .leave 0]

/-- C116 fails: the texts written are "0", "1", "X", those shown are "0", "X", "X". -/
theorem text_lost_violated : ∃ s, ReachP 32 Flat s ∧
    s.sent.map Item.text = [[48], [49], [88]] ∧ s.shown.map Prod.snd = [[48], [88], [88]] := by
  have h : (run 32 (start mem0) staleRun).isSome = true := by decide +kernel
  obtain ⟨s, hs⟩ := Option.isSome_iff_exists.mp h
  have ht : (run 32 (start mem0) staleRun).map (fun s => (s.sent.map Item.text, s.shown.map Prod.snd)) =
      some ([[48], [49], [88]], [[48], [88], [88]]) := by decide +kernel
  rw [hs] at ht
  have ht := Option.some.inj ht
  refine ⟨s, run_reach staleRun (.init mem0) ?_ hs, congrArg Prod.fst ht, congrArg Prod.snd ht⟩
  intro _ e he
  unfold staleRun at he
  simp only [List.mem_cons, List.not_mem_nil, or_false] at he
  rcases he with rfl | rfl | rfl | rfl | rfl | rfl | rfl | rfl | rfl | rfl | rfl | rfl <;> trivial

/-- One step does not free a task which waits for the lock it owns. -/
theorem stuck_step {cap : Nat} {s s' : S} {e : Ev} {p k : Nat}
    (hi : ∀ i, Inside (s.pc i) ↔ s.lock = some i) (hp : s.pc p = .stuck k)
    (hs : step cap s e = some s') : s'.pc p = .stuck k ∧ s'.lock = some p ∧
      ∀ i, s.pc i = .want → s'.pc i = .want := by
  have hl : s.lock = some p := (hi p).mp (by rw [hp]; trivial)
  have ho : ∀ i, Inside (s.pc i) → i = p := by
    intro i h
    have := (hi i).mp h
    rw [hl] at this
    cases this
    rfl
  have setK : ∀ (s1 : S) (i : Nat) (c : Pc), s1.pc = s.pc → s1.lock = s.lock → i ≠ p →
      s.pc i ≠ .want → (s1.setPc i c).pc p = .stuck k ∧ (s1.setPc i c).lock = some p ∧
        ∀ j, s.pc j = .want → (s1.setPc i c).pc j = .want := by
    intro s1 i c h1 h2 h3 h4
    refine ⟨by rw [set_other _ _ (Ne.symm h3), h1]; exact hp, by rw [← hl]; exact h2, ?_⟩
    intro j hj
    rw [set_other _ _ (fun e : j = i => h4 (by rw [← e]; exact hj)), h1]
    exact hj
  cases e with
  | req i b =>
    dsimp only [step] at hs
    split at hs
    · rename_i hc
      have hne : i ≠ p := by rintro rfl; rw [hp] at hc; cases hc
      split at hs
      · cases hs
        exact setK (s.push _) i _ rfl rfl hne (by rw [hc]; exact fun h => by cases h)
      · cases hs
        exact setK s i _ rfl rfl hne (by rw [hc]; exact fun h => by cases h)
    · cases hs
  | reqNoPreempt b =>
    dsimp only [step] at hs
    split at hs
    · split at hs
      · cases hs
        obtain ⟨_, _, _, h4, h5, _⟩ := all_q [⟨b, s.mem b⟩] (s.push ⟨b, s.mem b⟩)
        rw [h4, h5]
        exact ⟨hp, hl, fun _ h => h⟩
      · cases hs; exact ⟨hp, hl, fun _ h => h⟩
    · cases hs
  | poke b t => cases hs; exact ⟨hp, hl, fun _ h => h⟩
  | lock i =>
    dsimp only [step] at hs
    rw [if_neg (by rw [hl]; exact fun h => by cases h)] at hs
    cases hs
  | put i =>
    dsimp only [step] at hs
    split at hs
    · rename_i x hc
      have : i = p := ho i (by rw [hc]; trivial)
      subst this
      rw [hp] at hc
      cases hc
    · cases hs
  | start i =>
    dsimp only [step] at hs
    split at hs
    · rename_i hc
      have : i = p := ho i (by rw [hc]; trivial)
      subst this
      rw [hp] at hc
      cases hc
    · cases hs
  | finish i =>
    dsimp only [step] at hs
    split at hs
    · rename_i x hc
      have : i = p := ho i (by rw [hc]; trivial)
      subst this
      rw [hp] at hc
      cases hc
    · cases hs
  | leave i =>
    dsimp only [step] at hs
    split at hs
    · rename_i hc
      have : i = p := ho i (by rw [hc.1]; trivial)
      subst this
      have := hc.1
      rw [hp] at this
      cases this
    · cases hs
  | nested i b =>
    dsimp only [step] at hs
    split at hs
    · rename_i x hc
      have : i = p := ho i (by rw [hc]; trivial)
      subst this
      rw [hp] at hc
      cases hc
    · cases hs

/-- C117: a task which, executing a request, makes another one and finds the queue empty (or full)
never returns, whatever happens afterwards, and neither does any task waiting for the terminal. -/
theorem nested_never_returns {cap : Nat} {p k : Nat} (l : List Ev) : ∀ {s s' : S},
    ReachP cap (fun _ _ => True) s → s.pc p = .stuck k → run cap s l = some s' →
    s'.pc p = .stuck k ∧ ∀ i, s.pc i = .want → s'.pc i = .want := by
  induction l with
  | nil => intro s s' _ hp hr; cases hr; exact ⟨hp, fun _ h => h⟩
  | cons e l ih =>
    intro s s' h hp hr
    dsimp only [run] at hr
    cases hs : step cap s e with
    | none => rw [hs] at hr; cases hr
    | some s1 =>
      rw [hs] at hr
      obtain ⟨a, _, c⟩ := stuck_step (owner_inside h) hp hs
      obtain ⟨d, f⟩ := ih (h.step trivial hs) a hr
      exact ⟨d, fun i hi => f i (c i hi)⟩

/-- A program writes the request for a report of the cursor's position; the console's answer is
echoed on the same terminal; another program then writes. -/
def nestedRun : List Ev := [.req 0 0, .lock 0, .start 0, .nested 0 1, .poke 0 [1], .reqNoPreempt 7]

/-- C117 fails: one program writing 4 characters (`ESC [ 6 n`) to a terminal in its normal mode
blocks itself for ever, with the terminal's lock. -/
theorem self_deadlock_violated : ∃ s, ReachP 32 (fun _ _ => True) s ∧ s.pc 0 = .stuck 0 ∧
    s.lock = some 0 ∧ ∀ l s', run 32 s l = some s' → s'.pc 0 = .stuck 0 := by
  have h : (run 32 (start mem0) nestedRun).isSome = true := by decide +kernel
  obtain ⟨s, hs⟩ := Option.isSome_iff_exists.mp h
  have ht : (run 32 (start mem0) nestedRun).map (fun s => (s.pc 0, s.lock)) =
      some (.stuck 0, some 0) := by decide +kernel
  rw [hs] at ht
  have ht := Option.some.inj ht
  have hr := run_reach (ok := fun _ _ => True) nestedRun (.init mem0) (fun _ _ _ => trivial) hs
  refine ⟨s, hr, congrArg Prod.fst ht, congrArg Prod.snd ht, ?_⟩
  intro l s' h'
  exact (nested_never_returns l hr (congrArg Prod.fst ht) h').1

/-- The hypotheses are met: two tasks write, the second joins the queue of the first. -/
example : ∃ s, ReachP 32 Calm s ∧ ReachP 32 Careful s ∧ s.sent.length = 2 ∧ s.q.length = 1 ∧
    s.pc 0 = .exec 0 ∧ s.pc 1 = .idle := by
  have h : (run 32 (start mem0) [.req 0 0, .req 1 1, .lock 0, .start 0]).isSome = true := by
    decide +kernel
  obtain ⟨s, hs⟩ := Option.isSome_iff_exists.mp h
  have ht : (run 32 (start mem0) [.req 0 0, .req 1 1, .lock 0, .start 0]).map
      (fun s => (s.sent.length, s.q.length, s.pc 0, s.pc 1)) = some (2, 1, .exec 0, .idle) := by
    decide +kernel
  rw [hs] at ht
  have ht := Option.some.inj ht
  refine ⟨s, run_reach _ (.init mem0) ?_ hs, run_reach _ (.init mem0) ?_ hs, congrArg (·.1) ht,
    congrArg (·.2.1) ht, congrArg (·.2.2.1) ht, congrArg (·.2.2.2) ht⟩ <;>
  · intro _ e he
    simp only [List.mem_cons, List.not_mem_nil, or_false] at he
    rcases he with rfl | rfl | rfl | rfl <;> trivial

end Verif.TermQueue
