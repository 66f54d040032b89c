/-!
# Input from the serial ports (modules/serial/serial.c)

Property C191 (every byte received on a serial port gets to its terminal, in order).  Ports are 0 to 3
(COM1 to COM4); COM1 and COM3 share an interrupt line, COM2 and COM4 the other one.
-/
namespace Verif.Serial

/-- The bytes waiting in the ports, `jobs_cnt`, the queue of the worker thread, the job it runs (`true`: in
the loop, `false`: after it), the interrupts latched by the PIC, and what the terminals got
(modules/serial/serial.c:19-26). -/
structure St where
  fifo : Nat → List Nat := fun _ => []
  jobs : Nat → Nat := fun _ => 0
  queue : List Nat := []
  run : Option (Nat × Bool) := none
  pend : Nat → Bool := fun _ => false
  out : Nat → List Nat := fun _ => []

/-- Update of a table (glue). -/
def set {α : Type} (f : Nat → α) (i : Nat) (x : α) : Nat → α := fun j => if j = i then x else f j

/-- A byte arrives.  The lines are edge-triggered: only the first byte waiting in a port raises the line.
Simplified: ports hold any number of bytes. -/
def arrive (s : St) (p c : Nat) : St :=
  { s with fifo := set s.fifo p (s.fifo p ++ [c]),
           pend := set s.pend (p % 2) (s.pend (p % 2) || (s.fifo p).isEmpty) }

/-- serial.c:64-94 `serial_con_irq_handler` outside of a panic, with `WTH_SERIAL_QUEUE_SIZE` of
config/kernel/config_kernel.h:52; `none`: IRQ_NOT_HANDLED.  The worker does not run meanwhile, as
preemption is disabled. -/
def handler (s : St) (p : Nat) : Option St :=
  if (s.fifo p).isEmpty then none
  else if 2 ≤ s.jobs p then some s
  else if 32 ≤ s.queue.length then some s
  else some { s with queue := s.queue ++ [p], jobs := set s.jobs p (s.jobs p + 1) }

/-- kernel/arch/generic_x86/irq_generic.c:95-131 `arch_irq_handling` for line `l`, with the handlers in the
order of serial.c:129-132: the first that handles the interrupt ends the loop. -/
def irq (s : St) (l : Nat) : St :=
  if s.pend l then
    match handler { s with pend := set s.pend l false } l with
    | some s1 => s1
    | none => (handler { s with pend := set s.pend l false } (l + 2)).getD { s with pend := set s.pend l false }
  else s

/-- One step of the worker thread: it takes a job, or is in serial.c:48-62 `ser_bh_handler`. -/
def work (s : St) : St :=
  match s.run with
  | none =>
    match s.queue with
    | [] => s
    | p :: q => { s with queue := q, run := some (p, true) }
  | some (p, true) =>
    match s.fifo p with
    | [] => { s with run := some (p, false) }
    | c :: cs => { s with fifo := set s.fifo p cs, out := set s.out p (s.out p ++ [c]) }
  | some (p, false) => { s with run := none, jobs := set s.jobs p (s.jobs p - 1) }

/-- A byte arrives, an interrupt is served, or the worker thread makes a step. -/
inductive Ev
  | arrive (p c : Nat)
  | irq (l : Nat)
  | work
  deriving DecidableEq, Repr

/-- One event (glue). -/
def step (s : St) : Ev → St
  | .arrive p c => arrive s p c
  | .irq l => irq s l
  | .work => work s

/-- Any interleaving of the ports, the interrupts and the worker thread. -/
def exec (s : St) (l : List Ev) : St := l.foldl step s

/-! ## Specification -/

/-- What arrived on a port. -/
def arrived (p : Nat) : List Ev → List Nat
  | [] => []
  | .arrive q c :: l => if q = p then c :: arrived p l else arrived p l
  | _ :: l => arrived p l

/-- Only COM1 to COM4 receive, and of two ports that share a line only one. -/
def Alone (l : List Ev) : Prop :=
  (∀ p c, .arrive p c ∈ l → p < 4) ∧ ∀ p c d, .arrive p c ∈ l → .arrive (p + 2) d ∉ l

/-- Nothing more happens unless bytes arrive. -/
def Idle (s : St) : Prop := s.queue = [] ∧ s.run = none ∧ s.pend 0 = false ∧ s.pend 1 = false

/-! ## Proofs -/

theorem set_same {α : Type} (f : Nat → α) (i : Nat) (x : α) : set f i x i = x := if_pos rfl

theorem set_ne {α : Type} (f : Nat → α) {i j : Nat} (x : α) (h : j ≠ i) : set f i x j = f j := if_neg h

theorem handler_data {s s1 : St} {p : Nat} (h : handler s p = some s1) : s1.fifo = s.fifo ∧ s1.out = s.out ∧ s1.pend = s.pend ∧ s1.run = s.run := by
  unfold handler at h
  split at h
  · cases h
  · split at h
    · cases h; exact ⟨rfl, rfl, rfl, rfl⟩
    · split at h
      · cases h; exact ⟨rfl, rfl, rfl, rfl⟩
      · cases h; exact ⟨rfl, rfl, rfl, rfl⟩

theorem irq_data (s : St) (l : Nat) : (irq s l).fifo = s.fifo ∧ (irq s l).out = s.out ∧ (irq s l).run = s.run := by
  unfold irq
  split
  · split
    · rename_i s1 h
      obtain ⟨a, b, -, d⟩ := handler_data h
      exact ⟨a, b, d⟩
    · cases h : handler { s with pend := set s.pend l false } (l + 2) with
      | none => exact ⟨rfl, rfl, rfl⟩
      | some s1 =>
        obtain ⟨a, b, -, d⟩ := handler_data h
        exact ⟨a, b, d⟩
  · exact ⟨rfl, rfl, rfl⟩

theorem work_data (s : St) (p : Nat) : (work s).out p ++ (work s).fifo p = s.out p ++ s.fifo p := by
  unfold work
  split
  · split <;> rfl
  · rename_i q hq
    split
    · rfl
    · rename_i c cs hf
      by_cases e : p = q
      · subst e
        simp [set_same, hf]
      · simp [set_ne _ _ e]
  · rfl

theorem exec_data (p : Nat) : ∀ (l : List Ev) (s : St),
    (exec s l).out p ++ (exec s l).fifo p = s.out p ++ s.fifo p ++ arrived p l
  | [], s => by simp [exec, arrived]
  | e :: l, s => by
    have h := exec_data p l (step s e)
    show (exec (step s e) l).out p ++ (exec (step s e) l).fifo p = _
    rw [h]
    cases e with
    | arrive q c =>
      show s.out p ++ set s.fifo q (s.fifo q ++ [c]) p ++ arrived p l = s.out p ++ s.fifo p ++ (if q = p then c :: arrived p l else arrived p l)
      by_cases e : q = p
      · subst e
        rw [set_same, if_pos rfl]
        simp
      · rw [set_ne _ _ (fun k => e k.symm), if_neg e]
    | irq m =>
      show (irq s m).out p ++ (irq s m).fifo p ++ _ = _
      rw [(irq_data s m).1, (irq_data s m).2.1]
      rfl
    | work =>
      show (work s).out p ++ (work s).fifo p ++ _ = _
      rw [work_data]
      rfl

/-- C191: for every interleaving, the terminal got the bytes that arrived, each once and in order, and the
others are still waiting in the port. -/
theorem in_order (l : List Ev) (p : Nat) : (exec {} l).out p ++ (exec {} l).fifo p = arrived p l := by
  rw [exec_data]
  rfl

structure Inv (used : Nat → Prop) (s : St) : Prop where
  jobs : ∀ p, s.jobs p = s.queue.count p + (if s.run.map (·.1) = some p then 1 else 0)
  two : ∀ p, s.jobs p ≤ 2
  small : ∀ p ∈ s.queue, p < 4
  line : ∀ l, s.pend l = true → l < 2
  cover : ∀ p, s.fifo p ≠ [] → s.pend (p % 2) = true ∨ p ∈ s.queue ∨ s.run = some (p, true)
  used : ∀ p, s.fifo p ≠ [] → used p

theorem length_count : ∀ (q : List Nat), (∀ p ∈ q, p < 4) → q.length = q.count 0 + q.count 1 + q.count 2 + q.count 3
  | [], _ => rfl
  | p :: q, h => by
    have ih := length_count q fun x hx => h x (List.mem_cons_of_mem _ hx)
    have hp : p < 4 := h p (List.mem_cons_self ..)
    have : p = 0 ∨ p = 1 ∨ p = 2 ∨ p = 3 := by omega
    rcases this with rfl | rfl | rfl | rfl <;> simp [List.count_cons, ih] <;> omega

theorem room {used : Nat → Prop} {s : St} (h : Inv used s) : s.queue.length ≤ 8 := by
  rw [length_count s.queue h.small]
  have a := h.jobs 0; have b := h.jobs 1; have c := h.jobs 2; have d := h.jobs 3
  have a2 := h.two 0; have b2 := h.two 1; have c2 := h.two 2; have d2 := h.two 3
  omega

theorem busy {used : Nat → Prop} {s : St} (h : Inv used s) {p : Nat} (hj : 2 ≤ s.jobs p) : p ∈ s.queue := by
  have := h.jobs p
  refine List.count_pos_iff.1 ?_
  split at this <;> omega

/-- The handler, when bytes wait: the port has a job in the queue afterwards. -/
theorem handler_some {used : Nat → Prop} {s : St} (h : Inv used s) {p : Nat} (hp : p < 4) (l : Nat)
    (hf : s.fifo p ≠ []) (hc : ∀ q, s.fifo q ≠ [] → q % 2 = l → q = p) :
    ∃ s1, handler { s with pend := set s.pend l false } p = some s1 ∧ Inv used s1 := by
  have hr := room h
  have hcov : ∀ (q : List Nat), p ∈ q → (∀ x ∈ s.queue, x ∈ q) → ∀ x, s.fifo x ≠ [] →
      set s.pend l false (x % 2) = true ∨ x ∈ q ∨ s.run = some (x, true) := by
    intro q hq hs x hx
    by_cases e : x % 2 = l
    · exact Or.inr (Or.inl ((hc x hx e) ▸ hq))
    · rw [set_ne _ _ e]
      rcases h.cover x hx with k | k | k
      · exact Or.inl k
      · exact Or.inr (Or.inl (hs x k))
      · exact Or.inr (Or.inr k)
  have hline : ∀ m, set s.pend l false m = true → m < 2 := by
    intro m hm
    by_cases e : m = l
    · subst e; rw [set_same] at hm; cases hm
    · rw [set_ne _ _ e] at hm; exact h.line m hm
  unfold handler
  have he : (s.fifo p).isEmpty = false := by
    cases hq : s.fifo p with
    | nil => exact absurd hq hf
    | cons a b => rfl
  dsimp only
  rw [if_neg (by rw [he]; simp)]
  by_cases c : 2 ≤ s.jobs p
  · rw [if_pos c]
    exact ⟨_, rfl, h.jobs, h.two, h.small, hline, hcov s.queue (busy h c) (fun _ k => k), h.used⟩
  · rw [if_neg c, if_neg (by omega)]
    refine ⟨_, rfl, ?_, ?_, ?_, hline, hcov _ (by simp) (fun x k => by simp [k]), h.used⟩
    · intro x
      have := h.jobs x
      show set s.jobs p (s.jobs p + 1) x = (s.queue ++ [p]).count x + _
      rw [List.count_append]
      by_cases e : x = p
      · subst e
        rw [set_same, List.count_singleton_self]
        dsimp only
        omega
      · rw [set_ne _ _ e, List.count_eq_zero.2 (show x ∉ [p] by simpa using e)]
        exact this
    · intro x
      show set s.jobs p (s.jobs p + 1) x ≤ 2
      by_cases e : x = p
      · subst e; rw [set_same]; omega
      · rw [set_ne _ _ e]; exact h.two x
    · intro x hx
      rcases List.mem_append.1 hx with hx | hx
      · exact h.small x hx
      · rw [List.mem_singleton.1 hx]; exact hp

theorem irq_inv {used : Nat → Prop} (hu : ∀ p, used p → p < 4) (hu2 : ∀ p, used p → ¬ used (p + 2)) {s : St}
    (h : Inv used s) (l : Nat) : Inv used (irq s l) ∧ (irq s l).pend l = false ∧ ∀ m, s.pend m = false → (irq s l).pend m = false := by
  unfold irq
  by_cases c : s.pend l = true
  · rw [if_pos c]
    have hl := h.line l c
    have hpd : ∀ {s1 : St} {p : Nat}, handler { s with pend := set s.pend l false } p = some s1 →
        s1.pend l = false ∧ ∀ m, s.pend m = false → s1.pend m = false := by
      intro s1 p hs
      rw [(handler_data hs).2.2.1]
      refine ⟨set_same .., fun m hm => ?_⟩
      by_cases e : m = l
      · subst e; exact set_same ..
      · show set s.pend l false m = false
        rw [set_ne _ _ e]; exact hm
    by_cases f0 : s.fifo l = []
    · have hn : handler { s with pend := set s.pend l false } l = none := by
        unfold handler
        dsimp only
        rw [f0]
        rfl
      rw [hn]
      dsimp only
      by_cases f2 : s.fifo (l + 2) = []
      · have hn2 : handler { s with pend := set s.pend l false } (l + 2) = none := by
          unfold handler
          dsimp only
          rw [f2]
          rfl
        rw [hn2]
        refine ⟨⟨h.jobs, h.two, h.small, ?_, ?_, h.used⟩, set_same .., ?_⟩
        · intro m hm
          by_cases e : m = l
          · subst e; exact hl
          · have : s.pend m = true := by
              have k : set s.pend l false m = true := hm
              rwa [set_ne _ _ e] at k
            exact h.line m this
        · intro p hp
          have hp' : s.fifo p ≠ [] := hp
          have hp4 := hu p (h.used p hp')
          have e : p % 2 ≠ l := by
            intro e
            have : p = l ∨ p = l + 2 := by omega
            rcases this with rfl | rfl
            · exact hp' f0
            · exact hp' f2
          show set s.pend l false (p % 2) = true ∨ _
          rw [set_ne _ _ e]
          exact h.cover p hp'
        · intro m hm
          show set s.pend l false m = false
          by_cases e : m = l
          · subst e; exact set_same ..
          · rw [set_ne _ _ e]; exact hm
      · obtain ⟨s1, e1, e2⟩ := handler_some h (p := l + 2) (by omega) l f2 (fun q hq e => by
          have := hu q (h.used q hq)
          have : q = l ∨ q = l + 2 := by omega
          rcases this with rfl | rfl
          · exact absurd f0 hq
          · rfl)
        rw [e1]
        exact ⟨e2, hpd e1⟩
    · obtain ⟨s1, e1, e2⟩ := handler_some h (p := l) (by omega) l f0 (fun q hq e => by
        have := hu q (h.used q hq)
        have : q = l ∨ q = l + 2 := by omega
        rcases this with rfl | rfl
        · rfl
        · exact absurd (h.used _ hq) (hu2 _ (h.used _ f0)))
      rw [e1]
      exact ⟨e2, hpd e1⟩
  · rw [if_neg c]
    exact ⟨h, by simpa using c, fun _ k => k⟩

theorem arrive_inv {used : Nat → Prop} {s : St} (h : Inv used s) (p c : Nat) (hp : used p) : Inv used (arrive s p c) := by
  refine ⟨h.jobs, h.two, h.small, ?_, ?_, ?_⟩
  · intro l hl
    have hl' : set s.pend (p % 2) (s.pend (p % 2) || (s.fifo p).isEmpty) l = true := hl
    by_cases e : l = p % 2
    · omega
    · rw [set_ne _ _ e] at hl'; exact h.line l hl'
  · intro q hq
    show set s.pend (p % 2) (s.pend (p % 2) || (s.fifo p).isEmpty) (q % 2) = true ∨ q ∈ s.queue ∨ s.run = some (q, true)
    have hmono : s.pend (q % 2) = true → set s.pend (p % 2) (s.pend (p % 2) || (s.fifo p).isEmpty) (q % 2) = true := by
      intro k
      by_cases e : q % 2 = p % 2
      · rw [e, set_same, ← e, k]; rfl
      · rw [set_ne _ _ e]; exact k
    by_cases e : s.fifo q = []
    · have : q = p := by
        by_cases e' : q = p
        · exact e'
        · have hq' : set s.fifo p (s.fifo p ++ [c]) q ≠ [] := hq
          rw [set_ne _ _ e'] at hq'
          exact absurd e hq'
      subst this
      left
      rw [set_same, e]
      simp
    · rcases h.cover q e with k | k | k
      · exact Or.inl (hmono k)
      · exact Or.inr (Or.inl k)
      · exact Or.inr (Or.inr k)
  · intro q hq
    have hq' : set s.fifo p (s.fifo p ++ [c]) q ≠ [] := hq
    by_cases e : q = p
    · subst e; exact hp
    · rw [set_ne _ _ e] at hq'; exact h.used q hq'

theorem work_inv {used : Nat → Prop} {s : St} (h : Inv used s) : Inv used (work s) := by
  unfold work
  split
  · rename_i hr
    split
    · exact h
    · rename_i p q hq
      refine ⟨?_, h.two, fun x hx => h.small x (by rw [hq]; exact List.mem_cons_of_mem _ hx), h.line, ?_, h.used⟩
      · intro x
        have := h.jobs x
        rw [hr, hq] at this
        show s.jobs x = q.count x + (if some p = some x then 1 else 0)
        rw [this, List.count_cons]
        by_cases e : p = x <;> simp [e]
      · intro x hx
        rcases h.cover x hx with k | k | k
        · exact Or.inl k
        · rw [hq, List.mem_cons] at k
          rcases k with rfl | k
          · exact Or.inr (Or.inr rfl)
          · exact Or.inr (Or.inl k)
        · rw [hr] at k; cases k
  · rename_i p hr
    split
    · rename_i hf
      refine ⟨?_, h.two, h.small, h.line, ?_, h.used⟩
      · intro x
        have := h.jobs x
        rw [hr] at this
        exact this
      · intro x hx
        rcases h.cover x hx with k | k | k
        · exact Or.inl k
        · exact Or.inr (Or.inl k)
        · rw [hr] at k
          cases k
          exact absurd hf hx
    · rename_i c cs hf
      refine ⟨h.jobs, h.two, h.small, h.line, ?_, ?_⟩
      · intro x hx
        by_cases e : x = p
        · subst e; exact Or.inr (Or.inr hr)
        · have hx' : set s.fifo p cs x ≠ [] := hx
          rw [set_ne _ _ e] at hx'
          exact h.cover x hx'
      · intro x hx
        by_cases e : x = p
        · subst e; exact h.used x (by rw [hf]; simp)
        · have hx' : set s.fifo p cs x ≠ [] := hx
          rw [set_ne _ _ e] at hx'
          exact h.used x hx'
  · rename_i p hr
    refine ⟨?_, ?_, h.small, h.line, ?_, h.used⟩
    · intro x
      have := h.jobs x
      rw [hr] at this
      show set s.jobs p (s.jobs p - 1) x = s.queue.count x + 0
      by_cases e : x = p
      · subst e
        rw [set_same, this]
        simp
      · rw [set_ne _ _ e, this]
        rw [if_neg (show ¬ Option.map (fun x : Nat × Bool => x.1) (some (p, false)) = some x from fun k => e (Option.some.inj k).symm)]
    · intro x
      show set s.jobs p (s.jobs p - 1) x ≤ 2
      by_cases e : x = p
      · subst e; rw [set_same]; have := h.two x; omega
      · rw [set_ne _ _ e]; exact h.two x
    · intro x hx
      rcases h.cover x hx with k | k | k
      · exact Or.inl k
      · exact Or.inr (Or.inl k)
      · rw [hr] at k; cases k

theorem exec_inv {used : Nat → Prop} (hu : ∀ p, used p → p < 4) (hu2 : ∀ p, used p → ¬ used (p + 2)) :
    ∀ (l : List Ev) (s : St), Inv used s → (∀ p c, .arrive p c ∈ l → used p) → Inv used (exec s l)
  | [], _, h, _ => h
  | e :: l, s, h, ha => by
    refine exec_inv hu hu2 l (step s e) ?_ fun p c k => ha p c (List.mem_cons_of_mem _ k)
    cases e with
    | arrive p c => exact arrive_inv h p c (ha p c (List.mem_cons_self ..))
    | irq m => exact (irq_inv hu hu2 h m).1
    | work => exact work_inv h

/-- The ports that receive in a history. -/
def Used (l : List Ev) (p : Nat) : Prop := ∃ c, .arrive p c ∈ l

theorem alone_inv {l : List Ev} (h : Alone l) : (∀ p, Used l p → p < 4) ∧ (∀ p, Used l p → ¬ Used l (p + 2)) ∧ Inv (Used l) (exec {} l) := by
  have h1 : ∀ p, Used l p → p < 4 := fun p ⟨c, hc⟩ => h.1 p c hc
  have h2 : ∀ p, Used l p → ¬ Used l (p + 2) := fun p ⟨c, hc⟩ ⟨d, hd⟩ => h.2 p c d hc hd
  refine ⟨h1, h2, exec_inv h1 h2 l {} ⟨?_, ?_, ?_, ?_, ?_, ?_⟩ fun p c k => ⟨c, k⟩⟩ <;> intro p <;> simp

/-- C191 (part): if of two ports sharing a line only one receives, then for every interleaving of bytes,
interrupts and worker, when nothing is left to do the terminals got all that arrived. -/
theorem delivered_partial (l : List Ev) (h : Alone l) (hi : Idle (exec {} l)) (p : Nat) :
    (exec {} l).out p = arrived p l := by
  obtain ⟨-, -, hv⟩ := alone_inv h
  have hf : (exec {} l).fifo p = [] := by
    by_cases c : (exec {} l).fifo p = []
    · exact c
    · rcases hv.cover p c with k | k | k
      · have : p % 2 = 0 ∨ p % 2 = 1 := by omega
        rcases this with e | e
        · rw [e, hi.2.2.1] at k; cases k
        · rw [e, hi.2.2.2] at k; cases k
      · rw [hi.1] at k; cases k
      · rw [hi.2.1] at k; cases k
  have := in_order l p
  rw [hf, List.append_nil] at this
  exact this

/-- Steps the worker has still to do, if no more bytes arrive. -/
def todo (s : St) : Nat :=
  3 * s.queue.length + (match s.run with | none => 0 | some (_, true) => 2 | some (_, false) => 1) +
    ((s.fifo 0).length + (s.fifo 1).length + (s.fifo 2).length + (s.fifo 3).length)

theorem work_pend (s : St) : (work s).pend = s.pend := by
  unfold work
  split
  · split <;> rfl
  · split <;> rfl
  · rfl

theorem work_todo {used : Nat → Prop} (hu : ∀ p, used p → p < 4) {s : St} (h : Inv used s)
    (hw : ¬ (s.queue = [] ∧ s.run = none)) : todo (work s) < todo s := by
  unfold work
  split
  · rename_i hr
    split
    · rename_i hq
      exact absurd ⟨hq, hr⟩ hw
    · rename_i p q hq
      simp only [todo, hr, hq, List.length_cons]
      omega
  · rename_i p hr
    split
    · simp only [todo, hr]
      omega
    · rename_i c cs hf
      have hp := hu p (h.used p (by rw [hf]; simp))
      have hl : (s.fifo p).length = cs.length + 1 := by rw [hf]; rfl
      have : p = 0 ∨ p = 1 ∨ p = 2 ∨ p = 3 := by omega
      rcases this with rfl | rfl | rfl | rfl <;> simp [todo, hr, set] <;> omega
  · rename_i p hr
    simp only [todo, hr]
    omega

theorem work_all {used : Nat → Prop} (hu : ∀ p, used p → p < 4) : ∀ (n : Nat) (s : St), Inv used s → todo s ≤ n →
    ∃ k, (exec s (List.replicate k .work)).queue = [] ∧ (exec s (List.replicate k .work)).run = none ∧
      (exec s (List.replicate k .work)).pend = s.pend
  | n, s, h, hn => by
    by_cases c : s.queue = [] ∧ s.run = none
    · exact ⟨0, c.1, c.2, rfl⟩
    · have ht := work_todo hu h c
      cases n with
      | zero => omega
      | succ n =>
        obtain ⟨k, k1, k2, k3⟩ := work_all hu n (work s) (work_inv h) (by omega)
        exact ⟨k + 1, k1, k2, k3.trans (work_pend s)⟩

theorem arrived_append (p : Nat) : ∀ (a b : List Ev), arrived p (a ++ b) = arrived p a ++ arrived p b
  | [], _ => rfl
  | .arrive q c :: a, b => by
    by_cases e : q = p <;> simp [arrived, e, arrived_append p a b]
  | .irq _ :: a, b => by simp [arrived, arrived_append p a b]
  | .work :: a, b => by simp [arrived, arrived_append p a b]

theorem arrived_work (p k : Nat) : arrived p (List.replicate k .work) = [] := by
  induction k with
  | zero => rfl
  | succ k ih => simpa [List.replicate_succ, arrived] using ih

/-- C191 (part): after any history, once the latched interrupts are served and the worker has run, the
terminals have all that arrived. -/
theorem progress_partial (l : List Ev) (h : Alone l) :
    ∃ k, ∀ p, (exec {} (l ++ [.irq 0, .irq 1] ++ List.replicate k .work)).out p = arrived p l := by
  obtain ⟨h1, h2, hv⟩ := alone_inv h
  obtain ⟨i1, j1, -⟩ := irq_inv h1 h2 hv 0
  obtain ⟨i2, j2, m2⟩ := irq_inv h1 h2 i1 1
  obtain ⟨k, k1, k2, k3⟩ := work_all h1 _ _ i2 (Nat.le_refl _)
  have e : exec {} (l ++ [.irq 0, .irq 1] ++ List.replicate k .work) =
      exec (irq (irq (exec {} l) 0) 1) (List.replicate k .work) := by
    simp [exec, List.foldl_append, step]
  refine ⟨k, fun p => ?_⟩
  have ha : Alone (l ++ [.irq 0, .irq 1] ++ List.replicate k .work) := by
    constructor
    · intro q c hq
      refine h.1 q c ?_
      simpa [List.mem_replicate] using hq
    · intro q c d hq hd
      refine h.2 q c d ?_ ?_
      · simpa [List.mem_replicate] using hq
      · simpa [List.mem_replicate] using hd
  have := delivered_partial _ ha (by
    rw [e]
    exact ⟨k1, k2, by rw [k3]; exact m2 0 j1, by rw [k3]; exact j2⟩) p
  rw [this, arrived_append, arrived_append, arrived_work]
  simp [arrived]

example : Alone [.arrive 0 65, .irq 0, .work, .arrive 1 70, .arrive 0 66, .work, .irq 1, .arrive 0 67, .irq 0] := by
  constructor
  · intro p c h; simp at h; omega
  · intro p c d h k; simp at h k


example : (exec {} [.arrive 0 65, .irq 0, .work, .work, .work, .arrive 0 66, .irq 0, .work, .work, .work, .work, .work]).out 0 =
    [65, 66] := by decide

/-- C191 is violated: if bytes arrive on COM1 and COM3 before the interrupt is served, the one from COM3
stays in its port when nothing is left to do, and so do all further bytes of COM3. -/
theorem shared_violated (cs : List Nat) :
    let l := [.arrive 0 65, .arrive 2 66, .irq 0, .work, .work, .work, .work] ++ cs.map (Ev.arrive 2)
    Idle (exec {} l) ∧ (exec {} l).out 2 = [] ∧ arrived 2 l = 66 :: cs := by
  have hg : ∀ (cs : List Nat) (s : St), Idle s → s.out 2 = [] → s.fifo 2 ≠ [] →
      Idle (exec s (cs.map (Ev.arrive 2))) ∧ (exec s (cs.map (Ev.arrive 2))).out 2 = [] := by
    intro cs
    induction cs with
    | nil => exact fun s h1 h2 _ => ⟨h1, h2⟩
    | cons c cs ih =>
      intro s h1 h2 h3
      refine ih (arrive s 2 c) ?_ h2 ?_
      · refine ⟨h1.1, h1.2.1, ?_, ?_⟩
        · show (s.pend 0 || (s.fifo 2).isEmpty) = false
          rw [h1.2.2.1]
          simpa using h3
        · exact h1.2.2.2
      · show s.fifo 2 ++ [c] ≠ []
        simp
  have h0 := hg cs (exec {} [.arrive 0 65, .arrive 2 66, .irq 0, .work, .work, .work, .work])
    ⟨rfl, rfl, rfl, rfl⟩ rfl (by decide)
  refine ⟨?_, ?_, ?_⟩
  · unfold exec at h0 ⊢
    rw [List.foldl_append]
    exact h0.1
  · unfold exec at h0 ⊢
    rw [List.foldl_append]
    exact h0.2
  · rw [arrived_append]
    have : ∀ cs : List Nat, arrived 2 (cs.map (Ev.arrive 2)) = cs := by
      intro cs
      induction cs with
      | nil => rfl
      | cons c cs ih => simp [arrived, ih]
    rw [this]
    rfl

end Verif.Serial
