/-!
# Kernel messages (kernel/printk.c)

Properties C122 and C123.

One processor.  Tasks print messages, and interrupt handlers print messages in the middle of anything,
also of other handlers.  A task is preempted between any two steps, except where preemption is
disabled and while a handler runs.  A step is one change of the shared state: the read of the state
of the ring buffer, the copy of bytes out of it and the compare-and-swap are one step, since the
latter fails if the state has changed.  The terminal is initialized, the kernel does not panic.

The text of a message is what `vsnprintk_with_truc_suffix` returns (see `Snprintk`).
-/
namespace Verif.Printk

/-- Where a call of `printk` is. -/
inductive Pc
  /-- after `try_set_first_printk_on_stack` (kernel/printk.c:394), preemption not disabled -/
  | got (own : Bool) (p b : List Nat)
  /-- 440-441: the first printk, with what is left to write -/
  | dir (todo : List (List Nat))
  /-- 219-249: the loop of `__printk_flush_ringbuf` -/
  | flush
  /-- 248: with bytes taken out of the ring buffer -/
  | flushOut (c : List Nat)
  /-- 458-459: not the first printk, with what is left to append -/
  | app (todo : List (List Nat))
  /-- 295-299: with `size` bytes reserved at `pos`. `off`: the same place, counted from the beginning
  (history, nothing reads it) -/
  | copy (pos off : Nat) (t : List Nat) (rest : List (List Nat))
  deriving DecidableEq, Repr

/-- kernel/printk.c:37-60: the ring buffer and its state; the screen; the calls in progress. -/
structure St where
  mem : Nat → Nat := fun _ => 0
  rpos : Nat := 0
  wpos : Nat := 0
  first : Bool := false
  newline : Bool := true
  out : List Nat := []                          -- what has been shown
  tasks : Nat → Option Pc := fun _ => none      -- the calls of the tasks
  irqs : List Pc := []                          -- those of interrupt handlers, the innermost first
  cur : Nat := 0                                -- the current task
  R : Nat := 0                                  -- history: bytes taken out of the ring buffer
  ring : List Nat := []                         -- history: bytes put into it
  log : List (List Nat) := []                   -- history: texts accepted
  calls : List (List Nat × List Nat) := []      -- history: the calls

/-- kernel/printk.c:87-96 `printk_calc_used` (`full` is never set: see `reserve`). -/
def used (N : Nat) (s : St) : Nat := (s.wpos + N - s.rpos) % N

/-- kernel/printk.c:274-299: store the bytes. -/
def store (N : Nat) (mem : Nat → Nat) (pos : Nat) : List Nat → Nat → Nat
  | [] => mem
  | x :: t => store N (fun i => if i = pos % N then x else mem i) (pos + 1) t

/-- kernel/printk.c:229-231: copy bytes out of the ring buffer. -/
def fetch (N : Nat) (mem : Nat → Nat) (pos : Nat) : Nat → List Nat
  | 0 => []
  | k + 1 => mem (pos % N) :: fetch N mem (pos + 1) k

/-- kernel/printk.c:255-300 `printk_append_to_ringbuf`, up to the copy. -/
def append (N : Nat) (s : St) (t : List Nat) (rest : List (List Nat)) : St × Option Pc :=
  if t = [] then ({ s with log := s.log ++ [t] }, some (.app rest))
  else if N ≤ used N s + t.length then
    ({ s with out := s.out ++ t, log := s.log ++ [t] }, some (.app rest))
  else
    ({ s with wpos := (s.wpos + t.length) % N, ring := s.ring ++ t, log := s.log ++ [t] },
      some (.copy s.wpos s.ring.length t rest))

/-- One step of a call: kernel/printk.c:431-463 and the functions it calls. `B`: the size of the
local buffer. -/
def exec (N B : Nat) (s : St) : Pc → St × Option Pc
  | .got true p b => (s, some (.dir [p, b]))
  | .got false p b => (s, some (.app [p, b]))
  | .dir [] => (s, some .flush)
  | .dir (t :: ts) => ({ s with out := s.out ++ t }, some (.dir ts))
  | .flush =>
    let n := min B (used N s)
    if n = 0 then ({ s with first := false }, none)
    else ({ s with rpos := (s.rpos + n) % N, R := s.R + n }, some (.flushOut (fetch N s.mem s.rpos n)))
  | .flushOut c => ({ s with out := s.out ++ c }, some .flush)
  | .app [] => (s, none)
  | .app (t :: ts) => append N s t ts
  | .copy pos _ t rest => ({ s with mem := store N s.mem pos t }, some (.app rest))

/-- The innermost call. -/
def St.top (s : St) : Option Pc :=
  match s.irqs with
  | [] => s.tasks s.cur
  | pc :: _ => some pc

/-- Replace the innermost call; `none`: it has returned. -/
def St.setTop (s : St) (o : Option Pc) : St :=
  match s.irqs with
  | [] => { s with tasks := fun t => if t = s.cur then o else s.tasks t }
  | _ :: rest => { s with irqs := o.toList ++ rest }

/-- kernel/printk.c:305-322 and 386-411: the call's first change of the state, and its prefix. -/
def enter (s : St) (p b : List Nat) : St × Pc :=
  let p' := if s.newline then p else []
  ({ s with first := true, newline := b.contains 10, calls := s.calls ++ [(p', b)],
            log := if s.first then s.log else s.log ++ [p', b] },
    .got (!s.first) p' b)

/-- What happens next. -/
inductive Ev
  | printk (p b : List Nat)      -- the current task calls printk
  | irq (p b : List Nat)         -- an interrupt handler does
  | step                         -- the innermost call goes on
  | switch (t : Nat)             -- the current task is preempted
  deriving DecidableEq, Repr

/-- Is preemption disabled at this point? -/
def Pc.locked : Pc → Bool
  | .got _ _ _ => false
  | _ => true

/-- Can the current task be preempted? -/
def preemptible : Option Pc → Bool
  | none => true
  | some pc => !pc.locked

/-- One step of the machine. -/
def step (N B : Nat) (s : St) : Ev → Option St
  | .printk p b =>
    if s.irqs = [] ∧ s.tasks s.cur = none then
      some { (enter s p b).1 with tasks := fun t => if t = s.cur then some (enter s p b).2 else s.tasks t }
    else none
  | .irq p b => some { (enter s p b).1 with irqs := (enter s p b).2 :: s.irqs }
  | .step =>
    match s.top with
    | none => none
    | some pc => some ((exec N B s pc).1.setTop (exec N B s pc).2)
  | .switch t =>
    if s.irqs = [] ∧ preemptible (s.tasks s.cur) = true then some { s with cur := t }
    else none

/-- What can happen, under a condition on the steps. -/
inductive ReachP (N B : Nat) (ok : St → Ev → Prop) : St → Prop
  | start : ReachP N B ok {}
  | step {s s' : St} {e : Ev} : ReachP N B ok s → ok s e → step N B s e = some s' → ReachP N B ok s'

/-- Run events. -/
def run (N B : Nat) (s : St) : List Ev → Option St
  | [] => some s
  | e :: es =>
    match step N B s e with
    | none => none
    | some s' => run N B s' es

/-! ## Specification -/

/-- No call in progress. -/
def St.Idle (s : St) : Prop := s.irqs = [] ∧ ∀ t, s.tasks t = none

/-- The texts of the calls: the prefixes and the messages. -/
def texts (calls : List (List Nat × List Nat)) : List (List Nat) := calls.flatMap fun c => [c.1, c.2]

/-- No task is preempted during a call, and the ring buffer is never full. -/
def Calm (N : Nat) (s : St) : Ev → Prop
  | .switch _ => s.tasks s.cur = none
  | .step =>
    match s.top with
    | some (.app (t :: _)) => (s.wpos + N - s.rpos) % N + t.length < N
    | _ => True
  | _ => True

/-! ## The ring buffer -/

theorem store_other {N : Nat} (t : List Nat) : ∀ (mem : Nat → Nat) (pos i : Nat),
    (∀ j < t.length, i ≠ (pos + j) % N) → store N mem pos t i = mem i := by
  induction t with
  | nil => intro _ _ _ _; rfl
  | cons x t ih =>
    intro mem pos i h
    show store N _ (pos + 1) t i = _
    rw [ih _ (pos + 1) i fun j hj => by
      have := h (j + 1) (by simp; omega)
      rwa [show pos + (j + 1) = pos + 1 + j by omega] at this]
    exact if_neg (h 0 (by simp))

theorem mod_inj {N a b : Nat} (h1 : a < b) (h2 : b < a + N) : a % N ≠ b % N := by
  intro h
  have h3 := Nat.div_add_mod a N
  have h4 := Nat.div_add_mod b N
  rw [h] at h3
  have hN : 0 < N := by omega
  have hlt : a / N < b / N := by
    rcases Nat.lt_or_ge (a / N) (b / N) with q | q
    · exact q
    · have := Nat.mul_le_mul_left N q
      omega
  have : N * (a / N + 1) ≤ N * (b / N) := Nat.mul_le_mul_left N hlt
  rw [Nat.mul_add] at this
  omega

theorem store_same {N : Nat} (t : List Nat) : ∀ (mem : Nat → Nat) (pos j : Nat), t.length ≤ N → (h : j < t.length) →
    store N mem pos t ((pos + j) % N) = t[j] := by
  induction t with
  | nil => intro _ _ j _ h; simp at h
  | cons x t ih =>
    intro mem pos j hN h
    have hl : t.length + 1 ≤ N := by simpa using hN
    show store N _ (pos + 1) t _ = _
    cases j with
    | zero =>
      rw [store_other t _ _ _ fun k hk => ?_]
      · exact if_pos rfl
      · exact mod_inj (by omega) (by omega)
    | succ j =>
      have := ih (fun i => if i = pos % N then x else mem i) (pos + 1) j (by omega) (by simpa using h)
      rw [show pos + (j + 1) = pos + 1 + j by omega, this]
      rfl

theorem store_mod {N : Nat} (t : List Nat) : ∀ (mem : Nat → Nat) (pos : Nat), store N mem (pos % N) t = store N mem pos t := by
  induction t with
  | nil => intro _ _; rfl
  | cons x t ih =>
    intro mem pos
    show store N _ (pos % N + 1) t = store N _ (pos + 1) t
    rw [← ih _ (pos % N + 1), ← ih _ (pos + 1), Nat.mod_mod, Nat.mod_add_mod]

theorem fetch_eq {N : Nat} (k : Nat) : ∀ (mem : Nat → Nat) (pos : Nat),
    fetch N mem pos k = (List.range' pos k).map fun i => mem (i % N) := by
  induction k with
  | zero => intro _ _; rfl
  | succ k ih =>
    intro mem pos
    show mem (pos % N) :: fetch N mem (pos + 1) k = _
    rw [ih, List.range'_succ]
    rfl

theorem fetch_mod {N : Nat} (k : Nat) : ∀ (mem : Nat → Nat) (pos : Nat), fetch N mem (pos % N) k = fetch N mem pos k := by
  induction k with
  | zero => intro _ _; rfl
  | succ k ih =>
    intro mem pos
    show mem (pos % N % N) :: fetch N mem (pos % N + 1) k = mem (pos % N) :: fetch N mem (pos + 1) k
    rw [Nat.mod_mod, ← ih _ (pos % N + 1), ← ih _ (pos + 1), Nat.mod_add_mod]

/-! ## The invariant -/

/-- The calls in progress, the innermost first. -/
def St.stack (s : St) : List Pc := s.irqs ++ (s.tasks s.cur).toList

/-- The first printk. -/
def Pc.own : Pc → Bool
  | .got o _ _ => o
  | .dir _ => true
  | .flush => true
  | .flushOut _ => true
  | .app _ => false
  | .copy _ _ _ _ => false

/-- What the first printk has still to show, apart from the ring buffer. -/
def Pc.pending : Pc → List Nat
  | .got true p b => p ++ b
  | .dir ts => ts.flatten
  | .flushOut c => c
  | _ => []

/-- What another one has still to append. -/
def Pc.left : Pc → List (List Nat)
  | .got false p b => [p, b]
  | .app ts => ts
  | .copy _ _ _ ts => ts
  | _ => []

/-- The reserved bytes of a call. -/
def Pc.Covers : Pc → Nat → Prop
  | .copy _ off t _, k => off ≤ k ∧ k < off + t.length
  | _, _ => False

def Pc.Good (N R : Nat) (ring : List Nat) : Pc → Prop
  | .copy pos off t _ => pos = off % N ∧ R ≤ off ∧ off + t.length ≤ ring.length ∧
      ∀ j (h : j < t.length), ring[off + j]? = some t[j]
  | _ => True

/-- The first printk is the outermost call; it has still to show what is left in the ring buffer. -/
def Shape (s : St) : List Pc → Prop
  | [] => s.first = false ∧ s.R = s.ring.length ∧ s.out = s.log.flatten
  | [o] => s.first = true ∧ o.own = true ∧ s.out ++ o.pending ++ s.ring.drop s.R = s.log.flatten
  | pc :: x :: xs => pc.own = false ∧ Shape s (x :: xs)

/-- The state of the ring buffer and of the calls. -/
structure Core (N : Nat) (s : St) (st : List Pc) : Prop where
  le : s.R ≤ s.ring.length
  lt : s.ring.length - s.R < N
  rp : s.rpos = s.R % N
  wp : s.wpos = s.ring.length % N
  good : ∀ pc ∈ st, pc.Good N s.R s.ring
  mem : ∀ k, s.R ≤ k → k < s.ring.length → some (s.mem (k % N)) = s.ring[k]? ∨ ∃ pc ∈ st, pc.Covers k
  shape : Shape s st
  calls : (s.log ++ st.flatMap Pc.left).Perm (texts s.calls)

structure Inv (N : Nat) (s : St) : Prop where
  others : ∀ t, t ≠ s.cur → s.tasks t = none
  core : Core N s s.stack

theorem used_eq {N : Nat} {s : St} (le : s.R ≤ s.ring.length) (lt : s.ring.length - s.R < N) (rp : s.rpos = s.R % N)
    (wp : s.wpos = s.ring.length % N) : used N s = s.ring.length - s.R := by
  unfold used
  rw [rp, wp]
  have hN : 0 < N := by omega
  have h1 := Nat.mod_lt s.R hN
  have h2 : (s.ring.length % N + N - s.R % N) % N = (s.ring.length + (N - s.R % N)) % N := by
    rw [Nat.add_sub_assoc (by omega), Nat.mod_add_mod]
  rw [h2]
  have h3 := Nat.div_add_mod s.R N
  have h4 : s.ring.length + (N - s.R % N) = (s.ring.length - s.R) + N * (s.R / N + 1) := by
    rw [Nat.mul_add]
    omega
  rw [h4, Nat.add_mul_mod_self_left, Nat.mod_eq_of_lt lt]

theorem shape_congr {s s' : St} (h1 : s'.first = s.first) (h2 : s'.R = s.R) (h3 : s'.ring = s.ring) (h4 : s'.out = s.out)
    (h5 : s'.log.flatten = s.log.flatten) (st : List Pc) (h : Shape s st) : Shape s' st := by
  induction st with
  | nil => exact ⟨by rw [h1]; exact h.1, by rw [h2, h3]; exact h.2.1, by rw [h4, h5]; exact h.2.2⟩
  | cons pc st ih =>
    cases st with
    | nil => exact ⟨by rw [h1]; exact h.1, h.2.1, by rw [h4, h5, h3, h2]; exact h.2.2⟩
    | cons x xs => exact ⟨h.1, ih h.2⟩

theorem shape_ring {s s' : St} {t : List Nat} (hle : s.R ≤ s.ring.length) (h1 : s'.first = s.first) (h2 : s'.R = s.R) (h3 : s'.ring = s.ring ++ t)
    (h4 : s'.out = s.out) (h5 : s'.log = s.log ++ [t]) (x : Pc) (st : List Pc) (h : Shape s (x :: st)) : Shape s' (x :: st) := by
  induction st generalizing x with
  | nil =>
    refine ⟨by rw [h1]; exact h.1, h.2.1, ?_⟩
    rw [h4, h5, h3, h2, List.drop_append_of_le_length hle, List.flatten_append, ← h.2.2]
    simp
  | cons y ys ih => exact ⟨h.1, ih y h.2⟩

/-- A call which is not the first is not the outermost one. -/
theorem shape_up {s : St} {pc : Pc} {xs : List Pc} (h : Shape s (pc :: xs)) (hp : pc.own = false) :
    ∃ y ys, xs = y :: ys ∧ Shape s (y :: ys) := by
  cases xs with
  | nil => exact absurd h.2.1 (by rw [hp]; decide)
  | cons y ys => exact ⟨y, ys, rfl, h.2⟩

theorem shape_own {s : St} {pc : Pc} {xs : List Pc} (h : Shape s (pc :: xs)) (hp : pc.own = true) :
    xs = [] ∧ s.first = true ∧ s.out ++ pc.pending ++ s.ring.drop s.R = s.log.flatten := by
  cases xs with
  | nil => exact ⟨rfl, h.1, h.2.2⟩
  | cons y ys => exact absurd h.1 (by rw [hp]; decide)

/-- Only the innermost call changes, and nothing of the ring buffer. -/
theorem Core.swap {N : Nat} {s s' : St} {pc pc' : Pc} {xs : List Pc} (h : Core N s (pc :: xs))
    (hm : s'.mem = s.mem) (hr : s'.rpos = s.rpos) (hw : s'.wpos = s.wpos) (hR : s'.R = s.R) (hg : s'.ring = s.ring) (hc : s'.calls = s.calls)
    (n1 : ∀ k, ¬ pc.Covers k) (n2 : pc'.Good N s.R s.ring) (hs : Shape s' (pc' :: xs))
    (hl : (s'.log ++ pc'.left).Perm (s.log ++ pc.left)) : Core N s' (pc' :: xs) := by
  refine ⟨by rw [hR, hg]; exact h.le, by rw [hR, hg]; exact h.lt, by rw [hR, hr]; exact h.rp, by rw [hg, hw]; exact h.wp, ?_, ?_, hs, ?_⟩
  · intro q hq
    rw [hR, hg]
    rcases List.mem_cons.1 hq with rfl | hq
    · exact n2
    · exact h.good q (List.mem_cons_of_mem _ hq)
  · intro k hk1 hk2
    rw [hR] at hk1
    rw [hg] at hk2
    rw [hm, hg]
    rcases h.mem k hk1 hk2 with q | ⟨q, hq, hcov⟩
    · exact .inl q
    · rcases List.mem_cons.1 hq with rfl | hq
      · exact absurd hcov (n1 k)
      · exact .inr ⟨q, List.mem_cons_of_mem _ hq, hcov⟩
  · rw [hc]
    refine List.Perm.trans ?_ h.calls
    rw [List.flatMap_cons, List.flatMap_cons, ← List.append_assoc, ← List.append_assoc]
    exact hl.append_right _

theorem exec_core {N B : Nat} {s : St} {pc : Pc} {xs : List Pc} (hB : 1 ≤ B) (h : Core N s (pc :: xs))
    (hok : ∀ t ts, pc = .app (t :: ts) → used N s + t.length < N) :
    Core N (exec N B s pc).1 ((exec N B s pc).2.toList ++ xs) := by
  have hN : 0 < N := by have := h.lt; omega
  have hu := used_eq h.le h.lt h.rp h.wp
  cases pc with
  | got o p b =>
    cases o with
    | true =>
      obtain ⟨e1, e2, e3⟩ := shape_own h.shape rfl
      subst e1
      refine h.swap (pc' := .dir [p, b]) rfl rfl rfl rfl rfl rfl (fun _ q => q) trivial ⟨e2, rfl, ?_⟩ ?_
      · show s.out ++ [p, b].flatten ++ s.ring.drop s.R = s.log.flatten
        rw [← e3]
        show _ = s.out ++ (p ++ b) ++ _
        simp
      · exact List.Perm.refl _
    | false =>
      obtain ⟨y, ys, rfl, e⟩ := shape_up h.shape rfl
      exact h.swap (pc' := .app [p, b]) rfl rfl rfl rfl rfl rfl (fun _ q => q) trivial ⟨rfl, e⟩ (List.Perm.refl _)
  | dir ts =>
    obtain ⟨e1, e2, e3⟩ := shape_own h.shape rfl
    subst e1
    cases ts with
    | nil => exact h.swap (pc' := .flush) rfl rfl rfl rfl rfl rfl (fun _ q => q) trivial ⟨e2, rfl, e3⟩ (List.Perm.refl _)
    | cons t ts =>
      refine h.swap (s' := { s with out := s.out ++ t }) (pc' := .dir ts) rfl rfl rfl rfl rfl rfl (fun _ q => q) trivial ⟨e2, rfl, ?_⟩ (List.Perm.refl _)
      show s.out ++ t ++ ts.flatten ++ s.ring.drop s.R = s.log.flatten
      rw [← e3]
      show _ = s.out ++ (t ++ ts.flatten) ++ _
      simp
  | flush =>
    obtain ⟨e1, e2, e3⟩ := shape_own h.shape rfl
    subst e1
    unfold exec
    dsimp only
    rw [hu]
    by_cases h0 : min B (s.ring.length - s.R) = 0
    · rw [if_pos h0]
      have hle := h.le
      have hRl : s.R = s.ring.length := by omega
      refine ⟨h.le, h.lt, h.rp, h.wp, (fun _ q => by cases q), ?_, ⟨rfl, hRl, ?_⟩, ?_⟩
      · intro k hk1 hk2
        have hk1 : s.R ≤ k := hk1
        have hk2 : k < s.ring.length := hk2
        omega
      · show s.out = s.log.flatten
        rw [← e3, hRl]
        show _ = s.out ++ [] ++ _
        simp
      · exact h.calls
    · rw [if_neg h0]
      generalize hn : min B (s.ring.length - s.R) = n at h0
      have hle := h.le
      have hlt := h.lt
      have hall : ∀ k, s.R ≤ k → k < s.ring.length → some (s.mem (k % N)) = s.ring[k]? := by
        intro k hk1 hk2
        rcases h.mem k hk1 hk2 with q | ⟨q, hq, hcov⟩
        · exact q
        · rcases List.mem_cons.1 hq with rfl | hq
          · exact hcov.elim
          · cases hq
      have hf : fetch N s.mem s.rpos n = (s.ring.drop s.R).take n := by
        rw [h.rp, fetch_mod, fetch_eq]
        apply List.ext_getElem?
        intro j
        rw [List.getElem?_map]
        by_cases hj : j < n
        · rw [List.getElem?_range' hj, List.getElem?_take_of_lt hj, List.getElem?_drop, ← hall (s.R + j) (by omega) (by omega)]
          simp
        · rw [List.getElem?_eq_none (by simp; omega), List.getElem?_eq_none (by simp; omega)]
          rfl
      refine ⟨show s.R + n ≤ s.ring.length by omega, show s.ring.length - (s.R + n) < N by omega, ?_, h.wp, ?_, ?_, ⟨e2, rfl, ?_⟩, ?_⟩
      · show (s.rpos + n) % N = (s.R + n) % N
        rw [h.rp, Nat.mod_add_mod]
      · intro q hq
        rcases List.mem_cons.1 hq with rfl | hq
        · trivial
        · cases hq
      · intro k hk1 hk2
        have hk1 : s.R + n ≤ k := hk1
        exact .inl (hall k (by omega) hk2)
      · show s.out ++ fetch N s.mem s.rpos n ++ s.ring.drop (s.R + n) = s.log.flatten
        rw [hf, ← e3, List.append_assoc, ← List.drop_drop, List.take_append_drop]
        show _ = s.out ++ [] ++ _
        simp
      · exact h.calls
  | flushOut c =>
    obtain ⟨e1, e2, e3⟩ := shape_own h.shape rfl
    subst e1
    refine h.swap (s' := { s with out := s.out ++ c }) (pc' := .flush) rfl rfl rfl rfl rfl rfl (fun _ q => q) trivial ⟨e2, rfl, ?_⟩ (List.Perm.refl _)
    show s.out ++ c ++ [] ++ _ = _
    rw [← e3, List.append_nil]
    rfl
  | app ts =>
    obtain ⟨y, ys, rfl, e⟩ := shape_up h.shape rfl
    cases ts with
    | nil =>
      refine ⟨h.le, h.lt, h.rp, h.wp, fun q hq => h.good q (List.mem_cons_of_mem _ hq), ?_, e, h.calls⟩
      intro k hk1 hk2
      rcases h.mem k hk1 hk2 with q | ⟨q, hq, hcov⟩
      · exact .inl q
      · rcases List.mem_cons.1 hq with rfl | hq
        · exact hcov.elim
        · exact .inr ⟨q, hq, hcov⟩
    | cons t ts =>
      have hroom := hok t ts rfl
      show Core N (append N s t ts).1 ((append N s t ts).2.toList ++ y :: ys)
      unfold append
      by_cases h0 : t = []
      · rw [if_pos h0]
        subst h0
        refine h.swap (s' := { s with log := s.log ++ [[]] }) (pc' := .app ts) rfl rfl rfl rfl rfl rfl (fun _ q => q) trivial ⟨rfl, ?_⟩ ?_
        · refine shape_congr (s := s) ?_ ?_ ?_ ?_ ?_ _ e <;> first | rfl | simp
        · show (s.log ++ [[]] ++ ts).Perm (s.log ++ [] :: ts)
          simp
      · rw [if_neg h0, if_neg (by omega)]
        have hle := h.le
        rw [hu] at hroom
        refine ⟨?_, ?_, h.rp, ?_, ?_, ?_, ⟨rfl, by refine shape_ring (s := s) (t := t) h.le ?_ ?_ ?_ ?_ ?_ y ys e <;> rfl⟩, ?_⟩
        · show s.R ≤ (s.ring ++ t).length
          rw [List.length_append]; omega
        · show (s.ring ++ t).length - s.R < N
          rw [List.length_append]; omega
        · show (s.wpos + t.length) % N = (s.ring ++ t).length % N
          rw [h.wp, Nat.mod_add_mod, List.length_append]
        · intro q hq
          rcases List.mem_cons.1 hq with rfl | hq
          · refine ⟨h.wp, h.le, by rw [List.length_append]; exact Nat.le_refl _, fun j hj => ?_⟩
            rw [List.getElem?_append_right (by omega), Nat.add_sub_cancel_left, List.getElem?_eq_getElem hj]
          · have hg := h.good q (List.mem_cons_of_mem _ hq)
            cases q with
            | copy pos off t' rest =>
              obtain ⟨g1, g2, g3, g4⟩ := hg
              refine ⟨g1, g2, by rw [List.length_append]; omega, fun j hj => ?_⟩
              rw [List.getElem?_append_left (by omega)]
              exact g4 j hj
            | _ => trivial
        · intro k hk1 hk2
          have hk2 : k < (s.ring ++ t).length := hk2
          rw [List.length_append] at hk2
          by_cases hk : k < s.ring.length
          · rcases h.mem k hk1 hk with q | ⟨q, hq, hcov⟩
            · left
              show some (s.mem (k % N)) = (s.ring ++ t)[k]?
              rw [List.getElem?_append_left hk]
              exact q
            · rcases List.mem_cons.1 hq with rfl | hq
              · exact hcov.elim
              · exact .inr ⟨q, List.mem_cons_of_mem _ hq, hcov⟩
          · exact .inr ⟨_, List.mem_cons_self, ⟨by omega, hk2⟩⟩
        · refine List.Perm.trans ?_ h.calls
          show (s.log ++ [t] ++ (ts ++ (y :: ys).flatMap Pc.left)).Perm (s.log ++ (t :: ts ++ (y :: ys).flatMap Pc.left))
          simp
  | copy pos off t rest =>
    obtain ⟨y, ys, rfl, e⟩ := shape_up h.shape rfl
    obtain ⟨g1, g2, g3, g4⟩ := h.good _ List.mem_cons_self
    have hlt := h.lt
    have hst : store N s.mem pos t = store N s.mem off t := by rw [g1, store_mod]
    refine ⟨h.le, h.lt, h.rp, h.wp, ?_, ?_, ⟨rfl, by refine shape_congr (s := s) ?_ ?_ ?_ ?_ ?_ _ e <;> rfl⟩, h.calls⟩
    · intro q hq
      rcases List.mem_cons.1 hq with rfl | hq
      · trivial
      · exact h.good q (List.mem_cons_of_mem _ hq)
    · intro k hk1 hk2
      show some (store N s.mem pos t (k % N)) = s.ring[k]? ∨ _
      rw [hst]
      by_cases hk : off ≤ k ∧ k < off + t.length
      · left
        obtain ⟨j, rfl⟩ : ∃ j, k = off + j := ⟨k - off, by omega⟩
        rw [store_same t s.mem off j (by omega) (by omega), g4 j (by omega)]
      · rw [store_other t s.mem off (k % N) fun j hj => ?_]
        · rcases h.mem k hk1 hk2 with q | ⟨q, hq, hcov⟩
          · exact .inl q
          · rcases List.mem_cons.1 hq with rfl | hq
            · exact absurd hcov hk
            · exact .inr ⟨q, List.mem_cons_of_mem _ hq, hcov⟩
        · have hk2 : k < s.ring.length := hk2
          have hk1 : s.R ≤ k := hk1
          rcases Nat.lt_or_ge k off with q | q
          · exact mod_inj (by omega) (by omega)
          · exact Ne.symm (mod_inj (by omega) (by omega))

theorem setTop_core {N : Nat} {s : St} {st : List Pc} (o : Option Pc) (h : Core N s st) : Core N (s.setTop o) st := by
  have hs : Shape (s.setTop o) st := by
    refine shape_congr (s := s) ?_ ?_ ?_ ?_ ?_ _ h.shape <;> (unfold St.setTop; split <;> rfl)
  unfold St.setTop at *
  cases hi : s.irqs with
  | nil => rw [hi] at hs; exact ⟨h.le, h.lt, h.rp, h.wp, h.good, h.mem, hs, h.calls⟩
  | cons _ _ => rw [hi] at hs; exact ⟨h.le, h.lt, h.rp, h.wp, h.good, h.mem, hs, h.calls⟩

theorem top_stack {s : St} {pc : Pc} (h : s.top = some pc) : ∃ xs, s.stack = pc :: xs ∧
    ∀ (s1 : St) (o : Option Pc), s1.irqs = s.irqs → s1.tasks = s.tasks → s1.cur = s.cur →
      (s1.setTop o).stack = o.toList ++ xs ∧ (s1.setTop o).cur = s.cur ∧
      ∀ t, t ≠ s.cur → (s1.setTop o).tasks t = s.tasks t := by
  unfold St.top at h
  unfold St.stack
  cases hi : s.irqs with
  | nil =>
    rw [hi] at h
    refine ⟨[], by rw [show s.tasks s.cur = some pc from h]; rfl, fun s1 o h1 h2 h3 => ?_⟩
    unfold St.setTop
    rw [h1]
    dsimp only
    rw [if_pos rfl]
    refine ⟨by simp, h3, fun t ht => ?_⟩
    rw [if_neg (by rw [h3]; exact ht), h2]
  | cons x rest =>
    rw [hi] at h
    cases h
    refine ⟨rest ++ (s.tasks s.cur).toList, rfl, fun s1 o h1 h2 h3 => ?_⟩
    unfold St.setTop
    rw [h1]
    dsimp only
    rw [h2, h3]
    exact ⟨by simp, rfl, fun _ _ => rfl⟩

theorem exec_frame (N B : Nat) (s : St) (pc : Pc) : (exec N B s pc).1.irqs = s.irqs ∧ (exec N B s pc).1.tasks = s.tasks ∧
    (exec N B s pc).1.cur = s.cur := by
  unfold exec
  split
  · exact ⟨rfl, rfl, rfl⟩
  · exact ⟨rfl, rfl, rfl⟩
  · exact ⟨rfl, rfl, rfl⟩
  · exact ⟨rfl, rfl, rfl⟩
  · dsimp only; split <;> exact ⟨rfl, rfl, rfl⟩
  · exact ⟨rfl, rfl, rfl⟩
  · exact ⟨rfl, rfl, rfl⟩
  · unfold append; split
    · exact ⟨rfl, rfl, rfl⟩
    · split <;> exact ⟨rfl, rfl, rfl⟩
  · exact ⟨rfl, rfl, rfl⟩

theorem shape_first {s : St} (st : List Pc) (h : Shape s st) : s.first = true ↔ st ≠ [] := by
  induction st with
  | nil => rw [h.1]; simp
  | cons pc st ih =>
    cases st with
    | nil => rw [h.1]; simp
    | cons x xs => have := ih h.2; rw [this]; simp

theorem enter_core {N : Nat} {s : St} {st : List Pc} (p b : List Nat) (h : Core N s st) :
    Core N (enter s p b).1 ((enter s p b).2 :: st) := by
  unfold enter
  dsimp only
  generalize (if s.newline = true then p else []) = p'
  have hc : ∀ l : List (List Nat), (l.Perm (texts s.calls ++ [p', b])) → l.Perm (texts (s.calls ++ [(p', b)])) := by
    intro l hl
    have : texts (s.calls ++ [(p', b)]) = texts s.calls ++ [p', b] := by unfold texts; simp
    rw [this]; exact hl
  cases hf : s.first with
  | false =>
    have hst : st = [] := by
      have := shape_first st h.shape
      rw [hf] at this
      exact Classical.byContradiction fun q => absurd (this.2 q) (by decide)
    subst hst
    obtain ⟨_, e1, e2⟩ := h.shape
    refine ⟨h.le, h.lt, h.rp, h.wp, ?_, ?_, ⟨rfl, rfl, ?_⟩, ?_⟩
    · intro q hq
      rcases List.mem_cons.1 hq with rfl | hq
      · trivial
      · cases hq
    · intro k hk1 hk2
      rcases h.mem k hk1 hk2 with q | ⟨q, hq, _⟩
      · exact .inl q
      · cases hq
    · show s.out ++ (p' ++ b) ++ s.ring.drop s.R = (s.log ++ [p', b]).flatten
      rw [e2, e1]
      simp
    · apply hc
      show (s.log ++ [p', b] ++ []).Perm _
      have := h.calls
      simp only [List.flatMap_nil, List.append_nil] at this ⊢
      exact this.append_right _
  | true =>
    have hst : st ≠ [] := (shape_first st h.shape).1 hf
    obtain ⟨y, ys, rfl⟩ : ∃ y ys, st = y :: ys := by
      cases st with
      | nil => exact absurd rfl hst
      | cons y ys => exact ⟨y, ys, rfl⟩
    refine ⟨h.le, h.lt, h.rp, h.wp, ?_, ?_, ⟨rfl, by refine shape_congr (s := s) ?_ ?_ ?_ ?_ ?_ _ h.shape <;> first | rfl | exact hf.symm⟩, ?_⟩
    · intro q hq
      rcases List.mem_cons.1 hq with rfl | hq
      · trivial
      · exact h.good q hq
    · intro k hk1 hk2
      rcases h.mem k hk1 hk2 with q | ⟨q, hq, hcov⟩
      · exact .inl q
      · exact .inr ⟨q, List.mem_cons_of_mem _ hq, hcov⟩
    · apply hc
      show (s.log ++ ([p', b] ++ (y :: ys).flatMap Pc.left)).Perm _
      refine List.Perm.trans ?_ (h.calls.append_right [p', b])
      rw [List.append_assoc]
      exact List.Perm.append_left _ List.perm_append_comm

theorem core_with {N : Nat} {s s' : St} {st : List Pc} (h : Core N s st) (h1 : s'.mem = s.mem) (h2 : s'.rpos = s.rpos) (h3 : s'.wpos = s.wpos)
    (h4 : s'.first = s.first) (h5 : s'.R = s.R) (h6 : s'.ring = s.ring) (h7 : s'.log = s.log) (h8 : s'.calls = s.calls) (h9 : s'.out = s.out) :
    Core N s' st := by
  refine ⟨by rw [h5, h6]; exact h.le, by rw [h5, h6]; exact h.lt, by rw [h2, h5]; exact h.rp, by rw [h3, h6]; exact h.wp, ?_, ?_,
    shape_congr h4 h5 h6 h9 (by rw [h7]) _ h.shape, by rw [h7, h8]; exact h.calls⟩
  · rw [h5, h6]; exact h.good
  · rw [h5, h6, h1]; exact h.mem

theorem enter_frame (s : St) (p b : List Nat) : (enter s p b).1.irqs = s.irqs ∧ (enter s p b).1.tasks = s.tasks ∧
    (enter s p b).1.cur = s.cur := ⟨rfl, rfl, rfl⟩

theorem inv_step {N B : Nat} {s s' : St} {e : Ev} (hB : 1 ≤ B) (h : Inv N s) (hok : Calm N s e) (hs : step N B s e = some s') : Inv N s' := by
  cases e with
  | printk p b =>
    dsimp only [step] at hs
    split at hs
    · rename_i hc
      cases hs
      have hst : s.stack = [] := by unfold St.stack; rw [hc.1, hc.2]; rfl
      have hcore := h.core
      rw [hst] at hcore
      refine ⟨fun t ht => ?_, ?_⟩
      · show (if t = s.cur then _ else s.tasks t) = none
        have ht : t ≠ s.cur := ht
        rw [if_neg ht]
        exact h.others t ht
      · have e1 : St.stack { (enter s p b).1 with tasks := fun t => if t = s.cur then some (enter s p b).2 else s.tasks t } =
            [(enter s p b).2] := by
          show s.irqs ++ (if s.cur = s.cur then some (enter s p b).2 else s.tasks s.cur).toList = _
          rw [hc.1, if_pos rfl]
          rfl
        rw [e1]
        exact core_with (enter_core p b hcore) rfl rfl rfl rfl rfl rfl rfl rfl rfl
    · cases hs
  | irq p b =>
    cases hs
    refine ⟨h.others, ?_⟩
    show Core N _ ((enter s p b).2 :: s.stack)
    exact core_with (enter_core p b h.core) rfl rfl rfl rfl rfl rfl rfl rfl rfl
  | step =>
    dsimp only [step] at hs
    cases ht : s.top with
    | none => rw [ht] at hs; cases hs
    | some pc =>
      rw [ht] at hs
      cases hs
      obtain ⟨xs, e1, e2⟩ := top_stack ht
      obtain ⟨f1, f2, f3⟩ := exec_frame N B s pc
      obtain ⟨g1, g2, g3⟩ := e2 (exec N B s pc).1 (exec N B s pc).2 f1 f2 f3
      refine ⟨fun t ht' => ?_, ?_⟩
      · rw [g2] at ht'
        rw [g3 t ht']
        exact h.others t ht'
      · rw [g1]
        apply setTop_core
        have hcore := h.core
        rw [e1] at hcore
        refine exec_core hB hcore fun t ts hpc => ?_
        unfold Calm at hok
        rw [ht, hpc] at hok
        exact hok
  | switch t =>
    dsimp only [step] at hs
    split at hs
    · rename_i hc
      cases hs
      have hn : ∀ u, s.tasks u = none := fun u => by
        by_cases hu : u = s.cur
        · rw [hu]; exact hok
        · exact h.others u hu
      refine ⟨fun u _ => hn u, ?_⟩
      have e1 : St.stack { s with cur := t } = s.stack := by
        show s.irqs ++ (s.tasks t).toList = s.irqs ++ (s.tasks s.cur).toList
        rw [hn t, hn s.cur]
      rw [e1]
      exact core_with h.core rfl rfl rfl rfl rfl rfl rfl rfl rfl
    · cases hs

theorem inv_start {N : Nat} (hN : 1 ≤ N) : Inv N {} := by
  refine ⟨fun _ _ => rfl, ⟨Nat.le_refl _, hN, ?_, ?_, (fun _ q => by cases q), fun k _ hk => ?_, ⟨rfl, rfl, rfl⟩, List.Perm.refl _⟩⟩
  · show 0 = 0 % N; simp
  · show 0 = 0 % N; simp
  · exact absurd hk (Nat.not_lt_zero k)

theorem inv_reach {N B : Nat} (hN : 1 ≤ N) (hB : 1 ≤ B) {s : St} (h : ReachP N B (Calm N) s) : Inv N s := by
  induction h with
  | start => exact inv_start hN
  | step _ hok hs ih => exact inv_step hB ih hok hs

theorem shape_out {s : St} (st : List Pc) (h : Shape s st) : s.out <+: s.log.flatten := by
  induction st with
  | nil => rw [h.2.2]; exact List.prefix_refl _
  | cons pc st ih =>
    cases st with
    | nil => rw [← h.2.2, List.append_assoc]; exact List.prefix_append _ _
    | cons x xs => exact ih h.2

/-- C122: whatever tasks and interrupt handlers print, in whatever order, nested however deep: what is
shown is at any moment a part, from the beginning, of the texts accepted, whole and in order. -/
theorem nothing_garbled_partial {N B : Nat} (hN : 1 ≤ N) (hB : 1 ≤ B) {s : St} (h : ReachP N B (Calm N) s) :
    s.out <+: s.log.flatten :=
  shape_out _ (inv_reach hN hB h).core.shape

/-- C122: once no call is in progress everything has been shown: the texts accepted are exactly those
of the calls, each one once, and all have been shown, in order, and nothing else. -/
theorem all_shown_partial {N B : Nat} (hN : 1 ≤ N) (hB : 1 ≤ B) {s : St} (h : ReachP N B (Calm N) s) (hi : s.Idle) :
    s.log.Perm (texts s.calls) ∧ s.out = s.log.flatten := by
  have inv := inv_reach hN hB h
  have hst : s.stack = [] := by unfold St.stack; rw [hi.1, hi.2]; rfl
  have hc := inv.core
  rw [hst] at hc
  refine ⟨?_, hc.shape.2.2⟩
  have := hc.calls
  simpa using this

/-- How many steps a call still needs. -/
def Pc.need (ring : Nat) : Pc → Nat
  | .got true _ _ => 2 * ring + 5
  | .got false _ _ => 6
  | .dir ts => 2 * ring + ts.length + 2
  | .flush => 2 * ring + 1
  | .flushOut _ => 2 * ring + 2
  | .app ts => 2 * ts.length + 1
  | .copy _ _ _ ts => 2 * ts.length + 2

/-- C123: a call always goes on; without further interrupts every call ends. -/
theorem calls_end {N B : Nat} (hN : 1 ≤ N) (hB : 1 ≤ B) {s : St} (h : ReachP N B (Calm N) s) {pc : Pc} (ht : s.top = some pc) :
    ∃ s', step N B s .step = some s' ∧
      ((exec N B s pc).2 = none ∨ ∃ pc', (exec N B s pc).2 = some pc' ∧
        pc'.need (used N (exec N B s pc).1) < pc.need (used N s)) := by
  have inv := inv_reach hN hB h
  have hc := inv.core
  refine ⟨_, by unfold step; rw [ht], ?_⟩
  cases pc with
  | got o p b =>
    cases o with
    | true => exact .inr ⟨_, rfl, by show 2 * used N s + 2 + 2 < 2 * used N s + 5; omega⟩
    | false => exact .inr ⟨_, rfl, by show 2 * 2 + 1 < 6; omega⟩
  | dir ts =>
    cases ts with
    | nil => exact .inr ⟨_, rfl, by show 2 * used N s + 1 < 2 * used N s + 0 + 2; omega⟩
    | cons t ts => exact .inr ⟨_, rfl, by show 2 * used N s + ts.length + 2 < 2 * used N s + (ts.length + 1) + 2; omega⟩
  | flush =>
    have hu := used_eq hc.le hc.lt hc.rp hc.wp
    unfold exec
    dsimp only
    by_cases h0 : min B (used N s) = 0
    · rw [if_pos h0]; exact .inl rfl
    · rw [if_neg h0]
      generalize hn : min B (used N s) = n at h0
      refine .inr ⟨_, rfl, ?_⟩
      have hle := hc.le
      have hlt := hc.lt
      have := used_eq (N := N) (s := { s with rpos := (s.rpos + n) % N, R := s.R + n })
        (show s.R + n ≤ s.ring.length by omega) (show s.ring.length - (s.R + n) < N by omega)
        (show (s.rpos + n) % N = (s.R + n) % N by rw [hc.rp, Nat.mod_add_mod]) hc.wp
      dsimp only
      rw [this, hu]
      show 2 * (s.ring.length - (s.R + n)) + 2 < 2 * (s.ring.length - s.R) + 1
      omega
  | flushOut c => exact .inr ⟨_, rfl, by show 2 * used N s + 1 < 2 * used N s + 2; omega⟩
  | app ts =>
    cases ts with
    | nil => exact .inl rfl
    | cons t ts =>
      right
      show ∃ pc', (append N s t ts).2 = some pc' ∧ _ < 2 * (ts.length + 1) + 1
      unfold append
      split
      · exact ⟨_, rfl, by show 2 * ts.length + 1 < _; omega⟩
      · split
        · exact ⟨_, rfl, by show 2 * ts.length + 1 < _; omega⟩
        · exact ⟨_, rfl, by show 2 * ts.length + 2 < _; omega⟩
  | copy pos off t ts => exact .inr ⟨_, rfl, by show 2 * ts.length + 1 < 2 * ts.length + 2; omega⟩

/-! ## What goes wrong -/

/-- The bytes of a text. -/
def bytes (s : String) : List Nat := s.toList.map Char.toNat

/-- Some steps. -/
def steps (n : Nat) : List Ev := List.replicate n .step

/-- The current task is preempted after the first step of its call, another one prints a message and
is preempted at the same place, the first one goes on to the end, then the other one. -/
def stuckRun : List Ev :=
  [.printk [] (bytes "a\n"), .switch 1, .printk [] (bytes "b\n"), .switch 0] ++ steps 5 ++ [.switch 1] ++ steps 5

/-- What can be seen of a state: are tasks 0 and 1 and all handlers outside of printk, the calls made,
what was shown. -/
structure Seen where
  idle : Bool
  calls : List (List Nat × List Nat)
  out : List Nat
  deriving DecidableEq

def see (s : St) : Seen := ⟨s.irqs.isEmpty && (s.tasks 0).isNone && (s.tasks 1).isNone, s.calls, s.out⟩

/-- C123 fails: both calls have returned, and the second message has not been shown: it stays in the
ring buffer until somebody prints another one. -/
theorem message_stuck_violated : (run 8192 224 {} stuckRun).map see =
    some ⟨true, [([], bytes "a\n"), ([], bytes "b\n")], bytes "a\n"⟩ := by decide +kernel

/-- The same, but an interrupt handler prints a message while the second task has reserved its bytes
and not yet stored them. -/
def garbageRun : List Ev :=
  [.printk [] (bytes "a\n"), .switch 1, .printk [] (bytes "b\n"), .switch 0] ++ steps 5 ++ [.switch 1] ++ steps 3 ++
    [.irq [] (bytes "c\n")] ++ steps 7 ++ steps 2

/-- C122 fails: the bytes which were in the buffer before are shown instead of the message, which is
lost. -/
theorem garbage_violated : (run 8192 224 {} garbageRun).map see =
    some ⟨true, [([], bytes "a\n"), ([], bytes "b\n"), ([], bytes "c\n")], bytes "a\n" ++ bytes "c\n" ++ [0, 0]⟩ := by
  decide +kernel

/-- C122 fails: the message of an interrupt handler gets between the prefix and the text of
another. -/
theorem message_torn_violated : ((run 8192 224 {} ([.printk (bytes "[1] ") (bytes "a\n"), .irq (bytes "[2] ") (bytes "b")] ++ steps 3 ++
    [.irq (bytes "[3] ") (bytes "c\n")] ++ steps 5 ++ steps 3 ++ steps 7)).map fun s => (s.irqs, s.tasks 0, s.out)) =
    some ([], none, bytes "[1] a\n[2] c\nb") := by decide +kernel

/-- A message of 223 bytes. -/
def long (c : Nat) : List Nat := List.replicate 222 c ++ [10]

/-- The messages of a burst of interrupts, all during one call. -/
def burst : Nat → List Ev
  | 0 => []
  | n + 1 => burst n ++ [.irq [] (long (65 + n))] ++ steps 5

/-- C122 fails: when the ring buffer is full a message is shown before those printed earlier, in the
middle of another one. -/
theorem out_of_order_violated :
    ((run 8192 224 {} ([.printk (bytes "[1] ") (bytes "a\n"), .step, .step] ++ burst 36 ++ [.irq [] (long 46)] ++ steps 3)).map
      fun s => s.out) = some (bytes "[1] " ++ long 46) := by decide +kernel

/-- C122 fails: after a message with a newline in the middle, the next one's prefix is put in the
middle of a line. -/
theorem prefix_in_line_violated :
    ((run 8192 224 {} ([.printk (bytes "[1] ") (bytes "a\nb")] ++ steps 5 ++ [.printk (bytes "[2] ") (bytes "c\n")] ++ steps 5)).map
      fun s => s.out) = some (bytes "[1] a\nb[2] c\n") := by decide +kernel

/-- Is every step as `Calm` requires? -/
def calmB (N : Nat) (s : St) : Ev → Bool
  | .switch _ => s.tasks s.cur == none
  | .step =>
    match s.top with
    | some (.app (t :: _)) => decide ((s.wpos + N - s.rpos) % N + t.length < N)
    | _ => true
  | _ => true

def calmRun (N B : Nat) (s : St) : List Ev → Bool
  | [] => true
  | e :: es => calmB N s e && (match step N B s e with | none => false | some s' => calmRun N B s' es)

theorem calm_of {N : Nat} {s : St} {e : Ev} (h : calmB N s e = true) : Calm N s e := by
  unfold calmB at h
  unfold Calm
  cases e with
  | printk _ _ => trivial
  | irq _ _ => trivial
  | switch _ => simpa using h
  | step =>
    dsimp only at h ⊢
    split at h
    · simpa using h
    · trivial

theorem reach_run {N B : Nat} (es : List Ev) : ∀ {s s' : St}, ReachP N B (Calm N) s → calmRun N B s es = true →
    run N B s es = some s' → ReachP N B (Calm N) s' := by
  induction es with
  | nil => intro s s' h _ hr; cases hr; exact h
  | cons e es ih =>
    intro s s' h hc hr
    unfold calmRun at hc
    unfold run at hr
    cases hs : step N B s e with
    | none => rw [hs] at hr; cases hr
    | some s1 =>
      rw [hs] at hr hc
      rw [Bool.and_eq_true] at hc
      exact ih (.step h (calm_of hc.1) hs) hc.2 hr

/-- The theorems apply to: a message, interrupted by a second one, which is interrupted by a third one
between the reservation of its bytes and their copy. -/
def nestedRun : List Ev :=
  [.printk (bytes "[1] ") (bytes "a\n"), .step, .step, .irq (bytes "[2] ") (bytes "b\n")] ++ steps 2 ++ [.irq (bytes "[3] ") (bytes "c\n")] ++
    steps 6 ++ steps 4 ++ steps 5

example : ∃ s, ReachP 8192 224 (Calm 8192) s ∧ s.irqs = [] ∧ s.tasks 0 = none ∧ s.calls.length = 3 ∧
    s.out = bytes "[1] a\n[2] [3] c\nb\n" := by
  have h : ((run 8192 224 {} nestedRun).map fun s => (s.irqs, s.tasks 0, s.calls.length, s.out)) =
      some ([], none, 3, bytes "[1] a\n[2] [3] c\nb\n") := by decide +kernel
  have hc : calmRun 8192 224 {} nestedRun = true := by decide +kernel
  cases hr : run 8192 224 {} nestedRun with
  | none => rw [hr] at h; cases h
  | some s =>
    rw [hr] at h
    have h := Option.some.inj h
    simp only [Prod.mk.injEq] at h
    exact ⟨s, reach_run _ .start hc hr, h.1, h.2.1, h.2.2.1, h.2.2.2⟩

end Verif.Printk
