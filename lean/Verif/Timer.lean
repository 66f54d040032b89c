import Mathlib.Data.Prod.Lex
import Mathlib.Data.List.Induction
import Verif.Avl
/-!
# Kernel timers (kernel/timer.c)

Properties C32 (timers fire exactly once, never early, all in the tick they are due), C33 (cancelling
tells the truth) and C60 (a deferred timer's worker is never left asleep).

Timers are identified by their addresses.  The tree of armed timers is the AVL tree of `Verif.Avl`
holding timer addresses, ordered by `ktimer_cmp` applied to the *current* `wakeup_at_tick` fields.
Every interrupts-disabled section is one step; the steps of the timer interrupt, of interrupt
handlers nested in it, of tasks and of worker thread 0 interleave freely, except that task code does
not run while the timer interrupt handler is active (there is one CPU) and that the timer interrupt
does not nest in itself (its line is masked; with KRN_TRACK_NESTED_INTERR the nested one returns).
A callback's own calls to the timer functions appear as the steps that follow it.  The outcome
`none` stands for memory corruption: adding to the deferred list a timer that is on it already, or a
fault in the tree code.  The system time and its adjustment (timer.c:444-480) are not modelled.
-/
namespace Verif.Timer
open Verif.Avl

def upd {β : Type} (f : Nat → β) (k : Nat) (v : β) : Nat → β := fun j => if j = k then v else f j

theorem upd_same {β : Type} (f : Nat → β) (k : Nat) (v : β) : upd f k v k = v := if_pos rfl
theorem upd_other {β : Type} {f : Nat → β} {k j : Nat} {v : β} (h : j ≠ k) : upd f k v j = f j :=
  if_neg h

/-- include/tilck/kernel/timer.h:55-58. -/
inductive Mode | irq | deferred
  deriving DecidableEq, Repr

/-- Where the timer interrupt handler is: not running, at the fast-path test of
`tick_all_timers` (timer.c:308), or in its loop, with the local `deferred_queued`. -/
inductive Phase | out | check | loop (queued : Bool)
  deriving DecidableEq, Repr

structure St where
  /-- timer.c:20 `__ticks` -/
  now : Nat
  /-- `wakeup_at_tick` of each timer, 0 when not in the tree -/
  wake : Nat → Nat
  /-- timer.c:52 `timer_tree_root` -/
  tree : Tree Nat
  /-- timer.c:53 `earliest_timer` -/
  earliest : Option Nat
  /-- timer.c:54 `deferred_fire_list` -/
  dlist : List Nat
  /-- timer taken off the list by worker thread 0, callback not yet invoked (timer.c:374-380) -/
  taken : Option Nat
  phase : Phase
  /-- worker thread 0 is SLEEPING -/
  asleep : Bool

/-- timer.c:74-93 `ktimer_cmp`; the pair is (wakeup_at_tick, address). -/
def ktimerCmp (a b : ℕ ×ₗ ℕ) : Int :=
  let t1 := ofLex a
  let t2 := ofLex b
  if t1.1 ≠ t2.1 then (if t1.1 < t2.1 then -1 else 1)
  else if t1.2 ≠ t2.2 then (if t1.2 < t2.2 then -1 else 1)
  else 0

/-- What the comparison reads from the timer at address `t`. -/
def key (wake : Nat → Nat) (t : Nat) : ℕ ×ₗ ℕ := toLex (wake t, t)

/-- `bintree_remove(&timer_tree_root, t, ktimer_cmp, …)` -/
def treeRemove (wake : Nat → Nat) (tree : Tree Nat) (t : Nat) : Option (Tree Nat) :=
  (Avl.remove ktimerCmp (key wake) tree (key wake t)).map (·.1)

/-- `bintree_insert(&timer_tree_root, t, ktimer_cmp, …)`; the result is ignored by the callers. -/
def treeInsert (wake : Nat → Nat) (tree : Tree Nat) (t : Nat) : Option (Tree Nat) :=
  (Avl.insert ktimerCmp (key wake) tree t).map (·.1)

def u64 (n : Nat) : Nat := n % 2 ^ 64

/-- timer.c:140-151 and 168-178: set the deadline, insert, recompute the cache. -/
def place (s : St) (tree : Tree Nat) (t n : Nat) : Option St :=
  (treeInsert (upd s.wake t (u64 (s.now + n))) tree t).map fun tree' =>
    { s with wake := upd s.wake t (u64 (s.now + n)), tree := tree', earliest := first tree' }

/-- timer.c:122-154 `ktimer_arm`. -/
def arm (s : St) (t n : Nat) : Option St :=
  if 0 < s.wake t then (treeRemove s.wake s.tree t).bind fun tree' => place s tree' t n
  else place s s.tree t n

/-- timer.c:156-186 `ktimer_arm_if_armed`. -/
def armIf (s : St) (t n : Nat) : Option (St × Bool) :=
  if 0 < s.wake t then
    (treeRemove s.wake s.tree t).bind fun tree' => (place s tree' t n).map fun s' => (s', true)
  else some (s, false)

/-- timer.c:188-227 `ktimer_cancel`. -/
def cancel (mode : Nat → Mode) (s : St) (t : Nat) : Option (St × Bool) :=
  if 0 < s.wake t then
    (treeRemove s.wake s.tree t).map fun tree' =>
      ({ s with
          tree := tree'
          earliest := if s.earliest = some t then first tree' else s.earliest
          wake := upd s.wake t 0 }, true)
  else if mode t = .deferred ∧ t ∈ s.dlist then
    some ({ s with dlist := s.dlist.erase t }, true)
  else some (s, false)

/-- timer.c:109-121 `ktimer_is_armed`. -/
def isArmed (mode : Nat → Mode) (s : St) (t : Nat) : Bool :=
  decide (0 < s.wake t) || (decide (mode t = .deferred) && decide (t ∈ s.dlist))

/-- What the outside sees. -/
inductive Ev where
  | arm (t n : Nat)
  | armIf (t n : Nat) (res : Bool)
  | cancel (t : Nat) (res : Bool)
  | query (t : Nat) (res : Bool)
  /-- the timer interrupt advances the clock -/
  | tick
  /-- the timer interrupt handler returns -/
  | done
  /-- worker thread 0 commits to running `t`'s callback -/
  | take (t : Nat)
  /-- the callback of `t` is invoked -/
  | call (t : Nat)
  /-- `run_pending_ktimers` returns -/
  | drained
  /-- worker thread 0 goes to sleep -/
  | slept
  /-- internal step -/
  | quiet
  deriving DecidableEq, Repr

/-- timer.c:308, 319: no timer has expired. -/
def nothingDue (s : St) : Bool :=
  match s.earliest with
  | none => true
  | some t => decide (s.now < s.wake t)

/-- timer.c:344-352: leave `tick_all_timers`, waking worker thread 0 if something was queued. -/
def finish (s : St) (queued : Bool) : St :=
  { s with phase := .out, asleep := if queued then false else s.asleep }

/-- timer.c:324-341: the body of the loop once a timer `t` is known to have expired. -/
def expire (mode : Nat → Mode) (s : St) (queued : Bool) (t : Nat) : Option (St × Ev) :=
  (treeRemove s.wake s.tree t).bind fun tree' =>
    if mode t = .irq then
      some ({ s with tree := tree', wake := upd s.wake t 0, earliest := first tree' }, .call t)
    else if t ∈ s.dlist then none
    else some ({ s with
                  tree := tree'
                  wake := upd s.wake t 0
                  earliest := first tree'
                  dlist := s.dlist ++ [t]
                  phase := .loop true }, .quiet)

/-- timer.c:312-341: one round of the loop of `tick_all_timers`. -/
def iter (mode : Nat → Mode) (s : St) (queued : Bool) : Option (St × Ev) :=
  if nothingDue s = true then some (finish s queued, .done)
  else match s.earliest with
    | none => some (finish s queued, .done)
    | some t => expire mode s queued t

inductive Op where
  | arm (t n : Nat)
  | armIf (t n : Nat)
  | cancel (t : Nat)
  | query (t : Nat)
  /-- the next step of the timer interrupt -/
  | irq
  /-- the next step of `run_pending_ktimers` in worker thread 0 -/
  | worker
  /-- worker thread 0 tries to sleep, having found its job queue empty (wth.c:222-250) -/
  | sleep
  /-- worker thread 0 is woken for another reason -/
  | wakeup
  deriving DecidableEq, Repr

/-- timer.c:438-486 `timer_irq_handler` and 298-353 `tick_all_timers`, step by step. -/
def irqStep (mode : Nat → Mode) (s : St) : Option (St × Ev) :=
  match s.phase with
  | .out => some ({ s with now := u64 (s.now + 1), phase := .check }, .tick)
  | .check => if nothingDue s = true then some (finish s false, .done)
      else some ({ s with phase := .loop false }, .quiet)
  | .loop q => iter mode s q

/-- timer.c:360-390 `run_pending_ktimers`, one section at a time. -/
def workerStep (s : St) : Option (St × Ev) :=
  if s.phase ≠ .out ∨ s.asleep = true then some (s, .quiet)
  else match s.taken with
    | some t => some ({ s with taken := none }, .call t)
    | none => match s.dlist with
      | [] => some (s, .drained)
      | t :: r => some ({ s with dlist := r, taken := some t }, .take t)

/-- wth.c:222-250: the sleep decision of worker thread 0 (its ring buffer, modelled elsewhere, is
taken to be empty whenever this step is tried). -/
def sleepStep (s : St) : Option (St × Ev) :=
  if s.phase = .out ∧ s.asleep = false ∧ s.taken = none ∧ s.dlist = [] then
    some ({ s with asleep := true }, .slept)
  else some (s, .quiet)

def step (mode : Nat → Mode) (s : St) : Op → Option (St × Ev)
  | .arm t n => (arm s t n).map fun s' => (s', .arm t n)
  | .armIf t n => (armIf s t n).map fun r => (r.1, .armIf t n r.2)
  | .cancel t => (cancel mode s t).map fun r => (r.1, .cancel t r.2)
  | .query t => some (s, .query t (isArmed mode s t))
  | .irq => irqStep mode s
  | .worker => workerStep s
  | .sleep => sleepStep s
  | .wakeup => some ({ s with asleep := false }, .quiet)

/-- timer.c: state at boot. -/
def init : St :=
  { now := 0, wake := fun _ => 0, tree := .nil, earliest := none, dlist := [], taken := none,
    phase := .out, asleep := false }

/-! ## Specification, in terms of what was seen so far -/

/-- The clock, the deadline of every outstanding arming, and the callback the worker has committed
to. -/
structure Obs where
  clock : Nat
  due : Nat → Option Nat
  running : Option Nat

def Obs.init : Obs := ⟨0, fun _ => none, none⟩

def Obs.see (mode : Nat → Mode) (o : Obs) : Ev → Obs
  | .arm t n => { o with due := upd o.due t (some (o.clock + n)) }
  | .armIf t n true => { o with due := upd o.due t (some (o.clock + n)) }
  | .cancel t true => { o with due := upd o.due t none }
  | .tick => { o with clock := o.clock + 1 }
  | .take t => { o with due := upd o.due t none, running := some t }
  | .call t => if mode t = .irq then { o with due := upd o.due t none } else { o with running := none }
  | _ => o

def Obs.after (mode : Nat → Mode) (evs : List Ev) : Obs := evs.foldl (Obs.see mode) Obs.init

/-- No timer of this kind is overdue or due now. -/
def Obs.NoneDue (mode : Nat → Mode) (o : Obs) (m : Mode) : Prop :=
  ∀ t d, mode t = m → o.due t = some d → o.clock < d

/-- What may be seen next. -/
def Legal (mode : Nat → Mode) (o : Obs) : Ev → Prop
  | .armIf t _ b => (b = true → (o.due t).isSome) ∧
      (b = false → o.due t = none ∨ (mode t = .deferred ∧ ∃ d, o.due t = some d ∧ d ≤ o.clock))
  | .cancel t b => b = (o.due t).isSome
  | .query t b => b = (o.due t).isSome
  | .call t => if mode t = .irq then o.due t = some o.clock else o.running = some t
  | .take t => mode t = .deferred ∧ o.running = none ∧ ∃ d, o.due t = some d ∧ d ≤ o.clock
  | .done => o.NoneDue mode .irq
  | .drained => o.NoneDue mode .deferred ∧ o.running = none
  | .slept => o.NoneDue mode .deferred ∧ o.running = none
  | _ => True

/-- Every event of the history (oldest first) was allowed when it happened. -/
def LegalHistory (mode : Nat → Mode) (evs : List Ev) : Prop :=
  ∀ pre e post, evs = pre ++ e :: post → Legal mode (Obs.after mode pre) e

/-- What callers must respect.  `ticks > 0` is asserted by the code (timer.c:125, 160).  The
others are not checked by the code: the deadline must fit in 64 bits, a deferred timer whose expiry is
queued must not be armed, and the tree must not exceed the size its fixed-size stacks allow. -/
def Ok (s : St) : Op → Prop
  | .arm t n => 0 < n ∧ s.now + n < 2 ^ 64 ∧ t ∉ s.dlist ∧ (toList s.tree).length < 5702885
  | .armIf _ n => 0 < n ∧ s.now + n < 2 ^ 64
  | .irq => s.now + 1 < 2 ^ 64
  | _ => True

/-- Histories of the system, with the events they produce. -/
inductive Exec (mode : Nat → Mode) : List Ev → St → Prop where
  | nil : Exec mode [] init
  | snoc {evs : List Ev} {s s' : St} {e : Ev} (op : Op) : Exec mode evs s → Ok s op →
      step mode s op = some (s', e) → Exec mode (evs ++ [e]) s'

/-! ## The tree of armed timers -/

theorem cmp_ok : CmpOK ktimerCmp (fun _ => True) := by
  intro a b _ _
  have e1 : a < b ↔ (ofLex a).1 < (ofLex b).1 ∨ ((ofLex a).1 = (ofLex b).1 ∧ (ofLex a).2 < (ofLex b).2) :=
    Prod.Lex.lt_iff
  have e2 : a = b ↔ (ofLex a).1 = (ofLex b).1 ∧ (ofLex a).2 = (ofLex b).2 := by
    rw [← Prod.ext_iff]
    exact ⟨fun h => by rw [h], fun h => ofLex.injective h⟩
  rw [e1, e2]
  unfold ktimerCmp
  dsimp only
  generalize (ofLex a).1 = x, (ofLex b).1 = y, (ofLex a).2 = u, (ofLex b).2 = v
  by_cases h : x = y
  · subst h
    rw [if_neg (by simp)]
    by_cases h2 : u = v
    · subst h2; simp
    · rw [if_pos h2]; split <;> constructor <;> constructor <;> intro g <;> first | omega | simp_all
  · rw [if_pos h]; split <;> constructor <;> constructor <;> intro g <;> first | omega | simp_all

structure TI (wake : Nat → Nat) (tree : Tree Nat) : Prop where
  avl : Avl.Avl tree
  sorted : SortedKeys (key wake) (toList tree)
  small : (toList tree).length < 5702886

theorem key_inj {wake : Nat → Nat} {a b : Nat} (h : key wake a = key wake b) : a = b := by
  have := congrArg (fun x => (ofLex x).2) h
  exact this

theorem TI.nodup {wake : Nat → Nat} {tree : Tree Nat} (h : TI wake tree) : (toList tree).Nodup :=
  h.sorted.imp (fun hab e => by subst e; exact lt_irrefl _ hab)

theorem treeRemove_ok {wake : Nat → Nat} {tree : Tree Nat} (h : TI wake tree) (t : Nat) :
    ∃ tree', treeRemove wake tree t = some tree' ∧ TI wake tree' ∧
      toList tree' = (toList tree).filter (fun x => decide (x ≠ t)) := by
  obtain ⟨tree', out, g1, g2, g3, -, g5⟩ := Avl.step_ok (key := key wake) cmp_ok tree
    (.remove (key wake t)) h.avl h.sorted (fun _ _ => trivial) trivial h.small
  have e : toList tree' = (toList tree).filter (fun x => decide (key wake x ≠ key wake t)) :=
    congrArg Prod.fst g5
  have e' : toList tree' = (toList tree).filter (fun x => decide (x ≠ t)) := by
    rw [e]
    congr 1
    funext x
    by_cases hx : x = t
    · simp [hx]
    · have : key wake x ≠ key wake t := fun hk => hx (key_inj hk)
      simp [hx, this]
  refine ⟨tree', ?_, ⟨g2, g3, ?_⟩, e'⟩
  · unfold treeRemove
    simp only [Avl.step, Option.map_eq_some_iff] at g1
    obtain ⟨a, ha, hb⟩ := g1
    rw [ha]
    simp only [Option.map_some]
    rw [(Prod.mk.inj hb).1]
  · rw [e']
    exact lt_of_le_of_lt (List.length_filter_le _ _) h.small

theorem treeInsert_ok {wake : Nat → Nat} {tree : Tree Nat} (h : TI wake tree) {t : Nat}
    (ht : t ∉ toList tree) (hn : (toList tree).length < 5702885) :
    ∃ tree', treeInsert wake tree t = some tree' ∧ TI wake tree' ∧
      (∀ x, x ∈ toList tree' ↔ x = t ∨ x ∈ toList tree) := by
  obtain ⟨tree', out, g1, g2, g3, -, g5⟩ := Avl.step_ok (key := key wake) cmp_ok tree
    (.insert t) h.avl h.sorted (fun _ _ => trivial) trivial h.small
  have hno : ¬ ∃ x ∈ toList tree, key wake x = key wake t := by
    rintro ⟨x, hx, hk⟩
    exact ht (key_inj hk ▸ hx)
  have e : toList tree' = (toList tree).filter (fun x => decide (key wake x < key wake t)) ++ t ::
      (toList tree).filter (fun x => decide (key wake t < key wake x)) := by
    have := congrArg Prod.fst g5
    simp only [Avl.Spec.step, Avl.Spec.insert] at this
    rw [if_neg hno] at this
    exact this
  have hmem : ∀ x, x ∈ toList tree' ↔ x = t ∨ x ∈ toList tree := by
    intro x
    rw [e, List.mem_append, List.mem_cons, List.mem_filter, List.mem_filter]
    constructor
    · rintro (h | h | h)
      · exact Or.inr h.1
      · exact Or.inl h
      · exact Or.inr h.1
    · rintro (h | h)
      · exact Or.inr (Or.inl h)
      · rcases lt_trichotomy (key wake x) (key wake t) with g | g | g
        · exact Or.inl ⟨h, by simpa using g⟩
        · exact absurd ⟨x, h, g⟩ hno
        · exact Or.inr (Or.inr ⟨h, by simpa using g⟩)
  have hti : TI wake tree' := by
    refine ⟨g2, g3, ?_⟩
    have hlen : ∀ L : List Nat, (L.filter (fun x => decide (key wake x < key wake t))).length +
        (L.filter (fun x => decide (key wake t < key wake x))).length ≤ L.length := by
      intro L
      induction L with
      | nil => simp
      | cons a r ih =>
        rw [List.filter_cons, List.filter_cons]
        by_cases h1 : key wake a < key wake t
        · rw [if_pos (by simpa using h1), if_neg (by simpa using le_of_lt h1)]
          simp only [List.length_cons]; omega
        · rw [if_neg (by simpa using h1)]
          split <;> simp only [List.length_cons] <;> omega
    rw [e, List.length_append, List.length_cons]
    have := hlen (toList tree)
    omega
  refine ⟨tree', ?_, hti, hmem⟩
  unfold treeInsert
  simp only [Avl.step, Option.map_eq_some_iff] at g1
  obtain ⟨a, ha, hb⟩ := g1
  rw [ha]
  simp only [Option.map_some]
  rw [(Prod.mk.inj hb).1]

theorem TI.congr {wake wake' : Nat → Nat} {tree : Tree Nat} (h : TI wake tree)
    (he : ∀ x ∈ toList tree, wake' x = wake x) : TI wake' tree := by
  refine ⟨h.avl, ?_, h.small⟩
  refine List.Pairwise.imp_of_mem ?_ h.sorted
  intro a b ha hb hab
  unfold key
  rw [he a ha, he b hb]
  exact hab

theorem first_min {wake : Nat → Nat} {tree : Tree Nat} (h : TI wake tree) {t : Nat}
    (hf : first tree = some t) : t ∈ toList tree ∧ ∀ x ∈ toList tree, wake t ≤ wake x := by
  rw [first_ok] at hf
  have hs := h.sorted
  cases hl : toList tree with
  | nil => rw [hl] at hf; cases hf
  | cons a r =>
    rw [hl] at hf hs
    cases hf
    refine ⟨by simp, ?_⟩
    intro x hx
    rcases List.mem_cons.mp hx with rfl | hx
    · exact le_refl _
    · have := (List.pairwise_cons.mp hs).1 x hx
      have := Prod.Lex.lt_iff.mp this
      rcases this with g | g
      · exact le_of_lt g
      · exact le_of_eq g.1

theorem first_none {tree : Tree Nat} (hf : first tree = none) : toList tree = [] := by
  rw [first_ok] at hf
  exact List.head?_eq_none_iff.mp hf

/-! ## Invariant -/

structure Inv (mode : Nat → Mode) (o : Obs) (s : St) : Prop where
  ti : TI s.wake s.tree
  mem : ∀ t, t ∈ toList s.tree ↔ 0 < s.wake t
  cache : s.earliest = first s.tree
  dnodup : s.dlist.Nodup
  dmode : ∀ t ∈ s.dlist, mode t = .deferred ∧ s.wake t = 0
  clock : o.clock = s.now
  armed : ∀ t, 0 < s.wake t → o.due t = some (s.wake t)
  queued : ∀ t ∈ s.dlist, ∃ d, o.due t = some d ∧ d ≤ s.now
  idle : ∀ t, s.wake t = 0 → t ∉ s.dlist → o.due t = none
  run : o.running = s.taken
  tmode : ∀ t, s.taken = some t → mode t = .deferred
  out : s.phase = .out → ∀ t, 0 < s.wake t → s.now < s.wake t
  irq : ∀ t, 0 < s.wake t → s.now ≤ s.wake t
  woken : s.asleep = true → s.dlist = [] ∨ s.phase = .loop true
  tsleep : s.asleep = true → s.taken = none

theorem inv_init (mode : Nat → Mode) : Inv mode Obs.init init where
  ti := ⟨trivial, List.Pairwise.nil, by simp [init, toList]⟩
  mem t := by simp [init, toList]
  cache := rfl
  dnodup := List.nodup_nil
  dmode t h := by cases h
  clock := rfl
  armed t h := by cases h
  queued t h := by cases h
  idle t _ _ := rfl
  run := rfl
  tmode t h := by cases h
  out _ t h := by cases h
  irq t h := by cases h
  woken h := by cases h
  tsleep h := by cases h

/-- The effect of `place` once `t` is out of the tree. -/
theorem place_ok {mode : Nat → Mode} {o : Obs} {s : St} {t n : Nat} {tree' : Tree Nat}
    (h : Inv mode o s) (hti : TI s.wake tree')
    (hmem : ∀ x, x ∈ toList tree' ↔ x ≠ t ∧ 0 < s.wake x) (hn : 0 < n) (hw : s.now + n < 2 ^ 64)
    (hd : t ∉ s.dlist) (hl : (toList tree').length < 5702885) :
    ∃ s', place s tree' t n = some s' ∧
      Inv mode { o with due := upd o.due t (some (o.clock + n)) } s' := by
  have hu : u64 (s.now + n) = s.now + n := Nat.mod_eq_of_lt hw
  have hnt : t ∉ toList tree' := fun hx => ((hmem t).mp hx).1 rfl
  have hti2 : TI (upd s.wake t (s.now + n)) tree' :=
    hti.congr (fun x hx => upd_other ((hmem x).mp hx).1)
  obtain ⟨tr, g1, g2, g3⟩ := treeInsert_ok hti2 hnt hl
  refine ⟨{ s with wake := upd s.wake t (s.now + n), tree := tr, earliest := first tr }, ?_, ?_⟩
  · unfold place
    rw [hu, g1]
    rfl
  · have hck := h.clock
    refine ⟨g2, ?_, rfl, h.dnodup, ?_, h.clock, ?_, ?_, ?_, h.run, h.tmode, ?_, ?_, h.woken, h.tsleep⟩
    · intro x
      show x ∈ toList tr ↔ 0 < upd s.wake t (s.now + n) x
      rw [g3]
      by_cases hx : x = t
      · subst hx; rw [upd_same]; constructor
        · intro _; omega
        · intro _; exact Or.inl rfl
      · rw [upd_other hx, hmem]
        constructor
        · rintro (g | g)
          · exact absurd g hx
          · exact g.2
        · intro g; exact Or.inr ⟨hx, g⟩
    · intro x hx
      have hxt : x ≠ t := fun e => hd (e ▸ hx)
      refine ⟨(h.dmode x hx).1, ?_⟩
      show upd s.wake t (s.now + n) x = 0
      rw [upd_other hxt]; exact (h.dmode x hx).2
    · intro x hx
      show upd o.due t (some (o.clock + n)) x = some (upd s.wake t (s.now + n) x)
      by_cases hxt : x = t
      · subst hxt; rw [upd_same, upd_same, hck]
      · change 0 < upd s.wake t (s.now + n) x at hx
        rw [upd_other hxt] at hx ⊢
        rw [upd_other hxt]
        exact h.armed x hx
    · intro x hx
      have hxt : x ≠ t := fun e => hd (e ▸ hx)
      show ∃ d, upd o.due t (some (o.clock + n)) x = some d ∧ d ≤ s.now
      rw [upd_other hxt]
      exact h.queued x hx
    · intro x hx hx2
      change upd s.wake t (s.now + n) x = 0 at hx
      show upd o.due t (some (o.clock + n)) x = none
      by_cases hxt : x = t
      · subst hxt; rw [upd_same] at hx; omega
      · rw [upd_other hxt] at hx ⊢
        exact h.idle x hx hx2
    · intro hp x hx
      change 0 < upd s.wake t (s.now + n) x at hx
      show s.now < upd s.wake t (s.now + n) x
      by_cases hxt : x = t
      · subst hxt; rw [upd_same]; omega
      · rw [upd_other hxt] at hx ⊢; exact h.out hp x hx
    · intro x hx
      change 0 < upd s.wake t (s.now + n) x at hx
      show s.now ≤ upd s.wake t (s.now + n) x
      by_cases hxt : x = t
      · subst hxt; rw [upd_same]; omega
      · rw [upd_other hxt] at hx ⊢; exact h.irq x hx

theorem removed {mode : Nat → Mode} {o : Obs} {s : St} (h : Inv mode o s) {t : Nat}
    (ht : 0 < s.wake t) :
    ∃ tree', treeRemove s.wake s.tree t = some tree' ∧ TI s.wake tree' ∧
      (∀ x, x ∈ toList tree' ↔ x ≠ t ∧ 0 < s.wake x) ∧ (toList tree').length < 5702885 := by
  obtain ⟨tr, g1, g2, g3⟩ := treeRemove_ok h.ti t
  refine ⟨tr, g1, g2, ?_, ?_⟩
  · intro x
    rw [g3, List.mem_filter, h.mem]
    simp only [decide_eq_true_eq]
    tauto
  · rw [g3]
    have hin : t ∈ toList s.tree := (h.mem t).mpr ht
    have h1 : ((toList s.tree).filter (fun x => decide (x ≠ t))).length < (toList s.tree).length := by
      rw [List.length_filter_lt_length_iff_exists]
      exact ⟨t, hin, by simp⟩
    have := h.ti.small
    omega

theorem arm_ok {mode : Nat → Mode} {o : Obs} {s : St} {t n : Nat} (h : Inv mode o s)
    (hk : Ok s (.arm t n)) :
    ∃ s', arm s t n = some s' ∧ Inv mode (o.see mode (.arm t n)) s' := by
  obtain ⟨k1, k2, k3, k4⟩ := hk
  unfold arm
  by_cases ht : 0 < s.wake t
  · obtain ⟨tr, g1, g2, g3, g4⟩ := removed h ht
    rw [if_pos ht, g1]
    exact place_ok h g2 g3 k1 k2 k3 g4
  · rw [if_neg ht]
    refine place_ok h h.ti ?_ k1 k2 k3 k4
    intro x
    rw [h.mem]
    constructor
    · intro hx; exact ⟨fun e => ht (e ▸ hx), hx⟩
    · exact fun hx => hx.2

theorem armIf_ok {mode : Nat → Mode} {o : Obs} {s : St} {t n : Nat} (h : Inv mode o s)
    (hk : Ok s (.armIf t n)) :
    ∃ s' b, armIf s t n = some (s', b) ∧ Inv mode (o.see mode (.armIf t n b)) s' ∧
      Legal mode o (.armIf t n b) := by
  obtain ⟨k1, k2⟩ := hk
  unfold armIf
  by_cases ht : 0 < s.wake t
  · obtain ⟨tr, g1, g2, g3, g4⟩ := removed h ht
    have hd : t ∉ s.dlist := fun hx => by have := (h.dmode t hx).2; omega
    obtain ⟨s', e1, e2⟩ := place_ok h g2 g3 k1 k2 hd g4
    refine ⟨s', true, ?_, e2, ?_⟩
    · rw [if_pos ht, g1, Option.bind_some, e1]; rfl
    · exact ⟨fun _ => by rw [h.armed t ht]; rfl, fun e => by cases e⟩
  · refine ⟨s, false, by rw [if_neg ht], h, (fun e => by cases e), fun _ => ?_⟩
    by_cases hd : t ∈ s.dlist
    · obtain ⟨d, hd1, hd2⟩ := h.queued t hd
      exact Or.inr ⟨(h.dmode t hd).1, d, hd1, h.clock ▸ hd2⟩
    · exact Or.inl (h.idle t (by omega) hd)

theorem armed_iff {mode : Nat → Mode} {o : Obs} {s : St} (h : Inv mode o s) (t : Nat) :
    (o.due t).isSome = true ↔ 0 < s.wake t ∨ t ∈ s.dlist := by
  constructor
  · intro hd
    by_contra hc
    simp only [not_or] at hc
    rw [h.idle t (by omega) hc.2] at hd
    cases hd
  · rintro (g | g)
    · rw [h.armed t g]; rfl
    · obtain ⟨d, hd, _⟩ := h.queued t g
      rw [hd]; rfl

/-- Taking `t` out of the tree and forgetting its deadline. -/
theorem drop_ok {mode : Nat → Mode} {o : Obs} {s : St} (h : Inv mode o s) {t : Nat}
    (ht : 0 < s.wake t) {tree' : Tree Nat} (g2 : TI s.wake tree')
    (g3 : ∀ x, x ∈ toList tree' ↔ x ≠ t ∧ 0 < s.wake x) :
    Inv mode { o with due := upd o.due t none }
      { s with tree := tree', wake := upd s.wake t 0, earliest := first tree' } := by
  have hd : t ∉ s.dlist := fun hx => by have := (h.dmode t hx).2; omega
  refine ⟨g2.congr (fun x hx => upd_other ((g3 x).mp hx).1), ?_, rfl, h.dnodup, ?_, h.clock, ?_, ?_, ?_,
    h.run, h.tmode, ?_, ?_, h.woken, h.tsleep⟩
  · intro x
    show x ∈ toList tree' ↔ 0 < upd s.wake t 0 x
    rw [g3]
    by_cases hx : x = t
    · subst hx; rw [upd_same]; simp
    · rw [upd_other hx]; simp [hx]
  · intro x hx
    have hxt : x ≠ t := fun e => hd (e ▸ hx)
    exact ⟨(h.dmode x hx).1, by show upd s.wake t 0 x = 0; rw [upd_other hxt]; exact (h.dmode x hx).2⟩
  · intro x hx
    change 0 < upd s.wake t 0 x at hx
    show upd o.due t none x = some (upd s.wake t 0 x)
    by_cases hxt : x = t
    · subst hxt; rw [upd_same] at hx; omega
    · rw [upd_other hxt] at hx ⊢; rw [upd_other hxt]; exact h.armed x hx
  · intro x hx
    have hxt : x ≠ t := fun e => hd (e ▸ hx)
    show ∃ d, upd o.due t none x = some d ∧ d ≤ s.now
    rw [upd_other hxt]; exact h.queued x hx
  · intro x hx hx2
    change upd s.wake t 0 x = 0 at hx
    show upd o.due t none x = none
    by_cases hxt : x = t
    · subst hxt; rw [upd_same]
    · rw [upd_other hxt] at hx ⊢; exact h.idle x hx hx2
  · intro hp x hx
    change 0 < upd s.wake t 0 x at hx
    show s.now < upd s.wake t 0 x
    by_cases hxt : x = t
    · subst hxt; rw [upd_same] at hx; omega
    · rw [upd_other hxt] at hx ⊢; exact h.out hp x hx
  · intro x hx
    change 0 < upd s.wake t 0 x at hx
    show s.now ≤ upd s.wake t 0 x
    by_cases hxt : x = t
    · subst hxt; rw [upd_same] at hx; omega
    · rw [upd_other hxt] at hx ⊢; exact h.irq x hx

/-- The cached pointer stays right when another timer than the first is removed. -/
theorem cache_ok {mode : Nat → Mode} {o : Obs} {s : St} (h : Inv mode o s) {t : Nat}
    {tree' : Tree Nat} (g : treeRemove s.wake s.tree t = some tree')
    (hne : s.earliest ≠ some t) : s.earliest = first tree' := by
  obtain ⟨tr, g1, g2, g3⟩ := treeRemove_ok h.ti t
  rw [g1] at g
  cases g
  rw [h.cache, first_ok] at *
  rw [first_ok, g3]
  cases hl : toList s.tree with
  | nil => rfl
  | cons a r =>
    rw [hl] at hne
    have : a ≠ t := fun e => hne (by rw [e]; rfl)
    simp [this]

theorem cancel_ok {mode : Nat → Mode} {o : Obs} {s : St} {t : Nat} (h : Inv mode o s) :
    ∃ s' b, cancel mode s t = some (s', b) ∧ Inv mode (o.see mode (.cancel t b)) s' ∧
      Legal mode o (.cancel t b) := by
  unfold cancel
  by_cases ht : 0 < s.wake t
  · obtain ⟨tr, g1, g2, g3, g4⟩ := removed h ht
    refine ⟨_, true, by rw [if_pos ht, g1]; rfl, ?_, ?_⟩
    · have hc : (if s.earliest = some t then first tr else s.earliest) = first tr := by
        split
        · rfl
        · rename_i hne; exact cache_ok h g1 hne
      rw [hc]
      exact drop_ok h ht g2 g3
    · exact ((armed_iff h t).mpr (Or.inl ht)).symm
  · rw [if_neg ht]
    by_cases hd : t ∈ s.dlist
    · rw [if_pos ⟨(h.dmode t hd).1, hd⟩]
      refine ⟨_, true, rfl, ?_, ((armed_iff h t).mpr (Or.inr hd)).symm⟩
      have hmem : ∀ x, x ∈ s.dlist.erase t ↔ x ≠ t ∧ x ∈ s.dlist := fun x => h.dnodup.mem_erase_iff
      refine ⟨h.ti, h.mem, h.cache, h.dnodup.erase t, ?_, h.clock, ?_, ?_, ?_, h.run, h.tmode, h.out,
        h.irq, ?_, h.tsleep⟩
      · intro x hx; exact h.dmode x ((hmem x).mp hx).2
      · intro x hx
        change 0 < s.wake x at hx
        show upd o.due t none x = some (s.wake x)
        have : x ≠ t := fun e => ht (e ▸ hx)
        rw [upd_other this]; exact h.armed x hx
      · intro x hx
        show ∃ d, upd o.due t none x = some d ∧ d ≤ s.now
        rw [upd_other ((hmem x).mp hx).1]; exact h.queued x ((hmem x).mp hx).2
      · intro x hx hx2
        show upd o.due t none x = none
        by_cases hxt : x = t
        · subst hxt; rw [upd_same]
        · rw [upd_other hxt]; exact h.idle x hx (fun g => hx2 ((hmem x).mpr ⟨hxt, g⟩))
      · intro ha
        rcases h.woken ha with g | g
        · rw [g] at hd; cases hd
        · exact Or.inr g
    · rw [if_neg (fun g => hd g.2)]
      refine ⟨s, false, rfl, h, ?_⟩
      show false = (o.due t).isSome
      rw [h.idle t (by omega) hd]; rfl

theorem isArmed_ok {mode : Nat → Mode} {o : Obs} {s : St} {t : Nat} (h : Inv mode o s) :
    isArmed mode s t = (o.due t).isSome := by
  have := armed_iff h t
  by_cases g : 0 < s.wake t ∨ t ∈ s.dlist
  · rw [this.mpr g]
    unfold isArmed
    rcases g with g | g
    · simp [g]
    · simp [(h.dmode t g).1, g]
  · have e : (o.due t).isSome = false := by
      cases hh : (o.due t).isSome
      · rfl
      · exact absurd (this.mp hh) g
    rw [e]
    simp only [not_or] at g
    unfold isArmed
    simp only [Bool.or_eq_false_iff, decide_eq_false_iff_not, Bool.and_eq_false_iff]
    exact ⟨g.1, Or.inr g.2⟩

theorem nothingDue_iff {mode : Nat → Mode} {o : Obs} {s : St} (h : Inv mode o s) :
    nothingDue s = true ↔ ∀ t, 0 < s.wake t → s.now < s.wake t := by
  unfold nothingDue
  cases he : s.earliest with
  | none =>
    have h2 := first_none (h.cache ▸ he)
    refine ⟨fun _ t ht => ?_, fun _ => rfl⟩
    have := (h.mem t).mpr ht
    rw [h2] at this; cases this
  | some t =>
    have hm := first_min h.ti (h.cache ▸ he)
    dsimp only
    rw [decide_eq_true_eq]
    constructor
    · intro hlt x hx
      have := hm.2 x ((h.mem x).mpr hx)
      omega
    · intro g; exact g t ((h.mem t).mp hm.1)

theorem finish_ok {mode : Nat → Mode} {o : Obs} {s : St} {q : Bool} (h : Inv mode o s)
    (hq : s.phase = .loop q ∨ (s.phase = .check ∧ q = false)) (hn : nothingDue s = true) :
    Inv mode o (finish s q) ∧ Legal mode o .done := by
  have hnd := (nothingDue_iff h).mp hn
  refine ⟨⟨h.ti, h.mem, h.cache, h.dnodup, h.dmode, h.clock, h.armed, h.queued, h.idle, h.run,
    h.tmode, fun _ => hnd, h.irq, ?_, ?_⟩, ?_⟩
  · intro ha
    refine Or.inl ?_
    unfold finish at ha
    dsimp only at ha
    cases q with
    | true => cases ha
    | false =>
      rcases h.woken ha with g | g
      · exact g
      · rcases hq with e | e
        · rw [g] at e; cases e
        · rw [g] at e; cases e.1
  · intro ha
    unfold finish at ha
    dsimp only at ha
    split at ha
    · cases ha
    · exact h.tsleep ha
  · intro t d hm hd
    rw [h.clock]
    by_cases ht : 0 < s.wake t
    · rw [h.armed t ht] at hd; cases hd; exact hnd t ht
    · by_cases hl : t ∈ s.dlist
      · rw [(h.dmode t hl).1] at hm; cases hm
      · rw [h.idle t (by omega) hl] at hd; cases hd

theorem iter_ok {mode : Nat → Mode} {o : Obs} {s : St} {q : Bool} (h : Inv mode o s)
    (hp : s.phase = .loop q) :
    ∃ s' e, iter mode s q = some (s', e) ∧ Inv mode (o.see mode e) s' ∧ Legal mode o e := by
  unfold iter
  by_cases hn : nothingDue s = true
  · rw [if_pos hn]
    exact ⟨_, _, rfl, finish_ok h (Or.inl hp) hn⟩
  · rw [if_neg hn]
    cases he : s.earliest with
    | none => exact absurd (by unfold nothingDue; rw [he]) hn
    | some t =>
      have hm := first_min h.ti (h.cache ▸ he)
      have ht : 0 < s.wake t := (h.mem t).mp hm.1
      have hle : s.wake t ≤ s.now := by
        unfold nothingDue at hn
        rw [he] at hn
        simp only [decide_eq_true_eq] at hn
        omega
      have heq : s.wake t = s.now := by have := h.irq t ht; omega
      obtain ⟨tr, g1, g2, g3, g4⟩ := removed h ht
      have hd : t ∉ s.dlist := fun hx => by have := (h.dmode t hx).2; omega
      have hdrop := drop_ok h ht g2 g3
      dsimp only
      unfold expire
      rw [g1, Option.bind_some]
      by_cases hmd : mode t = .irq
      · rw [if_pos hmd]
        refine ⟨_, _, rfl, ?_, ?_⟩
        · unfold Obs.see
          dsimp only
          rw [if_pos hmd]
          exact hdrop
        · unfold Legal
          dsimp only
          rw [if_pos hmd, h.armed t ht, heq, h.clock]
      · rw [if_neg hmd, if_neg hd]
        have hmd' : mode t = .deferred := by cases hh : mode t <;> simp_all
        refine ⟨_, _, rfl, ?_, trivial⟩
        refine ⟨hdrop.ti, hdrop.mem, rfl, ?_, ?_, h.clock, ?_, ?_, ?_, h.run, h.tmode, ?_, ?_, ?_, h.tsleep⟩
        · refine List.nodup_append.mpr ⟨h.dnodup, List.nodup_cons.mpr ⟨by simp, List.nodup_nil⟩, ?_⟩
          intro a ha b hb e
          rw [List.mem_singleton] at hb
          exact hd (hb ▸ e ▸ ha)
        · intro x hx
          rcases List.mem_append.mp hx with g | g
          · exact hdrop.dmode x g
          · rw [List.mem_singleton] at g
            subst g
            exact ⟨hmd', upd_same _ _ _⟩
        · intro x hx
          change 0 < upd s.wake t 0 x at hx
          show o.due x = some (upd s.wake t 0 x)
          by_cases hxt : x = t
          · subst hxt; rw [upd_same] at hx; omega
          · rw [upd_other hxt] at hx ⊢; exact h.armed x hx
        · intro x hx
          rcases List.mem_append.mp hx with g | g
          · exact h.queued x g
          · rw [List.mem_singleton] at g
            subst g
            exact ⟨_, h.armed x ht, hle⟩
        · intro x hx hx2
          change upd s.wake t 0 x = 0 at hx
          have hxt : x ≠ t := fun e => hx2 (List.mem_append.mpr (Or.inr (by simp [e])))
          rw [upd_other hxt] at hx
          exact h.idle x hx (fun g => hx2 (List.mem_append.mpr (Or.inl g)))
        · intro hp; cases hp
        · exact hdrop.irq
        · intro _; exact Or.inr rfl

theorem irq_ok {mode : Nat → Mode} {o : Obs} {s : St} (h : Inv mode o s) (hk : Ok s .irq) :
    ∃ s' e, irqStep mode s = some (s', e) ∧ Inv mode (o.see mode e) s' ∧ Legal mode o e := by
  unfold irqStep
  cases hp : s.phase with
  | out =>
    have hu : u64 (s.now + 1) = s.now + 1 := Nat.mod_eq_of_lt hk
    refine ⟨_, _, rfl, ?_, trivial⟩
    rw [hu]
    refine ⟨h.ti, h.mem, h.cache, h.dnodup, h.dmode, ?_, h.armed, ?_, h.idle, h.run, h.tmode, ?_, ?_, ?_,
      h.tsleep⟩
    · show o.clock + 1 = s.now + 1
      rw [h.clock]
    · intro t ht
      obtain ⟨d, h1, h2⟩ := h.queued t ht
      exact ⟨d, h1, Nat.le_succ_of_le h2⟩
    · intro g; cases g
    · intro t ht; exact h.out hp t ht
    · intro ha
      rcases h.woken ha with g | g
      · exact Or.inl g
      · rw [hp] at g; cases g
  | check =>
    dsimp only
    by_cases hn : nothingDue s = true
    · rw [if_pos hn]
      exact ⟨_, _, rfl, finish_ok h (Or.inr ⟨hp, rfl⟩) hn⟩
    · rw [if_neg hn]
      refine ⟨_, _, rfl, ?_, trivial⟩
      refine ⟨h.ti, h.mem, h.cache, h.dnodup, h.dmode, h.clock, h.armed, h.queued, h.idle, h.run,
        h.tmode, (fun g => by cases g), h.irq, ?_, h.tsleep⟩
      intro ha
      rcases h.woken ha with g | g
      · exact Or.inl g
      · rw [hp] at g; cases g
  | loop q => exact iter_ok h hp

/-- Nothing deferred is due when the list is empty and the timer interrupt is not running. -/
theorem none_due {mode : Nat → Mode} {o : Obs} {s : St} (h : Inv mode o s) (hp : s.phase = .out)
    (hd : s.dlist = []) : o.NoneDue mode .deferred := by
  intro t d _ hdue
  rw [h.clock]
  by_cases ht : 0 < s.wake t
  · rw [h.armed t ht] at hdue; cases hdue; exact h.out hp t ht
  · rw [h.idle t (by omega) (by rw [hd]; simp)] at hdue; cases hdue

theorem worker_ok {mode : Nat → Mode} {o : Obs} {s : St} (h : Inv mode o s) :
    ∃ s' e, workerStep s = some (s', e) ∧ Inv mode (o.see mode e) s' ∧ Legal mode o e := by
  unfold workerStep
  by_cases hg : s.phase ≠ .out ∨ s.asleep = true
  · rw [if_pos hg]; exact ⟨s, _, rfl, h, trivial⟩
  · rw [if_neg hg]
    simp only [not_or, not_not] at hg
    cases ht : s.taken with
    | some t =>
      refine ⟨_, _, rfl, ?_, ?_⟩
      · unfold Obs.see
        dsimp only
        rw [if_neg (by rw [h.tmode t ht]; simp)]
        exact ⟨h.ti, h.mem, h.cache, h.dnodup, h.dmode, h.clock, h.armed, h.queued, h.idle, rfl,
          (fun x hx => by cases hx), h.out, h.irq, h.woken, fun _ => rfl⟩
      · unfold Legal
        dsimp only
        rw [if_neg (by rw [h.tmode t ht]; simp), h.run, ht]
    | none =>
      cases hd : s.dlist with
      | nil => exact ⟨s, _, rfl, h, none_due h hg.1 hd, by rw [h.run, ht]⟩
      | cons t r =>
        have hmem : t ∈ s.dlist := by rw [hd]; simp
        have hnd := h.dnodup
        rw [hd] at hnd
        have htr : t ∉ r := (List.nodup_cons.mp hnd).1
        refine ⟨_, _, rfl, ?_, ?_⟩
        · refine ⟨h.ti, h.mem, h.cache, (List.nodup_cons.mp hnd).2, ?_, h.clock, ?_, ?_, ?_, rfl, ?_, h.out,
            h.irq, ?_, ?_⟩
          · intro x hx; exact h.dmode x (by rw [hd]; simp [hx])
          · intro x hx
            change 0 < s.wake x at hx
            show upd o.due t none x = some (s.wake x)
            have : x ≠ t := fun e => by have := (h.dmode t hmem).2; rw [e] at hx; omega
            rw [upd_other this]; exact h.armed x hx
          · intro x hx
            show ∃ d, upd o.due t none x = some d ∧ d ≤ s.now
            have : x ≠ t := fun e => htr (e ▸ hx)
            rw [upd_other this]; exact h.queued x (by rw [hd]; simp [hx])
          · intro x hx hx2
            show upd o.due t none x = none
            by_cases hxt : x = t
            · subst hxt; rw [upd_same]
            · rw [upd_other hxt]
              refine h.idle x hx ?_
              rw [hd]
              intro g
              rcases List.mem_cons.mp g with g | g
              · exact hxt g
              · exact hx2 g
          · intro x hx; cases hx; exact (h.dmode t hmem).1
          · intro ha; exact absurd ha (by simp [hg.2])
          · intro ha; exact absurd ha (by simp [hg.2])
        · obtain ⟨d, h1, h2⟩ := h.queued t hmem
          exact ⟨(h.dmode t hmem).1, by rw [h.run, ht], d, h1, h.clock ▸ h2⟩

theorem sleep_ok {mode : Nat → Mode} {o : Obs} {s : St} (h : Inv mode o s) :
    ∃ s' e, sleepStep s = some (s', e) ∧ Inv mode (o.see mode e) s' ∧ Legal mode o e := by
  unfold sleepStep
  split
  · rename_i hg
    obtain ⟨g1, g2, g3, g4⟩ := hg
    exact ⟨_, _, rfl, ⟨h.ti, h.mem, h.cache, h.dnodup, h.dmode, h.clock, h.armed, h.queued, h.idle, h.run,
      h.tmode, h.out, h.irq, fun _ => Or.inl g4, fun _ => g3⟩, none_due h g1 g4, by rw [h.run, g3]⟩
  · exact ⟨s, _, rfl, h, trivial⟩

theorem step_ok {mode : Nat → Mode} {o : Obs} {s : St} (h : Inv mode o s) (op : Op) (hk : Ok s op) :
    ∃ s' e, step mode s op = some (s', e) ∧ Inv mode (o.see mode e) s' ∧ Legal mode o e := by
  cases op with
  | arm t n =>
    obtain ⟨s', g1, g2⟩ := arm_ok h hk
    exact ⟨s', _, by unfold step; dsimp only; rw [g1]; rfl, g2, trivial⟩
  | armIf t n =>
    obtain ⟨s', b, g1, g2, g3⟩ := armIf_ok h hk
    exact ⟨s', _, by unfold step; dsimp only; rw [g1]; rfl, g2, g3⟩
  | cancel t =>
    obtain ⟨s', b, g1, g2, g3⟩ := cancel_ok (t := t) h
    exact ⟨s', _, by unfold step; dsimp only; rw [g1]; rfl, g2, g3⟩
  | query t => exact ⟨s, _, rfl, h, isArmed_ok h⟩
  | irq => exact irq_ok h hk
  | worker => exact worker_ok h
  | sleep => exact sleep_ok h
  | wakeup =>
    exact ⟨_, _, rfl, ⟨h.ti, h.mem, h.cache, h.dnodup, h.dmode, h.clock, h.armed, h.queued, h.idle, h.run,
      h.tmode, h.out, h.irq, (fun e => by cases e), fun e => by cases e⟩, trivial⟩

/-! ## Histories -/

theorem after_snoc (mode : Nat → Mode) (evs : List Ev) (e : Ev) :
    Obs.after mode (evs ++ [e]) = (Obs.after mode evs).see mode e := by
  unfold Obs.after; rw [List.foldl_append]; rfl

theorem exec_inv {mode : Nat → Mode} {evs : List Ev} {s : St} (h : Exec mode evs s) :
    Inv mode (Obs.after mode evs) s := by
  induction h with
  | nil => exact inv_init mode
  | snoc op _ hk hs ih =>
    obtain ⟨s2, e2, g1, g2, g3⟩ := step_ok ih op hk
    rw [hs] at g1
    cases g1
    rw [after_snoc]
    exact g2

/-- **C32, C33.** No call the code allows corrupts memory or faults. -/
theorem no_fault_partial {mode : Nat → Mode} {evs : List Ev} {s : St} (h : Exec mode evs s) (op : Op)
    (hk : Ok s op) : ∃ s' e, step mode s op = some (s', e) := by
  obtain ⟨s', e, g, _⟩ := step_ok (exec_inv h) op hk
  exact ⟨s', e, g⟩

/-- **C32, C33.** Whatever is seen — callbacks, answers of cancel and query, the ends of the timer
interrupt and of the worker's pass — is what `Legal` allows after what was seen before. -/
theorem history_legal_partial {mode : Nat → Mode} {evs : List Ev} {s : St} (h : Exec mode evs s) :
    LegalHistory mode evs := by
  induction h with
  | nil => intro pre e post he; cases pre <;> cases he
  | @snoc evs0 s0 s1 e0 op hx hk hs ih =>
    obtain ⟨s2, e2, g1, g2, g3⟩ := step_ok (exec_inv hx) op hk
    rw [hs] at g1
    cases g1
    intro pre e post he
    rcases List.eq_nil_or_concat post with rfl | ⟨post', x, rfl⟩
    · obtain ⟨rfl, h2⟩ := List.append_inj' he rfl
      cases h2
      exact g3
    · rw [List.concat_eq_append, ← List.cons_append, ← List.append_assoc] at he
      obtain ⟨h1, -⟩ := List.append_inj' he rfl
      exact ih pre e post' h1

/-- The number of timer interrupts in a piece of history. -/
def ticks (evs : List Ev) : Nat := evs.count .tick

/-- Nothing in this piece of history arms or successfully cancels `t`. -/
def Untouched (t : Nat) (evs : List Ev) : Prop :=
  ∀ e ∈ evs, (∀ n, e ≠ .arm t n) ∧ (∀ n, e ≠ .armIf t n true) ∧ e ≠ .cancel t true

theorem ticks_snoc (m : List Ev) (e : Ev) :
    ticks (m ++ [e]) = ticks m + if e = .tick then 1 else 0 := by
  unfold ticks
  rw [List.count_append, List.count_singleton]
  congr 1
  by_cases h : e = .tick <;> simp [h]

theorem count_snoc (m : List Ev) (e x : Ev) :
    (m ++ [e]).count x = m.count x + if e = x then 1 else 0 := by
  rw [List.count_append, List.count_singleton]
  congr 1
  by_cases h : e = x <;> simp [h]

theorem see_clock (mode : Nat → Mode) (o : Obs) (e : Ev) :
    (o.see mode e).clock = o.clock + if e = .tick then 1 else 0 := by
  cases e with
  | armIf t n b => cases b <;> rfl
  | cancel t b => cases b <;> rfl
  | call t => unfold Obs.see; dsimp only; split <;> rfl
  | _ => rfl

/-- An event that is neither about `t` nor its callback leaves its deadline alone. -/
theorem see_due {mode : Nat → Mode} {o : Obs} {e : Ev} {t : Nat} (h1 : ∀ n, e ≠ .arm t n)
    (h2 : ∀ n, e ≠ .armIf t n true) (h3 : e ≠ .cancel t true) (h4 : e ≠ .take t)
    (h5 : mode t = .irq → e ≠ .call t) : (o.see mode e).due t = o.due t := by
  cases e with
  | arm t' n =>
    exact upd_other (fun g => h1 n (by rw [g]))
  | armIf t' n b =>
    cases b with
    | false => rfl
    | true => exact upd_other (fun g => h2 n (by rw [g]))
  | cancel t' b =>
    cases b with
    | false => rfl
    | true => exact upd_other (fun g => h3 (by rw [g]))
  | take t' => exact upd_other (fun g => h4 (by rw [g]))
  | call t' =>
    unfold Obs.see
    dsimp only
    split
    · rename_i hm
      exact upd_other (fun g => h5 (g ▸ hm) (by rw [g]))
    · rfl
  | _ => rfl

theorem legal_prefix {mode : Nat → Mode} {a b : List Ev} (h : LegalHistory mode (a ++ b)) :
    LegalHistory mode a := by
  intro pre e post he
  exact h pre e (post ++ b) (by rw [he, List.append_assoc, List.cons_append])

/-- The state of an interrupt-mode timer after its last arming. -/
theorem irq_track {mode : Nat → Mode} {t n : Nat} (hm : mode t = .irq) (pre : List Ev) :
    ∀ mid : List Ev, LegalHistory mode (pre ++ .arm t n :: mid) → Untouched t mid →
      let o := Obs.after mode (pre ++ .arm t n :: mid)
      o.clock = (Obs.after mode pre).clock + ticks mid ∧
      ((mid.count (.call t) = 0 ∧ o.due t = some ((Obs.after mode pre).clock + n)) ∨
       (mid.count (.call t) = 1 ∧ o.due t = none ∧ n ≤ ticks mid)) := by
  intro mid
  induction mid using List.reverseRecOn with
  | nil =>
    intro _ _
    dsimp only
    rw [after_snoc]
    exact ⟨rfl, Or.inl ⟨rfl, upd_same _ _ _⟩⟩
  | append_singleton m e ih =>
    intro hl hu
    have e1 : pre ++ Ev.arm t n :: (m ++ [e]) = (pre ++ Ev.arm t n :: m) ++ [e] := by simp
    rw [e1] at hl
    dsimp only
    rw [e1, after_snoc]
    have ihm := ih (legal_prefix hl) (fun x hx => hu x (by simp [hx]))
    dsimp only at ihm
    have hle := hl (pre ++ Ev.arm t n :: m) e [] rfl
    obtain ⟨u1, u2, u3⟩ := hu e (by simp)
    generalize Obs.after mode (pre ++ Ev.arm t n :: m) = o at ihm hle
    obtain ⟨c1, c2⟩ := ihm
    rw [see_clock, c1, ticks_snoc, count_snoc]
    refine ⟨by omega, ?_⟩
    by_cases hc : e = .call t
    · subst hc
      simp only [Legal, hm, if_true] at hle
      have hs : (o.see mode (.call t)).due t = none := by
        unfold Obs.see; dsimp only; rw [if_pos hm]; exact upd_same _ _ _
      rcases c2 with ⟨c2, c3⟩ | ⟨c2, c3, c4⟩
      · rw [hle] at c3
        simp only [Option.some.injEq] at c3
        exact Or.inr ⟨by rw [c2]; simp, hs, by omega⟩
      · rw [c3] at hle; cases hle
    · have ht : e ≠ .take t := by
        intro g; subst g
        have := hle.1
        rw [hm] at this; cases this
      rw [see_due u1 u2 u3 ht (fun _ => hc), if_neg hc]
      rcases c2 with ⟨c2, c3⟩ | ⟨c2, c3, c4⟩
      · exact Or.inl ⟨c2, c3⟩
      · exact Or.inr ⟨c2, c3, by omega⟩

/-- **C32.** In every history, after `ktimer_arm(t, n)` of an interrupt-mode timer, as long as it is not
armed again or cancelled: the callback runs at most once; it runs exactly when `n` timer interrupts
have happened; and once the handler of an interrupt from the `n`-th on has returned it has run exactly
once. -/
theorem irq_fires_once_on_time_partial {mode : Nat → Mode} {t n : Nat} {pre mid : List Ev} {s : St}
    (h : Exec mode (pre ++ .arm t n :: mid) s) (hm : mode t = .irq) (hu : Untouched t mid) :
    mid.count (.call t) ≤ 1 ∧
    (∀ m1 m2, mid = m1 ++ .call t :: m2 → ticks m1 = n) ∧
    (∀ m1 m2, mid = m1 ++ .done :: m2 → n ≤ ticks m1 → m1.count (.call t) = 1) := by
  have hl := history_legal_partial h
  refine ⟨?_, ?_, ?_⟩
  · rcases (irq_track hm pre mid hl hu).2 with g | g
    · rw [g.1]; exact Nat.zero_le _
    · rw [g.1]
  · intro m1 m2 he
    subst he
    have e1 : pre ++ Ev.arm t n :: (m1 ++ .call t :: m2) = (pre ++ Ev.arm t n :: m1) ++ .call t :: m2 := by
      simp
    rw [e1] at hl
    have g := irq_track hm pre m1 (legal_prefix hl) (fun x hx => hu x (by simp [hx]))
    have hle := hl _ _ _ rfl
    simp only [Legal, hm, if_true] at hle
    dsimp only at g
    rcases g.2 with ⟨_, g2⟩ | ⟨_, g2, _⟩
    · rw [hle, g.1] at g2
      simp only [Option.some.injEq] at g2
      omega
    · rw [g2] at hle; cases hle
  · intro m1 m2 he hn
    subst he
    have e1 : pre ++ Ev.arm t n :: (m1 ++ .done :: m2) = (pre ++ Ev.arm t n :: m1) ++ .done :: m2 := by
      simp
    rw [e1] at hl
    have g := irq_track hm pre m1 (legal_prefix hl) (fun x hx => hu x (by simp [hx]))
    have hle := hl _ _ _ rfl
    dsimp only at g
    rcases g.2 with ⟨_, g2⟩ | ⟨g1, _⟩
    · have := hle t _ hm g2
      rw [g.1] at this
      omega
    · exact g1

/-- How an event changes which callback is in flight. -/
theorem see_running (mode : Nat → Mode) (o : Obs) (e : Ev) (he : ∀ t, e ≠ .take t)
    (hc : ∀ t, e ≠ .call t) : (o.see mode e).running = o.running := by
  cases e with
  | armIf t n b => cases b <;> rfl
  | cancel t b => cases b <;> rfl
  | call t => exact absurd rfl (hc t)
  | take t => exact absurd rfl (he t)
  | _ => rfl

/-- 1 if the callback of `t` is in flight. -/
def Obs.inFlight (o : Obs) (t : Nat) : Nat := if o.running = some t then 1 else 0

/-- Callbacks invoked and in flight are those committed to. -/
theorem flight_step {mode : Nat → Mode} {o : Obs} {e : Ev} {t : Nat} (hm : mode t = .deferred)
    (hl : Legal mode o e) :
    (if e = .call t then 1 else 0) + (o.see mode e).inFlight t =
      (if e = .take t then 1 else 0) + o.inFlight t := by
  by_cases h1 : ∃ u, e = .take u
  · obtain ⟨u, rfl⟩ := h1
    have hr : o.running = none := hl.2.1
    have e1 : (o.see mode (.take u)).running = some u := rfl
    unfold Obs.inFlight
    rw [e1, hr]
    by_cases hu : u = t
    · subst hu; simp
    · simp [hu]
  · by_cases h2 : ∃ u, e = .call u
    · obtain ⟨u, rfl⟩ := h2
      by_cases hmu : mode u = .irq
      · have hu : u ≠ t := fun g => by rw [g, hm] at hmu; cases hmu
        unfold Obs.see
        dsimp only
        rw [if_pos hmu, if_neg (by simpa using hu), if_neg (by simp)]
        rfl
      · simp only [Legal, if_neg hmu] at hl
        have e1 : (o.see mode (.call u)).running = none := by
          unfold Obs.see; dsimp only; rw [if_neg hmu]
        unfold Obs.inFlight
        rw [e1, hl]
        by_cases hu : u = t
        · subst hu; simp
        · simp [hu]
    · have e1 : e ≠ .call t := fun g => h2 ⟨t, g⟩
      have e2 : e ≠ .take t := fun g => h1 ⟨t, g⟩
      rw [if_neg e1, if_neg e2]
      unfold Obs.inFlight
      rw [see_running mode o e (fun u g => h1 ⟨u, g⟩) (fun u g => h2 ⟨u, g⟩)]

theorem deferred_track {mode : Nat → Mode} {t n : Nat} (hm : mode t = .deferred) (pre : List Ev) :
    ∀ mid : List Ev, LegalHistory mode (pre ++ .arm t n :: mid) → Untouched t mid →
      let o := Obs.after mode (pre ++ .arm t n :: mid)
      o.clock = (Obs.after mode pre).clock + ticks mid ∧
      mid.count (.call t) + o.inFlight t = mid.count (.take t) + (Obs.after mode pre).inFlight t ∧
      ((mid.count (.take t) = 0 ∧ o.due t = some ((Obs.after mode pre).clock + n)) ∨
       (mid.count (.take t) = 1 ∧ o.due t = none ∧ n ≤ ticks mid)) := by
  intro mid
  induction mid using List.reverseRecOn with
  | nil =>
    intro _ _
    dsimp only
    rw [after_snoc]
    exact ⟨rfl, rfl, Or.inl ⟨rfl, upd_same _ _ _⟩⟩
  | append_singleton m e ih =>
    intro hl hu
    have e1 : pre ++ Ev.arm t n :: (m ++ [e]) = (pre ++ Ev.arm t n :: m) ++ [e] := by simp
    rw [e1] at hl
    dsimp only
    rw [e1, after_snoc]
    have ihm := ih (legal_prefix hl) (fun x hx => hu x (by simp [hx]))
    dsimp only at ihm
    have hle := hl (pre ++ Ev.arm t n :: m) e [] rfl
    obtain ⟨u1, u2, u3⟩ := hu e (by simp)
    generalize Obs.after mode (pre ++ Ev.arm t n :: m) = o at ihm hle
    obtain ⟨c1, c0, c2⟩ := ihm
    have hf := flight_step hm hle
    rw [see_clock, c1, ticks_snoc, count_snoc, count_snoc]
    refine ⟨by omega, by omega, ?_⟩
    by_cases hc : e = .take t
    · subst hc
      have hs : (o.see mode (.take t)).due t = none := upd_same _ _ _
      obtain ⟨_, _, d, l1, l2⟩ := hle
      rcases c2 with ⟨c2, c3⟩ | ⟨c2, c3, c4⟩
      · rw [l1] at c3
        simp only [Option.some.injEq] at c3
        exact Or.inr ⟨by rw [c2]; simp, hs, by omega⟩
      · rw [c3] at l1; cases l1
    · rw [see_due u1 u2 u3 hc (fun g => by rw [hm] at g; cases g), if_neg hc]
      rcases c2 with ⟨c2, c3⟩ | ⟨c2, c3, c4⟩
      · exact Or.inl ⟨c2, c3⟩
      · exact Or.inr ⟨c2, c3, by omega⟩

/-- **C32.** In every history, after `ktimer_arm(t, n)` of a deferred-mode timer, no callback of it being in
flight, as long as it is not armed again or cancelled: the callback runs at most once; not before `n`
timer interrupts have happened; and once worker thread 0 has finished a pass over the pending
callbacks, or has gone to sleep, with `n` interrupts behind, it has run exactly once. -/
theorem deferred_fires_once_partial {mode : Nat → Mode} {t n : Nat} {pre mid : List Ev} {s : St}
    (h : Exec mode (pre ++ .arm t n :: mid) s) (hm : mode t = .deferred) (hu : Untouched t mid)
    (hr : (Obs.after mode pre).running ≠ some t) :
    mid.count (.call t) ≤ 1 ∧
    (∀ m1 m2, mid = m1 ++ .call t :: m2 → n ≤ ticks m1) ∧
    (∀ m1 e m2, mid = m1 ++ e :: m2 → e = .drained ∨ e = .slept → n ≤ ticks m1 →
      m1.count (.call t) = 1) := by
  have hl := history_legal_partial h
  have h0 : (Obs.after mode pre).inFlight t = 0 := if_neg hr
  refine ⟨?_, ?_, ?_⟩
  · have g := deferred_track hm pre mid hl hu
    dsimp only at g
    rcases g.2.2 with g2 | g2 <;> omega
  · intro m1 m2 he
    subst he
    have e1 : pre ++ Ev.arm t n :: (m1 ++ .call t :: m2) = (pre ++ Ev.arm t n :: m1) ++ .call t :: m2 := by
      simp
    rw [e1] at hl
    have g := deferred_track hm pre m1 (legal_prefix hl) (fun x hx => hu x (by simp [hx]))
    have hle := hl _ _ _ rfl
    simp only [Legal, hm, reduceCtorEq, if_false] at hle
    dsimp only at g
    unfold Obs.inFlight at g
    rw [if_pos hle, if_neg hr] at g
    rcases g.2.2 with g2 | g2 <;> omega
  · intro m1 e m2 he hd hn
    subst he
    have e1 : pre ++ Ev.arm t n :: (m1 ++ e :: m2) = (pre ++ Ev.arm t n :: m1) ++ e :: m2 := by
      simp
    rw [e1] at hl
    have g := deferred_track hm pre m1 (legal_prefix hl) (fun x hx => hu x (by simp [hx]))
    have hle := hl _ _ _ rfl
    have hle2 : (Obs.after mode (pre ++ Ev.arm t n :: m1)).NoneDue mode .deferred ∧
        (Obs.after mode (pre ++ Ev.arm t n :: m1)).running = none := by
      rcases hd with rfl | rfl <;> exact hle
    dsimp only at g
    obtain ⟨l1, l2⟩ := hle2
    have hf : (Obs.after mode (pre ++ Ev.arm t n :: m1)).inFlight t = 0 := by
      unfold Obs.inFlight; rw [l2, if_neg (by simp)]
    rcases g.2.2 with ⟨_, g2⟩ | ⟨g1, _⟩
    · have := l1 t _ hm g2
      rw [g.1] at this
      omega
    · omega

/-- Without an outstanding arming or a callback in flight there is no callback. -/
theorem quiet_track {mode : Nat → Mode} {t : Nat} (pre : List Ev)
    (hd : (Obs.after mode pre).due t = none)
    (hr : mode t = .deferred → (Obs.after mode pre).running ≠ some t) :
    ∀ mid : List Ev, LegalHistory mode (pre ++ mid) →
      (∀ e ∈ mid, (∀ n, e ≠ .arm t n) ∧ ∀ n, e ≠ .armIf t n true) →
      Ev.call t ∉ mid ∧ (Obs.after mode (pre ++ mid)).due t = none ∧
      (mode t = .deferred → (Obs.after mode (pre ++ mid)).running ≠ some t) := by
  intro mid
  induction mid using List.reverseRecOn with
  | nil => intro _ _; simpa using ⟨hd, hr⟩
  | append_singleton m e ih =>
    intro hl hu
    rw [← List.append_assoc] at hl ⊢
    obtain ⟨g1, g2, g3⟩ := ih (legal_prefix hl) (fun x hx => hu x (by simp [hx]))
    have hle := hl (pre ++ m) e [] rfl
    obtain ⟨u1, u2⟩ := hu e (by simp)
    rw [after_snoc]
    generalize Obs.after mode (pre ++ m) = o at g2 g3 hle
    have hnc : e ≠ .call t := by
      rintro rfl
      by_cases hm : mode t = .irq
      · simp only [Legal, hm, if_true, g2] at hle; cases hle
      · simp only [Legal, if_neg hm] at hle
        exact g3 (by cases hh : mode t <;> simp_all) hle
    have hnt : e ≠ .take t := by
      rintro rfl
      obtain ⟨_, _, d, l1, _⟩ := hle
      rw [g2] at l1; cases l1
    refine ⟨?_, ?_, ?_⟩
    · intro hx
      rcases List.mem_append.mp hx with hx | hx
      · exact g1 hx
      · exact hnc (List.mem_singleton.mp hx).symm
    · by_cases hcn : e = .cancel t true
      · subst hcn; exact upd_same _ _ _
      · rw [see_due u1 u2 hcn hnt (fun _ => hnc)]; exact g2
    · intro hm
      have := flight_step (t := t) hm hle
      rw [if_neg hnc, if_neg hnt] at this
      unfold Obs.inFlight at this
      rw [if_neg (g3 hm)] at this
      intro hx
      rw [if_pos hx] at this
      cases this

/-- **C33.** `ktimer_cancel(t)` returns true exactly when an arming is outstanding: not yet called back,
committed to or cancelled.  If it returns true, and no callback of an earlier arming is in flight,
the callback does not run until the timer is armed again. -/
theorem cancel_truth_partial {mode : Nat → Mode} {t : Nat} {b : Bool} {pre mid : List Ev} {s : St}
    (h : Exec mode (pre ++ .cancel t b :: mid) s) :
    (b = true ↔ ∃ d, (Obs.after mode pre).due t = some d) ∧
    (b = true → (mode t = .deferred → (Obs.after mode pre).running ≠ some t) →
      (∀ e ∈ mid, (∀ n, e ≠ .arm t n) ∧ ∀ n, e ≠ .armIf t n true) → Ev.call t ∉ mid) := by
  have hl := history_legal_partial h
  refine ⟨?_, ?_⟩
  · have := hl pre (.cancel t b) mid rfl
    rw [show b = _ from this, Option.isSome_iff_exists]
  · intro hb hr hu
    subst hb
    have e1 : pre ++ Ev.cancel t true :: mid = (pre ++ [Ev.cancel t true]) ++ mid := by simp
    rw [e1] at hl
    refine (quiet_track (pre ++ [Ev.cancel t true]) ?_ ?_ mid hl hu).1
    · rw [after_snoc]; exact upd_same _ _ _
    · intro hm; rw [after_snoc]; exact hr hm

/-- **C33.** If `ktimer_cancel(t)` returns false the timer was idle: until it is armed again the only
callback that can run is one the worker has already committed to. -/
theorem cancel_false_partial {mode : Nat → Mode} {t : Nat} {pre mid : List Ev} {s : St}
    (h : Exec mode (pre ++ .cancel t false :: mid) s)
    (hu : ∀ e ∈ mid, (∀ n, e ≠ .arm t n) ∧ ∀ n, e ≠ .armIf t n true)
    (hr : mode t = .deferred → (Obs.after mode pre).running ≠ some t) : Ev.call t ∉ mid := by
  have hl := history_legal_partial h
  have hd : (Obs.after mode pre).due t = none := by
    have := hl pre (.cancel t false) mid rfl
    exact Option.not_isSome_iff_eq_none.mp (by rw [← show false = _ from this]; simp)
  have e1 : pre ++ Ev.cancel t false :: mid = (pre ++ [Ev.cancel t false]) ++ mid := by simp
  rw [e1] at hl
  refine (quiet_track (pre ++ [Ev.cancel t false]) ?_ ?_ mid hl hu).1
  · rw [after_snoc]; exact hd
  · intro hm; rw [after_snoc]; exact hr hm

/-- **C60.** Outside the timer interrupt, worker thread 0 is never asleep while a deferred callback is
due or in flight. -/
theorem worker_not_asleep_partial {mode : Nat → Mode} {evs : List Ev} {s : St} (h : Exec mode evs s)
    (hp : s.phase = .out) (ha : s.asleep = true) :
    (Obs.after mode evs).NoneDue mode .deferred ∧ (Obs.after mode evs).running = none := by
  have hi := exec_inv h
  rcases hi.woken ha with g | g
  · exact ⟨none_due hi hp g, by rw [hi.run, hi.tsleep ha]⟩
  · rw [hp] at g; cases g

/-! ## The interrupt handler ends -/

/-- Timers that have expired and are still in the tree. -/
def dueCount (s : St) : Nat := ((toList s.tree).filter (fun t => decide (s.wake t ≤ s.now))).length

theorem length_le_of_subset {L M : List Nat} (hn : L.Nodup) (h : ∀ x ∈ L, x ∈ M) : L.length ≤ M.length := by
  induction L generalizing M with
  | nil => exact Nat.zero_le _
  | cons a r ih =>
    obtain ⟨h1, h2⟩ := List.nodup_cons.mp hn
    have ha : a ∈ M := h a (by simp)
    have := ih (M := M.erase a) h2 (by
      intro x hx
      have hxa : x ≠ a := fun e => h1 (e ▸ hx)
      exact (List.mem_erase_of_ne hxa).mpr (h x (by simp [hx])))
    rw [List.length_erase_of_mem ha] at this
    have : 0 < M.length := List.length_pos_of_mem ha
    simp only [List.length_cons]
    omega

theorem dueCount_le {mode : Nat → Mode} {o o' : Obs} {s s' : St} (h : Inv mode o s) (h' : Inv mode o' s')
    (hs : ∀ t, 0 < s'.wake t → s'.wake t ≤ s'.now → s.wake t = s'.wake t ∧ s.wake t ≤ s.now) :
    dueCount s' ≤ dueCount s := by
  refine length_le_of_subset (List.Pairwise.filter _ h'.ti.nodup) ?_
  intro x hx
  rw [List.mem_filter, h'.mem] at hx
  simp only [decide_eq_true_eq] at hx
  obtain ⟨g1, g2⟩ := hs x hx.1 hx.2
  rw [List.mem_filter, h.mem]
  simp only [decide_eq_true_eq]
  exact ⟨by omega, g2⟩

theorem dueCount_lt {mode : Nat → Mode} {o o' : Obs} {s s' : St} (h : Inv mode o s) (h' : Inv mode o' s')
    (hs : ∀ t, 0 < s'.wake t → s'.wake t ≤ s'.now → s.wake t = s'.wake t ∧ s.wake t ≤ s.now) (u : Nat)
    (h1 : 0 < s.wake u) (h2 : s.wake u ≤ s.now) (h3 : s'.wake u = 0) :
    dueCount s' < dueCount s := by
  have hu : u ∈ (toList s.tree).filter (fun t => decide (s.wake t ≤ s.now)) := by
    rw [List.mem_filter, h.mem]
    simp only [decide_eq_true_eq]
    exact ⟨h1, h2⟩
  have := length_le_of_subset (L := (toList s'.tree).filter (fun t => decide (s'.wake t ≤ s'.now)))
    (M := ((toList s.tree).filter (fun t => decide (s.wake t ≤ s.now))).erase u)
    (List.Pairwise.filter _ h'.ti.nodup) (by
      intro x hx
      rw [List.mem_filter, h'.mem] at hx
      simp only [decide_eq_true_eq] at hx
      obtain ⟨g1, g2⟩ := hs x hx.1 hx.2
      have hxu : x ≠ u := fun e => by rw [e, h3] at hx; omega
      rw [List.mem_erase_of_ne hxu, List.mem_filter, h.mem]
      simp only [decide_eq_true_eq]
      exact ⟨by omega, g2⟩)
  rw [List.length_erase_of_mem hu] at this
  have hp : 0 < dueCount s := List.length_pos_of_mem hu
  unfold dueCount at hp ⊢
  omega

theorem place_wake {s s' : St} {tr : Tree Nat} {t n : Nat} (h : place s tr t n = some s')
    (hw : s.now + n < 2 ^ 64) : s'.wake = upd s.wake t (s.now + n) ∧ s'.now = s.now := by
  unfold place at h
  rw [Option.map_eq_some_iff] at h
  obtain ⟨tr', _, rfl⟩ := h
  have hu : u64 (s.now + n) = s.now + n := Nat.mod_eq_of_lt hw
  exact ⟨by dsimp only; rw [hu], rfl⟩

/-- What a step does to the deadlines, apart from the clock. -/
theorem wake_cases {mode : Nat → Mode} {o : Obs} {s s' : St} {op : Op} {e : Ev} (h : Inv mode o s)
    (hk : Ok s op) (hs : step mode s op = some (s', e)) (hne : e ≠ .tick) :
    s'.now = s.now ∧ ∀ t, s'.wake t = s.wake t ∨ s'.wake t = 0 ∨ s.now < s'.wake t := by
  have key : ∀ {t n : Nat} {tr : Tree Nat} {s1 : St}, place s tr t n = some s1 → 0 < n →
      s.now + n < 2 ^ 64 →
      s1.now = s.now ∧ ∀ x, s1.wake x = s.wake x ∨ s1.wake x = 0 ∨ s.now < s1.wake x := by
    intro t n tr s1 hp hn hw
    obtain ⟨g1, g2⟩ := place_wake hp hw
    refine ⟨g2, fun x => ?_⟩
    rw [g1]
    by_cases hx : x = t
    · subst hx; rw [upd_same]; exact Or.inr (Or.inr (by omega))
    · rw [upd_other hx]; exact Or.inl rfl
  have zero : ∀ t x, upd s.wake t 0 x = s.wake x ∨ upd s.wake t 0 x = 0 ∨ s.now < upd s.wake t 0 x := by
    intro t x
    by_cases hx : x = t
    · subst hx; rw [upd_same]; exact Or.inr (Or.inl rfl)
    · rw [upd_other hx]; exact Or.inl rfl
  cases op with
  | arm t n =>
    simp only [step, Option.map_eq_some_iff] at hs
    obtain ⟨s1, g, he⟩ := hs
    cases he
    unfold arm at g
    split at g
    · rw [Option.bind_eq_some_iff] at g
      obtain ⟨tr, _, g⟩ := g
      exact key g hk.1 hk.2.1
    · exact key g hk.1 hk.2.1
  | armIf t n =>
    simp only [step, Option.map_eq_some_iff] at hs
    obtain ⟨⟨s1, b⟩, g, he⟩ := hs
    cases he
    unfold armIf at g
    split at g
    · rw [Option.bind_eq_some_iff] at g
      obtain ⟨tr, _, g⟩ := g
      rw [Option.map_eq_some_iff] at g
      obtain ⟨s2, g, e2⟩ := g
      cases e2
      exact key g hk.1 hk.2
    · cases g; exact ⟨rfl, fun _ => Or.inl rfl⟩
  | cancel t =>
    simp only [step, Option.map_eq_some_iff] at hs
    obtain ⟨⟨s1, b⟩, g, he⟩ := hs
    cases he
    unfold cancel at g
    split at g
    · rw [Option.map_eq_some_iff] at g
      obtain ⟨tr, _, e2⟩ := g
      cases e2
      exact ⟨rfl, zero t⟩
    · split at g
      · cases g; exact ⟨rfl, fun _ => Or.inl rfl⟩
      · cases g; exact ⟨rfl, fun _ => Or.inl rfl⟩
  | query t => cases hs; exact ⟨rfl, fun _ => Or.inl rfl⟩
  | irq =>
    simp only [step] at hs
    unfold irqStep at hs
    split at hs
    · cases hs; exact absurd rfl hne
    · split at hs
      · cases hs; exact ⟨rfl, fun _ => Or.inl rfl⟩
      · cases hs; exact ⟨rfl, fun _ => Or.inl rfl⟩
    · unfold iter at hs
      split at hs
      · cases hs; exact ⟨rfl, fun _ => Or.inl rfl⟩
      · split at hs
        · cases hs; exact ⟨rfl, fun _ => Or.inl rfl⟩
        · unfold expire at hs
          rw [Option.bind_eq_some_iff] at hs
          obtain ⟨tr, _, hs⟩ := hs
          split at hs
          · cases hs; exact ⟨rfl, zero _⟩
          · split at hs
            · cases hs
            · cases hs; exact ⟨rfl, zero _⟩
  | worker =>
    simp only [step] at hs
    unfold workerStep at hs
    (repeat' split at hs) <;> (cases hs; exact ⟨rfl, fun _ => Or.inl rfl⟩)
  | sleep =>
    simp only [step] at hs
    unfold sleepStep at hs
    split at hs <;> (cases hs; exact ⟨rfl, fun _ => Or.inl rfl⟩)
  | wakeup => cases hs; exact ⟨rfl, fun _ => Or.inl rfl⟩

/-- **C32.** The handler's loop cannot run forever: between two timer interrupts no call by anyone makes
another timer due (callbacks can only arm timers for later ticks), and each round of the loop that
does not end the handler deals with one of those that are. -/
theorem handler_progress_partial {mode : Nat → Mode} {evs : List Ev} {s s' : St} {op : Op} {e : Ev}
    (h : Exec mode evs s) (hk : Ok s op) (hs : step mode s op = some (s', e)) (hne : e ≠ .tick) :
    dueCount s' ≤ dueCount s ∧
    (op = .irq → (∃ q, s.phase = .loop q) → e ≠ .done → dueCount s' < dueCount s) := by
  have hi := exec_inv h
  obtain ⟨s2, e2, g1, g2, g3⟩ := step_ok hi op hk
  rw [hs] at g1
  cases g1
  obtain ⟨hn, hw⟩ := wake_cases hi hk hs hne
  have hmono : ∀ t, 0 < s'.wake t → s'.wake t ≤ s'.now → s.wake t = s'.wake t ∧ s.wake t ≤ s.now := by
    intro t h1 h2
    rw [hn] at h2
    rcases hw t with g | g | g
    · exact ⟨g.symm, by omega⟩
    · omega
    · omega
  refine ⟨dueCount_le hi g2 hmono, ?_⟩
  rintro rfl ⟨q, hq⟩ hd
  simp only [step] at hs
  unfold irqStep at hs
  rw [hq] at hs
  dsimp only at hs
  unfold iter at hs
  split at hs
  · cases hs; exact absurd rfl hd
  · rename_i hnd
    cases he : s.earliest with
    | none => rw [he] at hs; cases hs; exact absurd rfl hd
    | some t =>
      rw [he] at hs
      dsimp only at hs
      have hm := first_min hi.ti (hi.cache ▸ he)
      have ht : 0 < s.wake t := (hi.mem t).mp hm.1
      have hle : s.wake t ≤ s.now := by
        unfold nothingDue at hnd
        rw [he] at hnd
        simp only [decide_eq_true_eq] at hnd
        omega
      refine dueCount_lt hi g2 hmono t ht hle ?_
      unfold expire at hs
      rw [Option.bind_eq_some_iff] at hs
      obtain ⟨tr, _, hs⟩ := hs
      split at hs
      · cases hs; exact upd_same _ _ _
      · split at hs
        · cases hs
        · cases hs; exact upd_same _ _ _

/-! ## Examples and violations -/

def run (mode : Nat → Mode) : St → List Op → Option (St × List Ev)
  | s, [] => some (s, [])
  | s, op :: r => (step mode s op).bind fun x => (run mode x.1 r).map fun y => (y.1, x.2 :: y.2)

/-- What the calls of a scenario show, from boot. -/
def seen (mode : Nat → Mode) (ops : List Op) : Option (List Ev) := (run mode init ops).map (·.2)

instance (s : St) (op : Op) : Decidable (Ok s op) := by
  cases op <;> (unfold Ok; infer_instance)

/-- Callers respect `Ok` all along. -/
def okRun (mode : Nat → Mode) : St → List Op → Bool
  | _, [] => true
  | s, op :: r => decide (Ok s op) && (match step mode s op with
    | none => true
    | some x => okRun mode x.1 r)

theorem exec_run {mode : Nat → Mode} {ops : List Op} : ∀ {evs : List Ev} {s s' : St} {out : List Ev},
    Exec mode evs s → okRun mode s ops = true → run mode s ops = some (s', out) → Exec mode (evs ++ out) s' := by
  induction ops with
  | nil => intro evs s s' out h _ hr; cases hr; simpa using h
  | cons op r ih =>
    intro evs s s' out h hk hr
    unfold run at hr
    rw [Option.bind_eq_some_iff] at hr
    obtain ⟨⟨s1, e⟩, h1, hr⟩ := hr
    rw [Option.map_eq_some_iff] at hr
    obtain ⟨⟨s2, out2⟩, h2, he⟩ := hr
    cases he
    unfold okRun at hk
    rw [Bool.and_eq_true, decide_eq_true_eq, h1] at hk
    have := ih (.snoc op h hk.1 h1) hk.2 h2
    simpa using this

/-- Timers with even addresses run in the interrupt, the others in the worker. -/
def evenIrq (t : Nat) : Mode := if t % 2 = 0 then .irq else .deferred

/-- Three timers: two due at tick 2 (one of each kind), one cancelled. -/
def demo : List Op :=
  [.arm 10 2, .arm 11 2, .arm 12 1, .cancel 12, .irq, .irq, .worker, .sleep, .irq, .irq, .irq, .irq, .irq, .worker, .worker,
   .worker, .sleep]

theorem demo_seen : seen evenIrq demo = some
    [.arm 10 2, .arm 11 2, .arm 12 1, .cancel 12 true, .tick, .done, .drained, .slept, .tick, .quiet,
     .call 10, .quiet, .done, .take 11, .call 11, .drained, .slept] := by decide +kernel

/-- A scenario that respects `Ok` is a history. -/
theorem exec_seen {mode : Nat → Mode} {ops : List Op} {evs : List Ev} (h : seen mode ops = some evs)
    (hk : okRun mode init ops = true) : ∃ s, Exec mode evs s := by
  unfold seen at h
  rw [Option.map_eq_some_iff] at h
  obtain ⟨⟨s, o⟩, h1, rfl⟩ := h
  exact ⟨s, exec_run .nil hk h1⟩

/-- The theorems above apply to it: to the interrupt-mode timer 10, … -/
example : ∃ s, Exec evenIrq ([] ++ .arm 10 2 ::
    [.arm 11 2, .arm 12 1, .cancel 12 true, .tick, .done, .drained, .slept, .tick, .quiet,
     .call 10, .quiet, .done, .take 11, .call 11, .drained, .slept]) s ∧ evenIrq 10 = .irq ∧
    Untouched 10 [.arm 11 2, .arm 12 1, .cancel 12 true, .tick, .done, .drained, .slept, .tick, .quiet,
     .call 10, .quiet, .done, .take 11, .call 11, .drained, .slept] := by
  obtain ⟨s, hs⟩ := exec_seen demo_seen (by decide +kernel)
  exact ⟨s, hs, rfl, by unfold Untouched; simp⟩

/-- … to the deferred timer 11 … -/
example : ∃ s, Exec evenIrq ([.arm 10 2] ++ .arm 11 2 ::
    [.arm 12 1, .cancel 12 true, .tick, .done, .drained, .slept, .tick, .quiet,
     .call 10, .quiet, .done, .take 11, .call 11, .drained, .slept]) s ∧ evenIrq 11 = .deferred ∧
    Untouched 11 [.arm 12 1, .cancel 12 true, .tick, .done, .drained, .slept, .tick, .quiet,
     .call 10, .quiet, .done, .take 11, .call 11, .drained, .slept] ∧
    (Obs.after evenIrq [.arm 10 2]).running ≠ some 11 := by
  obtain ⟨s, hs⟩ := exec_seen demo_seen (by decide +kernel)
  exact ⟨s, hs, rfl, by unfold Untouched; simp, by decide⟩

/-- … and to the cancelled timer 12. -/
example : ∃ s, Exec evenIrq ([.arm 10 2, .arm 11 2, .arm 12 1] ++ .cancel 12 true ::
    [.tick, .done, .drained, .slept, .tick, .quiet,
     .call 10, .quiet, .done, .take 11, .call 11, .drained, .slept]) s := by
  obtain ⟨s, hs⟩ := exec_seen demo_seen (by decide +kernel)
  exact ⟨s, hs⟩

/-- **C32 violated without the 64-bit guard.**  `ktimer_arm(t, 2^64 - 1)`, e.g. from a sleep request for "ever",
fires at the next tick once the clock is past 1: the sum wraps (timer.c:140). -/
theorem arm_wrap_violated : seen evenIrq [.irq, .irq, .irq, .irq, .arm 10 (2 ^ 64 - 1), .irq, .irq, .irq] = some
    [.tick, .done, .tick, .done, .arm 10 (2 ^ 64 - 1), .tick, .quiet, .call 10] := by decide +kernel

/-- **C33 violated when a deferred timer is armed while its expiry is queued.**  `ktimer_cancel` returns
true and the callback still runs: only the tree is looked at (timer.c:195-227). -/
theorem cancel_queued_violated :
    seen evenIrq [.arm 11 1, .irq, .irq, .irq, .irq, .arm 11 5, .cancel 11, .worker, .worker] = some
      [.arm 11 1, .tick, .quiet, .quiet, .done, .arm 11 5, .cancel 11 true, .take 11, .call 11] := by
  decide +kernel

/-- **C32 violated when a deferred timer is armed while its expiry is queued.**  If it expires again
before the worker runs, the timer is linked twice into the list (timer.c:339): memory corruption. -/
theorem queue_twice_violated :
    seen evenIrq [.arm 11 1, .irq, .irq, .irq, .irq, .arm 11 1, .irq, .irq, .irq] = none := by decide +kernel

end Verif.Timer
