import Verif.Kmutex

/-!
# Reader-preferring reader-writer lock (`kernel/rwlock.c:6-56`)

`readers_lock` is a mutex held across `ksem_wait`, so a call is not one atomic step: the model gives every
task a program counter and interleaves the steps of all tasks freely.  The mutex and the semaphore are used
through their specifications (`Verif.Kmutex`, `Verif.Ksem`): a task waiting for one of them takes its next
step only when the mutex is free / the counter is positive.  `ex_owner` (debug builds only) is left out.
-/

namespace Verif.RwlockRp

open Verif.Kmutex (Tid upd upd_same upd_other some_pair)

/-- Program counters.
`sh0`: rwlock.c:24 waiting for `readers_lock`; `sh1`: line 27, waiting for `writers_sem`; `sh2`: line 29;
`su0`: line 34; `su1`: line 39; `ex0`: line 44. -/
inductive PC | out | sh0 | sh1 | sh2 | su0 | su1 | ex0
deriving DecidableEq, Repr

/-- `struct rwlock_rp` (include/tilck/kernel/rwlock.h): counter of `writers_sem`, owner of `readers_lock`,
`readers_count`; and the program counters. -/
structure St where
  sem : Int
  rl : Option Tid
  rc : Int
  pc : Tid → PC

/-- API-visible events: a lock call returned, an unlock call was made. -/
inductive Ev
  | shAcq (t : Tid)
  | shRel (t : Tid)
  | exAcq (t : Tid)
  | exRel (t : Tid)
deriving DecidableEq, Repr

/-- A task calls one of the four functions, or a task inside a call takes its next step. -/
inductive Op
  | shlock (t : Tid)
  | shunlock (t : Tid)
  | exlock (t : Tid)
  | exunlock (t : Tid)
  | run (t : Tid)
deriving DecidableEq, Repr

/-- rwlock.c:6-12. -/
def init : St := { sem := 1, rl := none, rc := 0, pc := fun _ => .out }

/-- `ksem_signal(&r->writers_sem, 1)` on a semaphore with max 1 (ksem.c:107-130): the unit is dropped with
-EDQUOT when the counter is already at its maximum. -/
def semSignal (c : Int) : Int := if c > 1 - 1 then c else c + 1

/-- The next step of a task inside a call; `none` if it must wait. -/
def run (s : St) (t : Tid) : Option (St × List Ev) :=
  match s.pc t with
  | .out => none
  | .sh0 =>
      if s.rl = none then
        some ({ s with rl := some t, rc := s.rc + 1,
                       pc := upd s.pc t (if s.rc + 1 = 1 then .sh1 else .sh2) }, [])
      else none
  | .sh1 => if s.sem ≥ 1 then some ({ s with sem := s.sem - 1, pc := upd s.pc t .sh2 }, []) else none
  | .sh2 => some ({ s with rl := none, pc := upd s.pc t .out }, [.shAcq t])
  | .su0 =>
      if s.rl = none then
        some ({ s with rl := some t, rc := s.rc - 1,
                       sem := if s.rc - 1 = 0 then semSignal s.sem else s.sem,
                       pc := upd s.pc t .su1 }, [])
      else none
  | .su1 => some ({ s with rl := none, pc := upd s.pc t .out }, [])
  | .ex0 => if s.sem ≥ 1 then some ({ s with sem := s.sem - 1, pc := upd s.pc t .out }, [.exAcq t]) else none

/-- One step of the system. -/
def step (s : St) : Op → Option (St × List Ev)
  | .shlock t => if s.pc t = .out then some ({ s with pc := upd s.pc t .sh0 }, []) else none
  | .shunlock t => if s.pc t = .out then some ({ s with pc := upd s.pc t .su0 }, [.shRel t]) else none
  | .exlock t => if s.pc t = .out then some ({ s with pc := upd s.pc t .ex0 }, []) else none
  | .exunlock t => if s.pc t = .out then some ({ s with sem := semSignal s.sem }, [.exRel t]) else none
  | .run t => run s t

/-! ## Specification -/

/-- Number of shared holds of `t`. -/
def sharedHolds (t : Tid) : List Ev → Int
  | [] => 0
  | .shAcq u :: r => (if u = t then 1 else 0) + sharedHolds t r
  | .shRel u :: r => (if u = t then -1 else 0) + sharedHolds t r
  | _ :: r => sharedHolds t r

/-- Number of exclusive holds of `t`. -/
def exHolds (t : Tid) : List Ev → Int
  | [] => 0
  | .exAcq u :: r => (if u = t then 1 else 0) + exHolds t r
  | .exRel u :: r => (if u = t then -1 else 0) + exHolds t r
  | _ :: r => exHolds t r

/-- Caller rules: release only what is held. -/
def Contract (evs : List Ev) : Op → Prop
  | .shunlock t => 0 < sharedHolds t evs
  | .exunlock t => 0 < exHolds t evs
  | _ => True

/-- All interleavings. -/
inductive Exec : St → List Ev → Prop
  | init : Exec init []
  | step {s evs op s' es} : Exec s evs → Contract evs op → step s op = some (s', es) →
      Exec s' (evs ++ es)

/-! ## Proofs -/

theorem sh_append (t : Tid) (a b : List Ev) : sharedHolds t (a ++ b) = sharedHolds t a + sharedHolds t b := by
  induction a with
  | nil => simp [sharedHolds]
  | cons e a ih => cases e <;> simp [sharedHolds, ih] <;> omega

theorem ex_append (t : Tid) (a b : List Ev) : exHolds t (a ++ b) = exHolds t a + exHolds t b := by
  induction a with
  | nil => simp [exHolds]
  | cons e a ih => cases e <;> simp [exHolds, ih] <;> omega

/-- Who owns the single unit of `writers_sem`. -/
inductive Own | nobody | readers | ex (t : Tid)
deriving DecidableEq

/-- 1 while the task is counted in `readers_count` without (officially) holding the lock. -/
def inReg : PC → Int
  | .sh1 => 1
  | .sh2 => 1
  | .su0 => 1
  | _ => 0

structure Inv (s : St) (evs : List Ev) (R : List Tid) (o : Own) : Prop where
  rcLen : s.rc = R.length
  rcount : ∀ t, (R.count t : Int) = sharedHolds t evs + inReg (s.pc t)
  lock : ∀ t, s.rl = some t ↔ s.pc t = .sh1 ∨ s.pc t = .sh2 ∨ s.pc t = .su1
  shNonneg : ∀ t, 0 ≤ sharedHolds t evs
  sh1rc : ∀ t, s.pc t = .sh1 → s.rc = 1
  sem : s.sem = if o = .nobody then 1 else 0
  readers : o = .readers ↔ 0 < s.rc ∧ ∀ t, s.pc t ≠ .sh1
  ex : ∀ t, exHolds t evs = if o = .ex t then 1 else 0

theorem inv_init : Inv init [] [] .nobody := by
  constructor <;> simp [init, sharedHolds, exHolds, inReg]

theorem lock_unique {s evs R o} (h : Inv s evs R o) {t u : Tid}
    (ht : s.pc t = .sh1 ∨ s.pc t = .sh2 ∨ s.pc t = .su1)
    (hu : s.pc u = .sh1 ∨ s.pc u = .sh2 ∨ s.pc u = .su1) : u = t := by
  have h1 := (h.lock t).2 ht
  have h2 := (h.lock u).2 hu
  rw [h1] at h2; cases h2; rfl

/-- A change of `pc t` alone that keeps all abstract facts. -/
theorem inv_move {s evs R o} (h : Inv s evs R o) (t : Tid) (v : PC) (es : List Ev)
    (hlk : ¬ (s.pc t = .sh1 ∨ s.pc t = .sh2 ∨ s.pc t = .su1))
    (hlk' : ¬ (v = .sh1 ∨ v = .sh2 ∨ v = .su1))
    (hc : ∀ u, sharedHolds u es = if u = t then inReg (s.pc t) - inReg v else 0)
    (hn : 0 ≤ sharedHolds t (evs ++ es))
    (he : ∀ u, exHolds u es = 0) :
    Inv { s with pc := upd s.pc t v } (evs ++ es) R o := by
  simp only [not_or] at hlk hlk'
  constructor
  · exact h.rcLen
  · intro u; rw [sh_append, hc, h.rcount]
    show _ = _ + inReg (upd s.pc t v u)
    by_cases e : u = t
    · subst e; rw [upd_same]; simp; omega
    · rw [upd_other _ _ e]; simp [e]
  · intro u; show s.rl = some u ↔ upd s.pc t v u = _ ∨ upd s.pc t v u = _ ∨ upd s.pc t v u = _
    by_cases e : u = t
    · subst e; rw [upd_same, h.lock]; simp [hlk, hlk']
    · rw [upd_other _ _ e]; exact h.lock u
  · intro u
    by_cases e : u = t
    · subst e; exact hn
    · rw [sh_append, hc]; simp [e]; exact h.shNonneg u
  · intro u; show upd s.pc t v u = _ → _
    by_cases e : u = t
    · subst e; rw [upd_same]; intro e; exact absurd e hlk'.1
    · rw [upd_other _ _ e]; exact h.sh1rc u
  · exact h.sem
  · rw [h.readers]
    show _ ↔ 0 < s.rc ∧ ∀ u, upd s.pc t v u ≠ _
    constructor
    · intro ⟨a, b⟩; refine ⟨a, fun u => ?_⟩
      by_cases e : u = t
      · subst e; rw [upd_same]; exact hlk'.1
      · rw [upd_other _ _ e]; exact b u
    · intro ⟨a, b⟩; refine ⟨a, fun u => ?_⟩
      by_cases e : u = t
      · subst e; exact hlk.1
      · have := b u; rw [upd_other _ _ e] at this; exact this
  · intro u; rw [ex_append, he, h.ex]; simp

theorem inv_run {s evs R o t s' es} (h : Inv s evs R o) (hs : run s t = some (s', es)) :
    ∃ R' o', Inv s' (evs ++ es) R' o' := by
  unfold run at hs
  split at hs
  · cases hs
  · -- sh0
    rename_i hp
    split at hs
    · rename_i hrl
      obtain ⟨rfl, rfl⟩ := some_pair hs
      have nolk : ∀ u, s.pc u ≠ .sh1 ∧ s.pc u ≠ .sh2 ∧ s.pc u ≠ .su1 := by
        intro u; have := h.lock u; rw [hrl] at this; simpa using this
      have h1 := h.rcLen
      generalize hv : (if s.rc + 1 = 1 then PC.sh1 else PC.sh2) = v
      have hv' : v = .sh1 ∧ s.rc = 0 ∨ v = .sh2 ∧ 0 < s.rc := by
        split at hv
        · left; exact ⟨hv.symm, by omega⟩
        · right; exact ⟨hv.symm, by omega⟩
      have hreg : inReg v = 1 := by rcases hv' with ⟨e, _⟩ | ⟨e, _⟩ <;> rw [e] <;> rfl
      refine ⟨R ++ [t], o, ?_⟩
      rw [List.append_nil]
      constructor
      · show s.rc + 1 = _; rw [h1]; simp
      · intro u; rw [List.count_append]
        show _ = _ + inReg (upd s.pc t v u)
        have := h.rcount u
        by_cases e : u = t
        · subst e; rw [upd_same, hreg]; rw [hp] at this; simp [inReg] at this ⊢; omega
        · rw [upd_other _ _ e]
          have e' : ¬ (t = u) := fun x => e x.symm
          simp [e', List.count_singleton]; omega
      · intro u; show some t = some u ↔ upd s.pc t v u = _ ∨ upd s.pc t v u = _ ∨ upd s.pc t v u = _
        by_cases e : u = t
        · subst e; rw [upd_same]; rcases hv' with ⟨e, _⟩ | ⟨e, _⟩ <;> simp [e]
        · rw [upd_other _ _ e]
          have := nolk u
          simp [this]; exact fun x => e x.symm
      · exact h.shNonneg
      · intro u; show upd s.pc t v u = _ → s.rc + 1 = 1
        by_cases e : u = t
        · subst e; rw [upd_same]; intro e; rcases hv' with ⟨_, x⟩ | ⟨x, _⟩
          · omega
          · rw [x] at e; cases e
        · rw [upd_other _ _ e]; intro e; exact absurd e (nolk u).1
      · exact h.sem
      · rw [h.readers]
        show _ ↔ 0 < s.rc + 1 ∧ ∀ u, upd s.pc t v u ≠ _
        rcases hv' with ⟨x, y⟩ | ⟨x, y⟩
        · constructor
          · intro ⟨a, _⟩; omega
          · intro ⟨_, b⟩; have := b t; rw [upd_same] at this; exact absurd x this
        · constructor
          · intro _; refine ⟨by omega, fun u => ?_⟩
            by_cases e : u = t
            · subst e; rw [upd_same, x]; simp
            · rw [upd_other _ _ e]; exact (nolk u).1
          · intro _; exact ⟨y, fun u => (nolk u).1⟩
      · exact h.ex
    · cases hs
  · -- sh1
    rename_i hp
    split at hs
    · rename_i hsem
      obtain ⟨rfl, rfl⟩ := some_pair hs
      have ho : o = .nobody := by
        have := h.sem
        by_cases e : o = .nobody
        · exact e
        · rw [if_neg e] at this; omega
      have hsem1 : s.sem = 1 := by rw [h.sem, if_pos ho]
      refine ⟨R, .readers, ?_⟩
      rw [List.append_nil]
      constructor
      · exact h.rcLen
      · intro u; show _ = _ + inReg (upd s.pc t .sh2 u)
        have := h.rcount u
        by_cases e : u = t
        · subst e; rw [upd_same, this, hp]; rfl
        · rw [upd_other _ _ e]; exact this
      · intro u; show s.rl = some u ↔ upd s.pc t .sh2 u = _ ∨ upd s.pc t .sh2 u = _ ∨ upd s.pc t .sh2 u = _
        by_cases e : u = t
        · subst e; rw [upd_same, h.lock, hp]; simp
        · rw [upd_other _ _ e]; exact h.lock u
      · exact h.shNonneg
      · intro u; show upd s.pc t .sh2 u = _ → _
        by_cases e : u = t
        · subst e; rw [upd_same]; intro e; cases e
        · rw [upd_other _ _ e]; exact h.sh1rc u
      · show s.sem - 1 = _; rw [hsem1]; simp
      · have h1 := h.sh1rc t hp
        constructor
        · intro _; refine ⟨by show 0 < s.rc; omega, fun u => ?_⟩
          show upd s.pc t .sh2 u ≠ _
          by_cases e : u = t
          · subst e; rw [upd_same]; simp
          · rw [upd_other _ _ e]; intro e'
            exact e (lock_unique h (.inl hp) (.inl e'))
        · intro _; rfl
      · intro u; rw [h.ex, ho]; simp
    · cases hs
  · -- sh2
    rename_i hp
    obtain ⟨rfl, rfl⟩ := some_pair hs
    refine ⟨R, o, ?_⟩
    have hoth : ∀ u, u ≠ t → ¬ (s.pc u = .sh1 ∨ s.pc u = .sh2 ∨ s.pc u = .su1) := fun u hu hx =>
      hu (lock_unique h (.inr (.inl hp)) hx)
    constructor
    · exact h.rcLen
    · intro u; rw [sh_append]; show _ = _ + inReg (upd s.pc t .out u)
      have := h.rcount u
      by_cases e : u = t
      · subst e; rw [upd_same, this, hp]; simp [sharedHolds, inReg]
      · have e' : ¬ t = u := fun x => e x.symm
        rw [upd_other _ _ e, this]; simp [sharedHolds, e']
    · intro u; show none = some u ↔ upd s.pc t .out u = _ ∨ upd s.pc t .out u = _ ∨ upd s.pc t .out u = _
      by_cases e : u = t
      · subst e; rw [upd_same]; simp
      · rw [upd_other _ _ e]; have := hoth u e; simp [this]
    · intro u; rw [sh_append]; have := h.shNonneg u; simp [sharedHolds]; split <;> omega
    · intro u; show upd s.pc t .out u = _ → _
      by_cases e : u = t
      · subst e; rw [upd_same]; intro e; cases e
      · rw [upd_other _ _ e]; exact h.sh1rc u
    · exact h.sem
    · rw [h.readers]
      show _ ↔ 0 < s.rc ∧ ∀ u, upd s.pc t .out u ≠ _
      have : ∀ u, s.pc u ≠ .sh1 := by
        intro u e
        by_cases x : u = t
        · subst x; rw [hp] at e; cases e
        · exact hoth u x (.inl e)
      simp only [this, ne_eq, not_false_eq_true, implies_true, and_true]
      constructor
      · intro a; refine ⟨a, fun u => ?_⟩
        by_cases e : u = t
        · subst e; rw [upd_same]; simp
        · rw [upd_other _ _ e]; exact this u
      · exact fun a => a.1
    · intro u; rw [ex_append, h.ex]; simp [exHolds]
  · -- su0
    rename_i hp
    split at hs
    · rename_i hrl
      obtain ⟨rfl, rfl⟩ := some_pair hs
      have nolk : ∀ u, s.pc u ≠ .sh1 ∧ s.pc u ≠ .sh2 ∧ s.pc u ≠ .su1 := by
        intro u; have := h.lock u; rw [hrl] at this; simpa using this
      have htR : t ∈ R := by
        apply List.count_pos_iff.1
        have h1 := h.rcount t; have h2 := h.shNonneg t
        rw [hp] at h1; simp [inReg] at h1; omega
      have hlen : (R.erase t).length = R.length - 1 := List.length_erase_of_mem htR
      have hpos := List.length_pos_of_mem htR
      have hrc := h.rcLen
      have ho : o = .readers := h.readers.2 ⟨by omega, fun u => (nolk u).1⟩
      have hsem0 : s.sem = 0 := by rw [h.sem, ho]; simp
      refine ⟨R.erase t, if s.rc - 1 = 0 then .nobody else .readers, ?_⟩
      rw [List.append_nil]
      constructor
      · show s.rc - 1 = _; omega
      · intro u; show _ = _ + inReg (upd s.pc t .su1 u)
        have h1 := h.rcount u
        by_cases e : u = t
        · subst e
          have h2 : 0 < R.count u := List.count_pos_iff.2 htR
          rw [upd_same, List.count_erase_self]; rw [hp] at h1; simp [inReg] at h1 ⊢; omega
        · rw [upd_other _ _ e, List.count_erase_of_ne e]; exact h1
      · intro u; show some t = some u ↔ upd s.pc t .su1 u = _ ∨ upd s.pc t .su1 u = _ ∨ upd s.pc t .su1 u = _
        by_cases e : u = t
        · subst e; rw [upd_same]; simp
        · rw [upd_other _ _ e]
          have := nolk u
          simp [this]; exact fun x => e x.symm
      · exact h.shNonneg
      · intro u; show upd s.pc t .su1 u = _ → _
        by_cases e : u = t
        · subst e; rw [upd_same]; intro e; cases e
        · rw [upd_other _ _ e]; intro e; exact absurd e (nolk u).1
      · show (if s.rc - 1 = 0 then semSignal s.sem else s.sem) = _
        rw [hsem0]
        by_cases e : s.rc - 1 = 0 <;> simp [e, semSignal]
      · show _ ↔ 0 < s.rc - 1 ∧ ∀ u, upd s.pc t .su1 u ≠ _
        have : ∀ u, upd s.pc t .su1 u ≠ .sh1 := by
          intro u
          by_cases e : u = t
          · subst e; rw [upd_same]; simp
          · rw [upd_other _ _ e]; exact (nolk u).1
        by_cases e : s.rc - 1 = 0
        · simp [e]
        · simp only [e, if_false, true_iff]; exact ⟨by omega, this⟩
      · intro u; rw [h.ex, ho]; by_cases e : s.rc - 1 = 0 <;> simp [e]
    · cases hs
  · -- su1
    rename_i hp
    obtain ⟨rfl, rfl⟩ := some_pair hs
    refine ⟨R, o, ?_⟩
    have hoth : ∀ u, u ≠ t → ¬ (s.pc u = .sh1 ∨ s.pc u = .sh2 ∨ s.pc u = .su1) := fun u hu hx =>
      hu (lock_unique h (.inr (.inr hp)) hx)
    rw [List.append_nil]
    constructor
    · exact h.rcLen
    · intro u; show _ = _ + inReg (upd s.pc t .out u)
      have := h.rcount u
      by_cases e : u = t
      · subst e; rw [upd_same, this, hp]; rfl
      · rw [upd_other _ _ e, this]
    · intro u; show none = some u ↔ upd s.pc t .out u = _ ∨ upd s.pc t .out u = _ ∨ upd s.pc t .out u = _
      by_cases e : u = t
      · subst e; rw [upd_same]; simp
      · rw [upd_other _ _ e]; have := hoth u e; simp [this]
    · exact h.shNonneg
    · intro u; show upd s.pc t .out u = _ → _
      by_cases e : u = t
      · subst e; rw [upd_same]; intro e; cases e
      · rw [upd_other _ _ e]; exact h.sh1rc u
    · exact h.sem
    · rw [h.readers]
      show _ ↔ 0 < s.rc ∧ ∀ u, upd s.pc t .out u ≠ _
      have : ∀ u, s.pc u ≠ .sh1 := by
        intro u e
        by_cases x : u = t
        · subst x; rw [hp] at e; cases e
        · exact hoth u x (.inl e)
      simp only [this, ne_eq, not_false_eq_true, implies_true, and_true]
      constructor
      · intro a; refine ⟨a, fun u => ?_⟩
        by_cases e : u = t
        · subst e; rw [upd_same]; simp
        · rw [upd_other _ _ e]; exact this u
      · exact fun a => a.1
    · exact h.ex
  · -- ex0
    rename_i hp
    split at hs
    · rename_i hsem
      obtain ⟨rfl, rfl⟩ := some_pair hs
      have ho : o = .nobody := by
        have := h.sem
        by_cases e : o = .nobody
        · exact e
        · rw [if_neg e] at this; omega
      have hsem1 : s.sem = 1 := by rw [h.sem, if_pos ho]
      have h2 := inv_move h t .out [] (by simp [hp]) (by simp) (by simp [hp, sharedHolds, inReg])
        (by rw [List.append_nil]; exact h.shNonneg t) (by simp [exHolds])
      rw [List.append_nil] at h2
      refine ⟨R, .ex t, ?_⟩
      constructor
      · exact h2.rcLen
      · intro u; rw [sh_append]; simpa [sharedHolds] using h2.rcount u
      · exact h2.lock
      · intro u; rw [sh_append]; simpa [sharedHolds] using h2.shNonneg u
      · exact h2.sh1rc
      · show s.sem - 1 = _; rw [hsem1]; simp
      · have h3 := h2.readers
        rw [ho] at h3
        simp only [reduceCtorEq, false_iff] at h3
        simp only [reduceCtorEq, false_iff]; exact h3
      · intro u; rw [ex_append, h.ex, ho]
        by_cases e : t = u <;> simp [exHolds, e]
    · cases hs

theorem exec_inv {s evs} (h : Exec s evs) : ∃ R o, Inv s evs R o := by
  induction h with
  | init => exact ⟨_, _, inv_init⟩
  | step _ hc hs ih =>
    rename_i s evs op s' es _
    obtain ⟨R, o, hi⟩ := ih
    cases op with
    | run t => exact inv_run hi hs
    | shlock t =>
      simp only [step] at hs; split at hs
      · rename_i hp
        obtain ⟨rfl, rfl⟩ := some_pair hs
        exact ⟨R, o, inv_move hi t .sh0 [] (by simp [hp]) (by simp) (by simp [hp, sharedHolds, inReg])
          (by rw [List.append_nil]; exact hi.shNonneg t) (by simp [exHolds])⟩
      · cases hs
    | exlock t =>
      simp only [step] at hs; split at hs
      · rename_i hp
        obtain ⟨rfl, rfl⟩ := some_pair hs
        exact ⟨R, o, inv_move hi t .ex0 [] (by simp [hp]) (by simp) (by simp [hp, sharedHolds, inReg])
          (by rw [List.append_nil]; exact hi.shNonneg t) (by simp [exHolds])⟩
      · cases hs
    | shunlock t =>
      simp only [step] at hs; split at hs
      · rename_i hp
        obtain ⟨rfl, rfl⟩ := some_pair hs
        have hc : 0 < sharedHolds t evs := hc
        exact ⟨R, o, inv_move hi t .su0 [.shRel t] (by simp [hp]) (by simp)
          (by intro u; simp only [hp, sharedHolds, inReg]
              by_cases e : u = t
              · simp [e]
              · have e' : ¬ t = u := fun x => e x.symm
                simp [e, e'])
          (by rw [sh_append]; simp [sharedHolds]; omega) (by simp [exHolds])⟩
      · cases hs
    | exunlock t =>
      simp only [step] at hs; split at hs
      · rename_i hp
        obtain ⟨rfl, rfl⟩ := some_pair hs
        have hc : 0 < exHolds t evs := hc
        have ho : o = .ex t := by
          have := hi.ex t
          by_cases e : o = .ex t
          · exact e
          · rw [if_neg e] at this; omega
        have hsem0 : s.sem = 0 := by rw [hi.sem, ho]; simp
        refine ⟨R, .nobody, ?_⟩
        constructor
        · exact hi.rcLen
        · intro u; rw [sh_append]; simpa [sharedHolds] using hi.rcount u
        · exact hi.lock
        · intro u; rw [sh_append]; simpa [sharedHolds] using hi.shNonneg u
        · exact hi.sh1rc
        · show semSignal s.sem = _; rw [hsem0]; rfl
        · have h3 := hi.readers
          rw [ho] at h3
          simp only [reduceCtorEq, false_iff] at h3
          simp only [reduceCtorEq, false_iff]; exact h3
        · intro u; rw [ex_append, hi.ex, ho]
          by_cases e : t = u <;> simp [exHolds, e]
      · cases hs

/-! ## Theorems -/

/-- C16 for the reader-preferring lock: whenever a task holds the lock exclusively no task holds it shared
and no other task holds it exclusively, and it holds it once. -/
theorem rp_exclusion {s : St} {evs : List Ev} (h : Exec s evs) :
    (∀ t u, 0 < exHolds t evs → sharedHolds u evs = 0) ∧
    (∀ t u, 0 < exHolds t evs → u ≠ t → exHolds u evs = 0) ∧
    (∀ t, 0 ≤ exHolds t evs ∧ exHolds t evs ≤ 1) ∧ (∀ t, 0 ≤ sharedHolds t evs) := by
  obtain ⟨R, o, hi⟩ := exec_inv h
  have key : ∀ t, 0 < exHolds t evs → o = .ex t := by
    intro t ht
    have := hi.ex t
    by_cases e : o = .ex t
    · exact e
    · rw [if_neg e] at this; omega
  refine ⟨?_, ?_, ?_, hi.shNonneg⟩
  · intro t u ht
    have ho := key t ht
    have h3 := hi.readers
    rw [ho] at h3
    simp only [reduceCtorEq, false_iff] at h3
    have h0 := hi.shNonneg u
    have h1 := hi.rcount u
    have h2 := hi.rcLen
    have h4 : R.count u ≤ R.length := List.count_le_length
    by_cases e : 0 < s.rc
    · -- registered readers exist, so one of them waits for the semaphore: it is the only one
      have : ∃ v, s.pc v = .sh1 := by
        by_cases x : ∃ v, s.pc v = .sh1
        · exact x
        · exact absurd ⟨e, fun v hv => x ⟨v, hv⟩⟩ h3
      obtain ⟨v, hv⟩ := this
      have hv1 := hi.sh1rc v hv
      have hv2 := hi.rcount v
      rw [hv] at hv2
      simp only [inReg] at hv2
      have hv3 := hi.shNonneg v
      by_cases euv : u = v
      · subst euv; omega
      · have : R.count u + R.count v ≤ R.length := by
          have hlen1 : R.length = 1 := by omega
          match R, hlen1 with
          | [a], _ =>
            by_cases e1 : a = u
            · subst e1; have : ¬ a = v := euv; simp [this]
            · rw [show List.count u [a] = 0 by simp [List.count_singleton, e1]]
              have := List.count_le_length (a := v) (l := [a]); omega
        have : 0 ≤ inReg (s.pc u) := by cases s.pc u <;> simp [inReg]
        omega
    · have : 0 ≤ inReg (s.pc u) := by cases s.pc u <;> simp [inReg]
      omega
  · intro t u ht hne
    rw [hi.ex, key t ht, if_neg]
    intro e; cases e; exact hne rfl
  · intro t; rw [hi.ex]; split <;> omega

/-- Reader preference: while some task holds the lock shared and `readers_lock` is free, a reader that
asks for the lock gets it by its own steps alone, however many writers wait. -/
theorem rp_reader_joins {s : St} {evs : List Ev} (h : Exec s evs) {t u : Tid}
    (hu : 0 < sharedHolds u evs) (ht : s.pc t = .sh0) (hrl : s.rl = none) :
    ∃ s1 s2, step s (.run t) = some (s1, []) ∧ step s1 (.run t) = some (s2, [.shAcq t]) := by
  obtain ⟨R, o, hi⟩ := exec_inv h
  have h1 := hi.rcount u
  have h2 := hi.rcLen
  have h3 : R.count u ≤ R.length := List.count_le_length
  have h4 : 0 ≤ inReg (s.pc u) := by cases s.pc u <;> simp [inReg]
  have hne : ¬ (s.rc + 1 = 1) := by omega
  let s1 : St := { s with rl := some t, rc := s.rc + 1, pc := upd s.pc t .sh2 }
  refine ⟨s1, { s1 with rl := none, pc := upd s1.pc t .out }, ?_, ?_⟩
  · simp [step, run, ht, hrl, hne, s1]
  · simp [step, run, s1, upd_same]

/-- Freedom from deadlock: if nobody holds the lock and some task is inside a call, then some task inside a
call can take a step. -/
theorem rp_no_deadlock {s : St} {evs : List Ev} (h : Exec s evs)
    (hsh : ∀ t, sharedHolds t evs = 0) (hex : ∀ t, exHolds t evs = 0) {t : Tid} (ht : s.pc t ≠ .out) :
    ∃ u s' es, step s (.run u) = some (s', es) := by
  obtain ⟨R, o, hi⟩ := exec_inv h
  have own_can : ∀ v, s.rl = some v → (s.pc v = .sh1 → s.sem = 1) →
      ∃ u s' es, step s (.run u) = some (s', es) := by
    intro v hv hsem
    rcases (hi.lock v).1 hv with e | e | e
    · exact ⟨v, _, _, by simp only [step, run, e]; rw [if_pos (by rw [hsem e]; decide)]⟩
    · exact ⟨v, _, _, by simp only [step, run, e]; rfl⟩
    · exact ⟨v, _, _, by simp only [step, run, e]; rfl⟩
  cases o with
  | ex v => have h1 := hi.ex v; rw [hex v] at h1; simp at h1
  | nobody =>
    have hsem : s.sem = 1 := by rw [hi.sem]; rfl
    rcases hrl : s.rl with _ | v
    · cases hp : s.pc t with
      | out => exact absurd hp ht
      | sh0 => exact ⟨t, _, _, by simp only [step, run, hp]; rw [if_pos hrl]⟩
      | sh1 => have := (hi.lock t).2 (.inl hp); rw [hrl] at this; cases this
      | sh2 => have := (hi.lock t).2 (.inr (.inl hp)); rw [hrl] at this; cases this
      | su0 => exact ⟨t, _, _, by simp only [step, run, hp]; rw [if_pos hrl]⟩
      | su1 => have := (hi.lock t).2 (.inr (.inr hp)); rw [hrl] at this; cases this
      | ex0 => exact ⟨t, _, _, by simp only [step, run, hp]; rw [if_pos (by rw [hsem]; decide)]⟩
    · exact own_can v hrl (fun _ => hsem)
  | readers =>
    have hr := hi.readers.1 rfl
    rcases hrl : s.rl with _ | v
    · have hne : R ≠ [] := by
        intro e; have := hi.rcLen; rw [e] at this; simp at this; omega
      obtain ⟨v, hv⟩ := List.exists_mem_of_ne_nil _ hne
      have h1 := hi.rcount v
      have h2 : 0 < R.count v := List.count_pos_iff.2 hv
      rw [hsh v] at h1
      cases hp : s.pc v with
      | sh1 => exact absurd hp (hr.2 v)
      | sh2 => have := (hi.lock v).2 (.inr (.inl hp)); rw [hrl] at this; cases this
      | su0 => exact ⟨v, _, _, by simp only [step, run, hp]; rw [if_pos hrl]⟩
      | _ => rw [hp] at h1; simp [inReg] at h1; omega
    · exact own_can v hrl (fun e => absurd e (hr.2 v))

/-! ## Non-vacuity -/

/-- Two readers inside, a writer waiting. -/
example : ∃ s evs, Exec s evs ∧ sharedHolds 1 evs = 1 ∧ sharedHolds 2 evs = 1 ∧ s.pc 3 = .ex0 := by
  refine ⟨_, _, .step (op := .run 2) (.step (op := .run 2) (.step (op := .shlock 2)
    (.step (op := .exlock 3) (.step (op := .run 1) (.step (op := .run 1) (.step (op := .run 1)
    (.step (op := .shlock 1) .init trivial rfl) trivial rfl) trivial rfl) trivial rfl) trivial rfl)
    trivial rfl) trivial rfl) trivial rfl, ?_, ?_, ?_⟩ <;> decide

/-- A writer inside, a reader waiting for it. -/
example : ∃ s evs, Exec s evs ∧ exHolds 1 evs = 1 ∧ s.pc 2 = .sh1 := by
  refine ⟨_, _, .step (op := .run 2) (.step (op := .shlock 2) (.step (op := .run 1)
    (.step (op := .exlock 1) .init trivial rfl) trivial rfl) trivial rfl) trivial rfl, ?_, ?_⟩ <;> decide

end Verif.RwlockRp
