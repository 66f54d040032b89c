import Verif.Ksem

/-!
The semaphores given to the ACPI interpreter (modules/acpi/osl_sync.c), over the kernel's semaphores
(`Verif.Ksem`), with the time.
-/
namespace Verif.AcpiSem

open Verif.Ksem (Mode Ev)
open Verif.Kmutex (Tid upd)

/-- INT_MAX -/
def intMax : Nat := 2147483647

/-- AcpiOsCreateSemaphore (osl_sync.c:77-98) for 32-bit arguments: the kernel's semaphore, `none` for
AE_BAD_PARAMETER. Lack of memory and the NULL handle are left out; ksem_init's ASSERT on a maximum
of 0 (ksem.c:13) is left out too: the theorems take a maximum above 0. -/
def create (maxUnits initial : Nat) : Option Ksem.St :=
  let m := if maxUnits = 4294967295 then intMax else maxUnits
  if intMax < m ∨ intMax < initial then none else some (Ksem.init initial (some m))

/-- The system: the semaphore, the ticks since the start, and for each task inside
AcpiOsWaitSemaphore the tick of its call and its Timeout in milliseconds. -/
structure St where
  ks : Ksem.St
  now : Nat
  calls : Tid → Option (Nat × Nat)

/-- ms_to_ticks (include/tilck/kernel/timer.h:13-17); `q` is 1000 / KRN_TIMER_HZ. -/
def ticks (q ms : Nat) : Nat := ms / q

/-- What is seen. -/
inductive Out
  /-- AE_OK for a call of task `t`, made at tick `start` with `ms`, at tick `now` -/
  | ok (t : Tid) (start ms now : Nat)
  /-- AE_TIME -/
  | time (t : Tid) (start ms now : Nat)
  /-- AE_BAD_PARAMETER, AE_LIMIT or the AE_OK of a signal -/
  | badWait (t : Tid)
  | badSignal
  | limit
  | signalled
deriving DecidableEq, Repr

/-- The switches of osl_sync.c:136-149 and 167-180. -/
def report (c : Nat × Nat) (now : Nat) : Ev → Out
  | .acquired t _ => .ok t c.1 c.2 now
  | .timedOut t _ => .time t c.1 c.2 now
  | .waitInval t _ => .badWait t
  | .signalled _ => .signalled
  | .sigInval _ => .badSignal
  | .sigQuota _ => .limit

/-- The steps. -/
inductive Op
  | wait (t : Tid) (units ms : Nat)
  | signal (units : Nat)
  | tick
  | fire (t : Tid)
  | resume (t : Tid)
deriving DecidableEq, Repr

/-- One step. AcpiOsWaitSemaphore (osl_sync.c:114-150): no ticks is KSEM_NO_WAIT, any other number
a wait with an end (ksem.c:33-41, 89). AcpiOsSignalSemaphore (osl_sync.c:152-181). The timer fires at
the end of the wait or later (ksem.c:36, 39); a woken task compares the ticks (ksem.c:49).
Timeout has 16 bits, so that the check of osl_sync.c:131 never refuses. -/
def step (q : Nat) (s : St) : Op → Option (St × List Out)
  | .wait t units ms =>
    if intMax < units then some (s, [.badWait t])
    else
      match Ksem.step s.ks (.wait t units (if ticks q ms = 0 then .noWait else .timed) false) with
      | none => none
      | some (k, evs) =>
        some (⟨k, s.now, upd s.calls t (some (s.now, ms))⟩, evs.map (report (s.now, ms) s.now))
  | .signal units =>
    if intMax < units then some (s, [.badSignal])
    else
      match Ksem.step s.ks (.signal units) with
      | none => none
      | some (k, evs) => some ({ s with ks := k }, evs.map (report (0, 0) s.now))
  | .tick => some ({ s with now := s.now + 1 }, [])
  | .fire t =>
    match s.calls t with
    | none => none
    | some (start, ms) =>
      if start + ticks q ms ≤ s.now then
        match Ksem.step s.ks (.fire t) with
        | none => none
        | some (k, _) => some ({ s with ks := k }, [])
      else none
  | .resume t =>
    match s.calls t with
    | none => none
    | some (start, ms) =>
      match Ksem.step s.ks (.resume t (decide (start + ticks q ms ≤ s.now))) with
      | none => none
      | some (k, evs) => some ({ s with ks := k }, evs.map (report (start, ms) s.now))

/-- All executions on a semaphore just made. -/
inductive Exec (q : Nat) (k0 : Ksem.St) : St → List Out → Prop
  | init : Exec q k0 ⟨k0, 0, fun _ => none⟩ []
  | step {s outs op s' os} : Exec q k0 s outs → step q s op = some (s', os) →
      Exec q k0 s' (outs ++ os)

/-! ### Proofs -/

/-- Every execution is one of the kernel's semaphore. -/
private theorem exec_ksem {q : Nat} {v m : Int} {s : St} {outs : List Out}
    (h : Exec q (Ksem.init v (some m)) s outs) :
    ∃ evs, Ksem.Exec v (some m) (fun _ _ => True) s.ks evs := by
  induction h with
  | init => exact ⟨[], .init⟩
  | @step s outs op s' os _ hs ih =>
    obtain ⟨evs, ih⟩ := ih
    cases op with
    | wait t u ms =>
      simp only [step] at hs
      split at hs
      · cases hs; exact ⟨_, ih⟩
      · split at hs
        · cases hs
        · rename_i k es hk
          cases hs; exact ⟨_, .step ih trivial hk⟩
    | signal u =>
      simp only [step] at hs
      split at hs
      · cases hs; exact ⟨_, ih⟩
      · split at hs
        · cases hs
        · rename_i k es hk
          cases hs; exact ⟨_, .step ih trivial hk⟩
    | tick => cases hs; exact ⟨_, ih⟩
    | fire t =>
      simp only [step] at hs
      split at hs
      · cases hs
      · split at hs
        · split at hs
          · cases hs
          · rename_i k es hk
            cases hs; exact ⟨_, .step ih trivial hk⟩
        · cases hs
    | resume t =>
      simp only [step] at hs
      split at hs
      · cases hs
      · split at hs
        · cases hs
        · rename_i k es hk
          cases hs; exact ⟨_, .step ih trivial hk⟩

/-- C195, units: a semaphore made with no more units than its limit, which is above 0, never has
fewer than none or more than its limit, in any execution; ACPI_NO_UNIT_LIMIT is a limit of INT_MAX,
beyond which signals are refused. Missing: see `create_violated`. -/
theorem units_partial (q maxUnits initial : Nat) (hi : initial ≤ maxUnits) (k0 : Ksem.St)
    (hc : create maxUnits initial = some k0) (s : St) (outs : List Out) (h : Exec q k0 s outs) :
    0 ≤ s.ks.counter ∧ s.ks.counter ≤ maxUnits ∧ s.ks.counter ≤ 2147483647 := by
  unfold create at hc
  dsimp only at hc
  by_cases hm : maxUnits = 4294967295
  · rw [if_pos hm] at hc
    by_cases hn : intMax < intMax ∨ intMax < initial
    · rw [if_pos hn] at hc; cases hc
    · rw [if_neg hn] at hc
      cases hc
      obtain ⟨evs, he⟩ := exec_ksem h
      unfold intMax at hn he
      have := Ksem.units_conserved (by omega) he
      omega
  · rw [if_neg hm] at hc
    by_cases hn : intMax < maxUnits ∨ intMax < initial
    · rw [if_pos hn] at hc; cases hc
    · rw [if_neg hn] at hc
      cases hc
      obtain ⟨evs, he⟩ := exec_ksem h
      unfold intMax at hn
      have := Ksem.units_conserved (by omega) he
      omega

/-- C195: a semaphore without a limit (ACPI_NO_UNIT_LIMIT) can be made with any units up to INT_MAX. -/
theorem create_unlimited (initial : Nat) (h : initial ≤ 2147483647) :
    ∃ k0, create 4294967295 initial = some k0 ∧ k0.counter = initial ∧ k0.max = some 2147483647 := by
  refine ⟨Ksem.init initial (some 2147483647), ?_, rfl, rfl⟩
  unfold create
  dsimp only
  rw [if_pos rfl, if_neg (by unfold intMax; omega)]
  rfl

private theorem waitStep_time {s : Ksem.St} {t t' : Tid} {u u' : Int} {m : Mode}
    (h : Ev.timedOut t' u' ∈ (Ksem.waitStep s t u m false).2) : m = .noWait := by
  unfold Ksem.waitStep at h
  cases m <;> (repeat' split at h) <;> simp_all

private theorem resumeStep_time {s : Ksem.St} {t t' : Tid} {w : Ksem.W} {u' : Int} {e : Bool}
    (h : Ev.timedOut t' u' ∈ (Ksem.resumeStep s t w e).2) : e = true := by
  unfold Ksem.resumeStep at h
  dsimp only at h
  (repeat' split at h) <;> simp_all

private theorem report_time {c : Nat × Nat} {now : Nat} {evs : List Ev} {t : Tid} {a ms b : Nat}
    (h : Out.time t a ms b ∈ evs.map (report c now)) :
    c = (a, ms) ∧ now = b ∧ ∃ u, Ev.timedOut t u ∈ evs := by
  obtain ⟨e, he, hr⟩ := List.mem_map.1 h
  cases e <;> simp only [report] at hr <;> first | cases hr | skip
  exact ⟨rfl, rfl, _, he⟩

/-- C195, time: in every execution a wait gives up only when the whole ticks in its Timeout are over.
Missing: the rest of the Timeout, see `short_violated`, and waits without end, see
`forever_violated`. -/
theorem giveup_partial (q : Nat) (k0 : Ksem.St) (s : St) (outs : List Out) (h : Exec q k0 s outs)
    (t : Tid) (start ms now : Nat) (ho : Out.time t start ms now ∈ outs) : start + ms / q ≤ now := by
  induction h with
  | init => cases ho
  | @step s outs op s' os _ hs ih =>
    rcases List.mem_append.1 ho with ho | ho
    · exact ih ho
    cases op with
    | wait t' u ms' =>
      simp only [step] at hs
      split at hs
      · cases hs; simp at ho
      · split at hs
        · cases hs
        · rename_i k es hk
          cases hs
          obtain ⟨e1, e2, u', hu⟩ := report_time ho
          cases e1
          simp only [Ksem.step] at hk
          split at hk
          · obtain ⟨rfl, rfl⟩ := Kmutex.some_pair hk
            have := waitStep_time hu
            split at this
            · rename_i hz
              unfold ticks at hz
              omega
            · cases this
          · cases hk
    | signal u =>
      simp only [step] at hs
      split at hs
      · cases hs; simp at ho
      · split at hs
        · cases hs
        · rename_i k es hk
          cases hs
          obtain ⟨_, _, u', hu⟩ := report_time ho
          simp only [Ksem.step] at hk
          split at hk
          · obtain ⟨rfl, rfl⟩ := Kmutex.some_pair hk
            unfold Ksem.signalStep at hu
            (repeat' split at hu) <;> simp at hu
          · cases hk
    | tick => cases hs; cases ho
    | fire t' =>
      simp only [step] at hs
      split at hs
      · cases hs
      · split at hs
        · split at hs
          · cases hs
          · cases hs; cases ho
        · cases hs
    | resume t' =>
      simp only [step] at hs
      split at hs
      · cases hs
      · rename_i a b hcall
        split at hs
        · cases hs
        · rename_i k es hk
          cases hs
          obtain ⟨e1, e2, u', hu⟩ := report_time ho
          cases e1
          simp only [Ksem.step] at hk
          split at hk
          · split at hk
            · obtain ⟨rfl, rfl⟩ := Kmutex.some_pair hk
              have := of_decide_eq_true (resumeStep_time hu)
              unfold ticks at this
              omega
            · cases hk
          · cases hk

/-- C195 is violated: a wait shorter than a tick does not wait: if the units are not there it gives
up in the same tick, whatever its Timeout above 0. -/
theorem short_violated (q : Nat) (s : St) (t : Tid) (units ms : Nat) (m : Int) (h0 : 0 < units)
    (hms : ms < q) (hmax : s.ks.max = some m) (hm : (units : Int) ≤ m) (hm' : m ≤ 2147483647)
    (hidle : s.ks.ts t = none) (hc : s.ks.counter < units) :
    ∃ s', step q s (.wait t units ms) = some (s', [.time t s.now ms s.now]) := by
  have hz : ticks q ms = 0 := Nat.div_eq_of_lt hms
  have h1 : ¬ intMax < units := by unfold intMax; omega
  have h2 : (0 : Int) < units ∧ s.ks.ts t = none := ⟨by omega, hidle⟩
  have h3 : ¬ m < (units : Int) := by omega
  have h4 : ¬ (units : Int) ≤ s.ks.counter := by omega
  simp only [step, if_neg h1, hz, if_true, Ksem.step, if_pos h2, Ksem.waitStep, hmax, Ksem.tooMany,
    decide_eq_true_eq, if_neg h3, if_neg h4, List.map_cons, List.map_nil, report]
  exact ⟨_, rfl⟩

private theorem exec_ticks {q : Nat} {k0 : Ksem.St} {s : St} {outs : List Out} (n : Nat)
    (h : Exec q k0 s outs) : Exec q k0 { s with now := s.now + n } outs := by
  induction n with
  | zero => exact h
  | succ n ih =>
    have := Exec.step (op := .tick) ih rfl
    rw [List.append_nil] at this
    exact this

/-- C195 is violated: a wait with ACPI_WAIT_FOREVER (0xFFFF) gives up, after some 65 seconds, with
the timer at 250 Hz. -/
theorem forever_violated : ∃ k0 s outs, create 1 0 = some k0 ∧ Exec 4 k0 s outs ∧
    Out.time 1 0 65535 16383 ∈ outs := by
  have e1 := Exec.step (op := .wait 1 1 65535)
    (Exec.init (q := 4) (k0 := Ksem.init ((0 : Nat) : Int) (some ((1 : Nat) : Int)))) rfl
  have e2 := exec_ticks 16383 e1
  have e3 := Exec.step (op := .fire 1) e2 rfl
  have e4 := Exec.step (op := .resume 1) e3 rfl
  exact ⟨_, _, _, rfl, e4, List.mem_append.2 (Or.inr (List.mem_singleton.2 rfl))⟩

/-- C195 is violated: more units than the limit are accepted at the start. -/
theorem create_violated (maxUnits initial : Nat) (h : maxUnits < initial) (hi : initial ≤ 2147483647) :
    ∃ k0, create maxUnits initial = some k0 ∧ k0.max = some (maxUnits : Int) ∧
      (maxUnits : Int) < k0.counter := by
  have h1 : maxUnits ≠ 4294967295 := by omega
  refine ⟨Ksem.init initial (some maxUnits), ?_, rfl, by show (maxUnits : Int) < initial; omega⟩
  unfold create
  dsimp only
  rw [if_neg h1, if_neg (by unfold intMax; omega)]

/-! ### The hypotheses are met -/

example : ∃ k0, create 4294967295 3 = some k0 ∧ k0.counter = 3 := ⟨_, rfl, rfl⟩
example : create 2147483648 0 = none := rfl
example : ∃ s', step 4 ⟨Ksem.init 0 (some 1), 7, fun _ => none⟩ (.wait 1 1 3) =
    some (s', [.time 1 7 3 7]) :=
  short_violated 4 _ 1 1 3 1 (by decide) (by decide) rfl (by decide) (by decide) rfl (by decide)

end Verif.AcpiSem
