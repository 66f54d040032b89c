import Verif.Kmutex

/-!
# Writer-preferring reader-writer lock (`kernel/rwlock.c:58-219`)

All fields of `struct rwlock_wp` are read and written only while the internal mutex `m` is held
(rwlock.c:105-118, 123-134, 176-180, 214-218), and `kcond_wait` enqueues the caller and releases `m` in
one preemption-disabled section (kcond.c:45-53).  By mutual exclusion (`Verif.Kmutex`) each critical
section is therefore one atomic step here; a schedule is any list of such steps by any tasks.
Recursive counters are unbounded in the model (`rc` is a u16).
-/

namespace Verif.RwlockWp

open Verif.Kmutex (Tid upd upd_same upd_other some_pair)

/-- Where a task is: not in a call; asleep in `kcond_wait` on `readers_cv`; woken from there but not yet
past the loop; likewise for a writer. -/
inductive PC | out | shSleep | shAwake | exSleep | exAwake
deriving DecidableEq, Repr

/-- `struct rwlock_wp` (include/tilck/kernel/rwlock.h:49-59) and the program counters.  `rcv`, `wcv` are the
wait lists of the two condition variables. -/
structure St where
  exo : Option Tid
  r : Int
  wq : Int
  recur : Bool
  rc : Int
  rcv : List Tid
  wcv : List Tid
  pc : Tid → PC

/-- API-visible events. -/
inductive Ev
  /-- `rwlock_wp_shlock` by `t` returned -/
  | shAcq (t : Tid)
  /-- `rwlock_wp_shunlock` by `t` -/
  | shRel (t : Tid)
  /-- `rwlock_wp_exlock` by `t` announced itself as a writer -/
  | exReq (t : Tid)
  /-- `rwlock_wp_exlock` by `t` returned -/
  | exAcq (t : Tid)
  /-- nested `rwlock_wp_exlock` by the holder returned (recursive lock) -/
  | exAgain (t : Tid)
  /-- `rwlock_wp_exunlock` by `t` -/
  | exRel (t : Tid)
deriving DecidableEq, Repr

/-- Steps; `retry t`: a woken task re-acquires `m` inside `kcond_wait` and evaluates its loop condition
again; `spurious t`: a sleeping task is woken by a signal (signal.c:298-299). -/
inductive Op
  | shlock (t : Tid)
  | shunlock (t : Tid)
  | exlock (t : Tid)
  | exunlock (t : Tid)
  | retry (t : Tid)
  | spurious (t : Tid)
deriving DecidableEq, Repr

/-- rwlock.c:81-91. -/
def init (rec : Bool) : St :=
  { exo := none, r := 0, wq := 0, recur := rec, rc := 0, rcv := [], wcv := [], pc := fun _ => .out }

/-- rwlock.c:113-116: loop test of `rwlock_wp_shlock`, then sleep or take. -/
def shTry (s : St) (t : Tid) : St × List Ev :=
  if 0 < s.wq then ({ s with rcv := s.rcv ++ [t], pc := upd s.pc t .shSleep }, [])
  else ({ s with r := s.r + 1, pc := upd s.pc t .out }, [.shAcq t])

/-- rwlock.c:162-171: loop test of `rwlock_wp_exlock_int`, then sleep or take. -/
def exTry (s : St) (t : Tid) : St × List Ev :=
  if s.exo ≠ none ∨ 0 < s.r then ({ s with wcv := s.wcv ++ [t], pc := upd s.pc t .exSleep }, [])
  else ({ s with exo := some t, rc := if s.recur then 1 else s.rc, pc := upd s.pc t .out }, [.exAcq t])

/-- kcond.c:179-194 `kcond_signal_one(&rw->writers_cv)`: wake the first waiter, if any. -/
def signalWriter (s : St) : St :=
  match s.wcv with
  | [] => s
  | w :: ws => { s with wcv := ws, pc := upd s.pc w .exAwake }

/-- kcond.c:196-208 `kcond_signal_all(&rw->readers_cv)`. -/
def signalReaders (s : St) : St :=
  { s with rcv := [], pc := fun u => if u ∈ s.rcv then .shAwake else s.pc u }

/-- rwlock.c:121-135. -/
def shunlockStep (s : St) (t : Tid) : St × List Ev :=
  let s1 := { s with r := s.r - 1 }
  (if s1.r = 0 ∧ 0 < s1.wq then signalWriter s1 else s1, [.shRel t])

/-- rwlock.c:137-172. -/
def exlockStep (s : St) (t : Tid) : St × List Ev :=
  if s.recur = true ∧ s.exo = some t then ({ s with rc := s.rc + 1 }, [.exAgain t])
  else
    let p := exTry { s with wq := s.wq + 1 } t
    (p.1, .exReq t :: p.2)

/-- rwlock.c:183-210. -/
def exunlockStep (s : St) (t : Tid) : St × List Ev :=
  if s.recur = true ∧ 0 < s.rc - 1 then ({ s with rc := s.rc - 1 }, [.exRel t])
  else
    let s1 := { s with rc := if s.recur then s.rc - 1 else s.rc, exo := none, wq := s.wq - 1 }
    (if 0 < s1.wq then signalWriter s1 else signalReaders s1, [.exRel t])

/-- One step; `none` when the task is not in a position to take it. -/
def step (s : St) : Op → Option (St × List Ev)
  | .shlock t => if s.pc t = .out then some (shTry s t) else none
  | .shunlock t => if s.pc t = .out then some (shunlockStep s t) else none
  | .exlock t => if s.pc t = .out then some (exlockStep s t) else none
  | .exunlock t => if s.pc t = .out then some (exunlockStep s t) else none
  | .retry t =>
      if s.pc t = .shAwake then some (shTry s t)
      else if s.pc t = .exAwake then some (exTry s t) else none
  | .spurious t =>
      if s.pc t = .shSleep then some ({ s with rcv := s.rcv.erase t, pc := upd s.pc t .shAwake }, [])
      else if s.pc t = .exSleep then
        some ({ s with wcv := s.wcv.erase t, pc := upd s.pc t .exAwake }, [])
      else none

/-! ## Specification -/

/-- Number of shared holds of `t`. -/
def sharedHolds (t : Tid) : List Ev → Int
  | [] => 0
  | .shAcq u :: r => (if u = t then 1 else 0) + sharedHolds t r
  | .shRel u :: r => (if u = t then -1 else 0) + sharedHolds t r
  | _ :: r => sharedHolds t r

/-- Number of exclusive holds of `t`. -/
def exHolds (t : Tid) : List Ev → Int
  | [] => 0
  | .exAcq u :: r => (if u = t then 1 else 0) + exHolds t r
  | .exAgain u :: r => (if u = t then 1 else 0) + exHolds t r
  | .exRel u :: r => (if u = t then -1 else 0) + exHolds t r
  | _ :: r => exHolds t r

/-- 1 if `t` has asked for the exclusive lock and not got it yet. -/
def writerWaiting (t : Tid) : List Ev → Int
  | [] => 0
  | .exReq u :: r => (if u = t then 1 else 0) + writerWaiting t r
  | .exAcq u :: r => (if u = t then -1 else 0) + writerWaiting t r
  | _ :: r => writerWaiting t r

/-- Caller rules: release only what is held; no exclusive request while already holding the lock
exclusively, unless the lock is recursive. -/
def Contract (rec : Bool) (evs : List Ev) : Op → Prop
  | .shunlock t => 0 < sharedHolds t evs
  | .exunlock t => 0 < exHolds t evs
  | .exlock t => rec = false → exHolds t evs = 0
  | _ => True

/-- All interleavings. -/
inductive Exec (rec : Bool) : St → List Ev → Prop
  | init : Exec rec (init rec) []
  | step {s evs op s' es} : Exec rec s evs → Contract rec evs op → step s op = some (s', es) →
      Exec rec s' (evs ++ es)

/-! ## Proofs -/

theorem sh_append (t : Tid) (a b : List Ev) :
    sharedHolds t (a ++ b) = sharedHolds t a + sharedHolds t b := by
  induction a with
  | nil => simp [sharedHolds]
  | cons e r ih => cases e <;> simp [sharedHolds, ih] <;> omega

theorem ex_append (t : Tid) (a b : List Ev) : exHolds t (a ++ b) = exHolds t a + exHolds t b := by
  induction a with
  | nil => simp [exHolds]
  | cons e r ih => cases e <;> simp [exHolds, ih] <;> omega

theorem ww_append (t : Tid) (a b : List Ev) :
    writerWaiting t (a ++ b) = writerWaiting t a + writerWaiting t b := by
  induction a with
  | nil => simp [writerWaiting]
  | cons e r ih => cases e <;> simp [writerWaiting, ih] <;> omega

/-- The invariant; `R` lists the shared holds, `Q` the writers that wait. -/
structure Core (rec : Bool) (s : St) (evs : List Ev) (R Q : List Tid) : Prop where
  hrec : s.recur = rec
  rlen : s.r = R.length
  rcount : ∀ t, sharedHolds t evs = R.count t
  qnodup : Q.Nodup
  qmem : ∀ t, t ∈ Q ↔ s.pc t = .exSleep ∨ s.pc t = .exAwake
  qcount : ∀ t, writerWaiting t evs = Q.count t
  wqlen : s.wq = Q.length + (if s.exo = none then 0 else 1)
  excl : s.exo ≠ none → s.r = 0
  exNone : ∀ t, s.exo ≠ some t → exHolds t evs = 0
  exSome : ∀ t, s.exo = some t → s.pc t ≠ .exSleep ∧ s.pc t ≠ .exAwake ∧
    exHolds t evs = (if rec then s.rc else 1) ∧ (rec = true → 0 < s.rc)
  rcNone : s.exo = none → rec = true → s.rc = 0
  wcvNodup : s.wcv.Nodup
  wcvMem : ∀ t, t ∈ s.wcv ↔ s.pc t = .exSleep
  rcvNodup : s.rcv.Nodup
  rcvMem : ∀ t, t ∈ s.rcv ↔ s.pc t = .shSleep

/-- The full invariant: additionally no wake-up is lost. -/
structure Inv (rec : Bool) (s : St) (evs : List Ev) (R Q : List Tid) : Prop
    extends Core rec s evs R Q where
  rcvWq : s.rcv ≠ [] → 0 < s.wq
  wake : s.exo = none → s.r = 0 → s.wcv ≠ [] → ∃ t, s.pc t = .exAwake

theorem inv_init (rec : Bool) : Inv rec (init rec) [] [] [] := by
  refine ⟨?_, by simp [init], by simp [init]⟩
  constructor <;> simp [init, sharedHolds, exHolds, writerWaiting]

theorem count_snoc (l : List Tid) (t u : Tid) : (l ++ [t]).count u = l.count u + if t = u then 1 else 0 := by
  rw [List.count_append]; simp [List.count_cons]

/-- `shTry` by a task that is not registered as sleeping. -/
theorem inv_shTry {rec s evs R Q} (t : Tid) (h : Inv rec s evs R Q)
    (ht : s.pc t = .out ∨ s.pc t = .shAwake) :
    ∃ R' Q', Inv rec (shTry s t).1 (evs ++ (shTry s t).2) R' Q' := by
  have hq : t ∉ Q := by rw [h.qmem]; rcases ht with e | e <;> simp [e]
  have hr : t ∉ s.rcv := by rw [h.rcvMem]; rcases ht with e | e <;> simp [e]
  have hw : t ∉ s.wcv := by rw [h.wcvMem]; rcases ht with e | e <;> simp [e]
  have hpc : ∀ (v : PC), (v = .out ∨ v = .shSleep) → ∀ u, (upd s.pc t v u = .exSleep ↔ s.pc u = .exSleep) ∧
      (upd s.pc t v u = .exAwake ↔ s.pc u = .exAwake) := by
    intro v hv u
    by_cases e : u = t
    · subst e; rw [upd_same]; rcases hv with e | e <;> rcases ht with e' | e' <;> simp [e, e']
    · rw [upd_other _ _ e]; simp
  unfold shTry
  split
  · rename_i hwq
    refine ⟨R, Q, ?_⟩
    rw [List.append_nil]
    have hp := hpc .shSleep (.inr rfl)
    refine ⟨⟨?_, ?_, ?_, ?_, ?_, ?_, ?_, ?_, ?_, ?_, ?_, ?_, ?_, ?_, ?_⟩, ?_, ?_⟩
    · exact h.hrec
    · exact h.rlen
    · exact h.rcount
    · exact h.qnodup
    · intro u; show _ ↔ upd s.pc t .shSleep u = _ ∨ upd s.pc t .shSleep u = _
      rw [(hp u).1, (hp u).2]; exact h.qmem u
    · exact h.qcount
    · exact h.wqlen
    · exact h.excl
    · exact h.exNone
    · intro u hu
      have := h.exSome u hu
      refine ⟨fun e => this.1 ((hp u).1.1 e), fun e => this.2.1 ((hp u).2.1 e), this.2.2⟩
    · exact h.rcNone
    · exact h.wcvNodup
    · intro u; show _ ↔ upd s.pc t .shSleep u = _
      rw [(hp u).1]; exact h.wcvMem u
    · show (s.rcv ++ [t]).Nodup
      rw [List.nodup_append]
      refine ⟨h.rcvNodup, by simp, ?_⟩
      intro a ha b hb; simp at hb; subst hb; exact fun e => hr (e ▸ ha)
    · intro u; show u ∈ s.rcv ++ [t] ↔ upd s.pc t .shSleep u = _
      by_cases e : u = t
      · subst e; rw [upd_same]; simp
      · rw [upd_other _ _ e, List.mem_append, h.rcvMem]; simp [e]
    · intro _; exact hwq
    · intro h1 h2 h3
      obtain ⟨u, hu⟩ := h.wake h1 h2 h3
      exact ⟨u, (hp u).2.2 hu⟩
  · rename_i hwq
    refine ⟨R ++ [t], Q, ?_⟩
    have hp := hpc .out (.inl rfl)
    have hexo : s.exo = none := by
      have := h.wqlen
      by_cases e : s.exo = none
      · exact e
      · rw [if_neg e] at this; omega
    have hQ : Q = [] := by
      have := h.wqlen; rw [if_pos hexo] at this
      exact List.eq_nil_of_length_eq_zero (by omega)
    refine ⟨⟨?_, ?_, ?_, ?_, ?_, ?_, ?_, ?_, ?_, ?_, ?_, ?_, ?_, ?_, ?_⟩, ?_, ?_⟩
    · exact h.hrec
    · show s.r + 1 = _; rw [h.rlen]; simp
    · intro u; rw [sh_append, h.rcount, count_snoc]; simp [sharedHolds]; split <;> rfl
    · exact h.qnodup
    · intro u; show _ ↔ upd s.pc t .out u = _ ∨ upd s.pc t .out u = _
      rw [(hp u).1, (hp u).2]; exact h.qmem u
    · intro u; rw [ww_append, h.qcount]; simp [writerWaiting]
    · exact h.wqlen
    · intro hne; exact absurd hexo hne
    · intro u hu; rw [ex_append, h.exNone u hu]; simp [exHolds]
    · intro u hu; simp [hexo] at hu
    · exact h.rcNone
    · exact h.wcvNodup
    · intro u; show _ ↔ upd s.pc t .out u = _
      rw [(hp u).1]; exact h.wcvMem u
    · exact h.rcvNodup
    · intro u; show _ ↔ upd s.pc t .out u = _
      by_cases e : u = t
      · subst e; rw [upd_same]; simp [hr]
      · rw [upd_other _ _ e]; exact h.rcvMem u
    · exact h.rcvWq
    · intro _ hr0
      have hr0 : s.r + 1 = 0 := hr0
      have := h.rlen; omega

/-- `exTry` by a writer already registered (`t ∈ Q`) and awake. -/
theorem inv_exTry {rec s evs R Q} (t : Tid) (h : Inv rec s evs R Q) (ht : s.pc t = .exAwake) :
    ∃ R' Q', Inv rec (exTry s t).1 (evs ++ (exTry s t).2) R' Q' := by
  have hq : t ∈ Q := by rw [h.qmem]; simp [ht]
  have hr : t ∉ s.rcv := by rw [h.rcvMem]; simp [ht]
  have hw : t ∉ s.wcv := by rw [h.wcvMem]; simp [ht]
  unfold exTry
  split
  · rename_i hbusy
    refine ⟨R, Q, ?_⟩
    rw [List.append_nil]
    refine ⟨⟨?_, ?_, ?_, ?_, ?_, ?_, ?_, ?_, ?_, ?_, ?_, ?_, ?_, ?_, ?_⟩, ?_, ?_⟩
    · exact h.hrec
    · exact h.rlen
    · exact h.rcount
    · exact h.qnodup
    · intro u; show _ ↔ upd s.pc t .exSleep u = _ ∨ upd s.pc t .exSleep u = _
      by_cases e : u = t
      · subst e; rw [upd_same]; simp [hq]
      · rw [upd_other _ _ e]; exact h.qmem u
    · exact h.qcount
    · exact h.wqlen
    · exact h.excl
    · exact h.exNone
    · intro u hu
      have := h.exSome u hu
      have e : u ≠ t := by intro e; subst e; exact this.2.1 ht
      show upd s.pc t .exSleep u ≠ _ ∧ upd s.pc t .exSleep u ≠ _ ∧ _
      rw [upd_other _ _ e]; exact this
    · exact h.rcNone
    · show (s.wcv ++ [t]).Nodup
      rw [List.nodup_append]
      refine ⟨h.wcvNodup, by simp, ?_⟩
      intro a ha b hb; simp at hb; subst hb; exact fun e => hw (e ▸ ha)
    · intro u; show u ∈ s.wcv ++ [t] ↔ upd s.pc t .exSleep u = _
      by_cases e : u = t
      · subst e; rw [upd_same]; simp
      · rw [upd_other _ _ e, List.mem_append, h.wcvMem]; simp [e]
    · exact h.rcvNodup
    · intro u; show _ ↔ upd s.pc t .exSleep u = _
      by_cases e : u = t
      · subst e; rw [upd_same]; simp [hr]
      · rw [upd_other _ _ e]; exact h.rcvMem u
    · exact h.rcvWq
    · intro h1 h2
      have h1 : s.exo = none := h1
      have h2 : s.r = 0 := h2
      rcases hbusy with hb | hb
      · exact absurd h1 hb
      · omega
  · rename_i hfree
    have hexo : s.exo = none := by
      by_cases e : s.exo = none
      · exact e
      · exact absurd (.inl e) hfree
    have hr0 : s.r = 0 := by
      have := h.rlen
      have : ¬ 0 < s.r := fun e => hfree (.inr e)
      omega
    refine ⟨R, Q.erase t, ?_⟩
    have hmem : ∀ u, u ∈ Q.erase t ↔ u ≠ t ∧ u ∈ Q := fun u => h.qnodup.mem_erase_iff
    refine ⟨⟨?_, ?_, ?_, ?_, ?_, ?_, ?_, ?_, ?_, ?_, ?_, ?_, ?_, ?_, ?_⟩, ?_, ?_⟩
    · exact h.hrec
    · exact h.rlen
    · intro u; rw [sh_append, h.rcount]; simp [sharedHolds]
    · exact h.qnodup.erase t
    · intro u; show _ ↔ upd s.pc t .out u = _ ∨ upd s.pc t .out u = _
      rw [hmem]
      by_cases e : u = t
      · subst e; rw [upd_same]; simp
      · rw [upd_other _ _ e, h.qmem]; simp [e]
    · intro u; rw [ww_append, h.qcount]
      simp only [writerWaiting, Int.add_zero]
      by_cases e : t = u
      · subst e
        have h1 : 0 < Q.count t := List.count_pos_iff.2 hq
        rw [List.count_erase_self]; simp; omega
      · rw [List.count_erase_of_ne (fun e' => e e'.symm)]; simp [e]
    · show s.wq = _
      rw [h.wqlen, if_pos hexo, if_neg (by simp), List.length_erase_of_mem hq]
      have : 0 < Q.length := List.length_pos_of_mem hq
      omega
    · intro _; exact hr0
    · intro u hu
      have hu : some t ≠ some u := hu
      have e : ¬ t = u := fun e => hu (by rw [e])
      rw [ex_append, h.exNone u (by simp [hexo])]; simp [exHolds, e]
    · intro u hu
      have hu : some t = some u := hu
      cases hu
      show upd s.pc t .out t ≠ _ ∧ upd s.pc t .out t ≠ _ ∧ _
      rw [upd_same, ex_append, h.exNone t (by simp [hexo])]
      refine ⟨by simp, by simp, ?_, ?_⟩
      · show _ = if rec = true then (if s.recur = true then 1 else s.rc) else 1
        rw [h.hrec]; simp [exHolds]; intro a b; rw [a] at b; cases b
      · intro hr; show 0 < if s.recur = true then 1 else s.rc
        rw [h.hrec, hr]; simp
    · intro hn; cases hn
    · exact h.wcvNodup
    · intro u; show _ ↔ upd s.pc t .out u = _
      by_cases e : u = t
      · subst e; rw [upd_same]; simp [hw]
      · rw [upd_other _ _ e]; exact h.wcvMem u
    · exact h.rcvNodup
    · intro u; show _ ↔ upd s.pc t .out u = _
      by_cases e : u = t
      · subst e; rw [upd_same]; simp [hr]
      · rw [upd_other _ _ e]; exact h.rcvMem u
    · exact h.rcvWq
    · intro hn; cases hn

/-- Registering a writer: rwlock.c:152, seen as making it awake and waiting. -/
theorem inv_register {rec s evs R Q} (t : Tid) (h : Inv rec s evs R Q) (ht : s.pc t = .out)
    (hno : s.exo ≠ some t) :
    Inv rec { s with wq := s.wq + 1, pc := upd s.pc t .exAwake } (evs ++ [.exReq t]) R (Q ++ [t]) := by
  have hq : t ∉ Q := by rw [h.qmem]; simp [ht]
  have hr : t ∉ s.rcv := by rw [h.rcvMem]; simp [ht]
  have hw : t ∉ s.wcv := by rw [h.wcvMem]; simp [ht]
  refine ⟨⟨?_, ?_, ?_, ?_, ?_, ?_, ?_, ?_, ?_, ?_, ?_, ?_, ?_, ?_, ?_⟩, ?_, ?_⟩
  · exact h.hrec
  · exact h.rlen
  · intro u; rw [sh_append, h.rcount]; simp [sharedHolds]
  · rw [List.nodup_append]
    refine ⟨h.qnodup, by simp, ?_⟩
    intro a ha b hb; simp at hb; subst hb; exact fun e => hq (e ▸ ha)
  · intro u; show _ ↔ upd s.pc t .exAwake u = _ ∨ upd s.pc t .exAwake u = _
    by_cases e : u = t
    · subst e; rw [upd_same]; simp
    · rw [upd_other _ _ e, List.mem_append, h.qmem]; simp [e]
  · intro u; rw [ww_append, h.qcount, count_snoc]; simp [writerWaiting]; split <;> rfl
  · show s.wq + 1 = _
    rw [h.wqlen, List.length_append]; simp; omega
  · exact h.excl
  · intro u hu; rw [ex_append, h.exNone u hu]; simp [exHolds]
  · intro u hu
    have e : u ≠ t := by intro e; subst e; exact hno hu
    have := h.exSome u hu
    show upd s.pc t .exAwake u ≠ _ ∧ upd s.pc t .exAwake u ≠ _ ∧ _
    rw [upd_other _ _ e, ex_append]
    simpa [exHolds] using this
  · exact h.rcNone
  · exact h.wcvNodup
  · intro u; show _ ↔ upd s.pc t .exAwake u = _
    by_cases e : u = t
    · subst e; rw [upd_same]; simp [hw]
    · rw [upd_other _ _ e]; exact h.wcvMem u
  · exact h.rcvNodup
  · intro u; show _ ↔ upd s.pc t .exAwake u = _
    by_cases e : u = t
    · subst e; rw [upd_same]; simp [hr]
    · rw [upd_other _ _ e]; exact h.rcvMem u
  · intro _; show 0 < s.wq + 1
    have := h.wqlen; split at this <;> omega
  · intro _ _ _; exact ⟨t, upd_same _ _ _⟩

theorem upd_upd {α} (f : Tid → α) (t a b) : upd (upd f t a) t b = upd f t b := by
  funext u; simp [upd]; split <;> rfl

theorem exTry_pc (s : St) (t : Tid) (v : PC) : exTry { s with pc := upd s.pc t v } t = exTry s t := by
  simp only [exTry, upd_upd]

theorem core_signalWriter {rec s evs R Q} (h : Core rec s evs R Q) :
    Core rec (signalWriter s) evs R Q ∧ (s.wcv ≠ [] → ∃ t, (signalWriter s).pc t = .exAwake) ∧
    (signalWriter s).rcv = s.rcv ∧ (signalWriter s).wq = s.wq ∧
    (s.wcv = [] → (signalWriter s).wcv = []) := by
  unfold signalWriter
  split
  · rename_i hw; exact ⟨h, fun hne => absurd hw hne, rfl, rfl, fun _ => hw⟩
  · rename_i w ws hw
    have hwm : s.pc w = .exSleep := (h.wcvMem w).1 (by simp [hw])
    have hnd : w ∉ ws ∧ ws.Nodup := by have := h.wcvNodup; rw [hw] at this; simpa using this
    refine ⟨?_, fun _ => ⟨w, upd_same _ _ _⟩, rfl, rfl, fun e => by rw [hw] at e; cases e⟩
    constructor
    · exact h.hrec
    · exact h.rlen
    · exact h.rcount
    · exact h.qnodup
    · intro u; show _ ↔ upd s.pc w .exAwake u = _ ∨ upd s.pc w .exAwake u = _
      by_cases e : u = w
      · subst e; rw [upd_same, h.qmem]; simp [hwm]
      · rw [upd_other _ _ e]; exact h.qmem u
    · exact h.qcount
    · exact h.wqlen
    · exact h.excl
    · exact h.exNone
    · intro u hu
      have := h.exSome u hu
      have e : u ≠ w := by intro e; subst e; exact this.1 hwm
      show upd s.pc w .exAwake u ≠ _ ∧ upd s.pc w .exAwake u ≠ _ ∧ _
      rw [upd_other _ _ e]; exact this
    · exact h.rcNone
    · exact hnd.2
    · intro u; show u ∈ ws ↔ upd s.pc w .exAwake u = _
      by_cases e : u = w
      · subst e; rw [upd_same]; simp [hnd.1]
      · rw [upd_other _ _ e, ← h.wcvMem u, hw]; simp [e]
    · exact h.rcvNodup
    · intro u; show _ ↔ upd s.pc w .exAwake u = _
      by_cases e : u = w
      · subst e; rw [upd_same, h.rcvMem]; simp [hwm]
      · rw [upd_other _ _ e]; exact h.rcvMem u

theorem core_signalReaders {rec s evs R Q} (h : Core rec s evs R Q) :
    Core rec (signalReaders s) evs R Q := by
  have hp : ∀ u, ((signalReaders s).pc u = .exSleep ↔ s.pc u = .exSleep) ∧
      ((signalReaders s).pc u = .exAwake ↔ s.pc u = .exAwake) := by
    intro u
    simp only [signalReaders]
    by_cases e : u ∈ s.rcv
    · have := (h.rcvMem u).1 e; simp [e, this]
    · simp [e]
  constructor
  · exact h.hrec
  · exact h.rlen
  · exact h.rcount
  · exact h.qnodup
  · intro u; rw [(hp u).1, (hp u).2]; exact h.qmem u
  · exact h.qcount
  · exact h.wqlen
  · exact h.excl
  · exact h.exNone
  · intro u hu
    have := h.exSome u hu
    exact ⟨fun e => this.1 ((hp u).1.1 e), fun e => this.2.1 ((hp u).2.1 e), this.2.2⟩
  · exact h.rcNone
  · exact h.wcvNodup
  · intro u; rw [(hp u).1]; exact h.wcvMem u
  · simp [signalReaders]
  · intro u
    simp only [signalReaders]
    by_cases e : u ∈ s.rcv
    · simp [e]
    · have := h.rcvMem u; simp [e] at this; simp [e, this]

theorem inv_shunlock {rec s evs R Q} (t : Tid) (h : Inv rec s evs R Q)
    (hc : 0 < sharedHolds t evs) :
    ∃ R' Q', Inv rec (shunlockStep s t).1 (evs ++ (shunlockStep s t).2) R' Q' := by
  have htR : t ∈ R := by
    have := h.rcount t; apply List.count_pos_iff.1; omega
  have hlen : (R.erase t).length = R.length - 1 := List.length_erase_of_mem htR
  have hpos : 0 < R.length := List.length_pos_of_mem htR
  have hexo : s.exo = none := by
    by_cases e : s.exo = none
    · exact e
    · have h1 := h.excl e; have h2 := h.rlen; omega
  have hcore : Core rec { s with r := s.r - 1 } (evs ++ [.shRel t]) (R.erase t) Q := by
    constructor
    · exact h.hrec
    · show s.r - 1 = _; rw [h.rlen, hlen]; omega
    · intro u; rw [sh_append, h.rcount]
      simp only [sharedHolds, Int.add_zero]
      by_cases e : t = u
      · subst e
        have h1 : 0 < R.count t := List.count_pos_iff.2 htR
        rw [List.count_erase_self]; simp; omega
      · rw [List.count_erase_of_ne (fun e' => e e'.symm)]; simp [e]
    · exact h.qnodup
    · exact h.qmem
    · intro u; rw [ww_append, h.qcount]; simp [writerWaiting]
    · exact h.wqlen
    · intro e; exact absurd hexo e
    · intro u hu; rw [ex_append, h.exNone u hu]; simp [exHolds]
    · intro u hu; simp [hexo] at hu
    · exact h.rcNone
    · exact h.wcvNodup
    · exact h.wcvMem
    · exact h.rcvNodup
    · exact h.rcvMem
  refine ⟨R.erase t, Q, ?_⟩
  simp only [shunlockStep]
  split
  · obtain ⟨c1, c2, c3, c4, c5⟩ := core_signalWriter hcore
    refine ⟨c1, ?_, ?_⟩
    · rw [c3, c4]; exact h.rcvWq
    · intro _ _ hne
      by_cases e : s.wcv = []
      · exact absurd (c5 e) hne
      · exact c2 e
  · rename_i hn
    refine ⟨hcore, h.rcvWq, ?_⟩
    intro _ hr0 hne
    exfalso
    apply hn
    refine ⟨hr0, ?_⟩
    show 0 < s.wq
    rw [h.wqlen]
    obtain ⟨w, hw⟩ := List.exists_mem_of_ne_nil _ hne
    have hwq : w ∈ Q := (h.qmem w).2 (.inl ((h.wcvMem w).1 hw))
    have := List.length_pos_of_mem hwq
    split <;> omega

theorem inv_exunlock {rec s evs R Q} (t : Tid) (h : Inv rec s evs R Q) (hc : 0 < exHolds t evs) :
    ∃ R' Q', Inv rec (exunlockStep s t).1 (evs ++ (exunlockStep s t).2) R' Q' := by
  have ho : s.exo = some t := by
    by_cases e : s.exo = some t
    · exact e
    · have := h.exNone t e; omega
  have hS := h.exSome t ho
  refine ⟨R, Q, ?_⟩
  simp only [exunlockStep]
  split
  · rename_i hrec
    have hr : rec = true := by rw [← h.hrec]; exact hrec.1
    refine ⟨?_, h.rcvWq, ?_⟩
    · constructor
      · exact h.hrec
      · exact h.rlen
      · intro u; rw [sh_append, h.rcount]; simp [sharedHolds]
      · exact h.qnodup
      · exact h.qmem
      · intro u; rw [ww_append, h.qcount]; simp [writerWaiting]
      · exact h.wqlen
      · exact h.excl
      · intro u hu
        have hu : s.exo ≠ some u := hu
        have e : ¬ t = u := by intro e; subst e; exact hu ho
        rw [ex_append, h.exNone u hu]; simp [exHolds, e]
      · intro u hu
        have hu : s.exo = some u := hu
        rw [ho] at hu; cases hu
        refine ⟨hS.1, hS.2.1, ?_, fun _ => hrec.2⟩
        rw [ex_append, hS.2.2.1]; simp [exHolds, hr]; rfl
      · intro hn; have hn : s.exo = none := hn; rw [ho] at hn; cases hn
      · exact h.wcvNodup
      · exact h.wcvMem
      · exact h.rcvNodup
      · exact h.rcvMem
    · intro hn; have hn : s.exo = none := hn; rw [ho] at hn; cases hn
  · rename_i hrec
    have hex1 : exHolds t evs = 1 ∧ (rec = true → s.rc = 1) := by
      have h1 := hS.2.2.1
      have h2 := hS.2.2.2
      cases hr : rec
      · simp [hr] at h1; exact ⟨h1, by simp⟩
      · have h3 := h2 hr
        have : ¬ (0 < s.rc - 1) := fun e => hrec ⟨by rw [h.hrec, hr], e⟩
        simp [hr] at h1
        exact ⟨by omega, fun _ => by omega⟩
    have hcore : Core rec { s with rc := if s.recur then s.rc - 1 else s.rc, exo := none, wq := s.wq - 1 }
        (evs ++ [.exRel t]) R Q := by
      constructor
      · exact h.hrec
      · exact h.rlen
      · intro u; rw [sh_append, h.rcount]; simp [sharedHolds]
      · exact h.qnodup
      · exact h.qmem
      · intro u; rw [ww_append, h.qcount]; simp [writerWaiting]
      · show s.wq - 1 = _
        rw [h.wqlen, if_neg (by simp [ho])]; simp
      · intro e; exact absurd rfl e
      · intro u _
        rw [ex_append]
        by_cases e : t = u
        · subst e; rw [hex1.1]; simp [exHolds]
        · rw [h.exNone u (by rw [ho]; intro e'; cases e'; exact e rfl)]; simp [exHolds, e]
      · intro u hu; cases hu
      · intro _ hr
        show (if s.recur = true then s.rc - 1 else s.rc) = 0
        rw [h.hrec, if_pos hr, hex1.2 hr]; rfl
      · exact h.wcvNodup
      · exact h.wcvMem
      · exact h.rcvNodup
      · exact h.rcvMem
    split
    · rename_i hwq
      obtain ⟨c1, c2, c3, c4, c5⟩ := core_signalWriter hcore
      refine ⟨c1, ?_, ?_⟩
      · rw [c4]; intro _; exact hwq
      · intro _ _ hne
        by_cases e : s.wcv = []
        · exact absurd (c5 e) hne
        · exact c2 e
    · rename_i hwq
      refine ⟨core_signalReaders hcore, by simp [signalReaders], ?_⟩
      intro _ _ hne
      exfalso
      obtain ⟨w, hw⟩ := List.exists_mem_of_ne_nil _ hne
      have hwq' : w ∈ Q := (h.qmem w).2 (.inl ((h.wcvMem w).1 hw))
      have h1 := List.length_pos_of_mem hwq'
      have h2 := hcore.wqlen
      simp at h2
      omega

theorem inv_exlock {rec s evs R Q} (t : Tid) (h : Inv rec s evs R Q) (ht : s.pc t = .out)
    (hc : rec = false → exHolds t evs = 0) :
    ∃ R' Q', Inv rec (exlockStep s t).1 (evs ++ (exlockStep s t).2) R' Q' := by
  simp only [exlockStep]
  split
  · rename_i hrec
    have hr : rec = true := by rw [← h.hrec]; exact hrec.1
    have ho := hrec.2
    have hS := h.exSome t ho
    refine ⟨R, Q, ?_, h.rcvWq, ?_⟩
    · constructor
      · exact h.hrec
      · exact h.rlen
      · intro u; rw [sh_append, h.rcount]; simp [sharedHolds]
      · exact h.qnodup
      · exact h.qmem
      · intro u; rw [ww_append, h.qcount]; simp [writerWaiting]
      · exact h.wqlen
      · exact h.excl
      · intro u hu
        have hu : s.exo ≠ some u := hu
        have e : ¬ t = u := by intro e; subst e; exact hu ho
        rw [ex_append, h.exNone u hu]; simp [exHolds, e]
      · intro u hu
        have hu : s.exo = some u := hu
        rw [ho] at hu; cases hu
        have h2 := hS.2.2.2 hr
        refine ⟨hS.1, hS.2.1, ?_, fun _ => by show 0 < s.rc + 1; omega⟩
        rw [ex_append, hS.2.2.1]; simp [exHolds, hr]
      · intro hn; have hn : s.exo = none := hn; rw [ho] at hn; cases hn
      · exact h.wcvNodup
      · exact h.wcvMem
      · exact h.rcvNodup
      · exact h.rcvMem
    · intro hn; have hn : s.exo = none := hn; rw [ho] at hn; cases hn
  · rename_i hrec
    have hno : s.exo ≠ some t := by
      intro ho
      have hS := h.exSome t ho
      cases hr : rec
      · have h1 := hS.2.2.1; have := hc hr; simp [hr] at h1; omega
      · exact hrec ⟨by rw [h.hrec, hr], ho⟩
    have h1 := inv_register t h ht hno
    obtain ⟨R', Q', h2⟩ := inv_exTry t h1 (upd_same _ _ _)
    have e := exTry_pc { s with wq := s.wq + 1 } t .exAwake
    refine ⟨R', Q', ?_⟩
    rw [e, List.append_assoc] at h2
    exact h2

theorem inv_spurious {rec s evs R Q op s' es} (t : Tid) (hop : op = .spurious t)
    (h : Inv rec s evs R Q) (hs : step s op = some (s', es)) : Inv rec s' (evs ++ es) R Q := by
  subst hop
  simp only [step] at hs
  split at hs
  · rename_i ht
    obtain ⟨rfl, rfl⟩ := some_pair hs
    have hp : ∀ u, (upd s.pc t .shAwake u = .exSleep ↔ s.pc u = .exSleep) ∧
        (upd s.pc t .shAwake u = .exAwake ↔ s.pc u = .exAwake) := by
      intro u
      by_cases e : u = t
      · subst e; rw [upd_same]; simp [ht]
      · rw [upd_other _ _ e]; simp
    rw [List.append_nil]
    refine ⟨?_, ?_, ?_⟩
    · constructor
      · exact h.hrec
      · exact h.rlen
      · exact h.rcount
      · exact h.qnodup
      · intro u; show _ ↔ upd s.pc t .shAwake u = _ ∨ upd s.pc t .shAwake u = _
        rw [(hp u).1, (hp u).2]; exact h.qmem u
      · exact h.qcount
      · exact h.wqlen
      · exact h.excl
      · exact h.exNone
      · intro u hu
        have := h.exSome u hu
        exact ⟨fun e => this.1 ((hp u).1.1 e), fun e => this.2.1 ((hp u).2.1 e), this.2.2⟩
      · exact h.rcNone
      · exact h.wcvNodup
      · intro u; show _ ↔ upd s.pc t .shAwake u = _
        rw [(hp u).1]; exact h.wcvMem u
      · exact h.rcvNodup.erase t
      · intro u; show u ∈ s.rcv.erase t ↔ upd s.pc t .shAwake u = _
        rw [h.rcvNodup.mem_erase_iff]
        by_cases e : u = t
        · subst e; rw [upd_same]; simp
        · rw [upd_other _ _ e, h.rcvMem]; simp [e]
    · intro hne
      apply h.rcvWq
      intro e; apply hne; show s.rcv.erase t = []; rw [e]; rfl
    · intro h1 h2 h3
      obtain ⟨u, hu⟩ := h.wake h1 h2 h3
      exact ⟨u, (hp u).2.2 hu⟩
  · split at hs
    · rename_i ht
      obtain ⟨rfl, rfl⟩ := some_pair hs
      rw [List.append_nil]
      refine ⟨?_, h.rcvWq, fun _ _ _ => ⟨t, upd_same _ _ _⟩⟩
      constructor
      · exact h.hrec
      · exact h.rlen
      · exact h.rcount
      · exact h.qnodup
      · intro u; show _ ↔ upd s.pc t .exAwake u = _ ∨ upd s.pc t .exAwake u = _
        by_cases e : u = t
        · subst e; rw [upd_same, h.qmem]; simp [ht]
        · rw [upd_other _ _ e]; exact h.qmem u
      · exact h.qcount
      · exact h.wqlen
      · exact h.excl
      · exact h.exNone
      · intro u hu
        have := h.exSome u hu
        have e : u ≠ t := by intro e; subst e; exact this.1 ht
        show upd s.pc t .exAwake u ≠ _ ∧ upd s.pc t .exAwake u ≠ _ ∧ _
        rw [upd_other _ _ e]; exact this
      · exact h.rcNone
      · exact h.wcvNodup.erase t
      · intro u; show u ∈ s.wcv.erase t ↔ upd s.pc t .exAwake u = _
        rw [h.wcvNodup.mem_erase_iff]
        by_cases e : u = t
        · subst e; rw [upd_same]; simp
        · rw [upd_other _ _ e, h.wcvMem]; simp [e]
      · exact h.rcvNodup
      · intro u; show _ ↔ upd s.pc t .exAwake u = _
        by_cases e : u = t
        · subst e; rw [upd_same, h.rcvMem]; simp [ht]
        · rw [upd_other _ _ e]; exact h.rcvMem u
    · cases hs

theorem exec_inv {rec s evs} (h : Exec rec s evs) : ∃ R Q, Inv rec s evs R Q := by
  induction h with
  | init => exact ⟨_, _, inv_init rec⟩
  | step _ hc hs ih =>
    rename_i s evs op s' es _
    obtain ⟨R, Q, hi⟩ := ih
    cases op with
    | shlock t =>
      simp only [step] at hs; split at hs
      · obtain ⟨rfl, rfl⟩ := some_pair hs; exact inv_shTry t hi (.inl (by assumption))
      · cases hs
    | shunlock t =>
      simp only [step] at hs; split at hs
      · obtain ⟨rfl, rfl⟩ := some_pair hs; exact inv_shunlock t hi hc
      · cases hs
    | exlock t =>
      simp only [step] at hs; split at hs
      · obtain ⟨rfl, rfl⟩ := some_pair hs; exact inv_exlock t hi (by assumption) hc
      · cases hs
    | exunlock t =>
      simp only [step] at hs; split at hs
      · obtain ⟨rfl, rfl⟩ := some_pair hs; exact inv_exunlock t hi hc
      · cases hs
    | retry t =>
      simp only [step] at hs; split at hs
      · obtain ⟨rfl, rfl⟩ := some_pair hs; exact inv_shTry t hi (.inr (by assumption))
      · split at hs
        · obtain ⟨rfl, rfl⟩ := some_pair hs; exact inv_exTry t hi (by assumption)
        · cases hs
    | spurious t => exact ⟨R, Q, inv_spurious t rfl hi hs⟩

/-! ## Theorems -/

/-- C16 for the writer-preferring lock: in every execution, whenever a task holds the lock exclusively no
task holds it shared and no other task holds it exclusively; and no hold count is ever negative. -/
theorem wp_exclusion {rec : Bool} {s : St} {evs : List Ev} (h : Exec rec s evs) :
    (∀ t u, 0 < exHolds t evs → sharedHolds u evs = 0) ∧
    (∀ t u, 0 < exHolds t evs → u ≠ t → exHolds u evs = 0) ∧
    (∀ t, 0 ≤ exHolds t evs) ∧ (∀ t, 0 ≤ sharedHolds t evs) := by
  obtain ⟨R, Q, hi⟩ := exec_inv h
  have key : ∀ t, 0 < exHolds t evs → s.exo = some t := by
    intro t ht
    by_cases e : s.exo = some t
    · exact e
    · have := hi.exNone t e; omega
  refine ⟨?_, ?_, ?_, ?_⟩
  · intro t u ht
    have h1 := hi.excl (by rw [key t ht]; simp)
    have h2 := hi.rlen
    have h3 : R = [] := List.eq_nil_of_length_eq_zero (by omega)
    rw [hi.rcount, h3]; simp
  · intro t u ht hne
    apply hi.exNone
    rw [key t ht]; intro e; cases e; exact hne rfl
  · intro t
    by_cases e : s.exo = some t
    · have h1 := hi.exSome t e
      rw [h1.2.2.1]
      split
      · have := h1.2.2.2 (by assumption); omega
      · omega
    · rw [hi.exNone t e]; omega
  · intro t; rw [hi.rcount]; omega

/-- C17: whenever a reader acquires the lock, no writer holds it and no writer that has announced itself is
waiting. -/
theorem wp_readers_yield_to_writers {rec : Bool} {s s' : St} {evs es : List Ev} {op : Op} {t : Tid}
    (h : Exec rec s evs) (hs : step s op = some (s', es)) (ha : Ev.shAcq t ∈ es) :
    ∀ u, writerWaiting u evs = 0 ∧ exHolds u evs = 0 := by
  obtain ⟨R, Q, hi⟩ := exec_inv h
  have key : ∀ t', Ev.shAcq t ∈ (shTry s t').2 → ∀ u, writerWaiting u evs = 0 ∧ exHolds u evs = 0 := by
    intro t' hm u
    unfold shTry at hm
    split at hm
    · simp at hm
    · rename_i hwq
      have h1 := hi.wqlen
      have hexo : s.exo = none := by
        by_cases e : s.exo = none
        · exact e
        · rw [if_neg e] at h1; omega
      have hQ : Q = [] := by
        rw [if_pos hexo] at h1
        exact List.eq_nil_of_length_eq_zero (by omega)
      refine ⟨by rw [hi.qcount, hQ]; simp, hi.exNone u (by simp [hexo])⟩
  have nex : ∀ s' t', Ev.shAcq t ∉ (exTry s' t').2 := by
    intro s' t' hm; unfold exTry at hm; split at hm <;> simp at hm
  cases op with
  | shlock t' =>
    simp only [step] at hs; split at hs
    · obtain ⟨rfl, rfl⟩ := some_pair hs; exact key t' ha
    · cases hs
  | shunlock t' =>
    simp only [step] at hs; split at hs
    · obtain ⟨rfl, rfl⟩ := some_pair hs; simp [shunlockStep] at ha
    · cases hs
  | exlock t' =>
    simp only [step] at hs; split at hs
    · obtain ⟨rfl, rfl⟩ := some_pair hs
      simp only [exlockStep] at ha
      split at ha
      · simp at ha
      · simp only [List.mem_cons] at ha
        rcases ha with ha | ha
        · cases ha
        · exact absurd ha (nex _ _)
    · cases hs
  | exunlock t' =>
    simp only [step] at hs; split at hs
    · obtain ⟨rfl, rfl⟩ := some_pair hs
      simp only [exunlockStep] at ha
      split at ha <;> simp at ha
    · cases hs
  | retry t' =>
    simp only [step] at hs; split at hs
    · obtain ⟨rfl, rfl⟩ := some_pair hs; exact key t' ha
    · split at hs
      · obtain ⟨rfl, rfl⟩ := some_pair hs; exact absurd ha (nex _ _)
      · cases hs
  | spurious t' =>
    simp only [step] at hs; split at hs
    · obtain ⟨rfl, rfl⟩ := some_pair hs; simp at ha
    · split at hs
      · obtain ⟨rfl, rfl⟩ := some_pair hs; simp at ha
      · cases hs

/-- No wake-up is lost, writers: if some writer waits and nobody holds the lock, then a waiting writer is
awake, and it gets the lock as soon as it runs. -/
theorem wp_waiting_writer_not_stuck {rec : Bool} {s : St} {evs : List Ev} (h : Exec rec s evs) {w : Tid}
    (hw : 0 < writerWaiting w evs) (hex : ∀ t, exHolds t evs = 0) (hsh : ∀ t, sharedHolds t evs = 0) :
    ∃ u s', step s (.retry u) = some (s', [.exAcq u]) := by
  obtain ⟨R, Q, hi⟩ := exec_inv h
  have hexo : s.exo = none := by
    rcases e : s.exo with _ | t
    · rfl
    · have h1 := hi.exSome t e
      have h2 := hex t
      rw [h1.2.2.1] at h2
      split at h2
      · have := h1.2.2.2 (by assumption); omega
      · omega
  have hR : R = [] := by
    cases R with
    | nil => rfl
    | cons a R =>
      have := hi.rcount a
      rw [hsh a, List.count_cons_self] at this
      omega
  have hr0 : s.r = 0 := by rw [hi.rlen, hR]; rfl
  have hwQ : w ∈ Q := by
    apply List.count_pos_iff.1
    have := hi.qcount w; omega
  have : ∃ u, s.pc u = .exAwake := by
    rcases (hi.qmem w).1 hwQ with e | e
    · apply hi.wake hexo hr0
      intro e'
      have := (hi.wcvMem w).2 e
      rw [e'] at this; cases this
    · exact ⟨w, e⟩
  obtain ⟨u, hu⟩ := this
  refine ⟨u, (exTry s u).1, ?_⟩
  simp [step, hu, exTry, hexo, hr0]

/-- No wake-up is lost, readers: a reader that sleeps has a reason to: a writer holds the lock or waits
for it.  Otherwise every reader inside `rwlock_wp_shlock` is awake and gets the lock when it runs. -/
theorem wp_waiting_reader_not_stuck {rec : Bool} {s : St} {evs : List Ev} (h : Exec rec s evs)
    (hex : ∀ t, exHolds t evs = 0) (hw : ∀ t, writerWaiting t evs = 0) (t : Tid) :
    s.pc t ≠ .shSleep ∧
    (s.pc t = .shAwake → ∃ s', step s (.retry t) = some (s', [.shAcq t])) := by
  obtain ⟨R, Q, hi⟩ := exec_inv h
  have hexo : s.exo = none := by
    rcases e : s.exo with _ | t
    · rfl
    · have h1 := hi.exSome t e
      have h2 := hex t
      rw [h1.2.2.1] at h2
      split at h2
      · have := h1.2.2.2 (by assumption); omega
      · omega
  have hQ : Q = [] := by
    cases Q with
    | nil => rfl
    | cons a R =>
      have := hi.qcount a
      rw [hw a, List.count_cons_self] at this
      omega
  have hwq : s.wq = 0 := by rw [hi.wqlen, hQ, if_pos hexo]; rfl
  refine ⟨?_, ?_⟩
  · intro e
    have h1 := (hi.rcvMem t).2 e
    have := hi.rcvWq (by intro e; rw [e] at h1; cases h1)
    omega
  · intro e
    refine ⟨(shTry s t).1, ?_⟩
    simp [step, e, shTry, hwq]

/-- The comment at rwlock.c:154-160 promises that "writers are served in arrival order".  They are not: a
writer woken from `writers_cv` competes for the lock with newcomers and, when it loses, goes to the back
of the queue.  Here 2 and 3 wait, in this order; 1 releases, newcomer 4 overtakes both, and then 3 is
served before 2. -/
theorem wp_writers_fifo_violated :
    ∃ s, Exec false s [.exReq 1, .exAcq 1, .exReq 2, .exReq 3, .exRel 1, .exReq 4, .exAcq 4, .exRel 4,
      .exAcq 3] := by
  refine ⟨_, .step (op := .retry 3) (es := [.exAcq 3])
    (evs := [.exReq 1, .exAcq 1, .exReq 2, .exReq 3, .exRel 1, .exReq 4, .exAcq 4, .exRel 4])
    (.step (op := .exunlock 4) (es := [.exRel 4])
    (evs := [.exReq 1, .exAcq 1, .exReq 2, .exReq 3, .exRel 1, .exReq 4, .exAcq 4])
    (.step (op := .retry 2) (es := [])
    (evs := [.exReq 1, .exAcq 1, .exReq 2, .exReq 3, .exRel 1, .exReq 4, .exAcq 4])
    (.step (op := .exlock 4) (es := [.exReq 4, .exAcq 4])
    (evs := [.exReq 1, .exAcq 1, .exReq 2, .exReq 3, .exRel 1])
    (.step (op := .exunlock 1) (es := [.exRel 1])
    (evs := [.exReq 1, .exAcq 1, .exReq 2, .exReq 3])
    (.step (op := .exlock 3) (es := [.exReq 3])
    (evs := [.exReq 1, .exAcq 1, .exReq 2])
    (.step (op := .exlock 2) (es := [.exReq 2])
    (evs := [.exReq 1, .exAcq 1])
    (.step (op := .exlock 1) (es := [.exReq 1, .exAcq 1]) .init ?_ rfl) ?_ rfl) ?_ rfl) ?_ rfl) ?_ rfl) trivial rfl) ?_ rfl) trivial rfl⟩ <;>
  first | (simp only [Contract]; decide) | (intro _; decide)

/-! ## Non-vacuity -/

/-- A reader arrives while a writer waits behind another reader: it sleeps; after both release it gets the
lock. -/
example : ∃ s evs, Exec true s evs ∧ 0 < writerWaiting 2 evs ∧ s.pc 3 = .shSleep ∧
    sharedHolds 1 evs = 1 := by
  refine ⟨_, _, .step (op := .shlock 3) (.step (op := .exlock 2) (.step (op := .shlock 1) .init trivial
    rfl) ?_ rfl) trivial rfl, ?_, ?_, ?_⟩ <;> first | decide | (intro h; cases h)

/-- A recursive writer holds the lock twice. -/
example : ∃ s evs, Exec true s evs ∧ exHolds 1 evs = 2 := by
  refine ⟨_, _, .step (op := .exlock 1) (.step (op := .exlock 1) .init ?_ rfl) ?_ rfl, ?_⟩ <;>
  first | decide | (intro h; cases h)

end Verif.RwlockWp
