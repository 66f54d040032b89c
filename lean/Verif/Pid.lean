/-!
# Allocation of process and kernel-thread ids (`kernel/sched.c`)

The table of tasks is the list visited in order by `iterate_over_tasks` (sched.c:478-487): strictly
increasing tids (the tree is `Verif.Avl`).  Ids are non-negative machine integers far from overflow and are
modelled as naturals; `next` stands for `current_max_pid + 1`.  `MAX_PID` (8191) and `KERNEL_MAX_TID` (1024)
are the parameter `maxId`.
-/

namespace Verif.Pid

/-- include/tilck/kernel/sched.h:248 -/
def kernelTidStart : Nat := 10000

/-- The fields of `struct task` / `struct process` used by the allocation: `main` is `is_main_thread`,
`kern` is `is_kernel_thread` (`pi == kernel_process_pi`). -/
structure Task where
  tid : Nat
  pgid : Nat
  sid : Nat
  main : Bool
  kern : Bool
deriving DecidableEq, Repr

/-- sched.c:274-281; `la` = `lowest_available`, `am` = `lowest_after_current_max`,
`inv` = `lowest_avail_invalid`. -/
structure Ctx where
  la : Nat
  am : Nat
  inv : Bool
deriving DecidableEq, Repr

/-- sched.c:283-324 `inc_candicate_if_matches`: new candidate and return value. -/
def inc (cand id val : Nat) : Nat × Nat :=
  if cand ≠ val then (cand, 0)
  else if cand = id then (cand, 0)
  else (cand + 1, 1)

/-- sched.c:380-392, the tail of the callback. -/
def tail (c : Ctx) (tid : Nat) : Ctx :=
  { c with la := if c.la = tid then c.la + 1 else c.la
           am := if c.am = tid then c.am + 1 else c.am }

/-- sched.c:326-395 `create_new_pid_visit_cb` with `kernel_tid = false`. -/
def visitUser (c : Ctx) (t : Task) : Ctx :=
  if !t.main then c
  else if t.tid < c.la then c
  else
    let a := inc c.la t.tid t.pgid
    let b := inc a.1 t.tid t.sid
    let d := inc c.am t.tid t.pgid
    let e := inc d.1 t.tid t.sid
    tail { la := b.1, am := e.1, inv := if a.2 + b.2 + d.2 + e.2 ≠ 0 then true else c.inv } t.tid

/-- sched.c:326-395 with `kernel_tid = true`, `id_off = KERNEL_TID_START`. -/
def visitKernel (c : Ctx) (t : Task) : Ctx :=
  if !t.kern then c else tail c (t.tid - kernelTidStart)

/-- sched.c:407-411. -/
def choose (maxId : Nat) (c : Ctx) : Option Nat :=
  if c.am ≤ maxId then some c.am else if c.la ≤ maxId then some c.la else none

/-- sched.c:397-430 `create_id_common`; `none`: -1.  The outer `Option`: `none` = still looping after
`fuel` iterations. -/
def createId (visit : Ctx → Task → Ctx) (tasks : List Task) (maxId : Nat) : Nat → Ctx → Option (Option Nat)
  | 0, _ => none
  | fuel + 1, c =>
    let c' := tasks.foldl visit { c with inv := false }
    let r := choose maxId c'
    if r = some c'.la ∧ c'.inv = true then createId visit tasks maxId fuel c' else some r

/-- sched.c:432-452 `create_new_pid`. -/
def createPid (tasks : List Task) (next maxId fuel : Nat) : Option (Option Nat) :=
  createId visitUser tasks maxId fuel { la := 0, am := next, inv := false }

/-- sched.c:454-476 `create_new_kernel_tid`. -/
def createKernelTid (tasks : List Task) (next maxId fuel : Nat) : Option (Option Nat) :=
  match createId visitKernel tasks maxId fuel { la := 0, am := next, inv := false } with
  | none => none
  | some none => some none
  | some (some r) => some (some (r + kernelTidStart))

/-! ## Specification -/

/-- `x` is the id of a live user process, or a group or session id of one. -/
def IsTid (tasks : List Task) (x : Nat) : Prop := ∃ t ∈ tasks, t.tid = x
def IsGroup (tasks : List Task) (x : Nat) : Prop := ∃ t ∈ tasks, t.main = true ∧ (t.pgid = x ∨ t.sid = x)

/-- Shape of the task table: strictly increasing tids; kernel threads have tids from `kernelTidStart`, user
processes are main threads (there are no user threads) with tids up to `maxPid`; the kernel's own task is
main, has group and session 0 (sched.c:530-571). -/
structure Table (maxPid : Nat) (tasks : List Task) : Prop where
  sorted : tasks.Pairwise (fun a b => a.tid < b.tid)
  kernTid : ∀ t ∈ tasks, t.kern = true → kernelTidStart ≤ t.tid
  userTid : ∀ t ∈ tasks, t.kern = false → t.main = true ∧ t.tid ≤ maxPid
  kernel : ∃ t ∈ tasks, t.main = true ∧ t.pgid = 0 ∧ t.sid = 0 ∧ maxPid < t.tid
  bound : maxPid < kernelTidStart

/-! ## Histories -/

/-- The task table and `current_max_pid + 1`. -/
structure Sys where
  tasks : List Task
  next : Nat
deriving DecidableEq, Repr

/-- sched.c:858-862: insertion into the tree by tid; a duplicate key is silently refused. -/
def insertTask (t : Task) : List Task → List Task
  | [] => [t]
  | u :: us => if t.tid < u.tid then t :: u :: us else if t.tid = u.tid then u :: us else u :: insertTask t us

/-- The live task with the given tid. -/
def find (tasks : List Task) (tid : Nat) : Option Task := tasks.find? (fun t => t.tid = tid)

def setIds (tasks : List Task) (tid pgid sid : Nat) : List Task :=
  tasks.map (fun t => if t.tid = tid then { t with pgid := pgid, sid := sid } else t)

/-- `fork` by a live process, removal of a dead one, `setpgid`, `setsid`. -/
inductive Op
  | fork (parent : Nat)
  | reap (tid : Nat)
  | setpgid (caller pgid : Nat)
  | setsid (caller : Nat)
deriving DecidableEq, Repr

/-- sched.c:236-260 `sched_get_session_of_group`: session of the first task of the group. -/
def sessionOf (tasks : List Task) (pgid : Nat) : Option Nat := (tasks.find? (fun t => t.pgid = pgid)).map Task.sid

/-- The child inherits group and session (process.c, `allocate_new_process` copies `struct process`).
`fork`: fork.c:74, 157-ff; `setpgid(0, pgid)`: process.c:611-673 by the process itself; `setsid`: process.c:587-603.
The new id (if any) is returned. -/
def step (maxId fuel : Nat) (s : Sys) : Op → Option (Sys × Option Nat)
  | .fork p =>
      match find s.tasks p with
      | none => none
      | some pt =>
        if pt.kern then none
        else match createPid s.tasks s.next maxId fuel with
          | none => none
          | some none => some (s, none)
          | some (some r) =>
              some ({ tasks := insertTask { pt with tid := r } s.tasks, next := r + 1 }, some r)
  | .reap t =>
      match find s.tasks t with
      | none => none
      | some tt => if tt.kern then none else some ({ s with tasks := s.tasks.filter (fun u => u.tid ≠ t) }, none)
  | .setpgid c g =>
      match find s.tasks c with
      | none => none
      | some ct =>
        if ct.kern then none
        else if g = 0 then some ({ s with tasks := setIds s.tasks c c ct.sid }, none)
        else match sessionOf s.tasks g with
          | some sid => if sid ≠ ct.sid then some (s, none)
                        else some ({ s with tasks := setIds s.tasks c g ct.sid }, none)
          | none => some ({ s with tasks := setIds s.tasks c g ct.sid }, none)
  | .setsid c =>
      match find s.tasks c with
      | none => none
      | some ct =>
        if ct.kern then none
        else if s.tasks.any (fun t => t.pgid = c) then some (s, none)
        else some ({ s with tasks := setIds s.tasks c c c }, none)

/-- After boot: the first process (pid 1, process.c:723-742) and the kernel's own task. -/
def boot : Sys := { tasks := [⟨1, 1, 1, true, false⟩, ⟨10000, 0, 0, true, true⟩], next := 2 }

inductive Reach (maxId fuel : Nat) : Sys → Prop
  | boot : Reach maxId fuel boot
  | step {s op s' r} : Reach maxId fuel s → step maxId fuel s op = some (s', r) → Reach maxId fuel s'

/-! ## Proofs -/

theorem inc_fst (c i v : Nat) : (inc c i v).1 = if c = v ∧ c ≠ i then c + 1 else c := by
  unfold inc
  by_cases h : c = v <;> by_cases h2 : c = i <;> simp [h, h2] <;> (intros; simp_all)

theorem inc_snd (c i v : Nat) : (inc c i v).2 = 0 ↔ (inc c i v).1 = c := by
  unfold inc
  by_cases h : c = v <;> by_cases h2 : c = i <;> simp [h, h2] <;> (split <;> simp)

/-- How one candidate moves when a task is visited. -/
def adv (t : Task) (c : Nat) : Nat :=
  let c1 := (inc (inc c t.tid t.pgid).1 t.tid t.sid).1
  if c1 = t.tid then c1 + 1 else c1

/-- The candidate was bumped because of a group or session id. -/
def bumped (t : Task) (c : Nat) : Prop := (inc (inc c t.tid t.pgid).1 t.tid t.sid).1 ≠ c

theorem inc_ge (c i v : Nat) : c ≤ (inc c i v).1 := by rw [inc_fst]; split <;> omega
theorem adv_ge (t c) : c ≤ adv t c := by
  unfold adv
  have h1 := inc_ge c t.tid t.pgid
  have h2 := inc_ge (inc c t.tid t.pgid).1 t.tid t.sid
  simp only; split <;> omega

theorem not_bumped {t c} (h : ¬ bumped t c) : adv t c = if c = t.tid then c + 1 else c := by
  unfold bumped at h; simp at h; unfold adv; simp only; rw [h]

theorem visitUser_skip {c t} (h : t.main = false ∨ t.tid < c.la) : visitUser c t = c := by
  unfold visitUser
  rcases h with h | h <;> simp [h]

theorem visitUser_eq {c t} (h1 : t.main = true) (h2 : ¬ t.tid < c.la) :
    (visitUser c t).la = adv t c.la ∧ (visitUser c t).am = adv t c.am ∧
    ((visitUser c t).inv = true ↔ c.inv = true ∨ bumped t c.la ∨ bumped t c.am) := by
  unfold visitUser
  simp only [h1, h2, Bool.not_true, Bool.false_eq_true, if_false]
  refine ⟨rfl, rfl, ?_⟩
  show (if _ then true else c.inv) = true ↔ _
  have a1 := inc_snd c.la t.tid t.pgid
  have a2 := inc_snd (inc c.la t.tid t.pgid).1 t.tid t.sid
  have a3 := inc_snd c.am t.tid t.pgid
  have a4 := inc_snd (inc c.am t.tid t.pgid).1 t.tid t.sid
  have g1 := inc_ge c.la t.tid t.pgid
  have g2 := inc_ge (inc c.la t.tid t.pgid).1 t.tid t.sid
  have g3 := inc_ge c.am t.tid t.pgid
  have g4 := inc_ge (inc c.am t.tid t.pgid).1 t.tid t.sid
  unfold bumped
  split
  · rename_i hne
    simp only [true_iff]
    by_cases e1 : (inc (inc c.la t.tid t.pgid).1 t.tid t.sid).1 = c.la
    · by_cases e2 : (inc (inc c.am t.tid t.pgid).1 t.tid t.sid).1 = c.am
      · exfalso; apply hne
        have := a1.2 (by omega); have := a2.2 (by omega)
        have := a3.2 (by omega); have := a4.2 (by omega)
        omega
      · exact .inr (.inr e2)
    · exact .inr (.inl e1)
  · rename_i hne
    have e1 := a1.1 (by omega); have e2 := a2.1 (by omega)
    have e3 := a3.1 (by omega); have e4 := a4.1 (by omega)
    constructor
    · exact .inl
    · rintro (h | h | h)
      · exact h
      · exact absurd (by omega) h
      · exact absurd (by omega) h

theorem adv_mono (t : Task) {a b : Nat} (h : a ≤ b) : adv t a ≤ adv t b := by
  unfold adv
  simp only [inc_fst]
  repeat' split
  all_goals omega

/-- A candidate moves only over used ids. -/
theorem adv_used (t : Task) (c x : Nat) (h1 : c ≤ x) (h2 : x < adv t c) : t.tid = x ∨ t.pgid = x ∨ t.sid = x := by
  unfold adv at h2
  simp only [inc_fst] at h2
  repeat' split at h2
  all_goals omega

theorem foldl_ge (ts : List Task) : ∀ c : Ctx, c.la ≤ (ts.foldl visitUser c).la ∧
    c.am ≤ (ts.foldl visitUser c).am ∧ (c.inv = true → (ts.foldl visitUser c).inv = true) := by
  induction ts with
  | nil => intro c; exact ⟨Nat.le_refl _, Nat.le_refl _, id⟩
  | cons t ts ih =>
    intro c
    rw [List.foldl_cons]
    have h := ih (visitUser c t)
    by_cases h1 : t.main = true
    · by_cases h2 : t.tid < c.la
      · rw [visitUser_skip (.inr h2)] at h ⊢; exact h
      · obtain ⟨e1, e2, e3⟩ := visitUser_eq h1 h2
        have g1 := adv_ge t c.la; have g2 := adv_ge t c.am
        refine ⟨by omega, by omega, fun x => h.2.2 (e3.2 (.inl x))⟩
    · rw [visitUser_skip (.inl (by simpa using h1))] at h ⊢; exact h

theorem foldl_le (ts : List Task) : ∀ c : Ctx, c.la ≤ c.am →
    (ts.foldl visitUser c).la ≤ (ts.foldl visitUser c).am := by
  induction ts with
  | nil => intro c h; exact h
  | cons t ts ih =>
    intro c h
    rw [List.foldl_cons]
    apply ih
    by_cases h1 : t.main = true
    · by_cases h2 : t.tid < c.la
      · rw [visitUser_skip (.inr h2)]; exact h
      · obtain ⟨e1, e2, _⟩ := visitUser_eq h1 h2
        rw [e1, e2]; exact adv_mono t h
    · rw [visitUser_skip (.inl (by simpa using h1))]; exact h

theorem foldl_used (ts : List Task) : ∀ c : Ctx, ∀ x, c.la ≤ x → x < (ts.foldl visitUser c).la →
    IsTid ts x ∨ IsGroup ts x := by
  induction ts with
  | nil => intro c x h1 h2; have : x < c.la := h2; omega
  | cons t ts ih =>
    intro c x h1 h2
    rw [List.foldl_cons] at h2
    have lift : IsTid ts x ∨ IsGroup ts x → IsTid (t :: ts) x ∨ IsGroup (t :: ts) x := by
      rintro (⟨u, hu, e⟩ | ⟨u, hu, e⟩)
      · exact .inl ⟨u, List.mem_cons_of_mem _ hu, e⟩
      · exact .inr ⟨u, List.mem_cons_of_mem _ hu, e⟩
    by_cases hm : t.main = true
    · by_cases hl : t.tid < c.la
      · rw [visitUser_skip (.inr hl)] at h2; exact lift (ih c x h1 h2)
      · obtain ⟨e1, _, _⟩ := visitUser_eq hm hl
        by_cases hx : x < adv t c.la
        · rcases adv_used t c.la x h1 hx with e | e | e
          · exact .inl ⟨t, List.mem_cons_self, e⟩
          · exact .inr ⟨t, List.mem_cons_self, hm, .inl e⟩
          · exact .inr ⟨t, List.mem_cons_self, hm, .inr e⟩
        · exact lift (ih _ x (by rw [e1]; omega) h2)
    · rw [visitUser_skip (.inl (by simpa using hm))] at h2; exact lift (ih c x h1 h2)

/-- A pass that bumped nothing: `la` ends at an id that is not a live tid, and is not the group or session of
any task it looked at. -/
theorem foldl_la_fresh (ts : List Task) : ∀ c : Ctx, ts.Pairwise (fun a b => a.tid < b.tid) →
    (ts.foldl visitUser c).inv = false →
    ∀ t ∈ ts, t.main = true → t.tid ≠ (ts.foldl visitUser c).la ∧
      (t.pgid = (ts.foldl visitUser c).la ∨ t.sid = (ts.foldl visitUser c).la →
        t.tid < (ts.foldl visitUser c).la) := by
  induction ts with
  | nil => intro c _ _ t ht; cases ht
  | cons t ts ih =>
    intro c hs hi u hu hm
    rw [List.foldl_cons] at hi ⊢
    have hs' := (List.pairwise_cons.1 hs).2
    have hlt := (List.pairwise_cons.1 hs).1
    rcases List.mem_cons.1 hu with rfl | hu
    · by_cases hl : u.tid < c.la
      · rw [visitUser_skip (.inr hl)]
        have := (foldl_ge ts c).1
        exact ⟨by omega, fun _ => by omega⟩
      · obtain ⟨e1, _, e3⟩ := visitUser_eq hm hl
        have hg := foldl_ge ts (visitUser c u)
        have hnb : ¬ bumped u c.la := by
          intro hb
          have := hg.2.2 (e3.2 (.inr (.inl hb)))
          rw [hi] at this; cases this
        have ea := not_bumped hnb
        rw [← e1] at ea
        by_cases hc : c.la = u.tid
        · rw [if_pos hc] at ea
          exact ⟨by omega, fun _ => by omega⟩
        · rw [if_neg hc] at ea
          -- la stays below u.tid unless later moves reach it; later moves are over larger tids only
          have key : ∀ (ts : List Task) (c : Ctx), (∀ x ∈ ts, u.tid < x.tid) → c.la < u.tid →
              (ts.foldl visitUser c).inv = false → (ts.foldl visitUser c).la = c.la := by
            intro ts
            induction ts with
            | nil => intro c _ _ _; rfl
            | cons x xs ih2 =>
              intro c hx hcl hinv
              rw [List.foldl_cons] at hinv ⊢
              have hxu := hx x List.mem_cons_self
              by_cases hxm : x.main = true
              · by_cases hxl : x.tid < c.la
                · omega
                · obtain ⟨f1, _, f3⟩ := visitUser_eq hxm hxl
                  have hnb2 : ¬ bumped x c.la := by
                    intro hb
                    have := (foldl_ge xs (visitUser c x)).2.2 (f3.2 (.inr (.inl hb)))
                    rw [hinv] at this; cases this
                  have fa := not_bumped hnb2
                  rw [if_neg (by omega), ← f1] at fa
                  rw [ih2 _ (fun y hy => hx y (List.mem_cons_of_mem _ hy)) (by omega) hinv, fa]
              · rw [visitUser_skip (.inl (by simpa using hxm))] at hinv ⊢
                exact ih2 _ (fun y hy => hx y (List.mem_cons_of_mem _ hy)) hcl hinv
          have hk := key ts (visitUser c u) hlt (by omega) hi
          refine ⟨by omega, ?_⟩
          intro hor
          exfalso; apply hnb
          unfold bumped
          have hge := inc_ge (inc c.la u.tid u.pgid).1 u.tid u.sid
          have hge2 := inc_ge c.la u.tid u.pgid
          simp only [inc_fst] at hge hge2 ⊢
          rw [hk, ea] at hor
          repeat' split
          all_goals omega
    · exact ih _ hs' hi u hu hm

/-- Under the "no orphan above the counter" hypothesis, the `am` candidate is never a live tid. -/
theorem foldl_am_fresh (ts : List Task) : ∀ (c : Ctx) (K : Nat) (Live : Nat → Prop),
    ts.Pairwise (fun a b => a.tid < b.tid) → c.la ≤ c.am →
    (∀ t ∈ ts, t.main = true → (t.pgid < c.am ∨ Live t.pgid ∨ K < t.pgid) ∧
      (t.sid < c.am ∨ Live t.sid ∨ K < t.sid)) →
    (∀ x, Live x → x ≤ K → (∀ t ∈ ts, x < t.tid) → x ≠ c.am) →
    (∀ x, Live x → (∃ t ∈ ts, t.tid = x ∧ t.main = true) ∨ (∀ t ∈ ts, x < t.tid)) →
    (∀ x, Live x → x ≤ K → x ≠ (ts.foldl visitUser c).am) := by
  induction ts with
  | nil => intro c K Live _ _ _ h1 _ x hx hk; exact h1 x hx hk (by simp)
  | cons t ts ih =>
    intro c K Live hs hle hg hv hl
    have hs' := (List.pairwise_cons.1 hs).2
    have hlt := (List.pairwise_cons.1 hs).1
    rw [List.foldl_cons]
    -- conditions for the tail
    have hl' : ∀ x, Live x → (∃ u ∈ ts, u.tid = x ∧ u.main = true) ∨ (∀ u ∈ ts, x < u.tid) := by
      intro x hx
      rcases hl x hx with ⟨u, hu, e, m⟩ | h
      · rcases List.mem_cons.1 hu with rfl | hu
        · right; intro w hw; rw [← e]; exact hlt w hw
        · exact .inl ⟨u, hu, e, m⟩
      · right; intro w hw; exact h w (List.mem_cons_of_mem _ hw)
    by_cases hm : t.main = true
    · by_cases h2 : t.tid < c.la
      · rw [visitUser_skip (.inr h2)]
        apply ih c K Live hs' hle (fun u hu => hg u (List.mem_cons_of_mem _ hu)) _ hl'
        intro x hx hk hlow
        rcases hl x hx with ⟨u, hu, e, m⟩ | h
        · rcases List.mem_cons.1 hu with rfl | hu
          · omega
          · have := hlow u hu; omega
        · exact hv x hx hk h
      · obtain ⟨_, e2, _⟩ := visitUser_eq hm h2
        have hle' : (visitUser c t).la ≤ (visitUser c t).am := foldl_le [t] c hle
        have hge := adv_ge t c.am
        apply ih _ K Live hs' hle' _ _ hl'
        · intro u hu um
          have := hg u (List.mem_cons_of_mem _ hu) um
          rw [e2]
          exact ⟨this.1.imp (fun h => by omega) id, this.2.imp (fun h => by omega) id⟩
        · intro x hx hk hlow
          rw [e2]
          have hgt := hg t List.mem_cons_self hm
          -- x is t.tid or below all of t :: ts
          have hxt : x ≤ t.tid := by
            rcases hl x hx with ⟨u, hu, e, m⟩ | h
            · rcases List.mem_cons.1 hu with rfl | hu
              · omega
              · have := hlow u hu; omega
            · have := h t List.mem_cons_self; omega
          have hxa : x < t.tid → x ≠ c.am := by
            intro hlt'
            apply hv x hx hk
            intro w hw
            rcases List.mem_cons.1 hw with rfl | hw
            · exact hlt'
            · exact hlow w hw
          -- where bumps come from
          have low : ∀ v, (v < c.am ∨ Live v ∨ K < v) → v = c.am → t.tid ≤ v ∨ K < v := by
            intro v h e
            rcases h with h | h | h
            · omega
            · by_cases hvk : K < v
              · exact .inr hvk
              left
              rcases hl v h with ⟨u, hu, e', m⟩ | h'
              · rcases List.mem_cons.1 hu with rfl | hu
                · omega
                · have := hlt u hu; omega
              · exact absurd e (hv v h (by omega) h')
            · exact .inr h
          have l1 := low _ hgt.1
          have l2 := low _ hgt.2
          unfold adv
          simp only [inc_fst]
          repeat' split
          all_goals (by_cases hh : x < t.tid; (have hx2 := hxa hh; omega); omega)
    · rw [visitUser_skip (.inl (by simpa using hm))]
      apply ih c K Live hs' hle (fun u hu => hg u (List.mem_cons_of_mem _ hu)) _ hl'
      intro x hx hk hlow
      rcases hl x hx with ⟨u, hu, e, m⟩ | h
      · rcases List.mem_cons.1 hu with rfl | hu
        · exact absurd m hm
        · have := hlow u hu; omega
      · exact hv x hx hk h

/-- Invariant of the restart loop and its exit. -/
theorem createId_exit {tasks maxId} : ∀ fuel (c : Ctx) r, createId visitUser tasks maxId fuel c = some r →
    c.la ≤ c.am →
    ∃ c0 : Ctx, c.am ≤ c0.am ∧ c.la ≤ c0.la ∧ c0.la ≤ c0.am ∧ c0.inv = false ∧
      (∀ x, c.la ≤ x → x < c0.la → IsTid tasks x ∨ IsGroup tasks x) ∧
      r = choose maxId (tasks.foldl visitUser c0) ∧
      (r = some (tasks.foldl visitUser c0).la → (tasks.foldl visitUser c0).inv = false) := by
  intro fuel
  induction fuel with
  | zero => intro c r h; cases h
  | succ fuel ih =>
    intro c r h hle
    unfold createId at h
    simp only at h
    have hg := foldl_ge tasks { c with inv := false }
    have hle' := foldl_le tasks { c with inv := false } hle
    have hu := foldl_used tasks { c with inv := false }
    split at h
    · obtain ⟨c0, h1, h2, h3, h4, h5, h6, h7⟩ := ih _ r h hle'
      refine ⟨c0, Nat.le_trans hg.2.1 h1, Nat.le_trans hg.1 h2, h3, h4, ?_, h6, h7⟩
      intro x hx1 hx2
      by_cases hx : x < (tasks.foldl visitUser { c with inv := false }).la
      · exact hu x hx1 hx
      · exact h5 x (by omega) hx2
    · rename_i hn
      injection h with h
      refine ⟨{ c with inv := false }, Nat.le_refl _, Nat.le_refl _, hle, rfl, ?_, h.symm, ?_⟩
      · intro x hx1 hx2; have : x < c.la := hx2; omega
      · intro e
        rw [← h] at e
        cases hi : (tasks.foldl visitUser { c with inv := false }).inv with
        | false => rfl
        | true => exact absurd ⟨e, hi⟩ hn

theorem choose_some {maxId c r} (h : choose maxId c = some r) :
    r ≤ maxId ∧ (r = c.am ∨ (maxId < c.am ∧ r = c.la)) := by
  unfold choose at h
  split at h
  · injection h with h; subst h; exact ⟨by assumption, .inl rfl⟩
  · split at h
    · injection h with h; subst h; exact ⟨by assumption, .inr ⟨by omega, rfl⟩⟩
    · cases h

/-- Only main threads can have a tid up to `maxPid`. -/
theorem table_main {maxPid tasks} (ht : Table maxPid tasks) {t} (h : t ∈ tasks) (hle : t.tid ≤ maxPid) :
    t.main = true := by
  cases hk : t.kern with
  | false => exact (ht.userTid t h hk).1
  | true => have := ht.kernTid t h hk; have := ht.bound; omega

/-- C20 (uniqueness among task ids).  A new process id lies in the allowed range, and it is not the id of a
live task provided one of the following holds: it was found by the wrap-around search (`r < next`); the
counter is above all live process ids (no wrap-around yet); or every live group / session id above the
counter is the id of a live task (no orphaned group or session up there). -/
theorem create_pid_unique_partial {tasks : List Task} {next maxPid fuel r : Nat} (ht : Table maxPid tasks)
    (h : createPid tasks next maxPid fuel = some (some r)) :
    r ≤ maxPid ∧
    (r < next ∨ (∀ t ∈ tasks, t.kern = false → t.tid < next) ∨
      (∀ g, IsGroup tasks g → next ≤ g → g ≤ maxPid → IsTid tasks g) → ¬ IsTid tasks r) := by
  obtain ⟨c0, h1, h2, h3, h4, h5, h6, h7⟩ := createId_exit fuel _ _ h (Nat.zero_le _)
  have h1 : next ≤ c0.am := h1
  have hc := choose_some h6.symm
  refine ⟨hc.1, ?_⟩
  rintro hyp ⟨t, htm, he⟩
  have hmain := table_main ht htm (by omega)
  have hg := foldl_ge tasks c0
  rcases hc.2 with e | ⟨hlt, e⟩
  · rcases hyp with hyp | hyp | hyp
    · omega
    · have hk : t.kern = false := by
        cases hk : t.kern with
        | false => rfl
        | true => have := ht.kernTid t htm hk; have := ht.bound; omega
      have := hyp t htm hk
      omega
    · refine foldl_am_fresh tasks c0 maxPid (fun x => ∃ u ∈ tasks, u.tid = x ∧ u.main = true) ht.sorted h3 ?_ ?_ ?_ t.tid
        ⟨t, htm, rfl, hmain⟩ (by omega) (by omega)
      · intro u hu um
        have live : ∀ g, IsGroup tasks g → g < c0.am ∨ (∃ w ∈ tasks, w.tid = g ∧ w.main = true) ∨ maxPid < g := by
          intro g hgr
          by_cases hlt : g < c0.am
          · exact .inl hlt
          · right
            by_cases hgm : maxPid < g
            · exact .inr hgm
            · obtain ⟨w, hw, we⟩ := hyp g hgr (by omega) (by omega)
              exact .inl ⟨w, hw, we, table_main ht hw (by omega)⟩
        exact ⟨live _ ⟨u, hu, um, .inl rfl⟩, live _ ⟨u, hu, um, .inr rfl⟩⟩
      · rintro x ⟨u, hu, e', _⟩ _ hl
        have := hl u hu; omega
      · rintro x hx; exact .inl hx
  · have := foldl_la_fresh tasks c0 ht.sorted (h7 (by rw [e])) t htm hmain
    omega

/-- C20 (uniqueness among group and session ids).  If every live group / session id is 0 or the id of a live
task (no orphaned group or session), the new id is neither 0, nor the id of a live task, nor a live group or
session id. -/
theorem create_pid_not_group_partial {tasks : List Task} {next maxPid fuel r : Nat} (ht : Table maxPid tasks)
    (hn : 1 ≤ next) (horph : ∀ g, IsGroup tasks g → g = 0 ∨ IsTid tasks g)
    (h : createPid tasks next maxPid fuel = some (some r)) :
    r ≠ 0 ∧ ¬ IsTid tasks r ∧ ¬ IsGroup tasks r := by
  have hu := (create_pid_unique_partial ht h).2 (.inr (.inr (fun g hg hge _ => by
    rcases horph g hg with e | e
    · omega
    · exact e)))
  have h0 : r ≠ 0 := by
    obtain ⟨c0, h1, h2, h3, h4, h5, h6, h7⟩ := createId_exit fuel _ _ h (Nat.zero_le _)
    have h1 : next ≤ c0.am := h1
    have hg := foldl_ge tasks c0
    rcases (choose_some h6.symm).2 with e | ⟨_, e⟩
    · omega
    · obtain ⟨k, hk, km, kg, ks, kt⟩ := ht.kernel
      have := foldl_la_fresh tasks c0 ht.sorted (h7 (by rw [e])) k hk km
      intro e0
      rw [← e, e0] at this
      have := this.2 (.inl kg)
      omega
  refine ⟨h0, hu, ?_⟩
  intro hg
  rcases horph r hg with e | e
  · exact h0 e
  · exact hu e

/-- C20: allocation fails only when every id is in use (by a task, a group or a session). -/
theorem create_pid_fails_only_when_full {tasks : List Task} {next maxPid fuel : Nat}
    (h : createPid tasks next maxPid fuel = some none) :
    ∀ x, x ≤ maxPid → IsTid tasks x ∨ IsGroup tasks x := by
  obtain ⟨c0, h1, h2, h3, h4, h5, h6, h7⟩ := createId_exit fuel _ _ h (Nat.zero_le _)
  intro x hx
  have hla : maxPid < (tasks.foldl visitUser c0).la := by
    unfold choose at h6
    split at h6
    · cases h6
    · split at h6
      · cases h6
      · omega
  by_cases hx0 : x < c0.la
  · exact h5 x (Nat.zero_le _) hx0
  · exact foldl_used tasks c0 x (by omega) (by omega)

theorem adv_le {t : Task} {c M : Nat} (hc : c ≤ M + 1) (h1 : t.tid ≤ M) (h2 : t.pgid ≤ M) (h3 : t.sid ≤ M) :
    adv t c ≤ M + 1 := by
  unfold adv
  simp only [inc_fst]
  repeat' split
  all_goals omega

theorem bumped_lt {t c} (h : bumped t c) : c < adv t c := by
  unfold bumped at h; unfold adv
  have h1 := inc_ge c t.tid t.pgid
  have h2 := inc_ge (inc c t.tid t.pgid).1 t.tid t.sid
  simp only; split <;> omega

theorem foldl_bound (ts : List Task) (M : Nat) (hM : ∀ t ∈ ts, t.tid ≤ M ∧ t.pgid ≤ M ∧ t.sid ≤ M) :
    ∀ c : Ctx, c.la ≤ M + 1 → c.am ≤ M + 1 →
    (ts.foldl visitUser c).la ≤ M + 1 ∧ (ts.foldl visitUser c).am ≤ M + 1 ∧
    ((ts.foldl visitUser c).inv = true → c.inv = true ∨
      c.la + c.am < (ts.foldl visitUser c).la + (ts.foldl visitUser c).am) := by
  induction ts with
  | nil => intro c h1 h2; exact ⟨h1, h2, .inl⟩
  | cons t ts ih =>
    intro c h1 h2
    rw [List.foldl_cons]
    have hM' := fun u hu => hM u (List.mem_cons_of_mem _ hu)
    obtain ⟨m1, m2, m3⟩ := hM t List.mem_cons_self
    by_cases hm : t.main = true
    · by_cases hl : t.tid < c.la
      · rw [visitUser_skip (.inr hl)]; exact ih hM' c h1 h2
      · obtain ⟨e1, e2, e3⟩ := visitUser_eq hm hl
        have b1 := adv_le h1 m1 m2 m3
        have b2 := adv_le h2 m1 m2 m3
        obtain ⟨i1, i2, i3⟩ := ih hM' (visitUser c t) (by omega) (by omega)
        refine ⟨i1, i2, ?_⟩
        intro hi
        have g1 := adv_ge t c.la
        have g2 := adv_ge t c.am
        have g3 := foldl_ge ts (visitUser c t)
        rcases i3 hi with h | h
        · rcases e3.1 h with h | h | h
          · exact .inl h
          · right; have := bumped_lt h; omega
          · right; have := bumped_lt h; omega
        · right; omega
    · rw [visitUser_skip (.inl (by simpa using hm))]; exact ih hM' c h1 h2

theorem createId_terminates {tasks : List Task} {maxId M : Nat}
    (hM : ∀ t ∈ tasks, t.tid ≤ M ∧ t.pgid ≤ M ∧ t.sid ≤ M) :
    ∀ fuel (c : Ctx), c.la ≤ M + 1 → c.am ≤ M + 1 → 2 * M + 2 < c.la + c.am + fuel →
      ∃ r, createId visitUser tasks maxId fuel c = some r := by
  intro fuel
  induction fuel with
  | zero => intro c h1 h2 h3; omega
  | succ fuel ih =>
    intro c h1 h2 h3
    unfold createId
    simp only
    obtain ⟨b1, b2, b3⟩ := foldl_bound tasks M hM { c with inv := false } h1 h2
    split
    · rename_i hh
      rcases b3 hh.2 with h | h
      · cases h
      · have h : c.la + c.am < _ := h
        exact ih _ b1 b2 (by omega)
    · exact ⟨_, rfl⟩

/-- C20: the restart loop always terminates. -/
theorem create_pid_terminates (tasks : List Task) (next maxPid : Nat) :
    ∃ f, ∀ fuel, f ≤ fuel → ∃ r, createPid tasks next maxPid fuel = some r := by
  obtain ⟨M, hM, hn⟩ : ∃ M, (∀ t ∈ tasks, t.tid ≤ M ∧ t.pgid ≤ M ∧ t.sid ≤ M) ∧ next ≤ M := by
    induction tasks with
    | nil => exact ⟨next, by simp, Nat.le_refl _⟩
    | cons t ts ih =>
      obtain ⟨M, h1, h2⟩ := ih
      refine ⟨M + t.tid + t.pgid + t.sid, ?_, by omega⟩
      intro u hu
      rcases List.mem_cons.1 hu with rfl | hu
      · omega
      · have := h1 u hu; omega
  refine ⟨2 * M + 3, fun fuel hf => ?_⟩
  apply createId_terminates hM
  · exact Nat.zero_le _
  · show next ≤ M + 1; omega
  · show 2 * M + 2 < 0 + next + fuel; omega

/-! ### Kernel threads -/

theorem foldl_kernel (ts : List Task) : ∀ c : Ctx, ts.Pairwise (fun a b => a.tid < b.tid) →
    (∀ t ∈ ts, t.kern = true → kernelTidStart ≤ t.tid) →
    (ts.foldl visitKernel c).inv = c.inv ∧
    (∀ t ∈ ts, t.kern = true → t.tid ≠ (ts.foldl visitKernel c).la + kernelTidStart ∧
      t.tid ≠ (ts.foldl visitKernel c).am + kernelTidStart) ∧
    ((∀ t ∈ ts, c.la + kernelTidStart < t.tid) → (ts.foldl visitKernel c).la = c.la) ∧
    ((∀ t ∈ ts, c.am + kernelTidStart < t.tid) → (ts.foldl visitKernel c).am = c.am) ∧
    c.la ≤ (ts.foldl visitKernel c).la ∧ c.am ≤ (ts.foldl visitKernel c).am := by
  induction ts with
  | nil => intro c _ _; simp
  | cons t ts ih =>
    intro c hs hk
    have hs' := (List.pairwise_cons.1 hs).2
    have hlt := (List.pairwise_cons.1 hs).1
    rw [List.foldl_cons]
    obtain ⟨i1, i2, i3, i4, i5, i6⟩ := ih (visitKernel c t) hs' (fun u hu => hk u (List.mem_cons_of_mem _ hu))
    cases hkt : t.kern with
    | false =>
      have e : visitKernel c t = c := by simp [visitKernel, hkt]
      rw [e] at i1 i2 i3 i4 i5 i6 ⊢
      refine ⟨i1, ?_, fun h => i3 (fun u hu => h u (List.mem_cons_of_mem _ hu)),
        fun h => i4 (fun u hu => h u (List.mem_cons_of_mem _ hu)), i5, i6⟩
      intro u hu uk
      rcases List.mem_cons.1 hu with rfl | hu
      · rw [hkt] at uk; cases uk
      · exact i2 u hu uk
    | true =>
      have hge := hk t List.mem_cons_self hkt
      have e1 : (visitKernel c t).la = if c.la = t.tid - kernelTidStart then c.la + 1 else c.la := by
        simp [visitKernel, hkt, tail]
      have e2 : (visitKernel c t).am = if c.am = t.tid - kernelTidStart then c.am + 1 else c.am := by
        simp [visitKernel, hkt, tail]
      have e3 : (visitKernel c t).inv = c.inv := by simp [visitKernel, hkt, tail]
      refine ⟨by rw [i1, e3], ?_, ?_, ?_, ?_, ?_⟩
      · intro u hu uk
        rcases List.mem_cons.1 hu with rfl | hu
        · constructor
          · split at e1
            · omega
            · by_cases hb : c.la < u.tid - kernelTidStart
              · have := i3 (fun w hw => by have := hlt w hw; omega)
                omega
              · omega
          · split at e2
            · omega
            · by_cases hb : c.am < u.tid - kernelTidStart
              · have := i4 (fun w hw => by have := hlt w hw; omega)
                omega
              · omega
        · exact i2 u hu uk
      · intro h
        have h0 := h t List.mem_cons_self
        rw [if_neg (by omega)] at e1
        rw [i3 (fun u hu => by have := h u (List.mem_cons_of_mem _ hu); omega), e1]
      · intro h
        have h0 := h t List.mem_cons_self
        rw [if_neg (by omega)] at e2
        rw [i4 (fun u hu => by have := h u (List.mem_cons_of_mem _ hu); omega), e2]
      · split at e1 <;> omega
      · split at e2 <;> omega

/-- C20, kernel threads: a new kernel-thread id is never the id of a live task, whatever the table and the
counter. -/
theorem create_kernel_tid_unique {tasks : List Task} {next maxPid maxId fuel : Nat} (ht : Table maxPid tasks) :
    (∃ r, createKernelTid tasks next maxId (fuel + 1) = some r) ∧
    ∀ r, createKernelTid tasks next maxId (fuel + 1) = some (some r) →
      ¬ IsTid tasks r ∧ kernelTidStart ≤ r ∧ r ≤ kernelTidStart + maxId := by
  obtain ⟨k1, k2, _⟩ := foldl_kernel tasks { la := 0, am := next, inv := false } ht.sorted ht.kernTid
  have e : createId visitKernel tasks maxId (fuel + 1) { la := 0, am := next, inv := false } =
      some (choose maxId (tasks.foldl visitKernel { la := 0, am := next, inv := false })) := by
    unfold createId
    simp only
    rw [if_neg]
    intro h
    rw [k1] at h
    cases h.2
  unfold createKernelTid
  rw [e]
  constructor
  · cases choose maxId (tasks.foldl visitKernel { la := 0, am := next, inv := false }) with
    | none => exact ⟨_, rfl⟩
    | some v => exact ⟨_, rfl⟩
  · intro r hr
    cases hc : choose maxId (tasks.foldl visitKernel { la := 0, am := next, inv := false }) with
    | none => rw [hc] at hr; simp at hr
    | some v =>
      rw [hc] at hr
      simp at hr
      have := choose_some hc
      refine ⟨?_, by omega, by omega⟩
      rintro ⟨t, htm, et⟩
      cases hk : t.kern with
      | false => have := (ht.userTid t htm hk).2; have := ht.bound; omega
      | true =>
        have := k2 t htm hk
        omega

/-! ### Histories -/

theorem mem_insertTask {t u ts} (h : u ∈ insertTask t ts) : u = t ∨ u ∈ ts := by
  induction ts with
  | nil => simp [insertTask] at h; exact .inl h
  | cons w ws ih =>
    unfold insertTask at h
    split at h
    · simpa using h
    · split at h
      · exact .inr h
      · rcases List.mem_cons.1 h with rfl | h
        · exact .inr List.mem_cons_self
        · rcases ih h with e | e
          · exact .inl e
          · exact .inr (List.mem_cons_of_mem _ e)

theorem mem_insertTask' {t u ts} (h : u ∈ ts) : u ∈ insertTask t ts := by
  induction ts with
  | nil => cases h
  | cons w ws ih =>
    unfold insertTask
    split
    · exact List.mem_cons_of_mem _ h
    · split
      · exact h
      · rcases List.mem_cons.1 h with rfl | h
        · exact List.mem_cons_self
        · exact List.mem_cons_of_mem _ (ih h)

theorem sorted_insertTask {t ts} (h : ts.Pairwise (fun a b : Task => a.tid < b.tid)) :
    (insertTask t ts).Pairwise (fun a b => a.tid < b.tid) := by
  induction ts with
  | nil => simp [insertTask]
  | cons w ws ih =>
    have h1 := (List.pairwise_cons.1 h)
    unfold insertTask
    split
    · refine List.pairwise_cons.2 ⟨?_, h⟩
      intro x hx
      rcases List.mem_cons.1 hx with rfl | hx
      · assumption
      · have := h1.1 x hx; omega
    · split
      · exact h
      · refine List.pairwise_cons.2 ⟨?_, ih h1.2⟩
        intro x hx
        rcases mem_insertTask hx with rfl | hx
        · omega
        · exact h1.1 x hx

theorem find_some {tasks t u} (h : find tasks t = some u) : u ∈ tasks ∧ u.tid = t := by
  unfold find at h
  exact ⟨List.mem_of_find?_eq_some h, by simpa using List.find?_some h⟩

theorem table_setIds {maxPid tasks c g s} (ht : Table maxPid tasks) (hc : c ≤ maxPid) :
    Table maxPid (setIds tasks c g s) := by
  have tid : ∀ t : Task, (if t.tid = c then { t with pgid := g, sid := s } else t).tid = t.tid := by
    intro t; split <;> rfl
  have kern : ∀ t : Task, (if t.tid = c then { t with pgid := g, sid := s } else t).kern = t.kern := by
    intro t; split <;> rfl
  have main : ∀ t : Task, (if t.tid = c then { t with pgid := g, sid := s } else t).main = t.main := by
    intro t; split <;> rfl
  refine ⟨?_, ?_, ?_, ?_, ht.bound⟩
  · unfold setIds
    rw [List.pairwise_map]
    refine ht.sorted.imp ?_
    intro a b h
    rw [tid, tid]; exact h
  · intro t h
    obtain ⟨u, hu, rfl⟩ := List.mem_map.1 h
    rw [kern, tid]; exact ht.kernTid u hu
  · intro t h
    obtain ⟨u, hu, rfl⟩ := List.mem_map.1 h
    rw [kern, tid, main]; exact ht.userTid u hu
  · obtain ⟨k, hk, km, kg, ks, kt⟩ := ht.kernel
    refine ⟨k, List.mem_map.2 ⟨k, hk, ?_⟩, km, kg, ks, kt⟩
    rw [if_neg (by omega)]

/-- Every reachable state satisfies the table shape assumed above, with a positive counter. -/
theorem reach_table {maxPid fuel : Nat} {s : Sys} (h1 : 1 ≤ maxPid) (h2 : maxPid < kernelTidStart)
    (h : Reach maxPid fuel s) : Table maxPid s.tasks ∧ 1 ≤ s.next := by
  induction h with
  | boot =>
    refine ⟨⟨by decide, ?_, ?_, ⟨⟨10000, 0, 0, true, true⟩, by simp [boot], rfl, rfl, rfl, h2⟩, h2⟩, by decide⟩
    · intro t ht; simp [boot] at ht; rcases ht with rfl | rfl <;> simp [kernelTidStart]
    · intro t ht; simp [boot] at ht; rcases ht with rfl | rfl <;> simp [h1]
  | @step s op s' r _ hs ih =>
    obtain ⟨ht, hn⟩ := ih
    cases op with
    | fork p =>
      simp only [step] at hs
      split at hs
      · cases hs
      · rename_i pt hp
        obtain ⟨hpm, _⟩ := find_some hp
        split at hs
        · cases hs
        · rename_i hk
          split at hs
          · cases hs
          · simp at hs; obtain ⟨rfl, rfl⟩ := hs; exact ⟨ht, hn⟩
          · rename_i v hc
            simp at hs; obtain ⟨rfl, rfl⟩ := hs
            have hle := (create_pid_unique_partial ht hc).1
            refine ⟨⟨sorted_insertTask ht.sorted, ?_, ?_, ?_, h2⟩, by show 1 ≤ v + 1; omega⟩
            · intro t hm tk
              rcases mem_insertTask hm with rfl | hm
              · exact absurd tk hk
              · exact ht.kernTid t hm tk
            · intro t hm tk
              rcases mem_insertTask hm with rfl | hm
              · exact ⟨(ht.userTid pt hpm (by simpa using hk)).1, hle⟩
              · exact ht.userTid t hm tk
            · obtain ⟨k, hk, kk⟩ := ht.kernel
              exact ⟨k, mem_insertTask' hk, kk⟩
    | reap t =>
      simp only [step] at hs
      split at hs
      · cases hs
      · rename_i tt hp
        obtain ⟨htm, hte⟩ := find_some hp
        split at hs
        · cases hs
        · rename_i hk
          simp at hs; obtain ⟨rfl, rfl⟩ := hs
          have htl := (ht.userTid tt htm (by simpa using hk)).2
          refine ⟨⟨ht.sorted.filter _, ?_, ?_, ?_, h2⟩, hn⟩
          · intro u hu; exact ht.kernTid u (List.mem_filter.1 hu).1
          · intro u hu; exact ht.userTid u (List.mem_filter.1 hu).1
          · obtain ⟨k, hkm, km, kg, ks, kt⟩ := ht.kernel
            refine ⟨k, List.mem_filter.2 ⟨hkm, ?_⟩, km, kg, ks, kt⟩
            have : k.tid ≠ t := by omega
            simp [this]
    | setpgid c g =>
      simp only [step] at hs
      split at hs
      · cases hs
      · rename_i ct hp
        obtain ⟨hcm, hce⟩ := find_some hp
        split at hs
        · cases hs
        · rename_i hk
          have hcl := (ht.userTid ct hcm (by simpa using hk)).2
          have hcl : c ≤ maxPid := by omega
          split at hs
          · simp at hs; obtain ⟨rfl, rfl⟩ := hs; exact ⟨table_setIds ht hcl, hn⟩
          · split at hs
            · split at hs
              · simp at hs; obtain ⟨rfl, rfl⟩ := hs; exact ⟨ht, hn⟩
              · simp at hs; obtain ⟨rfl, rfl⟩ := hs; exact ⟨table_setIds ht hcl, hn⟩
            · simp at hs; obtain ⟨rfl, rfl⟩ := hs; exact ⟨table_setIds ht hcl, hn⟩
    | setsid c =>
      simp only [step] at hs
      split at hs
      · cases hs
      · rename_i ct hp
        obtain ⟨hcm, hce⟩ := find_some hp
        split at hs
        · cases hs
        · rename_i hk
          have hcl := (ht.userTid ct hcm (by simpa using hk)).2
          have hcl : c ≤ maxPid := by omega
          split at hs
          · simp at hs; obtain ⟨rfl, rfl⟩ := hs; exact ⟨ht, hn⟩
          · simp at hs; obtain ⟨rfl, rfl⟩ := hs; exact ⟨table_setIds ht hcl, hn⟩

/-- Run a list of operations. -/
def run (maxId fuel : Nat) : Sys → List Op → Option Sys
  | s, [] => some s
  | s, op :: ops => match step maxId fuel s op with
    | none => none
    | some (s', _) => run maxId fuel s' ops

theorem reach_run {maxId fuel} : ∀ ops s s', Reach maxId fuel s → run maxId fuel s ops = some s' →
    Reach maxId fuel s' := by
  intro ops
  induction ops with
  | nil => intro s s' h e; simp [run] at e; exact e ▸ h
  | cons op ops ih =>
    intro s s' h e
    unfold run at e
    split at e
    · cases e
    · rename_i s1 r hs; exact ih s1 s' (.step h hs) e

/-- C20 is violated, 1: a reachable state (with 7 as the largest id) in which `fork` hands out the id of a
live process.  Process 7 is in the orphaned group 5, the counter stands at 4, and 6 is alive. -/
theorem create_pid_unique_violated :
    ∃ s, Reach 7 50 s ∧ IsTid s.tasks 6 ∧ createPid s.tasks s.next 7 50 = some (some 6) := by
  refine ⟨_, reach_run [.fork 1, .fork 1, .fork 1, .fork 1, .fork 1, .setpgid 5 0, .setpgid 6 0, .fork 5,
    .reap 2, .reap 3, .reap 4, .reap 5, .fork 1, .fork 1, .fork 1] boot _ .boot rfl, ?_, ?_⟩
  · exact ⟨⟨6, 6, 1, true, false⟩, by decide, rfl⟩
  · decide

/-- C20 is violated, 2: with the real limit and no wrap-around at all, `fork` hands out an id that is a live
process group (6): processes may put themselves in arbitrary groups. -/
theorem create_pid_not_group_violated :
    ∃ s, Reach 8191 50 s ∧ IsGroup s.tasks 6 ∧ createPid s.tasks s.next 8191 50 = some (some 6) := by
  refine ⟨_, reach_run [.fork 1, .fork 1, .fork 1, .setpgid 2 6, .setpgid 3 5] boot _ .boot rfl, ?_, ?_⟩
  · exact ⟨⟨2, 6, 1, true, false⟩, by decide, rfl, .inl rfl⟩
  · decide

/-! ## Non-vacuity -/

/-- A reachable table with wrap-around satisfying the hypotheses of both partial theorems. -/
example : ∃ s, Reach 5 50 s ∧ Table 5 s.tasks ∧ s.next = 6 ∧ (∀ g, IsGroup s.tasks g → g = 0 ∨ IsTid s.tasks g) ∧
    createPid s.tasks s.next 5 50 = some (some 3) := by
  have hr := reach_run (maxId := 5) (fuel := 50) [.fork 1, .fork 2, .setpgid 2 0, .fork 2, .fork 2, .reap 3] boot
    ⟨[⟨1, 1, 1, true, false⟩, ⟨2, 2, 1, true, false⟩, ⟨4, 2, 1, true, false⟩, ⟨5, 2, 1, true, false⟩,
      ⟨10000, 0, 0, true, true⟩], 6⟩ .boot (by decide)
  refine ⟨_, hr, (reach_table (by decide) (by decide) hr).1, rfl, ?_, by decide⟩
  rintro g ⟨t, ht, _, h⟩
  simp at ht
  rcases ht with rfl | rfl | rfl | rfl | rfl <;> simp at h <;> rcases h with rfl | rfl <;>
    first
      | exact .inl rfl
      | exact .inr ⟨⟨1, 1, 1, true, false⟩, by simp, rfl⟩
      | exact .inr ⟨⟨2, 2, 1, true, false⟩, by simp, rfl⟩

example : createKernelTid [⟨1, 1, 1, true, false⟩, ⟨10000, 0, 0, true, true⟩, ⟨10001, 0, 0, false, true⟩,
    ⟨10003, 0, 0, false, true⟩] 1 1024 1 = some (some 10002) := by decide

end Verif.Pid
