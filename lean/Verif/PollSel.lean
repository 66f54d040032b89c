/-!
# The results of poll and select (kernel/poll.c, kernel/select.c, kernel/vfs/vfs_op_ready.c.h)

Property C120 and C121.

What the waiting itself does (wake-ups, timers) is in `Kcond`; here is what the calls report.  Files
become ready and stop being ready at any moment, because of other processes: a `Look` is what one
pass over the descriptors finds, and every pass of a call gets another one.  The descriptors of the
calling process do not change during a call.
-/
namespace Verif.PollSel

/-- The bits of `events` and `revents` (without those the kernel never looks at). -/
structure Evs where
  pin : Bool := false      -- POLLIN
  pri : Bool := false
  out : Bool := false      -- POLLOUT
  err : Bool := false
  hup : Bool := false
  nval : Bool := false
  rdnorm : Bool := false
  rdband : Bool := false
  wrnorm : Bool := false
  wrband : Bool := false
  deriving DecidableEq, Repr

/-- An open file, as the two calls see it: include/tilck/kernel/fs/vfs.h `struct file_ops` and
`fs_handle_base.fl_flags`. -/
structure File where
  rdFn : Option Bool := none            -- what `fops->read_ready` returns, if there is one
  wrFn : Option Bool := none
  exFn : Option (Bool × Bool) := none   -- POLLERR and POLLHUP of `fops->except_ready`
  rdCond : Bool := false                -- is there a condition to wait on?
  wrCond : Bool := false
  exCond : Bool := false
  acc : Nat := 0                        -- 0 O_RDONLY, 1 O_WRONLY, 2 O_RDWR
  deriving DecidableEq, Repr

/-- kernel/vfs/vfs_op_ready.c.h:5-13 `vfs_read_ready`; O_RDONLY is 0. -/
def File.readReady (f : File) : Bool :=
  match f.rdFn with
  | none => f.acc == 2
  | some b => b

/-- kernel/vfs/vfs_op_ready.c.h:15-23 `vfs_write_ready`. -/
def File.writeReady (f : File) : Bool :=
  match f.wrFn with
  | none => f.acc == 2 || f.acc == 1
  | some b => b

/-- kernel/vfs/vfs_op_ready.c.h:25-33 `vfs_except_ready`, as bits. -/
def File.exceptReady (f : File) : Evs :=
  match f.exFn with
  | none => {}
  | some (e, h) => { err := e, hup := h }

/-- include/tilck/kernel/syscalls.h `struct pollfd`. -/
structure Entry where
  fd : Int
  events : Evs
  revents : Evs := {}
  deriving DecidableEq, Repr

/-- What one pass finds: the file of each entry of the array, when it comes to it. -/
abbrev Look := Nat → Option File

/-- kernel/fs/fs_syscalls.c:44-56 `get_fs_handle`. -/
def handle (look : Look) (i : Nat) (fd : Int) : Option File :=
  if 0 ≤ fd then look i else none

/-- kernel/poll.c:115-154 `poll_count_ready_fds`: one entry; the Boolean: is it counted? -/
def readyEntry (look : Look) (i : Nat) (e : Entry) : Entry × Bool :=
  match handle look i e.fd with
  | none => ({ e with revents := { nval := true } }, false)
  | some f =>
    if e.events.pin && f.readReady then ({ e with revents := { e.revents with pin := true } }, true)
    else if e.events.out && f.writeReady then ({ e with revents := { e.revents with out := true } }, true)
    else if f.exceptReady ≠ {} then
      ({ e with revents := { e.revents with err := e.revents.err || f.exceptReady.err,
                                            hup := e.revents.hup || f.exceptReady.hup } }, true)
    else (e, false)

/-- kernel/poll.c:109-157 `poll_count_ready_fds`. -/
def countReady (look : Look) : Nat → List Entry → List Entry × Nat
  | _, [] => ([], 0)
  | i, e :: es =>
    ((readyEntry look i e).1 :: (countReady look (i + 1) es).1,
      (if (readyEntry look i e).2 then 1 else 0) + (countReady look (i + 1) es).2)

/-- kernel/poll.c:19-50 `poll_count_conds`: one entry. -/
def condEntry (look : Look) (i : Nat) (e : Entry) : Entry × Nat :=
  match handle look i e.fd with
  | none => ({ e with revents := { nval := true } }, 0)
  | some f =>
    let rd := e.events.pin || e.events.rdnorm || e.events.rdband || e.events.pri
    let wr := e.events.out || e.events.wrnorm || e.events.wrband
    ({ e with revents := {}, events := { e.events with pin := e.events.pin || rd, out := e.events.out || wr } },
      (if rd && f.rdCond then 1 else 0) + (if wr && f.wrCond then 1 else 0) + (if f.exCond then 1 else 0))

/-- kernel/poll.c:12-53 `poll_count_conds`. -/
def countConds (look : Look) : Nat → List Entry → List Entry × Nat
  | _, [] => ([], 0)
  | i, e :: es =>
    ((condEntry look i e).1 :: (countConds look (i + 1) es).1,
      (condEntry look i e).2 + (countConds look (i + 1) es).2)

/-- Why a wait ended without a ready file. -/
inductive Over
  | timeout | signal
  deriving DecidableEq, Repr

/-- How a call ends. -/
inductive Res
  | intr
  | ret (fds : List Entry) (n : Nat)   -- what is in the caller's array, and the result
  deriving DecidableEq, Repr

/-- kernel/poll.c:159-258 `poll_wait_on_cond`: the passes of the loop (181-251), one per wake-up.
`poll_set_conds` (55-107) changes nothing the caller sees. -/
def pollWait (over : Over) : List Look → List Entry → Res
  | [], fds =>
    match over with
    | .signal => .intr
    | .timeout => .ret fds 0
  | l :: ls, fds =>
    let r := countReady l 0 fds
    if 0 < r.2 then .ret r.1 r.2 else pollWait over ls r.1

/-- What happens during a call: the looks of its passes. -/
structure Env where
  first : Look          -- the pass at the beginning
  passes : List Look    -- those of the loop
  over : Over           -- if none of them finds a ready file
  last : Look           -- the pass after `kernel_sleep`

/-- kernel/poll.c:260-311 `sys_poll` (the copies from and to the caller are in `UserMem` and
`SysIo`). -/
def poll (env : Env) (fds : List Entry) (timeout : Int) : Res :=
  let r1 := countReady env.first 0 (fds.map fun e => { e with revents := {} })
  if 0 < r1.2 then .ret r1.1 r1.2
  else
    let r2 := if timeout ≠ 0 then countConds env.first 0 r1.1 else (r1.1, 0)
    if 0 < r2.2 then pollWait env.over env.passes r2.1
    else if 0 < timeout ∧ env.over = .signal then .intr
    else
      let r3 := countReady env.last 0 r2.1
      .ret r3.1 r3.2

/-! ## select -/

/-- A set of descriptors. -/
abbrev FdSet := Nat → Bool

/-- One of the three questions: kernel/select.c:22-32 `gcf`, `grf`. -/
structure Ask where
  ready : File → Bool
  cond : File → Bool

/-- kernel/select.c:22-32. -/
def ask : Nat → Ask
  | 0 => ⟨File.readReady, File.rdCond⟩
  | 1 => ⟨File.writeReady, File.wrCond⟩
  | _ => ⟨fun f => f.exceptReady ≠ {}, File.exCond⟩

/-- Is it open and ready? -/
def isReady (look : Look) (ready : File → Bool) (i : Nat) : Bool :=
  match look i with
  | none => false
  | some f => ready f

/-- kernel/select.c:34-57 `select_count_cond_per_set`, from descriptor `i` on, `k` of them; `none`:
EBADF. -/
def condLoop (look : Look) (cond : File → Bool) (s : FdSet) : Nat → Nat → Option Nat
  | _, 0 => some 0
  | i, k + 1 =>
    if s i then
      match look i with
      | none => none
      | some f =>
        match condLoop look cond s (i + 1) k with
        | none => none
        | some n => some ((if cond f then 1 else 0) + n)
    else condLoop look cond s (i + 1) k

/-- kernel/select.c:111-132 `count_ready_streams_per_set`. -/
def countLoop (look : Look) (ready : File → Bool) (s : FdSet) : Nat → Nat → Nat
  | _, 0 => 0
  | i, k + 1 => (if s i && isReady look ready i then 1 else 0) + countLoop look ready s (i + 1) k

/-- kernel/select.c:86-109 `select_set_ready`. -/
def setLoop (look : Look) (ready : File → Bool) : Nat → Nat → FdSet → FdSet × Nat
  | _, 0, s => (s, 0)
  | i, k + 1, s =>
    if s i then
      if isReady look ready i then ((setLoop look ready (i + 1) k s).1, (setLoop look ready (i + 1) k s).2 + 1)
      else setLoop look ready (i + 1) k fun j => if j = i then false else s j
    else setLoop look ready (i + 1) k s

/-- The three sets of a call; `none`: a null pointer. -/
structure Sets where
  rd : Option FdSet
  wr : Option FdSet
  ex : Option FdSet

/-- A null set counts nothing. -/
def count1 (look : Look) (ready : File → Bool) (nfds : Nat) : Option FdSet → Nat
  | none => 0
  | some s => countLoop look ready s 0 nfds

/-- kernel/select.c:134-144 `count_ready_streams`. -/
def Sets.count (c : Sets) (look : Look) (nfds : Nat) : Nat :=
  count1 look (ask 0).ready nfds c.rd + count1 look (ask 1).ready nfds c.wr + count1 look (ask 2).ready nfds c.ex

def set1 (look : Look) (ready : File → Bool) (nfds : Nat) : Option FdSet → Option FdSet × Nat
  | none => (none, 0)
  | some s => (some (setLoop look ready 0 nfds s).1, (setLoop look ready 0 nfds s).2)

/-- kernel/select.c:213-240 `select_write_user_sets`: what the caller's sets become, and how many
descriptors are ready. -/
def Sets.write (c : Sets) (look : Look) (nfds : Nat) : Sets × Nat :=
  let r := set1 look (ask 0).ready nfds c.rd
  let w := set1 look (ask 1).ready nfds c.wr
  let e := set1 look (ask 2).ready nfds c.ex
  (⟨r.1, w.1, e.1⟩, r.2 + w.2 + e.2)

def cond1 (look : Look) (cond : File → Bool) (nfds : Nat) : Option FdSet → Option Nat
  | none => some 0
  | some s => condLoop look cond s 0 nfds

/-- kernel/select.c:199-211 `select_compute_cond_cnt`. -/
def Sets.conds (c : Sets) (look : Look) (nfds : Nat) : Option Nat :=
  match cond1 look (ask 0).cond nfds c.rd with
  | none => none
  | some a =>
    match cond1 look (ask 1).cond nfds c.wr with
    | none => none
    | some b =>
      match cond1 look (ask 2).cond nfds c.ex with
      | none => none
      | some d => some (a + b + d)

/-- kernel/select.c:168-197: the ticks of a timeout, with `hz` ticks in a second. -/
def ticks (hz sec usec : Nat) : Nat :=
  let t := sec * hz + usec / (1000000 / hz)
  if t < 1 then 1 else if 2 ^ 32 - 1 < t then 2 ^ 32 - 1 else t

/-- How `select` ends. -/
inductive SRes
  | badf | intr | inval
  | ret (sets : Sets) (n : Nat) (waited : Nat)   -- `waited`: slept for so many ticks without a condition

/-- What happens during a call of `select`. -/
structure SEnv where
  first : Look           -- the first count
  passes : List Look     -- the counts of the loop
  over : Over
  write : Look           -- when the sets are written
  again : Look           -- when they are written a second time

/-- kernel/select.c:242-325 `select_wait_on_cond`: the counts of the loop; `none`: the timeout. -/
def selWait (c : Sets) (nfds : Nat) : List Look → Bool
  | [] => false
  | l :: ls => if 0 < c.count l nfds then true else selWait c nfds ls

/-- kernel/select.c:327-395 `sys_select`; `timeout`: in ticks, `none` for ever. A wait that finds
ready files writes the sets; if none is ready any more they are written a second time (366 and
394). -/
def select (env : SEnv) (nfds : Int) (c : Sets) (maxHandles : Nat) (timeout : Option Nat) : SRes :=
  if nfds < 0 ∨ (maxHandles : Int) < nfds then .inval
  else
    let n := nfds.toNat
    if 0 < c.count env.first n then .ret (c.write env.write n).1 (c.write env.write n).2 0
    else
      match (if timeout = some 0 then some 0 else c.conds env.first n) with
      | none => .badf
      | some k =>
        if 0 < k ∧ timeout ≠ some 0 then
          if selWait c n env.passes then
            let r := c.write env.write n
            if 0 < r.2 then .ret r.1 r.2 0
            else .ret (r.1.write env.again n).1 (r.1.write env.again n).2 0
          else
            match env.over with
            | .signal => .intr
            | .timeout => .ret (c.write env.write n).1 (c.write env.write n).2 0
        else
          match timeout with
          | none => .ret (c.write env.write n).1 (c.write env.write n).2 0
          | some t =>
            if env.over = .signal then .intr
            else .ret (c.write env.write n).1 (c.write env.write n).2 t

/-! ## Specification (POSIX) -/

/-- A read does not block. -/
def File.canRead (f : File) : Bool := f.rdFn.getD true

/-- A write does not block. -/
def File.canWrite (f : File) : Bool := f.wrFn.getD true

/-- What POSIX has in `revents`: a negative descriptor is ignored, a closed one gives POLLNVAL,
others what was asked for and holds, and errors and hang-ups always. -/
def posix (fd : Int) (ev : Evs) (file : Option File) : Evs :=
  if fd < 0 then {}
  else
    match file with
    | none => { nval := true }
    | some f => {
        pin := ev.pin && f.canRead
        rdnorm := ev.rdnorm && f.canRead
        out := ev.out && f.canWrite
        wrnorm := ev.wrnorm && f.canWrite
        err := (f.exFn.getD (false, false)).1
        hup := (f.exFn.getD (false, false)).2 }

/-- Every bit of the first is one of the second. -/
def Evs.Sub (a b : Evs) : Prop :=
  (a.pin → b.pin) ∧ (a.pri → b.pri) ∧ (a.out → b.out) ∧ (a.err → b.err) ∧ (a.hup → b.hup) ∧ (a.nval → b.nval) ∧
  (a.rdnorm → b.rdnorm) ∧ (a.rdband → b.rdband) ∧ (a.wrnorm → b.wrnorm) ∧ (a.wrband → b.wrband)

instance (a b : Evs) : Decidable (a.Sub b) := inferInstanceAs (Decidable (_ ∧ _))

/-- Nothing asked for holds; the entries are those from number `i` on. -/
def quiet (l : Look) : Nat → List Entry → Bool
  | _, [] => true
  | i, e :: es => posix e.fd e.events (l i) == {} && quiet l (i + 1) es

/-- The first look in which something asked for holds, or else the last one. -/
def decisive (fds : List Entry) : Look → List Look → Look
  | l, [] => l
  | l, l' :: ls => if quiet l 0 fds then decisive fds l' ls else l

/-- The array and the result report what the look found: the array's descriptors and events are as
before; every bit of `revents` is right, there is one if and only if there should be one, and the
result is the number of entries with some. -/
def Reports (l : Look) : Nat → List Entry → List Entry → Nat → Prop
  | _, [], [], n => n = 0
  | i, e :: es, e' :: es', n =>
    e'.fd = e.fd ∧ e'.events = e.events ∧ e'.revents.Sub (posix e.fd e.events (l i)) ∧
    (e'.revents = {} ↔ posix e.fd e.events (l i) = {}) ∧
    ∃ m, n = (if posix e.fd e.events (l i) = {} then 0 else 1) + m ∧ Reports l (i + 1) es es' m
  | _, _, _, _ => False

/-- What `revents` should be, for all entries. -/
def posixAll (l : Look) : Nat → List Entry → List Evs
  | _, [] => []
  | i, e :: es => posix e.fd e.events (l i) :: posixAll l (i + 1) es

/-- What the calls handle: descriptors of open files, asked for POLLIN and POLLOUT only, the files
being open for what is asked, and files without a function which tells if they can be read not open
for reading only. -/
def Handled (e : Entry) (file : Option File) : Prop :=
  0 ≤ e.fd ∧ e.events = { pin := e.events.pin, out := e.events.out } ∧
  ∃ f, file = some f ∧ (e.events.pin → f.rdFn = none → f.acc = 2) ∧ (e.events.out → f.wrFn = none → f.acc = 1 ∨ f.acc = 2)

/-- The members of a set after the call: those which were in it and are ready; descriptors from
`nfds` on are left. -/
def members (l : Look) (can : File → Bool) (nfds : Nat) (s : FdSet) : FdSet :=
  fun i => if i < nfds then s i && (match l i with | some f => can f | none => false) else s i

/-- How many are reported. -/
def number (l : Look) (can : File → Bool) (nfds : Nat) : Option FdSet → Nat
  | none => 0
  | some s => ((List.range nfds).filter fun i => s i && (match l i with | some f => can f | none => false)).length

/-- An exceptional condition. -/
def File.isExc (f : File) : Bool := (f.exFn.getD (false, false)).1 || (f.exFn.getD (false, false)).2

/-- All three sets. -/
def total (l : Look) (nfds : Nat) (c : Sets) : Nat :=
  number l File.canRead nfds c.rd + number l File.canWrite nfds c.wr + number l File.isExc nfds c.ex

/-- What the caller's sets should become. -/
def Sets.result (c : Sets) (l : Look) (nfds : Nat) : Sets :=
  ⟨c.rd.map (members l File.canRead nfds), c.wr.map (members l File.canWrite nfds), c.ex.map (members l File.isExc nfds)⟩

/-- Every descriptor asked for is open, for what is asked, and files without a function which tells
if they can be read are not open for reading only. -/
def Sets.Handled (c : Sets) (l : Look) (nfds : Nat) : Prop :=
  (∀ s, c.rd = some s → ∀ i < nfds, s i → ∃ f, l i = some f ∧ (f.rdFn = none → f.acc = 2)) ∧
  (∀ s, c.wr = some s → ∀ i < nfds, s i → ∃ f, l i = some f ∧ (f.wrFn = none → f.acc = 1 ∨ f.acc = 2)) ∧
  (∀ s, c.ex = some s → ∀ i < nfds, s i → ∃ f, l i = some f)

/-! ## poll -/

variable {l : Look} {e : Entry} {i : Nat}

theorem read_can {f : File} (h : f.rdFn = none → f.acc = 2) : f.readReady = f.canRead := by
  unfold File.readReady File.canRead
  cases hf : f.rdFn with
  | none => simp [h hf]
  | some b => rfl

theorem write_can {f : File} (h : f.wrFn = none → f.acc = 1 ∨ f.acc = 2) : f.writeReady = f.canWrite := by
  unfold File.writeReady File.canWrite
  cases hf : f.wrFn with
  | none => rcases h hf with h | h <;> simp [h]
  | some b => rfl

theorem except_bits (f : File) : f.exceptReady = { err := (f.exFn.getD (false, false)).1, hup := (f.exFn.getD (false, false)).2 } := by
  unfold File.exceptReady
  cases f.exFn with
  | none => rfl
  | some p => rfl

theorem posix_handled {f : File} (h : Handled e (some f)) : posix e.fd e.events (some f) =
    { pin := e.events.pin && f.canRead, out := e.events.out && f.canWrite,
      err := (f.exFn.getD (false, false)).1, hup := (f.exFn.getD (false, false)).2 } := by
  obtain ⟨h1, h2, _⟩ := h
  unfold posix
  rw [if_neg (by omega)]
  dsimp only
  have a : e.events.rdnorm = false := by rw [h2]
  have b : e.events.wrnorm = false := by rw [h2]
  rw [a, b]
  rfl

/-- What a pass does to one entry. -/
def EntryOk (e e' : Entry) (b : Bool) (p : Evs) : Prop :=
  e'.fd = e.fd ∧ e'.events = e.events ∧ e'.revents.Sub p ∧ (e'.revents = {} ↔ p = {}) ∧ (b = true ↔ p ≠ {}) ∧ (b = false → e' = e)

theorem readyEntry_ok (hr : e.revents = {}) (h : Handled e (l i)) :
    EntryOk e (readyEntry l i e).1 (readyEntry l i e).2 (posix e.fd e.events (l i)) := by
  obtain ⟨h1, h2, f, hf, h3, h4⟩ := id h
  rw [hf] at h ⊢
  rw [posix_handled h]
  have hh : handle l i e.fd = some f := by unfold handle; rw [if_pos h1, hf]
  unfold readyEntry
  rw [hh]
  dsimp only
  rw [hr, except_bits]
  generalize f.exFn.getD (false, false) = p
  obtain ⟨pe, ph⟩ := p
  by_cases hp : e.events.pin = true
  · rw [read_can (h3 hp), hp]
    cases f.canRead
    · by_cases ho : e.events.out = true
      · rw [write_can (h4 ho), ho]
        cases f.canWrite <;> cases pe <;> cases ph <;> simp [EntryOk, Evs.Sub, hr]
      · rw [Bool.not_eq_true] at ho
        rw [ho]
        cases pe <;> cases ph <;> simp [EntryOk, Evs.Sub, hr]
    · simp [EntryOk, Evs.Sub]
  · rw [Bool.not_eq_true] at hp
    rw [hp]
    by_cases ho : e.events.out = true
    · rw [write_can (h4 ho), ho]
      cases f.canWrite <;> cases pe <;> cases ph <;> simp [EntryOk, Evs.Sub, hr]
    · rw [Bool.not_eq_true] at ho
      rw [ho]
      cases pe <;> cases ph <;> simp [EntryOk, Evs.Sub, hr]

/-- Handled entries, not reported on so far. -/
def Fresh (l : Look) : Nat → List Entry → Prop
  | _, [] => True
  | i, e :: es => (e.revents = {} ∧ Handled e (l i)) ∧ Fresh l (i + 1) es

theorem countReady_ok (es : List Entry) : ∀ i, Fresh l i es →
    Reports l i es (countReady l i es).1 (countReady l i es).2 ∧
    (0 < (countReady l i es).2 ↔ quiet l i es = false) ∧
    ((countReady l i es).2 = 0 → (countReady l i es).1 = es) := by
  induction es with
  | nil => intro i _; exact ⟨rfl, by simp [countReady, quiet], fun _ => rfl⟩
  | cons e es ih =>
    intro i h
    obtain ⟨⟨h1, h2⟩, h3⟩ := h
    obtain ⟨a1, a2, a3, a4, a5, a6⟩ := readyEntry_ok h1 h2
    obtain ⟨b1, b2, b3⟩ := ih (i + 1) h3
    have hc : (if (readyEntry l i e).2 then 1 else 0) = (if posix e.fd e.events (l i) = {} then 0 else 1) := by
      by_cases hb : (readyEntry l i e).2 = true
      · rw [if_pos hb, if_neg (a5.1 hb)]
      · rw [if_neg hb, if_pos (Classical.byContradiction fun q => hb (a5.2 q))]
    refine ⟨⟨a1, a2, a3, a4, _, ?_, b1⟩, ?_, ?_⟩
    · show (if (readyEntry l i e).2 then 1 else 0) + _ = _
      rw [hc]
    · show 0 < (if (readyEntry l i e).2 then 1 else 0) + _ ↔ (posix e.fd e.events (l i) == {} && quiet l (i + 1) es) = false
      rw [hc]
      by_cases hp : posix e.fd e.events (l i) = {}
      · rw [if_pos hp, hp]
        simpa using b2
      · rw [if_neg hp]
        simp [hp]
        omega
    · show (if (readyEntry l i e).2 then 1 else 0) + _ = 0 → (readyEntry l i e).1 :: _ = _
      intro h0
      by_cases hb : (readyEntry l i e).2 = true
      · rw [if_pos hb] at h0; omega
      · rw [if_neg hb] at h0
        rw [a6 (by simpa using hb), b3 (by omega)]

theorem countConds_same (es : List Entry) : ∀ i, Fresh l i es → (countConds l i es).1 = es := by
  induction es with
  | nil => intro _ _; rfl
  | cons e es ih =>
    intro i h
    obtain ⟨⟨h1, h2, h3, f, hf, _⟩, h5⟩ := h
    show (condEntry l i e).1 :: (countConds l (i + 1) es).1 = _
    rw [ih (i + 1) h5]
    have : (condEntry l i e).1 = e := by
      unfold condEntry handle
      rw [if_pos h2, hf]
      dsimp only
      obtain ⟨fd, ev, rev⟩ := e
      obtain ⟨a1, a2, a3, a4, a5, a6, a7, a8, a9, a10⟩ := ev
      dsimp only at h1 h3 ⊢
      subst h1
      simp only [Evs.mk.injEq, true_and, and_true] at h3
      obtain ⟨rfl, rfl, rfl, rfl, rfl, rfl, rfl, rfl⟩ := h3
      simp
    rw [this]

theorem pollWait_ok (o : Over) (es : List Entry) (ls : List Look) : ∀ l0 : Look, Fresh l0 0 es → quiet l0 0 es = true →
    (∀ l ∈ ls, Fresh l 0 es) → ∀ {es' : List Entry} {n : Nat}, pollWait o ls es = .ret es' n →
    Reports (decisive es l0 ls) 0 es es' n := by
  induction ls with
  | nil =>
    intro l0 h0 hq _ es' n h
    unfold pollWait at h
    cases o with
    | signal => cases h
    | timeout =>
      cases h
      obtain ⟨b1, b2, b3⟩ := countReady_ok es 0 h0
      have hz : (countReady l0 0 es).2 = 0 := by
        rcases Nat.eq_zero_or_pos (countReady l0 0 es).2 with h | h
        · exact h
        · rw [b2.1 h] at hq; cases hq
      rw [b3 hz, hz] at b1
      exact b1
  | cons l ls ih =>
    intro l0 h0 hq hall es' n h
    have hl := hall l List.mem_cons_self
    obtain ⟨b1, b2, b3⟩ := countReady_ok es 0 hl
    unfold pollWait at h
    dsimp only at h
    show Reports (if quiet l0 0 es = true then decisive es l ls else l0) 0 es es' n
    rw [if_pos hq]
    by_cases hc : 0 < (countReady l 0 es).2
    · rw [if_pos hc] at h
      cases h
      have hq' := b2.1 hc
      have : decisive es l ls = l := by
        cases ls with
        | nil => rfl
        | cons l' ls => show (if quiet l 0 es = true then _ else l) = l; rw [hq']; rfl
      rw [this]
      exact b1
    · rw [if_neg hc, b3 (by omega)] at h
      have hq' : quiet l 0 es = true := by
        cases hq2 : quiet l 0 es with
        | true => rfl
        | false => exact absurd (b2.2 hq2) hc
      exact ih l hl hq' (fun l' hl' => hall l' (List.mem_cons_of_mem _ hl')) h

/-- The array before the call, with `revents` cleared. -/
def cleared (fds : List Entry) : List Entry := fds.map fun e => { e with revents := {} }

theorem fresh_cleared (es : List Entry) : ∀ i, (∀ j e, es[j]? = some e → Handled e (l (i + j))) → Fresh l i (cleared es) := by
  induction es with
  | nil => intro _ _; trivial
  | cons e es ih =>
    intro i h
    refine ⟨⟨rfl, h 0 e rfl⟩, ih (i + 1) fun j e' he => ?_⟩
    have := h (j + 1) e' (by simpa using he)
    rw [show i + (j + 1) = i + 1 + j by omega] at this
    exact this

/-- C120: for every array of descriptors the call handles (`Handled`), every timeout, and however the
files become ready during the call: what poll returns is right for the first pass in which something
asked for holds, or for its last pass if there is none: the passes are those of its waiting, or two if
there is nothing to wait for. -/
theorem poll_partial {env : Env} {fds fds' : List Entry} {timeout : Int} {n : Nat}
    (hh : ∀ l ∈ env.first :: env.last :: env.passes, ∀ i e, fds[i]? = some e → Handled e (l i))
    (h : poll env fds timeout = .ret fds' n) :
    ∃ ls, (ls = env.passes ∨ ls = [env.last]) ∧ Reports (decisive (cleared fds) env.first ls) 0 (cleared fds) fds' n := by
  have fr : ∀ l ∈ env.first :: env.last :: env.passes, Fresh l 0 (cleared fds) :=
    fun l hl => fresh_cleared fds 0 fun j e he => by rw [Nat.zero_add]; exact hh l hl j e he
  have f1 := fr env.first List.mem_cons_self
  have f2 := fr env.last (List.mem_cons_of_mem _ List.mem_cons_self)
  obtain ⟨b1, b2, b3⟩ := countReady_ok _ 0 f1
  unfold poll at h
  dsimp only at h
  change (if 0 < (countReady env.first 0 (cleared fds)).2 then Res.ret (countReady env.first 0 (cleared fds)).1 (countReady env.first 0 (cleared fds)).2 else _) = _ at h
  by_cases hc : 0 < (countReady env.first 0 (cleared fds)).2
  · rw [if_pos hc] at h
    cases h
    refine ⟨[env.last], .inr rfl, ?_⟩
    show Reports (if quiet env.first 0 (cleared fds) = true then _ else env.first) _ _ _ _
    rw [b2.1 hc]
    exact b1
  · rw [if_neg hc] at h
    have hq : quiet env.first 0 (cleared fds) = true := by
      cases hq2 : quiet env.first 0 (cleared fds) with
      | true => rfl
      | false => exact absurd (b2.2 hq2) hc
    have hsame : (if timeout ≠ 0 then countConds env.first 0 (countReady env.first 0 (cleared fds)).1
        else ((countReady env.first 0 (cleared fds)).1, 0)).1 = cleared fds := by
      rw [b3 (by omega)]
      split
      · exact countConds_same _ 0 f1
      · rfl
    change (let r2 := (if timeout ≠ 0 then countConds env.first 0 (countReady env.first 0 (cleared fds)).1
        else ((countReady env.first 0 (cleared fds)).1, 0))
      if 0 < r2.2 then pollWait env.over env.passes r2.1
        else if 0 < timeout ∧ env.over = .signal then Res.intr
        else Res.ret (countReady env.last 0 r2.1).1 (countReady env.last 0 r2.1).2) = _ at h
    generalize (if timeout ≠ 0 then countConds env.first 0 (countReady env.first 0 (cleared fds)).1
        else ((countReady env.first 0 (cleared fds)).1, 0)) = r2 at h hsame
    dsimp only at h
    rw [hsame] at h
    split at h
    · exact ⟨env.passes, .inl rfl, pollWait_ok _ _ _ _ f1 hq
        (fun l hl => fr l (List.mem_cons_of_mem _ (List.mem_cons_of_mem _ hl))) h⟩
    · split at h
      · cases h
      · cases h
        refine ⟨[env.last], .inr rfl, ?_⟩
        show Reports (if quiet env.first 0 (cleared fds) = true then env.last else env.first) _ _ _ _
        rw [if_pos hq]
        exact (countReady_ok _ 0 f2).1

/-- Only one bit. -/
def Evs.Single (p : Evs) : Prop := ∀ a : Evs, a.Sub p → a ≠ {} → a = p

/-- C120: where one condition holds at a time, `revents` is exactly what POSIX says. -/
theorem reports_exact (es : List Entry) : ∀ (i : Nat) {es' : List Entry} {n : Nat}, Reports l i es es' n →
    (∀ j e, es[j]? = some e → (posix e.fd e.events (l (i + j))).Single) → es'.map (·.revents) = posixAll l i es := by
  induction es with
  | nil =>
    intro i es' n h _
    cases es' with
    | nil => rfl
    | cons _ _ => exact h.elim
  | cons e es ih =>
    intro i es' n h hs
    cases es' with
    | nil => exact h.elim
    | cons e' es' =>
      obtain ⟨_, _, h3, h4, m, _, h6⟩ := h
      show e'.revents :: es'.map (·.revents) = posix e.fd e.events (l i) :: _
      rw [ih (i + 1) h6 fun j e he => by
        have := hs (j + 1) e (by simpa using he)
        rwa [show i + (j + 1) = i + 1 + j by omega] at this]
      by_cases hz : e'.revents = {}
      · rw [hz, h4.1 hz]
      · have := hs 0 e rfl _ h3 hz
        rw [this]
        rfl

/-- The events POLLIN and POLLOUT. -/
def evIn : Evs := { pin := true }
def evInOut : Evs := { pin := true, out := true }

/-- The read end of a pipe. -/
def pipeR (b hup : Bool) : File :=
  { rdFn := some b, exFn := some (false, hup), rdCond := true, exCond := true, acc := 0 }

/-- A terminal, always ready for output. -/
def ttyF (b : Bool) : File := { rdFn := some b, rdCond := true, acc := 2 }

/-- `poll_partial` applies to: a pipe which becomes ready at the second pass, and a terminal. -/
example : ∃ env fds, (∀ l ∈ env.first :: env.last :: env.passes, ∀ i e, fds[i]? = some e → Handled e (l i)) ∧
    poll env fds 100 = .ret [⟨3, evIn, {}⟩, ⟨5, evIn, evIn⟩] 1 := by
  refine ⟨Env.mk (fun i => if i = 0 then some (pipeR false false) else some (ttyF false))
    [fun i => if i = 0 then some (pipeR false false) else some (ttyF false),
      fun i => if i = 0 then some (pipeR false false) else some (ttyF true)]
    .timeout (fun i => if i = 0 then some (pipeR false false) else some (ttyF false)),
    [⟨3, evIn, {}⟩, ⟨5, evIn, {}⟩], ?_, by decide +kernel⟩
  intro l hl i e he
  match i, he with
  | 0, he =>
    cases he
    simp only [List.mem_cons, List.not_mem_nil, or_false] at hl
    rcases hl with rfl | rfl | rfl | rfl <;>
      exact ⟨by decide, rfl, _, rfl, (fun _ h => by cases h), (fun h => by cases h)⟩
  | 1, he =>
    cases he
    simp only [List.mem_cons, List.not_mem_nil, or_false] at hl
    rcases hl with rfl | rfl | rfl | rfl <;>
      exact ⟨by decide, rfl, _, rfl, (fun _ h => by cases h), (fun h => by cases h)⟩
  | k + 2, he => simp at he

/-! ## select -/

theorem countLoop_eq (ready : File → Bool) (s : FdSet) (k : Nat) : ∀ i, countLoop l ready s i k =
    ((List.range' i k).filter fun j => s j && isReady l ready j).length := by
  induction k with
  | zero => intro i; rfl
  | succ k ih =>
    intro i
    show (if s i && isReady l ready i then 1 else 0) + countLoop l ready s (i + 1) k = _
    rw [ih, List.range'_succ, List.filter_cons]
    split
    · simp; omega
    · simp

theorem countLoop_congr (ready : File → Bool) {s s' : FdSet} (k : Nat) : ∀ i, (∀ j, i ≤ j → s j = s' j) →
    countLoop l ready s i k = countLoop l ready s' i k := by
  induction k with
  | zero => intro i _; rfl
  | succ k ih =>
    intro i h
    show (if s i && isReady l ready i then 1 else 0) + countLoop l ready s (i + 1) k =
      (if s' i && isReady l ready i then 1 else 0) + countLoop l ready s' (i + 1) k
    rw [h i (Nat.le_refl i), ih (i + 1) fun j hj => h j (by omega)]

theorem setLoop_eq (ready : File → Bool) (k : Nat) : ∀ i s, setLoop l ready i k s =
    (fun j => if i ≤ j ∧ j < i + k then s j && isReady l ready j else s j, countLoop l ready s i k) := by
  induction k with
  | zero =>
    intro i s
    show (s, 0) = (_, 0)
    congr 1
    funext j
    rw [if_neg (by omega)]
  | succ k ih =>
    intro i s
    have key : ∀ s' : FdSet, (∀ j, j ≠ i → s' j = s j) → s' i = (s i && isReady l ready i) →
        (fun j => if i + 1 ≤ j ∧ j < i + 1 + k then s' j && isReady l ready j else s' j) =
        (fun j => if i ≤ j ∧ j < i + (k + 1) then s j && isReady l ready j else s j) := by
      intro s' h1 h2
      funext j
      by_cases hj : j = i
      · subst hj
        rw [if_neg (by omega), if_pos (by omega), h2]
      · rw [h1 j hj]
        by_cases hr : i + 1 ≤ j ∧ j < i + 1 + k
        · rw [if_pos hr, if_pos (by omega)]
        · rw [if_neg hr, if_neg (by omega)]
    unfold setLoop
    show _ = (_, (if s i && isReady l ready i then 1 else 0) + countLoop l ready s (i + 1) k)
    by_cases hs : s i = true
    · rw [if_pos hs]
      by_cases hr : isReady l ready i = true
      · rw [if_pos hr, ih, hs, hr]
        dsimp only
        rw [key s (fun _ _ => rfl) (by rw [hs, hr]; rfl)]
        simp
        omega
      · rw [if_neg hr, ih, hs]
        rw [Bool.not_eq_true] at hr
        rw [key _ (fun j hj => if_neg hj) (by rw [hr]; simp), hr]
        rw [countLoop_congr ready (s' := s) k (i + 1) (fun j hj => if_neg (by omega))]
        simp
    · rw [if_neg hs, ih]
      rw [Bool.not_eq_true] at hs
      rw [key s (fun _ _ => rfl) (by rw [hs]; rfl), hs]
      simp

/-- One set. -/
theorem one_set {ready can : File → Bool} {nfds : Nat} {s : FdSet}
    (h : ∀ i < nfds, s i → ∃ f, l i = some f ∧ ready f = can f) :
    setLoop l ready 0 nfds s = (members l can nfds s, number l can nfds (some s)) ∧
    countLoop l ready s 0 nfds = number l can nfds (some s) := by
  have hk : ∀ j < nfds, (s j && isReady l ready j) = (s j && (match l j with | some f => can f | none => false)) := by
    intro j hj
    cases hs : s j with
    | false => rfl
    | true =>
      obtain ⟨f, hf, hr⟩ := h j hj hs
      unfold isReady
      rw [hf]
      simp [hr]
  have hn : countLoop l ready s 0 nfds = number l can nfds (some s) := by
    rw [countLoop_eq]
    show _ = ((List.range nfds).filter _).length
    rw [List.range_eq_range']
    congr 1
    apply List.filter_congr
    intro j hj
    exact hk j (by have := List.mem_range'.1 hj; omega)
  refine ⟨?_, hn⟩
  rw [setLoop_eq, hn]
  congr 1
  funext j
  unfold members
  by_cases hj : j < nfds
  · rw [if_pos (by omega), if_pos hj, hk j hj]
  · rw [if_neg (by omega), if_neg hj]

theorem exc_eq (f : File) : (ask 2).ready f = f.isExc := by
  show decide (f.exceptReady ≠ {}) = _
  rw [except_bits]
  unfold File.isExc
  generalize f.exFn.getD (false, false) = p
  obtain ⟨a, b⟩ := p
  cases a <;> cases b <;> rfl

theorem write_eq {c : Sets} {nfds : Nat} (h : c.Handled l nfds) :
    c.write l nfds = (c.result l nfds, total l nfds c) ∧ c.count l nfds = total l nfds c := by
  obtain ⟨h1, h2, h3⟩ := h
  obtain ⟨r, w, e⟩ := c
  have a1 : set1 l (ask 0).ready nfds r = (r.map (members l File.canRead nfds), number l File.canRead nfds r) ∧
      count1 l (ask 0).ready nfds r = number l File.canRead nfds r := by
    cases r with
    | none => exact ⟨rfl, rfl⟩
    | some s =>
      obtain ⟨a, b⟩ := one_set (l := l) (ready := (ask 0).ready) (can := File.canRead) (nfds := nfds) (s := s) fun i hi hs => by
        obtain ⟨f, hf, hr⟩ := h1 s rfl i hi hs
        exact ⟨f, hf, read_can hr⟩
      exact ⟨by unfold set1; dsimp only; rw [a]; rfl, b⟩
  have a2 : set1 l (ask 1).ready nfds w = (w.map (members l File.canWrite nfds), number l File.canWrite nfds w) ∧
      count1 l (ask 1).ready nfds w = number l File.canWrite nfds w := by
    cases w with
    | none => exact ⟨rfl, rfl⟩
    | some s =>
      obtain ⟨a, b⟩ := one_set (l := l) (ready := (ask 1).ready) (can := File.canWrite) (nfds := nfds) (s := s) fun i hi hs => by
        obtain ⟨f, hf, hr⟩ := h2 s rfl i hi hs
        exact ⟨f, hf, write_can hr⟩
      exact ⟨by unfold set1; dsimp only; rw [a]; rfl, b⟩
  have a3 : set1 l (ask 2).ready nfds e = (e.map (members l File.isExc nfds), number l File.isExc nfds e) ∧
      count1 l (ask 2).ready nfds e = number l File.isExc nfds e := by
    cases e with
    | none => exact ⟨rfl, rfl⟩
    | some s =>
      obtain ⟨a, b⟩ := one_set (l := l) (ready := (ask 2).ready) (can := File.isExc) (nfds := nfds) (s := s) fun i hi hs => by
        obtain ⟨f, hf⟩ := h3 s rfl i hi hs
        exact ⟨f, hf, exc_eq f⟩
      exact ⟨by unfold set1; dsimp only; rw [a]; rfl, b⟩
  unfold Sets.write Sets.count
  dsimp only
  rw [a1.1, a2.1, a3.1, a1.2, a2.2, a3.2]
  exact ⟨rfl, rfl⟩

theorem cond1_some {cond : File → Bool} {nfds : Nat} {so : Option FdSet}
    (h : ∀ s, so = some s → ∀ i < nfds, s i → ∃ f, l i = some f) : ∃ n, cond1 l cond nfds so = some n := by
  cases so with
  | none => exact ⟨0, rfl⟩
  | some s =>
    have h := h s rfl
    show ∃ n, condLoop l cond s 0 nfds = some n
    have : ∀ k i, i + k ≤ nfds → ∃ n, condLoop l cond s i k = some n := by
      intro k
      induction k with
      | zero => intro i _; exact ⟨0, rfl⟩
      | succ k ih =>
        intro i hi
        obtain ⟨n, hn⟩ := ih (i + 1) (by omega)
        unfold condLoop
        by_cases hs : s i = true
        · obtain ⟨f, hf⟩ := h i (by omega) hs
          rw [if_pos hs, hf, hn]
          exact ⟨_, rfl⟩
        · rw [if_neg hs]
          exact ⟨n, hn⟩
    exact this nfds 0 (by omega)

theorem conds_some {c : Sets} {nfds : Nat} (h : c.Handled l nfds) : ∃ n, c.conds l nfds = some n := by
  obtain ⟨h1, h2, h3⟩ := h
  obtain ⟨a, ha⟩ := cond1_some (l := l) (cond := (ask 0).cond) (nfds := nfds) (so := c.rd)
    fun s hs i hi q => (h1 s hs i hi q).imp fun f hf => hf.1
  obtain ⟨b, hb⟩ := cond1_some (l := l) (cond := (ask 1).cond) (nfds := nfds) (so := c.wr)
    fun s hs i hi q => (h2 s hs i hi q).imp fun f hf => hf.1
  obtain ⟨d, hd⟩ := cond1_some (l := l) (cond := (ask 2).cond) (nfds := nfds) (so := c.ex) h3
  unfold Sets.conds
  rw [ha, hb, hd]
  exact ⟨_, rfl⟩

theorem selWait_eq {c : Sets} {nfds : Nat} (ls : List Look) (h : ∀ l ∈ ls, c.Handled l nfds) :
    selWait c nfds ls = true ↔ ∃ l ∈ ls, 0 < total l nfds c := by
  induction ls with
  | nil => simp [selWait]
  | cons l ls ih =>
    unfold selWait
    rw [(write_eq (h l List.mem_cons_self)).2]
    have ih := ih fun l' hl' => h l' (List.mem_cons_of_mem _ hl')
    split
    · rename_i hp
      exact ⟨fun _ => ⟨l, List.mem_cons_self, hp⟩, fun _ => rfl⟩
    · rename_i hp
      rw [ih]
      constructor
      · rintro ⟨l', h1, h2⟩
        exact ⟨l', List.mem_cons_of_mem _ h1, h2⟩
      · rintro ⟨l', h1, h2⟩
        rcases List.mem_cons.1 h1 with rfl | h1
        · exact absurd h2 hp
        · exact ⟨l', h1, h2⟩

/-- C121: for every three sets of descriptors the call handles (`Sets.Handled`), every timeout, and
however the files become ready during the call: unless a signal interrupts it, select reports in each
set exactly the descriptors ready when the sets are written, and returns their number; this cannot be
refused with EBADF.  If nothing is ready then, either nothing was ready all the time, or what was ready
stopped being so between the two passes, because of another process. -/
theorem select_partial {env : SEnv} {c : Sets} {nfds maxHandles : Nat} {timeout : Option Nat} (hn : nfds ≤ maxHandles)
    (hh : ∀ l ∈ env.first :: env.write :: env.passes, c.Handled l nfds)
    (hs : env.over ≠ .signal) :
    (∃ w, select env nfds c maxHandles timeout = .ret (c.result env.write nfds) (total env.write nfds c) w) ∨
    (total env.write nfds c = 0 ∧ ∃ l ∈ env.passes, 0 < total l nfds c) := by
  have h1 := write_eq (hh env.first List.mem_cons_self)
  have h2 := write_eq (hh env.write (List.mem_cons_of_mem _ List.mem_cons_self))
  have h3 : ∀ l ∈ env.passes, c.Handled l nfds := fun l hl => hh l (List.mem_cons_of_mem _ (List.mem_cons_of_mem _ hl))
  have hov : env.over = .timeout := by
    cases h : env.over with
    | timeout => rfl
    | signal => exact absurd h hs
  unfold select
  rw [if_neg (by omega)]
  dsimp only
  rw [show ((nfds : Int)).toNat = nfds by omega, h1.2, h2.1, hov]
  by_cases ht : 0 < total env.first nfds c
  · rw [if_pos ht]
    exact .inl ⟨_, rfl⟩
  · rw [if_neg ht]
    obtain ⟨k, hk⟩ := conds_some (hh env.first List.mem_cons_self)
    obtain ⟨k', hk'⟩ : ∃ k', (if timeout = some 0 then some 0 else c.conds env.first nfds) = some k' := by
      by_cases h0 : timeout = some 0
      · exact ⟨0, by rw [if_pos h0]⟩
      · exact ⟨k, by rw [if_neg h0, hk]⟩
    rw [hk']
    dsimp only
    by_cases hw : 0 < k' ∧ timeout ≠ some 0
    · rw [if_pos hw]
      by_cases hsw : selWait c nfds env.passes = true
      · rw [if_pos hsw]
        by_cases hz : 0 < total env.write nfds c
        · rw [if_pos hz]
          exact .inl ⟨_, rfl⟩
        · exact .inr ⟨by omega, (selWait_eq _ h3).1 hsw⟩
      · rw [if_neg hsw]
        exact .inl ⟨_, rfl⟩
    · rw [if_neg hw]
      cases timeout with
      | none => exact .inl ⟨_, rfl⟩
      | some t => exact .inl ⟨t, by dsimp only; rw [if_neg (by decide)]⟩

/-- C121: with a timeout select waits at least a tick, and never less than asked by more than a
tick. -/
theorem select_ticks {hz sec usec : Nat} (hhz : 1 ≤ hz) (hd : 1000000 / hz * hz = 1000000)
    (hmax : sec * hz + usec / (1000000 / hz) < 2 ^ 32) :
    1 ≤ ticks hz sec usec ∧ sec * 1000000 + usec < (ticks hz sec usec + 1) * (1000000 / hz) := by
  have hp : 0 < 1000000 / hz := by
    rcases Nat.eq_zero_or_pos (1000000 / hz) with h | h
    · rw [h] at hd; omega
    · exact h
  have hlt := Nat.lt_div_mul_add (a := usec) hp
  generalize hq : usec / (1000000 / hz) = q at hlt hmax
  generalize hu : 1000000 / hz = u at *
  have e : sec * 1000000 = sec * hz * u := by rw [← hd, Nat.mul_comm u hz, Nat.mul_assoc]
  have hle : sec * hz + q ≤ ticks hz sec usec ∧ 1 ≤ ticks hz sec usec := by
    unfold ticks
    dsimp only
    rw [hu, hq]
    split
    · omega
    · split <;> omega
  refine ⟨hle.2, ?_⟩
  have : (sec * hz + q + 1) * u ≤ (ticks hz sec usec + 1) * u := Nat.mul_le_mul_right _ (by omega)
  have e2 : (sec * hz + q + 1) * u = sec * hz * u + q * u + u := by rw [Nat.add_mul, Nat.add_mul, Nat.one_mul]
  omega

/-! ## What goes wrong -/

/-- A call during which nothing changes: every pass finds the same files. -/
def still (l : Look) (o : Over) : Env := { first := l, passes := [], over := o, last := l }

/-- An ordinary file, opened for reading only. -/
def plainR : File := { acc := 0 }

/-- C120 fails: a descriptor which is not open is reported but not counted; with no timeout at all the
call returns 0 at once. -/
theorem closed_not_counted_violated :
    poll (still (fun _ => none) .signal) [⟨7, evIn, {}⟩] (-1) = .ret [⟨7, evIn, { nval := true }⟩] 0 ∧
    posix 7 evIn none ≠ {} := by decide +kernel

/-- C120 fails: negative descriptors, to be ignored, are reported as not open. -/
theorem negative_fd_violated :
    poll (still (fun _ => none) .timeout) [⟨-1, evIn, {}⟩] 0 = .ret [⟨-1, evIn, { nval := true }⟩] 0 ∧
    posix (-1) evIn none = {} := by decide +kernel

/-- C120 fails: a terminal with input waiting is reported as not ready for output, when both are asked
for. -/
theorem only_one_event_violated :
    poll (still (fun _ => some (ttyF true)) .timeout) [⟨0, evInOut, {}⟩] 0 = .ret [⟨0, evInOut, evIn⟩] 1 ∧
    posix 0 evInOut (some (ttyF true)) = evInOut := by decide +kernel

/-- C120 fails: the hang-up of a pipe is not reported along with its end of file. -/
theorem hangup_hidden_violated :
    poll (still (fun _ => some (pipeR true true)) .timeout) [⟨0, evIn, {}⟩] 0 = .ret [⟨0, evIn, evIn⟩] 1 ∧
    (posix 0 evIn (some (pipeR true true))).hup = true := by decide +kernel

/-- The event POLLRDNORM. -/
def evNorm : Evs := { rdnorm := true }

/-- C120 fails: POLLRDNORM is never reported; without a timeout the ready file is not even seen, and
with one the caller's `events` are changed. -/
theorem rdnorm_violated :
    poll (still (fun _ => some (ttyF true)) .timeout) [⟨0, evNorm, {}⟩] 0 = .ret [⟨0, evNorm, {}⟩] 0 ∧
    poll { first := fun _ => some (ttyF true), passes := [fun _ => some (ttyF true)], over := .timeout,
           last := fun _ => some (ttyF true) } [⟨0, evNorm, {}⟩] 100 =
      .ret [⟨0, { rdnorm := true, pin := true }, evIn⟩] 1 ∧
    posix 0 evNorm (some (ttyF true)) = evNorm := by decide +kernel

/-- C120 fails: an ordinary file opened for reading only is never ready; the call without a timeout
returns 0. -/
theorem readonly_file_violated :
    poll (still (fun _ => some plainR) .signal) [⟨0, evIn, {}⟩] (-1) = .ret [⟨0, evIn, {}⟩] 0 ∧
    posix 0 evIn (some plainR) = evIn := by decide +kernel

/-- The result of `select`, without the sets. -/
def SRes.num : SRes → Option Nat
  | .ret _ n _ => some n
  | _ => none

/-- Is descriptor `i` in the set of readable ones? -/
def SRes.readable (i : Nat) : SRes → Option Bool
  | .ret ⟨some s, _, _⟩ _ _ => some (s i)
  | _ => none

/-- C121 fails: a pipe which another process empties between the two passes makes a call without any
timeout return 0, as if its time were over. -/
theorem select_returns_zero_violated :
    let env : SEnv := SEnv.mk (fun _ => some (pipeR false false)) [fun _ => some (pipeR true false)] .signal
      (fun _ => some (pipeR false false)) (fun _ => some (pipeR false false))
    (select env 1 ⟨some fun i => i == 0, none, none⟩ 16 none).num = some 0 := by decide +kernel

/-- C121 fails: an ordinary file opened for reading only is never ready: a call without any timeout
returns 0. -/
theorem select_readonly_violated :
    let env : SEnv := SEnv.mk (fun _ => some plainR) [] .signal (fun _ => some plainR) (fun _ => some plainR)
    (select env 1 ⟨some fun i => i == 0, none, none⟩ 16 none).num = some 0 ∧
    total env.write 1 ⟨some fun i => i == 0, none, none⟩ = 1 := by decide +kernel

/-- C121 fails: a descriptor which is not open is not refused when another one is ready. -/
theorem select_closed_violated :
    let look : Look := fun i => if i = 0 then some (pipeR true false) else none
    (select { first := look, passes := [], over := .timeout, write := look, again := look } 2
      ⟨some fun _ => true, none, none⟩ 16 none).num = some 1 := by decide +kernel

/-- C121 fails: a timeout of 0 is a wait of one tick. -/
theorem select_zero_timeout_violated : ticks 100 0 0 = 1 := by decide +kernel

/-- C121 fails: a timeout of 19 milliseconds is one tick, of at most 10. -/
theorem select_short_violated : ticks 100 0 19000 = 1 := by decide +kernel

/-- `select_partial` applies to: a pipe which becomes ready while the call waits. -/
example :
    let env : SEnv := SEnv.mk (fun _ => some (pipeR false false)) [fun _ => some (pipeR false false), fun _ => some (pipeR true false)] .timeout
      (fun _ => some (pipeR true false)) (fun _ => some (pipeR true false))
    let c : Sets := ⟨some fun i => i == 3, none, some fun i => i == 3⟩
    (∀ l ∈ env.first :: env.write :: env.passes, c.Handled l 4) ∧
    (select env 4 c 16 (some 50)).num = some 1 ∧ (select env 4 c 16 (some 50)).readable 3 = some true := by
  refine ⟨?_, by decide +kernel, by decide +kernel⟩
  intro l hl
  have : ∃ b, l = fun _ => some (pipeR b false) := by
    simp only [List.mem_cons, List.not_mem_nil, or_false] at hl
    rcases hl with rfl | rfl | rfl | rfl
    · exact ⟨_, rfl⟩
    · exact ⟨_, rfl⟩
    · exact ⟨_, rfl⟩
    · exact ⟨_, rfl⟩
  obtain ⟨b, rfl⟩ := this
  exact ⟨fun _ _ _ _ _ => ⟨_, rfl, (fun h => by cases h)⟩, (fun _ h => by cases h), fun _ _ _ _ _ => ⟨_, rfl⟩⟩

end Verif.PollSel
