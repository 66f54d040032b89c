/-
The devices /dev/null, /dev/zero and /dev/full (modules/null/null.c) behind the system calls
read, write, pread64, pwrite64 and _llseek (kernel/fs/fs_syscalls.c, kernel/vfs/vfs.c).
-/
namespace Verif.NullDev

/-- The three minors of the driver (modules/null/null.c:11-13, 64-86). -/
inductive Dev | null | zero | full
deriving DecidableEq, Repr

/-- A handle: its device, the bits O_WRONLY and O_RDWR of fl_flags and h_fpos
(include/tilck/kernel/fs/vfs_base.h, struct fs_handle_base). -/
structure Handle where
  dev : Dev
  wronly : Bool
  rdwr : Bool
  pos : Int

/-- The descriptors of the process (get_fs_handle, kernel/fs/fs_syscalls.c) and the task's
io_copybuf. Dup and close are not modelled. -/
structure St where
  fds : Nat → Option Handle
  kbuf : Nat → UInt8

/-- Error numbers. -/
inductive Err | ebadf | einval | efault | enospc | espipe
deriving DecidableEq, Repr

/-- What a call gives: a number, with the bytes stored at the start of the caller's buffer, an error,
or a failed ASSERT (which stops the kernel, in builds with assertions). -/
inductive Res
  | ret (n : Nat) (bytes : List UInt8)
  | err (e : Err)
  | panic
deriving DecidableEq, Repr

/-- null_read (null.c:15-19) and zero_read (null.c:40-45), by the tables of null.c:34-62: the new
buffer and the number of bytes; `none` is the failed ASSERT. -/
def devRead (d : Dev) (kbuf : Nat → UInt8) (size : Nat) (pos : Int) : Option ((Nat → UInt8) × Nat) :=
  match d with
  | .null => if pos = 0 then some (kbuf, 0) else none
  | .zero | .full => if pos = 0 then some (fun i => if i < size then 0 else kbuf i, size) else none

/-- null_write (null.c:21-25) and full_write (null.c:53-56), by the tables. -/
def devWrite (d : Dev) (size : Nat) (pos : Int) : Option (Except Err Nat) :=
  match d with
  | .null | .zero => if pos = 0 then some (.ok size) else none
  | .full => some (.error .enospc)

/-- vfs_read and vfs_pread (vfs.c:118-132, 149-163) and the end of sys_read and sys_pread64
(fs_syscalls.c:236-244, 298-306), for handles without VFS_SPFL_NO_USER_COPY. `cap` is
IO_COPYBUF_SIZE, `good` tells if copy_to_user succeeds. -/
def readAt (cap : Nat) (s : St) (h : Handle) (pos : Int) (count : Nat) (good : Bool) : Res × St :=
  let n := min (min count 2147483647) cap
  if h.wronly && !h.rdwr then (.err .ebadf, s)
  else match devRead h.dev s.kbuf n pos with
    | none => (.panic, s)
    | some (kb, r) =>
      let s' := { s with kbuf := kb }
      if 0 < r then
        if good then (.ret r ((List.range r).map kb), s') else (.err .efault, s')
      else (.ret r [], s')

/-- vfs_write and vfs_pwrite (vfs.c:134-148, 165-179) and the end of sys_write and sys_pwrite64
(fs_syscalls.c:267-273, 332-338). `data` is the memory at the caller's pointer; a failed
copy_from_user leaves the buffer as it was (simplified: it may have copied a part). -/
def writeAt (cap : Nat) (s : St) (h : Handle) (pos : Int) (count : Nat) (data : Nat → UInt8)
    (good : Bool) : Res × St :=
  let n := min (min count 2147483647) cap
  if good then
    let s' := { s with kbuf := fun i => if i < n then data i else s.kbuf i }
    if !(h.wronly || h.rdwr) then (.err .ebadf, s')
    else match devWrite h.dev n pos with
      | none => (.panic, s')
      | some (.ok r) => (.ret r [], s')
      | some (.error e) => (.err e, s')
  else (.err .efault, s)

/-- The calls. -/
inductive Call
  | read (fd count : Nat) (good : Bool)
  | write (fd count : Nat) (data : Nat → UInt8) (good : Bool)
  | pread (fd count : Nat) (off : Int) (good : Bool)
  | pwrite (fd count : Nat) (data : Nat → UInt8) (off : Int) (good : Bool)
  | lseek (fd : Nat) (off : Int) (whence : Nat) (good : Bool)

/-- sys_read, sys_write, sys_pread64, sys_pwrite64 (fs_syscalls.c:206-341) and sys_llseek
(fs_syscalls.c:607-641) with vfs_seek (vfs.c:181-195) and null_seek (null.c:27-32). `offMax` is
OFFT_MAX (include/tilck/common/basic_defs.h:222-225); an lseek offset above it or below its
negative is refused when offt has 32 bits, with 64 bits there is none. The result of a seek is the
number stored by copy_to_user. -/
def call (cap : Nat) (offMax : Int) (s : St) : Call → Res × St
  | .read fd count good =>
    match s.fds fd with
    | none => (.err .ebadf, s)
    | some h => readAt cap s h h.pos count good
  | .write fd count data good =>
    match s.fds fd with
    | none => (.err .ebadf, s)
    | some h => writeAt cap s h h.pos count data good
  | .pread fd count off good =>
    if off < 0 ∨ off > offMax then (.err .einval, s)
    else match s.fds fd with
      | none => (.err .ebadf, s)
      | some h => readAt cap s h off count good
  | .pwrite fd count data off good =>
    if off < 0 ∨ off > offMax then (.err .einval, s)
    else match s.fds fd with
      | none => (.err .ebadf, s)
      | some h => writeAt cap s h off count data good
  | .lseek fd off whence good =>
    match s.fds fd with
    | none => (.err .ebadf, s)
    | some h =>
      if off < -offMax - 1 ∨ off > offMax then (.err .einval, s)
      else if whence = 0 ∨ whence = 1 ∨ whence = 2 then
        let h' := { h with pos := 0 }
        let s' := { s with fds := fun f => if f = fd then some h' else s.fds f }
        if good then (.ret h'.pos.toNat [], s') else (.err .efault, s')
      else (.err .einval, s)

/-- A history of calls: its results. -/
def run (cap : Nat) (offMax : Int) : St → List Call → List Res
  | _, [] => []
  | s, c :: cs => (call cap offMax s c).1 :: run cap offMax (call cap offMax s c).2 cs

/-! ### Specification: no state but what the descriptors are -/

/-- How a descriptor was opened. -/
inductive Mode | rdonly | wronly | rdwr
deriving DecidableEq, Repr

/-- What reading must give: nothing from /dev/null, zeros from the others. `most` is the most bytes
one call moves. -/
def specRead (most : Nat) (d : Dev) (m : Mode) (count : Nat) (good : Bool) : Res :=
  if m = .wronly then .err .ebadf
  else if d = .null ∨ min count most = 0 then .ret 0 []
  else if good then .ret (min count most) (List.replicate (min count most) 0)
  else .err .efault

/-- What writing must give: no space on /dev/full, all taken by the others. -/
def specWrite (most : Nat) (d : Dev) (m : Mode) (count : Nat) (good : Bool) : Res :=
  if good = false then .err .efault
  else if m = .rdonly then .err .ebadf
  else if d = .full then .err .enospc
  else .ret (min count most) []

/-- What each call must give; it does not depend on the calls before. -/
def spec (most : Nat) (offMax : Int) (files : Nat → Option (Dev × Mode)) : Call → Res
  | .read fd count good =>
    match files fd with
    | none => .err .ebadf
    | some (d, m) => specRead most d m count good
  | .write fd count _ good =>
    match files fd with
    | none => .err .ebadf
    | some (d, m) => specWrite most d m count good
  | .pread fd count off good =>
    if 0 ≤ off ∧ off ≤ offMax then
      match files fd with
      | none => .err .ebadf
      | some (d, m) => specRead most d m count good
    else .err .einval
  | .pwrite fd count _ off good =>
    if 0 ≤ off ∧ off ≤ offMax then
      match files fd with
      | none => .err .ebadf
      | some (d, m) => specWrite most d m count good
    else .err .einval
  | .lseek fd off whence good =>
    match files fd with
    | none => .err .ebadf
    | some _ =>
      if -offMax - 1 ≤ off ∧ off ≤ offMax ∧ whence ≤ 2 then
        if good then .ret 0 [] else .err .efault
      else .err .einval

/-- A handle just opened: devfs_open_file zeroes it, vfs_open sets the flags. -/
def opened : Dev × Mode → Handle
  | (d, .rdonly) => ⟨d, false, false, 0⟩
  | (d, .wronly) => ⟨d, true, false, 0⟩
  | (d, .rdwr) => ⟨d, false, true, 0⟩

/-- A process with these files open; its copy buffer holds anything. -/
def start (files : Nat → Option (Dev × Mode)) (junk : Nat → UInt8) : St :=
  ⟨fun fd => (files fd).map opened, junk⟩

/-- The calls the theorem is about: no pread or pwrite at an offset beyond 0. -/
def AtZero : Call → Prop
  | .pread _ _ off _ => off ≤ 0
  | .pwrite _ _ _ off _ => off ≤ 0
  | _ => True

/-! ### Proofs -/

private theorem readAt_spec (cap : Nat) (s : St) (dm : Dev × Mode) (count : Nat) (good : Bool) :
    (readAt cap s (opened dm) 0 count good).1 =
      specRead (min 2147483647 cap) dm.1 dm.2 count good ∧
    (readAt cap s (opened dm) 0 count good).2.fds = s.fds := by
  obtain ⟨d, m⟩ := dm
  have hz : ∀ n, (List.range n).map (fun i => if i < n then (0 : UInt8) else s.kbuf i)
      = List.replicate n 0 := by
    intro n
    rw [List.eq_replicate_iff]
    refine ⟨by simp, ?_⟩
    intro b hb
    obtain ⟨i, hi, rfl⟩ := List.mem_map.1 hb
    rw [if_pos (List.mem_range.1 hi)]
  have hm : min (min count 2147483647) cap = min count (min 2147483647 cap) := by omega
  unfold readAt specRead
  rw [hm]
  generalize min count (min 2147483647 cap) = n
  rcases Nat.eq_zero_or_pos n with h0 | h0
  · subst h0
    cases d <;> cases m <;> simp [opened, devRead]
  · have hne : n ≠ 0 := by omega
    cases d <;> cases m <;> cases good <;> simp [opened, devRead, h0, hne] <;> exact hz n

private theorem writeAt_spec (cap : Nat) (s : St) (dm : Dev × Mode) (count : Nat)
    (data : Nat → UInt8) (good : Bool) :
    (writeAt cap s (opened dm) 0 count data good).1 =
      specWrite (min 2147483647 cap) dm.1 dm.2 count good ∧
    (writeAt cap s (opened dm) 0 count data good).2.fds = s.fds := by
  obtain ⟨d, m⟩ := dm
  have hm : min (min count 2147483647) cap = min count (min 2147483647 cap) := by omega
  unfold writeAt specWrite
  rw [hm]
  cases d <;> cases m <;> cases good <;> simp [opened, devWrite]

private theorem call_spec (cap : Nat) (offMax : Int) (files : Nat → Option (Dev × Mode)) (s : St)
    (hs : s.fds = fun fd => (files fd).map opened) (c : Call) (hc : AtZero c) :
    (call cap offMax s c).1 = spec (min 2147483647 cap) offMax files c ∧
    (call cap offMax s c).2.fds = s.fds := by
  cases c with
  | read fd count good =>
    simp only [call, spec, hs]
    cases hf : files fd with
    | none => exact ⟨rfl, hs⟩
    | some dm =>
      have := readAt_spec cap s dm count good
      rw [hs] at this
      have hp : (opened dm).pos = 0 := by obtain ⟨d, m⟩ := dm; cases m <;> rfl
      simp only [Option.map_some, hp]
      exact this
  | write fd count data good =>
    simp only [call, spec, hs]
    cases hf : files fd with
    | none => exact ⟨rfl, hs⟩
    | some dm =>
      have := writeAt_spec cap s dm count data good
      rw [hs] at this
      have hp : (opened dm).pos = 0 := by obtain ⟨d, m⟩ := dm; cases m <;> rfl
      simp only [Option.map_some, hp]
      exact this
  | pread fd count off good =>
    simp only [call, spec, hs]
    by_cases ho : off < 0 ∨ off > offMax
    · rw [if_pos ho, if_neg (by omega)]; exact ⟨rfl, hs⟩
    · rw [if_neg ho, if_pos (by omega)]
      have hz : off = 0 := by have : off ≤ 0 := hc; omega
      subst hz
      cases hf : files fd with
      | none => exact ⟨rfl, hs⟩
      | some dm =>
        have := readAt_spec cap s dm count good
        rw [hs] at this
        exact this
  | pwrite fd count data off good =>
    simp only [call, spec, hs]
    by_cases ho : off < 0 ∨ off > offMax
    · rw [if_pos ho, if_neg (by omega)]; exact ⟨rfl, hs⟩
    · rw [if_neg ho, if_pos (by omega)]
      have hz : off = 0 := by have : off ≤ 0 := hc; omega
      subst hz
      cases hf : files fd with
      | none => exact ⟨rfl, hs⟩
      | some dm =>
        have := writeAt_spec cap s dm count data good
        rw [hs] at this
        exact this
  | lseek fd off whence good =>
    simp only [call, spec, hs]
    cases hf : files fd with
    | none => exact ⟨rfl, hs⟩
    | some dm =>
      simp only [Option.map_some]
      by_cases ho : off < -offMax - 1 ∨ off > offMax
      · rw [if_pos ho, if_neg (by omega)]; exact ⟨rfl, hs⟩
      · rw [if_neg ho]
        by_cases hw : whence = 0 ∨ whence = 1 ∨ whence = 2
        · rw [if_pos hw,
            if_pos (show -offMax - 1 ≤ off ∧ off ≤ offMax ∧ whence ≤ 2 by omega)]
          have hh : ({ opened dm with pos := 0 } : Handle) = opened dm := by
            obtain ⟨d, m⟩ := dm; cases m <;> rfl
          have hfd : (fun f => if f = fd then some (opened dm) else (files f).map opened)
              = fun f => (files f).map opened := by
            funext f
            by_cases h : f = fd
            · subst h; simp [hf]
            · simp [h]
          cases good
          · exact ⟨rfl, by rw [hh]; exact hfd⟩
          · exact ⟨rfl, by rw [hh]; exact hfd⟩
        · rw [if_neg hw, if_neg (by omega)]; exact ⟨rfl, hs⟩

private theorem run_spec (cap : Nat) (offMax : Int) (files : Nat → Option (Dev × Mode))
    (cs : List Call) : ∀ s : St, s.fds = (fun fd => (files fd).map opened) →
    (∀ c ∈ cs, AtZero c) →
    run cap offMax s cs = cs.map (spec (min 2147483647 cap) offMax files) := by
  induction cs with
  | nil => intro _ _ _; rfl
  | cons c cs ih =>
    intro s hs hc
    obtain ⟨h1, h2⟩ := call_spec cap offMax files s hs c (hc c (by simp))
    simp only [run, List.map_cons, h1]
    rw [ih _ (h2.trans hs) (fun c' h' => hc c' (by simp [h']))]

/-- C193, for histories without pread and pwrite at offsets beyond 0: every call gives what the
specification says, whatever the calls before and whatever was in the kernel's buffer: reading
/dev/null gives nothing, reading the others gives zeros and never other bytes, writing to /dev/full
finds no space, the others take everything, and the kernel does not stop. Missing: pread and pwrite
at other offsets. -/
theorem devices_partial (cap : Nat) (offMax : Int) (files : Nat → Option (Dev × Mode))
    (junk : Nat → UInt8) (cs : List Call) (hc : ∀ c ∈ cs, AtZero c) :
    run cap offMax (start files junk) cs = cs.map (spec (min 2147483647 cap) offMax files) :=
  run_spec cap offMax files cs _ rfl hc

/-- The specification never lets the kernel stop. -/
theorem spec_no_panic (most : Nat) (offMax : Int) (files : Nat → Option (Dev × Mode)) (c : Call) :
    spec most offMax files c ≠ .panic := by
  cases c <;> simp only [spec, specRead, specWrite] <;> (repeat' split) <;> simp

/-- C193 is violated: after any history, a pread at any offset beyond 0 from any of the devices, if
open for reading, stops the kernel. -/
theorem pread_violated (cap : Nat) (offMax : Int) (files : Nat → Option (Dev × Mode))
    (junk : Nat → UInt8) (cs : List Call) (hc : ∀ c ∈ cs, AtZero c)
    (fd : Nat) (d : Dev) (m : Mode) (hf : files fd = some (d, m)) (hm : m ≠ .wronly)
    (count : Nat) (off : Int) (h0 : 0 < off) (h1 : off ≤ offMax) (good : Bool) :
    run cap offMax (start files junk) (cs ++ [.pread fd count off good]) =
      cs.map (spec (min 2147483647 cap) offMax files) ++ [.panic] := by
  suffices H : ∀ s : St, s.fds = (fun fd => (files fd).map opened) →
      run cap offMax s (cs ++ [.pread fd count off good]) =
        cs.map (spec (min 2147483647 cap) offMax files) ++ [.panic] from H _ rfl
  induction cs with
  | nil =>
    intro s hs
    have hne : off ≠ 0 := by omega
    have ho : ¬ (off < 0 ∨ off > offMax) := by omega
    simp only [List.nil_append, List.map_nil, run, call, if_neg ho, hs, hf, Option.map_some]
    cases d <;> cases m <;> simp_all [readAt, opened, devRead]
  | cons c cs ih =>
    intro s hs
    obtain ⟨e1, e2⟩ := call_spec cap offMax files s hs c (hc c (by simp))
    simp only [List.cons_append, run, List.map_cons, e1]
    rw [ih (fun c' h' => hc c' (by simp [h'])) _ (e2.trans hs)]

/-- C193 is violated: so does a pwrite at any offset beyond 0 to /dev/null or /dev/zero. -/
theorem pwrite_violated (cap : Nat) (offMax : Int) (files : Nat → Option (Dev × Mode))
    (junk : Nat → UInt8) (fd : Nat) (d : Dev) (m : Mode) (hf : files fd = some (d, m))
    (hd : d ≠ .full) (hm : m ≠ .rdonly) (count : Nat) (data : Nat → UInt8)
    (off : Int) (h0 : 0 < off) (h1 : off ≤ offMax) :
    run cap offMax (start files junk) [.pwrite fd count data off true] = [.panic] := by
  have hne : off ≠ 0 := by omega
  have ho : ¬ (off < 0 ∨ off > offMax) := by omega
  simp only [run, call, if_neg ho, start, hf, Option.map_some]
  cases d <;> cases m <;> simp_all [writeAt, opened, devWrite]

/-! ### The hypotheses are met -/

private def files3 : Nat → Option (Dev × Mode)
  | 3 => some (.null, .rdwr)
  | 4 => some (.zero, .rdonly)
  | 5 => some (.full, .rdwr)
  | _ => none

private def hist : List Call :=
  [.write 3 4 (fun _ => 7) true, .lseek 4 100 0 true, .read 4 3 true, .write 5 1 (fun _ => 9) true,
   .read 3 8 true, .pread 5 2 0 true, .pread 4 1 (-1) true, .read 9 1 true]

example : ∀ c ∈ hist, AtZero c := by simp [hist, AtZero]

example : run 16384 2147483647 (start files3 (fun _ => 255)) hist =
    [.ret 4 [], .ret 0 [], .ret 3 [0, 0, 0], .err .enospc, .ret 0 [], .ret 2 [0, 0], .err .einval,
     .err .ebadf] := by decide

example : run 16384 2147483647 (start files3 (fun _ => 255)) (hist ++ [.pread 3 1 1 true]) =
    hist.map (spec (min 2147483647 16384) 2147483647 files3) ++ [.panic] :=
  pread_violated _ _ _ _ _ (by simp [hist, AtZero]) 3 .null .rdwr rfl (by decide) _ _ (by decide)
    (by decide) _

end Verif.NullDev
