import Verif.UserMem

/-!
# Reading and writing through system calls

Models kernel/fs/fs_syscalls.c (`sys_read`, `sys_write`, `sys_readv`, `sys_writev`,
`iov_len_overflow`), the loops of `vfs_readv` / `vfs_writev` (kernel/vfs/vfs.c) and of
`ramfs_readv_nolock` / `ramfs_writev_nolock`, the preparation of `sys_poll` (kernel/poll.c), and
the copies of signal sets in `sys_rt_sigprocmask` and `sys_rt_sigpending` (kernel/signal.c), on
top of the memory of `UserMem`.

What is behind a file handle is a parameter (`Dev`): any state, any answers.  The buffers of the
task (`io_copybuf`, `args_copybuf`) are ranges of kernel memory.  Handles that work on user memory
directly (`VFS_SPFL_NO_USER_COPY`) are not modelled.
-/

namespace Verif.SysIo

open Verif.UserMem

/-! ## Model -/

/-- A file handle: what `vfs_read` and `vfs_write` answer (`error`: an error number). -/
structure Dev (σ : Type) where
  read : σ → Nat → Except Nat (List Nat) × σ
  write : σ → List Nat → Except Nat Nat × σ

/-- The result of a system call. -/
structure Res (σ : Type) where
  rc : Int
  w : World
  s : σ

/-- `vfs_read` puts the bytes into the kernel's buffer. -/
def load (w : World) (buf : Nat) (bs : List Nat) : World := { w with mem := wrBytes w.mem buf bs }

/-- The `n` bytes at `a`. -/
def bytesAt (m : Nat → Nat) (a : Nat) : Nat → List Nat
  | 0 => []
  | n + 1 => m a :: bytesAt m (a + 1) n

/-- `count = MIN(count, INT32_MAX)`, `count = MIN(count, IO_COPYBUF_SIZE)`
(kernel/fs/fs_syscalls.c:228, 236, 259, 267); `sz` is `IO_COPYBUF_SIZE`, which depends on the
configuration. -/
def clip (sz count : Nat) : Nat := min (min count 2147483647) sz

/-- `sys_read` (kernel/fs/fs_syscalls.c:206-248); `sys_pread64` (278-310) differs in the offset,
which is part of the handle here. -/
def sysRead {σ : Type} (d : Dev σ) (buf sz : Nat) (w : World) (s : σ) (up count : Nat) : Res σ :=
  match d.read s (clip sz count) with
  | (.error e, s') => ⟨-(e : Int), w, s'⟩
  | (.ok bs, s') =>
    if bs.length > 0 then
      let c := copyToUser (load w buf bs) up buf bs.length
      ⟨if c.1 < 0 then c.1 else bs.length, c.2, s'⟩
    else ⟨0, load w buf bs, s'⟩

/-- `sys_write` (kernel/fs/fs_syscalls.c:250-276), `sys_pwrite64` (312-341). -/
def sysWrite {σ : Type} (d : Dev σ) (buf sz : Nat) (w : World) (s : σ) (up count : Nat) : Res σ :=
  let c := copyFromUser w buf up (clip sz count)
  if c.1 = 0 then
    match d.write s (bytesAt c.2.mem buf (clip sz count)) with
    | (.error e, s') => ⟨-(e : Int), c.2, s'⟩
    | (.ok n, s') => ⟨n, c.2, s'⟩
  else ⟨-EFAULT, c.2, s⟩

/-- A 32-bit unsigned number as a signed one. -/
def s32 (x : Nat) : Int := if x % W < 2147483648 then (x % W : Nat) else ((x % W : Nat) : Int) - W

/-- The loop of `vfs_readv` and `ramfs_readv_nolock` (kernel/vfs/vfs.c:841-861,
kernel/fs/ramfs/rw_ops.c.h:394-411) over pairs of base and length. -/
def readvLoop {σ : Type} (d : Dev σ) (buf sz : Nat) : World → σ → Int → List (Nat × Nat) → Res σ
  | w, s, ret, [] => ⟨ret, w, s⟩
  | w, s, ret, (base, len) :: r =>
    match d.read s (min len sz) with
    | (.error e, s') => ⟨-(e : Int), w, s'⟩
    | (.ok bs, s') =>
      let c := copyToUser (load w buf bs) base buf (min len sz)
      if c.1 < 0 then ⟨c.1, c.2, s'⟩
      else if (bs.length : Int) < s32 len then ⟨ret + bs.length, c.2, s'⟩
      else readvLoop d buf sz c.2 s' (ret + bs.length) r

/-- The loop of `vfs_writev` and `ramfs_writev_nolock` (kernel/vfs/vfs.c:889-910,
kernel/fs/ramfs/rw_ops.c.h:438-456). -/
def writevLoop {σ : Type} (d : Dev σ) (buf sz : Nat) : World → σ → Int → List (Nat × Nat) → Res σ
  | w, s, ret, [] => ⟨ret, w, s⟩
  | w, s, ret, (base, len) :: r =>
    let c := copyFromUser w buf base (min len sz)
    if c.1 = 0 then
      match d.write s (bytesAt c.2.mem buf (min len sz)) with
      | (.error e, s') => ⟨-(e : Int), c.2, s'⟩
      | (.ok n, s') =>
        if (n : Int) < s32 len then ⟨ret + n, c.2, s'⟩
        else writevLoop d buf sz c.2 s' (ret + n) r
    else ⟨-EFAULT, c.2, s⟩

/-- `iov_len_overflow` (kernel/fs/fs_syscalls.c:353-366): `tot_len` has 32 bits. -/
def iovOverflow (m : Nat → Nat) (iov : Nat) : Nat → Nat → Nat → Bool
  | 0, _, _ => false
  | n + 1, i, tot =>
    let t := (tot + rdWord m ((iov + 8 * i + 4) % W)) % W
    if s32 t < 0 then true else iovOverflow m iov n (i + 1) t

/-- What comes before the transfer in `sys_readv` and `sys_writev`
(kernel/fs/fs_syscalls.c:368-385, 393-410): an error, or the memory with the array in
`args_copybuf` (at `abuf`). -/
def vecCheck (w : World) (abuf uiov : Nat) (cnt : Int) : Except Int World :=
  if cnt ≤ 0 then .error (-EINVAL)
  else if 8 * cnt.toNat % W > ARGSBUF then .error (-EINVAL)
  else
    let c := copyFromUser w abuf uiov (8 * cnt.toNat % W)
    if c.1 ≠ 0 then .error (-EFAULT)
    else if iovOverflow c.2.mem abuf cnt.toNat 0 0 then .error (-EINVAL)
    else .ok c.2

/-- The array in `args_copybuf`. -/
def iovs (m : Nat → Nat) (a : Nat) : Nat → List (Nat × Nat)
  | 0 => []
  | n + 1 => (rdWord m a, rdWord m (a + 4)) :: iovs m (a + 8) n

/-- `sys_readv` (kernel/fs/fs_syscalls.c:393-416), for an open handle. -/
def sysReadv {σ : Type} (d : Dev σ) (buf sz abuf : Nat) (w : World) (s : σ) (uiov : Nat)
    (cnt : Int) : Res σ :=
  match vecCheck w abuf uiov cnt with
  | .error e => ⟨e, w, s⟩
  | .ok w1 => readvLoop d buf sz w1 s 0 (iovs w1.mem abuf cnt.toNat)

/-- `sys_writev` (kernel/fs/fs_syscalls.c:368-391). -/
def sysWritev {σ : Type} (d : Dev σ) (buf sz abuf : Nat) (w : World) (s : σ) (uiov : Nat)
    (cnt : Int) : Res σ :=
  match vecCheck w abuf uiov cnt with
  | .error e => ⟨e, w, s⟩
  | .ok w1 => writevLoop d buf sz w1 s 0 (iovs w1.mem abuf cnt.toNat)

/-- `fds[i].revents = 0` for all `i` (kernel/poll.c:276-277): two bytes at offset 6 of each
8-byte entry. -/
def clearRevents (m : Nat → Nat) (abuf i : Nat) : Nat → Nat → Nat
  | 0 => m
  | n + 1 =>
    clearRevents (upd (upd m ((abuf + 8 * i + 6) % W) 0) ((abuf + 8 * i + 7) % W) 0) abuf (i + 1) n

/-- What `sys_poll` does before it looks at the files (kernel/poll.c:263-277); `nfds` is a 32-bit
number. -/
def pollPrep (w : World) (abuf ufds nfds : Nat) : Except Int World :=
  if 8 * nfds % W > ARGSBUF then .error (-EINVAL)
  else
    let c := copyFromUser w abuf ufds (8 * nfds % W)
    if c.1 ≠ 0 then .error (-EFAULT)
    else .ok { c.2 with mem := clearRevents c.2.mem abuf 0 nfds }

/-- The first of the two copies of a signal set (kernel/signal.c:760, 833); `set` is the address
of `sa_mask` or `sa_pending`. -/
def sigCopy1 (w : World) (set up size : Nat) : Int × World := copyToUser w up set size

/-- Giving a signal set to the caller (kernel/signal.c:758-778, 830-850); `zero` is the address of
`zero_page`. -/
def sigCopy (w : World) (set zero up size : Nat) : Int × World :=
  let c := sigCopy1 w set up size
  if c.1 ≠ 0 then c
  else if size > 8 then copyToUser c.2 ((up + 8) % W) zero (size - 8)
  else c

/-! ## Specification -/

/-- What a handle can be expected to do: it never gives more than asked for, and never takes more
than offered. -/
structure Dev.Ok {σ : Type} (d : Dev σ) : Prop where
  read_len : ∀ s n bs s', d.read s n = (.ok bs, s') → bs.length ≤ n
  write_len : ∀ s bs n s', d.write s bs = (.ok n, s') → n ≤ bs.length

/-- The process may write the `n` bytes at `a`. -/
def UserWritable (w : World) (a n : Nat) : Prop :=
  a ≠ 0 ∧ a + n ≤ BASE ∧ ∀ i, i < n → w.wr (a + i) = true

/-- The `bs.length` bytes at `a` are `bs`. -/
def Holds (m : Nat → Nat) (a : Nat) (bs : List Nat) : Prop := ∀ i (h : i < bs.length), m (a + i) = bs[i]

/-- Buffers filled one after the other by reads, until one gives less than asked for. -/
inductive Reads {σ : Type} (d : Dev σ) (sz : Nat) : σ → List (Nat × Nat) → List (List Nat) → σ → Prop
  | nil (s) : Reads d sz s [] [] s
  | last {s b len r bs s'} : d.read s (min len sz) = (.ok bs, s') → bs.length < len →
      Reads d sz s ((b, len) :: r) [bs] s'
  | more {s b len r bs s1 cs s'} : d.read s (min len sz) = (.ok bs, s1) → bs.length = len →
      Reads d sz s1 r cs s' → Reads d sz s ((b, len) :: r) (bs :: cs) s'

/-- Buffer after buffer holds its part. -/
def Filled (m : Nat → Nat) : List (Nat × Nat) → List (List Nat) → Prop
  | (b, _) :: r, c :: cs => Holds m b c ∧ Filled m r cs
  | _, _ => True

/-- Two buffers do not overlap. -/
def Apart (a b : Nat × Nat) : Prop := a.1 + a.2 ≤ b.1 ∨ b.1 + b.2 ≤ a.1

/-- Buffers written one after the other, until one is not taken completely. -/
inductive Writes {σ : Type} (d : Dev σ) : σ → List (List Nat) → Nat → σ → Prop
  | nil (s) : Writes d s [] 0 s
  | last {s bs r n s'} : d.write s bs = (.ok n, s') → n < bs.length → Writes d s (bs :: r) n s'
  | more {s bs r s1 k s'} : d.write s bs = (.ok bs.length, s1) → Writes d s1 r k s' →
      Writes d s (bs :: r) (bs.length + k) s'

/-- A regular file: its content and the position of the handle. -/
def fileDev : Dev (List Nat × Nat) where
  read s n := (.ok ((s.1.drop s.2).take n), (s.1, s.2 + ((s.1.drop s.2).take n).length))
  write s bs := (.ok bs.length, (s.1.take s.2 ++ bs ++ s.1.drop (s.2 + bs.length), s.2 + bs.length))


/-! ## Lemmas -/

theorem pages_to (w : World) (up src n : Nat) :
    (copyToUser w up src n).2.rdp = w.rdp ∧ (copyToUser w up src n).2.wrp = w.wrp := by
  unfold copyToUser
  split
  · exact ⟨rfl, rfl⟩
  · exact archCopy_pages _ _ _ _

theorem pages_from (w : World) (dest up n : Nat) :
    (copyFromUser w dest up n).2.rdp = w.rdp ∧ (copyFromUser w dest up n).2.wrp = w.wrp := by
  unfold copyFromUser
  split
  · exact ⟨rfl, rfl⟩
  · exact archCopy_pages _ _ _ _

theorem kpages {w w' : World} {a n : Nat} (h : KBuf w a n) (hr : w'.rdp = w.rdp)
    (hw : w'.wrp = w.wrp) : KBuf w' a n := by
  refine ⟨h.1, h.2.1, fun i hi => ?_⟩
  have := h.2.2 i hi
  unfold World.rd World.wr at *
  rw [hr, hw]; exact this

theorem kless {w : World} {a n k : Nat} (h : KBuf w a n) (hk : k ≤ n) : KBuf w a k :=
  ⟨h.1, Nat.lt_of_le_of_lt (by omega) h.2.1, fun i hi => h.2.2 i (by omega)⟩

theorem bytesAt_length (m : Nat → Nat) (n : Nat) : ∀ a, (bytesAt m a n).length = n := by
  induction n with
  | zero => intro a; rfl
  | succ n ih => intro a; simp [bytesAt, ih]

theorem bytesAt_get (m : Nat → Nat) (n : Nat) : ∀ a i (h : i < n),
    (bytesAt m a n)[i]'(by rw [bytesAt_length]; exact h) = m (a + i) := by
  induction n with
  | zero => intro a i h; omega
  | succ n ih =>
    intro a i h
    cases i with
    | zero => rfl
    | succ i =>
      show (bytesAt m (a + 1) n)[i]'_ = _
      rw [ih (a + 1) i (by omega)]
      congr 1; omega

theorem bytesAt_congr (m m' : Nat → Nat) (a b n : Nat) (h : ∀ i, i < n → m (a + i) = m' (b + i)) :
    bytesAt m a n = bytesAt m' b n := by
  apply List.ext_getElem
  · rw [bytesAt_length, bytesAt_length]
  · intro i h1 h2
    rw [bytesAt_length] at h1
    rw [bytesAt_get _ _ _ _ h1, bytesAt_get _ _ _ _ h1]
    exact h i h1

/-- Giving `n ≤ sz` bytes of the loaded buffer to the process. -/
theorem give (w : World) (buf sz up n : Nat) (bs : List Nat) (hk : KBuf w buf sz) (hn : n ≤ sz)
    (hb : bs.length ≤ sz) (hu : up + n < W) :
    ((copyToUser (load w buf bs) up buf n).1 = 0 ↔ UserWritable w up n) ∧
    ((copyToUser (load w buf bs) up buf n).1 = 0 ∨
      (copyToUser (load w buf bs) up buf n).1 = -EFAULT) ∧
    ((copyToUser (load w buf bs) up buf n).1 = 0 → ∀ i (h : i < bs.length), i < n →
      (copyToUser (load w buf bs) up buf n).2.mem (up + i) = bs[i]) ∧
    (∀ a, a < BASE → (a < up ∨ up + n ≤ a) →
      (copyToUser (load w buf bs) up buf n).2.mem a = w.mem a) ∧
    (∀ a, BASE ≤ a → (a < buf ∨ buf + sz ≤ a) →
      (copyToUser (load w buf bs) up buf n).2.mem a = w.mem a) := by
  have hkl : KBuf (load w buf bs) buf n := kpages (kless hk hn) rfl rfl
  have hB := hk.1
  have hW := hk.2.1
  obtain ⟨c1, c2, c3, c4, c5⟩ := copy_to_user_partial (load w buf bs) up buf n hkl hu
  refine ⟨c1, c2, fun h i hi hin => ?_, fun a ha hr => ?_, fun a ha hr => ?_⟩
  · rw [c3 h i hin]
    exact wrBytes_data bs w.mem buf (by omega) i hi
  · rw [c4 a hr]
    exact wrBytes_frame bs w.mem buf a (by omega) (by omega)
  · rw [c5 a ha]
    exact wrBytes_frame bs w.mem buf a (by omega) (by omega)

theorem load_frame (w : World) (buf sz : Nat) (bs : List Nat) (hk : KBuf w buf sz)
    (hb : bs.length ≤ sz) (a : Nat) (h : a < buf ∨ buf + sz ≤ a) : (load w buf bs).mem a = w.mem a := by
  have hW := hk.2.1
  exact wrBytes_frame bs w.mem buf a (by omega) (by omega)

/-! ## read and write -/

theorem clip_le (sz c : Nat) : clip sz c ≤ sz ∧ clip sz c ≤ c := by unfold clip; omega

/-- **C102.** `read`: what the file gives (at most the buffer of the kernel and the count) is what
the process finds in its buffer, and the result says how many bytes that is; a pointer it may not
write gives `-EFAULT`; errors of the file are passed on.  Nothing else of the process's memory and
of the kernel's changes. -/
theorem sys_read_partial {σ : Type} (d : Dev σ) (hd : d.Ok) (buf sz : Nat) (w : World) (s : σ)
    (up count : Nat) (hk : KBuf w buf sz) (hu : up + clip sz count < W) :
    (∀ e s', d.read s (clip sz count) = (.error e, s') →
      (sysRead d buf sz w s up count).rc = -(e : Int) ∧
      ∀ a, (sysRead d buf sz w s up count).w.mem a = w.mem a) ∧
    (∀ bs s', d.read s (clip sz count) = (.ok bs, s') →
      (sysRead d buf sz w s up count).s = s' ∧ bs.length ≤ count ∧
      (bs = [] → (sysRead d buf sz w s up count).rc = 0) ∧
      (bs ≠ [] → UserWritable w up bs.length → (sysRead d buf sz w s up count).rc = bs.length ∧
        Holds (sysRead d buf sz w s up count).w.mem up bs) ∧
      (bs ≠ [] → ¬ UserWritable w up bs.length → (sysRead d buf sz w s up count).rc = -EFAULT) ∧
      (∀ a, a < BASE → (a < up ∨ up + bs.length ≤ a) →
        (sysRead d buf sz w s up count).w.mem a = w.mem a) ∧
      (∀ a, BASE ≤ a → (a < buf ∨ buf + sz ≤ a) →
        (sysRead d buf sz w s up count).w.mem a = w.mem a)) := by
  refine ⟨fun e s' h => ?_, fun bs s' h => ?_⟩
  · unfold sysRead; rw [h]; exact ⟨rfl, fun _ => rfl⟩
  · have hl := hd.read_len _ _ _ _ h
    have hc := clip_le sz count
    have hB := hk.1
    obtain ⟨g1, g2, g3, g4, g5⟩ := give w buf sz up bs.length bs hk (by omega) (by omega) (by omega)
    unfold sysRead
    rw [h]
    dsimp only
    by_cases hz : bs.length > 0
    · rw [if_pos hz]
      dsimp only
      have hne : bs ≠ [] := fun e => by rw [e] at hz; exact absurd hz (by simp)
      refine ⟨rfl, by omega, fun e => absurd e hne, fun _ huw => ?_, fun _ huw => ?_, g4, g5⟩
      · rw [g1.mpr huw, if_neg (by omega)]
        exact ⟨rfl, fun i hi => g3 (g1.mpr huw) i hi hi⟩
      · rcases g2 with e | e
        · exact absurd (g1.mp e) huw
        · rw [e, if_pos (by decide)]
    · rw [if_neg hz]
      have hnil : bs = [] := List.length_eq_zero_iff.mp (by omega)
      refine ⟨rfl, by omega, fun _ => rfl, fun e => absurd hnil e, fun e => absurd hnil e,
        fun a ha _ => ?_, fun a _ hr => ?_⟩
      · exact load_frame w buf sz bs hk (by omega) a (by omega)
      · exact load_frame w buf sz bs hk (by omega) a hr

theorem fileDev_ok : fileDev.Ok where
  read_len s n bs s' h := by
    have : bs = (s.1.drop s.2).take n := by
      have := congrArg Prod.fst h
      exact (Except.ok.inj this).symm
    rw [this]; exact List.length_take_le _ _
  write_len s bs n s' h := by
    have := congrArg Prod.fst h
    have := Except.ok.inj this
    omega

/-- A process's world for the examples: everything below `BASE` and the buffers mapped. -/
def demoW : World := ⟨fun a => a % 7 + 1, fun _ => true, fun _ => true⟩

theorem demoBuf (a n : Nat) (h1 : BASE ≤ a) (h2 : a + n < W) : KBuf demoW a n :=
  ⟨h1, h2, fun _ _ => ⟨rfl, rfl⟩⟩

example : (sysRead fileDev 3300000000 258048 demoW ([104, 105, 33], 1) 4096 10).rc = 2 ∧
    Holds (sysRead fileDev 3300000000 258048 demoW ([104, 105, 33], 1) 4096 10).w.mem 4096 [105, 33] :=
  ((sys_read_partial fileDev fileDev_ok 3300000000 258048 demoW ([104, 105, 33], 1) 4096 10
    (demoBuf _ _ (by decide) (by decide)) (by decide)).2 [105, 33] _ rfl).2.2.2.1 (by decide)
    ⟨by decide, by decide, fun _ _ => rfl⟩

/-- **C102.** `write`: the file is given exactly the bytes the process has in its buffer (at most
the size of the kernel's buffer) and the result is the file's answer; a pointer the process may
not read gives `-EFAULT` and the file gets nothing.  The process's memory does not change, the
kernel's only in its buffer. -/
theorem sys_write_partial {σ : Type} (d : Dev σ) (buf sz : Nat) (w : World) (s : σ)
    (up count : Nat) (hk : KBuf w buf sz) (hu : up + clip sz count < W) :
    (up ≠ 0 ∧ up + clip sz count ≤ BASE ∧ UserReadable w up (clip sz count) →
      (∀ n s', d.write s (bytesAt w.mem up (clip sz count)) = (.ok n, s') →
        (sysWrite d buf sz w s up count).rc = n ∧ (sysWrite d buf sz w s up count).s = s') ∧
      (∀ e s', d.write s (bytesAt w.mem up (clip sz count)) = (.error e, s') →
        (sysWrite d buf sz w s up count).rc = -(e : Int) ∧
        (sysWrite d buf sz w s up count).s = s')) ∧
    (¬ (up ≠ 0 ∧ up + clip sz count ≤ BASE ∧ UserReadable w up (clip sz count)) →
      (sysWrite d buf sz w s up count).rc = -EFAULT ∧ (sysWrite d buf sz w s up count).s = s) ∧
    (∀ a, (a < buf ∨ buf + sz ≤ a) → (sysWrite d buf sz w s up count).w.mem a = w.mem a) := by
  have hc := clip_le sz count
  generalize hn : clip sz count = n at *
  obtain ⟨c1, c2, c3, c4, _⟩ := copy_from_user_partial w buf up n (kless hk hc.1) hu
  have hw : (sysWrite d buf sz w s up count).w = (copyFromUser w buf up n).2 := by
    unfold sysWrite
    rw [hn]
    dsimp only
    split
    · split <;> rfl
    · rfl
  refine ⟨fun h => ?_, fun h => ?_, fun a ha => ?_⟩
  · have h0 := c1.mpr h
    have e := bytesAt_congr (copyFromUser w buf up n).2.mem w.mem buf up n (c3 h0)
    unfold sysWrite
    rw [hn]
    dsimp only
    rw [if_pos h0, e]
    refine ⟨fun k s' hs => ?_, fun k s' hs => ?_⟩
    · rw [hs]; exact ⟨rfl, rfl⟩
    · rw [hs]; exact ⟨rfl, rfl⟩
  · have h0 : (copyFromUser w buf up n).1 ≠ 0 := fun g => h (c1.mp g)
    unfold sysWrite
    rw [hn]
    dsimp only
    rw [if_neg h0]
    exact ⟨rfl, rfl⟩
  · rw [hw]; exact c4 a (by omega)

example : (sysWrite fileDev 3300000000 258048 demoW ([104, 105, 33], 1) 4096 2).s =
    ([104, 2, 3], 3) := by
  have h := (sys_write_partial fileDev 3300000000 258048 demoW ([104, 105, 33], 1) 4096 2
    (demoBuf _ _ (by decide) (by decide)) (by decide)).1
    ⟨by decide, by decide, fun i hi => ⟨by have : i < 2 := hi; simp only [BASE]; omega, rfl⟩⟩
  exact (h.1 2 ([104, 2, 3], 3) rfl).2

/-! ## readv -/

theorem s32_small {x : Nat} (h : x < 2147483648) : s32 x = x := by
  unfold s32
  rw [Nat.mod_eq_of_lt (by simp only [W]; omega), if_pos h]

theorem Holds.congr {m m' : Nat → Nat} {a n : Nat} {bs : List Nat} (h : Holds m a bs)
    (hn : bs.length ≤ n) (he : ∀ x, a ≤ x → x < a + n → m' x = m x) : Holds m' a bs :=
  fun i hi => by rw [he _ (by omega) (by omega)]; exact h i hi

/-- One round of the loop of readv. -/
theorem readv_round {σ : Type} (d : Dev σ) (hd : d.Ok) (buf sz : Nat) (w : World) (s s1 : σ) (ret : Int)
    (b len : Nat) (r : List (Nat × Nat)) (bs : List Nat) (hk : KBuf w buf sz)
    (hr : d.read s (min len sz) = (.ok bs, s1)) (hl : len < 2147483648)
    (hb : UserWritable w b len) : ∃ w1 : World, w1.rdp = w.rdp ∧ w1.wrp = w.wrp ∧ Holds w1.mem b bs ∧
      (∀ a, a < BASE → (a < b ∨ b + len ≤ a) → w1.mem a = w.mem a) ∧
      (∀ a, BASE ≤ a → (a < buf ∨ buf + sz ≤ a) → w1.mem a = w.mem a) ∧
      readvLoop d buf sz w s ret ((b, len) :: r) =
        if bs.length < len then ⟨ret + bs.length, w1, s1⟩
        else readvLoop d buf sz w1 s1 (ret + bs.length) r := by
  have hbl := hd.read_len _ _ _ _ hr
  have hBW : BASE < W := by decide
  obtain ⟨g1, g2, g3, g4, g5⟩ := give w buf sz b (min len sz) bs hk (by omega) (by omega)
    (by have := hb.2.1; omega)
  have h0 := g1.mpr ⟨hb.1, by have := hb.2.1; omega, fun i hi => hb.2.2 i (by omega)⟩
  have hp := pages_to (load w buf bs) b buf (min len sz)
  refine ⟨(copyToUser (load w buf bs) b buf (min len sz)).2, hp.1, hp.2,
    fun i hi => g3 h0 i hi (by omega), fun a ha hr => g4 a ha (by omega), g5, ?_⟩
  conv => lhs; unfold readvLoop
  rw [hr]
  dsimp only
  rw [if_neg (by rw [h0]; omega), s32_small hl]
  by_cases h : bs.length < len
  · rw [if_pos (by omega), if_pos h]
  · rw [if_neg (by omega), if_neg h]

/-- Is `a` outside all buffers? -/
def Outside (a : Nat) (iov : List (Nat × Nat)) : Prop := ∀ p ∈ iov, a < p.1 ∨ p.1 + p.2 ≤ a

theorem readvLoop_ok {σ : Type} (d : Dev σ) (hd : d.Ok) (buf sz : Nat) {s s' : σ}
    {iov : List (Nat × Nat)} {cs : List (List Nat)} (h : Reads d sz s iov cs s') :
    ∀ (w : World) (ret : Int), KBuf w buf sz → (∀ p ∈ iov, p.2 < 2147483648 ∧ UserWritable w p.1 p.2) →
    iov.Pairwise Apart →
    (readvLoop d buf sz w s ret iov).rc = ret + cs.flatten.length ∧
    (readvLoop d buf sz w s ret iov).s = s' ∧
    Filled (readvLoop d buf sz w s ret iov).w.mem iov cs ∧
    (∀ a, a < BASE → Outside a iov → (readvLoop d buf sz w s ret iov).w.mem a = w.mem a) ∧
    (∀ a, BASE ≤ a → (a < buf ∨ buf + sz ≤ a) →
      (readvLoop d buf sz w s ret iov).w.mem a = w.mem a) := by
  induction h with
  | nil s =>
    intro w ret _ _ _
    exact ⟨by simp [readvLoop], rfl, trivial, fun _ _ _ => rfl, fun _ _ _ => rfl⟩
  | @last s b len r bs s' hr hlt =>
    intro w ret hk hp ha
    obtain ⟨hl, hb⟩ := hp (b, len) (by simp)
    obtain ⟨w1, _, _, h1, h2, h3, e⟩ := readv_round d hd buf sz w s s' ret b len r bs hk hr hl hb
    rw [e, if_pos hlt]
    refine ⟨by simp, rfl, ?_, fun a hA ho => h2 a hA (ho (b, len) (by simp)), h3⟩
    exact ⟨h1, by cases r <;> trivial⟩
  | @more s b len r bs s1 cs s' hr heq _ ih =>
    intro w ret hk hp ha
    obtain ⟨hl, hb⟩ := hp (b, len) (by simp)
    obtain ⟨w1, hrp, hwp, h1, h2, h3, e⟩ := readv_round d hd buf sz w s s1 ret b len r bs hk hr hl hb
    rw [e, if_neg (by omega)]
    have hap := List.pairwise_cons.mp ha
    have hw1 : ∀ p ∈ r, p.2 < 2147483648 ∧ UserWritable w1 p.1 p.2 := by
      intro p hm
      obtain ⟨q1, q2, q3, q4⟩ := hp p (List.mem_cons_of_mem _ hm)
      refine ⟨q1, q2, q3, fun i hi => ?_⟩
      have := q4 i hi
      unfold World.wr at *; rw [hwp]; exact this
    obtain ⟨i1, i2, i3, i4, i5⟩ := ih w1 (ret + bs.length) (kpages hk hrp hwp) hw1 hap.2
    refine ⟨?_, i2, ⟨?_, i3⟩, fun a hA ho => ?_, fun a hA ho => ?_⟩
    · rw [i1]; simp; omega
    · refine h1.congr (n := len) (by omega) (fun x hx1 hx2 => i4 x (by have := hb.2.1; omega) ?_)
      intro p hm
      have := hap.1 p hm
      unfold Apart at this
      dsimp only at this
      omega
    · rw [i4 a hA (fun p hm => ho p (List.mem_cons_of_mem _ hm)), h2 a hA (ho (b, len) (by simp))]
    · rw [i5 a hA ho, h3 a hA ho]

/-- **C102 (partial).** `readv` into buffers the process may write, that do not overlap and are
shorter than 2 GB: as long as no read of the file fails, each buffer gets its part of the data, one
after the other; the result is the number of bytes; nothing outside the buffers changes.  Missing:
that the buffers are not touched behind the data (`readv_overwrites_violated`), failing reads
(`readv_loses_data_violated`), longer buffers (`iov_overflow_violated`). -/
theorem readv_partial {σ : Type} (d : Dev σ) (hd : d.Ok) (buf sz : Nat) (w : World) (s s' : σ)
    (iov : List (Nat × Nat)) (cs : List (List Nat)) (hk : KBuf w buf sz)
    (hp : ∀ p ∈ iov, p.2 < 2147483648 ∧ UserWritable w p.1 p.2) (ha : iov.Pairwise Apart)
    (h : Reads d sz s iov cs s') :
    (readvLoop d buf sz w s 0 iov).rc = cs.flatten.length ∧
    (readvLoop d buf sz w s 0 iov).s = s' ∧
    Filled (readvLoop d buf sz w s 0 iov).w.mem iov cs ∧
    (∀ a, a < BASE → Outside a iov → (readvLoop d buf sz w s 0 iov).w.mem a = w.mem a) ∧
    (∀ a, BASE ≤ a → (a < buf ∨ buf + sz ≤ a) →
      (readvLoop d buf sz w s 0 iov).w.mem a = w.mem a) := by
  have := readvLoop_ok d hd buf sz h w 0 hk hp ha
  rwa [Int.zero_add] at this

/-- Reading a regular file into buffers no larger than the kernel's: the data are the next bytes
of the file. -/
theorem file_reads (sz : Nat) (iov : List (Nat × Nat)) (hs : ∀ p ∈ iov, p.2 ≤ sz) :
    ∀ (c : List Nat) (pos : Nat), ∃ cs, Reads fileDev sz (c, pos) iov cs
      (c, pos + ((c.drop pos).take (iov.map (·.2)).sum).length) ∧
      cs.flatten = (c.drop pos).take (iov.map (·.2)).sum := by
  induction iov with
  | nil => intro c pos; exact ⟨[], by simpa using Reads.nil _, by simp⟩
  | cons p r ih =>
    intro c pos
    obtain ⟨b, len⟩ := p
    have hlen : min len sz = len := by have := hs (b, len) (by simp); dsimp only at this; omega
    by_cases h : ((c.drop pos).take len).length < len
    · refine ⟨[(c.drop pos).take len], ?_, ?_⟩
      · have hx : (c.drop pos).length < len := by rw [List.length_take] at h; omega
        have e1 : ((c.drop pos).take ((b, len) :: r |>.map (·.2)).sum) = (c.drop pos).take len := by
          rw [List.take_of_length_le (by simp; simp at hx; omega),
            List.take_of_length_le (by omega)]
        rw [e1]
        refine Reads.last ?_ h
        rw [hlen]; rfl
      · have hx : (c.drop pos).length < len := by rw [List.length_take] at h; omega
        simp only [List.flatten_cons, List.flatten_nil, List.append_nil]
        rw [List.take_of_length_le (by omega), List.take_of_length_le (by simp; simp at hx; omega)]
    · have hx : ((c.drop pos).take len).length = len := by
        have := List.length_take_le len (c.drop pos); omega
      obtain ⟨cs, h1, h2⟩ := ih (fun p hm => hs p (List.mem_cons_of_mem _ hm)) c (pos + len)
      have e : (c.drop pos).take ((b, len) :: r |>.map (·.2)).sum =
          (c.drop pos).take len ++ (c.drop (pos + len)).take (r.map (·.2)).sum := by
        rw [List.map_cons, List.sum_cons, List.take_add, List.drop_drop]
      refine ⟨(c.drop pos).take len :: cs, ?_, ?_⟩
      · refine Reads.more (s1 := (c, pos + len)) ?_ hx ?_
        · rw [hlen]
          show (_, (c, pos + ((c.drop pos).take len).length)) = _
          rw [hx]
        · rw [e, List.length_append, hx, ← Nat.add_assoc]; exact h1
      · rw [e, List.flatten_cons, h2]

/-- **C102 (partial).** `readv` on a regular file: the buffers, taken one after the other, get the
next bytes of the file, as many as there are and fit, and the position advances by that number. -/
theorem readv_file_partial (buf sz : Nat) (w : World) (c : List Nat) (pos : Nat)
    (iov : List (Nat × Nat)) (hk : KBuf w buf sz) (hsz : sz < 2147483648)
    (hp : ∀ p ∈ iov, p.2 ≤ sz ∧ UserWritable w p.1 p.2) (ha : iov.Pairwise Apart) :
    ∃ cs : List (List Nat), cs.flatten = (c.drop pos).take (iov.map (·.2)).sum ∧
      (readvLoop fileDev buf sz w (c, pos) 0 iov).rc = cs.flatten.length ∧
      (readvLoop fileDev buf sz w (c, pos) 0 iov).s = (c, pos + cs.flatten.length) ∧
      Filled (readvLoop fileDev buf sz w (c, pos) 0 iov).w.mem iov cs := by
  obtain ⟨cs, h1, h2⟩ := file_reads sz iov (fun p hm => (hp p hm).1) c pos
  obtain ⟨r1, r2, r3, _⟩ := readv_partial fileDev fileDev_ok buf sz w (c, pos) _ iov cs hk
    (fun p hm => ⟨by have := (hp p hm).1; omega, (hp p hm).2⟩) ha h1
  exact ⟨cs, h2, r1, by rw [r2, h2], r3⟩

theorem demoWr (a n : Nat) (h0 : a ≠ 0) (h : a + n ≤ BASE) : UserWritable demoW a n :=
  ⟨h0, h, fun _ _ => rfl⟩

example : (readvLoop fileDev 3300000000 258048 demoW ([1, 2, 3, 4, 5, 6], 1) 0
    [(8192, 2), (4096, 10)]).rc = 5 := by
  obtain ⟨cs, h1, h2, _⟩ := readv_file_partial 3300000000 258048 demoW [1, 2, 3, 4, 5, 6] 1
    [(8192, 2), (4096, 10)] (demoBuf _ _ (by decide) (by decide)) (by decide)
    (by
      intro p hp
      rcases List.mem_cons.mp hp with e | e
      · rw [e]; exact ⟨by decide, demoWr _ _ (by decide) (by decide)⟩
      · rcases List.mem_cons.mp e with e | e
        · rw [e]; exact ⟨by decide, demoWr _ _ (by decide) (by decide)⟩
        · cases e)
    (by simp [Apart])
  rw [h2, h1]; rfl

/-- **C102, violated.** `readv` changes bytes of the process's buffer behind the data it reports:
here the file has one byte left, the buffer two; the result is 1, but the second byte of the buffer
is overwritten with what an earlier call left in the kernel's buffer. -/
theorem readv_overwrites_violated : ∃ (w : World) (buf sz b : Nat), KBuf w buf sz ∧
    UserWritable w b 2 ∧ (readvLoop fileDev buf sz w ([65], 0) 0 [(b, 2)]).rc = 1 ∧
    (readvLoop fileDev buf sz w ([65], 0) 0 [(b, 2)]).w.mem (b + 1) = w.mem (buf + 1) ∧
    w.mem (buf + 1) ≠ w.mem (b + 1) := by
  refine ⟨demoW, 3300000000, 4096, 4096, demoBuf _ _ (by decide) (by decide),
    demoWr _ _ (by decide) (by decide), ?_⟩
  decide +kernel

/-- A handle with one byte ready that answers `EAGAIN` (11) when there is nothing: a pipe or a
terminal in non-blocking mode. -/
def pipeDev : Dev (List Nat) where
  read s n := if s = [] then (.error 11, []) else (.ok (s.take n), s.drop n)
  write s bs := if s.length = 1 then (.error 11, s) else (.ok bs.length, s ++ bs)

/-- **C102, violated.** `readv` loses data: the first buffer is filled, the second read finds
nothing and the call returns `-EAGAIN`; the byte read is gone, and reading again finds nothing. -/
theorem readv_loses_data_violated : ∃ (w : World) (buf sz : Nat), KBuf w buf sz ∧
    UserWritable w 4096 1 ∧ UserWritable w 8192 1 ∧
    (readvLoop pipeDev buf sz w [65] 0 [(4096, 1), (8192, 1)]).rc = -11 ∧
    (readvLoop pipeDev buf sz w [65] 0 [(4096, 1), (8192, 1)]).s = [] := by
  refine ⟨demoW, 3300000000, 4096, demoBuf _ _ (by decide) (by decide),
    demoWr _ _ (by decide) (by decide), demoWr _ _ (by decide) (by decide), ?_⟩
  decide +kernel

/-- **C102.** A buffer outside the process's memory: `readv` answers `-EFAULT`, whatever was read
before; nothing is written, but the data were taken from the file. -/
theorem readv_bad_buffer {σ : Type} (d : Dev σ) (buf sz : Nat) (w : World) (s s' : σ) (ret : Int)
    (base len : Nat) (r : List (Nat × Nat)) (bs : List Nat)
    (hbad : base = 0 ∨ BASE < base + min len sz ∧ base + min len sz < W)
    (hr : d.read s (min len sz) = (.ok bs, s')) :
    (readvLoop d buf sz w s ret ((base, len) :: r)).rc = -EFAULT ∧
    (readvLoop d buf sz w s ret ((base, len) :: r)).s = s' ∧
    (readvLoop d buf sz w s ret ((base, len) :: r)).w = load w buf bs := by
  have ho : outOfRange base (min len sz) = true := by
    unfold outOfRange
    rcases hbad with h | h
    · rw [h]; rfl
    · rw [Nat.mod_eq_of_lt h.2, decide_eq_true h.1, Bool.or_true]
  have hc : copyToUser (load w buf bs) base buf (min len sz) = (-EFAULT, load w buf bs) := by
    unfold copyToUser
    rw [if_pos ho]
  unfold readvLoop
  rw [hr]
  dsimp only
  rw [hc]
  rw [if_pos (show (-EFAULT : Int) < 0 by decide)]
  exact ⟨rfl, rfl, rfl⟩

/-- `readv` with a good buffer followed by a null one. -/
example : (readvLoop pipeDev 3300000000 4096 demoW [65, 66] 0 [(4096, 1), (0, 1)]).rc = -EFAULT := by
  decide +kernel

/-- **C102, violated.** `writev` reports `-EAGAIN` although the first buffer was written: a
program that tries again writes it twice. -/
theorem writev_error_violated : ∃ (w : World) (buf sz : Nat), KBuf w buf sz ∧
    UserReadable w 4096 1 ∧ UserReadable w 8192 1 ∧
    (writevLoop pipeDev buf sz w [] 0 [(4096, 1), (8192, 1)]).rc = -11 ∧
    (writevLoop pipeDev buf sz w [] 0 [(4096, 1), (8192, 1)]).s = [w.mem 4096] := by
  refine ⟨demoW, 3300000000, 4096, demoBuf _ _ (by decide) (by decide), ?_, ?_, ?_⟩
  · intro i hi; exact ⟨by simp only [BASE]; omega, rfl⟩
  · intro i hi; exact ⟨by simp only [BASE]; omega, rfl⟩
  · decide +kernel

/-! ## writev -/

theorem writevLoop_ok {σ : Type} (d : Dev σ) (buf sz : Nat) (m0 : Nat → Nat) (iov : List (Nat × Nat)) :
    ∀ {s s' : σ} {t : Nat}, Writes d s (iov.map fun p => bytesAt m0 p.1 p.2) t s' →
    ∀ (w : World) (ret : Int), KBuf w buf sz → (∀ a, a < BASE → w.mem a = m0 a) →
    (∀ p ∈ iov, p.2 ≤ sz ∧ p.2 < 2147483648 ∧ p.1 ≠ 0 ∧ p.1 + p.2 ≤ BASE ∧ UserReadable w p.1 p.2) →
    (writevLoop d buf sz w s ret iov).rc = ret + t ∧ (writevLoop d buf sz w s ret iov).s = s' ∧
    ∀ a, (a < buf ∨ buf + sz ≤ a) → (writevLoop d buf sz w s ret iov).w.mem a = w.mem a := by
  induction iov with
  | nil =>
    intro s s' t h w ret _ _ _
    cases h
    exact ⟨by simp [writevLoop], rfl, fun _ _ => rfl⟩
  | cons p r ih =>
    intro s s' t h w ret hk hm hp
    obtain ⟨b, len⟩ := p
    obtain ⟨h1, h2, h3, h4, h5⟩ := hp (b, len) (by simp)
    dsimp only at h1 h2 h3 h4 h5
    have hBW : BASE < W := by decide
    have hB := hk.1
    have hmin : min len sz = len := by omega
    obtain ⟨c1, c2, c3, c4, _⟩ := copy_from_user_partial w buf b len (kless hk h1) (by omega)
    have hpg := pages_from w buf b len
    have h0 := c1.mpr ⟨h3, h4, h5⟩
    have e : bytesAt (copyFromUser w buf b len).2.mem buf len = bytesAt m0 b len :=
      bytesAt_congr _ _ _ _ _ fun i hi => by rw [c3 h0 i hi, hm _ (by omega)]
    rw [List.map_cons] at h
    have hl : (bytesAt m0 b len).length = len := bytesAt_length _ _ _
    unfold writevLoop
    dsimp only
    rw [hmin, if_pos h0, e, s32_small h2]
    cases h with
    | @last _ _ _ n _ hw hlt =>
      have hlt' : t < len := by rw [← hl]; exact hlt
      rw [hw]
      dsimp only
      rw [if_pos (by omega)]
      exact ⟨rfl, rfl, fun a ha => c4 a (by omega)⟩
    | @more _ _ _ s1 k _ hw hrest =>
      rw [hw]
      dsimp only
      rw [if_neg (by omega)]
      generalize (copyFromUser w buf b len).2 = w1 at *
      have hm1 : ∀ a, a < BASE → w1.mem a = m0 a := fun a ha => by
        rw [c4 a (by omega)]; exact hm a ha
      have hp1 : ∀ p ∈ r, p.2 ≤ sz ∧ p.2 < 2147483648 ∧ p.1 ≠ 0 ∧ p.1 + p.2 ≤ BASE ∧
          UserReadable w1 p.1 p.2 := by
        intro p hmem
        obtain ⟨q1, q2, q3, q4, q5⟩ := hp p (List.mem_cons_of_mem _ hmem)
        refine ⟨q1, q2, q3, q4, fun i hi => ⟨(q5 i hi).1, ?_⟩⟩
        have := (q5 i hi).2
        unfold World.rd at *; rw [hpg.1]; exact this
      obtain ⟨i1, i2, i3⟩ := ih hrest w1 (ret + ((bytesAt m0 b len).length : Int))
        (kpages hk hpg.1 hpg.2) hm1 hp1
      exact ⟨by rw [i1]; push_cast; omega, i2, fun a ha => by rw [i3 a ha]; exact c4 a (by omega)⟩

/-- **C102 (partial).** `writev` from buffers the process may read, each at most as long as the
kernel's buffer: as long as no write to the file fails, the file is given the bytes of the buffers,
one after the other, until it does not take all of one; the result is the number of bytes taken.
Missing: failing writes (`writev_error_violated`). -/
theorem writev_partial {σ : Type} (d : Dev σ) (buf sz : Nat) (w : World) (s s' : σ)
    (iov : List (Nat × Nat)) (t : Nat) (hk : KBuf w buf sz)
    (hp : ∀ p ∈ iov, p.2 ≤ sz ∧ p.2 < 2147483648 ∧ p.1 ≠ 0 ∧ p.1 + p.2 ≤ BASE ∧ UserReadable w p.1 p.2)
    (h : Writes d s (iov.map fun p => bytesAt w.mem p.1 p.2) t s') :
    (writevLoop d buf sz w s 0 iov).rc = t ∧ (writevLoop d buf sz w s 0 iov).s = s' ∧
    ∀ a, (a < buf ∨ buf + sz ≤ a) → (writevLoop d buf sz w s 0 iov).w.mem a = w.mem a := by
  have := writevLoop_ok d buf sz w.mem iov h w 0 hk (fun _ _ => rfl) hp
  rwa [Int.zero_add] at this

example : Writes fileDev ([1, 2, 3], 0) [[7, 8], [9]] 3 ([7, 8, 9], 3) :=
  Writes.more (s1 := ([7, 8, 3], 2)) rfl (Writes.more (s1 := ([7, 8, 9], 3)) rfl (Writes.nil _))

/-! ## The array of buffers -/

theorem iovs_length (m : Nat → Nat) (n : Nat) : ∀ a, (iovs m a n).length = n := by
  induction n with
  | zero => intro a; rfl
  | succ n ih => intro a; simp [iovs, ih]

theorem iovs_congr (m m' : Nat → Nat) (n : Nat) : ∀ (a b : Nat), a + 8 * n ≤ W → b + 8 * n ≤ W →
    (∀ i, i < 8 * n → m (a + i) = m' (b + i)) → iovs m a n = iovs m' b n := by
  induction n with
  | zero => intro a b _ _ _; rfl
  | succ n ih =>
    intro a b ha hb h
    unfold iovs
    have e : ∀ k, k + 3 < 8 → rdWord m (a + k) = rdWord m' (b + k) := by
      intro k hk
      rw [rdWord_eq _ _ (by omega), rdWord_eq _ _ (by omega)]
      have := h k (by omega); have := h (k + 1) (by omega)
      have := h (k + 2) (by omega); have := h (k + 3) (by omega)
      simp only [Nat.add_assoc] at *
      simp [*]
    rw [show rdWord m a = rdWord m' b from e 0 (by omega), e 4 (by omega),
      ih (a + 8) (b + 8) (by omega) (by omega) (fun i hi => by
        have := h (8 + i) (by omega)
        rwa [show a + 8 + i = a + (8 + i) by omega, show b + 8 + i = b + (8 + i) by omega])]

theorem iovOverflow_eq (m : Nat → Nat) (iov : Nat) (n : Nat) : ∀ (i tot : Nat),
    iov + 8 * (i + n) ≤ W → tot < 2147483648 →
    (∀ p ∈ iovs m (iov + 8 * i) n, p.2 < 2147483648) →
    (iovOverflow m iov n i tot = true ↔
      2147483648 ≤ tot + ((iovs m (iov + 8 * i) n).map (·.2)).sum) := by
  induction n with
  | zero => intro i tot _ ht _; simp [iovOverflow, iovs]; omega
  | succ n ih =>
    intro i tot hw ht hp
    have hW : W = 4294967296 := rfl
    unfold iovOverflow iovs
    dsimp only
    unfold iovs at hp
    have h1 := hp _ (List.mem_cons_self ..)
    have h2 : ∀ p ∈ iovs m (iov + 8 * (i + 1)) n, p.2 < 2147483648 := fun p hm =>
      hp p (List.mem_cons_of_mem _ (by rwa [show iov + 8 * i + 8 = iov + 8 * (i + 1) by omega]))
    dsimp only at h1
    rw [Nat.mod_eq_of_lt (show iov + 8 * i + 4 < W by omega)]
    generalize rdWord m (iov + 8 * i + 4) = len at *
    rw [Nat.mod_eq_of_lt (show tot + len < W by omega), List.map_cons, List.sum_cons,
      show iov + 8 * i + 8 = iov + 8 * (i + 1) by omega]
    dsimp only
    by_cases hb : tot + len < 2147483648
    · rw [if_neg (by rw [s32_small hb]; omega), ih (i + 1) (tot + len) (by omega) hb h2]
      omega
    · rw [if_pos (by unfold s32; rw [Nat.mod_eq_of_lt (by omega), if_neg (by omega)]; omega)]
      constructor
      · intro _; omega
      · intro _; rfl

/-- **C103 (partial).** The array of buffers given to `readv` and `writev` is accepted exactly
when it has between 1 and 512 entries, belongs to the process, and the lengths do not add up to
2 GB or more; the kernel then works on a copy of exactly the entries the process gave, and nothing
but the buffer for that copy changes.  Missing: counts of 2^29 and more
(`vec_count_wraps_violated`) and single lengths of 2 GB and more (`iov_overflow_violated`). -/
theorem vec_check_partial (w : World) (abuf uiov n : Nat) (hk : KBuf w abuf ARGSBUF) (hn : 8 * n < W)
    (hu : uiov + 8 * n < W) (hl : ∀ p ∈ iovs w.mem uiov n, p.2 < 2147483648) :
    ((∃ w1, vecCheck w abuf uiov n = .ok w1) ↔ 0 < n ∧ n ≤ 512 ∧ uiov ≠ 0 ∧ uiov + 8 * n ≤ BASE ∧
      UserReadable w uiov (8 * n) ∧ ((iovs w.mem uiov n).map (·.2)).sum < 2147483648) ∧
    (∀ w1, vecCheck w abuf uiov n = .ok w1 → iovs w1.mem abuf n = iovs w.mem uiov n ∧
      w1.rdp = w.rdp ∧ w1.wrp = w.wrp ∧
      ∀ a, (a < abuf ∨ abuf + ARGSBUF ≤ a) → w1.mem a = w.mem a) := by
  have hA : ARGSBUF = 4096 := rfl
  have hW := hk.2.1
  unfold vecCheck
  by_cases h0 : n = 0
  · subst h0
    rw [if_pos (by omega)]
    exact ⟨⟨fun ⟨_, h⟩ => (by cases h), fun h => by omega⟩, fun _ h => by cases h⟩
  · rw [if_neg (by omega), Int.toNat_natCast, Nat.mod_eq_of_lt hn]
    by_cases h1 : 8 * n > ARGSBUF
    · rw [if_pos h1]
      exact ⟨⟨fun ⟨_, h⟩ => (by cases h), fun h => by omega⟩, fun _ h => by cases h⟩
    · rw [if_neg h1]
      dsimp only
      obtain ⟨c1, c2, c3, c4, _⟩ := copy_from_user_partial w abuf uiov (8 * n)
        (kless hk (by omega)) hu
      have hpg := pages_from w abuf uiov (8 * n)
      by_cases hc : (copyFromUser w abuf uiov (8 * n)).1 = 0
      · rw [if_neg (fun g => g hc)]
        have hr := c1.mp hc
        have e : iovs (copyFromUser w abuf uiov (8 * n)).2.mem abuf n = iovs w.mem uiov n :=
          iovs_congr _ _ n abuf uiov (by omega) (by omega) (c3 hc)
        have hov := iovOverflow_eq (copyFromUser w abuf uiov (8 * n)).2.mem abuf n 0 0 (by omega)
          (by omega) (by rw [Nat.mul_zero, Nat.add_zero, e]; exact hl)
        rw [Nat.mul_zero, Nat.add_zero, e, Nat.zero_add] at hov
        by_cases ho : iovOverflow (copyFromUser w abuf uiov (8 * n)).2.mem abuf n 0 0 = true
        · rw [if_pos ho]
          have := hov.mp ho
          exact ⟨⟨fun ⟨_, h⟩ => (by cases h), fun h => by omega⟩, fun _ h => by cases h⟩
        · rw [if_neg ho]
          have : ¬ _ := fun g => ho (hov.mpr g)
          refine ⟨⟨fun _ => ⟨by omega, by omega, hr.1, hr.2.1, hr.2.2, by omega⟩,
            fun _ => ⟨_, rfl⟩⟩, fun w1 h => ?_⟩
          cases h
          exact ⟨e, hpg.1, hpg.2, fun a ha => c4 a (by omega)⟩
      · rw [if_pos hc]
        exact ⟨⟨fun ⟨_, h⟩ => (by cases h), fun h => absurd (c1.mpr ⟨h.2.2.1, h.2.2.2.1, h.2.2.2.2.1⟩) hc⟩,
          fun _ h => by cases h⟩

/-- **C102 (partial).** `readv` as a whole, on a regular file, for an array of buffers in the
process's memory. -/
theorem sys_readv_file_partial (buf sz abuf : Nat) (w : World) (c : List Nat) (pos uiov n : Nat)
    (hk : KBuf w buf sz) (hka : KBuf w abuf ARGSBUF) (hab : abuf + ARGSBUF ≤ buf ∨ buf + sz ≤ abuf)
    (hsz : sz < 2147483648) (hn : 0 < n) (hn' : n ≤ 512) (hu : uiov ≠ 0) (hub : uiov + 8 * n ≤ BASE)
    (hur : UserReadable w uiov (8 * n))
    (hp : ∀ p ∈ iovs w.mem uiov n, p.2 ≤ sz ∧ UserWritable w p.1 p.2)
    (ha : (iovs w.mem uiov n).Pairwise Apart)
    (hs : ((iovs w.mem uiov n).map (·.2)).sum < 2147483648) :
    ∃ cs : List (List Nat),
      cs.flatten = (c.drop pos).take ((iovs w.mem uiov n).map (·.2)).sum ∧
      (sysReadv fileDev buf sz abuf w (c, pos) uiov n).rc = cs.flatten.length ∧
      (sysReadv fileDev buf sz abuf w (c, pos) uiov n).s = (c, pos + cs.flatten.length) ∧
      Filled (sysReadv fileDev buf sz abuf w (c, pos) uiov n).w.mem (iovs w.mem uiov n) cs := by
  have hBW : BASE + 4096 < W := by decide
  obtain ⟨v1, v2⟩ := vec_check_partial w abuf uiov n hka (by omega) (by omega)
    (fun p hm => by have := (hp p hm).1; omega)
  obtain ⟨w1, hw1⟩ := v1.mpr ⟨hn, hn', hu, hub, hur, hs⟩
  obtain ⟨e1, e2, e3, e4⟩ := v2 w1 hw1
  unfold sysReadv
  rw [hw1]
  dsimp only
  rw [Int.toNat_natCast, e1]
  refine readv_file_partial buf sz w1 c pos _ (kpages hk e2 e3) hsz (fun p hm => ?_) ha
  obtain ⟨q1, q2, q3, q4⟩ := hp p hm
  refine ⟨q1, q2, q3, fun i hi => ?_⟩
  have := q4 i hi
  unfold World.wr at *; rw [e3]; exact this

/-- **C103, violated.** Lengths that add up to 4 GB pass the check for 2 GB: two buffers of 1 and
4294967295 bytes. -/
theorem iov_overflow_violated : ∃ (m : Nat → Nat) (a : Nat), (iovs m a 2).map (·.2) = [1, 4294967295] ∧
    iovOverflow m a 2 0 0 = false := by
  refine ⟨fun x => if x = 4100 then 1 else if 4108 ≤ x ∧ x < 4112 then 255 else 0, 4096, ?_⟩
  decide +kernel

/-! ## Counts -/

theorem rdWord_zero (m : Nat → Nat) (a : Nat) (h : ∀ i, i < 4 → m ((a + i) % W) = 0) (ha : a < W) :
    rdWord m a = 0 := by
  unfold rdWord
  have := h 0 (by omega)
  rw [Nat.add_zero, Nat.mod_eq_of_lt ha] at this
  rw [this, h 1 (by omega), h 2 (by omega), h 3 (by omega)]

theorem iovOverflow_zeros (m : Nat → Nat) (iov : Nat) (hm : ∀ a, m a = 0) (n : Nat) : ∀ i,
    iovOverflow m iov n i 0 = false := by
  induction n with
  | zero => intro i; rfl
  | succ n ih =>
    intro i
    unfold iovOverflow
    dsimp only
    rw [rdWord_zero _ _ (fun k _ => hm _) (Nat.mod_lt _ (by decide)), show (0 + 0) % W = 0 from rfl,
      if_neg (by decide)]
    exact ih (i + 1)

theorem iovOverflow_at (m : Nat → Nat) (iov : Nat) (n : Nat) (k : Nat) : ∀ i,
    (∀ j, j < k → rdWord m ((iov + 8 * (i + j) + 4) % W) = 0) →
    iovOverflow m iov (k + n) i 0 = iovOverflow m iov n (i + k) 0 := by
  induction k with
  | zero => intro i _; rw [Nat.zero_add, Nat.add_zero]
  | succ k ih =>
    intro i h
    rw [show k + 1 + n = (k + n) + 1 by omega]
    conv => lhs; unfold iovOverflow
    dsimp only
    rw [show rdWord m ((iov + 8 * i + 4) % W) = 0 from h 0 (by omega), show (0 + 0) % W = 0 from rfl,
      if_neg (by decide), ih (i + 1) (fun j hj => by
        have := h (j + 1) (by omega)
        rwa [show i + (j + 1) = i + 1 + j by omega] at this),
      show i + 1 + k = i + (k + 1) by omega]

/-- Kernel memory with one byte set behind the buffer for arguments; everything else is 0. -/
def byteW (x v : Nat) : World := ⟨fun a => if a = x then v else 0, fun _ => true, fun _ => true⟩

theorem byteW_copy (x v abuf uiov : Nat) (hx : abuf + 4096 ≤ x) (hb : BASE ≤ abuf)
    (hw : abuf + 4096 < W) (hu : uiov ≠ 0) (hu' : uiov + 8 ≤ BASE) :
    (copyFromUser (byteW x v) abuf uiov 8).1 = 0 ∧
    (copyFromUser (byteW x v) abuf uiov 8).2.mem = (byteW x v).mem := by
  have hBW : BASE < W := by decide
  obtain ⟨c1, _, c3, c4, _⟩ := copy_from_user_partial (byteW x v) abuf uiov 8
    ⟨hb, by omega, fun _ _ => ⟨rfl, rfl⟩⟩ (by omega)
  have h0 := c1.mpr ⟨hu, hu', fun i hi => ⟨by omega, rfl⟩⟩
  refine ⟨h0, ?_⟩
  funext a
  by_cases h : a < abuf ∨ abuf + 8 ≤ a
  · exact c4 a h
  · obtain ⟨i, rfl⟩ : ∃ i, a = abuf + i := ⟨a - abuf, by omega⟩
    rw [c3 h0 i (by omega)]
    show (if uiov + i = x then v else 0) = (if abuf + i = x then v else 0)
    rw [if_neg (by omega), if_neg (by omega)]

theorem vec_wrap (N abuf uiov : Nat) (hN : 8 * N % W = 8) (h5 : 513 ≤ N) (hb : BASE ≤ abuf)
    (hw : abuf + 8192 < W) (hu : uiov ≠ 0) (hu' : uiov + 8 ≤ BASE) :
    (∃ w1, vecCheck (byteW (abuf + 4103) 0) abuf uiov N = .ok w1) ∧
    vecCheck (byteW (abuf + 4103) 128) abuf uiov N = .error (-EINVAL) := by
  have key : ∀ v, vecCheck (byteW (abuf + 4103) v) abuf uiov N =
      if iovOverflow (byteW (abuf + 4103) v).mem abuf N 0 0 then .error (-EINVAL)
      else .ok (copyFromUser (byteW (abuf + 4103) v) abuf uiov 8).2 := by
    intro v
    obtain ⟨c, e⟩ := byteW_copy (abuf + 4103) v abuf uiov (by omega) hb (by omega) hu hu'
    unfold vecCheck
    rw [if_neg (by omega), Int.toNat_natCast, hN, if_neg (by decide)]
    dsimp only
    rw [if_neg (fun g => g c), e]
  refine ⟨?_, ?_⟩
  · rw [key 0, iovOverflow_zeros _ _ (fun a => by show (if _ then 0 else 0) = 0; split <;> rfl)]
    exact ⟨_, rfl⟩
  · rw [key 128]
    obtain ⟨K, rfl⟩ : ∃ K, N = 512 + (K + 1) := ⟨N - 513, by omega⟩
    have hv : ∀ x v, (byteW x v).mem x = v := fun x v => if_pos rfl
    have hz : ∀ a, a ≠ abuf + 4103 → (byteW (abuf + 4103) 128).mem a = 0 := fun a h => if_neg h
    rw [iovOverflow_at _ _ _ 512 0 (fun j hj => ?_)]
    · have hr : rdWord (byteW (abuf + 4103) 128).mem ((abuf + 8 * (0 + 512) + 4) % W) = 2147483648 := by
        rw [Nat.mod_eq_of_lt (by omega), rdWord_eq _ _ (by omega), hz _ (by omega), hz _ (by omega),
          hz _ (by omega), show abuf + 8 * (0 + 512) + 4 + 3 = abuf + 4103 by omega,
          hv]
      have ht : iovOverflow (byteW (abuf + 4103) 128).mem abuf (K + 1) (0 + 512) 0 = true := by
        unfold iovOverflow
        dsimp only
        rw [hr]
        exact if_pos (by decide)
      rw [ht]
      rfl
    · rw [Nat.mod_eq_of_lt (by omega)]
      exact rdWord_zero _ _ (fun i hi => by
        rw [Nat.mod_eq_of_lt (by omega)]; exact hz _ (by omega)) (by omega)

/-- **C103, violated.** `readv` and `writev` with 2^29 + 1 buffers: the size of the array wraps
around to 8 bytes, the call is not refused, and its answer depends on the kernel's memory behind
the buffer for the arguments.  The two worlds differ in one byte of the kernel, outside the
buffer. -/
theorem vec_count_wraps_violated : ∃ (w w' : World) (abuf uiov : Nat), KBuf w abuf ARGSBUF ∧
    KBuf w' abuf ARGSBUF ∧ (∀ a, (a < BASE ∨ abuf ≤ a ∧ a < abuf + ARGSBUF) → w.mem a = w'.mem a) ∧
    (∃ w1, vecCheck w abuf uiov (536870913 : Nat) = .ok w1) ∧
    vecCheck w' abuf uiov (536870913 : Nat) = .error (-EINVAL) := by
  obtain ⟨h1, h2⟩ := vec_wrap 536870913 3300000000 4096 (by decide) (by decide) (by decide)
    (by decide) (by decide) (by decide)
  refine ⟨_, _, 3300000000, 4096, ⟨by decide, by decide, fun _ _ => ⟨rfl, rfl⟩⟩,
    ⟨by decide, by decide, fun _ _ => ⟨rfl, rfl⟩⟩, fun a ha => ?_, h1, h2⟩
  have hA : ARGSBUF = 4096 := rfl
  have hB : BASE = 3221225472 := rfl
  show (if a = 3300004103 then 0 else 0) = (if a = 3300004103 then 128 else 0)
  rw [if_neg (by omega), if_neg (by omega)]

theorem clear_frame (abuf : Nat) (n : Nat) : ∀ (m : Nat → Nat) (i a : Nat),
    abuf + 8 * (i + n) ≤ W → (a < abuf + 8 * i ∨ abuf + 8 * (i + n) ≤ a) →
    clearRevents m abuf i n a = m a := by
  induction n with
  | zero => intro m i a _ _; rfl
  | succ n ih =>
    intro m i a hw ha
    unfold clearRevents
    rw [ih _ (i + 1) a (by omega) (by omega), Nat.mod_eq_of_lt (by omega),
      Nat.mod_eq_of_lt (by omega), upd_other _ _ _ _ (by omega), upd_other _ _ _ _ (by omega)]

theorem clear_entry (abuf : Nat) (n : Nat) : ∀ (m : Nat → Nat) (i j k : Nat),
    abuf + 8 * (i + n) ≤ W → j < n → k < 8 →
    clearRevents m abuf i n (abuf + 8 * (i + j) + k) =
      if k < 6 then m (abuf + 8 * (i + j) + k) else 0 := by
  induction n with
  | zero => intro m i j k _ h; omega
  | succ n ih =>
    intro m i j k hw hj hk
    unfold clearRevents
    rw [Nat.mod_eq_of_lt (show abuf + 8 * i + 6 < W by omega),
      Nat.mod_eq_of_lt (show abuf + 8 * i + 7 < W by omega)]
    cases j with
    | zero =>
      rw [clear_frame _ _ _ _ _ (by omega) (by omega)]
      unfold upd
      by_cases h6 : k < 6
      · rw [if_neg (by omega), if_neg (by omega), if_pos h6]
      · rw [if_neg h6]
        by_cases h7 : k = 7
        · rw [if_pos (by omega)]
        · rw [if_neg (by omega), if_pos (by omega)]
    | succ j =>
      have := ih (upd (upd m (abuf + 8 * i + 6) 0) (abuf + 8 * i + 7) 0) (i + 1) j k (by omega)
        (by omega) hk
      rw [show i + (j + 1) = i + 1 + j by omega, this, upd_other _ _ _ _ (by omega),
        upd_other _ _ _ _ (by omega)]

theorem clear_keeps (abuf : Nat) (n : Nat) : ∀ (m : Nat → Nat) (i a : Nat), m a = 0 →
    clearRevents m abuf i n a = 0 := by
  induction n with
  | zero => intro m i a h; exact h
  | succ n ih =>
    intro m i a h
    unfold clearRevents
    apply ih
    unfold upd
    split
    · rfl
    · split
      · rfl
      · exact h

theorem clear_zero (abuf : Nat) (n : Nat) : ∀ (m : Nat → Nat) (i j : Nat), j < n →
    clearRevents m abuf i n ((abuf + 8 * (i + j) + 6) % W) = 0 := by
  induction n with
  | zero => intro m i j h; omega
  | succ n ih =>
    intro m i j hj
    unfold clearRevents
    cases j with
    | zero =>
      apply clear_keeps
      unfold upd
      rw [Nat.add_zero]
      split
      · rfl
      · exact if_pos rfl
    | succ j =>
      rw [show i + (j + 1) = i + 1 + j by omega]
      exact ih _ (i + 1) j (by omega)

/-- **C103 (partial).** `poll` accepts exactly the arrays of at most 512 entries that belong to
the process; it works on a copy of the entries with cleared results, and no other memory changes.
Missing: counts of 2^29 and more (`poll_count_wraps_violated`). -/
theorem poll_prep_partial (w : World) (abuf ufds n : Nat) (hk : KBuf w abuf ARGSBUF) (hn : 8 * n < W)
    (hu : ufds + 8 * n < W) :
    ((∃ w1, pollPrep w abuf ufds n = .ok w1) ↔
      n ≤ 512 ∧ ufds ≠ 0 ∧ ufds + 8 * n ≤ BASE ∧ UserReadable w ufds (8 * n)) ∧
    (∀ w1, pollPrep w abuf ufds n = .ok w1 →
      (∀ j k, j < n → k < 8 → w1.mem (abuf + 8 * j + k) =
        if k < 6 then w.mem (ufds + 8 * j + k) else 0) ∧
      ∀ a, (a < abuf ∨ abuf + ARGSBUF ≤ a) → w1.mem a = w.mem a) := by
  have hA : ARGSBUF = 4096 := rfl
  have hW := hk.2.1
  unfold pollPrep
  rw [Nat.mod_eq_of_lt hn]
  by_cases h1 : 8 * n > ARGSBUF
  · rw [if_pos h1]
    exact ⟨⟨fun ⟨_, h⟩ => (by cases h), fun h => by omega⟩, fun _ h => by cases h⟩
  · rw [if_neg h1]
    dsimp only
    obtain ⟨c1, c2, c3, c4, _⟩ := copy_from_user_partial w abuf ufds (8 * n)
      (kless hk (by omega)) hu
    by_cases hc : (copyFromUser w abuf ufds (8 * n)).1 = 0
    · rw [if_neg (fun g => g hc)]
      have hr := c1.mp hc
      refine ⟨⟨fun _ => ⟨by omega, hr⟩, fun _ => ⟨_, rfl⟩⟩, fun w1 h => ?_⟩
      cases h
      refine ⟨fun j k hj hk8 => ?_, fun a ha => ?_⟩
      · have := clear_entry abuf n (copyFromUser w abuf ufds (8 * n)).2.mem 0 j k (by omega) hj hk8
        rw [Nat.zero_add] at this
        show clearRevents _ _ _ _ _ = _
        rw [this]
        split
        · have := c3 hc (8 * j + k) (by omega)
          rwa [← Nat.add_assoc, ← Nat.add_assoc] at this
        · rfl
      · show clearRevents _ _ _ _ _ = _
        rw [clear_frame _ _ _ _ _ (by omega) (by omega)]
        exact c4 a (by omega)
    · rw [if_pos hc]
      exact ⟨⟨fun ⟨_, h⟩ => (by cases h), fun h => absurd (c1.mpr h.2) hc⟩, fun _ h => by cases h⟩

theorem poll_wrap (N abuf ufds : Nat) (hN : 8 * N % W = 8) (h5 : 513 ≤ N) (hb : BASE ≤ abuf)
    (hw : abuf + 8192 < W) (hu : ufds ≠ 0) (hu' : ufds + 8 ≤ BASE) :
    ∃ w1, pollPrep (byteW (abuf + 4102) 7) abuf ufds N = .ok w1 ∧ w1.mem (abuf + 4102) = 0 := by
  obtain ⟨c, e⟩ := byteW_copy (abuf + 4102) 7 abuf ufds (by omega) hb (by omega) hu hu'
  unfold pollPrep
  rw [hN, if_neg (by decide)]
  dsimp only
  rw [if_neg (fun g => g c)]
  refine ⟨_, rfl, ?_⟩
  have := clear_zero abuf N (copyFromUser (byteW (abuf + 4102) 7) abuf ufds 8).2.mem 0 512 (by omega)
  rwa [Nat.mod_eq_of_lt (by omega), show abuf + 8 * (0 + 512) + 6 = abuf + 4102 by omega] at this

/-- **C103, violated.** `poll` with 2^29 + 1 entries: the size wraps around to 8 bytes, the call is
not refused, and the kernel then clears two of every eight bytes of its memory behind the buffer
for the arguments. -/
theorem poll_count_wraps_violated : ∃ (w w1 : World) (abuf ufds : Nat), KBuf w abuf ARGSBUF ∧
    pollPrep w abuf ufds 536870913 = .ok w1 ∧
    ∃ a, abuf + ARGSBUF ≤ a ∧ a < W ∧ w1.mem a ≠ w.mem a := by
  obtain ⟨w1, h1, h2⟩ := poll_wrap 536870913 3300000000 4096 (by decide) (by decide) (by decide)
    (by decide) (by decide) (by decide)
  refine ⟨_, w1, 3300000000, 4096, ⟨by decide, by decide, fun _ _ => ⟨rfl, rfl⟩⟩, h1,
    3300000000 + 4102, by decide, by decide, ?_⟩
  rw [h2]
  decide

/-! ## Signal sets -/

/-- **C103 (partial).** `sigprocmask` and `sigpending` give the caller the 8 bytes of the set,
followed by zeros up to the size asked for; the call succeeds exactly when the process may write
that many bytes, and changes nothing else.  For sizes up to 4104 (missing: larger ones,
`sig_leak_violated`), and for what the process sees afterwards (`sig_window_violated`). -/
theorem sig_copy_partial (w : World) (set zero up size : Nat) (hs : size ≤ 4104)
    (hk : KBuf w set size) (hz : KBuf w zero 4096) (h0 : ∀ i, i < 4096 → w.mem (zero + i) = 0)
    (hu : up + size < W) :
    ((sigCopy w set zero up size).1 = 0 ↔ UserWritable w up size) ∧
    ((sigCopy w set zero up size).1 = 0 ∨ (sigCopy w set zero up size).1 = -EFAULT) ∧
    ((sigCopy w set zero up size).1 = 0 → ∀ i, i < size →
      (sigCopy w set zero up size).2.mem (up + i) = if i < 8 then w.mem (set + i) else 0) ∧
    (∀ a, (a < up ∨ up + size ≤ a) → (sigCopy w set zero up size).2.mem a = w.mem a) ∧
    (∀ a, BASE ≤ a → (sigCopy w set zero up size).2.mem a = w.mem a) := by
  obtain ⟨c1, c2, c3, c4, c5⟩ := copy_to_user_partial w up set size hk hu
  have hpg := pages_to w up set size
  unfold sigCopy sigCopy1
  dsimp only
  by_cases hc : (copyToUser w up set size).1 = 0
  · rw [if_neg (fun g => g hc)]
    have hwr := c1.mp hc
    by_cases h8 : size > 8
    · rw [if_pos h8, Nat.mod_eq_of_lt (by omega)]
      generalize (copyToUser w up set size).2 = w1 at *
      obtain ⟨d1, d2, d3, d4, d5⟩ := copy_to_user_partial w1 (up + 8) zero (size - 8)
        (kless (kpages hz hpg.1 hpg.2) (by omega)) (by omega)
      have hd0 : (copyToUser w1 (up + 8) zero (size - 8)).1 = 0 := by
        refine d1.mpr ⟨by omega, by omega, fun i hi => ?_⟩
        have := hwr.2.2 (8 + i) (by omega)
        unfold World.wr at *
        rw [hpg.2, show up + 8 + i = up + (8 + i) by omega]; exact this
      refine ⟨⟨fun _ => hwr, fun _ => hd0⟩, .inl hd0, fun _ i hi => ?_, fun a ha => ?_, fun a ha => ?_⟩
      · by_cases hi8 : i < 8
        · rw [if_pos hi8, d4 _ (by omega), c3 hc i hi]
        · rw [if_neg hi8]
          have := d3 hd0 (i - 8) (by omega)
          rw [show up + 8 + (i - 8) = up + i by omega] at this
          rw [this, c5 _ (by have := hz.1; omega)]
          exact h0 _ (by omega)
      · rw [d4 a (by omega), c4 a ha]
      · rw [d5 a ha, c5 a ha]
    · rw [if_neg h8]
      exact ⟨c1, c2, fun h i hi => by rw [if_pos (by omega)]; exact c3 h i hi, c4, c5⟩
  · rw [if_pos hc]
    exact ⟨c1, c2, fun h => absurd h hc, c4, c5⟩

example : (sigCopy (byteW 3300000000 5) 3300000000 3400000000 4096 16).1 = 0 :=
  ((sig_copy_partial (byteW 3300000000 5) 3300000000 3400000000 4096 16 (by decide)
    ⟨by decide, by decide, fun _ _ => ⟨rfl, rfl⟩⟩ ⟨by decide, by decide, fun _ _ => ⟨rfl, rfl⟩⟩
    (fun i hi => if_neg (by omega)) (by decide)).1).mpr ⟨by decide, by decide, fun _ _ => rfl⟩

theorem sig_leak (w : World) (set zero up : Nat) (hk : KBuf w set 4105) (hz : KBuf w zero 4097)
    (hu : UserWritable w up 4105) :
    (sigCopy w set zero up 4105).1 = 0 ∧
    (sigCopy w set zero up 4105).2.mem (up + 4104) = w.mem (zero + 4096) := by
  have hBW : BASE < W := by decide
  have hub := hu.2.1
  have hpg := pages_to w up set 4105
  obtain ⟨c1, _, _, _, c5⟩ := copy_to_user_partial w up set 4105 hk (by omega)
  unfold sigCopy sigCopy1
  dsimp only
  rw [if_neg (fun g => g (c1.mpr hu)), if_pos (by omega), Nat.mod_eq_of_lt (by omega)]
  generalize (copyToUser w up set 4105).2 = w1 at *
  obtain ⟨d1, _, d3, _⟩ := copy_to_user_partial w1 (up + 8) zero (4105 - 8)
    (kpages hz hpg.1 hpg.2) (by omega)
  have hd0 : (copyToUser w1 (up + 8) zero (4105 - 8)).1 = 0 := by
    refine d1.mpr ⟨by omega, by omega, fun i hi => ?_⟩
    have := hu.2.2 (8 + i) (by omega)
    unfold World.wr at *
    rw [hpg.2, show up + 8 + i = up + (8 + i) by omega]; exact this
  refine ⟨hd0, ?_⟩
  have := d3 hd0 4096 (by omega)
  rw [show up + 8 + 4096 = up + 4104 by omega] at this
  rw [this, c5 _ (by have := hz.1; omega)]

/-- **C103, violated.** `sigpending` and `sigprocmask` with a size over 4104 give the process the
kernel's memory behind the page of zeros. -/
theorem sig_leak_violated : ∃ (w : World) (set zero up : Nat), KBuf w set 4105 ∧ KBuf w zero 4097 ∧
    (∀ i, i < 4096 → w.mem (zero + i) = 0) ∧ UserWritable w up 4105 ∧
    (sigCopy w set zero up 4105).1 = 0 ∧
    (sigCopy w set zero up 4105).2.mem (up + 4104) = w.mem (zero + 4096) ∧
    w.mem (zero + 4096) ≠ 0 := by
  have k1 : KBuf (byteW 3400004096 7) 3300000000 4105 := ⟨by decide, by decide, fun _ _ => ⟨rfl, rfl⟩⟩
  have k2 : KBuf (byteW 3400004096 7) 3400000000 4097 := ⟨by decide, by decide, fun _ _ => ⟨rfl, rfl⟩⟩
  have k3 : UserWritable (byteW 3400004096 7) 4096 4105 := ⟨by decide, by decide, fun _ _ => rfl⟩
  obtain ⟨h1, h2⟩ := sig_leak _ _ _ _ k1 k2 k3
  exact ⟨_, _, _, _, k1, k2, fun i hi => if_neg (by omega), k3, h1, h2, by decide⟩

/-- **C103, violated.** With a size over 8, the kernel's memory behind the set is in the process's
buffer until the second copy replaces it: another thread of the process, or a handler that runs
meanwhile, can read it. -/
theorem sig_window_violated : ∃ (w : World) (set up : Nat), KBuf w set 16 ∧ UserWritable w up 16 ∧
    (sigCopy1 w set up 16).2.mem (up + 8) = w.mem (set + 8) ∧ w.mem (set + 8) ≠ 0 := by
  have k1 : KBuf (byteW 3300000008 7) 3300000000 16 := ⟨by decide, by decide, fun _ _ => ⟨rfl, rfl⟩⟩
  have k3 : UserWritable (byteW 3300000008 7) 4096 16 := ⟨by decide, by decide, fun _ _ => rfl⟩
  obtain ⟨c1, _, c3, _⟩ := copy_to_user_partial (byteW 3300000008 7) 4096 3300000000 16 k1 (by decide)
  exact ⟨_, _, _, k1, k3, c3 (c1.mpr k3) 8 (by decide), by decide⟩

end Verif.SysIo
