/-!
# Copies between user and kernel memory, strings and argument vectors

Models `user_out_of_range` (include/tilck/kernel/user.h:7-10), `arch_user_copy`
(kernel/arch/i386/user_copy.S), and kernel/user.c: `copy_from_user`, `copy_to_user`,
`internal_copy_user_str`, `copy_str_from_user`, `internal_copy_str_array_from_user`,
`duplicate_user_path`, `duplicate_user_argv`, `push_on_stack`, `push_string_on_user_stack` and
`push_args_on_user_stack`, plus `execve_get_args` (kernel/execve.c:59-98), for the 32-bit build
(`ulong`, `size_t` and pointers have 32 bits).

The address space is one function from addresses to bytes: addresses below `BASE` are the
process's, the others are the kernel's, exactly as the page directory of the process shows them.
-/

namespace Verif.UserMem

/-! ## Memory -/

/-- Number of addresses: pointers have 32 bits. -/
def W : Nat := 4294967296

/-- `BASE_VA`, the first address of the kernel (config/config_global.h:31). -/
def BASE : Nat := 3221225472

/-- `PAGE_SIZE`. -/
def PAGE : Nat := 4096

/-- What the machine sees of memory: the bytes, and which pages can be read and written without
a fault that ends the copy (a copy-on-write page counts as writable when a frame is free). -/
structure World where
  mem : Nat → Nat
  rdp : Nat → Bool
  wrp : Nat → Bool

/-- Can the byte at `a` be read? -/
def World.rd (w : World) (a : Nat) : Bool := w.rdp (a / PAGE)

/-- Can the byte at `a` be written? -/
def World.wr (w : World) (a : Nat) : Bool := w.wrp (a / PAGE)

/-- Memory with byte `v` at `a`. -/
def upd (m : Nat → Nat) (a v : Nat) : Nat → Nat := fun b => if b = a then v else m b

/-- Store one byte. -/
def World.set (w : World) (a v : Nat) : World := { w with mem := upd w.mem a v }

/-- A 32-bit little-endian word in memory (`READ_PTR`, include/tilck/common/unaligned.h). -/
def rdWord (m : Nat → Nat) (a : Nat) : Nat :=
  m a + 256 * m ((a + 1) % W) + 65536 * m ((a + 2) % W) + 16777216 * m ((a + 3) % W)

/-- Storing a 32-bit little-endian word (`WRITE_PTR`). -/
def wrWord (m : Nat → Nat) (a v : Nat) : Nat → Nat :=
  upd (upd (upd (upd m a (v % 256)) ((a + 1) % W) (v / 256 % 256))
    ((a + 2) % W) (v / 65536 % 256)) ((a + 3) % W) (v / 16777216 % 256)

def World.setWord (w : World) (a v : Nat) : World := { w with mem := wrWord w.mem a v }

/-! ## The range check and the copies -/

/-- `user_out_of_range` (include/tilck/kernel/user.h:7-10): the sum is a 32-bit sum. -/
def outOfRange (ptr n : Nat) : Bool := ptr == 0 || decide ((ptr + n) % W > BASE)

/-- `arch_user_copy` (kernel/arch/i386/user_copy.S:28-58).  Byte by byte: the code moves four
bytes at a time and then the rest, so on a fault the model may have copied up to three bytes more
than the code; pages are larger than that, and both are inside the range.  `false` is the
result 1 (a fault was caught). -/
def archCopy (w : World) (d s : Nat) : Nat → Bool × World
  | 0 => (true, w)
  | n + 1 =>
    if w.rd s && w.wr d then archCopy (w.set d (w.mem s)) ((d + 1) % W) ((s + 1) % W) n
    else (false, w)

def EFAULT : Int := 14
def EINVAL : Int := 22
def E2BIG : Int := 7
def ENAMETOOLONG : Int := 36

/-- `copy_from_user` (kernel/user.c:20-35). -/
def copyFromUser (w : World) (dest up n : Nat) : Int × World :=
  if outOfRange up n then (-EFAULT, w)
  else
    let r := archCopy w dest up n
    (if r.1 then 0 else -EFAULT, r.2)

/-- `copy_to_user` (kernel/user.c:37-61).  Out of memory while giving the process its own copy of
a page (-ENOMEM) is not told apart from a bad pointer. -/
def copyToUser (w : World) (up src n : Nat) : Int × World :=
  if outOfRange up n then (-EFAULT, w)
  else
    let r := archCopy w up src n
    (if r.1 then 0 else -EFAULT, r.2)

/-! ## Strings -/

/-- Result of the string copies: 0, 1 (no room) or -1 (fault), `*written_ptr`, and memory. -/
structure SRes where
  rc : Int
  written : Nat
  w : World

/-- How many of the `n` bytes at `a` come before the first NUL
(the scan at kernel/user.c:167). -/
def scanNul (m : Nat → Nat) (a : Nat) : Nat → Nat
  | 0 => 0
  | n + 1 => if m a = 0 then 0 else scanNul m (a + 1) n + 1

/-- `USER_STR_COPY_CHUNK` (kernel/user.c:110). -/
def CHUNK : Nat := 64

/-- The chunk size (kernel/user.c:144-161). -/
def chunkOf (d p dend : Nat) : Nat :=
  min (min (dend - d) (min (PAGE - p % PAGE) (BASE - p))) CHUNK

/-- The loop of `internal_copy_user_str` (kernel/user.c:135-178).  `fuel` bounds the rounds: each
copies at least one byte, so `dest_end - dest` rounds are enough (`copy_str_correct` would be
false otherwise). -/
def copyStrLoop (w : World) (d0 d p dend : Nat) : Nat → SRes
  | 0 => ⟨1, 0, w⟩
  | fuel + 1 =>
    if d < dend then
      if BASE ≤ p then ⟨-1, 0, w⟩
      else
        let c := chunkOf d p dend
        let r := archCopy w d p c
        if r.1 then
          let i := scanNul r.2.mem d c
          if i < c then ⟨0, d - d0 + i + 1, r.2⟩
          else copyStrLoop r.2 d0 (d + c) (p + c) dend fuel
        else ⟨-1, 0, r.2⟩
    else ⟨1, 0, w⟩

/-- `internal_copy_user_str` (kernel/user.c:122-179). -/
def internalCopyStr (w : World) (dest up dend : Nat) : SRes :=
  copyStrLoop w dest dest up dend (dend - dest)

/-- `copy_str_from_user` (kernel/user.c:188-207).  The buffer lies below the top of the address
space, so `dest + max_size` does not wrap. -/
def copyStr (w : World) (dest up max : Nat) : SRes := internalCopyStr w dest up (dest + max)

/-- Result of the system-call level functions: error or 0, the updated `written`, and memory. -/
structure DRes where
  rc : Int
  written : Nat
  w : World

/-- `duplicate_user_path` (kernel/user.c:309-336). -/
def duplicatePath (w : World) (dest up size written : Nat) : DRes :=
  if up = 0 then ⟨-EINVAL, written, w⟩
  else if written ≥ size then ⟨-ENAMETOOLONG, written, w⟩
  else
    let r := copyStr w (dest + written) up (size - written)
    if r.rc < 0 then ⟨-EFAULT, written, r.w⟩
    else if r.rc > 0 then ⟨-ENAMETOOLONG, written, r.w⟩
    else ⟨0, written + r.written, r.w⟩

/-! ## Argument vectors -/

/-- Reading the pointer at `a` (`arch_user_copy(&uptr, a, sizeof(uptr))`): `none` on a fault. -/
def readPtr (w : World) (a : Nat) : Option Nat :=
  if w.rd a && w.rd ((a + 1) % W) && w.rd ((a + 2) % W) && w.rd ((a + 3) % W) then
    some (rdWord w.mem a)
  else none

/-- Address of element `i` of an array of pointers. -/
def elem (arr i : Nat) : Nat := (arr + 4 * i) % W

/-- The loop that counts the pointers (kernel/user.c:224-246): `none` is -1.  At most `2^30`
pointers fit below `BASE`, which is what `fuel` is. -/
def countArgs (w : World) (uarr argc : Nat) : Nat → Option Nat
  | 0 => none
  | fuel + 1 =>
    if outOfRange (elem uarr argc) 4 then none
    else
      match readPtr w (elem uarr argc) with
      | none => none
      | some 0 => some argc
      | some (_ + 1) => countArgs w uarr (argc + 1) fuel

def ARGFUEL : Nat := 1073741825

/-- The loop that copies the strings (kernel/user.c:259-282).  `adv i` is what other tasks do to
memory between the two readings of the array: it may change everything the process can write.
`todo` pointers are left, `after` is `after_ptrs_arr`. -/
def arrLoop (adv : Nat → World → World) (dest uarr dend : Nat) :
    World → Nat → Nat → Nat → Nat → SRes
  | w, 0, _, _, written => ⟨0, written, w⟩
  | w, todo + 1, i, after, written =>
    let w1 := adv i (w.setWord (elem dest i) after)
    match readPtr w1 (elem uarr i) with
    | none => ⟨-1, written, w1⟩
    | some p =>
      let r := internalCopyStr w1 after p dend
      if r.rc = 0 then
        arrLoop adv dest uarr dend r.w todo (i + 1) (after + r.written) (written + r.written)
      else ⟨r.rc, written, r.w⟩

/-- `internal_copy_str_array_from_user` (kernel/user.c:209-287). -/
def copyArr (adv : Nat → World → World) (w : World) (dest uarr max : Nat) : SRes :=
  match countArgs w uarr 0 ARGFUEL with
  | none => ⟨-1, 0, w⟩
  | some argc =>
    if elem dest argc > dest + max - 4 then ⟨1, 0, w⟩
    else
      arrLoop adv dest uarr (dest + max) (w.setWord (elem dest argc) 0) argc 0
        (elem dest (argc + 1)) (4 * (argc + 1))

/-- `duplicate_user_argv` (kernel/user.c:338-363). -/
def duplicateArgv (adv : Nat → World → World) (w : World) (dest uarr size written : Nat) : DRes :=
  if written ≥ size then ⟨-E2BIG, written, w⟩
  else
    let r := copyArr adv w (dest + written) uarr (size - written)
    if r.rc < 0 then ⟨-EFAULT, written, r.w⟩
    else if r.rc > 0 then ⟨-E2BIG, written, r.w⟩
    else ⟨0, written + r.written, r.w⟩

/-- `ARGS_COPYBUF_SIZE` (config/config_userlim.h:53). -/
def ARGSBUF : Nat := 4096

/-- What `execve_get_args` returns: error or 0, `argv`, `env` (0 is NULL), and memory. -/
structure GRes where
  rc : Int
  argv : Nat
  env : Nat
  w : World

/-- `execve_get_args` (kernel/execve.c:59-98); `buf` is `args_copybuf`. -/
def getArgs (adv : Nat → World → World) (w : World) (buf uargv uenv : Nat) : GRes :=
  let a : DRes := if uargv ≠ 0 then duplicateArgv adv w buf uargv ARGSBUF 0 else ⟨0, 0, w⟩
  if a.rc ≠ 0 then ⟨a.rc, 0, 0, a.w⟩
  else
    let e : DRes :=
      if uenv ≠ 0 then duplicateArgv adv a.w buf uenv ARGSBUF a.written else ⟨0, a.written, a.w⟩
    if e.rc ≠ 0 then ⟨e.rc, 0, 0, e.w⟩
    else ⟨0, if uargv ≠ 0 then buf else 0, if uenv ≠ 0 then buf + a.written else 0, e.w⟩

/-! ## The stack of a new program -/

/-- The new program's memory and its stack pointer. -/
structure Stk where
  m : Nat → Nat
  sp : Nat

/-- Storing consecutive bytes (`memcpy`). -/
def wrBytes (m : Nat → Nat) (a : Nat) : List Nat → Nat → Nat
  | [] => m
  | b :: bs => wrBytes (upd m (a % W) b) (a + 1) bs

/-- `push_on_user_stack` (kernel/user.c:365-385). -/
def pushWord (s : Stk) (v : Nat) : Stk :=
  let sp := (s.sp + W - 4) % W
  ⟨wrWord s.m sp v, sp⟩

/-- `USERMODE_STACK_ALIGN`. -/
def ALIGN : Nat := 16

/-- `push_string_on_user_stack` (kernel/user.c:387-405). -/
def pushStr (s : Stk) (str : List Nat) : Stk :=
  let len := str.length + 1
  let al := len / ALIGN * ALIGN
  let rem := len - al
  let sp := (s.sp + W - (al + if rem > 0 then ALIGN else 0)) % W
  let m1 := wrBytes s.m sp ((str ++ [0]).take al)
  if rem > 0 then
    ⟨wrBytes m1 (sp + al) ((str ++ [0]).drop al ++ List.replicate (ALIGN - rem) 0), sp⟩
  else ⟨m1, sp⟩

/-- Pushing the strings of an array, noting where each one went (kernel/user.c:421-430). -/
def pushStrs (s : Stk) : List (List Nat) → Stk × List Nat
  | [] => (s, [])
  | x :: xs =>
    let s1 := pushStr s x
    let r := pushStrs s1 xs
    (r.1, s1.sp :: r.2)

/-- Pushing `n` zero words (kernel/user.c:449-451). -/
def pushZeros (s : Stk) : Nat → Stk
  | 0 => s
  | n + 1 => pushZeros (pushWord s 0) n

/-- Pushing pointers from the last to the first (kernel/user.c:465-467, 472-474). -/
def pushRev (s : Stk) : List Nat → Stk
  | [] => s
  | p :: ps => pushWord (pushRev s ps) p

/-- `AT_PAGESZ`, `AT_NULL` (linux/auxvec.h). -/
def AT_PAGESZ : Nat := 6
def AT_NULL : Nat := 0

/-- `push_args_on_user_stack` (kernel/user.c:407-479): `none` is -E2BIG. -/
def pushArgs (s : Stk) (argv env : List (List Nat)) : Option Stk :=
  if argv.length > 32 then none
  else if env.length > 96 then none
  else
    let a := pushStrs s argv
    let e := pushStrs a.1 env
    let len := (2 + 2 + 1 + env.length + 1 + argv.length + 1) * 4
    let rem := (len + ALIGN - 1) / ALIGN * ALIGN - len
    let s1 := pushZeros e.1 (rem / 4)
    let s2 := pushWord (pushWord (pushWord (pushWord s1 AT_NULL) 0) PAGE) AT_PAGESZ
    let s3 := pushRev (pushWord s2 0) e.2
    let s4 := pushRev (pushWord s3 0) a.2
    some (pushWord s4 argv.length)

/-! ## Specification -/

/-- The `n` addresses from `a` all belong to the process and can be read. -/
def UserReadable (w : World) (a n : Nat) : Prop := ∀ i, i < n → a + i < BASE ∧ w.rd (a + i) = true

/-- Memory holds the C string `s` at `a`: its bytes, none of them NUL, then a NUL. -/
def CStr (m : Nat → Nat) (a : Nat) (s : List Nat) : Prop :=
  (∀ i (h : i < s.length), m (a + i) = s[i] ∧ s[i] ≠ 0) ∧ m (a + s.length) = 0

/-- Memory holds a NULL-terminated array of pointers at `a`, to the C strings `l`. -/
def StrArray (m : Nat → Nat) (a : Nat) (l : List (List Nat)) : Prop :=
  (∀ i (h : i < l.length), rdWord m (a + 4 * i) ≠ 0 ∧ CStr m (rdWord m (a + 4 * i)) l[i]) ∧
  rdWord m (a + 4 * l.length) = 0

/-- Everything of that array and its strings belongs to the process and can be read. -/
def ArrayReadable (w : World) (a : Nat) (l : List (List Nat)) : Prop :=
  a ≠ 0 ∧ UserReadable w a (4 * (l.length + 1)) ∧
  ∀ i (h : i < l.length), UserReadable w (rdWord w.mem (a + 4 * i)) (l[i].length + 1)

/-- Room an array and its strings take in the kernel's buffer: the pointers, the NULL, and each
string with its NUL. -/
def arraySize (l : List (List Nat)) : Nat :=
  4 * (l.length + 1) + (l.map (fun s => s.length + 1)).sum

/-- The kernel's buffer: `n` bytes from `a`, all kernel addresses, that never fault. -/
def KBuf (w : World) (a n : Nat) : Prop :=
  BASE ≤ a ∧ a + n < W ∧ ∀ i, i < n → w.rd (a + i) = true ∧ w.wr (a + i) = true

/-- Bytes are bytes. -/
def Bytes (m : Nat → Nat) : Prop := ∀ a, m a < 256

/-- What other tasks can do while a call runs: change the process's memory, not the kernel's;
the kernel's own pages stay mapped. -/
def UserOnly (adv : Nat → World → World) : Prop :=
  ∀ i w, (∀ a, BASE ≤ a → (adv i w).mem a = w.mem a) ∧
    (∀ a, BASE ≤ a → (adv i w).rd a = w.rd a ∧ (adv i w).wr a = w.wr a)

/-- What the start-up code of a program finds at its stack pointer (System V i386 ABI): `argc`,
the `argv` pointers, NULL, the environment pointers, NULL, and the auxiliary vector. -/
def StackImage (m : Nat → Nat) (sp : Nat) (argv env : List (List Nat)) : Prop :=
  rdWord m sp = argv.length ∧
  (∀ i (h : i < argv.length), rdWord m (sp + 4 + 4 * i) ≠ 0 ∧
    CStr m (rdWord m (sp + 4 + 4 * i)) argv[i]) ∧
  rdWord m (sp + 4 + 4 * argv.length) = 0 ∧
  (∀ i (h : i < env.length), rdWord m (sp + 4 + 4 * (argv.length + 1) + 4 * i) ≠ 0 ∧
    CStr m (rdWord m (sp + 4 + 4 * (argv.length + 1) + 4 * i)) env[i]) ∧
  rdWord m (sp + 4 + 4 * (argv.length + 1) + 4 * env.length) = 0 ∧
  rdWord m (sp + 4 + 4 * (argv.length + 1) + 4 * (env.length + 1)) = 6 ∧
  rdWord m (sp + 4 + 4 * (argv.length + 1) + 4 * (env.length + 1) + 4) = 4096 ∧
  rdWord m (sp + 4 + 4 * (argv.length + 1) + 4 * (env.length + 1) + 8) = 0 ∧
  rdWord m (sp + 4 + 4 * (argv.length + 1) + 4 * (env.length + 1) + 12) = 0

/-! ## Copies -/

theorem upd_same (m : Nat → Nat) (a v : Nat) : upd m a v a = v := by simp [upd]

theorem upd_other (m : Nat → Nat) (a v b : Nat) (h : b ≠ a) : upd m a v b = m b := by
  simp [upd, h]

theorem archCopy_pages (n : Nat) : ∀ (w : World) (d s : Nat),
    (archCopy w d s n).2.rdp = w.rdp ∧ (archCopy w d s n).2.wrp = w.wrp := by
  induction n with
  | zero => intro w d s; exact ⟨rfl, rfl⟩
  | succ n ih =>
    intro w d s
    unfold archCopy
    split
    · exact ih _ _ _
    · exact ⟨rfl, rfl⟩

theorem mod_succ {a n : Nat} (h : a + (n + 1) < W) : (a + 1) % W = a + 1 :=
  Nat.mod_eq_of_lt (by omega)

theorem archCopy_frame (n : Nat) : ∀ (w : World) (d s : Nat), d + n < W → s + n < W →
    ∀ a, (a < d ∨ d + n ≤ a) → (archCopy w d s n).2.mem a = w.mem a := by
  induction n with
  | zero => intro w d s _ _ a _; rfl
  | succ n ih =>
    intro w d s hd hs a ha
    unfold archCopy
    split
    · rw [mod_succ hd, mod_succ hs, ih _ _ _ (by omega) (by omega) a (by omega)]
      exact upd_other _ _ _ _ (by omega)
    · rfl

theorem archCopy_ok (n : Nat) : ∀ (w : World) (d s : Nat), d + n < W → s + n < W →
    ((archCopy w d s n).1 = true ↔ ∀ i, i < n → w.rd (s + i) = true ∧ w.wr (d + i) = true) := by
  induction n with
  | zero => intro w d s _ _; simp [archCopy]
  | succ n ih =>
    intro w d s hd hs
    unfold archCopy
    by_cases h : (w.rd s && w.wr d) = true
    · rw [if_pos h, mod_succ hd, mod_succ hs, ih _ _ _ (by omega) (by omega)]
      simp only [Bool.and_eq_true] at h
      constructor
      · intro g i hi
        cases i with
        | zero => exact h
        | succ i =>
          have := g i (by omega)
          rw [show s + 1 + i = s + (i + 1) by omega, show d + 1 + i = d + (i + 1) by omega] at this
          exact this
      · intro g i hi
        have := g (i + 1) (by omega)
        rw [show s + 1 + i = s + (i + 1) by omega, show d + 1 + i = d + (i + 1) by omega]
        exact this
    · rw [if_neg h]
      simp only [Bool.and_eq_true] at h
      constructor
      · intro g; cases g
      · intro g; exact absurd (g 0 (by omega)) h

theorem archCopy_data (n : Nat) : ∀ (w : World) (d s : Nat), d + n < W → s + n < W →
    (d + n ≤ s ∨ s + n ≤ d) → (archCopy w d s n).1 = true →
    ∀ i, i < n → (archCopy w d s n).2.mem (d + i) = w.mem (s + i) := by
  induction n with
  | zero => intro w d s _ _ _ _ i hi; omega
  | succ n ih =>
    intro w d s hd hs hdis
    unfold archCopy
    by_cases h : (w.rd s && w.wr d) = true
    · rw [if_pos h, mod_succ hd, mod_succ hs]
      intro ok i hi
      cases i with
      | zero =>
        rw [archCopy_frame n _ _ _ (by omega) (by omega) _ (by omega)]
        exact upd_same _ _ _
      | succ i =>
        have := ih (w.set d (w.mem s)) (d + 1) (s + 1) (by omega) (by omega) (by omega) ok i (by omega)
        rw [show d + (i + 1) = d + 1 + i by omega, this, show s + (i + 1) = s + 1 + i by omega]
        exact upd_other _ _ _ _ (by omega)
    · rw [if_neg h]; intro g; cases g

theorem archCopy_part (n : Nat) : ∀ (w : World) (d s : Nat), d + n < W → s + n < W →
    (d + n ≤ s ∨ s + n ≤ d) →
    ∀ i, i < n → (archCopy w d s n).2.mem (d + i) = w.mem (s + i) ∨
      (archCopy w d s n).2.mem (d + i) = w.mem (d + i) := by
  induction n with
  | zero => intro w d s _ _ _ i hi; omega
  | succ n ih =>
    intro w d s hd hs hdis
    unfold archCopy
    by_cases h : (w.rd s && w.wr d) = true
    · rw [if_pos h, mod_succ hd, mod_succ hs]
      intro i hi
      cases i with
      | zero =>
        rw [archCopy_frame n _ _ _ (by omega) (by omega) _ (by omega)]
        exact Or.inl (upd_same _ _ _)
      | succ i =>
        have := ih (w.set d (w.mem s)) (d + 1) (s + 1) (by omega) (by omega) (by omega) i (by omega)
        rw [show d + (i + 1) = d + 1 + i by omega, show s + (i + 1) = s + 1 + i by omega]
        rcases this with g | g
        · refine Or.inl (g.trans (upd_other _ _ _ _ (by omega)))
        · refine Or.inr (g.trans (upd_other _ _ _ _ (by omega)))
    · rw [if_neg h]; intro i hi; exact Or.inr rfl

theorem outOfRange_false {p n : Nat} (h : p + n < W) :
    outOfRange p n = false ↔ p ≠ 0 ∧ p + n ≤ BASE := by
  unfold outOfRange
  rw [Nat.mod_eq_of_lt h]
  simp

/-- **C98.** Reading a process's memory, for a range that does not run past the top of the 32-bit
address space.  The call succeeds exactly when the pointer is not NULL and every byte of the
range belongs to the process and can be read; the kernel's buffer then holds exactly those bytes.
Otherwise it is `-EFAULT`.  In every case nothing outside the buffer changes, and a byte of the
buffer is either unchanged or a byte of the process at the same offset: nothing of the kernel's
memory is ever read. -/
theorem copy_from_user_partial (w : World) (dest up n : Nat) (hk : KBuf w dest n)
    (hnw : up + n < W) :
    ((copyFromUser w dest up n).1 = 0 ↔ up ≠ 0 ∧ up + n ≤ BASE ∧ UserReadable w up n) ∧
    ((copyFromUser w dest up n).1 = 0 ∨ (copyFromUser w dest up n).1 = -EFAULT) ∧
    ((copyFromUser w dest up n).1 = 0 →
      ∀ i, i < n → (copyFromUser w dest up n).2.mem (dest + i) = w.mem (up + i)) ∧
    (∀ a, (a < dest ∨ dest + n ≤ a) → (copyFromUser w dest up n).2.mem a = w.mem a) ∧
    (∀ i, i < n → (copyFromUser w dest up n).2.mem (dest + i) = w.mem (dest + i) ∨
      (up + i < BASE ∧ (copyFromUser w dest up n).2.mem (dest + i) = w.mem (up + i))) := by
  obtain ⟨hb, hw, hm⟩ := hk
  unfold copyFromUser
  cases ho : outOfRange up n with
  | true =>
    rw [if_pos rfl]
    have h : ¬ (up ≠ 0 ∧ up + n ≤ BASE) := fun g => by
      rw [(outOfRange_false hnw).2 g] at ho; cases ho
    refine ⟨⟨fun g => absurd g (by simp [EFAULT]), fun g => absurd ⟨g.1, g.2.1⟩ h⟩, Or.inr rfl,
      fun g => absurd g (by simp [EFAULT]), fun a _ => rfl, fun i _ => Or.inl rfl⟩
  | false =>
    obtain ⟨h0, hB⟩ := (outOfRange_false hnw).1 ho
    rw [if_neg (by simp)]
    dsimp only
    have hok := archCopy_ok n w dest up hw hnw
    cases hr : (archCopy w dest up n).1 with
    | true =>
      rw [hr] at hok
      have hall := hok.1 rfl
      refine ⟨⟨fun _ => ⟨h0, hB, fun i hi => ⟨by omega, (hall i hi).1⟩⟩, fun _ => rfl⟩, Or.inl rfl,
        fun _ => archCopy_data n w dest up hw hnw (by omega) hr,
        archCopy_frame n w dest up hw hnw, fun i hi => Or.inr ⟨by omega, ?_⟩⟩
      exact archCopy_data n w dest up hw hnw (by omega) hr i hi
    | false =>
      rw [hr] at hok
      refine ⟨⟨fun g => absurd g (by decide), fun g => ?_⟩, Or.inr rfl,
        fun g => absurd g (by decide), archCopy_frame n w dest up hw hnw, fun i hi => ?_⟩
      · exact absurd (hok.2 fun i hi => ⟨(g.2.2 i hi).2, (hm i hi).2⟩) (by simp)
      · rcases archCopy_part n w dest up hw hnw (by omega) i hi with g | g
        · exact Or.inr ⟨by omega, g⟩
        · exact Or.inl g

/-- **C98.** Writing a process's memory, for a range that does not run past the top of the
address space: it succeeds exactly when the pointer is not NULL and every byte of the range
belongs to the process and can be written; the range then holds the kernel's bytes.  The kernel's
own memory never changes, and nothing outside the range does. -/
theorem copy_to_user_partial (w : World) (up src n : Nat) (hk : KBuf w src n)
    (hnw : up + n < W) :
    ((copyToUser w up src n).1 = 0 ↔
      up ≠ 0 ∧ up + n ≤ BASE ∧ ∀ i, i < n → w.wr (up + i) = true) ∧
    ((copyToUser w up src n).1 = 0 ∨ (copyToUser w up src n).1 = -EFAULT) ∧
    ((copyToUser w up src n).1 = 0 →
      ∀ i, i < n → (copyToUser w up src n).2.mem (up + i) = w.mem (src + i)) ∧
    (∀ a, (a < up ∨ up + n ≤ a) → (copyToUser w up src n).2.mem a = w.mem a) ∧
    (∀ a, BASE ≤ a → (copyToUser w up src n).2.mem a = w.mem a) := by
  obtain ⟨hb, hw, hm⟩ := hk
  unfold copyToUser
  cases ho : outOfRange up n with
  | true =>
    rw [if_pos rfl]
    have h : ¬ (up ≠ 0 ∧ up + n ≤ BASE) := fun g => by
      rw [(outOfRange_false hnw).2 g] at ho; cases ho
    refine ⟨⟨fun g => absurd g (by simp [EFAULT]), fun g => absurd ⟨g.1, g.2.1⟩ h⟩, Or.inr rfl,
      fun g => absurd g (by simp [EFAULT]), fun a _ => rfl, fun i _ => rfl⟩
  | false =>
    obtain ⟨h0, hB⟩ := (outOfRange_false hnw).1 ho
    rw [if_neg (by simp)]
    dsimp only
    have hok := archCopy_ok n w up src hnw hw
    have hfr := archCopy_frame n w up src hnw hw
    cases hr : (archCopy w up src n).1 with
    | true =>
      rw [hr] at hok
      have hall := hok.1 rfl
      exact ⟨⟨fun _ => ⟨h0, hB, fun i hi => (hall i hi).2⟩, fun _ => rfl⟩, Or.inl rfl,
        fun _ => archCopy_data n w up src hnw hw (by omega) hr, hfr, fun a ha => hfr a (by omega)⟩
    | false =>
      rw [hr] at hok
      refine ⟨⟨fun g => absurd g (by decide), fun g => ?_⟩, Or.inr rfl,
        fun g => absurd g (by decide), hfr, fun a ha => hfr a (by omega)⟩
      exact absurd (hok.2 fun i hi => ⟨(hm i hi).1, g.2.2 i hi⟩) (by simp)

/-! ### A range that wraps -/

/-- All pages present: memory where address `a` holds `f a`. -/
def allMapped (f : Nat → Nat) : World := ⟨f, fun _ => true, fun _ => true⟩

/-- **C98 violated.** `ptr + n` is computed with 32 bits, so a range that ends exactly at the top
of the address space, or runs past it, is accepted: a process that passes a pointer to the last
bytes of the address space has the kernel read *its own* memory as if it were the process's. -/
theorem copy_from_user_kernel_violated : ∃ (w : World) (dest up n : Nat), KBuf w dest n ∧
    BASE ≤ up ∧ up + n = W ∧ (copyFromUser w dest up n).1 = 0 ∧
    (copyFromUser w dest up n).2.mem dest = w.mem up ∧ w.mem up ≠ w.mem dest := by
  refine ⟨allMapped (fun a => if a = 4294967280 then 77 else 0), 3221225472, 4294967280, 16, ?_,
    by decide, by decide, by decide +kernel, by decide +kernel, by decide⟩
  exact ⟨by decide, by decide, fun i _ => ⟨rfl, rfl⟩⟩

/-- **C98 violated.** The same for the other direction: a system call that stores its result
through such a pointer overwrites kernel memory. -/
theorem copy_to_user_kernel_violated : ∃ (w : World) (up src n : Nat), KBuf w src n ∧
    BASE ≤ up ∧ (copyToUser w up src n).1 = 0 ∧
    ∃ a, BASE ≤ a ∧ (copyToUser w up src n).2.mem a ≠ w.mem a := by
  refine ⟨allMapped (fun a => if a = 3221225472 then 77 else 0), 4294967280, 3221225472, 16, ?_,
    by decide, by decide +kernel, 4294967280, by decide, by decide +kernel⟩
  exact ⟨by decide, by decide, fun i _ => ⟨rfl, rfl⟩⟩

example : KBuf (allMapped fun a => a % 251) 3221229568 100 ∧ 4096 + 100 < W ∧
    (copyFromUser (allMapped fun a => a % 251) 3221229568 4096 100).1 = 0 :=
  ⟨⟨by decide, by decide, fun _ _ => ⟨rfl, rfl⟩⟩, by decide, by decide +kernel⟩

/-! ## Strings -/

theorem scanNul_le (m : Nat → Nat) (n : Nat) : ∀ a, scanNul m a n ≤ n := by
  induction n with
  | zero => intro a; exact Nat.le_refl _
  | succ n ih => intro a; unfold scanNul; split; · omega
                 · have := ih (a + 1); omega

theorem scanNul_nz (m : Nat → Nat) (n : Nat) : ∀ a i, i < scanNul m a n → m (a + i) ≠ 0 := by
  induction n with
  | zero => intro a i hi; simp [scanNul] at hi
  | succ n ih =>
    intro a i hi
    unfold scanNul at hi
    split at hi
    · omega
    · cases i with
      | zero => assumption
      | succ i => have := ih (a + 1) i (by omega); rwa [show a + (i + 1) = a + 1 + i by omega]

theorem scanNul_z (m : Nat → Nat) (n : Nat) : ∀ a, scanNul m a n < n →
    m (a + scanNul m a n) = 0 := by
  induction n with
  | zero => intro a h; omega
  | succ n ih =>
    intro a h
    unfold scanNul at h ⊢
    by_cases hm : m a = 0
    · rw [if_pos hm]; exact hm
    · rw [if_neg hm] at h ⊢
      have := ih (a + 1) (by omega)
      rwa [show a + (scanNul m (a + 1) n + 1) = a + 1 + scanNul m (a + 1) n by omega]

theorem chunkOf_le (d p dend : Nat) : chunkOf d p dend ≤ dend - d ∧
    chunkOf d p dend ≤ PAGE - p % PAGE ∧ chunkOf d p dend ≤ BASE - p := by
  unfold chunkOf; omega

theorem chunkOf_pos {d p dend : Nat} (h : d < dend) (hp : p < BASE) : 0 < chunkOf d p dend := by
  have : p % PAGE < PAGE := Nat.mod_lt _ (by decide)
  unfold chunkOf CHUNK; omega

theorem same_page {p i : Nat} (h : i < PAGE - p % PAGE) : (p + i) / PAGE = p / PAGE := by
  unfold PAGE at *; omega

/-- What the loop has done when it returns. -/
structure StrDone (w : World) (d0 d p dend : Nat) (r : SRes) : Prop where
  pages : r.w.rdp = w.rdp ∧ r.w.wrp = w.wrp
  frame : ∀ a, (a < d ∨ dend ≤ a) → r.w.mem a = w.mem a
  codes : r.rc = 0 ∨ r.rc = 1 ∨ r.rc = -1
  ok : r.rc = 0 → ∃ len, d + len + 1 ≤ dend ∧ (∀ i, i < len → w.mem (p + i) ≠ 0) ∧
    w.mem (p + len) = 0 ∧ UserReadable w p (len + 1) ∧ r.written = d - d0 + len + 1 ∧
    ∀ i, i ≤ len → r.w.mem (d + i) = w.mem (p + i)
  full : r.rc = 1 → UserReadable w p (dend - d) ∧ ∀ i, i < dend - d → w.mem (p + i) ≠ 0
  fault : r.rc = -1 → ∃ k, k < dend - d ∧ UserReadable w p k ∧ (∀ i, i < k → w.mem (p + i) ≠ 0) ∧
    ¬ (p + k < BASE ∧ w.rd (p + k) = true)
  other : r.rc ≠ 0 → r.written = 0

theorem copyStrLoop_done (d0 dend : Nat) (fuel : Nat) : ∀ (w : World) (d p : Nat),
    dend - d ≤ fuel → BASE ≤ d → dend < W → d0 ≤ d →
    (∀ a, d ≤ a → a < dend → w.wr a = true) →
    StrDone w d0 d p dend (copyStrLoop w d0 d p dend fuel) := by
  induction fuel with
  | zero =>
    intro w d p hf hb hw hd0 hwr
    refine ⟨⟨rfl, rfl⟩, fun _ _ => rfl, Or.inr (Or.inl rfl), fun h => ?_, fun _ => ?_,
      fun h => ?_, fun _ => rfl⟩
    · exact absurd h (by simp [copyStrLoop])
    · exact ⟨fun i hi => by omega, fun i hi => by omega⟩
    · exact absurd h (by simp [copyStrLoop])
  | succ fuel ih =>
    intro w d p hf hb hw hd0 hwr
    unfold copyStrLoop
    by_cases hd : d < dend
    · rw [if_pos hd]
      by_cases hp : BASE ≤ p
      · rw [if_pos hp]
        refine ⟨⟨rfl, rfl⟩, fun _ _ => rfl, Or.inr (Or.inr rfl), fun h => absurd h (by simp),
          fun h => absurd h (by simp), fun _ => ⟨0, by omega, fun i hi => by omega,
            fun i hi => by omega, fun g => by omega⟩, fun _ => rfl⟩
      · rw [if_neg hp]
        dsimp only
        have hpos := chunkOf_pos hd (Nat.lt_of_not_le hp)
        obtain ⟨hc1, hc2, hc3⟩ := chunkOf_le d p dend
        generalize chunkOf d p dend = c at *
        have hBW : BASE < W := by decide
        have hdw : d + c < W := by omega
        have hpw : p + c < W := by omega
        have hok := archCopy_ok c w d p hdw hpw
        have hfr := archCopy_frame c w d p hdw hpw
        have hpg := archCopy_pages c w d p
        cases hr : (archCopy w d p c).1 with
        | false =>
          rw [if_neg (by simp)]
          refine ⟨hpg, fun a ha => hfr a (by omega), Or.inr (Or.inr rfl),
            fun h => absurd h (by simp), fun h => absurd h (by simp),
            fun _ => ⟨0, by omega, fun i hi => by omega, fun i hi => by omega, fun g => ?_⟩,
            fun _ => rfl⟩
          rw [hr] at hok
          refine absurd (hok.2 fun i hi => ⟨?_, hwr _ (by omega) (by omega)⟩) (by simp)
          have := g.2
          unfold World.rd at this ⊢
          rwa [same_page (show i < PAGE - p % PAGE by omega)]
        | true =>
          rw [if_pos rfl]
          have hdat := archCopy_data c w d p hdw hpw (by omega) hr
          rw [hr] at hok
          have hall := hok.1 rfl
          have hsle := scanNul_le (archCopy w d p c).2.mem c d
          have hsnz := scanNul_nz (archCopy w d p c).2.mem c d
          have hsz := scanNul_z (archCopy w d p c).2.mem c d
          generalize scanNul (archCopy w d p c).2.mem d c = i at *
          by_cases hi : i < c
          · rw [if_pos hi]
            refine ⟨hpg, fun a ha => hfr a (by omega), Or.inl rfl, fun _ => ⟨i, by omega,
              fun j hj => ?_, ?_, fun j hj => ⟨by omega, (hall j (by omega)).1⟩, rfl,
              fun j hj => hdat j (by omega)⟩, fun h => absurd h (by simp),
              fun h => absurd h (by simp), fun h => absurd rfl h⟩
            · rw [← hdat j (by omega)]; exact hsnz j hj
            · rw [← hdat i (by omega)]; exact hsz hi
          · rw [if_neg hi]
            have hci : c = i := by omega
            have hih := ih (archCopy w d p c).2 (d + c) (p + c) (by omega) (by omega) hw (by omega)
              (fun a h1 h2 => by
                have := hwr a (by omega) h2
                unfold World.wr at this ⊢; rw [hpg.2]; exact this)
            have hum : ∀ j, p + c + j < BASE →
                (archCopy w d p c).2.mem (p + c + j) = w.mem (p + c + j) :=
              fun j hj => hfr _ (by omega)
            have hrd : ∀ a, (archCopy w d p c).2.rd a = w.rd a := fun a => by
              unfold World.rd; rw [hpg.1]
            have hrd0 : ∀ k, UserReadable (archCopy w d p c).2 (p + c) k →
                UserReadable w p (c + k) := by
              intro k hk j hj
              by_cases h : j < c
              · exact ⟨by omega, (hall j h).1⟩
              · have := hk (j - c) (by omega)
                rw [hrd, show p + c + (j - c) = p + j by omega] at this
                exact this
            have hnz0 : ∀ k, UserReadable (archCopy w d p c).2 (p + c) k →
                (∀ j, j < k → (archCopy w d p c).2.mem (p + c + j) ≠ 0) →
                ∀ j, j < c + k → w.mem (p + j) ≠ 0 := by
              intro k hk1 hk j hj
              by_cases h : j < c
              · rw [← hdat j h]; exact hsnz j (by omega)
              · have := hk (j - c) (by omega)
                rw [hum _ (hk1 (j - c) (by omega)).1, show p + c + (j - c) = p + j by omega] at this
                exact this
            generalize copyStrLoop (archCopy w d p c).2 d0 (d + c) (p + c) dend fuel = r at hih ⊢
            refine ⟨⟨hih.pages.1.trans hpg.1, hih.pages.2.trans hpg.2⟩,
              fun a ha => (hih.frame a (by omega)).trans (hfr a (by omega)), hih.codes,
              fun h => ?_, fun h => ?_, fun h => ?_, hih.other⟩
            · obtain ⟨len, h1, h2, h3, h4, h5, h6⟩ := hih.ok h
              refine ⟨c + len, by omega, ?_, ?_, ?_, by omega, ?_⟩
              · exact hnz0 len (fun j hj => h4 j (by omega)) h2
              · have := (h4 len (by omega)).1
                rw [hum _ this] at h3
                rw [show p + (c + len) = p + c + len by omega]; exact h3
              · rw [show c + len + 1 = c + (len + 1) by omega]; exact hrd0 _ h4
              · intro j hj
                by_cases hjc : j < c
                · rw [hih.frame _ (by omega)]; exact hdat j hjc
                · have := h6 (j - c) (by omega)
                  rw [hum _ (h4 (j - c) (by omega)).1,
                    show p + c + (j - c) = p + j by omega,
                    show d + c + (j - c) = d + j by omega] at this
                  exact this
            · obtain ⟨h1, h2⟩ := hih.full h
              rw [show dend - d = c + (dend - (d + c)) by omega]
              exact ⟨hrd0 _ h1, hnz0 _ h1 h2⟩
            · obtain ⟨k, h1, h2, h3, h4⟩ := hih.fault h
              refine ⟨c + k, by omega, hrd0 k h2, hnz0 k h2 h3, ?_⟩
              rw [show p + (c + k) = p + c + k by omega, ← hrd]; exact h4
    · rw [if_neg hd]
      refine ⟨⟨rfl, rfl⟩, fun _ _ => rfl, Or.inr (Or.inl rfl), fun h => absurd h (by simp),
        fun _ => ⟨fun i hi => by omega, fun i hi => by omega⟩, fun h => absurd h (by simp),
        fun _ => rfl⟩

/-- A readable string: its bytes and its NUL are the process's and can be read. -/
def UserStr (w : World) (p : Nat) (s : List Nat) : Prop :=
  CStr w.mem p s ∧ UserReadable w p (s.length + 1)

theorem str_of_bytes (m : Nat → Nat) (p len : Nat) (h : ∀ i, i < len → m (p + i) ≠ 0)
    (h0 : m (p + len) = 0) : CStr m p ((List.range len).map fun i => m (p + i)) := by
  refine ⟨fun i hi => ?_, ?_⟩
  · have : i < len := by simpa using hi
    simp [h i this]
  · simpa using h0

theorem CStr.unique {m : Nat → Nat} {p : Nat} {s t : List Nat} (hs : CStr m p s) (ht : CStr m p t) :
    s = t := by
  have hl : s.length = t.length := by
    rcases Nat.lt_trichotomy s.length t.length with h | h | h
    · exact absurd hs.2 ((ht.1 _ h).1 ▸ (ht.1 _ h).2)
    · exact h
    · exact absurd ht.2 ((hs.1 _ h).1 ▸ (hs.1 _ h).2)
  refine List.ext_getElem hl fun i h1 h2 => ?_
  rw [← (hs.1 i h1).1, ← (ht.1 i h2).1]

/-- **C98.** Copying a string from a process, for every content and mapping of its memory and
every pointer.  The copy succeeds exactly when a NUL-terminated string of the process is at the
pointer, can be read up to its NUL and fits in the buffer with the NUL; then the buffer holds
that string and its length is reported.  "No room" exactly when the process's first `max` bytes
there can be read and none is NUL; a fault otherwise.  Although the code reads up to 64 bytes at
a time, it never fails because of a page after the string's end, and it never writes outside the
buffer. -/
theorem copy_str_correct (w : World) (dest up max : Nat) (hk : KBuf w dest max) :
    ((copyStr w dest up max).rc = 0 ↔ ∃ s, UserStr w up s ∧ s.length + 1 ≤ max) ∧
    (∀ s, UserStr w up s → s.length + 1 ≤ max →
      CStr (copyStr w dest up max).w.mem dest s ∧
      (copyStr w dest up max).written = s.length + 1) ∧
    ((copyStr w dest up max).rc = 1 ↔
      UserReadable w up max ∧ ∀ i, i < max → w.mem (up + i) ≠ 0) ∧
    ((copyStr w dest up max).rc = 0 ∨ (copyStr w dest up max).rc = 1 ∨
      (copyStr w dest up max).rc = -1) ∧
    (∀ a, (a < dest ∨ dest + max ≤ a) → (copyStr w dest up max).w.mem a = w.mem a) := by
  obtain ⟨hb, hw, hm⟩ := hk
  have hd := copyStrLoop_done dest (dest + max) (dest + max - dest) w dest up (Nat.le_refl _) hb hw
    (Nat.le_refl _) (fun a h1 h2 => by
      have := (hm (a - dest) (by omega)).2
      rwa [show dest + (a - dest) = a by omega] at this)
  have hdef : copyStr w dest up max = copyStrLoop w dest dest up (dest + max) (dest + max - dest) :=
    rfl
  rw [← hdef] at hd
  generalize copyStr w dest up max = r at hd ⊢
  have hmax : dest + max - dest = max := by omega
  have h1 : ∀ s, UserStr w up s → s.length + 1 ≤ max → r.rc = 0 := by
    intro s ⟨hs, hr⟩ hl
    rcases hd.codes with h | h | h
    · exact h
    · exact absurd hs.2 ((hd.full h).2 s.length (by omega))
    · obtain ⟨k, k1, k2, k3, k4⟩ := hd.fault h
      exfalso
      by_cases hks : k < s.length + 1
      · exact k4 (hr k hks)
      · exact k3 s.length (by omega) hs.2
  refine ⟨⟨fun h => ?_, fun ⟨s, hs, hl⟩ => h1 s hs hl⟩, fun s hs hl => ?_, ⟨fun h => ?_, fun h => ?_⟩,
    hd.codes, hd.frame⟩
  · obtain ⟨len, l1, l2, l3, l4, l5, l6⟩ := hd.ok h
    refine ⟨(List.range len).map fun i => w.mem (up + i), ⟨str_of_bytes _ _ _ l2 l3, ?_⟩, ?_⟩
    · simpa using l4
    · simp only [List.length_map, List.length_range]; omega
  · obtain ⟨len, l1, l2, l3, l4, l5, l6⟩ := hd.ok (h1 s hs hl)
    have hse := CStr.unique hs.1 (str_of_bytes _ _ _ l2 l3)
    have hlen : s.length = len := by rw [hse]; simp
    refine ⟨⟨fun i hi => ?_, ?_⟩, by omega⟩
    · rw [l6 i (by omega)]; exact hs.1.1 i hi
    · rw [hlen, l6 len (Nat.le_refl _)]; exact l3
  · have := hd.full h
    rw [hmax] at this; exact this
  · rcases hd.codes with g | g | g
    · obtain ⟨len, l1, l2, l3, l4, l5, l6⟩ := hd.ok g
      exact absurd l3 (h.2 len (by omega))
    · exact g
    · obtain ⟨k, k1, k2, k3, k4⟩ := hd.fault g
      exact absurd (h.1 k (by omega)) k4

/-- **C98.** A path argument: `EINVAL` for NULL; the string is appended to what the buffer holds
already exactly when it can be read and fits, `ENAMETOOLONG` if there is no room, `EFAULT`
otherwise; the buffer is never left. -/
theorem duplicate_path_correct (w : World) (dest up size written : Nat) (hk : KBuf w dest size) :
    ((duplicatePath w dest up size written).rc = 0 ↔
      up ≠ 0 ∧ ∃ s, UserStr w up s ∧ written + s.length + 1 ≤ size) ∧
    (∀ s, up ≠ 0 → UserStr w up s → written + s.length + 1 ≤ size →
      CStr (duplicatePath w dest up size written).w.mem (dest + written) s ∧
      (duplicatePath w dest up size written).written = written + s.length + 1) ∧
    (up = 0 → (duplicatePath w dest up size written).rc = -EINVAL) ∧
    (∀ s, up ≠ 0 → UserStr w up s → ¬ written + s.length + 1 ≤ size →
      (duplicatePath w dest up size written).rc = -ENAMETOOLONG) ∧
    (∀ a, (a < dest + written ∨ dest + size ≤ a) →
      (duplicatePath w dest up size written).w.mem a = w.mem a) := by
  unfold duplicatePath
  by_cases h0 : up = 0
  · rw [if_pos h0]
    refine ⟨⟨fun h => absurd h (by simp [EINVAL]), fun h => absurd h0 h.1⟩, fun s h => absurd h0 h,
      fun _ => rfl, fun s h => absurd h0 h, fun a _ => rfl⟩
  rw [if_neg h0]
  by_cases hs : written ≥ size
  · rw [if_pos hs]
    refine ⟨⟨fun h => absurd h (by simp [ENAMETOOLONG]), fun ⟨_, s, _, h⟩ => by omega⟩,
      fun s _ _ h => by omega, fun h => absurd h h0, fun s _ _ _ => rfl, fun a _ => rfl⟩
  rw [if_neg hs]
  dsimp only
  obtain ⟨hb, hw, hm⟩ := hk
  have hk' : KBuf w (dest + written) (size - written) := by
    refine ⟨by omega, by omega, fun i hi => ?_⟩
    rw [show dest + written + i = dest + (written + i) by omega]
    exact hm _ (by omega)
  obtain ⟨c1, c2, c3, c4, c5⟩ := copy_str_correct w (dest + written) up (size - written) hk'
  have hfr : ∀ a, (a < dest + written ∨ dest + size ≤ a) →
      (copyStr w (dest + written) up (size - written)).w.mem a = w.mem a :=
    fun a ha => c5 a (by omega)
  generalize copyStr w (dest + written) up (size - written) = r at *
  have hno : ∀ s, UserStr w up s → ¬ written + s.length + 1 ≤ size → r.rc = 1 := by
    intro s hs' hl
    refine c3.2 ⟨fun i hi => hs'.2 i (by omega), fun i hi => ?_⟩
    have := hs'.1.1 i (by omega)
    rw [this.1]; exact this.2
  rcases c4 with h | h | h
  · rw [if_neg (by omega), if_neg (by omega)]
    obtain ⟨s, s1, s2⟩ := c1.1 h
    refine ⟨⟨fun _ => ⟨h0, s, s1, by omega⟩, fun _ => rfl⟩, fun t _ t1 t2 => ?_, fun g => absurd g h0,
      fun t _ t1 t2 => ?_, hfr⟩
    · obtain ⟨e1, e2⟩ := c2 t t1 (by omega)
      exact ⟨e1, by dsimp only; omega⟩
    · have := hno t t1 t2; omega
  · rw [if_neg (by omega), if_pos (by omega)]
    refine ⟨⟨fun g => absurd g (by simp [ENAMETOOLONG]), fun ⟨_, t, t1, t2⟩ => ?_⟩,
      fun t _ t1 t2 => ?_, fun g => absurd g h0, fun _ _ _ _ => rfl, hfr⟩
    · have := c1.2 ⟨t, t1, by omega⟩; omega
    · have := c1.2 ⟨t, t1, by omega⟩; omega
  · rw [if_pos (by omega)]
    refine ⟨⟨fun g => absurd g (by simp [EFAULT]), fun ⟨_, t, t1, t2⟩ => ?_⟩,
      fun t _ t1 t2 => ?_, fun g => absurd g h0, fun t _ t1 t2 => ?_, hfr⟩
    · have := c1.2 ⟨t, t1, by omega⟩; omega
    · have := c1.2 ⟨t, t1, by omega⟩; omega
    · have := hno t t1 t2; omega

/-- A process whose page 1 (addresses 4096 to 8191) is the only one it has, with "/bin/sh" in its
last eight bytes: the next page is not mapped, and the string is still copied. -/
def edgeWorld : World :=
  ⟨fun a => if 8184 ≤ a ∧ a < 8191 then 47 else 0,
   fun pg => pg == 1 || decide (BASE / PAGE ≤ pg), fun pg => pg == 1 || decide (BASE / PAGE ≤ pg)⟩

example : KBuf edgeWorld BASE 256 ∧ UserStr edgeWorld 8184 [47, 47, 47, 47, 47, 47, 47] ∧
    edgeWorld.rd 8192 = false ∧ (copyStr edgeWorld BASE 8184 256).rc = 0 := by
  refine ⟨⟨by decide, by decide, fun i hi => ?_⟩, ⟨⟨fun i hi => ?_, by decide⟩, fun i hi => ?_⟩,
    by decide, by decide +kernel⟩
  · have : BASE / PAGE ≤ (BASE + i) / PAGE := Nat.div_le_div_right (by omega)
    simp [World.rd, World.wr, edgeWorld, this]
  · revert i; decide
  · revert i; decide

/-! ## Argument vectors -/

theorem wrWord_frame (m : Nat → Nat) (a v b : Nat) (ha : a + 3 < W) (hb : b < a ∨ a + 4 ≤ b) :
    wrWord m a v b = m b := by
  unfold wrWord
  rw [Nat.mod_eq_of_lt (show a + 1 < W by omega), Nat.mod_eq_of_lt (show a + 2 < W by omega),
    Nat.mod_eq_of_lt ha, upd_other _ _ _ _ (by omega), upd_other _ _ _ _ (by omega),
    upd_other _ _ _ _ (by omega), upd_other _ _ _ _ (by omega)]

theorem rdWord_eq (m : Nat → Nat) (a : Nat) (ha : a + 3 < W) :
    rdWord m a = m a + 256 * m (a + 1) + 65536 * m (a + 2) + 16777216 * m (a + 3) := by
  unfold rdWord
  rw [Nat.mod_eq_of_lt (show a + 1 < W by omega), Nat.mod_eq_of_lt (show a + 2 < W by omega),
    Nat.mod_eq_of_lt ha]

theorem rdWord_wrWord (m : Nat → Nat) (a v : Nat) (ha : a + 3 < W) (hv : v < W) :
    rdWord (wrWord m a v) a = v := by
  rw [rdWord_eq _ _ ha]
  unfold wrWord
  rw [Nat.mod_eq_of_lt (show a + 1 < W by omega), Nat.mod_eq_of_lt (show a + 2 < W by omega),
    Nat.mod_eq_of_lt ha]
  rw [upd_same, upd_other _ _ _ (a + 2) (by omega), upd_same, upd_other _ _ _ (a + 1) (by omega),
    upd_other _ _ _ (a + 1) (by omega), upd_same, upd_other _ _ _ a (by omega),
    upd_other _ _ _ a (by omega), upd_other _ _ _ a (by omega), upd_same]
  unfold W at hv
  omega

theorem rdWord_congr (m m' : Nat → Nat) (a : Nat) (ha : a + 3 < W)
    (h : ∀ i, i < 4 → m' (a + i) = m (a + i)) : rdWord m' a = rdWord m a := by
  rw [rdWord_eq _ _ ha, rdWord_eq _ _ ha, h 1 (by omega), h 2 (by omega), h 3 (by omega)]
  have := h 0 (by omega)
  rw [Nat.add_zero] at this
  rw [this]

theorem CStr.congr {m m' : Nat → Nat} {p : Nat} {s : List Nat} (h : CStr m p s)
    (he : ∀ i, i < s.length + 1 → m' (p + i) = m (p + i)) : CStr m' p s := by
  refine ⟨fun i hi => ?_, ?_⟩
  · rw [he i (by omega)]; exact h.1 i hi
  · rw [he _ (by omega)]; exact h.2

/-- Size of strings with their NULs. -/
def szs (l : List (List Nat)) : Nat := (l.map (fun s => s.length + 1)).sum

theorem szs_cons (s : List Nat) (l : List (List Nat)) : szs (s :: l) = s.length + 1 + szs l := by
  simp [szs]

theorem arraySize_eq (l : List (List Nat)) : arraySize l = 4 * (l.length + 1) + szs l := rfl

theorem elem_eq {a i : Nat} (h : a + 4 * i < W) : elem a i = a + 4 * i := Nat.mod_eq_of_lt h

theorem readPtr_some {w : World} {a p : Nat} (ha : a + 3 < W) (h : readPtr w a = some p) :
    p = rdWord w.mem a ∧ ∀ i, i < 4 → w.rd (a + i) = true := by
  unfold readPtr at h
  rw [Nat.mod_eq_of_lt (show a + 1 < W by omega), Nat.mod_eq_of_lt (show a + 2 < W by omega),
    Nat.mod_eq_of_lt ha] at h
  split at h
  · rename_i hc
    simp only [Bool.and_eq_true] at hc
    refine ⟨(Option.some.inj h).symm, fun i hi => ?_⟩
    match i, hi with
    | 0, _ => exact hc.1.1.1
    | 1, _ => exact hc.1.1.2
    | 2, _ => exact hc.1.2
    | 3, _ => exact hc.2
  · cases h

theorem readPtr_of {w : World} {a : Nat} (ha : a + 3 < W) (h : ∀ i, i < 4 → w.rd (a + i) = true) :
    readPtr w a = some (rdWord w.mem a) := by
  unfold readPtr
  rw [Nat.mod_eq_of_lt (show a + 1 < W by omega), Nat.mod_eq_of_lt (show a + 2 < W by omega),
    Nat.mod_eq_of_lt ha]
  have h0 := h 0 (by omega)
  rw [Nat.add_zero] at h0
  rw [h0, h 1 (by omega), h 2 (by omega), h 3 (by omega)]
  rfl

theorem count_some (w : World) (uarr : Nat) (hu : uarr + 4 < W) (fuel : Nat) : ∀ argc n,
    (argc = 0 ∨ (uarr ≠ 0 ∧ uarr + 4 * argc ≤ BASE)) → countArgs w uarr argc fuel = some n →
    argc ≤ n ∧ uarr ≠ 0 ∧ uarr + 4 * (n + 1) ≤ BASE ∧
    (∀ j, argc ≤ j → j < n → ∃ p, readPtr w (uarr + 4 * j) = some p ∧ p ≠ 0) ∧
    readPtr w (uarr + 4 * n) = some 0 := by
  induction fuel with
  | zero => intro argc n _ h; cases h
  | succ fuel ih =>
    intro argc n hinv h
    have hBW : BASE + 4 < W := by decide
    unfold countArgs at h
    have he : elem uarr argc = uarr + 4 * argc := elem_eq (by omega)
    rw [he] at h
    split at h
    · cases h
    · rename_i ho
      have ho' : outOfRange (uarr + 4 * argc) 4 = false := by simpa using ho
      obtain ⟨h0, hB⟩ := (outOfRange_false (by omega)).1 ho'
      have hun : uarr ≠ 0 := by
        rcases hinv with h' | h'
        · omega
        · exact h'.1
      split at h
      · cases h
      · rename_i hp
        cases h
        exact ⟨Nat.le_refl _, hun, by omega, fun j h1 h2 => by omega, hp⟩
      · rename_i q hp
        obtain ⟨i1, i2, i3, i4, i5⟩ := ih (argc + 1) n (Or.inr ⟨hun, by omega⟩) h
        refine ⟨by omega, i2, i3, fun j h1 h2 => ?_, i5⟩
        by_cases hj : j = argc
        · rw [hj]; exact ⟨_, hp, by omega⟩
        · exact i4 j (by omega) h2

theorem count_of (w : World) (uarr n : Nat) (hu : uarr ≠ 0) (hB : uarr + 4 * (n + 1) ≤ BASE)
    (hnz : ∀ j, j < n → ∃ p, readPtr w (uarr + 4 * j) = some p ∧ p ≠ 0)
    (hz : readPtr w (uarr + 4 * n) = some 0) (fuel : Nat) : ∀ argc, argc ≤ n → n - argc < fuel →
    countArgs w uarr argc fuel = some n := by
  induction fuel with
  | zero => intro argc _ h; omega
  | succ fuel ih =>
    intro argc hle hf
    have hBW : BASE + 4 < W := by decide
    unfold countArgs
    rw [elem_eq (show uarr + 4 * argc < W by omega),
      (outOfRange_false (show uarr + 4 * argc + 4 < W by omega)).2 ⟨by omega, by omega⟩,
      if_neg (by simp)]
    by_cases h : argc = n
    · rw [h, hz]
    · obtain ⟨p, hp, hp0⟩ := hnz argc (by omega)
      rw [hp]
      obtain ⟨q, rfl⟩ : ∃ q, p = q + 1 := ⟨p - 1, by omega⟩
      exact ih (argc + 1) (by omega) (by omega)

/-- A string copy into the kernel's buffer, in the form the loop over the pointers needs. -/
theorem internalCopyStr_done (w : World) (d p dend : Nat) (hb : BASE ≤ d) (hw : dend < W)
    (hwr : ∀ a, d ≤ a → a < dend → w.wr a = true) :
    StrDone w d d p dend (internalCopyStr w d p dend) :=
  copyStrLoop_done d dend (dend - d) w d p (Nat.le_refl _) hb hw (Nat.le_refl _) hwr

/-- What the loop over the pointers has done when it returns. -/
structure ArrDone (adv : Nat → World → World) (dest uarr dend : Nat) (w : World)
    (todo i after written : Nat) (r : SRes) : Prop where
  frame : ∀ a, BASE ≤ a → (a < dest + 4 * i ∨ dest + 4 * (i + todo) ≤ a) →
    (a < after ∨ dend ≤ a) → r.w.mem a = w.mem a
  codes : r.rc = 0 ∨ r.rc = 1 ∨ r.rc = -1
  ok : r.rc = 0 → ∃ l : List (List Nat), l.length = todo ∧ after + szs l ≤ dend ∧
    r.written = written + szs l ∧
    (∀ j (h : j < l.length), after ≤ rdWord r.w.mem (dest + 4 * (i + j)) ∧
      rdWord r.w.mem (dest + 4 * (i + j)) + l[j].length + 1 ≤ after + szs l ∧
      CStr r.w.mem (rdWord r.w.mem (dest + 4 * (i + j))) l[j]) ∧
    ((∀ k v, adv k v = v) → ∀ j (h : j < l.length),
      ∃ p, readPtr w (elem uarr (i + j)) = some p ∧ UserStr w p l[j])

theorem UserStr.congr {w w' : World} {p : Nat} {s : List Nat}
    (hm : ∀ a, a < BASE → w'.mem a = w.mem a) (hr : ∀ a, w'.rd a = w.rd a)
    (h : UserStr w' p s) : UserStr w p s := by
  obtain ⟨h1, h2⟩ := h
  refine ⟨h1.congr fun i hi => ?_, fun i hi => ?_⟩
  · exact (hm _ (h2 i hi).1).symm
  · rw [← hr]; exact h2 i hi

theorem arrLoop_done (adv : Nat → World → World) (hadv : UserOnly adv) (dest uarr dend : Nat)
    (hb : BASE ≤ dest) (hw : dend < W) (todo : Nat) : ∀ (w : World) (i after written : Nat),
    dest + 4 * (i + todo + 1) ≤ after → after ≤ dend →
    (∀ a, dest ≤ a → a < dend → w.wr a = true) →
    (∀ j, j ≤ i + todo → elem uarr j + 3 < BASE) →
    ArrDone adv dest uarr dend w todo i after written
      (arrLoop adv dest uarr dend w todo i after written) := by
  induction todo with
  | zero =>
    intro w i after written h1 h2 h3 _
    refine ⟨fun a _ _ _ => rfl, Or.inl rfl, fun _ => ⟨[], rfl, by simpa [szs] using h2,
      by simp [szs, arrLoop], fun j h => absurd h (by simp), fun _ j h => absurd h (by simp)⟩⟩
  | succ todo ih =>
    intro w i after written h1 h2 h3 hue
    have hBW : BASE + 4 < W := by decide
    unfold arrLoop
    dsimp only
    rw [elem_eq (show dest + 4 * i < W by omega)]
    have hadv1 := hadv i (w.setWord (dest + 4 * i) after)
    have hset : ∀ a, (a < dest + 4 * i ∨ dest + 4 * i + 4 ≤ a) →
        (w.setWord (dest + 4 * i) after).mem a = w.mem a :=
      fun a ha => wrWord_frame _ _ _ _ (by omega) ha
    have hptr : rdWord (w.setWord (dest + 4 * i) after).mem (dest + 4 * i) = after :=
      rdWord_wrWord _ _ _ (by omega) (by omega)
    have hid : (∀ k v, adv k v = v) → adv i (w.setWord (dest + 4 * i) after) =
      w.setWord (dest + 4 * i) after := fun h => h _ _
    have hwr1 : ∀ a, dest ≤ a → a < dend →
        (adv i (w.setWord (dest + 4 * i) after)).wr a = true := fun a g1 g2 => by
      rw [(hadv1.2 a (by omega)).2]; exact h3 a g1 g2
    have hm1 : ∀ a, BASE ≤ a → (a < dest + 4 * i ∨ dest + 4 * i + 4 ≤ a) →
        (adv i (w.setWord (dest + 4 * i) after)).mem a = w.mem a := fun a g1 g2 => by
      rw [hadv1.1 a g1]; exact hset a g2
    have hp1 : rdWord (adv i (w.setWord (dest + 4 * i) after)).mem (dest + 4 * i) = after := by
      refine Eq.trans ?_ hptr
      exact rdWord_congr _ _ _ (by omega) fun k _ => hadv1.1 _ (by omega)
    generalize adv i (w.setWord (dest + 4 * i) after) = w1 at *
    cases hrp : readPtr w1 (elem uarr i) with
    | none =>
      refine ⟨fun a g1 g2 g3 => hm1 a g1 (by omega), Or.inr (Or.inr rfl),
        fun h => absurd h (by simp)⟩
    | some p =>
      dsimp only
      have hs := internalCopyStr_done w1 after p dend (by omega) hw
        (fun a g1 g2 => hwr1 a (by omega) g2)
      generalize internalCopyStr w1 after p dend = r at hs ⊢
      by_cases hrc : r.rc = 0
      · rw [if_pos hrc]
        obtain ⟨len, l1, l2, l3, l4, l5, l6⟩ := hs.ok hrc
        have hwrit : r.written = len + 1 := by omega
        rw [hwrit]
        have hih := ih r.w (i + 1) (after + (len + 1)) (written + (len + 1)) (by omega) (by omega)
          (fun a g1 g2 => by
            have := hwr1 a g1 g2
            unfold World.wr at this ⊢; rw [hs.pages.2]; exact this)
          (fun j hj => hue j (by omega))
        generalize arrLoop adv dest uarr dend r.w todo (i + 1) (after + (len + 1))
          (written + (len + 1)) = q at hih ⊢
        refine ⟨fun a g1 g2 g3 => ?_, hih.codes, fun h => ?_⟩
        · rw [hih.frame a g1 (by omega) (by omega), hs.frame a (by omega)]
          exact hm1 a g1 (by omega)
        · obtain ⟨l, e1, e2, e3, e4, e5⟩ := hih.ok h
          have hstr : CStr w1.mem p ((List.range len).map fun i => w1.mem (p + i)) :=
            str_of_bytes _ _ _ l2 l3
          have hlen : ((List.range len).map fun i => w1.mem (p + i)).length = len := by simp
          generalize (List.range len).map (fun i => w1.mem (p + i)) = s at hstr hlen
          have hq0 : rdWord q.w.mem (dest + 4 * i) = after := by
            rw [← hp1]
            refine rdWord_congr _ _ _ (by omega) fun k hk => ?_
            rw [hih.frame _ (by omega) (by omega) (by omega), hs.frame _ (by omega)]
          refine ⟨s :: l, by simp [e1], ?_, ?_, fun j hj => ?_, fun had j hj => ?_⟩
          · rw [szs_cons]; omega
          · rw [szs_cons]; omega
          · cases j with
            | zero =>
              simp only [Nat.add_zero, List.getElem_cons_zero]
              rw [hq0, szs_cons]
              refine ⟨Nat.le_refl _, by omega, ?_⟩
              refine ⟨fun k hk => ?_, ?_⟩
              · rw [hih.frame _ (by omega) (by omega) (by omega), l6 k (by omega)]
                exact hstr.1 k hk
              · rw [hih.frame _ (by omega) (by omega) (by omega), hlen, l6 len (Nat.le_refl _)]
                exact l3
            | succ j =>
              have hj' : j < l.length := by simpa using hj
              obtain ⟨f1, f2, f3⟩ := e4 j hj'
              simp only [List.getElem_cons_succ]
              rw [show i + (j + 1) = i + 1 + j by omega, szs_cons]
              exact ⟨by omega, by omega, f3⟩
          · have hw1 : ∀ a, a < BASE → w1.mem a = w.mem a := fun a ha => by
              rw [hid had]; exact hset a (by omega)
            have hw1r : ∀ a, w1.rd a = w.rd a := fun a => by rw [hid had]; rfl
            cases j with
            | zero =>
              refine ⟨p, ?_, ?_⟩
              · rw [Nat.add_zero]
                have hb3 := hue i (by omega)
                have hsome := readPtr_some (by omega) hrp
                rw [readPtr_of (by omega) (fun k hk => by rw [← hw1r]; exact hsome.2 k hk), hsome.1]
                rw [rdWord_congr w.mem w1.mem _ (by omega) fun k hk => hw1 _ (by omega)]
              · refine UserStr.congr hw1 hw1r ⟨hstr, ?_⟩
                simp only [List.getElem_cons_zero]
                rw [hlen]; exact l4
            | succ j =>
              have hj' : j < l.length := by simpa using hj
              obtain ⟨p', f1, f2⟩ := e5 had j hj'
              have hrw : ∀ a, a < BASE → r.w.mem a = w.mem a := fun a ha => by
                rw [hs.frame a (by omega)]; exact hw1 a ha
              have hrr : ∀ a, r.w.rd a = w.rd a := fun a => by
                rw [← hw1r]; unfold World.rd; rw [hs.pages.1]
              refine ⟨p', ?_, UserStr.congr hrw hrr f2⟩
              rw [show i + (j + 1) = i + 1 + j by omega]
              have hb3 := hue (i + 1 + j) (by omega)
              have hsome := readPtr_some (by omega) f1
              rw [readPtr_of (by omega) (fun k hk => by rw [← hrr]; exact hsome.2 k hk), hsome.1]
              rw [rdWord_congr w.mem r.w.mem _ (by omega) fun k hk => hrw _ (by omega)]
      · rw [if_neg hrc]
        refine ⟨fun a g1 g2 g3 => ?_, hs.codes, fun h => absurd h hrc⟩
        show r.w.mem a = w.mem a
        rw [hs.frame a (by omega)]; exact hm1 a g1 (by omega)

theorem StrDone.of_str {w : World} {d p dend : Nat} {r : SRes} {s : List Nat}
    (hd : StrDone w d d p dend r) (hs : UserStr w p s) :
    (d + s.length + 1 ≤ dend → r.rc = 0 ∧ r.written = s.length + 1) ∧
    (dend < d + s.length + 1 → r.rc = 1) := by
  obtain ⟨hs, hr⟩ := hs
  constructor
  · intro hl
    have h0 : r.rc = 0 := by
      rcases hd.codes with h | h | h
      · exact h
      · exact absurd hs.2 ((hd.full h).2 s.length (by omega))
      · obtain ⟨k, k1, k2, k3, k4⟩ := hd.fault h
        exfalso
        by_cases hks : k < s.length + 1
        · exact k4 (hr k hks)
        · exact k3 s.length (by omega) hs.2
    obtain ⟨len, l1, l2, l3, l4, l5, l6⟩ := hd.ok h0
    have hse := CStr.unique hs (str_of_bytes _ _ _ l2 l3)
    have hlen : s.length = len := by rw [hse]; simp
    exact ⟨h0, by omega⟩
  · intro hl
    rcases hd.codes with h | h | h
    · obtain ⟨len, l1, l2, l3, l4, l5, l6⟩ := hd.ok h
      have hse := CStr.unique hs (str_of_bytes _ _ _ l2 l3)
      have hlen : s.length = len := by rw [hse]; simp
      omega
    · exact h
    · obtain ⟨k, k1, k2, k3, k4⟩ := hd.fault h
      exact absurd (hr k (by omega)) k4

theorem arrLoop_complete (adv : Nat → World → World) (had : ∀ k v, adv k v = v)
    (dest uarr dend : Nat) (hb : BASE ≤ dest) (hw : dend < W) (ls : List (List Nat)) :
    ∀ (w : World) (i after written : Nat),
    dest + 4 * (i + ls.length + 1) ≤ after → after ≤ dend →
    (∀ a, dest ≤ a → a < dend → w.wr a = true) →
    (∀ j, j ≤ i + ls.length → elem uarr j + 3 < BASE) →
    (∀ j (h : j < ls.length), ∃ p, readPtr w (elem uarr (i + j)) = some p ∧ UserStr w p ls[j]) →
    (after + szs ls ≤ dend → (arrLoop adv dest uarr dend w ls.length i after written).rc = 0) ∧
    (dend < after + szs ls → (arrLoop adv dest uarr dend w ls.length i after written).rc = 1) := by
  induction ls with
  | nil =>
    intro w i after written h1 h2 h3 _ _
    exact ⟨fun _ => rfl, fun h => by simp [szs] at h; omega⟩
  | cons s ls ih =>
    intro w i after written h1 h2 h3 hue hstr
    rw [List.length_cons] at h1 hue
    have hBW : BASE + 4 < W := by decide
    rw [List.length_cons]
    unfold arrLoop
    dsimp only
    rw [elem_eq (show dest + 4 * i < W by omega), had]
    have hset : ∀ a, a < BASE → (w.setWord (dest + 4 * i) after).mem a = w.mem a :=
      fun a ha => wrWord_frame _ _ _ _ (by omega) (by omega)
    have hsr : ∀ a, (w.setWord (dest + 4 * i) after).rd a = w.rd a := fun a => rfl
    have hsw : ∀ a, (w.setWord (dest + 4 * i) after).wr a = w.wr a := fun a => rfl
    generalize w.setWord (dest + 4 * i) after = w1 at *
    have mv : ∀ (w2 : World), (∀ a, a < BASE → w2.mem a = w.mem a) → (∀ a, w2.rd a = w.rd a) →
        ∀ j (h : j < (s :: ls).length), ∃ p, readPtr w2 (elem uarr (i + j)) = some p ∧
          UserStr w2 p (s :: ls)[j] := by
      intro w2 g1 g2 j hj
      obtain ⟨p, f1, f2⟩ := hstr j hj
      have hj' : j < ls.length + 1 := hj
      have hb3 := hue (i + j) (by omega)
      have hsome := readPtr_some (by omega) f1
      refine ⟨p, ?_, UserStr.congr (fun a ha => (g1 a ha).symm) (fun a => (g2 a).symm) f2⟩
      rw [readPtr_of (by omega) (fun k hk => by rw [g2]; exact hsome.2 k hk), hsome.1]
      rw [rdWord_congr w.mem w2.mem _ (by omega) fun k hk => g1 _ (by omega)]
    obtain ⟨p, hp1, hp2⟩ := mv w1 hset hsr 0 (by simp)
    rw [Nat.add_zero] at hp1
    rw [hp1]
    dsimp only
    have hs := internalCopyStr_done w1 after p dend (by omega) hw
      (fun a g1 g2 => by rw [hsw]; exact h3 a (by omega) g2)
    generalize internalCopyStr w1 after p dend = r at hs ⊢
    simp only [List.getElem_cons_zero] at hp2
    obtain ⟨hfit, hnot⟩ := hs.of_str hp2
    by_cases hf : after + s.length + 1 ≤ dend
    · obtain ⟨h0, hwr⟩ := hfit hf
      rw [if_pos h0, hwr, szs_cons]
      have hrm : ∀ a, a < BASE → r.w.mem a = w.mem a := fun a ha => by
        rw [hs.frame a (by omega)]; exact hset a ha
      have hrr : ∀ a, r.w.rd a = w.rd a := fun a => by
        rw [← hsr]; unfold World.rd; rw [hs.pages.1]
      have := ih r.w (i + 1) (after + (s.length + 1)) (written + (s.length + 1)) (by omega)
        (by omega) (fun a g1 g2 => by
          have := h3 a g1 g2
          rw [← hsw] at this
          unfold World.wr at this ⊢; rw [hs.pages.2]; exact this)
        (fun j hj => hue j (by omega))
        (fun j hj => by
          have := mv r.w hrm hrr (j + 1) (by simp; omega)
          simp only [List.getElem_cons_succ] at this
          rw [show i + 1 + j = i + (j + 1) by omega]; exact this)
      exact ⟨fun g => this.1 (by omega), fun g => this.2 (by omega)⟩
    · have h1' := hnot (by omega)
      rw [if_neg (by omega), szs_cons]
      exact ⟨fun g => by omega, fun _ => h1'⟩

/-- Among the first pointers of the array — as many as 4-byte slots fit between the kernel's
buffer and the top of the address space — one is NULL or cannot be read. -/
def ShortArray (w : World) (dest uarr : Nat) : Prop :=
  ∃ j, dest + 4 * j < W ∧ (¬ UserReadable w (uarr + 4 * j) 4 ∨ rdWord w.mem (uarr + 4 * j) = 0)

theorem count_short {w : World} {dest uarr n : Nat} (hu : uarr + 4 < W)
    (hs : ShortArray w dest uarr) (hc : countArgs w uarr 0 ARGFUEL = some n) :
    dest + 4 * n < W ∧ uarr ≠ 0 ∧ uarr + 4 * (n + 1) ≤ BASE ∧
    (∀ j, j < n → ∃ p, readPtr w (uarr + 4 * j) = some p ∧ p ≠ 0) ∧
    readPtr w (uarr + 4 * n) = some 0 := by
  obtain ⟨_, h2, h3, h4, h5⟩ := count_some w uarr hu _ 0 n (Or.inl rfl) hc
  refine ⟨?_, h2, h3, fun j hj => h4 j (Nat.zero_le _) hj, h5⟩
  obtain ⟨j, j1, j2⟩ := hs
  have hBW : BASE + 4 < W := by decide
  by_cases hj : j < n
  · exfalso
    obtain ⟨p, p1, p2⟩ := h4 j (Nat.zero_le _) hj
    have hp := readPtr_some (by omega) p1
    rcases j2 with g | g
    · exact g fun i hi => ⟨by omega, hp.2 i hi⟩
    · exact p2 (hp.1.trans g)
  · omega

/-- The state in which the strings are copied. -/
theorem copyArr_unfold (adv : Nat → World → World) (w : World) (dest uarr max : Nat)
    (hk : KBuf w dest max) (hu : uarr + 4 < W) (hs : ShortArray w dest uarr) :
    ((copyArr adv w dest uarr max).rc = -1 ∧ (copyArr adv w dest uarr max).w = w ∧
      countArgs w uarr 0 ARGFUEL = none) ∨
    ∃ n, countArgs w uarr 0 ARGFUEL = some n ∧ dest + 4 * n < W ∧ uarr ≠ 0 ∧
      uarr + 4 * (n + 1) ≤ BASE ∧
      (∀ j, j < n → ∃ p, readPtr w (uarr + 4 * j) = some p ∧ p ≠ 0) ∧
      readPtr w (uarr + 4 * n) = some 0 ∧
      ((max < 4 * (n + 1) ∧ (copyArr adv w dest uarr max).rc = 1 ∧
        (copyArr adv w dest uarr max).w = w) ∨
       (4 * (n + 1) ≤ max ∧ copyArr adv w dest uarr max =
        arrLoop adv dest uarr (dest + max) (w.setWord (dest + 4 * n) 0) n 0 (dest + 4 * (n + 1))
          (4 * (n + 1)))) := by
  obtain ⟨hb, hw, hm⟩ := hk
  unfold copyArr
  cases hc : countArgs w uarr 0 ARGFUEL with
  | none => exact Or.inl ⟨rfl, rfl, rfl⟩
  | some n =>
    right
    obtain ⟨c1, c2, c3, c4, c5⟩ := count_short hu hs hc
    refine ⟨n, rfl, c1, c2, c3, c4, c5, ?_⟩
    dsimp only
    rw [elem_eq c1]
    have hb4 : 4 ≤ BASE := by decide
    by_cases h : dest + 4 * n > dest + max - 4
    · rw [if_pos h]; exact Or.inl ⟨by omega, rfl, rfl⟩
    · rw [if_neg h, elem_eq (show dest + 4 * (n + 1) < W by omega)]
      exact Or.inr ⟨by omega, rfl⟩

/-- **C98, C99.** Copying an argument vector (`argv` or the environment), whatever the process's
memory holds and whatever other tasks do to it meanwhile: the kernel's memory outside the buffer
never changes; and if the call succeeds the buffer holds a NULL-terminated array of pointers to
NUL-terminated strings, all of it inside the buffer, whose size is the one reported.  For
vectors that do not start in the last four bytes of the address space and are not so long that
`dest + 4 * argc` wraps. -/
theorem copy_array_in_bounds_partial (adv : Nat → World → World) (hadv : UserOnly adv) (w : World)
    (dest uarr max : Nat) (hk : KBuf w dest max) (hu : uarr + 4 < W)
    (hs : ShortArray w dest uarr) :
    (∀ a, BASE ≤ a → (a < dest ∨ dest + max ≤ a) →
      (copyArr adv w dest uarr max).w.mem a = w.mem a) ∧
    ((copyArr adv w dest uarr max).rc = 0 → ∃ l,
      StrArray (copyArr adv w dest uarr max).w.mem dest l ∧
      (copyArr adv w dest uarr max).written = arraySize l ∧ arraySize l ≤ max ∧
      ∀ i (h : i < l.length),
        dest ≤ rdWord (copyArr adv w dest uarr max).w.mem (dest + 4 * i) ∧
        rdWord (copyArr adv w dest uarr max).w.mem (dest + 4 * i) + l[i].length + 1 ≤
          dest + arraySize l) := by
  rcases copyArr_unfold adv w dest uarr max hk hu hs with ⟨h1, h2, _⟩ | ⟨n, hc, n1, n2, n3, n4, n5, h⟩
  · exact ⟨fun a _ _ => by rw [h2], fun h => by rw [h1] at h; cases h⟩
  obtain ⟨hb, hw, hm⟩ := hk
  have hBW : BASE + 4 < W := by decide
  have hb0 : 0 < BASE := by decide
  rcases h with ⟨hx, h1, h2⟩ | ⟨hx, h⟩
  · exact ⟨fun a _ _ => by rw [h2], fun h => by rw [h1] at h; cases h⟩
  rw [h]
  have hd := arrLoop_done adv hadv dest uarr (dest + max) hb hw n (w.setWord (dest + 4 * n) 0) 0
    (dest + 4 * (n + 1)) (4 * (n + 1)) (by omega) (by omega)
    (fun a g1 g2 => by
      have := (hm (a - dest) (by omega)).2
      rw [show dest + (a - dest) = a by omega] at this
      exact this)
    (fun j hj => by rw [elem_eq (by omega)]; omega)
  generalize arrLoop adv dest uarr (dest + max) (w.setWord (dest + 4 * n) 0) n 0
    (dest + 4 * (n + 1)) (4 * (n + 1)) = r at hd ⊢
  refine ⟨fun a g1 g2 => ?_, fun h0 => ?_⟩
  · rw [hd.frame a g1 (by omega) (by omega)]
    exact wrWord_frame _ _ _ _ (by omega) (by omega)
  · obtain ⟨l, e1, e2, e3, e4, _⟩ := hd.ok h0
    have e4' : ∀ j (h : j < l.length), dest + 4 * (n + 1) ≤ rdWord r.w.mem (dest + 4 * j) ∧
      rdWord r.w.mem (dest + 4 * j) + l[j].length + 1 ≤ dest + 4 * (n + 1) + szs l ∧
      CStr r.w.mem (rdWord r.w.mem (dest + 4 * j)) l[j] := fun j hj => by
        have := e4 j hj; rwa [Nat.zero_add] at this
    refine ⟨l, ⟨fun i hi => ⟨?_, (e4' i hi).2.2⟩, ?_⟩, ?_, ?_, fun i hi => ?_⟩
    · have := (e4' i hi).1; omega
    · rw [e1, ← rdWord_wrWord w.mem (dest + 4 * n) 0 (by omega) (by decide)]
      exact rdWord_congr _ _ _ (by omega) fun k hk => hd.frame _ (by omega) (by omega) (by omega)
    · rw [arraySize_eq, e1]; omega
    · rw [arraySize_eq, e1]; omega
    · have := e4' i hi; rw [arraySize_eq]; omega

/-- **C99.** Copying an argument vector no other task is changing: if it can be read, it arrives
whole exactly when it fits — the buffer then holds pointers to exactly the process's strings, in
order, and a NULL — and is refused as too big exactly when it does not fit.  Success for a vector
that cannot be read is impossible. -/
theorem copy_array_correct_partial (w : World) (dest uarr max : Nat) (hk : KBuf w dest max)
    (hu : uarr + 4 < W) (hs : ShortArray w dest uarr) :
    (∀ l, StrArray w.mem uarr l → ArrayReadable w uarr l →
      (arraySize l ≤ max →
        (copyArr (fun _ v => v) w dest uarr max).rc = 0 ∧
        (copyArr (fun _ v => v) w dest uarr max).written = arraySize l ∧
        StrArray (copyArr (fun _ v => v) w dest uarr max).w.mem dest l) ∧
      (max < arraySize l → (copyArr (fun _ v => v) w dest uarr max).rc = 1)) ∧
    ((copyArr (fun _ v => v) w dest uarr max).rc = 0 →
      ∃ l, StrArray w.mem uarr l ∧ ArrayReadable w uarr l ∧ arraySize l ≤ max) := by
  have hadv : UserOnly (fun _ v => v) := fun i v => ⟨fun _ _ => rfl, fun _ _ => ⟨rfl, rfl⟩⟩
  obtain ⟨_, hgood⟩ := copy_array_in_bounds_partial _ hadv w dest uarr max hk hu hs
  have hBW : BASE + 4 < W := by decide
  -- what `countArgs` finds for a readable vector
  have hcount : ∀ l, StrArray w.mem uarr l → ArrayReadable w uarr l →
      uarr + 4 * (l.length + 1) ≤ BASE ∧
      (∀ j (h : j < l.length), readPtr w (uarr + 4 * j) = some (rdWord w.mem (uarr + 4 * j))) ∧
      countArgs w uarr 0 ARGFUEL = some l.length := by
    intro l ⟨a1, a2⟩ ⟨b0, b1, b2⟩
    have hB : uarr + 4 * (l.length + 1) ≤ BASE := by
      have := (b1 (4 * l.length + 3) (by omega)).1; omega
    have hrd : ∀ j, j ≤ l.length → readPtr w (uarr + 4 * j) = some (rdWord w.mem (uarr + 4 * j)) := by
      intro j hj
      refine readPtr_of (by omega) fun i hi => ?_
      have := (b1 (4 * j + i) (by omega)).2
      rwa [show uarr + (4 * j + i) = uarr + 4 * j + i by omega] at this
    refine ⟨hB, fun j hj => hrd j (by omega), count_of w uarr l.length b0 hB
      (fun j hj => ⟨_, hrd j (by omega), (a1 j hj).1⟩) ?_ ARGFUEL 0 (Nat.zero_le _) ?_⟩
    · rw [hrd _ (Nat.le_refl _), a2]
    · unfold ARGFUEL; unfold BASE at hB; omega
  rcases copyArr_unfold (fun _ v => v) w dest uarr max hk hu hs with
    ⟨h1, h2, h3⟩ | ⟨n, hc, n1, n2, n3, n4, n5, h⟩
  · refine ⟨fun l g1 g2 => ?_, fun h => by rw [h1] at h; cases h⟩
    rw [(hcount l g1 g2).2.2] at h3; cases h3
  obtain ⟨hb, hw, hm⟩ := hk
  rcases h with ⟨hx, h1, h2⟩ | ⟨hx, h⟩
  · refine ⟨fun l g1 g2 => ⟨fun g3 => ?_, fun _ => h1⟩, fun h => by rw [h1] at h; cases h⟩
    rw [(hcount l g1 g2).2.2] at hc
    cases hc
    rw [arraySize_eq] at g3; omega
  have hwr : ∀ a, dest ≤ a → a < dest + max → (w.setWord (dest + 4 * n) 0).wr a = true :=
    fun a g1 g2 => by
      have := (hm (a - dest) (by omega)).2
      rw [show dest + (a - dest) = a by omega] at this
      exact this
  have hue : ∀ j, j ≤ 0 + n → elem uarr j + 3 < BASE :=
    fun j hj => by rw [elem_eq (by omega)]; omega
  have hset : ∀ a, a < BASE → (w.setWord (dest + 4 * n) 0).mem a = w.mem a :=
    fun a ha => wrWord_frame _ _ _ _ (by omega) (by omega)
  have hrp : ∀ j, j < n → ∀ p, readPtr (w.setWord (dest + 4 * n) 0) (uarr + 4 * j) = some p →
      p = rdWord w.mem (uarr + 4 * j) := fun j hj p hp => by
    rw [(readPtr_some (by omega) hp).1]
    exact rdWord_congr _ _ _ (by omega) fun k hk => hset _ (by omega)
  have hd := arrLoop_done (fun _ v => v) hadv dest uarr (dest + max) hb hw n
    (w.setWord (dest + 4 * n) 0) 0 (dest + 4 * (n + 1)) (4 * (n + 1)) (by omega) (by omega) hwr hue
  have hcomp : ∀ l, StrArray w.mem uarr l → ArrayReadable w uarr l → l.length = n →
      (arraySize l ≤ max → (copyArr (fun _ v => v) w dest uarr max).rc = 0) ∧
      (max < arraySize l → (copyArr (fun _ v => v) w dest uarr max).rc = 1) := by
    intro l g1 g2 hl
    obtain ⟨_, k2, _⟩ := hcount l g1 g2
    have := arrLoop_complete (fun _ v => v) (fun _ _ => rfl) dest uarr (dest + max) hb hw l
      (w.setWord (dest + 4 * n) 0) 0 (dest + 4 * (n + 1)) (4 * (n + 1)) (by omega) (by omega) hwr
      (by rw [hl]; exact hue)
      (fun j hj => by
        have hj' : j < n := by omega
        rw [Nat.zero_add, elem_eq (by omega)]
        have hsome := readPtr_some (by omega) (k2 j hj)
        refine ⟨rdWord w.mem (uarr + 4 * j), ?_, ?_⟩
        · rw [readPtr_of (w := w.setWord (dest + 4 * n) 0) (by omega) (fun k hk => hsome.2 k hk)]
          rw [rdWord_congr w.mem _ _ (by omega) fun k hk => hset _ (by omega)]
        · refine UserStr.congr (w' := w) (fun a ha => (hset a ha).symm) (fun a => rfl)
            ⟨(g1.1 j hj).2, g2.2.2 j hj⟩)
    rw [hl] at this
    rw [h, arraySize_eq, hl]
    exact ⟨fun g => this.1 (by omega), fun g => this.2 (by omega)⟩
  -- the strings found are the process's
  have hfound : (copyArr (fun _ v => v) w dest uarr max).rc = 0 → ∃ l, l.length = n ∧
      StrArray w.mem uarr l ∧ ArrayReadable w uarr l ∧ arraySize l ≤ max ∧
      (copyArr (fun _ v => v) w dest uarr max).written = arraySize l ∧
      ∀ j (hj : j < l.length), CStr (copyArr (fun _ v => v) w dest uarr max).w.mem
        (rdWord (copyArr (fun _ v => v) w dest uarr max).w.mem (dest + 4 * j)) l[j] := by
    intro h0
    rw [h] at h0 ⊢
    obtain ⟨l, e1, e2, e3, e4, e5⟩ := hd.ok h0
    have e5' : ∀ j (hj : j < l.length), UserStr w (rdWord w.mem (uarr + 4 * j)) l[j] := by
      intro j hj
      obtain ⟨p, p1, p2⟩ := e5 (fun _ _ => rfl) j hj
      rw [Nat.zero_add, elem_eq (by omega)] at p1
      rw [← hrp j (by omega) p p1]
      exact UserStr.congr hset (fun a => rfl) p2
    refine ⟨l, e1, ⟨fun j hj => ⟨?_, (e5' j hj).1⟩, ?_⟩, ⟨n2, fun i hi => ?_,
      fun j hj => (e5' j hj).2⟩, ?_, ?_, fun j hj => ?_⟩
    · obtain ⟨p, p1, p2⟩ := n4 j (by omega)
      rw [← (readPtr_some (by omega) p1).1]; exact p2
    · rw [e1]; exact (readPtr_some (by omega) n5).1.symm
    · have hi' : i < 4 * (n + 1) := by omega
      have hq : ∃ p, readPtr w (uarr + 4 * (i / 4)) = some p := by
        by_cases hlt : i / 4 < n
        · obtain ⟨p, p1, _⟩ := n4 _ hlt; exact ⟨p, p1⟩
        · exact ⟨0, by rw [show i / 4 = n by omega]; exact n5⟩
      obtain ⟨p, hp⟩ := hq
      have := (readPtr_some (by omega) hp).2 (i % 4) (by omega)
      rw [show uarr + 4 * (i / 4) + i % 4 = uarr + i by omega] at this
      exact ⟨by omega, this⟩
    · rw [arraySize_eq]; omega
    · rw [arraySize_eq]; omega
    · have := (e4 j hj).2.2; rwa [Nat.zero_add] at this
  have huniq : ∀ l l', StrArray w.mem uarr l → StrArray w.mem uarr l' → l.length = l'.length →
      l = l' := by
    intro l l' g1 g2 hl
    refine List.ext_getElem hl fun i i1 i2 => ?_
    exact CStr.unique (g1.1 i i1).2 (g2.1 i i2).2
  refine ⟨fun l g1 g2 => ?_, fun h0 => ?_⟩
  · have hl : l.length = n := by
      have := (hcount l g1 g2).2.2
      rw [hc] at this; exact (Option.some.inj this).symm
    obtain ⟨c1, c2⟩ := hcomp l g1 g2 hl
    refine ⟨fun hf => ?_, c2⟩
    have h0 := c1 hf
    obtain ⟨l', f1, f2, f3, f4, f5, f6⟩ := hfound h0
    have hll : l' = l := huniq l' l f2 g1 (by omega)
    subst hll
    obtain ⟨l2, ⟨q1, q2⟩, q3, q4, q5⟩ := hgood h0
    have hl2 : l2.length = l'.length := by
      rcases Nat.lt_trichotomy l2.length l'.length with hh | hh | hh
      · exfalso
        -- the NULL of the copy would be one of the string pointers
        have hq := (hd.ok (by rw [h] at h0; exact h0))
        obtain ⟨l3, z1, z2, z3, z4, _⟩ := hq
        have := (z4 l2.length (by omega)).1
        rw [Nat.zero_add] at this
        rw [h] at q2; omega
      · exact hh
      · exfalso
        have hz := (q1 n (by omega)).1
        apply hz
        rw [h]
        refine Eq.trans ?_ (rdWord_wrWord w.mem (dest + 4 * n) 0 (by omega) (by decide))
        exact rdWord_congr _ _ _ (by omega) fun k hk =>
          hd.frame _ (by omega) (by omega) (by omega)
    have hl2e : l2 = l' := by
      refine List.ext_getElem hl2 fun i i1 i2 => ?_
      exact CStr.unique (q1 i i1).2 (f6 i i2)
    subst hl2e
    exact ⟨h0, f5, ⟨q1, q2⟩⟩
  · obtain ⟨l, f1, f2, f3, f4, _, _⟩ := hfound h0
    exact ⟨l, f2, f3, f4⟩

/-! ### A vector long enough for the index to wrap -/

/-- A process with a gigabyte of address space full of non-NULL pointers (for instance one page of
a file mapped again and again) and a NULL after `n` of them.  The first 1025 point to an empty
string, the others outside the process.  Every byte of the kernel's memory is 77. -/
def longWorld (u n : Nat) : World :=
  allMapped fun a => if u ≤ a ∧ a < u + 4100 then 1 else if u + 4100 ≤ a ∧ a < u + 4 * n then 255
    else if BASE ≤ a then 77 else 0

theorem rdWord_const (m : Nat → Nat) (a v : Nat) (ha : a + 3 < W)
    (h : ∀ i, i < 4 → m (a + i) = v) : rdWord m a = v * 16843009 := by
  have h0 := h 0 (by omega)
  rw [Nat.add_zero] at h0
  rw [rdWord_eq _ _ ha, h0, h 1 (by omega), h 2 (by omega), h 3 (by omega)]
  omega

theorem longWorld_count (u n : Nat) (hu : u ≠ 0) (hB : u + 4 * (n + 1) ≤ BASE) (hn : 1025 ≤ n) :
    countArgs (longWorld u n) u 0 ARGFUEL = some n := by
  have hBW : BASE + 4 < W := by decide
  refine count_of _ u n hu hB (fun j hj => ?_) ?_ ARGFUEL 0 (Nat.zero_le _) ?_
  · rw [readPtr_of (by omega) (fun i _ => rfl)]
    by_cases h : j < 1025
    · refine ⟨_, rfl, ?_⟩
      rw [rdWord_const (longWorld u n).mem _ 1 (by omega)
        (fun i hi => if_pos (show u ≤ u + 4 * j + i ∧ _ from ⟨by omega, by omega⟩))]
      decide
    · refine ⟨_, rfl, ?_⟩
      rw [rdWord_const (longWorld u n).mem _ 255 (by omega)
        (fun i hi => (if_neg (by omega)).trans (if_pos (⟨by omega, by omega⟩)))]
      decide
  · rw [readPtr_of (by omega) (fun i _ => rfl), rdWord_const _ _ 0 (by omega)]
    intro i hi
    exact (if_neg (by omega)).trans ((if_neg (by omega)).trans (if_neg (by omega)))
  · unfold ARGFUEL; unfold BASE at hB; omega

/-- Copying an empty string low in memory. -/
theorem empty_str (w : World) (d p dend : Nat) (hm : ∀ a, w.rd a = true ∧ w.wr a = true)
    (hd : d + 64 ≤ p) (hp : p < BASE) (hde : d < dend) (h0 : w.mem p = 0) :
    (internalCopyStr w d p dend).rc = 0 ∧ (internalCopyStr w d p dend).written = 1 ∧
    (∀ a, d + 64 ≤ a → (internalCopyStr w d p dend).w.mem a = w.mem a) ∧
    (∀ a, (internalCopyStr w d p dend).w.rd a = true ∧
      (internalCopyStr w d p dend).w.wr a = true) := by
  have hBW : BASE + 4 < W := by decide
  unfold internalCopyStr
  obtain ⟨f, hf⟩ : ∃ f, dend - d = f + 1 := ⟨dend - d - 1, by omega⟩
  rw [hf]
  unfold copyStrLoop
  rw [if_pos hde, if_neg (by omega)]
  dsimp only
  have hpos := chunkOf_pos hde hp
  obtain ⟨hc1, hc2, hc3⟩ := chunkOf_le d p dend
  have hc4 : chunkOf d p dend ≤ 64 := Nat.min_le_right _ _
  generalize chunkOf d p dend = c at *
  have hok := (archCopy_ok c w d p (by omega) (by omega)).2 fun i _ => ⟨(hm _).1, (hm _).2⟩
  have hdat := archCopy_data c w d p (by omega) (by omega) (by omega) hok
  have hfr := archCopy_frame c w d p (by omega) (by omega)
  have hpg := archCopy_pages c w d p
  rw [if_pos hok]
  have hz : scanNul (archCopy w d p c).2.mem d c = 0 := by
    obtain ⟨c', rfl⟩ : ∃ c', c = c' + 1 := ⟨c - 1, by omega⟩
    conv => lhs; unfold scanNul
    have : (archCopy w d p (c' + 1)).2.mem d = w.mem p := hdat 0 (by omega)
    rw [h0] at this
    exact if_pos this
  rw [hz, if_pos hpos]
  refine ⟨rfl, by dsimp only; omega, fun a ha => hfr a (by omega), fun a => ?_⟩
  have := hm a
  unfold World.rd World.wr at this ⊢
  dsimp only
  rw [hpg.1, hpg.2]; exact this

/-- What holds after `k` strings. -/
structure LongInv (u n dest k : Nat) (w : World) : Prop where
  all : ∀ a, w.rd a = true ∧ w.wr a = true
  user : ∀ a, 65536 ≤ a → a < BASE → w.mem a = (longWorld u n).mem a
  hit : 1024 < k → w.mem (dest + 4096) = 4

theorem long_steps (u n dest : Nat) (hu : 33554432 ≤ u) (hB : u + 4 * (n + 1) ≤ BASE)
    (hn : 1026 ≤ n) (hd : dest + 4 * n = W) (hdb : BASE ≤ dest) (w0 : World)
    (h0 : LongInv u n dest 0 w0) (wr : Nat) :
    ∀ k, k ≤ 1025 → ∃ w, LongInv u n dest k w ∧
      arrLoop (fun _ v => v) dest u (dest + 4096) w0 n 0 4 wr =
      arrLoop (fun _ v => v) dest u (dest + 4096) w (n - k) k (4 + k) (wr + k) := by
  have hBW : BASE + 4 < W := by decide
  have hBv : BASE = 3221225472 := rfl
  intro k
  induction k with
  | zero => intro _; exact ⟨w0, h0, rfl⟩
  | succ k ih =>
    intro hk
    obtain ⟨w, hw, he⟩ := ih (by omega)
    obtain ⟨t, ht⟩ : ∃ t, n - k = t + 1 := ⟨n - k - 1, by omega⟩
    rw [he, ht]
    have hptr : readPtr (w.setWord (dest + 4 * k) (4 + k)) (u + 4 * k) = some 16843009 := by
      rw [readPtr_of (w := w.setWord (dest + 4 * k) (4 + k)) (by omega) (fun i _ => (hw.all _).1)]
      rw [rdWord_const _ _ 1 (by omega) fun i hi => ?_]
      show wrWord w.mem (dest + 4 * k) (4 + k) _ = 1
      rw [wrWord_frame _ _ _ _ (by omega) (by omega), hw.user _ (by omega) (by omega)]
      exact if_pos ⟨by omega, by omega⟩
    have hes := empty_str (w.setWord (dest + 4 * k) (4 + k)) (4 + k) 16843009 (dest + 4096) hw.all
      (by omega) (by decide) (by omega) (by
        show wrWord w.mem (dest + 4 * k) (4 + k) _ = 0
        rw [wrWord_frame _ _ _ _ (by omega) (by omega), hw.user _ (by omega) (by omega)]
        exact (if_neg (by omega)).trans ((if_neg (by omega)).trans (if_neg (by omega))))
    have hstep : arrLoop (fun _ v => v) dest u (dest + 4096) w (t + 1) k (4 + k) (wr + k) =
        arrLoop (fun _ v => v) dest u (dest + 4096)
          (internalCopyStr (w.setWord (dest + 4 * k) (4 + k)) (4 + k) 16843009 (dest + 4096)).w
          t (k + 1) (4 + k + 1) (wr + k + 1) := by
      conv => lhs; unfold arrLoop
      dsimp only
      rw [elem_eq (show dest + 4 * k < W by omega), elem_eq (show u + 4 * k < W by omega), hptr]
      dsimp only
      rw [if_pos hes.1, hes.2.1]
    rw [hstep, show n - (k + 1) = t by omega]
    refine ⟨_, ⟨hes.2.2.2, fun a h1 h2 => ?_, fun hk1 => ?_⟩, rfl⟩
    · rw [hes.2.2.1 a (by omega)]
      show wrWord w.mem (dest + 4 * k) (4 + k) a = _
      rw [wrWord_frame _ _ _ _ (by omega) (by omega)]
      exact hw.user a h1 h2
    · rw [hes.2.2.1 _ (by omega)]
      have hk' : dest + 4096 = dest + 4 * k := by omega
      rw [hk']
      show wrWord w.mem (dest + 4 * k) (4 + k) (dest + 4 * k) = 4
      unfold wrWord
      rw [Nat.mod_eq_of_lt (show dest + 4 * k + 1 < W by omega),
        Nat.mod_eq_of_lt (show dest + 4 * k + 2 < W by omega),
        Nat.mod_eq_of_lt (show dest + 4 * k + 3 < W by omega),
        upd_other _ _ _ _ (by omega), upd_other _ _ _ _ (by omega), upd_other _ _ _ _ (by omega),
        upd_same]
      omega

theorem long_corrupts (u n dest : Nat) (hu : 33554432 ≤ u) (hB : u + 4 * (n + 1) ≤ BASE)
    (hn : 1026 ≤ n) (hd : dest + 4 * n = W) (hdb : BASE ≤ dest) (hdw : dest + 8192 < W) :
    (copyArr (fun _ v => v) (longWorld u n) dest u 4096).w.mem (dest + 4096) = 4 := by
  have hBW : BASE + 4 < W := by decide
  have hBv : BASE = 3221225472 := rfl
  unfold copyArr
  rw [longWorld_count u n (by omega) hB (by omega)]
  dsimp only
  have hel : elem dest n = 0 := by unfold elem; rw [hd]; decide
  have hel1 : elem dest (n + 1) = 4 := by
    unfold elem; rw [show dest + 4 * (n + 1) = W + 4 by omega]; decide
  rw [hel, hel1, if_neg (by omega)]
  have h0 : LongInv u n dest 0 ((longWorld u n).setWord 0 0) := by
    refine ⟨fun a => ⟨rfl, rfl⟩, fun a h1 h2 => ?_, fun h => by omega⟩
    exact wrWord_frame _ _ _ _ (by decide) (by omega)
  obtain ⟨K, hK⟩ : ∃ K, K = 1025 := ⟨_, rfl⟩
  obtain ⟨w, hw, he⟩ := long_steps u n dest hu hB hn hd hdb _ h0 (4 * (n + 1)) K (by omega)
  rw [he]
  obtain ⟨t, ht⟩ : ∃ t, n - K = t + 1 := ⟨n - K - 1, by omega⟩
  rw [ht]
  unfold arrLoop
  dsimp only
  rw [elem_eq (show dest + 4 * K < W by omega), elem_eq (show u + 4 * K < W by omega)]
  have hptr : readPtr (w.setWord (dest + 4 * K) (4 + K)) (u + 4 * K) = some 4294967295 := by
    rw [readPtr_of (w := w.setWord (dest + 4 * K) (4 + K)) (by omega) (fun i _ => (hw.all _).1)]
    rw [rdWord_const _ _ 255 (by omega) fun i hi => ?_]
    show wrWord w.mem (dest + 4 * K) (4 + K) _ = 255
    rw [wrWord_frame _ _ _ _ (by omega) (by omega), hw.user _ (by omega) (by omega)]
    exact (if_neg (by omega)).trans (if_pos ⟨by omega, by omega⟩)
  rw [hptr]
  dsimp only
  have hbad : ∀ w1 : World, internalCopyStr w1 (4 + K) 4294967295 (dest + 4096) =
      ⟨-1, 0, w1⟩ := by
    intro w1
    unfold internalCopyStr
    obtain ⟨f, hf⟩ : ∃ f, dest + 4096 - (4 + K) = f + 1 := ⟨dest + 4096 - (4 + K) - 1, by omega⟩
    rw [hf]
    conv => lhs; unfold copyStrLoop
    rw [if_pos (by omega), if_pos (by omega)]
  rw [hbad, if_neg (by simp)]
  show wrWord w.mem (dest + 4 * K) (4 + K) (dest + 4096) = 4
  rw [wrWord_frame _ _ _ _ (by omega) (by omega)]
  exact hw.hit (by omega)

/-- **C98 violated.** The check that the pointers fit in the buffer compares *addresses*, computed
with 32 bits.  With a buffer at 0xC0100000 and 0x0FFC0000 pointers before the NULL (a gigabyte of
the process's address space, which one page mapped many times can fill), the address of the last
slot is 0x1_0000_0000, that is 0, which is below the end of the buffer: the check passes, and the
pointers are stored over the kernel's memory after the buffer. -/
theorem array_index_wraps_violated : ∃ (w : World) (dest uarr : Nat), KBuf w dest 4096 ∧
    uarr + 4 < W ∧ ∃ a, BASE ≤ a ∧ dest + 4096 ≤ a ∧
    (copyArr (fun _ v => v) w dest uarr 4096).w.mem a ≠ w.mem a := by
  refine ⟨longWorld 33554432 268173312, 3222274048, 33554432,
    ⟨by decide, by decide, fun i _ => ⟨rfl, rfl⟩⟩, by decide, 3222274048 + 4096, by decide,
    by decide, ?_⟩
  rw [long_corrupts 33554432 268173312 3222274048 (by decide) (by decide) (by decide) (by decide)
    (by decide) (by decide)]
  decide

/-- A process with the vector `{"ls", "-l", NULL}`. -/
def lsWorld : World :=
  allMapped fun a =>
    (wrWord (wrWord (wrWord (fun b => if b = 5000 then 108 else if b = 5001 then 115
      else if b = 5010 then 45 else if b = 5011 then 108 else 0) 4096 5000) 4100 5010) 4104 0) a

example : KBuf lsWorld 3222274048 4096 ∧ ShortArray lsWorld 3222274048 4096 ∧
    StrArray lsWorld.mem 4096 [[108, 115], [45, 108]] ∧
    ArrayReadable lsWorld 4096 [[108, 115], [45, 108]] := by
  refine ⟨⟨by decide, by decide, fun i _ => ⟨rfl, rfl⟩⟩, ⟨2, by decide, Or.inr (by decide +kernel)⟩,
    ⟨fun i hi => ⟨?_, fun j hj => ?_, ?_⟩, by decide +kernel⟩, by decide, fun i hi => ⟨?_, rfl⟩,
    fun i hi j hj => ⟨?_, rfl⟩⟩
  · revert i; decide +kernel
  · revert j; revert i; decide +kernel
  · revert i; decide +kernel
  · revert i; decide +kernel
  · revert j; revert i; decide +kernel

/-! ## The stack of a new program -/

theorem wrBytes_frame (l : List Nat) : ∀ (m : Nat → Nat) (a b : Nat), a + l.length ≤ W →
    (b < a ∨ a + l.length ≤ b) → wrBytes m a l b = m b := by
  induction l with
  | nil => intro m a b _ _; rfl
  | cons x l ih =>
    intro m a b h1 h2
    rw [List.length_cons] at h1 h2
    show wrBytes (upd m (a % W) x) (a + 1) l b = m b
    rw [ih _ _ _ (by omega) (by omega), Nat.mod_eq_of_lt (show a < W by omega)]
    exact upd_other _ _ _ _ (by omega)

theorem wrBytes_data (l : List Nat) : ∀ (m : Nat → Nat) (a : Nat), a + l.length ≤ W →
    ∀ i (h : i < l.length), wrBytes m a l (a + i) = l[i] := by
  induction l with
  | nil => intro m a _ i h; exact absurd h (by simp)
  | cons x l ih =>
    intro m a h1 i hi
    rw [List.length_cons] at h1 hi
    show wrBytes (upd m (a % W) x) (a + 1) l (a + i) = _
    cases i with
    | zero =>
      rw [wrBytes_frame _ _ _ _ (by omega) (by omega), Nat.mod_eq_of_lt (show a < W by omega),
        Nat.add_zero]
      exact upd_same _ _ _
    | succ i =>
      rw [show a + (i + 1) = a + 1 + i by omega, ih _ _ (by omega) i (by omega)]
      rfl

/-- Only memory between the new and the old stack pointer has changed. -/
structure Below (s s' : Stk) (n : Nat) : Prop where
  sp : s'.sp + n = s.sp
  frame : ∀ a, (a < s'.sp ∨ s.sp ≤ a) → s'.m a = s.m a

theorem Below.trans {s s' s'' : Stk} {n k : Nat} (h1 : Below s s' n) (h2 : Below s' s'' k) :
    Below s s'' (n + k) := by
  have e1 := h1.sp
  have e2 := h2.sp
  exact ⟨by omega, fun a ha => (h2.frame a (by omega)).trans (h1.frame a (by omega))⟩

theorem Below.word {s s' : Stk} {n a : Nat} (h : Below s s' n) (ha : s.sp ≤ a) (hw : a + 3 < W) :
    rdWord s'.m a = rdWord s.m a :=
  rdWord_congr _ _ _ hw fun i _ => h.frame _ (by omega)

theorem Below.str {s s' : Stk} {n a : Nat} {t : List Nat} (h : Below s s' n) (ha : s.sp ≤ a)
    (hc : CStr s.m a t) : CStr s'.m a t :=
  hc.congr fun i _ => h.frame _ (by omega)

theorem pushWord_ok (s : Stk) (v : Nat) (h4 : 4 ≤ s.sp) (hw : s.sp < W) (hv : v < W) :
    Below s (pushWord s v) 4 ∧ rdWord (pushWord s v).m (pushWord s v).sp = v := by
  have hsp : (s.sp + W - 4) % W = s.sp - 4 := by
    rw [show s.sp + W - 4 = s.sp - 4 + W by omega, Nat.add_mod_right, Nat.mod_eq_of_lt (by omega)]
  unfold pushWord
  dsimp only
  rw [hsp]
  refine ⟨⟨by dsimp only; omega, fun a ha => ?_⟩, rdWord_wrWord _ _ _ (by omega) hv⟩
  exact wrWord_frame _ _ _ _ (by omega) (by dsimp only at ha; omega)

/-- Room a string takes on the stack: with its NUL, rounded up to 16 bytes. -/
def strRoom (t : List Nat) : Nat := (t.length + 1 + 15) / 16 * 16

theorem pushStr_ok (s : Stk) (t : List Nat) (hr : strRoom t ≤ s.sp) (hw : s.sp < W)
    (hnz : ∀ b ∈ t, b ≠ 0) :
    Below s (pushStr s t) (strRoom t) ∧ CStr (pushStr s t).m (pushStr s t).sp t := by
  have hroom : ((t.length + 1) / 16 * 16 +
      if t.length + 1 - (t.length + 1) / 16 * 16 > 0 then 16 else 0) = strRoom t := by
    unfold strRoom; split <;> omega
  have hsp : (s.sp + W - strRoom t) % W = s.sp - strRoom t := by
    rw [show s.sp + W - strRoom t = s.sp - strRoom t + W by omega, Nat.add_mod_right,
      Nat.mod_eq_of_lt (by omega)]
  unfold pushStr ALIGN
  dsimp only
  rw [hroom, hsp]
  have hlen : (t ++ [0]).length = t.length + 1 := by simp
  have hget : ∀ i (h : i < t.length), (t ++ [0])[i]'(by omega) = t[i] ∧ t[i] ≠ 0 := fun i h =>
    ⟨List.getElem_append_left h, hnz _ (List.getElem_mem h)⟩
  have hlast : (t ++ [0])[t.length]'(by omega) = 0 := by
    rw [List.getElem_append_right (Nat.le_refl _)]; simp
  -- it is enough to know the bytes
  have key : ∀ m' : Nat → Nat, (∀ i (h : i < t.length + 1),
      m' (s.sp - strRoom t + i) = (t ++ [0])[i]'(by omega)) → CStr m' (s.sp - strRoom t) t := by
    intro m' hm
    refine ⟨fun i hi => ?_, ?_⟩
    · rw [hm i (by omega)]
      have := hget i hi
      exact ⟨this.1, this.2⟩
    · rw [hm _ (by omega)]; exact hlast
  have htk : ((t ++ [0]).take ((t.length + 1) / 16 * 16)).length = (t.length + 1) / 16 * 16 := by
    rw [List.length_take, hlen]; omega
  generalize hal : (t.length + 1) / 16 * 16 = al at *
  by_cases hrem : t.length + 1 - al > 0
  · rw [if_pos hrem]
    rw [if_pos hrem] at hroom
    have hdl : ((t ++ [0]).drop al ++ List.replicate (16 - (t.length + 1 - al)) 0).length = 16 := by
      rw [List.length_append, List.length_drop, hlen, List.length_replicate]; omega
    refine ⟨⟨by dsimp only; omega, fun a ha => ?_⟩, key _ fun i hi => ?_⟩
    · dsimp only at ha ⊢
      rw [wrBytes_frame _ _ _ _ (by omega) (by omega), wrBytes_frame _ _ _ _ (by omega) (by omega)]
    · dsimp only
      by_cases hia : i < al
      · rw [wrBytes_frame _ _ _ _ (by omega) (by omega),
          wrBytes_data _ _ _ (by omega) i (by omega), List.getElem_take]
      · have := wrBytes_data ((t ++ [0]).drop al ++ List.replicate (16 - (t.length + 1 - al)) 0)
          (wrBytes s.m (s.sp - strRoom t) ((t ++ [0]).take al)) (s.sp - strRoom t + al) (by omega)
          (i - al) (by omega)
        rw [show s.sp - strRoom t + al + (i - al) = s.sp - strRoom t + i by omega] at this
        rw [this, List.getElem_append_left (by rw [List.length_drop, hlen]; omega),
          List.getElem_drop]
        congr 1
        omega
  · rw [if_neg hrem]
    rw [if_neg hrem] at hroom
    refine ⟨⟨by dsimp only; omega, fun a ha => ?_⟩, key _ fun i hi => ?_⟩
    · dsimp only at ha ⊢
      rw [wrBytes_frame _ _ _ _ (by omega) (by omega)]
    · dsimp only
      rw [wrBytes_data _ _ _ (by omega) i (by omega), List.getElem_take]

/-- Room the strings of a vector take. -/
def strsRoom (l : List (List Nat)) : Nat := (l.map strRoom).sum

theorem pushStrs_ok (l : List (List Nat)) : ∀ (s : Stk), strsRoom l < s.sp → s.sp < W →
    (∀ t ∈ l, ∀ b ∈ t, b ≠ 0) →
    Below s (pushStrs s l).1 (strsRoom l) ∧ (pushStrs s l).2.length = l.length ∧
    ∀ i (h : i < l.length) (h' : i < (pushStrs s l).2.length),
      (pushStrs s l).1.sp ≤ (pushStrs s l).2[i] ∧ (pushStrs s l).2[i] < W ∧
      CStr (pushStrs s l).1.m (pushStrs s l).2[i] l[i] := by
  induction l with
  | nil =>
    intro s _ _ _
    exact ⟨⟨rfl, fun _ _ => rfl⟩, rfl, fun i h => absurd h (by simp)⟩
  | cons t l ih =>
    intro s hr hw hnz
    have hroom : strsRoom (t :: l) = strRoom t + strsRoom l := by simp [strsRoom]
    rw [hroom] at hr ⊢
    obtain ⟨p1, p2⟩ := pushStr_ok s t (by omega) hw (hnz t (by simp))
    have psp := p1.sp
    obtain ⟨q1, q2, q3⟩ := ih (pushStr s t) (by omega) (by omega)
      (fun u hu => hnz u (by simp [hu]))
    have qsp := q1.sp
    unfold pushStrs
    dsimp only
    refine ⟨p1.trans q1, by simp [q2], fun i hi hi' => ?_⟩
    cases i with
    | zero =>
      simp only [List.getElem_cons_zero]
      exact ⟨by omega, by omega, q1.str (Nat.le_refl _) p2⟩
    | succ i =>
      simp only [List.getElem_cons_succ]
      exact q3 i (by simpa using hi) (by simpa using hi')

theorem pushZeros_ok (n : Nat) : ∀ (s : Stk), 4 * n ≤ s.sp → s.sp < W →
    Below s (pushZeros s n) (4 * n) := by
  induction n with
  | zero => intro s _ _; exact ⟨rfl, fun _ _ => rfl⟩
  | succ n ih =>
    intro s h hw
    have hp := (pushWord_ok s 0 (by omega) hw (by decide)).1
    have := hp.sp
    have := hp.trans (ih (pushWord s 0) (by omega) (by omega))
    rw [show 4 + 4 * n = 4 * (n + 1) by omega] at this
    exact this

theorem pushRev_ok (ps : List Nat) : ∀ (s : Stk), 4 * ps.length ≤ s.sp → s.sp < W →
    (∀ p ∈ ps, p < W) → Below s (pushRev s ps) (4 * ps.length) ∧
    ∀ i (h : i < ps.length), rdWord (pushRev s ps).m ((pushRev s ps).sp + 4 * i) = ps[i] := by
  induction ps with
  | nil => intro s _ _ _; exact ⟨⟨rfl, fun _ _ => rfl⟩, fun i h => absurd h (by simp)⟩
  | cons p ps ih =>
    intro s h hw hp
    rw [List.length_cons] at h
    obtain ⟨b1, b2⟩ := ih s (by omega) hw (fun q hq => hp q (by simp [hq]))
    have bsp := b1.sp
    show Below s (pushWord (pushRev s ps) p) _ ∧ _
    obtain ⟨c1, c2⟩ := pushWord_ok (pushRev s ps) p (by omega) (by omega) (hp p (by simp))
    have csp := c1.sp
    refine ⟨?_, fun i hi => ?_⟩
    · have := b1.trans c1
      rw [show 4 * ps.length + 4 = 4 * (p :: ps).length by simp; omega] at this
      exact this
    · show rdWord (pushWord (pushRev s ps) p).m ((pushWord (pushRev s ps) p).sp + 4 * i) = _
      cases i with
      | zero =>
        rw [Nat.mul_zero, Nat.add_zero, c2]
        rfl
      | succ i =>
        have hi' : i < ps.length := by simpa using hi
        rw [show (pushWord (pushRev s ps) p).sp + 4 * (i + 1) = (pushRev s ps).sp + 4 * i by omega,
          c1.word (by omega) (by omega), b2 i hi']
        rfl

theorem strsRoom_mod (l : List (List Nat)) : strsRoom l % 16 = 0 := by
  induction l with
  | nil => rfl
  | cons t l ih =>
    have : strsRoom (t :: l) = strRoom t + strsRoom l := by simp [strsRoom]
    rw [this]; unfold strRoom; omega

/-- Room everything takes: the strings, and the words rounded up to 16 bytes. -/
def argsRoom (argv env : List (List Nat)) : Nat :=
  strsRoom argv + strsRoom env + ((7 + env.length + argv.length) * 4 + 15) / 16 * 16

/-- **C99.** The stack of a new program, for every vector of arguments and environment: with more
than 32 arguments or 96 environment strings it is refused; otherwise the program starts with a
16-byte aligned stack pointer at which it finds `argc`, pointers to exactly its argument strings,
NULL, pointers to exactly its environment strings, NULL, and the auxiliary vector; memory outside
the area from the new stack pointer to the old one is not touched. -/
theorem push_args_correct (s : Stk) (argv env : List (List Nat)) (hal : s.sp % 16 = 0)
    (hw : s.sp < W) (hroom : argsRoom argv env < s.sp) (hna : ∀ t ∈ argv, ∀ b ∈ t, b ≠ 0)
    (hne : ∀ t ∈ env, ∀ b ∈ t, b ≠ 0) :
    (pushArgs s argv env = none ↔ 32 < argv.length ∨ 96 < env.length) ∧
    ∀ s', pushArgs s argv env = some s' →
      s'.sp % 16 = 0 ∧ s'.sp + argsRoom argv env = s.sp ∧ StackImage s'.m s'.sp argv env ∧
      ∀ a, (a < s'.sp ∨ s.sp ≤ a) → s'.m a = s.m a := by
  unfold argsRoom at *
  obtain ⟨a1, a2, a3⟩ := pushStrs_ok argv s (by omega) hw hna
  have asp := a1.sp
  obtain ⟨e1, e2, e3⟩ := pushStrs_ok env (pushStrs s argv).1 (by omega) (by omega) hne
  have esp := e1.sp
  have hW : (97 : Nat) < W := by decide
  have hmA := strsRoom_mod argv
  have hmE := strsRoom_mod env
  have hPG : (4096 : Nat) < W := by decide
  obtain ⟨pg, hpg⟩ : ∃ pg, pg = PAGE := ⟨_, rfl⟩
  unfold pushArgs
  by_cases hA : argv.length > 32
  · rw [if_pos hA]; exact ⟨⟨fun _ => Or.inl hA, fun _ => rfl⟩, fun s' h => by cases h⟩
  by_cases hE : env.length > 96
  · rw [if_neg hA, if_pos hE]; exact ⟨⟨fun _ => Or.inr hE, fun _ => rfl⟩, fun s' h => by cases h⟩
  rw [if_neg hA, if_neg hE]
  refine ⟨⟨fun h => (by cases h), fun h => by omega⟩, ?_⟩
  dsimp only
  rw [← hpg]
  unfold ALIGN AT_NULL AT_PAGESZ
  generalize pushStrs s argv = A at *
  generalize pushStrs A.1 env = E at *
  generalize hz : ((2 + 2 + 1 + env.length + 1 + argv.length + 1) * 4 + 16 - 1) / 16 * 16 -
    (2 + 2 + 1 + env.length + 1 + argv.length + 1) * 4 = rem
  have hroomN : 4 * (rem / 4) + (7 + env.length + argv.length) * 4 =
    ((7 + env.length + argv.length) * 4 + 15) / 16 * 16 := by omega
  have z1 := pushZeros_ok (rem / 4) E.1 (by omega) (by omega)
  generalize pushZeros E.1 (rem / 4) = Z at *
  have zsp := z1.sp
  obtain ⟨x1, x1v⟩ := pushWord_ok Z 0 (by omega) (by omega) (by decide)
  generalize pushWord Z 0 = X1 at *
  have x1sp := x1.sp
  obtain ⟨x2, x2v⟩ := pushWord_ok X1 0 (by omega) (by omega) (by decide)
  generalize pushWord X1 0 = X2 at *
  have x2sp := x2.sp
  obtain ⟨x3, x3v⟩ := pushWord_ok X2 pg (by omega) (by omega) (by rw [hpg]; exact hPG)
  generalize pushWord X2 pg = X3 at *
  have x3sp := x3.sp
  obtain ⟨x4, x4v⟩ := pushWord_ok X3 6 (by omega) (by omega) (by decide)
  generalize pushWord X3 6 = X4 at *
  have x4sp := x4.sp
  obtain ⟨x5, x5v⟩ := pushWord_ok X4 0 (by omega) (by omega) (by decide)
  generalize pushWord X4 0 = X5 at *
  have x5sp := x5.sp
  obtain ⟨r1, r1v⟩ := pushRev_ok E.2 X5 (by omega) (by omega) (fun p hp => by
    obtain ⟨i, hi, rfl⟩ := List.getElem_of_mem hp
    exact (e3 i (by omega) hi).2.1)
  generalize pushRev X5 E.2 = R1 at *
  have r1sp := r1.sp
  obtain ⟨x6, x6v⟩ := pushWord_ok R1 0 (by omega) (by omega) (by decide)
  generalize pushWord R1 0 = X6 at *
  have x6sp := x6.sp
  obtain ⟨r2, r2v⟩ := pushRev_ok A.2 X6 (by omega) (by omega) (fun p hp => by
    obtain ⟨i, hi, rfl⟩ := List.getElem_of_mem hp
    exact (a3 i (by omega) hi).2.1)
  generalize pushRev X6 A.2 = R2 at *
  have r2sp := r2.sp
  obtain ⟨x7, x7v⟩ := pushWord_ok R2 argv.length (by omega) (by omega)
    (by omega)
  generalize pushWord R2 argv.length = X7 at *
  have x7sp := x7.sp
  intro s' hs'
  cases hs'
  have t2 := r2.trans x7
  have t6 := x6.trans t2
  have t1 := r1.trans t6
  have t5 := x5.trans t1
  have t4 := x4.trans t5
  have t3 := x3.trans t4
  have tx2 := x2.trans t3
  have tx1 := x1.trans tx2
  have tz := z1.trans tx1
  have te := e1.trans tz
  have ta := a1.trans te
  refine ⟨by omega, by omega, ⟨x7v, fun i hi => ?_, ?_, fun i hi => ?_, ?_, ?_, ?_, ?_, ?_⟩,
    ta.frame⟩
  · rw [show X7.sp + 4 + 4 * i = R2.sp + 4 * i by omega,
      x7.word (by omega) (by omega), r2v i (by omega)]
    obtain ⟨g1, g2, g3⟩ := a3 i hi (by omega)
    exact ⟨by omega, te.str g1 g3⟩
  · rw [show X7.sp + 4 + 4 * argv.length = X6.sp by omega, t2.word (Nat.le_refl _) (by omega)]
    exact x6v
  · rw [show X7.sp + 4 + 4 * (argv.length + 1) + 4 * i = R1.sp + 4 * i by omega,
      t6.word (by omega) (by omega), r1v i (by omega)]
    obtain ⟨g1, g2, g3⟩ := e3 i hi (by omega)
    exact ⟨by omega, tz.str g1 g3⟩
  · rw [show X7.sp + 4 + 4 * (argv.length + 1) + 4 * env.length = X5.sp by omega,
      t1.word (Nat.le_refl _) (by omega)]
    exact x5v
  · rw [show X7.sp + 4 + 4 * (argv.length + 1) + 4 * (env.length + 1) = X4.sp by omega,
      t5.word (Nat.le_refl _) (by omega)]
    exact x4v
  · rw [show X7.sp + 4 + 4 * (argv.length + 1) + 4 * (env.length + 1) + 4 = X3.sp by omega,
      t4.word (Nat.le_refl _) (by omega)]
    exact x3v.trans hpg
  · rw [show X7.sp + 4 + 4 * (argv.length + 1) + 4 * (env.length + 1) + 8 = X2.sp by omega,
      t3.word (Nat.le_refl _) (by omega)]
    exact x2v
  · rw [show X7.sp + 4 + 4 * (argv.length + 1) + 4 * (env.length + 1) + 12 = X1.sp by omega,
      tx2.word (Nat.le_refl _) (by omega)]
    exact x1v

example : ∃ s', pushArgs ⟨fun _ => 0, 3221225456⟩ [[108, 115], [45, 108]] [[72, 61, 47]] = some s' ∧
    argsRoom [[108, 115], [45, 108]] [[72, 61, 47]] < 3221225456 :=
  ⟨_, rfl, by decide⟩

/-! ## `execve_get_args` -/

/-- Same memory below `BASE`, same pages. -/
def SameUser (w w' : World) : Prop :=
  (∀ a, a < BASE → w'.mem a = w.mem a) ∧ w'.rdp = w.rdp ∧ w'.wrp = w.wrp

theorem arrLoop_user (dest uarr dend : Nat) (hb : BASE ≤ dest) (hw : dend < W) (todo : Nat) :
    ∀ (w : World) (i after written : Nat),
    dest + 4 * (i + todo + 1) ≤ after → after ≤ dend →
    (∀ a, dest ≤ a → a < dend → w.wr a = true) →
    SameUser w (arrLoop (fun _ v => v) dest uarr dend w todo i after written).w := by
  induction todo with
  | zero => intro w i after written _ _ _; exact ⟨fun _ _ => rfl, rfl, rfl⟩
  | succ todo ih =>
    intro w i after written h1 h2 h3
    unfold arrLoop
    dsimp only
    rw [elem_eq (show dest + 4 * i < W by omega)]
    have hset : ∀ a, a < BASE → (w.setWord (dest + 4 * i) after).mem a = w.mem a :=
      fun a ha => wrWord_frame _ _ _ _ (by omega) (by omega)
    cases hrp : readPtr (w.setWord (dest + 4 * i) after) (elem uarr i) with
    | none => exact ⟨hset, rfl, rfl⟩
    | some p =>
      dsimp only
      have hs := internalCopyStr_done (w.setWord (dest + 4 * i) after) after p dend (by omega) hw
        (fun a g1 g2 => h3 a (by omega) g2)
      generalize internalCopyStr (w.setWord (dest + 4 * i) after) after p dend = r at hs ⊢
      have hr : SameUser w r.w := ⟨fun a ha => (hs.frame a (by omega)).trans (hset a ha),
        hs.pages.1, hs.pages.2⟩
      by_cases hrc : r.rc = 0
      · rw [if_pos hrc]
        obtain ⟨len, l1, l2, l3, l4, l5, l6⟩ := hs.ok hrc
        have := ih r.w (i + 1) (after + r.written) (written + r.written) (by omega) (by omega)
          (fun a g1 g2 => by
            have := h3 a g1 g2
            unfold World.wr at this ⊢; rw [hr.2.2]; exact this)
        exact ⟨fun a ha => (this.1 a ha).trans (hr.1 a ha), this.2.1.trans hr.2.1,
          this.2.2.trans hr.2.2⟩
      · rw [if_neg hrc]; exact hr

theorem copyArr_user (w : World) (dest uarr max : Nat) (hk : KBuf w dest max) (hu : uarr + 4 < W)
    (hs : ShortArray w dest uarr) : SameUser w (copyArr (fun _ v => v) w dest uarr max).w := by
  rcases copyArr_unfold (fun _ v => v) w dest uarr max hk hu hs with
    ⟨_, h2, _⟩ | ⟨n, hc, n1, n2, n3, n4, n5, h⟩
  · rw [h2]; exact ⟨fun _ _ => rfl, rfl, rfl⟩
  obtain ⟨hb, hw, hm⟩ := hk
  rcases h with ⟨_, _, h2⟩ | ⟨hx, h⟩
  · rw [h2]; exact ⟨fun _ _ => rfl, rfl, rfl⟩
  rw [h]
  have := arrLoop_user dest uarr (dest + max) hb hw n (w.setWord (dest + 4 * n) 0) 0
    (dest + 4 * (n + 1)) (4 * (n + 1)) (by omega) (by omega) (fun a g1 g2 => by
      have := (hm (a - dest) (by omega)).2
      rw [show dest + (a - dest) = a by omega] at this
      exact this)
  refine ⟨fun a ha => (this.1 a ha).trans ?_, this.2⟩
  exact wrWord_frame _ _ _ _ (by omega) (by omega)

theorem StrArray.congr {m m' : Nat → Nat} {a n : Nat} {l : List (List Nat)} (h : StrArray m a l)
    (hn : a + n < W) (hl : 4 * (l.length + 1) ≤ n)
    (hin : ∀ i (hi : i < l.length), a ≤ rdWord m (a + 4 * i) ∧
      rdWord m (a + 4 * i) + l[i].length + 1 ≤ a + n)
    (he : ∀ b, a ≤ b → b < a + n → m' b = m b) : StrArray m' a l := by
  have hw : ∀ i, i ≤ l.length → rdWord m' (a + 4 * i) = rdWord m (a + 4 * i) := fun i hi =>
    rdWord_congr _ _ _ (by omega) fun k hk => he _ (by omega) (by omega)
  refine ⟨fun i hi => ?_, ?_⟩
  · rw [hw i (by omega)]
    have := hin i hi
    exact ⟨(h.1 i hi).1, (h.1 i hi).2.congr fun k hk => he _ (by omega) (by omega)⟩
  · rw [hw _ (Nat.le_refl _)]; exact h.2

theorem StrArray.unique {m : Nat → Nat} {a : Nat} {l l' : List (List Nat)} (h : StrArray m a l)
    (h' : StrArray m a l') : l = l' := by
  have hl : l.length = l'.length := by
    rcases Nat.lt_trichotomy l.length l'.length with g | g | g
    · exact absurd h.2 (h'.1 _ g).1
    · exact g
    · exact absurd h'.2 (h.1 _ g).1
  exact List.ext_getElem hl fun i i1 i2 => CStr.unique (h.1 i i1).2 (h'.1 i i2).2

theorem ShortArray.mono {w : World} {d d' u : Nat} (h : ShortArray w d u) (hd : d' ≤ d) :
    ShortArray w d' u := by
  obtain ⟨j, j1, j2⟩ := h
  exact ⟨j, by omega, j2⟩

theorem KBuf.sub {w w' : World} {d n k : Nat} (h : KBuf w d n) (hk : k ≤ n)
    (hp : w'.rdp = w.rdp ∧ w'.wrp = w.wrp) : KBuf w' (d + k) (n - k) := by
  obtain ⟨h1, h2, h3⟩ := h
  refine ⟨by omega, by omega, fun i hi => ?_⟩
  have := h3 (k + i) (by omega)
  unfold World.rd World.wr at this ⊢
  rw [hp.1, hp.2, show d + k + i = d + (k + i) by omega]; exact this

/-- The process's view does not change: neither does what it holds. -/
theorem SameUser.array {w w' : World} {u : Nat} {l : List (List Nat)} (h : SameUser w w')
    (h1 : StrArray w.mem u l) (h2 : ArrayReadable w u l) :
    StrArray w'.mem u l ∧ ArrayReadable w' u l := by
  obtain ⟨b0, b1, b2⟩ := h2
  have hBW : BASE + 4 < W := by decide
  have hw : ∀ i, i ≤ l.length → rdWord w'.mem (u + 4 * i) = rdWord w.mem (u + 4 * i) :=
    fun i hi => by
      have := (b1 (4 * i + 3) (by omega)).1
      exact rdWord_congr _ _ _ (by omega) fun k hk => h.1 _ (by omega)
  have hr : ∀ a, w'.rd a = w.rd a := fun a => by unfold World.rd; rw [h.2.1]
  refine ⟨⟨fun i hi => ?_, ?_⟩, b0, fun i hi => ?_, fun i hi => ?_⟩
  · rw [hw i (by omega)]
    exact ⟨(h1.1 i hi).1, (h1.1 i hi).2.congr fun k hk => h.1 _ (b2 i hi k hk).1⟩
  · rw [hw _ (Nat.le_refl _)]; exact h1.2
  · rw [hr]; exact b1 i hi
  · rw [hw i (by omega)]
    intro k hk
    rw [hr]; exact b2 i hi k hk

theorem SameUser.short {w w' : World} {d u : Nat} (h : SameUser w w') (hs : ShortArray w d u) :
    ShortArray w' d u := by
  have hBW : BASE + 4 < W := by decide
  obtain ⟨j, j1, j2⟩ := hs
  have hr : ∀ a, w'.rd a = w.rd a := fun a => by unfold World.rd; rw [h.2.1]
  refine ⟨j, j1, ?_⟩
  by_cases hread : UserReadable w (u + 4 * j) 4
  · rcases j2 with g | g
    · exact absurd hread g
    · right
      have := (hread 3 (by omega)).1
      rw [← g]
      exact rdWord_congr _ _ _ (by omega) fun k hk => h.1 _ (by omega)
  · left
    intro g
    exact hread fun i hi => by have := g i hi; rwa [hr] at this

/-- **C99.** One vector copied behind what the buffer already holds. -/
theorem duplicate_argv_partial (w : World) (dest uarr size written : Nat) (l : List (List Nat))
    (hk : KBuf w dest size) (hu : uarr + 4 < W) (hs : ShortArray w (dest + size) uarr)
    (ha : StrArray w.mem uarr l) (har : ArrayReadable w uarr l) :
    (written + arraySize l ≤ size →
      (duplicateArgv (fun _ v => v) w dest uarr size written).rc = 0 ∧
      (duplicateArgv (fun _ v => v) w dest uarr size written).written = written + arraySize l ∧
      StrArray (duplicateArgv (fun _ v => v) w dest uarr size written).w.mem (dest + written) l ∧
      ∀ i (hi : i < l.length), dest + written ≤
          rdWord (duplicateArgv (fun _ v => v) w dest uarr size written).w.mem
            (dest + written + 4 * i) ∧
        rdWord (duplicateArgv (fun _ v => v) w dest uarr size written).w.mem
            (dest + written + 4 * i) + l[i].length + 1 ≤ dest + written + arraySize l) ∧
    (size < written + arraySize l →
      (duplicateArgv (fun _ v => v) w dest uarr size written).rc = -E2BIG) ∧
    SameUser w (duplicateArgv (fun _ v => v) w dest uarr size written).w ∧
    (∀ a, (a < dest + written ∨ dest + size ≤ a) →
      (duplicateArgv (fun _ v => v) w dest uarr size written).w.mem a = w.mem a) := by
  have hadv : UserOnly (fun _ v => v) := fun i v => ⟨fun _ _ => rfl, fun _ _ => ⟨rfl, rfl⟩⟩
  have hsz : 4 ≤ arraySize l := by rw [arraySize_eq]; omega
  unfold duplicateArgv
  by_cases hfull : written ≥ size
  · rw [if_pos hfull]
    exact ⟨fun h => by omega, fun _ => rfl, ⟨fun _ _ => rfl, rfl, rfl⟩, fun _ _ => rfl⟩
  rw [if_neg hfull]
  dsimp only
  have hk2 : KBuf w (dest + written) (size - written) := hk.sub (by omega) ⟨rfl, rfl⟩
  have hs2 : ShortArray w (dest + written) uarr := hs.mono (by omega)
  obtain ⟨C1, _⟩ := copy_array_correct_partial w _ uarr _ hk2 hu hs2
  obtain ⟨D1, D2⟩ := copy_array_in_bounds_partial (fun _ v => v) hadv w _ uarr _ hk2 hu hs2
  have U2 := copyArr_user w _ uarr _ hk2 hu hs2
  obtain ⟨C1a, C1b⟩ := C1 l ha har
  generalize copyArr (fun _ v => v) w (dest + written) uarr (size - written) = q at *
  have hb := hk.1
  have hfr : ∀ a, (a < dest + written ∨ dest + size ≤ a) → q.w.mem a = w.mem a := fun a h => by
    by_cases hb : BASE ≤ a
    · exact D1 a hb (by omega)
    · exact U2.1 a (by omega)
  by_cases hf : arraySize l ≤ size - written
  · obtain ⟨c0, c1, c2⟩ := C1a hf
    rw [if_neg (by omega), if_neg (by omega)]
    obtain ⟨l', b1, b2, b3, b4⟩ := D2 c0
    have hll : l' = l := b1.unique c2
    subst hll
    exact ⟨fun _ => ⟨rfl, by dsimp only; omega, c2, b4⟩, fun h => by omega, U2, hfr⟩
  · have c0 := C1b (by omega)
    rw [if_neg (by omega), if_pos (by omega)]
    exact ⟨fun h => by omega, fun _ => rfl, U2, hfr⟩

theorem getArgs_eq (adv : Nat → World → World) (w : World) (buf uargv uenv : Nat) (A : DRes)
    (h1 : uargv ≠ 0) (h2 : uenv ≠ 0) (hA : duplicateArgv adv w buf uargv ARGSBUF 0 = A) :
    (A.rc ≠ 0 → getArgs adv w buf uargv uenv = ⟨A.rc, 0, 0, A.w⟩) ∧
    (A.rc = 0 → ∀ E, duplicateArgv adv A.w buf uenv ARGSBUF A.written = E →
      (E.rc ≠ 0 → getArgs adv w buf uargv uenv = ⟨E.rc, 0, 0, E.w⟩) ∧
      (E.rc = 0 → getArgs adv w buf uargv uenv = ⟨0, buf, buf + A.written, E.w⟩)) := by
  unfold getArgs
  dsimp only
  rw [if_pos h1, hA]
  refine ⟨fun h => if_pos h, fun h E hE => ?_⟩
  rw [if_neg (fun g => g h), if_pos h2, hE]
  exact ⟨fun g => if_pos g, fun g => by rw [if_neg (fun k => k g), if_pos h1, if_pos h2]⟩

/-- **C99.** `execve`'s copies of its two vectors, when both can be read and no other task is
changing them: if pointers and strings of both fit in the kernel's buffer (one page) the new
program is given exactly these two vectors, otherwise the call is refused with `E2BIG`; nothing
outside the buffer is written. -/
theorem get_args_partial (w : World) (buf uargv uenv : Nat) (la le : List (List Nat))
    (hk : KBuf w buf ARGSBUF) (hua : uargv + 4 < W) (hue : uenv + 4 < W)
    (hsa : ShortArray w (buf + ARGSBUF) uargv) (hse : ShortArray w (buf + ARGSBUF) uenv)
    (ha : StrArray w.mem uargv la) (har : ArrayReadable w uargv la)
    (he : StrArray w.mem uenv le) (her : ArrayReadable w uenv le) :
    (arraySize la + arraySize le ≤ ARGSBUF →
      (getArgs (fun _ v => v) w buf uargv uenv).rc = 0 ∧
      StrArray (getArgs (fun _ v => v) w buf uargv uenv).w.mem
        (getArgs (fun _ v => v) w buf uargv uenv).argv la ∧
      StrArray (getArgs (fun _ v => v) w buf uargv uenv).w.mem
        (getArgs (fun _ v => v) w buf uargv uenv).env le) ∧
    (ARGSBUF < arraySize la + arraySize le →
      (getArgs (fun _ v => v) w buf uargv uenv).rc = -E2BIG) ∧
    (∀ a, (a < buf ∨ buf + ARGSBUF ≤ a) →
      (getArgs (fun _ v => v) w buf uargv uenv).w.mem a = w.mem a) := by
  obtain ⟨A1, A2, A3, A4⟩ := duplicate_argv_partial w buf uargv ARGSBUF 0 la hk hua hsa ha har
  have hszE : 4 ≤ arraySize le := by rw [arraySize_eq]; omega
  obtain ⟨G1, G2⟩ := getArgs_eq (fun _ v => v) w buf uargv uenv _ har.1 her.1 rfl
  generalize duplicateArgv (fun _ v => v) w buf uargv ARGSBUF 0 = A at *
  rw [Nat.zero_add] at A1 A2
  rw [Nat.add_zero] at A1 A4
  by_cases hfA : arraySize la ≤ ARGSBUF
  · obtain ⟨a0, a1, a2, a3⟩ := A1 hfA
    obtain ⟨he2, her2⟩ := A3.array he her
    have hk2 : KBuf A.w buf ARGSBUF := hk.sub (k := 0) (by omega) A3.2
    obtain ⟨E1, E2, E3, E4⟩ := duplicate_argv_partial A.w buf uenv ARGSBUF A.written le hk2 hue
      (A3.short hse) he2 her2
    obtain ⟨G3, G4⟩ := G2 a0 _ rfl
    generalize duplicateArgv (fun _ v => v) A.w buf uenv ARGSBUF A.written = E at *
    rw [a1] at E1 E2 E4 G4
    have hfr : ∀ a, (a < buf ∨ buf + ARGSBUF ≤ a) → E.w.mem a = w.mem a := fun a h =>
      (E4 a (by omega)).trans (A4 a (by omega))
    by_cases hfE : arraySize la + arraySize le ≤ ARGSBUF
    · obtain ⟨e0, e1, e2, _⟩ := E1 hfE
      rw [G4 e0]
      refine ⟨fun _ => ⟨rfl, ?_, e2⟩, fun h => by omega, hfr⟩
      have hkw := hk.2.1
      exact a2.congr (n := arraySize la) (by omega) (by rw [arraySize_eq]; omega) a3
        (fun b g1 g2 => E4 b (by omega))
    · have e0 := E2 (by omega)
      rw [G3 (by rw [e0]; decide)]
      exact ⟨fun h => absurd h hfE, fun _ => e0, hfr⟩
  · have a0 := A2 (by omega)
    rw [G1 (by rw [a0]; decide)]
    exact ⟨fun h => by omega, fun _ => a0, A4⟩

example : KBuf lsWorld 3222274048 ARGSBUF ∧ ShortArray lsWorld (3222274048 + ARGSBUF) 4096 ∧
    arraySize [[108, 115], [45, 108]] + arraySize [[108, 115], [45, 108]] ≤ ARGSBUF :=
  ⟨⟨by decide, by decide, fun i _ => ⟨rfl, rfl⟩⟩, ⟨2, by decide, Or.inr (by decide +kernel)⟩,
   by decide⟩

end Verif.UserMem
