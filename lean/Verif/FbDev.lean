/-!
# The framebuffer device (modules/fb/fbdev.c)

Property C183 (reading and writing /dev/fb0 touches nothing but the framebuffer) and C184 (/dev/fb0 is a
file of fixed size).

The machine is 32 bits wide (i386) and file offsets are 64 bits (KERNEL_64BIT_OFFT, the default).  The
kernel is compiled with -fwrapv, so signed arithmetic wraps.  `mmap` and `ioctl` are not modelled here.
-/
namespace Verif.FbDev

/-- Conversion to `ssize_t` on a 32-bit machine. -/
def s32 (x : Int) : Int := (x + 2147483648) % 4294967296 - 2147483648

/-- Conversion to `offt`. -/
def s64 (x : Int) : Int := (x + 9223372036854775808) % 18446744073709551616 - 9223372036854775808

/-- Where the framebuffer is mapped in the kernel and how many bytes it has
(modules/fb/fbdev.c:26-27 `fb_vaddr`, `fb_size`). -/
structure Fb where
  vaddr : Nat
  size : Nat
  deriving DecidableEq, Repr

/-- The first address of the kernel (config/config_global.h `BASE_VA`). -/
def BASE : Nat := 0xC0000000

/-- The memory of the kernel, byte by byte, and the position of the file handle. -/
structure St where
  mem : Nat → Nat
  pos : Int := 0

/-- include/tilck/kernel/user.h:7-10 `user_out_of_range`: the addition wraps. -/
def outOfRange (u n : Nat) : Bool := u == 0 || BASE < (u + n) % 4294967296

/-- The bytes of a range of kernel memory. -/
def load (mem : Nat → Nat) (a k : Nat) : List Nat :=
  (List.range k).map fun i => mem ((a + i) % 4294967296)

/-- The kernel memory after the first `k` bytes of `d` were stored at `a`. -/
def store (mem : Nat → Nat) (a : Nat) (d : Nat → Nat) (k : Nat) : Nat → Nat :=
  fun x => if x < 4294967296 ∧ (x + 4294967296 - a % 4294967296) % 4294967296 < k
    then d ((x + 4294967296 - a % 4294967296) % 4294967296) else mem x

/-- How many bytes a copy of `n` bytes moves if the user's memory faults after `f` bytes. -/
def moved (f : Option Nat) (n : Nat) : Nat :=
  match f with
  | some k => min k n
  | none => n

/-- fbdev.c:34 and 49, the number of bytes to copy. -/
def actual (fb : Fb) (pos : Int) (n : Nat) : Int := min (s32 (s32 fb.size - s32 pos)) (s32 n)

/-- What a call gives: the value returned, the bytes put in the user's buffer, the memory of the kernel,
the new position. -/
structure Out where
  rc : Int
  data : List Nat := []
  mem : Nat → Nat
  pos : Int

/-- fbdev.c:32-45 `fb_read`, with `copy_to_user` (kernel/user.c:37-62): `u` is the user's buffer, which
faults after `f` bytes.  The reason of a fault (EFAULT or ENOMEM) is not told apart. -/
def fbRead (fb : Fb) (mem : Nat → Nat) (pos : Int) (u n : Nat) (f : Option Nat) : Out :=
  let a := actual fb pos n
  let len := (a % 4294967296).toNat
  let src := ((fb.vaddr + pos) % 4294967296).toNat
  let pos1 := s64 (pos + a)
  if outOfRange u len then { rc := -14, mem := mem, pos := pos1 }
  else
    { rc := if moved f len = len then a else -14, data := load mem src (moved f len), mem := mem, pos := pos1 }

/-- fbdev.c:47-58 `fb_write`, with `copy_from_user` (kernel/user.c:20-35): `d` is what is in the user's
buffer. -/
def fbWrite (fb : Fb) (mem : Nat → Nat) (pos : Int) (u n : Nat) (d : Nat → Nat) (f : Option Nat) : Out :=
  let a := actual fb pos n
  let len := (a % 4294967296).toNat
  let dest := ((fb.vaddr + pos) % 4294967296).toNat
  let pos1 := s64 (pos + a)
  if outOfRange u len then { rc := -14, mem := mem, pos := pos1 }
  else
    { rc := if moved f len = len then a else -14, mem := store mem dest d (moved f len), pos := pos1 }

inductive Whence | set | cur | «end»
  deriving DecidableEq, Repr

/-- fbdev.c:66-80, the new position asked for. -/
def target (pos off : Int) : Whence → Int
  | .set => off
  | .cur => s64 (pos + off)
  | .end => s64 (pos - off)

/-- fbdev.c:60-85 `fb_seek`: the comparison with the size is done on 32 bits. -/
def fbSeek (fb : Fb) (pos off : Int) (w : Whence) : Int × Int :=
  if target pos off w < 0 ∨ (fb.size : Int) < target pos off w % 4294967296 then (-22, pos)
  else (target pos off w, target pos off w)

/-- The system calls on the file. -/
inductive Op
  | read (u n : Nat) (f : Option Nat)
  | write (u n : Nat) (d : Nat → Nat) (f : Option Nat)
  | seek (off : Int) (w : Whence)
  | pread (u n : Nat) (off : Int) (f : Option Nat)
  | pwrite (u n : Nat) (d : Nat → Nat) (off : Int) (f : Option Nat)

/-- kernel/fs/fs_syscalls.c:228, 259, 289, 323: the limit on counts. -/
def clip (n : Nat) : Nat := min n 2147483647

/-- kernel/fs/fs_syscalls.c:206-340 and 607-641 `sys_read`, `sys_write`, `sys_pread64`, `sys_pwrite64`,
`sys_llseek`, with kernel/vfs/vfs.c:119-195, for a file open for reading and writing; the device copies
from and to user memory itself (VFS_SPFL_NO_USER_COPY, fbdev.c:202). -/
def call (fb : Fb) (s : St) : Op → Out
  | .read u n f => fbRead fb s.mem s.pos u (clip n) f
  | .write u n d f => fbWrite fb s.mem s.pos u (clip n) d f
  | .seek off w => { rc := (fbSeek fb s.pos off w).1, mem := s.mem, pos := (fbSeek fb s.pos off w).2 }
  | .pread u n off f =>
    if off < 0 then { rc := -22, mem := s.mem, pos := s.pos }
    else { fbRead fb s.mem off u (clip n) f with pos := s.pos }
  | .pwrite u n d off f =>
    if off < 0 then { rc := -22, mem := s.mem, pos := s.pos }
    else { fbWrite fb s.mem off u (clip n) d f with pos := s.pos }

def step (fb : Fb) (s : St) (o : Op) : St := { mem := (call fb s o).mem, pos := (call fb s o).pos }

/-- The states after a history. -/
def run (fb : Fb) (s : St) : List Op → St
  | [] => s
  | o :: l => run fb (step fb s o) l

/-! ## Specification -/

/-- The framebuffer is a range of addresses below 4 GB, less than 2 GB long. -/
def Fb.Ok (fb : Fb) : Prop := fb.vaddr + fb.size ≤ 4294967296 ∧ fb.size < 2147483648

/-- What is on the screen. -/
def screen (fb : Fb) (mem : Nat → Nat) : List Nat := (List.range fb.size).map fun i => mem (fb.vaddr + i)

/-- A call keeps to the framebuffer: memory at any other address stays as it is, and what the user gets
is a part of what is on the screen. -/
def Inside (fb : Fb) (s : St) (o : Op) : Prop :=
  (∀ x, (x < fb.vaddr ∨ fb.vaddr + fb.size ≤ x) → (call fb s o).mem x = s.mem x) ∧
  (call fb s o).data <:+: screen fb s.mem

/-- A file of fixed size. -/
structure File where
  content : List Nat
  pos : Nat := 0
  deriving DecidableEq, Repr

/-- Bytes written over a content from a position on. -/
def over (content : List Nat) (p : Nat) (bs : List Nat) : List Nat :=
  content.take p ++ bs ++ content.drop (p + bs.length)

/-- Where `whence` counts from. -/
def File.base (x : File) : Whence → Int
  | .set => 0
  | .cur => x.pos
  | .end => x.content.length

/-- The calls on a file of fixed size: value returned, data, file after.  `whence` end is from the end of
the file. -/
def File.call (x : File) : Op → Int × List Nat × File
  | .read _ n _ =>
    let bs := (x.content.drop x.pos).take n
    (bs.length, bs, { x with pos := x.pos + bs.length })
  | .write _ n d _ =>
    let bs := ((List.range n).map d).take (x.content.length - x.pos)
    (bs.length, [], { content := over x.content x.pos bs, pos := x.pos + bs.length })
  | .pread _ n off _ =>
    if off < 0 then (-22, [], x)
    else
      let bs := (x.content.drop off.toNat).take n
      (bs.length, bs, x)
  | .pwrite _ n d off _ =>
    if off < 0 then (-22, [], x)
    else
      let bs := ((List.range n).map d).take (x.content.length - off.toNat)
      (bs.length, [], { x with content := over x.content off.toNat bs })
  | .seek off w =>
    if x.base w + off < 0 ∨ (x.content.length : Int) < x.base w + off then (-22, [], x)
    else (x.base w + off, [], { x with pos := (x.base w + off).toNat })

/-- The calls for which the device is as the file: the user's buffer is good, positions given are not
beyond the end, offsets fit 31 bits, and SEEK_END is not used. -/
def Plain (fb : Fb) : Op → Prop
  | .read u n f => u ≠ 0 ∧ u + n ≤ BASE ∧ n < 2147483648 ∧ f = none
  | .write u n _ f => u ≠ 0 ∧ u + n ≤ BASE ∧ n < 2147483648 ∧ f = none
  | .seek off w => -2147483648 ≤ off ∧ off < 2147483648 ∧ w ≠ .end
  | .pread u n off f => u ≠ 0 ∧ u + n ≤ BASE ∧ n < 2147483648 ∧ f = none ∧ off ≤ fb.size
  | .pwrite u n _ off f => u ≠ 0 ∧ u + n ≤ BASE ∧ n < 2147483648 ∧ f = none ∧ off ≤ fb.size

/-- The values returned and data of a history, for the device and for the file. -/
def trace (fb : Fb) (s : St) : List Op → List (Int × List Nat)
  | [] => []
  | o :: l => ((call fb s o).rc, (call fb s o).data) :: trace fb (step fb s o) l

def File.trace (x : File) : List Op → List (Int × List Nat)
  | [] => []
  | o :: l => ((x.call o).1, (x.call o).2.1) :: File.trace (x.call o).2.2 l

/-! ## Proofs -/

/-- A position the file handle may have. -/
def PosOk (fb : Fb) (pos : Int) : Prop :=
  0 ≤ pos ∧ pos < 9223372036854775808 ∧ pos % 4294967296 ≤ fb.size

theorem clip_le (n : Nat) : clip n < 2147483648 := by unfold clip; omega

theorem actual_eq {fb : Fb} (hf : fb.Ok) {pos : Int} (hp : PosOk fb pos) {n : Nat} (hn : n < 2147483648) :
    actual fb pos n = min ((fb.size : Int) - pos % 4294967296) n := by
  obtain ⟨h1, h2⟩ := hf
  obtain ⟨h3, h4, h5⟩ := hp
  unfold actual s32
  have e1 : ((fb.size : Int) + 2147483648) % 4294967296 - 2147483648 = fb.size := by omega
  have e2 : (pos + 2147483648) % 4294967296 - 2147483648 = pos % 4294967296 := by omega
  have e3 : ((n : Int) + 2147483648) % 4294967296 - 2147483648 = n := by omega
  rw [e1, e2, e3]
  have e4 : ((fb.size : Int) - pos % 4294967296 + 2147483648) % 4294967296 - 2147483648
      = fb.size - pos % 4294967296 := by omega
  rw [e4]

theorem actual_bounds {fb : Fb} (hf : fb.Ok) {pos : Int} (hp : PosOk fb pos) {n : Nat} (hn : n < 2147483648) :
    0 ≤ actual fb pos n ∧ actual fb pos n ≤ fb.size - pos % 4294967296 := by
  rw [actual_eq hf hp hn]
  have := hp.2.2
  omega

theorem pos_next {fb : Fb} (hf : fb.Ok) {pos : Int} (hp : PosOk fb pos) {n : Nat} (hn : n < 2147483648) :
    s64 (pos + actual fb pos n) = pos + actual fb pos n ∧ PosOk fb (pos + actual fb pos n) := by
  obtain ⟨h1, h2⟩ := actual_bounds hf hp hn
  obtain ⟨h3, h4, h5⟩ := hp
  have h6 := hf.2
  unfold s64 PosOk
  generalize actual fb pos n = a at *
  omega

theorem addr_eq {fb : Fb} {pos : Int} :
    ((fb.vaddr + pos) % 4294967296).toNat = (fb.vaddr + (pos % 4294967296).toNat) % 4294967296 := by omega

theorem moved_le (f : Option Nat) (n : Nat) : moved f n ≤ n := by
  cases f with
  | none => exact Nat.le_refl _
  | some k => exact Nat.min_le_right _ _

theorem load_screen {fb : Fb} (hf : fb.Ok) (mem : Nat → Nat) {p k : Nat} (h : p + k ≤ fb.size) :
    load mem ((fb.vaddr + p) % 4294967296) k = ((screen fb mem).drop p).take k := by
  have h1 := hf.1
  apply List.ext_getElem
  · simp [load, screen]; omega
  · intro i hi hi'
    simp only [load, screen, List.getElem_map, List.getElem_range, List.getElem_take, List.getElem_drop]
    simp [load] at hi
    congr 1
    omega

theorem store_out {fb : Fb} (hf : fb.Ok) (mem d : Nat → Nat) {p k : Nat} (h : p + k ≤ fb.size) {x : Nat}
    (hx : x < fb.vaddr ∨ fb.vaddr + fb.size ≤ x) :
    store mem ((fb.vaddr + p) % 4294967296) d k x = mem x := by
  have h1 := hf.1
  unfold store
  rw [if_neg]
  rintro ⟨h2, h3⟩
  omega

theorem over_get {c : List Nat} {p : Nat} (bs : List Nat) (h : p + bs.length ≤ c.length) (i : Nat) :
    (over c p bs)[i]? = if i < p then c[i]? else if i < p + bs.length then bs[i - p]? else c[i]? := by
  unfold over
  rw [List.getElem?_append, List.getElem?_append, List.length_append, List.length_take]
  rw [Nat.min_eq_left (by omega)]
  by_cases c1 : i < p
  · rw [if_pos (by omega), if_pos c1, if_pos c1, List.getElem?_take, if_pos c1]
  · by_cases c2 : i < p + bs.length
    · rw [if_pos c2, if_neg c1, if_neg c1, if_pos c2]
    · rw [if_neg c2, if_neg c1, if_neg c2, List.getElem?_drop]
      congr 1
      omega

theorem screen_get (fb : Fb) (mem : Nat → Nat) (i : Nat) :
    (screen fb mem)[i]? = if i < fb.size then some (mem (fb.vaddr + i)) else none := by
  unfold screen
  rw [List.getElem?_map]
  by_cases h : i < fb.size
  · rw [if_pos h, List.getElem?_range h]; rfl
  · rw [if_neg h, List.getElem?_eq_none (by simpa using h)]; rfl

theorem screen_len (fb : Fb) (mem : Nat → Nat) : (screen fb mem).length = fb.size := by simp [screen]

theorem store_screen {fb : Fb} (hf : fb.Ok) (mem d : Nat → Nat) {p k : Nat} (h : p + k ≤ fb.size) :
    screen fb (store mem ((fb.vaddr + p) % 4294967296) d k) = over (screen fb mem) p ((List.range k).map d) := by
  have h1 := hf.1
  have hl : ((List.range k).map d).length = k := by simp
  apply List.ext_getElem?
  intro i
  rw [over_get _ (by rw [hl, screen_len]; exact h), screen_get, screen_get, hl]
  unfold store
  by_cases c0 : i < fb.size
  · rw [if_pos c0, if_pos c0]
    by_cases c1 : i < p
    · rw [if_pos c1, if_neg (by omega)]
    · rw [if_neg c1]
      by_cases c2 : i < p + k
      · have e2 : (fb.vaddr + i + 4294967296 - (fb.vaddr + p) % 4294967296 % 4294967296) % 4294967296 = i - p := by
          omega
        rw [if_pos c2, e2, if_pos (by omega), List.getElem?_map, List.getElem?_range (by omega)]; rfl
      · rw [if_neg c2, if_neg (by omega)]
  · rw [if_neg c0, if_neg c0, if_neg (by omega), if_neg (by omega)]

theorem seek_pos {fb : Fb} {pos off : Int} (hp : PosOk fb pos) (ho : -9223372036854775808 ≤ off ∧ off < 9223372036854775808)
    (w : Whence) : PosOk fb (fbSeek fb pos off w).2 := by
  unfold fbSeek
  by_cases h : target pos off w < 0 ∨ (fb.size : Int) < target pos off w % 4294967296
  · rw [if_pos h]; exact hp
  · rw [if_neg h]
    refine ⟨by show 0 ≤ target pos off w; omega, ?_, by show target pos off w % 4294967296 ≤ fb.size; omega⟩
    show target pos off w < _
    cases w
    · exact ho.2
    · show s64 _ < _; unfold s64; omega
    · show s64 _ < _; unfold s64; omega

/-- The calls without an explicit position; offsets are of 64 bits. -/
def NoPos : Op → Prop
  | .read .. | .write .. => True
  | .seek off _ => -9223372036854775808 ≤ off ∧ off < 9223372036854775808
  | _ => False

theorem read_inside {fb : Fb} (hf : fb.Ok) {pos : Int} (hp : PosOk fb pos) (mem : Nat → Nat) (u : Nat) {n : Nat}
    (hn : n < 2147483648) (f : Option Nat) :
    (fbRead fb mem pos u n f).mem = mem ∧ (fbRead fb mem pos u n f).data <:+: screen fb mem ∧
    PosOk fb (fbRead fb mem pos u n f).pos := by
  obtain ⟨h1, h2⟩ := actual_bounds hf hp hn
  obtain ⟨h3, h4⟩ := pos_next hf hp hn
  have h5 := hf.2
  have h6 := hp.2.2
  unfold fbRead
  dsimp only
  rw [h3]
  split
  · exact ⟨rfl, List.nil_infix, h4⟩
  · refine ⟨rfl, ?_, h4⟩
    dsimp only
    have h7 := moved_le f (actual fb pos n % 4294967296).toNat
    rw [addr_eq, load_screen hf mem (by omega)]
    exact (List.take_prefix _ _).isInfix.trans (List.drop_suffix _ _).isInfix

theorem write_inside {fb : Fb} (hf : fb.Ok) {pos : Int} (hp : PosOk fb pos) (mem : Nat → Nat) (u : Nat) {n : Nat}
    (hn : n < 2147483648) (d : Nat → Nat) (f : Option Nat) :
    (∀ x, (x < fb.vaddr ∨ fb.vaddr + fb.size ≤ x) → (fbWrite fb mem pos u n d f).mem x = mem x) ∧
    (fbWrite fb mem pos u n d f).data = [] ∧ PosOk fb (fbWrite fb mem pos u n d f).pos := by
  obtain ⟨h1, h2⟩ := actual_bounds hf hp hn
  obtain ⟨h3, h4⟩ := pos_next hf hp hn
  have h5 := hf.2
  have h6 := hp.2.2
  unfold fbWrite
  dsimp only
  rw [h3]
  split
  · exact ⟨fun _ _ => rfl, rfl, h4⟩
  · refine ⟨fun x hx => ?_, rfl, h4⟩
    dsimp only
    have h7 := moved_le f (actual fb pos n % 4294967296).toNat
    rw [addr_eq]
    exact store_out hf mem d (by omega) hx

theorem call_inside {fb : Fb} (hf : fb.Ok) {s : St} (hp : PosOk fb s.pos) {o : Op} (ho : NoPos o) :
    Inside fb s o ∧ PosOk fb (step fb s o).pos := by
  cases o with
  | read u n f =>
    obtain ⟨h1, h2, h3⟩ := read_inside hf hp s.mem u (clip_le n) f
    exact ⟨⟨fun x _ => congrFun h1 x, h2⟩, h3⟩
  | write u n d f =>
    obtain ⟨h1, h2, h3⟩ := write_inside hf hp s.mem u (clip_le n) d f
    refine ⟨⟨h1, ?_⟩, h3⟩
    show (fbWrite fb s.mem s.pos u (clip n) d f).data <:+: _
    rw [h2]; exact List.nil_infix
  | seek off w => exact ⟨⟨fun _ _ => rfl, List.nil_infix⟩, seek_pos hp ho w⟩
  | pread u n off f => exact ho.elim
  | pwrite u n d off f => exact ho.elim

theorem run_pos {fb : Fb} (hf : fb.Ok) : ∀ (l : List Op) (s : St), PosOk fb s.pos → (∀ o ∈ l, NoPos o) →
    PosOk fb (run fb s l).pos
  | [], _, h, _ => h
  | o :: l, s, h, hl => run_pos hf l (step fb s o) (call_inside hf h (hl o (List.mem_cons_self ..))).2
      (fun x hx => hl x (List.mem_cons_of_mem _ hx))

/-- C183 (part): after any history of read, write and lseek on a newly opened /dev/fb0, whatever the
counts, 64-bit offsets, buffers and faults, each such call changes no memory but the framebuffer and gives
the user nothing but what is on the screen.  Missing: calls with an explicit position, see
`pread_violated` and `pwrite_violated`. -/
theorem inside_partial (fb : Fb) (hf : fb.Ok) (mem : Nat → Nat) (l : List Op) (o : Op) (hl : ∀ x ∈ l, NoPos x)
    (ho : NoPos o) : Inside fb (run fb { mem := mem } l) o := by
  refine (call_inside hf (run_pos hf l _ ?_ hl) ho).1
  exact ⟨by show (0 : Int) ≤ 0; decide, by show (0 : Int) < _; decide, by show (0 : Int) % 4294967296 ≤ _; omega⟩

/-- The position given to pread and pwrite may be the end of the framebuffer, no more. -/
theorem inside_pos_partial (fb : Fb) (hf : fb.Ok) (s : St) (u n : Nat) (d : Nat → Nat) (off : Int) (f : Option Nat)
    (ho : off ≤ fb.size) : Inside fb s (.pread u n off f) ∧ Inside fb s (.pwrite u n d off f) := by
  have h5 := hf.2
  by_cases h0 : off < 0
  · simp only [Inside, call, if_pos h0]
    exact ⟨⟨by simp, List.nil_infix⟩, ⟨by simp, List.nil_infix⟩⟩
  · have hp : PosOk fb off := ⟨by omega, by omega, by omega⟩
    simp only [Inside, call, if_neg h0]
    obtain ⟨h1, h2, h3⟩ := read_inside hf hp s.mem u (clip_le n) f
    obtain ⟨k1, k2, k3⟩ := write_inside hf hp s.mem u (clip_le n) d f
    refine ⟨⟨fun x _ => congrFun h1 x, h2⟩, ⟨k1, ?_⟩⟩
    rw [k2]; exact List.nil_infix

/-! ## The file -/

theorem read_ok {fb : Fb} (hf : fb.Ok) {p : Nat} (hp : p ≤ fb.size) (mem : Nat → Nat) {u n : Nat} (hu : u ≠ 0)
    (hb : u + n ≤ BASE) (hn : n < 2147483648) :
    (fbRead fb mem p u n none).rc = (((screen fb mem).drop p).take n).length ∧
    (fbRead fb mem p u n none).data = ((screen fb mem).drop p).take n ∧
    (fbRead fb mem p u n none).pos = (p + (((screen fb mem).drop p).take n).length : Nat) := by
  have h5 := hf.2
  have hB : BASE = 3221225472 := rfl
  have hk : PosOk fb p := ⟨by omega, by omega, by omega⟩
  have ha : actual fb p n = (min n (fb.size - p) : Nat) := by rw [actual_eq hf hk hn]; omega
  have hlen : (((screen fb mem).drop p).take n).length = min n (fb.size - p) := by simp [screen_len]
  have h3 := (pos_next hf hk hn).1
  unfold fbRead
  dsimp only
  rw [h3, ha]
  have e : (((min n (fb.size - p) : Nat) : Int) % 4294967296).toNat = min n (fb.size - p) := by omega
  rw [e, if_neg (show ¬ outOfRange u (min n (fb.size - p)) = true by
    simp only [outOfRange, Bool.or_eq_true, beq_iff_eq, decide_eq_true_eq]; omega)]
  dsimp only
  refine ⟨by rw [if_pos (show moved none (min n (fb.size - p)) = min n (fb.size - p) from rfl), hlen], ?_, by rw [hlen]; omega⟩
  rw [addr_eq]
  have e2 : ((p : Int) % 4294967296).toNat = p := by omega
  rw [e2]
  show load mem _ (min n (fb.size - p)) = _
  rw [load_screen hf mem (by omega)]
  apply List.ext_getElem?
  intro i
  simp only [List.getElem?_take, List.getElem?_drop, screen_get]
  by_cases c : i < min n (fb.size - p)
  · rw [if_pos c, if_pos (show i < n by omega)]
  · rw [if_neg c]
    by_cases c2 : i < n
    · rw [if_pos c2, if_neg (by omega)]
    · rw [if_neg c2]

theorem take_range_map (d : Nat → Nat) (n m : Nat) :
    ((List.range n).map d).take m = (List.range (min n m)).map d := by
  rw [← List.map_take, List.take_range, Nat.min_comm]

theorem write_ok {fb : Fb} (hf : fb.Ok) {p : Nat} (hp : p ≤ fb.size) (mem d : Nat → Nat) {u n : Nat} (hu : u ≠ 0)
    (hb : u + n ≤ BASE) (hn : n < 2147483648) :
    (fbWrite fb mem p u n d none).rc = (min n (fb.size - p) : Nat) ∧
    (fbWrite fb mem p u n d none).data = [] ∧
    screen fb (fbWrite fb mem p u n d none).mem =
      over (screen fb mem) p ((List.range (min n (fb.size - p))).map d) ∧
    (fbWrite fb mem p u n d none).pos = (p + min n (fb.size - p) : Nat) := by
  have h5 := hf.2
  have hB : BASE = 3221225472 := rfl
  have hk : PosOk fb p := ⟨by omega, by omega, by omega⟩
  have ha : actual fb p n = (min n (fb.size - p) : Nat) := by rw [actual_eq hf hk hn]; omega
  have h3 := (pos_next hf hk hn).1
  unfold fbWrite
  dsimp only
  rw [h3, ha]
  have e : (((min n (fb.size - p) : Nat) : Int) % 4294967296).toNat = min n (fb.size - p) := by omega
  rw [e, if_neg (show ¬ outOfRange u (min n (fb.size - p)) = true by
    simp only [outOfRange, Bool.or_eq_true, beq_iff_eq, decide_eq_true_eq]; omega)]
  dsimp only
  refine ⟨by rw [if_pos (show moved none (min n (fb.size - p)) = min n (fb.size - p) from rfl)], rfl, ?_, by omega⟩
  rw [addr_eq]
  have e2 : ((p : Int) % 4294967296).toNat = p := by omega
  rw [e2]
  exact store_screen hf mem d (by show p + min n (fb.size - p) ≤ _; omega)

/-- The state of the device is that of the file. -/
structure Same (fb : Fb) (s : St) (x : File) : Prop where
  content : x.content = screen fb s.mem
  pos : s.pos = x.pos
  le : x.pos ≤ fb.size

theorem clip_id {n : Nat} (h : n < 2147483648) : clip n = n := by unfold clip; omega

theorem call_file {fb : Fb} (hf : fb.Ok) {s : St} {x : File} (h : Same fb s x) {o : Op} (ho : Plain fb o) :
    (call fb s o).rc = (x.call o).1 ∧ (call fb s o).data = (x.call o).2.1 ∧ Same fb (step fb s o) (x.call o).2.2 := by
  obtain ⟨hc, hp, hle⟩ := h
  have hsz := hf.2
  cases o with
  | read u n f =>
    obtain ⟨h1, h2, h3, h4⟩ := ho
    subst h4
    obtain ⟨k1, k2, k3⟩ := read_ok hf hle s.mem h1 h2 h3
    have km : (fbRead fb s.mem x.pos u n none).mem = s.mem :=
      (read_inside hf ⟨by omega, by omega, by omega⟩ s.mem u h3 none).1
    simp only [call, step, File.call, clip_id h3, hp, hc]
    refine ⟨k1, k2, ⟨?_, k3, ?_⟩⟩
    · show _ = screen fb _
      rw [km]; try exact hc
    · simp only [List.length_take, List.length_drop, screen_len]; omega
  | write u n d f =>
    obtain ⟨h1, h2, h3, h4⟩ := ho
    subst h4
    obtain ⟨k1, k2, k3, k4⟩ := write_ok hf hle s.mem d h1 h2 h3
    simp only [call, step, File.call, clip_id h3, hp, hc, screen_len, take_range_map, List.length_map, List.length_range]
    exact ⟨k1, k2, ⟨k3.symm, k4, by show x.pos + _ ≤ _; omega⟩⟩
  | pread u n off f =>
    obtain ⟨h1, h2, h3, h4, h5⟩ := ho
    subst h4
    simp only [call, step, File.call]
    by_cases h0 : off < 0
    · simp only [if_pos h0]; exact ⟨by trivial, by trivial, ⟨hc, hp, hle⟩⟩
    · simp only [if_neg h0, clip_id h3, hc]
      have e : off = (off.toNat : Int) := by omega
      have km : (fbRead fb s.mem off.toNat u n none).mem = s.mem :=
        (read_inside hf ⟨by omega, by omega, by omega⟩ s.mem u h3 none).1
      obtain ⟨k1, k2, k3⟩ := read_ok hf (show off.toNat ≤ fb.size by omega) s.mem h1 h2 h3
      rw [← e] at k1 k2 km
      refine ⟨k1, k2, ⟨?_, hp, hle⟩⟩
      show x.content = screen fb (fbRead fb s.mem off u n none).mem
      rw [km, hc]
  | pwrite u n d off f =>
    obtain ⟨h1, h2, h3, h4, h5⟩ := ho
    subst h4
    simp only [call, step, File.call]
    by_cases h0 : off < 0
    · simp only [if_pos h0]; exact ⟨by trivial, by trivial, ⟨hc, hp, hle⟩⟩
    · simp only [if_neg h0, clip_id h3, hc, screen_len, take_range_map, List.length_map, List.length_range]
      have e : off = (off.toNat : Int) := by omega
      obtain ⟨k1, k2, k3, k4⟩ := write_ok hf (show off.toNat ≤ fb.size by omega) s.mem d h1 h2 h3
      rw [← e] at k1 k2 k3
      exact ⟨k1, k2, ⟨k3.symm, hp, hle⟩⟩
  | seek off w =>
    obtain ⟨h1, h2, h3⟩ := ho
    have ht : target s.pos off w = x.base w + off := by
      cases w with
      | set => show off = 0 + off; omega
      | cur => show s64 (s.pos + off) = (x.pos : Int) + off; unfold s64; rw [hp]; omega
      | «end» => exact (h3 rfl).elim
    have hbb : x.base w + off < 4294967296 := by
      cases w with
      | set => show 0 + off < _; omega
      | cur => show (x.pos : Int) + off < _; omega
      | «end» => exact (h3 rfl).elim
    have hcl : x.content.length = fb.size := by rw [hc, screen_len]
    simp only [call, step, File.call, fbSeek, ht, hcl]
    generalize x.base w + off = b at hbb
    by_cases c : b < 0 ∨ (fb.size : Int) < b
    · have c' : b < 0 ∨ (fb.size : Int) < b % 4294967296 := by omega
      rw [if_pos c, if_pos c']
      exact ⟨rfl, rfl, ⟨hc, hp, hle⟩⟩
    · have c' : ¬ (b < 0 ∨ (fb.size : Int) < b % 4294967296) := by omega
      rw [if_neg c, if_neg c']
      exact ⟨rfl, rfl, ⟨hc, by show b = (b.toNat : Int); omega, by show b.toNat ≤ _; omega⟩⟩

theorem trace_file {fb : Fb} (hf : fb.Ok) : ∀ (l : List Op) (s : St) (x : File), Same fb s x → (∀ o ∈ l, Plain fb o) →
    trace fb s l = x.trace l
  | [], _, _, _, _ => rfl
  | o :: l, s, x, h, hl => by
    obtain ⟨h1, h2, h3⟩ := call_file hf h (hl o (List.mem_cons_self ..))
    show (_, _) :: _ = (_, _) :: _
    rw [h1, h2, trace_file hf l _ _ h3 (fun y hy => hl y (List.mem_cons_of_mem _ hy))]

/-- C184 (part): with good buffers, positions that are not beyond the end and without SEEK_END, every
history of calls on a newly opened /dev/fb0 returns the values and the data that a file of the size of the
framebuffer would, whose content is what is on the screen. -/
theorem file_partial (fb : Fb) (hf : fb.Ok) (mem : Nat → Nat) (l : List Op) (hl : ∀ o ∈ l, Plain fb o) :
    trace fb { mem := mem } l = File.trace { content := screen fb mem } l :=
  trace_file hf l _ _ ⟨rfl, rfl, Nat.zero_le _⟩ hl

/-- A framebuffer of 1024x768 pixels of 32 bits. -/
def xga : Fb := { vaddr := 0xF0000000, size := 3145728 }

example : xga.Ok := by unfold Fb.Ok xga; decide

example : ∀ o ∈ [Op.write 4096 8 (fun i => i) none, .seek (-8) .cur, .read 4096 8 none, .pread 4096 4 3145728 none],
    Plain xga o := by
  simp [Plain, BASE, xga]

example : File.trace { content := [1, 2, 3, 4] } [.write 4096 2 (fun i => i + 7) none, .seek (-1) .cur,
    .read 4096 9 none, .read 4096 9 none, .pread 4096 2 3 none] =
    [(2, []), (1, []), (3, [8, 3, 4]), (0, []), (1, [4])] := by decide

/-! ## Violations -/

/-- C183 is violated: for every framebuffer, pread from `e` bytes beyond its end hands out the kernel
memory that follows, up to the first page of the user's memory that faults (after `k` bytes). -/
theorem pread_violated (fb : Fb) (s : St) (u n e k : Nat) (he : 0 < e) (hs : fb.size + e < 2147483648)
    (hu : e < u) (hb : u ≤ BASE) (hk : k ≤ 2147483648) :
    (call fb s (.pread u n (fb.size + e : Nat) (some k))).data = load s.mem ((fb.vaddr + fb.size + e) % 4294967296) k := by
  have hB : BASE = 3221225472 := rfl
  have hcl := clip_le n
  have ha : actual fb (fb.size + e : Nat) (clip n) = -(e : Int) := by
    unfold actual s32
    have e1 : ((fb.size : Int) + 2147483648) % 4294967296 - 2147483648 = fb.size := by omega
    have e2 : (((fb.size + e : Nat) : Int) + 2147483648) % 4294967296 - 2147483648 = fb.size + e := by omega
    have e3 : (((clip n : Nat) : Int) + 2147483648) % 4294967296 - 2147483648 = (clip n : Nat) := by omega
    rw [e1, e2, e3]
    have e4 : ((fb.size : Int) - (fb.size + e) + 2147483648) % 4294967296 - 2147483648 = -(e : Int) := by omega
    rw [e4]
    omega
  simp only [call]
  rw [if_neg (by omega)]
  unfold fbRead
  dsimp only
  rw [ha]
  have el : (-(e : Int) % 4294967296).toNat = 4294967296 - e := by omega
  rw [el, if_neg (show ¬ outOfRange u (4294967296 - e) = true by
    simp only [outOfRange, Bool.or_eq_true, beq_iff_eq, decide_eq_true_eq]; omega)]
  dsimp only
  have em : moved (some k) (4294967296 - e) = k := by show min k _ = k; omega
  have es : (((fb.vaddr : Int) + (fb.size + e : Nat)) % 4294967296).toNat = (fb.vaddr + fb.size + e) % 4294967296 := by
    omega
  rw [em, es]

/-- So a user gets a byte that is not on the screen. -/
theorem pread_outside_violated : ∃ (s : St) (o : Op), ¬ Inside xga s o := by
  refine ⟨{ mem := fun a => if a = 0xF0300010 then 42 else 0 }, .pread 4096 1 (xga.size + 16 : Nat) (some 1), ?_⟩
  rintro ⟨-, h⟩
  rw [pread_violated xga _ 4096 1 16 1 (by decide) (by decide) (by decide) (by decide) (by decide)] at h
  have h2 : (42 : Nat) ∈ screen xga (fun a => if a = 0xF0300010 then 42 else 0) :=
    h.subset (by show 42 ∈ [42]; exact List.mem_singleton.mpr rfl)
  obtain ⟨i, hi, hx⟩ := List.mem_map.mp h2
  have hi' : i < 3145728 := List.mem_range.mp hi
  dsimp only [xga] at hx
  rw [if_neg (by omega)] at hx
  exact absurd hx (by decide)

/-- C183 is violated: with pwrite any process that may write to /dev/fb0 puts the bytes it wants at any
address of the kernel's memory in the two gigabytes (less the size of the framebuffer) before the
framebuffer, and the call succeeds. -/
theorem pwrite_violated (fb : Fb) (hf : fb.Ok) (s : St) (u n a : Nat) (d : Nat → Nat) (ha : a < fb.vaddr)
    (hd : fb.vaddr - a + fb.size < 2147483648) (hn : n ≤ fb.vaddr - a) (hu : u ≠ 0) (hb : u + n ≤ BASE) :
    (call fb s (.pwrite u n d (4294967296 - (fb.vaddr - a) : Nat) none)).rc = n ∧
    ∀ i, i < n → (call fb s (.pwrite u n d (4294967296 - (fb.vaddr - a) : Nat) none)).mem (a + i) = d i := by
  have hB : BASE = 3221225472 := rfl
  have h1 := hf.1
  have hcl : clip n = n := clip_id (by omega)
  have hact : actual fb (4294967296 - (fb.vaddr - a) : Nat) n = n := by
    unfold actual s32
    have e1 : ((fb.size : Int) + 2147483648) % 4294967296 - 2147483648 = fb.size := by omega
    have e2 : (((4294967296 - (fb.vaddr - a) : Nat) : Int) + 2147483648) % 4294967296 - 2147483648 =
        -((fb.vaddr - a : Nat) : Int) := by omega
    have e3 : ((n : Int) + 2147483648) % 4294967296 - 2147483648 = n := by omega
    rw [e1, e2, e3]
    have e4 : ((fb.size : Int) - -((fb.vaddr - a : Nat) : Int) + 2147483648) % 4294967296 - 2147483648 =
        fb.size + (fb.vaddr - a : Nat) := by omega
    rw [e4]
    omega
  simp only [call]
  rw [if_neg (by omega), hcl]
  unfold fbWrite
  dsimp only
  rw [hact]
  have el : ((n : Int) % 4294967296).toNat = n := by omega
  rw [el, if_neg (show ¬ outOfRange u n = true by
    simp only [outOfRange, Bool.or_eq_true, beq_iff_eq, decide_eq_true_eq]; omega)]
  dsimp only
  have ed : (((fb.vaddr : Int) + (4294967296 - (fb.vaddr - a) : Nat)) % 4294967296).toNat = a := by omega
  refine ⟨by rw [if_pos (show moved none n = n from rfl)], fun i hi => ?_⟩
  rw [ed]
  unfold store
  have ei : (a + i + 4294967296 - a % 4294967296) % 4294967296 = i := by omega
  rw [ei, if_pos ⟨by omega, by show i < n; exact hi⟩]

/-- Not vacuous: the first byte of the kernel, with the framebuffer `xga`. -/
example : (0xC0000000 : Nat) < xga.vaddr ∧ xga.vaddr - 0xC0000000 + xga.size < 2147483648 ∧
    8 ≤ xga.vaddr - 0xC0000000 := by decide

/-- C184 is violated: SEEK_END is not from the end.  From any position `p`, going to the end of the file
stays at `p`. -/
theorem seek_end_violated (fb : Fb) (hf : fb.Ok) (s : St) (p : Nat) (hp : s.pos = p) (hle : p ≤ fb.size) :
    (call fb s (.seek 0 .end)).rc = p := by
  have h2 := hf.2
  have ht : target s.pos 0 .end = p := by show s64 (s.pos - 0) = _; unfold s64; rw [hp]; omega
  simp only [call, fbSeek, ht]
  rw [if_neg (by omega)]

/-- C184 is violated: a position 4 GB (or a multiple) beyond one in the framebuffer is accepted. -/
theorem seek_far_violated (fb : Fb) (s : St) (p m : Nat) (hle : p ≤ fb.size) (hp : p < 4294967296) :
    (call fb s (.seek (p + 4294967296 * m : Nat) .set)).rc = (p + 4294967296 * m : Nat) := by
  have ht : target s.pos (p + 4294967296 * m : Nat) .set = (p + 4294967296 * m : Nat) := rfl
  simp only [call, fbSeek, ht]
  split
  · rename_i h
    exfalso
    omega
  · rfl

/-- C184 is violated: a read that fails because of a bad buffer moves the position all the same. -/
theorem failed_read_violated (fb : Fb) (hf : fb.Ok) (mem : Nat → Nat) (n : Nat) (hn : n ≤ fb.size) :
    (call fb { mem := mem } (.read 0 n none)).rc = -14 ∧ (call fb { mem := mem } (.read 0 n none)).pos = n := by
  have h2 := hf.2
  have hk : PosOk fb 0 := ⟨by decide, by decide, by show (0 : Int) % 4294967296 ≤ _; omega⟩
  have hcl : clip n = n := clip_id (by omega)
  have ha := actual_eq hf hk (show n < 2147483648 by omega)
  have h3 := (pos_next hf hk (show n < 2147483648 by omega)).1
  simp only [call, hcl]
  unfold fbRead
  dsimp only
  rw [if_pos (show outOfRange 0 _ = true by simp [outOfRange])]
  refine ⟨rfl, ?_⟩
  show s64 _ = _
  rw [h3, ha]
  omega


end Verif.FbDev
