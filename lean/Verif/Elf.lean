/-!
# Loading programs (kernel/elf.c)

Properties C138-C141.

Memory is a set of page frames; the file to load is in frames too, as in ramfs, and is read from there or mapped.  Addresses and sizes
are 32 bits wide.

Simplifications: seeking never fails; a read that comes short stores nothing; the pages of the stack are given to the process at once
(in the code most are the zero page, copied when written, see `Paging`), and each error of the stack is ENOMEM; the frames of a failed
load are not freed; the file is a regular file that may be executed; reference counts are not modelled.
-/
namespace Verif.Elf

local notation "PG" => (4096 : Nat)
/-- `USERMODE_VADDR_END` (0xC0000000) in pages. -/
local notation "KP" => (786432 : Nat)
/-- The number of pages of 32-bit addresses. -/
local notation "NP" => (1048576 : Nat)

/-- The file: its size, and the frames of its pages (none: a hole). -/
structure File where
  size : Nat
  blk : Nat → Option Nat

/-- The contents of frames, the next unused frame, and the page tables of the new process: frame and writable. -/
structure Mem where
  data : Nat → Nat → Nat
  next : Nat
  pte : Nat → Option (Nat × Bool)

/-- Debug build; pages of the kernel that are part of a 4 MB page; which allocations succeed: of frames, and of page tables; the file
system supports mappings; the pages of the stack (`KRN_USER_STACK_PAGES`). -/
structure Env where
  dbg : Bool
  big : Nat → Bool
  alloc : Nat → Bool
  table : Nat → Bool
  mmaps : Bool
  sp : Nat

/-- `stop`: an assertion fails. `wild`: memory of the kernel that has nothing to do with the process is overwritten, or the kernel
loops for ever. -/
inductive Out (α : Type)
  | stop
  | wild
  | err (rc : Int) (s : Mem)
  | ok (s : Mem) (x : α)

def ENOMEM : Int := -12
def ENOEXEC : Int := -8
def EADDRINUSE : Int := -98

/-- A byte of the file. -/
def File.byte (f : File) (s : Mem) (pos : Nat) : Nat :=
  match f.blk (pos / PG) with
  | some b => s.data b (pos % PG)
  | none => 0

def File.u16 (f : File) (s : Mem) (pos : Nat) : Nat := f.byte s pos + 256 * f.byte s (pos + 1)
def File.u32 (f : File) (s : Mem) (pos : Nat) : Nat := f.u16 s pos + 65536 * f.u16 s (pos + 2)

/-- `Elf32_Phdr`: the type, PF_W. -/
structure Ph where
  typ : Nat
  off : Nat
  vaddr : Nat
  filesz : Nat
  memsz : Nat
  w : Bool
  align : Nat
  deriving DecidableEq, Repr

def ph (f : File) (s : Mem) (pos : Nat) : Ph :=
  ⟨f.u32 s pos, f.u32 s (pos + 4), f.u32 s (pos + 8), f.u32 s (pos + 16), f.u32 s (pos + 20), f.u32 s (pos + 24) / 2 % 2 = 1, f.u32 s (pos + 28)⟩

/-- elf.c:246-303 `load_elf_headers`: the program headers.  `sizeof(eh->header)` is the size of a pointer. -/
def headers (e : Env) (f : File) (s : Mem) : Except Int (List Ph) :=
  if f.size < 52 then .error ENOEXEC
  else if f.u32 s 0 ≠ 0x464c457f then .error ENOEXEC
  else if f.u16 s 16 ≠ 2 then .error ENOEXEC
  else if f.byte s 4 ≠ 1 ∨ f.u16 s 18 ≠ 3 then .error ENOEXEC
  else if f.u16 s 40 < 4 then .error ENOEXEC
  else if e.alloc s.next = false then .error ENOMEM
  else if f.size < f.u32 s 28 + 32 * f.u16 s 44 then .error ENOEXEC
  else .ok ((List.range (f.u16 s 44)).map (fun i => ph f s (f.u32 s 28 + 32 * i)))

/-- A zeroed frame, mapped. -/
def Mem.fresh (s : Mem) (v : Nat) : Mem :=
  { data := fun g => if g = s.next then fun _ => 0 else s.data g, next := s.next + 1,
    pte := fun u => if u = v then some (s.next, true) else s.pte u }

/-- elf.c:73-88: the frame of a page.  `get_mapping` (paging.c:337-362) must not be called for 4 MB pages. -/
def getPage (e : Env) (s : Mem) (v : Nat) : Out Nat :=
  if e.big v then (if e.dbg then .stop else .wild)
  else match s.pte v with
    | some (g, _) => .ok s g
    | none =>
      if e.alloc s.next = false then .err ENOMEM s
      else if e.table v = false then .err ENOMEM s
      else .ok (s.fresh v) s.next

/-- `vfs_read` of `n` bytes of the file into a frame. -/
def Mem.copy (s : Mem) (f : File) (g o n pos : Nat) : Mem :=
  { s with data := fun h => if h = g then fun q => if o ≤ q ∧ q < o + n then f.byte s (pos + (q - o)) else s.data h q else s.data h }

/-- elf.c:69-107: the loop over the pages of a segment. -/
def copyLoop (e : Env) (f : File) : Nat → Mem → Nat → Nat → Nat → Nat → Out Nat
  | 0, s, _, _, rem, _ => .ok s rem
  | n + 1, s, v, va, rem, pos =>
    match getPage e s v with
    | .stop => .stop
    | .wild => .wild
    | .err rc s' => .err rc s'
    | .ok s' g =>
      if rem = 0 then copyLoop e f n s' ((v + 1) % NP) va 0 pos
      else if f.size < pos + min rem (PG - va % PG) then .err ENOEXEC s'
      else copyLoop e f n (s'.copy f g (va % PG) (min rem (PG - va % PG)) pos) ((v + 1) % NP) ((va + min rem (PG - va % PG)) % 2 ^ 32)
        (rem - min rem (PG - va % PG)) (pos + min rem (PG - va % PG))

/-- `page_count` (elf.c:53-54). -/
def Ph.pages (p : Ph) : Nat := ((p.vaddr % PG + p.memsz) % 2 ^ 32 + 4095) % 2 ^ 32 / PG

/-- `*end_vaddr_ref`. -/
def Ph.fin (p : Ph) : Nat := (PG * (p.vaddr / PG) + PG * p.pages) % 2 ^ 32

/-- elf.c:111-118; the addresses wrap around. -/
def Mem.protect (s : Mem) (v n : Nat) : Mem :=
  { s with pte := fun u => if (v ≤ u ∧ u < v + n) ∨ u + NP < v + n then (s.pte u).map (fun x => (x.1, false)) else s.pte u }

/-- elf.c:43-121 `load_segment_by_copy`; the result is the end of the segment. -/
def byCopy (e : Env) (f : File) (s : Mem) (p : Ph) : Out Nat :=
  if p.memsz = 0 then .ok s 0
  else match copyLoop e f p.pages s (p.vaddr / PG) p.vaddr p.filesz p.off with
    | .stop => .stop
    | .wild => .wild
    | .err rc s' => .err rc s'
    | .ok s' rem =>
      if e.dbg = true ∧ rem ≠ 0 then .stop
      else .ok (if p.w then s' else s'.protect (p.vaddr / PG) p.pages) p.fin

/-- The loop of kernel/fs/ramfs/mmap.c.h:42-66 over the blocks, by paging.c:404-440 `map_page_int`, which does not look for 4 MB pages.
`base` is the first page: if mapping a page fails the loop that undoes the others ends only below `base`. -/
def mapAll (e : Env) (s0 : Mem) (base : Nat) : List Nat → Mem → Nat → Out Unit
  | [], s, _ => .ok s ()
  | g :: gs, s, v =>
    if e.big v then .wild
    else match s.pte v with
      | some _ => if base = 0 then .wild else .err EADDRINUSE s0
      | none =>
        if e.table v = false then (if base = 0 then .wild else .err ENOMEM s0)
        else mapAll e s0 base gs { s with pte := fun u => if u = v then some (g, false) else s.pte u } ((v + 1) % NP)

/-- elf.c:166-225 `load_segment_by_mmap`; the file is opened for reading. -/
def byMmap (e : Env) (f : File) (s : Mem) (p : Ph) : Out Nat :=
  if p.w then byCopy e f s p
  else if p.memsz = 0 then .ok s 0
  else match mapAll e s (p.vaddr / PG) ((List.range p.pages).filterMap (fun k => f.blk (p.off / PG + k))) s (p.vaddr / PG) with
    | .stop => .stop
    | .wild => .wild
    | .err rc s' => .err rc s'
    | .ok s' _ => .ok s' p.fin

/-- elf.c:123-164 `check_segment_alignment`. -/
def aligned (p : Ph) : Bool := p.align = PG ∧ p.off % PG = p.vaddr % PG

/-- elf.c:468-500: the loop over the segments; the result is `brk`. -/
def segments (e : Env) (f : File) : List Ph → Mem → Nat → Out Nat
  | [], s, brk => .ok s brk
  | p :: ps, s, brk =>
    if p.typ ≠ 1 then segments e f ps s brk
    else if aligned p = false then .err ENOEXEC s
    else match (if e.mmaps then byMmap e f s p else byCopy e f s p) with
      | .stop => .stop
      | .wild => .wild
      | .err rc s' => .err rc s'
      | .ok s' fin => segments e f ps s' (if brk < fin then fin else brk)

/-- elf.c:512-529: the pages of the stack. -/
def stack (e : Env) : Nat → Mem → Nat → Out Unit
  | 0, s, _ => .ok s ()
  | n + 1, s, v =>
    match s.pte v with
    | some _ => .err ENOMEM s
    | none => if e.alloc s.next = false ∨ e.table v = false then .err ENOMEM s else stack e n (s.fresh v) (v + 1)

/-- What the new program starts with. -/
structure Prog where
  brk : Nat
  entry : Nat
  deriving DecidableEq, Repr

/-- elf.c:412-585 `load_elf_program`, after the file was opened; `kmalloc(0)` stops a debug kernel (general_kmalloc.c.h:107); `locks` counts the locks held on the file by running programs. -/
def load (e : Env) (f : File) (s : Mem) (locks : Nat) : Out Prog × Nat :=
  match headers e f s with
  | .error rc => (.err rc s, locks + 1)
  | .ok ps =>
    if e.dbg = true ∧ ps = [] then (.stop, locks + 1)
    else if ps.any (fun p => p.typ = 3) then (.err ENOEXEC s, locks)
    else match segments e f ps s 0 with
      | .stop => (.stop, locks + 1)
      | .wild => (.wild, locks + 1)
      | .err rc s' => (.err rc s', locks)
      | .ok s' brk =>
        match stack e e.sp s' (KP - e.sp) with
        | .stop => (.stop, locks + 1)
        | .wild => (.wild, locks + 1)
        | .err rc s'' => (.err rc s'', locks)
        | .ok s'' _ => (.ok s'' ⟨brk, f.u32 s 24⟩, locks + 1)

/-! ## Specification -/

/-- What the program finds at an address: the byte, and may it store there? -/
def Mem.at (s : Mem) (a : Nat) : Option (Nat × Bool) := (s.pte (a / PG)).map (fun x => (s.data x.1 (a % PG), x.2))

/-- The kernel before: no page of the new process is mapped, the kernel's page tables are as they are. -/
structure Start (e : Env) (f : File) (s : Mem) : Prop where
  user : ∀ v, v < KP → s.pte v = none
  big : ∀ v, v < KP → e.big v = false
  blk : ∀ i b, f.blk i = some b → b < s.next
  byte : ∀ g o, s.data g o < 256
  sp : 0 < e.sp ∧ e.sp ≤ 4096

/-- The address `a` is in the segment. -/
def Ph.In (p : Ph) (a : Nat) : Prop := p.vaddr ≤ a ∧ a < p.vaddr + p.memsz

/-- A segment as linkers make them: between the first page and the stack, in the file, aligned; a segment for reading only has no zeros at its end. -/
structure Ph.Sane (e : Env) (f : File) (p : Ph) : Prop where
  size : 0 < p.memsz
  align : p.align = PG ∧ p.off % PG = p.vaddr % PG
  above : PG ≤ p.vaddr
  below : p.vaddr + p.memsz ≤ PG * (KP - e.sp)
  file : p.filesz ≤ p.memsz ∧ p.off + p.filesz ≤ f.size
  ro : p.w = false → p.filesz = p.memsz

/-- The segments are sane, and no two of them share a page. -/
def Sane (e : Env) (f : File) (ps : List Ph) : Prop :=
  (∀ p ∈ ps, p.typ = 1 → p.Sane e f) ∧
  (ps.filter (fun p => p.typ = 1)).Pairwise (fun p q => ∀ a b, p.In a → q.In b → a / PG ≠ b / PG)

/-- The file has no holes. -/
def NoHoles (f : File) : Prop := ∀ pos, pos < f.size → (f.blk (pos / PG)).isSome = true

/-- The program headers, by the ELF format. -/
structure Headers (f : File) (s : Mem) (ps : List Ph) : Prop where
  magic : f.byte s 0 = 0x7f ∧ f.byte s 1 = 69 ∧ f.byte s 2 = 76 ∧ f.byte s 3 = 70
  cls : f.byte s 4 = 1
  kind : f.byte s 16 = 2 ∧ f.byte s 17 = 0
  machine : f.byte s 18 = 3 ∧ f.byte s 19 = 0
  count : ps.length = f.byte s 44 + 256 * f.byte s 45
  inside : f.u32 s 28 + 32 * ps.length ≤ f.size
  entry : ∀ i p, ps[i]? = some p → p = ph f s (f.u32 s 28 + 32 * i)

/-- What the kernel and other processes see is as before. -/
def Untouched (s s' : Mem) : Prop := (∀ v, KP ≤ v → s'.pte v = s.pte v) ∧ ∀ g, g < s.next → s'.data g = s.data g

/-! ## Proofs -/

/-- A file is read the same while its frames are. -/
theorem byte_congr {f : File} {s s' : Mem} (hb : ∀ i b, f.blk i = some b → s'.data b = s.data b) (pos : Nat) : f.byte s' pos = f.byte s pos := by
  unfold File.byte
  cases h : f.blk (pos / PG) with
  | none => rfl
  | some b => dsimp only; rw [hb _ _ h]

/-- What copying `n` pages of a segment leads to. -/
structure Copied (f : File) (s s' : Mem) (v n va rem pos : Nat) : Prop where
  next : s'.next = s.next + n
  old : ∀ g, g < s.next → s'.data g = s.data g
  other : ∀ u, ¬ (v ≤ u ∧ u < v + n) → s'.pte u = s.pte u
  page : ∀ u, v ≤ u → u < v + n → s'.pte u = some (s.next + (u - v), true)
  bytes : ∀ u o, v ≤ u → u < v + n → o < PG →
    s'.data (s.next + (u - v)) o = if va ≤ PG * u + o ∧ PG * u + o < va + rem then f.byte s (pos + (PG * u + o - va)) else 0

/-- Memory was short. -/
def Short (e : Env) : Prop := (∃ i, e.alloc i = false) ∨ ∃ v, e.table v = false

theorem getPage_new {e : Env} {s : Mem} {v : Nat} (hb : e.big v = false) (hp : s.pte v = none) :
    (getPage e s v = .err ENOMEM s ∧ Short e) ∨ getPage e s v = .ok (s.fresh v) s.next := by
  unfold getPage
  rw [if_neg (by simp [hb]), hp]
  dsimp only
  cases ha : e.alloc s.next with
  | false => left; exact ⟨if_pos rfl, Or.inl ⟨_, ha⟩⟩
  | true =>
    rw [if_neg (by decide)]
    cases ht : e.table v with
    | false => left; exact ⟨if_pos rfl, Or.inr ⟨_, ht⟩⟩
    | true => right; exact if_neg (by decide)

theorem copyLoop_new {e : Env} {f : File} (n : Nat) : ∀ (s : Mem) (v va rem pos : Nat), v + n ≤ KP →
    (∀ u, v ≤ u → u < v + n → e.big u = false ∧ s.pte u = none) → (∀ i b, f.blk i = some b → b < s.next) →
    (0 < rem → va / PG = v ∧ va + rem ≤ PG * (v + n)) → pos + rem ≤ f.size →
    (∃ s', copyLoop e f n s v va rem pos = .err ENOMEM s' ∧ Short e ∧ (∀ u, KP ≤ u → s'.pte u = s.pte u) ∧ ∀ g, g < s.next → s'.data g = s.data g) ∨
    ∃ s', copyLoop e f n s v va rem pos = .ok s' 0 ∧ Copied f s s' v n va rem pos := by
  induction n with
  | zero =>
    intro s v va rem pos hk hu hf hr hsz
    right
    have : rem = 0 := by
      rcases Nat.eq_zero_or_pos rem with h | h
      · exact h
      · have := hr h; omega
    subst this
    exact ⟨s, rfl, rfl, fun _ _ => rfl, fun _ _ => rfl, fun u h1 h2 => by omega, fun u o h1 h2 => by omega⟩
  | succ n ih =>
    intro s v va rem pos hk hu hf hr hsz
    have hv := hu v (Nat.le_refl _) (by omega)
    rw [copyLoop]
    rcases getPage_new (e := e) hv.1 hv.2 with ⟨h1, h2⟩ | h1
    · left
      rw [h1]
      exact ⟨s, rfl, h2, fun _ _ => rfl, fun _ _ => rfl⟩
    rw [h1]
    dsimp only
    have hmod : (v + 1) % NP = v + 1 := Nat.mod_eq_of_lt (by omega)
    have hfd : ∀ g, g < s.next → (s.fresh v).data g = s.data g := by
      intro g hg
      show (if g = s.next then fun _ => 0 else s.data g) = _
      rw [if_neg (by omega)]
    have hfp : ∀ u, u ≠ v → (s.fresh v).pte u = s.pte u := fun u hne => if_neg hne
    rw [hmod]
    by_cases h0 : rem = 0
    · subst h0
      rw [if_pos rfl]
      have hu' : ∀ u, v + 1 ≤ u → u < v + 1 + n → e.big u = false ∧ (s.fresh v).pte u = none := by
        intro u a b
        rw [hfp u (by omega)]
        exact hu u (by omega) (by omega)
      rcases ih (s.fresh v) (v + 1) va 0 pos (by omega) hu' (fun i b h => Nat.lt_succ_of_lt (hf i b h)) (fun h => absurd h (by decide)) hsz with
        ⟨s', e1, e2, e3, e4⟩ | ⟨s', e1, hc⟩
      · left
        exact ⟨s', e1, e2, fun u hu => by rw [e3 u hu, hfp u (by omega)], fun g hg => by rw [e4 g (Nat.lt_succ_of_lt hg), hfd g hg]⟩
      · right
        refine ⟨s', e1, by rw [hc.next]; show s.next + 1 + n = _; omega, fun g hg => by rw [hc.old g (Nat.lt_succ_of_lt hg), hfd g hg], ?_, ?_, ?_⟩
        · intro u hu1
          rw [hc.other u (by omega), hfp u (by omega)]
        · intro u a b
          by_cases huv : u = v
          · rw [hc.other u (by omega), huv]
            show (if v = v then some (s.next, true) else _) = _
            rw [if_pos rfl, Nat.sub_self, Nat.add_zero]
          · rw [hc.page u (by omega) (by omega)]
            show some (s.next + 1 + (u - (v + 1)), true) = _
            congr 2; omega
        · intro u o a b ho
          rw [if_neg (by omega)]
          by_cases huv : u = v
          · subst huv
            rw [Nat.sub_self, Nat.add_zero, hc.old _ (Nat.lt_succ_self _)]
            show (if s.next = s.next then fun _ => 0 else s.data s.next) o = 0
            rw [if_pos rfl]
          · have := hc.bytes u o (by omega) (by omega) ho
            rw [if_neg (by omega)] at this
            rw [← this]
            congr 1
            show _ = s.next + 1 + (u - (v + 1))
            omega
    · obtain ⟨hva, hend⟩ := hr (by omega)
      rw [if_neg h0]
      have htr : ∃ tr, min rem (PG - va % PG) = tr ∧ 0 < tr ∧ tr ≤ rem ∧ tr + va % PG ≤ PG ∧ (tr < rem → tr + va % PG = PG) := by
        refine ⟨_, rfl, ?_, ?_, ?_, ?_⟩ <;> omega
      obtain ⟨tr, htr, t0, t1, t2, t3⟩ := htr
      rw [htr, if_neg (by omega)]
      have hvm : (va + tr) % 2 ^ 32 = va + tr := Nat.mod_eq_of_lt (by omega)
      rw [hvm]
      have hcd : ∀ g, g < s.next → ((s.fresh v).copy f s.next (va % PG) tr pos).data g = s.data g := by
        intro g hg
        show (if g = s.next then _ else (s.fresh v).data g) = _
        rw [if_neg (by omega), hfd g hg]
      have hcn : ((s.fresh v).copy f s.next (va % PG) tr pos).next = s.next + 1 := rfl
      have hcp : ((s.fresh v).copy f s.next (va % PG) tr pos).pte = (s.fresh v).pte := rfl
      have hcb : ∀ o, ((s.fresh v).copy f s.next (va % PG) tr pos).data s.next o = if va % PG ≤ o ∧ o < va % PG + tr then f.byte s (pos + (o - va % PG)) else 0 := by
        intro o
        show (if s.next = s.next then fun q => if va % PG ≤ q ∧ q < va % PG + tr then f.byte (s.fresh v) (pos + (q - va % PG)) else (s.fresh v).data s.next q else _) o = _
        rw [if_pos rfl]
        rw [byte_congr (fun i b h => hfd b (hf i b h))]
        have : (s.fresh v).data s.next o = 0 := by
          show (if s.next = s.next then fun _ => 0 else s.data s.next) o = 0
          rw [if_pos rfl]
        rw [this]
      generalize (s.fresh v).copy f s.next (va % PG) tr pos = sc at hcd hcn hcp hcb
      have hu' : ∀ u, v + 1 ≤ u → u < v + 1 + n → e.big u = false ∧ sc.pte u = none := by
        intro u a b
        rw [hcp, hfp u (by omega)]
        exact hu u (by omega) (by omega)
      rcases ih sc (v + 1) (va + tr) (rem - tr) (pos + tr) (by omega) hu' (fun i b h => by have := hf i b h; omega)
          (fun h => ⟨by omega, by omega⟩) (by omega) with
        ⟨s', e1, e2, e3, e4⟩ | ⟨s', e1, hc⟩
      · left
        exact ⟨s', e1, e2, fun u hu => by rw [e3 u hu, hcp, hfp u (by omega)], fun g hg => by rw [e4 g (by omega), hcd g hg]⟩
      · right
        refine ⟨s', e1, by rw [hc.next]; omega, fun g hg => by rw [hc.old g (by omega), hcd g hg], ?_, ?_, ?_⟩
        · intro u hu1
          rw [hc.other u (by omega), hcp, hfp u (by omega)]
        · intro u a b
          by_cases huv : u = v
          · rw [hc.other u (by omega), huv, hcp]
            show (if v = v then some (s.next, true) else _) = _
            rw [if_pos rfl, Nat.sub_self, Nat.add_zero]
          · rw [hc.page u (by omega) (by omega), hcn]
            congr 2; omega
        · intro u o a b ho
          by_cases huv : u = v
          · subst huv
            rw [Nat.sub_self, Nat.add_zero, hc.old _ (by omega), hcb]
            by_cases hin : va % PG ≤ o ∧ o < va % PG + tr
            · rw [if_pos hin, if_pos ⟨by omega, by omega⟩]
              congr 1; omega
            · rw [if_neg hin, if_neg (by omega)]
          · have := hc.bytes u o (by omega) (by omega) ho
            rw [hcn, show s.next + 1 + (u - (v + 1)) = s.next + (u - v) by omega] at this
            rw [this, byte_congr (fun i b h => hcd b (hf i b h))]
            by_cases hin : va + tr ≤ PG * u + o ∧ PG * u + o < va + tr + (rem - tr)
            · rw [if_pos hin, if_pos ⟨by omega, by omega⟩]
              congr 1; omega
            · rw [if_neg hin, if_neg (by omega)]

theorem pages_eq {e : Env} {f : File} {p : Ph} (h : p.Sane e f) (hsp : 0 < e.sp ∧ e.sp ≤ 4096) :
    p.pages = (p.vaddr % PG + p.memsz + 4095) / PG ∧ p.vaddr / PG + p.pages = (p.vaddr + p.memsz + 4095) / PG ∧
    p.vaddr / PG + p.pages ≤ KP - e.sp ∧ p.fin = PG * ((p.vaddr + p.memsz + 4095) / PG) := by
  have hb := h.below
  have h1 : (p.vaddr % PG + p.memsz) % 2 ^ 32 = p.vaddr % PG + p.memsz := Nat.mod_eq_of_lt (by omega)
  have h2 : (p.vaddr % PG + p.memsz + 4095) % 2 ^ 32 = p.vaddr % PG + p.memsz + 4095 := Nat.mod_eq_of_lt (by omega)
  have h3 : p.pages = (p.vaddr % PG + p.memsz + 4095) / PG := by unfold Ph.pages; rw [h1, h2]
  have h4 : p.vaddr / PG + p.pages = (p.vaddr + p.memsz + 4095) / PG := by rw [h3]; omega
  have h5 : p.vaddr / PG + p.pages ≤ KP - e.sp := by rw [h4]; omega
  refine ⟨h3, h4, h5, ?_⟩
  unfold Ph.fin
  rw [Nat.mod_eq_of_lt (by omega), ← h4]
  omega

/-- The bytes a segment has, by the format. -/
def want (f : File) (s : Mem) (p : Ph) (a : Nat) : Nat × Bool :=
  (if a < p.vaddr + p.filesz then f.byte s (p.off + (a - p.vaddr)) else 0, p.w)

/-- The page `u` has an address of the segment. -/
def Ph.Covers (p : Ph) (u : Nat) : Prop := p.vaddr / PG ≤ u ∧ u < (p.vaddr + p.memsz + 4095) / PG

instance (p : Ph) (u : Nat) : Decidable (p.Covers u) := inferInstanceAs (Decidable (_ ∧ _))

theorem covers_iff {p : Ph} (hm : 0 < p.memsz) (u : Nat) : p.Covers u ↔ ∃ a, p.In a ∧ a / PG = u := by
  unfold Ph.Covers Ph.In
  constructor
  · rintro ⟨h1, h2⟩
    refine ⟨max p.vaddr (PG * u), ⟨by omega, by omega⟩, by omega⟩
  · rintro ⟨a, ⟨h1, h2⟩, rfl⟩
    omega

structure SegDone (e : Env) (f : File) (s s' : Mem) (p : Ph) : Prop where
  next : s.next ≤ s'.next
  old : ∀ g, g < s.next → s'.data g = s.data g
  other : ∀ u, ¬ p.Covers u → s'.pte u = s.pte u
  lt : ∀ u g w, p.Covers u → s'.pte u = some (g, w) → g < s'.next
  img : ∀ a, p.In a → s'.at a = some (want f s p a)

theorem byCopy_sane {e : Env} {f : File} {s : Mem} {p : Ph} (h : p.Sane e f) (hsp : 0 < e.sp ∧ e.sp ≤ 4096)
    (hu : ∀ u, p.Covers u → e.big u = false ∧ s.pte u = none) (hf : ∀ i b, f.blk i = some b → b < s.next) :
    (∃ s', byCopy e f s p = .err ENOMEM s' ∧ Short e ∧ (∀ u, KP ≤ u → s'.pte u = s.pte u) ∧ ∀ g, g < s.next → s'.data g = s.data g) ∨
    ∃ s', byCopy e f s p = .ok s' (PG * ((p.vaddr + p.memsz + 4095) / PG)) ∧ SegDone e f s s' p := by
  obtain ⟨p1, p2, p3, p4⟩ := pages_eq h hsp
  have h0 := h.size
  have hfl := h.file
  unfold byCopy
  rw [if_neg (by omega)]
  rcases copyLoop_new (e := e) (f := f) p.pages s (p.vaddr / PG) p.vaddr p.filesz p.off (by omega)
      (fun u a b => hu u ⟨a, by omega⟩) hf (fun _ => ⟨rfl, by omega⟩) hfl.2 with ⟨s', e1, e2, e3, e4⟩ | ⟨s', e1, hc⟩
  · left
    rw [e1]
    exact ⟨s', rfl, e2, e3, e4⟩
  · right
    rw [e1]
    dsimp only
    rw [if_neg (fun x => x.2 rfl), p4]
    have himg : ∀ a, p.In a → s'.at a = some ((want f s p a).1, true) := by
      rintro a ⟨a1, a2⟩
      unfold Mem.at
      rw [hc.page (a / PG) (by omega) (by omega)]
      show some (s'.data (s.next + (a / PG - p.vaddr / PG)) (a % PG), true) = _
      rw [hc.bytes (a / PG) (a % PG) (by omega) (by omega) (by omega)]
      have ea : PG * (a / PG) + a % PG = a := by omega
      rw [ea]
      unfold want
      dsimp only
      by_cases hin : a < p.vaddr + p.filesz
      · rw [if_pos ⟨a1, hin⟩, if_pos hin]
      · rw [if_neg (fun x => hin x.2), if_neg hin]
    cases hw : p.w with
    | true =>
      rw [if_pos rfl]
      refine ⟨s', rfl, by rw [hc.next]; omega, hc.old, fun u hn => hc.other u (fun x => hn ⟨x.1, by omega⟩), ?_, ?_⟩
      · intro u g w hcv hp
        rw [hc.page u hcv.1 (by have := hcv.2; omega)] at hp
        injection hp with hp
        injection hp with hp _
        have := hcv.1; have := hcv.2
        rw [hc.next]; omega
      · intro a ha
        rw [himg a ha]
        unfold want
        rw [hw]
    | false =>
      rw [if_neg (by decide)]
      have hpt : ∀ u, (s'.protect (p.vaddr / PG) p.pages).pte u = if p.Covers u then (s'.pte u).map (fun x => (x.1, false)) else s'.pte u := by
        intro u
        show (if (p.vaddr / PG ≤ u ∧ u < p.vaddr / PG + p.pages) ∨ u + NP < p.vaddr / PG + p.pages then _ else _) = _
        by_cases hcv : p.Covers u
        · rw [if_pos hcv, if_pos (Or.inl ⟨hcv.1, by have := hcv.2; omega⟩)]
        · rw [if_neg hcv, if_neg]
          rintro (⟨a, b⟩ | a)
          · exact hcv ⟨a, by omega⟩
          · omega
      refine ⟨_, rfl, by show s.next ≤ s'.next; rw [hc.next]; omega, hc.old, fun u hn => by rw [hpt, if_neg hn]; exact hc.other u (fun x => hn ⟨x.1, by omega⟩), ?_, ?_⟩
      · intro u g w hcv hp
        rw [hpt, if_pos hcv, hc.page u hcv.1 (by have := hcv.2; omega)] at hp
        injection hp with hp
        injection hp with hp _
        have := hcv.1; have := hcv.2
        show g < s'.next
        rw [hc.next]
        dsimp only at hp
        omega
      · intro a ha
        have hcv : p.Covers (a / PG) := (covers_iff h0 _).mpr ⟨a, ha, rfl⟩
        have := himg a ha
        unfold Mem.at at this ⊢
        rw [hpt, if_pos hcv]
        cases hs : s'.pte (a / PG) with
        | none => rw [hs] at this; cases this
        | some x =>
          rw [hs] at this
          simp only [Option.map_some, Option.some.injEq, Prod.mk.injEq] at this
          show some (s'.data x.1 (a % PG), false) = _
          rw [this.1]
          unfold want
          rw [hw]

theorem filterMap_get {n : Nat} {q : Nat → Option Nat} (h : ∀ k, k < n → (q k).isSome = true) :
    ((List.range n).filterMap q).length = n ∧ ∀ j, j < n → ((List.range n).filterMap q)[j]? = q j := by
  induction n with
  | zero => exact ⟨rfl, fun j hj => by omega⟩
  | succ n ih =>
    obtain ⟨i1, i2⟩ := ih (fun k hk => h k (by omega))
    obtain ⟨x, hx⟩ := Option.isSome_iff_exists.mp (h n (by omega))
    have e : (List.range (n + 1)).filterMap q = (List.range n).filterMap q ++ [x] := by
      rw [List.range_succ, List.filterMap_append]
      congr 1
      simp [hx]
    rw [e]
    refine ⟨by simp [i1], fun j hj => ?_⟩
    by_cases hjn : j < n
    · rw [List.getElem?_append_left (by omega)]; exact i2 j hjn
    · have : j = n := by omega
      subst this
      rw [List.getElem?_append_right (by omega), i1, Nat.sub_self, hx]
      rfl

/-- What mapping frames leads to. -/
structure Mapped (s s' : Mem) (v : Nat) (gs : List Nat) : Prop where
  data : s'.data = s.data
  next : s'.next = s.next
  other : ∀ u, ¬ (v ≤ u ∧ u < v + gs.length) → s'.pte u = s.pte u
  page : ∀ u, v ≤ u → u < v + gs.length → s'.pte u = (gs[u - v]?).map (fun g => (g, false))

theorem mapAll_new {e : Env} {s0 : Mem} {base : Nat} (hb : base ≠ 0) (gs : List Nat) : ∀ (s : Mem) (v : Nat), v + gs.length ≤ KP →
    (∀ u, v ≤ u → u < v + gs.length → e.big u = false ∧ s.pte u = none) →
    (mapAll e s0 base gs s v = .err ENOMEM s0 ∧ Short e) ∨ ∃ s', mapAll e s0 base gs s v = .ok s' () ∧ Mapped s s' v gs := by
  induction gs with
  | nil =>
    intro s v _ _
    right
    exact ⟨s, rfl, rfl, rfl, fun _ _ => rfl, fun u a b => by simp at b; omega⟩
  | cons g gs ih =>
    intro s v hk hu
    rw [List.length_cons] at hk hu
    have hv := hu v (Nat.le_refl _) (by omega)
    rw [mapAll, if_neg (by simp [hv.1]), hv.2]
    dsimp only
    have hmod : (v + 1) % NP = v + 1 := Nat.mod_eq_of_lt (by omega)
    cases ht : e.table v with
    | false => left; rw [if_pos rfl, if_neg hb]; exact ⟨rfl, Or.inr ⟨_, ht⟩⟩
    | true =>
      rw [if_neg (by decide), hmod]
      rcases ih { s with pte := fun u => if u = v then some (g, false) else s.pte u } (v + 1) (by omega) (fun u a b => by
          refine ⟨(hu u (by omega) (by omega)).1, ?_⟩
          show (if u = v then _ else s.pte u) = none
          rw [if_neg (by omega)]; exact (hu u (by omega) (by omega)).2) with h | ⟨s', e1, hm⟩
      · left; exact h
      · right
        refine ⟨s', e1, hm.data, hm.next, ?_, ?_⟩
        · intro u hn
          rw [List.length_cons] at hn
          rw [hm.other u (by omega)]
          show (if u = v then _ else s.pte u) = _
          rw [if_neg (by omega)]
        · intro u a b
          rw [List.length_cons] at b
          by_cases huv : u = v
          · rw [hm.other u (by omega), huv, Nat.sub_self]
            show (if v = v then some (g, false) else _) = _
            rw [if_pos rfl]; rfl
          · rw [hm.page u (by omega) (by omega)]
            rw [show u - v = (u - (v + 1)) + 1 by omega, List.getElem?_cons_succ]

theorem byMmap_sane {e : Env} {f : File} {s : Mem} {p : Ph} (h : p.Sane e f) (hn : NoHoles f) (hsp : 0 < e.sp ∧ e.sp ≤ 4096)
    (hu : ∀ u, p.Covers u → e.big u = false ∧ s.pte u = none) (hf : ∀ i b, f.blk i = some b → b < s.next) :
    (∃ s', byMmap e f s p = .err ENOMEM s' ∧ Short e ∧ (∀ u, KP ≤ u → s'.pte u = s.pte u) ∧ ∀ g, g < s.next → s'.data g = s.data g) ∨
    ∃ s', byMmap e f s p = .ok s' (PG * ((p.vaddr + p.memsz + 4095) / PG)) ∧ SegDone e f s s' p := by
  unfold byMmap
  cases hw : p.w with
  | true => rw [if_pos rfl]; exact byCopy_sane h hsp hu hf
  | false =>
    obtain ⟨p1, p2, p3, p4⟩ := pages_eq h hsp
    have h0 := h.size
    have hfl := h.file
    have hro := h.ro hw
    have hal := h.align.2
    have hab := h.above
    rw [if_neg (by decide), if_neg (by omega)]
    have hall : ∀ k, k < p.pages → (f.blk (p.off / PG + k)).isSome = true := by
      intro k hk
      have := hn (PG * (p.off / PG + k)) (by omega)
      rwa [Nat.mul_div_cancel_left _ (by decide)] at this
    obtain ⟨l1, l2⟩ := filterMap_get hall
    generalize (List.range p.pages).filterMap (fun k => f.blk (p.off / PG + k)) = gs at l1 l2
    rcases mapAll_new (e := e) (s0 := s) (base := p.vaddr / PG) (by omega) gs s (p.vaddr / PG) (by omega)
        (fun u a b => hu u ⟨a, by omega⟩) with ⟨e1, e2⟩ | ⟨s', e1, hm⟩
    · left; rw [e1]; exact ⟨s, rfl, e2, fun _ _ => rfl, fun _ _ => rfl⟩
    · right
      rw [e1]
      dsimp only
      rw [p4]
      have hpage : ∀ u, p.Covers u → s'.pte u = (f.blk (p.off / PG + (u - p.vaddr / PG))).map (fun g => (g, false)) := by
        intro u hc
        have h1 := hc.1; have h2 := hc.2
        rw [hm.page u h1 (by omega), l2 _ (by omega)]
      refine ⟨s', rfl, by rw [hm.next]; exact Nat.le_refl _, fun g _ => by rw [hm.data], fun u hn => hm.other u (fun x => hn ⟨x.1, by omega⟩), ?_, ?_⟩
      · intro u g w hc hp
        rw [hpage u hc] at hp
        cases hb : f.blk (p.off / PG + (u - p.vaddr / PG)) with
        | none => rw [hb] at hp; cases hp
        | some b =>
          rw [hb] at hp
          simp only [Option.map_some, Option.some.injEq, Prod.mk.injEq] at hp
          rw [hm.next, ← hp.1]
          exact hf _ _ hb
      · intro a ha
        have hc : p.Covers (a / PG) := (covers_iff h0 _).mpr ⟨a, ha, rfl⟩
        have ha1 := ha.1; have ha2 := ha.2
        have hidx : p.off / PG + (a / PG - p.vaddr / PG) = (p.off + (a - p.vaddr)) / PG := by omega
        have hmd : a % PG = (p.off + (a - p.vaddr)) % PG := by omega
        unfold Mem.at
        rw [hpage _ hc, hidx]
        obtain ⟨b, hb⟩ := Option.isSome_iff_exists.mp (hn (p.off + (a - p.vaddr)) (by omega))
        rw [hb]
        unfold want
        rw [if_pos (by omega), hw]
        show some (s'.data b (a % PG), false) = _
        unfold File.byte
        rw [hb, hm.data, hmd]

structure Inv (f : File) (s0 s : Mem) (done : List Ph) : Prop where
  next : s0.next ≤ s.next
  old : ∀ g, g < s0.next → s.data g = s0.data g
  kern : ∀ v, KP ≤ v → s.pte v = s0.pte v
  only : ∀ v, v < KP → s.pte v ≠ none → ∃ p ∈ done, ∃ a, p.In a ∧ a / PG = v
  lt : ∀ v g w, v < KP → s.pte v = some (g, w) → g < s.next
  img : ∀ p ∈ done, ∀ a, p.In a → s.at a = some (want f s0 p a)
  low : ∀ p ∈ done, p.vaddr + p.memsz ≤ PG * KP

/-- The end of the program's memory. -/
structure Brk (done : List Ph) (brk : Nat) : Prop where
  above : ∀ p ∈ done, p.vaddr + p.memsz ≤ brk
  least : brk = 0 ∧ done = [] ∨ ∃ p ∈ done, brk = PG * ((p.vaddr + p.memsz + 4095) / PG)

theorem inv_add {e : Env} {f : File} {s0 s s' : Mem} {done : List Ph} {p : Ph} (hi : Inv f s0 s done) (hs : p.Sane e f) (hsp : 0 < e.sp ∧ e.sp ≤ 4096)
    (hf : ∀ i b, f.blk i = some b → b < s0.next)
    (hd : ∀ q ∈ done, ∀ a b, q.In a → p.In b → a / PG ≠ b / PG) (h : SegDone e f s s' p) : Inv f s0 s' (done ++ [p]) := by
  obtain ⟨p1, p2, p3, p4⟩ := pages_eq hs hsp
  have hkp : ∀ u, p.Covers u → u < KP := by intro u hc; have := hc.2; omega
  refine ⟨Nat.le_trans hi.next h.next, fun g hg => by rw [h.old g (by have := hi.next; omega), hi.old g hg], ?_, ?_, ?_, ?_, ?_⟩
  · intro v hv
    rw [h.other v (fun c => by have := hkp v c; omega), hi.kern v hv]
  · intro v hv hne
    by_cases hc : p.Covers v
    · exact ⟨p, by simp, (covers_iff hs.size v).mp hc⟩
    · rw [h.other v hc] at hne
      obtain ⟨q, hq, ha⟩ := hi.only v hv hne
      exact ⟨q, by simp [hq], ha⟩
  · intro v g w hv hp
    by_cases hc : p.Covers v
    · exact h.lt v g w hc hp
    · rw [h.other v hc] at hp
      exact Nat.lt_of_lt_of_le (hi.lt v g w hv hp) h.next
  · intro q hq a ha
    rcases List.mem_append.mp hq with hq | hq
    · have hc : ¬ p.Covers (a / PG) := by
        intro c
        obtain ⟨b, hb, e⟩ := (covers_iff hs.size _).mp c
        exact hd q hq a b ha hb e.symm
      have hi1 := hi.img q hq a ha
      unfold Mem.at at hi1 ⊢
      rw [h.other _ hc]
      cases hp : s.pte (a / PG) with
      | none => rw [hp] at hi1; cases hi1
      | some x =>
        rw [hp] at hi1
        rw [← hi1]
        show some (s'.data x.1 (a % PG), x.2) = some (s.data x.1 (a % PG), x.2)
        by_cases hv : a / PG < KP
        · rw [h.old x.1 (hi.lt _ x.1 x.2 hv hp)]
        · exfalso; have := hi.low q hq; have := ha.2; omega
    · have : q = p := by simpa using hq
      subst this
      rw [h.img a ha]
      unfold want
      rw [byte_congr (s := s0) (s' := s) (fun i b hb => hi.old b (hf i b hb))]
  · intro q hq
    rcases List.mem_append.mp hq with hq | hq
    · exact hi.low q hq
    · have : q = p := by simpa using hq
      subst this
      have := hs.below
      omega

/-- The segments of a sane file. -/
theorem segments_sane {e : Env} {f : File} {s0 : Mem} (hst : Start e f s0) (hn : e.mmaps = true → NoHoles f) (ps : List Ph) : ∀ (s : Mem) (done : List Ph) (brk : Nat),
    Sane e f ps → Inv f s0 s done → Brk done brk → (∀ q ∈ done, ∀ p ∈ ps, p.typ = 1 → ∀ a b, q.In a → p.In b → a / PG ≠ b / PG) →
    (∃ s', segments e f ps s brk = .err ENOMEM s' ∧ Short e ∧ Untouched s0 s') ∨
    ∃ s' brk', segments e f ps s brk = .ok s' brk' ∧ Inv f s0 s' (done ++ ps.filter (fun p => p.typ = 1)) ∧ Brk (done ++ ps.filter (fun p => p.typ = 1)) brk' := by
  induction ps with
  | nil =>
    intro s done brk _ hi hb _
    right
    exact ⟨s, brk, rfl, by simpa using hi, by simpa using hb⟩
  | cons p ps ih =>
    intro s done brk hs hi hb hd
    have hst' : Sane e f ps := by
      refine ⟨fun q hq => hs.1 q (List.mem_cons_of_mem _ hq), ?_⟩
      have := hs.2
      rw [List.filter_cons] at this
      split at this
      · exact (List.pairwise_cons.mp this).2
      · exact this
    have hd' : ∀ q ∈ done, ∀ p ∈ ps, p.typ = 1 → ∀ a b, q.In a → p.In b → a / PG ≠ b / PG := fun q hq r hr => hd q hq r (List.mem_cons_of_mem _ hr)
    rw [segments]
    by_cases ht : p.typ = 1
    · rw [if_neg (fun x => x ht)]
      have hsp := hs.1 p List.mem_cons_self ht
      have hal : aligned p = true := by unfold aligned; simpa using hsp.align
      rw [hal, if_neg (by decide)]
      obtain ⟨p1, p2, p3, p4⟩ := pages_eq hsp hst.sp
      have hu : ∀ u, p.Covers u → e.big u = false ∧ s.pte u = none := by
        intro u hc
        have hk : u < KP := by have := hc.2; omega
        refine ⟨hst.big u hk, ?_⟩
        cases hpt : s.pte u with
        | none => rfl
        | some x =>
          exfalso
          obtain ⟨q, hq, a, ha, e1⟩ := hi.only u hk (by rw [hpt]; exact fun x => by cases x)
          obtain ⟨b, hb, e2⟩ := (covers_iff hsp.size u).mp hc
          exact hd q hq p List.mem_cons_self ht a b ha hb (e1.trans e2.symm)
      have hfb : ∀ i b, f.blk i = some b → b < s.next := fun i b h => Nat.lt_of_lt_of_le (hst.blk i b h) hi.next
      have key : (∃ s', (if e.mmaps then byMmap e f s p else byCopy e f s p) = .err ENOMEM s' ∧ Short e ∧ (∀ u, KP ≤ u → s'.pte u = s.pte u) ∧ ∀ g, g < s.next → s'.data g = s.data g) ∨
          ∃ s', (if e.mmaps then byMmap e f s p else byCopy e f s p) = .ok s' (PG * ((p.vaddr + p.memsz + 4095) / PG)) ∧ SegDone e f s s' p := by
        cases hm : e.mmaps with
        | true => rw [if_pos rfl]; exact byMmap_sane hsp (hn hm) hst.sp hu hfb
        | false => rw [if_neg (by decide)]; exact byCopy_sane hsp hst.sp hu hfb
      rcases key with ⟨s', e1, e2, e3, e4⟩ | ⟨s', e1, hsd⟩
      · left
        rw [e1]
        exact ⟨s', rfl, e2, fun v hv => by rw [e3 v hv, hi.kern v hv], fun g hg => by rw [e4 g (by have := hi.next; omega), hi.old g hg]⟩
      · rw [e1]
        dsimp only
        have hi' := inv_add hi hsp hst.sp hst.blk (fun q hq => hd q hq p List.mem_cons_self ht) hsd
        have hf1 : (p :: ps).filter (fun p => p.typ = 1) = p :: ps.filter (fun p => p.typ = 1) := by
          rw [List.filter_cons, if_pos (by simpa using ht)]
        have hb' : Brk (done ++ [p]) (if brk < PG * ((p.vaddr + p.memsz + 4095) / PG) then PG * ((p.vaddr + p.memsz + 4095) / PG) else brk) := by
          constructor
          · intro q hq
            rcases List.mem_append.mp hq with hq | hq
            · have := hb.above q hq
              split <;> omega
            · have : q = p := by simpa using hq
              subst this
              split <;> omega
          · right
            split
            · exact ⟨p, by simp, rfl⟩
            · rcases hb.least with ⟨h1, h2⟩ | ⟨q, hq, h1⟩
              · have := hsp.size; omega
              · exact ⟨q, by simp [hq], h1⟩
        have hd2 : ∀ q ∈ done ++ [p], ∀ r ∈ ps, r.typ = 1 → ∀ a b, q.In a → r.In b → a / PG ≠ b / PG := by
          intro q hq r hr hrt
          rcases List.mem_append.mp hq with hq | hq
          · exact hd' q hq r hr hrt
          · have : q = p := by simpa using hq
            subst this
            have := hs.2
            rw [hf1] at this
            exact (List.pairwise_cons.mp this).1 r (List.mem_filter.mpr ⟨hr, by simpa using hrt⟩)
        rw [hf1]
        have := ih s' (done ++ [p]) _ hst' hi' hb' hd2
        rwa [List.append_assoc] at this
    · rw [if_pos ht]
      have hf1 : (p :: ps).filter (fun p => p.typ = 1) = ps.filter (fun p => p.typ = 1) := by
        rw [List.filter_cons, if_neg (by simpa using ht)]
      rw [hf1]
      exact ih s done brk hst' hi hb hd'

/-- The pages of the stack. -/
theorem stack_new {e : Env} (n : Nat) : ∀ (s : Mem) (v : Nat), (∀ u, v ≤ u → u < v + n → s.pte u = none) →
    (∃ s', stack e n s v = .err ENOMEM s' ∧ Short e ∧ (∀ u, v + n ≤ u → s'.pte u = s.pte u) ∧ ∀ g, g < s.next → s'.data g = s.data g) ∨
    ∃ s', stack e n s v = .ok s' () ∧ s.next ≤ s'.next ∧ (∀ g, g < s.next → s'.data g = s.data g) ∧ (∀ u, ¬ (v ≤ u ∧ u < v + n) → s'.pte u = s.pte u) ∧
      ∀ u, v ≤ u → u < v + n → ∃ g, s'.pte u = some (g, true) ∧ g < s'.next ∧ s'.data g = fun _ => 0 := by
  induction n with
  | zero => intro s v _; right; exact ⟨s, rfl, Nat.le_refl _, fun _ _ => rfl, fun _ _ => rfl, fun u a b => by omega⟩
  | succ n ih =>
    intro s v hu
    rw [stack, hu v (Nat.le_refl _) (by omega)]
    dsimp only
    by_cases hc : e.alloc s.next = false ∨ e.table v = false
    · left
      rw [if_pos hc]
      exact ⟨s, rfl, hc.elim (fun h => Or.inl ⟨_, h⟩) (fun h => Or.inr ⟨_, h⟩), fun _ _ => rfl, fun _ _ => rfl⟩
    · rw [if_neg hc]
      have hfd : ∀ g, g < s.next → (s.fresh v).data g = s.data g := by
        intro g hg
        show (if g = s.next then fun _ => 0 else s.data g) = _
        rw [if_neg (by omega)]
      have hfp : ∀ u, u ≠ v → (s.fresh v).pte u = s.pte u := fun u hne => if_neg hne
      have hfn : (s.fresh v).next = s.next + 1 := rfl
      rcases ih (s.fresh v) (v + 1) (fun u a b => by rw [hfp u (by omega)]; exact hu u (by omega) (by omega)) with ⟨s', e1, e2, e3, e4⟩ | ⟨s', e1, e2, e3, e4, e5⟩
      · left
        exact ⟨s', e1, e2, fun u hu => by rw [e3 u (by omega), hfp u (by omega)], fun g hg => by rw [e4 g (by omega), hfd g hg]⟩
      · right
        refine ⟨s', e1, by omega, fun g hg => by rw [e3 g (by omega), hfd g hg], fun u hn => by rw [e4 u (by omega), hfp u (by omega)], ?_⟩
        intro u a b
        by_cases huv : u = v
        · subst huv
          refine ⟨s.next, ?_, by omega, ?_⟩
          · rw [e4 u (by omega)]
            exact if_pos rfl
          · rw [e3 _ (by omega)]
            exact if_pos rfl
        · exact e5 u (by omega) (by omega)

/-- What a new program finds in memory. -/
structure Image (e : Env) (f : File) (s s' : Mem) (ps : List Ph) (brk : Nat) : Prop where
  /-- The bytes of the file, then zeros, writable or not as the segment says. -/
  seg : ∀ p ∈ ps, p.typ = 1 → ∀ a, p.In a → s'.at a = some (if a < p.vaddr + p.filesz then f.byte s (p.off + (a - p.vaddr)) else 0, p.w)
  stack : ∀ a, PG * (KP - e.sp) ≤ a → a < PG * KP → s'.at a = some (0, true)
  /-- Nothing else but the rest of the pages of the segments. -/
  only : ∀ a, a < PG * (KP - e.sp) → s'.at a ≠ none → ∃ p ∈ ps, p.typ = 1 ∧ ∃ b, p.In b ∧ b / PG = a / PG
  /-- The heap begins with the first page after all segments. -/
  brk : (∀ p ∈ ps, p.typ = 1 → p.vaddr + p.memsz ≤ brk) ∧ brk % PG = 0 ∧ ((∃ p ∈ ps, p.typ = 1) → ∃ p ∈ ps, p.typ = 1 ∧ brk < p.vaddr + p.memsz + PG)

theorem headers_ok {e : Env} {f : File} {s : Mem} {ps : List Ph} (h : Headers f s ps) (h52 : 52 ≤ f.size) (hh : f.u16 s 40 = 52) :
    (headers e f s = .error ENOMEM ∧ Short e) ∨ headers e f s = .ok ps := by
  have e1 : f.u32 s 0 = 0x464c457f := by
    unfold File.u32 File.u16
    rw [h.magic.1, h.magic.2.1, h.magic.2.2.1, h.magic.2.2.2]
  have e2 : f.u16 s 16 = 2 := by unfold File.u16; rw [h.kind.1, h.kind.2]
  have e3 : f.u16 s 18 = 3 := by unfold File.u16; rw [h.machine.1, h.machine.2]
  have e4 : f.u16 s 44 = ps.length := h.count.symm
  unfold headers
  rw [if_neg (by omega), if_neg (by rw [e1]; decide), if_neg (by rw [e2]; decide), if_neg (by rw [e3, h.cls]; decide), if_neg (by omega)]
  by_cases ha : e.alloc s.next = false
  · left; rw [if_pos ha]; exact ⟨rfl, Or.inl ⟨_, ha⟩⟩
  · right
    rw [if_neg ha, if_neg (by rw [e4]; have := h.inside; omega), e4]
    congr 1
    apply List.ext_getElem?
    intro i
    by_cases hi : i < ps.length
    · rw [List.getElem?_eq_getElem (by simpa using hi), List.getElem_map, List.getElem_range, List.getElem?_eq_getElem hi]
      rw [← h.entry i _ (List.getElem?_eq_getElem hi)]
    · rw [List.getElem?_eq_none (by simp; omega), List.getElem?_eq_none (by omega)]

/-- C138. An executable as linkers make them is loaded as the ELF format says, or memory is short; what the kernel and other processes
have stays as it was. -/
theorem image_partial {e : Env} {f : File} {s : Mem} {ps : List Ph} (locks : Nat) (hst : Start e f s) (hh : Headers f s ps) (h52 : 52 ≤ f.size) (he : f.u16 s 40 = 52)
    (hne : ps ≠ []) (hi : ∀ p ∈ ps, p.typ ≠ 3) (hs : Sane e f ps) (hn : e.mmaps = true → NoHoles f) :
    (∃ s', (load e f s locks).1 = .err ENOMEM s' ∧ Short e ∧ Untouched s s') ∨
    ∃ s' brk, (load e f s locks).1 = .ok s' ⟨brk, f.u32 s 24⟩ ∧ Image e f s s' ps brk ∧ Untouched s s' := by
  unfold load
  rcases headers_ok (e := e) hh h52 he with ⟨h1, h2⟩ | h1
  · left; rw [h1]; exact ⟨s, rfl, h2, fun _ _ => rfl, fun _ _ => rfl⟩
  rw [h1]
  dsimp only
  have hni : ps.any (fun p => decide (p.typ = 3)) = false := by
    rw [List.any_eq_false]
    intro p hp
    simpa using hi p hp
  rw [if_neg (fun x => hne x.2), hni, if_neg (by decide)]
  have hinit : Inv f s s [] := ⟨Nat.le_refl _, fun _ _ => rfl, fun _ _ => rfl, fun v hv hx => absurd (hst.user v hv) hx,
    (fun v g w hv hp => by rw [hst.user v hv] at hp; cases hp), (fun p hp => by cases hp), (fun p hp => by cases hp)⟩
  rcases segments_sane hst hn ps s [] 0 hs hinit ⟨(fun p hp => by cases hp), Or.inl ⟨rfl, rfl⟩⟩ (fun q hq => by cases hq) with
    ⟨s', e1, e2, e3⟩ | ⟨s', brk, e1, hi', hb⟩
  · left; rw [e1]; exact ⟨s', rfl, e2, e3⟩
  rw [e1]
  dsimp only
  rw [List.nil_append] at hi' hb
  have hsp := hst.sp
  have hfree : ∀ u, KP - e.sp ≤ u → u < KP - e.sp + e.sp → s'.pte u = none := by
    intro u a b
    cases hp : s'.pte u with
    | none => rfl
    | some x =>
      exfalso
      obtain ⟨p, hp, c, hc, e2⟩ := hi'.only u (by omega) (by rw [hp]; exact fun x => by cases x)
      have hm := List.mem_filter.mp hp
      have := (hs.1 p hm.1 (by simpa using hm.2)).below
      have := hc.2
      omega
  rcases stack_new (e := e) e.sp s' (KP - e.sp) hfree with ⟨s2, e2, e3, e4, e5⟩ | ⟨s2, e2, e3, e4, e5, e6⟩
  · left
    rw [e2]
    exact ⟨s2, rfl, e3, fun v hv => by rw [e4 v (by omega), hi'.kern v hv], fun g hg => by rw [e5 g (by have := hi'.next; omega), hi'.old g hg]⟩
  right
  rw [e2]
  refine ⟨s2, brk, rfl, ⟨?_, ?_, ?_, ?_⟩, fun v hv => by rw [e5 v (by omega), hi'.kern v hv], fun g hg => by rw [e4 g (by have := hi'.next; omega), hi'.old g hg]⟩
  · intro p hp ht a ha
    have hsn := hs.1 p hp ht
    have hlow : a / PG < KP - e.sp := by have := hsn.below; have := ha.2; omega
    have := hi'.img p (List.mem_filter.mpr ⟨hp, by simpa using ht⟩) a ha
    unfold want at this
    rw [← this]
    unfold Mem.at at this ⊢
    rw [e5 _ (by omega)]
    cases hpt : s'.pte (a / PG) with
    | none => rfl
    | some x =>
      show some (s2.data x.1 (a % PG), x.2) = some (s'.data x.1 (a % PG), x.2)
      rw [e4 x.1 (hi'.lt _ x.1 x.2 (by omega) hpt)]
  · intro a h1 h2
    obtain ⟨g, g1, _, g3⟩ := e6 (a / PG) (by omega) (by omega)
    unfold Mem.at
    rw [g1]
    show some (s2.data g (a % PG), true) = _
    rw [g3]
  · intro a h1 h2
    unfold Mem.at at h2
    rw [e5 _ (by omega)] at h2
    obtain ⟨p, hp, b, hb1, hb2⟩ := hi'.only (a / PG) (by omega) (fun x => h2 (by rw [x]; rfl))
    have hm := List.mem_filter.mp hp
    exact ⟨p, hm.1, by simpa using hm.2, b, hb1, hb2⟩
  · refine ⟨fun p hp ht => hb.above p (List.mem_filter.mpr ⟨hp, by simpa using ht⟩), ?_, ?_⟩
    · rcases hb.least with ⟨h1, _⟩ | ⟨p, _, h1⟩
      · rw [h1]
      · rw [h1]; omega
    · rintro ⟨p, hp, ht⟩
      rcases hb.least with ⟨_, h1⟩ | ⟨q, hq, h1⟩
      · have : p ∈ ps.filter (fun p => decide (p.typ = 1)) := List.mem_filter.mpr ⟨hp, by simpa using ht⟩
        rw [h1] at this
        cases this
      · have hm := List.mem_filter.mp hq
        exact ⟨q, hm.1, by simpa using hm.2, by omega⟩


/-- What the kernel and other processes have, apart from the file itself, is as before. -/
def KernelSafe (f : File) (s s' : Mem) : Prop :=
  (∀ v, KP ≤ v → s'.pte v = s.pte v) ∧ ∀ g, g < s.next → (∀ i, f.blk i ≠ some g) → s'.data g = s.data g

/-- The memory after a call, if it comes back. -/
def Out.mem {α : Type} : Out α → Option Mem
  | .ok s _ => some s
  | .err _ s => some s
  | _ => none

structure Guard (f : File) (s0 s : Mem) : Prop where
  next : s0.next ≤ s.next
  safe : KernelSafe f s0 s
  own : ∀ v g w, v < KP → s.pte v = some (g, w) → s0.next ≤ g ∨ ∃ i, f.blk i = some g

theorem guard_fresh {f : File} {s0 s : Mem} (h : Guard f s0 s) {v : Nat} (hv : v < KP) : Guard f s0 (s.fresh v) := by
  refine ⟨Nat.le_succ_of_le h.next, ⟨fun u hu => ?_, fun g hg hb => ?_⟩, ?_⟩
  · show (if u = v then _ else s.pte u) = _
    rw [if_neg (by omega)]; exact h.safe.1 u hu
  · show (if g = s.next then _ else s.data g) = _
    have := h.next
    rw [if_neg (by omega)]; exact h.safe.2 g hg hb
  · intro u g w hu hp
    have hp : (if u = v then some (s.next, true) else s.pte u) = some (g, w) := hp
    split at hp
    · injection hp with hp
      injection hp with hp _
      left; rw [← hp]; exact h.next
    · exact h.own u g w hu hp

theorem guard_copy {f : File} {s0 s : Mem} (h : Guard f s0 s) {g : Nat} (hg : s0.next ≤ g ∨ ∃ i, f.blk i = some g) (o n pos : Nat) : Guard f s0 (s.copy f g o n pos) := by
  refine ⟨h.next, ⟨h.safe.1, fun k hk hb => ?_⟩, h.own⟩
  show (if k = g then _ else s.data k) = _
  rw [if_neg]
  · exact h.safe.2 k hk hb
  · rintro rfl
    rcases hg with h1 | ⟨i, h1⟩
    · omega
    · exact hb i h1

theorem getPage_guard {e : Env} {f : File} {s0 s : Mem} (h : Guard f s0 s) {v : Nat} (hv : v < KP) (hb : e.big v = false) :
    getPage e s v = .err ENOMEM s ∨ ∃ s' g, getPage e s v = .ok s' g ∧ Guard f s0 s' ∧ (s0.next ≤ g ∨ ∃ i, f.blk i = some g) := by
  unfold getPage
  rw [if_neg (by simp [hb])]
  cases hp : s.pte v with
  | some x => right; exact ⟨s, x.1, rfl, h, h.own v x.1 x.2 hv hp⟩
  | none =>
    dsimp only
    by_cases h1 : e.alloc s.next = false
    · left; exact if_pos h1
    · rw [if_neg h1]
      by_cases h2 : e.table v = false
      · left; exact if_pos h2
      · right; exact ⟨s.fresh v, s.next, if_neg h2, guard_fresh h hv, Or.inl h.next⟩

/-- What a call of the loader may lead to. -/
def Fine {α : Type} (f : File) (s0 : Mem) (x : Out α) : Prop := ∃ s', x.mem = some s' ∧ Guard f s0 s'

theorem copyLoop_guard {e : Env} {f : File} {s0 : Mem} (hbig : ∀ v, v < KP → e.big v = false) (n : Nat) : ∀ (s : Mem) (v va rem pos : Nat), Guard f s0 s → v + n ≤ KP →
    (0 < rem → va / PG = v ∧ va + rem ≤ PG * (v + n)) →
    Fine f s0 (copyLoop e f n s v va rem pos) ∧ ∀ s' r, copyLoop e f n s v va rem pos = .ok s' r → r = 0 := by
  induction n with
  | zero =>
    intro s v va rem pos h _ hr
    refine ⟨⟨s, rfl, h⟩, ?_⟩
    intro s' r e
    injection e with _ e
    have : ¬ 0 < rem := fun h => by have := hr h; omega
    omega
  | succ n ih =>
    intro s v va rem pos h hk hr
    rw [copyLoop]
    have hmod : (v + 1) % NP = v + 1 := Nat.mod_eq_of_lt (by omega)
    rcases getPage_guard (e := e) h (show v < KP by omega) (hbig v (by omega)) with h1 | ⟨s1, g, h1, h2, h3⟩
    · rw [h1]; exact ⟨⟨s, rfl, h⟩, fun s' r e => by cases e⟩
    rw [h1]
    dsimp only
    rw [hmod]
    by_cases h0 : rem = 0
    · rw [if_pos h0]
      exact ih s1 (v + 1) va 0 pos h2 (by omega) (fun x => absurd x (by decide))
    · rw [if_neg h0]
      obtain ⟨hva, hend⟩ := hr (by omega)
      split
      · exact ⟨⟨s1, rfl, h2⟩, fun s' r e => by cases e⟩
      · have hvm : (va + min rem (PG - va % PG)) % 2 ^ 32 = va + min rem (PG - va % PG) := Nat.mod_eq_of_lt (by omega)
        rw [hvm]
        exact ih _ (v + 1) _ _ _ (guard_copy h2 h3 _ _ _) (by omega) (fun x => ⟨by omega, by omega⟩)

theorem guard_protect {f : File} {s0 s : Mem} (h : Guard f s0 s) {v n : Nat} (hk : v + n ≤ KP) : Guard f s0 (s.protect v n) := by
  have hp : ∀ u, (s.protect v n).pte u = if (v ≤ u ∧ u < v + n) ∨ u + NP < v + n then (s.pte u).map (fun x => (x.1, false)) else s.pte u := fun _ => rfl
  refine ⟨h.next, ⟨fun u hu => ?_, h.safe.2⟩, ?_⟩
  · rw [hp, if_neg (by omega)]; exact h.safe.1 u hu
  · intro u g w hu hq
    rw [hp] at hq
    split at hq
    · cases hs : s.pte u with
      | none => rw [hs] at hq; cases hq
      | some x =>
        rw [hs] at hq
        simp only [Option.map_some, Option.some.injEq, Prod.mk.injEq] at hq
        rw [← hq.1]
        exact h.own u x.1 x.2 hu hs
    · exact h.own u g w hu hq

/-- A segment in the part of memory that belongs to programs. -/
structure Ph.Low (p : Ph) : Prop where
  above : PG ≤ p.vaddr
  below : p.vaddr + p.memsz ≤ PG * KP
  file : p.filesz ≤ p.memsz

theorem pages_low {p : Ph} (h : p.Low) : p.vaddr / PG + p.pages = (p.vaddr + p.memsz + 4095) / PG ∧ p.vaddr / PG + p.pages ≤ KP := by
  have hb := h.below
  have hv : p.vaddr % PG + p.memsz + 4095 < 2 ^ 32 := by omega
  have h3 : p.pages = (p.vaddr % PG + p.memsz + 4095) / PG := by
    unfold Ph.pages
    rw [Nat.mod_eq_of_lt (show p.vaddr % PG + p.memsz < 2 ^ 32 by omega), Nat.mod_eq_of_lt hv]
  rw [h3]
  omega

theorem byCopy_guard {e : Env} {f : File} {s0 s : Mem} (hbig : ∀ v, v < KP → e.big v = false) (h : Guard f s0 s) {p : Ph} (hl : p.Low) : Fine f s0 (byCopy e f s p) := by
  unfold byCopy
  split
  · exact ⟨s, rfl, h⟩
  · obtain ⟨p1, p2⟩ := pages_low hl
    have hfl := hl.file
    obtain ⟨⟨s', h1, h2⟩, h3⟩ := copyLoop_guard hbig p.pages s (p.vaddr / PG) p.vaddr p.filesz p.off h p2 (fun _ => ⟨rfl, by omega⟩)
    cases hc : copyLoop e f p.pages s (p.vaddr / PG) p.vaddr p.filesz p.off with
    | stop => rw [hc] at h1; cases h1
    | wild => rw [hc] at h1; cases h1
    | err rc s1 => rw [hc] at h1; cases h1; exact ⟨_, rfl, h2⟩
    | ok s1 r =>
      rw [hc] at h1
      cases h1
      dsimp only
      rw [if_neg (fun x => x.2 (h3 _ _ hc))]
      split
      · exact ⟨_, rfl, h2⟩
      · exact ⟨_, rfl, guard_protect h2 p2⟩

theorem mapAll_guard {e : Env} {f : File} {s0 sb : Mem} {base : Nat} (hbig : ∀ v, v < KP → e.big v = false) (hb : base ≠ 0) (h0 : Guard f s0 sb) (gs : List Nat) :
    ∀ (s : Mem) (v : Nat), Guard f s0 s → v + gs.length ≤ KP → (∀ g ∈ gs, ∃ i, f.blk i = some g) → Fine f s0 (mapAll e sb base gs s v) := by
  induction gs with
  | nil => intro s v h _ _; exact ⟨s, rfl, h⟩
  | cons g gs ih =>
    intro s v h hk hg
    rw [List.length_cons] at hk
    rw [mapAll, if_neg (by simp [hbig v (by omega)])]
    cases hp : s.pte v with
    | some x => dsimp only; rw [if_neg hb]; exact ⟨sb, rfl, h0⟩
    | none =>
      dsimp only
      split
      · exact ⟨sb, by simp [hb, Out.mem], h0⟩
      · rw [show (v + 1) % NP = v + 1 from Nat.mod_eq_of_lt (by omega)]
        refine ih _ (v + 1) ⟨h.next, ⟨fun u hu => ?_, h.safe.2⟩, ?_⟩ (by omega) (fun x hx => hg x (List.mem_cons_of_mem _ hx))
        · show (if u = v then _ else s.pte u) = _
          rw [if_neg (by omega)]; exact h.safe.1 u hu
        · intro u k w hu hq
          have hq : (if u = v then some (g, false) else s.pte u) = some (k, w) := hq
          split at hq
          · injection hq with hq
            injection hq with hq _
            right; rw [← hq]; exact hg g List.mem_cons_self
          · exact h.own u k w hu hq

theorem byMmap_guard {e : Env} {f : File} {s0 s : Mem} (hbig : ∀ v, v < KP → e.big v = false) (h : Guard f s0 s) {p : Ph} (hl : p.Low) : Fine f s0 (byMmap e f s p) := by
  unfold byMmap
  split
  · exact byCopy_guard hbig h hl
  split
  · exact ⟨s, rfl, h⟩
  obtain ⟨p1, p2⟩ := pages_low hl
  have hab := hl.above
  obtain ⟨s', h1, h2⟩ := mapAll_guard (e := e) (base := p.vaddr / PG) hbig (by omega) h ((List.range p.pages).filterMap (fun k => f.blk (p.off / PG + k))) s (p.vaddr / PG) h
    (by have := List.length_filterMap_le (fun k => f.blk (p.off / PG + k)) (List.range p.pages); rw [List.length_range] at this; omega)
    (fun g hg => by
      obtain ⟨k, _, hk⟩ := List.mem_filterMap.mp hg
      exact ⟨_, hk⟩)
  cases hc : mapAll e s (p.vaddr / PG) ((List.range p.pages).filterMap (fun k => f.blk (p.off / PG + k))) s (p.vaddr / PG) with
  | stop => rw [hc] at h1; cases h1
  | wild => rw [hc] at h1; cases h1
  | err rc s1 => rw [hc] at h1; cases h1; exact ⟨_, rfl, h2⟩
  | ok s1 r => rw [hc] at h1; cases h1; exact ⟨_, rfl, h2⟩

theorem segments_guard {e : Env} {f : File} {s0 : Mem} (hbig : ∀ v, v < KP → e.big v = false) (ps : List Ph) : ∀ (s : Mem) (brk : Nat), Guard f s0 s →
    (∀ p ∈ ps, p.typ = 1 → p.Low) → Fine f s0 (segments e f ps s brk) := by
  induction ps with
  | nil => intro s brk h _; exact ⟨s, rfl, h⟩
  | cons p ps ih =>
    intro s brk h hl
    have hl' : ∀ p ∈ ps, p.typ = 1 → p.Low := fun q hq => hl q (List.mem_cons_of_mem _ hq)
    rw [segments]
    split
    · exact ih s brk h hl'
    rename_i ht
    split
    · exact ⟨s, rfl, h⟩
    have hlp := hl p List.mem_cons_self (Classical.not_not.mp ht)
    have key : Fine f s0 (if e.mmaps then byMmap e f s p else byCopy e f s p) := by
      split
      · exact byMmap_guard hbig h hlp
      · exact byCopy_guard hbig h hlp
    obtain ⟨s1, h1, h2⟩ := key
    cases hc : (if e.mmaps then byMmap e f s p else byCopy e f s p) with
    | stop => rw [hc] at h1; cases h1
    | wild => rw [hc] at h1; cases h1
    | err rc s2 => rw [hc] at h1; cases h1; exact ⟨_, rfl, h2⟩
    | ok s2 r => rw [hc] at h1; cases h1; exact ih _ _ h2 hl'

theorem stack_guard {e : Env} {f : File} {s0 : Mem} (n : Nat) : ∀ (s : Mem) (v : Nat), Guard f s0 s → v + n ≤ KP → Fine f s0 (stack e n s v) := by
  induction n with
  | zero => intro s v h _; exact ⟨s, rfl, h⟩
  | succ n ih =>
    intro s v h hk
    rw [stack]
    cases hp : s.pte v with
    | some x => exact ⟨s, rfl, h⟩
    | none =>
      dsimp only
      split
      · exact ⟨s, rfl, h⟩
      · exact ih _ (v + 1) (guard_fresh h (by omega)) (by omega)

/-- C139. Whatever is in the file, if its segments are in the part of memory of programs the kernel neither stops nor runs wild, and
nothing that the kernel and other processes have is changed (the file itself can be, see `file_changed_violated`). -/
theorem kernel_safe_partial {e : Env} {f : File} {s : Mem} (locks : Nat) (hst : Start e f s)
    (hl : ∀ ps, headers e f s = .ok ps → (e.dbg = true → ps ≠ []) ∧ ∀ p ∈ ps, p.typ = 1 → p.Low) :
    ∃ s', (load e f s locks).1.mem = some s' ∧ KernelSafe f s s' := by
  have hg : Guard f s s := ⟨Nat.le_refl _, ⟨fun _ _ => rfl, fun _ _ _ => rfl⟩, fun v g w hv hp => by rw [hst.user v hv] at hp; cases hp⟩
  unfold load
  cases hh : headers e f s with
  | error rc => exact ⟨s, rfl, hg.safe⟩
  | ok ps =>
    obtain ⟨hne, hlow⟩ := hl ps hh
    dsimp only
    rw [if_neg (fun x => hne x.1 x.2)]
    split
    · exact ⟨s, rfl, hg.safe⟩
    obtain ⟨s1, h1, h2⟩ := segments_guard hst.big ps s 0 hg hlow
    cases hc : segments e f ps s 0 with
    | stop => rw [hc] at h1; cases h1
    | wild => rw [hc] at h1; cases h1
    | err rc s2 => rw [hc] at h1; cases h1; exact ⟨_, rfl, h2.safe⟩
    | ok s2 r =>
      rw [hc] at h1; cases h1
      dsimp only
      have hsp := hst.sp
      obtain ⟨s3, h3, h4⟩ := stack_guard (e := e) e.sp s1 (KP - e.sp) h2 (by omega)
      cases hk : stack e e.sp s1 (KP - e.sp) with
      | stop => rw [hk] at h3; cases h3
      | wild => rw [hk] at h3; cases h3
      | err rc s2 => rw [hk] at h3; cases h3; exact ⟨_, rfl, h4.safe⟩
      | ok s2 r => rw [hk] at h3; cases h3; exact ⟨_, rfl, h4.safe⟩

/-- C140. A file that is not an executable of this machine is refused. -/
theorem refused {e : Env} {f : File} {s : Mem} (locks : Nat) (hb : ∀ g o, s.data g o < 256)
    (h : f.size < 52 ∨ ¬ (f.byte s 0 = 0x7f ∧ f.byte s 1 = 69 ∧ f.byte s 2 = 76 ∧ f.byte s 3 = 70) ∨ f.byte s 4 ≠ 1 ∨ ¬ (f.byte s 16 = 2 ∧ f.byte s 17 = 0) ∨
      ¬ (f.byte s 18 = 3 ∧ f.byte s 19 = 0) ∨ f.size < f.u32 s 28 + 32 * (f.byte s 44 + 256 * f.byte s 45)) :
    (load e f s locks).1 = .err ENOEXEC s ∨ Short e ∧ (load e f s locks).1 = .err ENOMEM s := by
  have hbyte : ∀ p, f.byte s p < 256 := by
    intro p
    unfold File.byte
    split
    · exact hb _ _
    · decide
  have key : headers e f s = .error ENOEXEC ∨ (Short e ∧ headers e f s = .error ENOMEM) := by
    unfold headers
    by_cases h1 : f.size < 52
    · left; exact if_pos h1
    rw [if_neg h1]
    by_cases h2 : f.u32 s 0 ≠ 0x464c457f
    · left; exact if_pos h2
    rw [if_neg h2]
    by_cases h3 : f.u16 s 16 ≠ 2
    · left; exact if_pos h3
    rw [if_neg h3]
    by_cases h4 : f.byte s 4 ≠ 1 ∨ f.u16 s 18 ≠ 3
    · left; exact if_pos h4
    rw [if_neg h4]
    by_cases h5 : f.u16 s 40 < 4
    · left; exact if_pos h5
    rw [if_neg h5]
    by_cases h6 : e.alloc s.next = false
    · right; exact ⟨Or.inl ⟨_, h6⟩, if_pos h6⟩
    rw [if_neg h6]
    left
    apply if_pos
    unfold File.u32 File.u16 at h2
    unfold File.u16 at h3 h4
    have b0 := hbyte 0; have b1 := hbyte 1; have b2 := hbyte 2; have b3 := hbyte 3
    have b16 := hbyte 16; have b17 := hbyte 17; have b18 := hbyte 18; have b19 := hbyte 19
    simp only [Nat.zero_add] at h2
    have e44 : f.u16 s 44 = f.byte s 44 + 256 * f.byte s 45 := rfl
    rw [e44]
    generalize f.u32 s 28 = ph at h ⊢
    simp only [show (2 : Nat) + 1 = 3 from rfl, show (16 : Nat) + 1 = 17 from rfl, show (18 : Nat) + 1 = 19 from rfl] at h2 h3 h4
    omega
  unfold load
  rcases key with h1 | ⟨h1, h2⟩
  · left; rw [h1]
  · right; rw [h2]; exact ⟨h1, rfl⟩

/-- C140. Dynamic executables and segments that are not aligned are refused. -/
theorem refused_headers {e : Env} {f : File} {s : Mem} (locks : Nat) {ps : List Ph} (hp : headers e f s = .ok ps)
    (h : (∃ p ∈ ps, p.typ = 3) ∨ ∃ p ∈ ps, p.typ = 1 ∧ ¬ (p.align = PG ∧ p.off % PG = p.vaddr % PG)) :
    ∀ s' x, (load e f s locks).1 ≠ .ok s' x := by
  have hseg : ∀ (ps : List Ph) (s : Mem) (brk : Nat), (∃ p ∈ ps, p.typ = 1 ∧ ¬ (p.align = PG ∧ p.off % PG = p.vaddr % PG)) → ∀ s' x, segments e f ps s brk ≠ .ok s' x := by
    intro ps
    induction ps with
    | nil => rintro s brk ⟨p, hp, _⟩; cases hp
    | cons q ps ih =>
      rintro s brk ⟨p, hp, ht, ha⟩ s' x
      rw [segments]
      rcases List.mem_cons.mp hp with rfl | hp
      · rw [if_neg (fun x => x ht), if_pos (by unfold aligned; simpa using ha)]
        exact fun x => by cases x
      · split
        · exact ih s brk ⟨p, hp, ht, ha⟩ s' x
        split
        · exact fun x => by cases x
        cases (if e.mmaps then byMmap e f s q else byCopy e f s q) with
        | stop => exact fun x => by cases x
        | wild => exact fun x => by cases x
        | err _ _ => exact fun x => by cases x
        | ok s1 y => exact ih _ _ ⟨p, hp, ht, ha⟩ s' x
  intro s' x hx
  unfold load at hx
  rw [hp] at hx
  dsimp only at hx
  split at hx
  · cases hx
  split at hx
  · cases hx
  rename_i hni
  rcases h with ⟨p, h1, h2⟩ | h
  · exact hni (List.any_eq_true.mpr ⟨p, h1, by simpa using h2⟩)
  · cases hc : segments e f ps s 0 with
    | stop => rw [hc] at hx; cases hx
    | wild => rw [hc] at hx; cases hx
    | err _ _ => rw [hc] at hx; cases hx
    | ok s1 y => exact hseg ps s 0 h _ _ hc

/-- C141. A load that succeeds holds one lock; one that fails holds none, if the headers of the file were all right. -/
theorem lock_partial {e : Env} {f : File} {s : Mem} (locks : Nat) :
    (∀ s' x, (load e f s locks).1 = .ok s' x → (load e f s locks).2 = locks + 1) ∧
    ∀ rc s', (load e f s locks).1 = .err rc s' → (∃ ps, headers e f s = .ok ps) → (load e f s locks).2 = locks := by
  unfold load
  cases headers e f s with
  | error rc => exact ⟨(fun s' x h => by cases h), fun _ _ _ h => by obtain ⟨_, h⟩ := h; cases h⟩
  | ok ps =>
    dsimp only
    split
    · exact ⟨(fun _ _ h => by cases h), fun _ _ h => by cases h⟩
    split
    · exact ⟨(fun _ _ h => by cases h), fun _ _ _ _ => rfl⟩
    cases segments e f ps s 0 with
    | stop => exact ⟨(fun _ _ h => by cases h), fun _ _ h => by cases h⟩
    | wild => exact ⟨(fun _ _ h => by cases h), fun _ _ h => by cases h⟩
    | err _ _ => exact ⟨(fun _ _ h => by cases h), fun _ _ _ _ => rfl⟩
    | ok s1 y =>
      dsimp only
      cases stack e e.sp s1 (KP - e.sp) with
      | stop => exact ⟨(fun _ _ h => by cases h), fun _ _ h => by cases h⟩
      | wild => exact ⟨(fun _ _ h => by cases h), fun _ _ h => by cases h⟩
      | err _ _ => exact ⟨(fun _ _ h => by cases h), fun _ _ _ _ => rfl⟩
      | ok s1 y => exact ⟨(fun _ _ _ => rfl), fun _ _ h => by cases h⟩

/-! ## Witnesses -/

def le (n k : Nat) : List Nat := (List.range n).map (fun i => k / 256 ^ i % 256)

/-- The bytes of a program header: type, offset, address, size in the file and in memory, flags. -/
def phBytes (x : List Nat) : List Nat :=
  le 4 (x.getD 0 0) ++ le 4 (x.getD 1 0) ++ le 4 (x.getD 2 0) ++ le 4 0 ++ le 4 (x.getD 3 0) ++ le 4 (x.getD 4 0) ++ le 4 (x.getD 5 0) ++ le 4 4096

/-- The first bytes of an executable; `es` is `e_phentsize`. -/
def exe (es : Nat) (hs : List (List Nat)) : List Nat :=
  [0x7f, 69, 76, 70, 1, 1, 1, 0, 0, 0, 0, 0, 0, 0, 0, 0] ++ le 2 2 ++ le 2 3 ++ le 4 1 ++ le 4 0x8049000 ++ le 4 52 ++ le 4 0 ++ le 4 0 ++
    le 2 52 ++ le 2 es ++ le 2 hs.length ++ le 6 0 ++ hs.flatMap phBytes

/-- A file of three pages: the headers, a page of 7s, a page of 9s; its frames are 1, 2 and 3. -/
def file : File := ⟨3 * 4096, fun i => if i < 3 then some (i + 1) else none⟩

/-- Frame 5 is the page of the kernel that all processes see at 0xF8000000. -/
def mem (h : List Nat) : Mem :=
  ⟨fun g o => if g = 1 then h.getD o 0 else if g = 2 then 7 else if g = 3 then 9 else 0, 6, fun v => if v = 1015808 then some (5, false) else none⟩

/-- A kernel with 896 MB in 4 MB pages and a stack of 2 pages for programs. -/
def env (dbg mmaps : Bool) : Env := ⟨dbg, fun v => decide (KP ≤ v ∧ v < 1015808), fun _ => true, fun _ => true, mmaps, 2⟩

def try_ (dbg mmaps : Bool) (f : File) (h : List Nat) : Out Prog × Nat := load (env dbg mmaps) f (mem h) 0

def Out.prog : Out Prog → Option Prog
  | .ok _ x => some x
  | _ => none

def Out.isStop : Out Prog → Bool
  | .stop => true
  | _ => false

def Out.isWild : Out Prog → Bool
  | .wild => true
  | _ => false

/-- What is found at an address. -/
def Out.see (x : Out Prog) (a : Nat) : Option (Option (Nat × Bool)) := x.mem.map (fun s => s.at a)

/-- Code at 0x8049000, data at 0x804a000 with zeros behind. -/
def good : List Nat := exe 32 [[1, 4096, 0x8049000, 4096, 4096, 5], [4, 0, 0, 0, 0, 0], [1, 8192, 0x804a000, 16, 8000, 6]]

example : (try_ true true file good).1.prog = some ⟨0x804c000, 0x8049000⟩ ∧
    (try_ true true file good).1.see 0x8049005 = some (some (7, false)) ∧
    (try_ true true file good).1.see 0x804a00f = some (some (9, true)) ∧ (try_ true true file good).1.see 0x804a010 = some (some (0, true)) ∧
    (try_ true true file good).1.see 0xbfffffff = some (some (0, true)) ∧ (try_ true true file good).1.see 0x804c000 = some none := by
  decide +kernel

theorem start (dbg mmaps : Bool) {h : List Nat} (hh : ∀ o, h.getD o 0 < 256) : Start (env dbg mmaps) file (mem h) := by
  refine ⟨fun v hv => ?_, fun v hv => ?_, fun i b hb => ?_, fun g o => ?_, ⟨Nat.zero_lt_succ 1, show 2 ≤ 4096 by decide⟩⟩
  · show (if v = 1015808 then _ else none) = none
    rw [if_neg (by omega)]
  · show decide (KP ≤ v ∧ v < 1015808) = false
    exact decide_eq_false (by omega)
  · have hb : (if i < 3 then some (i + 1) else none) = some b := hb
    split at hb
    · injection hb with hb
      show b < 6
      omega
    · cases hb
  · show (if g = 1 then h.getD o 0 else if g = 2 then 7 else if g = 3 then 9 else 0) < 256
    split
    · exact hh o
    · split
      · decide
      · split <;> decide

def goodPhs : List Ph := [⟨1, 4096, 0x8049000, 4096, 4096, false, 4096⟩, ⟨4, 0, 0, 0, 0, false, 4096⟩, ⟨1, 8192, 0x804a000, 16, 8000, true, 4096⟩]

/-- The hypotheses of `image_partial` hold for it. -/
example : Start (env true true) file (mem good) ∧ Headers file (mem good) goodPhs ∧ 52 ≤ file.size ∧ file.u16 (mem good) 40 = 52 ∧ goodPhs ≠ [] ∧
    (∀ p ∈ goodPhs, p.typ ≠ 3) ∧ Sane (env true true) file goodPhs ∧ NoHoles file := by
  refine ⟨start _ _ ?_, ?_, by decide, by decide +kernel, by decide, by decide, ⟨?_, ?_⟩, ?_⟩
  · intro o
    have hl : ∀ x ∈ good, x < 256 := by decide +kernel
    rw [List.getD_eq_getElem?_getD]
    cases hx : good[o]? with
    | none => decide
    | some x => exact hl x (List.mem_of_getElem? hx)
  · refine ⟨by decide +kernel, by decide +kernel, by decide +kernel, by decide +kernel, by decide +kernel, by decide +kernel, ?_⟩
    intro i p hp
    have hi : i = 0 ∨ i = 1 ∨ i = 2 := by
      have : i < 3 := (List.getElem?_eq_some_iff.mp hp).1
      omega
    rcases hi with rfl | rfl | rfl <;> (have hp := hp; injection hp with hp; subst hp; decide +kernel)
  · intro p hp ht
    rcases List.mem_cons.mp hp with rfl | hp
    · exact ⟨by decide, by decide, by decide, by decide, by decide, by decide⟩
    rcases List.mem_cons.mp hp with rfl | hp
    · exact absurd ht (by decide)
    rcases List.mem_cons.mp hp with rfl | hp
    · exact ⟨by decide, by decide, by decide, by decide, by decide, by decide⟩
    · cases hp
  · show List.Pairwise _ [(⟨1, 4096, 0x8049000, 4096, 4096, false, 4096⟩ : Ph), ⟨1, 8192, 0x804a000, 16, 8000, true, 4096⟩]
    refine List.Pairwise.cons ?_ (List.Pairwise.cons (fun _ h => by cases h) .nil)
    intro q hq a b ha hb
    have : q = ⟨1, 8192, 0x804a000, 16, 8000, true, 4096⟩ := by simpa using hq
    subst this
    have h1 : 0x8049000 ≤ a ∧ a < 0x8049000 + 4096 := ha
    have h2 : 0x804a000 ≤ b ∧ b < 0x804a000 + 8000 := hb
    omega
  · intro pos hp
    have hp : pos < 12288 := hp
    show (if pos / PG < 3 then some (pos / PG + 1) else none).isSome = true
    rw [if_pos (by omega)]
    rfl

/-- C139 fails: a segment at an address of the kernel is copied there: the page that all processes execute now has the bytes of the file. -/
theorem kernel_overwritten_violated : (try_ true true file (exe 32 [[1, 8192, 0xf8000000, 16, 16, 6]])).1.mem.map (fun s => s.data 5 0) = some 9 ∧
    (mem []).data 5 0 = 0 ∧ (mem []).pte 1015808 = some (5, false) := by decide +kernel

/-- C139 fails: pages of the kernel's part of memory are mapped, for programs to write. -/
theorem kernel_mapped_violated : (try_ true true file (exe 32 [[1, 8192, 0xfc000000, 16, 16, 6]])).1.see 0xfc000000 = some (some (9, true)) ∧
    (mem []).at 0xfc000000 = none := by decide +kernel

/-- C139 fails: with a segment in the memory that the kernel maps with 4 MB pages a debug kernel stops, another one writes anywhere. -/
theorem big_page_violated : (try_ true true file (exe 32 [[1, 8192, 0xc0000000, 16, 16, 6]])).1.isStop = true ∧
    (try_ false true file (exe 32 [[1, 8192, 0xc0000000, 16, 16, 6]])).1.isWild = true := by decide +kernel

/-- C139 fails: with two segments at address 0 the kernel unmaps all memory, for ever. -/
theorem undo_loop_violated : (try_ true true file (exe 32 [[1, 8192, 0, 16, 16, 6], [1, 4096, 0, 16, 16, 4]])).1.isWild = true := by decide +kernel

/-- C139 fails: if a segment for writing is on a page with one for reading, loading changes the file itself; … -/
theorem file_changed_violated :
    (try_ true true file (exe 32 [[1, 4096, 0x8049000, 16, 16, 4], [1, 8192 + 256, 0x8049100, 16, 16, 6]])).1.mem.map (fun s => file.byte s (4096 + 256)) = some 9 ∧
    file.byte (mem []) (4096 + 256) = 7 := by decide +kernel

/-- … and C138 fails: the program cannot write its data. -/
theorem not_writable_violated :
    (try_ true true file (exe 32 [[1, 4096, 0x8049000, 16, 16, 4], [1, 8192 + 256, 0x8049100, 16, 16, 6]])).1.prog ≠ none ∧
    (try_ true true file (exe 32 [[1, 4096, 0x8049000, 16, 16, 4], [1, 8192 + 256, 0x8049100, 16, 16, 6]])).1.see 0x8049100 = some (some (9, false)) := by decide +kernel

/-- C138 fails: behind the bytes of a segment for reading come not zeros, but more of the file. -/
theorem no_zeros_violated : (try_ true true file (exe 32 [[1, 4096, 0x8049000, 16, 4096, 4]])).1.see 0x8049010 = some (some (7, false)) := by decide +kernel

/-- C138 fails: a file that has holes is mapped wrong. -/
theorem hole_violated : (try_ true true ⟨3 * 4096, fun i => if i = 0 then some 1 else if i = 2 then some 3 else none⟩
    (exe 32 [[1, 4096, 0x8049000, 8192, 8192, 4]])).1.see 0x8049000 = some (some (9, false)) := by decide +kernel

/-- C140 fails: a file that ends within a segment for reading is accepted, and the program has no such memory. -/
theorem cut_off_accepted_violated : (try_ true true file (exe 32 [[1, 8192, 0x8049000, 8192, 8192, 4]])).1.prog = some ⟨0x804b000, 0x8049000⟩ ∧
    (try_ true true file (exe 32 [[1, 8192, 0x8049000, 8192, 8192, 4]])).1.see 0x804a000 = some none := by decide +kernel

/-- C140 fails: the size of the headers given in the file is ignored, and other bytes are taken for headers. -/
theorem entry_size_violated : (try_ true true file (exe 64 [[4], [1, 8192, 0x8049000, 16, 16, 6]])).1.see 0x8049000 = some (some (9, true)) := by decide +kernel

/-- C140 fails: a segment with more bytes in the file than in memory, or a file without headers, stops a debug kernel. -/
theorem debug_stops_violated : (try_ true true file (exe 32 [[1, 4096, 0x8049000, 8192, 16, 6]])).1.isStop = true ∧
    (try_ true true file (exe 32 [])).1.isStop = true := by decide +kernel

/-- C141 fails: running a file that is not an ELF file, as a script, leaves a lock on it. -/
theorem lock_leaked_violated : (try_ true true file [35, 33, 47]).1.prog = none ∧ (try_ true true file [35, 33, 47]).1.isStop = false ∧ (try_ true true file [35, 33, 47]).2 = 1 := by
  decide +kernel


end Verif.Elf
