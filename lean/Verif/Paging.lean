/-!
# Address spaces, copy-on-write and page-frame reference counts (kernel/arch/i386/paging.c)

Properties C39 (isolation after fork), C40 (reference counts of the page frames) and C41 (failing
fork).

## What is modelled

* the user half of the page directories (`BASE_VADDR_PD_IDX` entries) and their page tables, as
  separate heap objects with an identity, so that a table that has been freed while a directory
  still points to it is visible (`none` = the code touches freed or foreign memory);
* `pageframes_refcount`, the contents of the page frames, which frames are currently allocated;
* `map_page`, `map_zero_page`, `set_page_rw`, `__unmap_page`, `pdir_clone`, `pdir_destroy`,
  `handle_potential_cow`, the MMU's reading of the tables on user loads and stores, and the frames
  owned by the RAM file system's blocks.

A virtual page is its number `v` (address divided by the page size).  Every operation runs with
preemption disabled (or interrupts off, in the page-fault handler), so an execution is a sequence
of operations.  `kmalloc` is nondeterministic: the object or frame it returns, or its failure, is a
parameter of the operation, constrained only to be one that is not in use.

Simplifications: reference counts are natural numbers instead of `u32`; the TLB is not modelled
(`pdir_clone`'s caller reloads CR3, every other change invalidates the page it changed); the
kernel half of the directories, 4 MB pages, the US/CD/global bits are left out.
-/
namespace Verif.Paging

/-! ## Model -/

/-- Store into a function. -/
def upd {β : Type} (f : Nat → β) (k : Nat) (x : β) : Nat → β :=
  fun i => if i = k then x else f i

/-- Static configuration: `nd` = `BASE_VADDR_PD_IDX` (number of user entries of a directory),
`lim` = `phys_mem_lim` in pages (kernel/arch/generic_x86/paging_generic_x86.c:71), `zero` = the
frame of the global `zero_page`. -/
structure Cfg where
  nd : Nat
  lim : Nat
  zero : Nat
  hz : zero < lim

/-- A present page-table entry (`page_t`): frame, hardware `rw` bit, and the two `avail` bits
`PAGE_COW_ORIG_RW` and `PAGE_SHARED` (kernel/arch/generic_x86/paging_generic_x86.h:15-26).
A non-present entry is `none`. -/
structure Pte where
  frame : Nat
  rw : Bool
  cow : Bool
  shared : Bool
deriving DecidableEq, Repr

/-- A page table: 1024 entries. -/
abbrev Table := Nat → Option Pte

/-- The state of the memory manager. `pt t` and `pd d` are the page-table and directory objects
(`none`: not allocated); a directory entry is the identity of its page table.  `alloc f`: frame `f`
is a block obtained from `kmalloc` and not yet freed.  `dirs` lists the directories in existence
(one per process). -/
structure St where
  pt : Nat → Option Table
  pd : Nat → Option (Nat → Option Nat)
  dirs : List Nat
  rc : Nat → Nat
  alloc : Nat → Bool
  data : Nat → Nat → Nat

/-- Entry `j` of table `i` of directory `d`. -/
def lookIJ (s : St) (d i j : Nat) : Option Pte :=
  match s.pd d with
  | none => none
  | some e =>
    match e i with
    | none => none
    | some t =>
      match s.pt t with
      | none => none
      | some p => p j

/-- The page-table entry of virtual page `v`: `pd_index = v >> 10`, `pt_index = v & 1023`. -/
def look (s : St) (d v : Nat) : Option Pte := lookIJ s d (v / 1024) (v % 1024)

/-- `pf_ref_count_inc` (paging_generic_x86.h:48-54). -/
def rcInc (c : Cfg) (s : St) (f : Nat) : St :=
  if f < c.lim then { s with rc := upd s.rc f (s.rc f + 1) } else s

/-- `pf_ref_count_dec` (paging_generic_x86.h:56-62): the new count, 0 for a frame above
`phys_mem_lim`.  Decrementing a zero count is the failure `none`. -/
def rcDec (c : Cfg) (s : St) (f : Nat) : Option (St × Nat) :=
  if f < c.lim then
    if s.rc f = 0 then none
    else some ({ s with rc := upd s.rc f (s.rc f - 1) }, s.rc f - 1)
  else some (s, 0)

/-- `pf_ref_count_get` (paging_generic_x86.h:64-70). -/
def rcGet (c : Cfg) (s : St) (f : Nat) : Nat := if f < c.lim then s.rc f else 0

/-- `kfree2` of a page frame: freeing what is not allocated is the failure `none`. -/
def kfree (s : St) (f : Nat) : Option St :=
  if s.alloc f then some { s with alloc := upd s.alloc f false } else none

/-- `if (!pf_ref_count_dec(paddr) && free) kfree2(PA_TO_LIN_VA(paddr), PAGE_SIZE)`
(paging.c:284-287, and 786-787 with `free = true`). -/
def drop (c : Cfg) (s : St) (f : Nat) (free : Bool) : Option St :=
  match rcDec c s f with
  | none => none
  | some (s1, n) => if n = 0 ∧ free = true then kfree s1 f else some s1

/-- Store a page-table entry through the directory (`none`: the table is missing or freed). -/
def setPte (s : St) (d v : Nat) (x : Option Pte) : Option St :=
  match s.pd d with
  | none => none
  | some e =>
    match e (v / 1024) with
    | none => none
    | some t =>
      match s.pt t with
      | none => none
      | some p => some { s with pt := upd s.pt t (some (upd p (v % 1024) x)) }

/-- What a call reports. -/
inductive Ev where
  | ok
  | enomem
  | einuse
  | einval
  | fault
  | byte (b : Nat)
deriving DecidableEq, Repr

/-- The part of `map_page_int` behind the check for the page table (paging.c:431-438), `t` being
the page table. -/
def mapIn (c : Cfg) (s : St) (t j : Nat) (x : Pte) : Option (St × Ev) :=
  match s.pt t with
  | none => none
  | some p =>
    if (p j).isSome then some (s, .einuse)
    else some (rcInc c { s with pt := upd s.pt t (some (upd p j (some x))) } x.frame, .ok)

/-- `map_page_int` (paging.c:405-439); `nt` is the outcome of `kzalloc_obj(page_table_t)`. -/
def mapPageInt (c : Cfg) (s : St) (d v : Nat) (x : Pte) (nt : Option Nat) : Option (St × Ev) :=
  match s.pd d with
  | none => none
  | some e =>
    match e (v / 1024) with
    | some t => mapIn c s t (v % 1024) x
    | none =>
      match nt with
      | none => some (s, .enomem)
      | some t =>
        mapIn c { s with pt := upd s.pt t (some fun _ => none)
                         pd := upd s.pd d (some (upd e (v / 1024) (some t))) } t (v % 1024) x

/-- A fresh page from `kzmalloc(PAGE_SIZE)` filled with `bytes` by the ELF loader, then
`map_page(pdir, vaddr, paddr, RW|US)` and `kfree2` if that fails (kernel/elf.c:76-106); the same
sequence inside `map_page` with `PAGING_FL_DO_ALLOC` (paging.c:521-553), whose `bytes` are 0. -/
def mapNew (c : Cfg) (s : St) (d v : Nat) (rw : Bool) (bytes : Nat → Nat)
    (pg nt : Option Nat) : Option (St × Ev) :=
  match pg with
  | none => some (s, .enomem)
  | some g =>
    match mapPageInt c { s with alloc := upd s.alloc g true, data := upd s.data g bytes } d v
        ⟨g, rw, false, false⟩ nt with
    | none => none
    | some (s1, .ok) => some (s1, .ok)
    | some (s1, ev) =>
      match kfree s1 g with
      | none => none
      | some s2 => some (s2, ev)

/-- `map_zero_page` (paging.c:559-578). -/
def mapZero (c : Cfg) (s : St) (d v : Nat) (rw : Bool) (nt : Option Nat) : Option (St × Ev) :=
  mapPageInt c s d v ⟨c.zero, false, rw, false⟩ nt

/-- `map_page` with `PAGING_FL_SHARED` of an existing frame (paging.c:510-556), as used by the RAM
file system, by the FAT file system and by the framebuffer. -/
def mapShared (c : Cfg) (s : St) (d v f : Nat) (rw : Bool) (nt : Option Nat) :
    Option (St × Ev) :=
  mapPageInt c s d v ⟨f, rw, false, true⟩ nt

/-- `set_page_rw` (paging.c:242-254) with `rw = false`, the only way it is used on user pages. -/
def setRo (s : St) (d v : Nat) : Option (St × Ev) :=
  match look s d v with
  | none => none
  | some x =>
    match setPte s d v (some { x with rw := false }) with
    | none => none
    | some s1 => some (s1, .ok)

/-- `unmap_page_permissive` (paging.c:256-303). -/
def unmap (c : Cfg) (s : St) (d v : Nat) (free : Bool) : Option (St × Ev) :=
  match s.pd d with
  | none => none
  | some e =>
    match e (v / 1024) with
    | none => some (s, .einval)
    | some t =>
      match s.pt t with
      | none => none
      | some p =>
        match p (v % 1024) with
        | none => some (s, .einval)
        | some x =>
          match drop c { s with pt := upd s.pt t (some (upd p (v % 1024) none)) } x.frame free with
          | none => none
          | some s1 => some (s1, .ok)

/-- Outcome of `handle_potential_cow`. -/
inductive Cow where
  | notCow
  | resolved (s : St)
  | noMem

/-- `handle_potential_cow` (paging.c:44-120) for a write to a present page; `pg` is the outcome of
`kmalloc(PAGE_SIZE)`. -/
def handleCow (c : Cfg) (s : St) (d v : Nat) (pg : Option Nat) : Option Cow :=
  match look s d v with
  | none => none
  | some x =>
    if x.cow = false then some .notCow
    else if rcGet c s x.frame = 1 then
      match setPte s d v (some ⟨x.frame, true, false, false⟩) with
      | none => none
      | some s1 => some (.resolved s1)
    else
      match pg with
      | none => some .noMem
      | some g =>
        match rcDec c (rcInc c { s with alloc := upd s.alloc g true
                                        data := upd s.data g (s.data x.frame) } g) x.frame with
        | none => none
        | some (s1, _) =>
          match setPte s1 d v (some ⟨g, true, false, false⟩) with
          | none => none
          | some s2 => some (.resolved s2)

/-- A store through the MMU to a writable page. -/
def poke (s : St) (f off b : Nat) : St := { s with data := upd s.data f (upd (s.data f) off b) }

/-- A one-byte store by the process (or by the kernel on its behalf: CR0.WP is set): the MMU, the
page-fault handler, the retried instruction (kernel/arch/generic_x86/idt_generic.c:92-131). -/
def store (c : Cfg) (s : St) (d v off b : Nat) (pg : Option Nat) : Option (St × Ev) :=
  match look s d v with
  | none => some (s, .fault)
  | some x =>
    if x.rw then some (poke s x.frame off b, .ok)
    else
      match handleCow c s d v pg with
      | none => none
      | some .notCow => some (s, .fault)
      | some .noMem => some (s, .enomem)
      | some (.resolved s1) =>
        match look s1 d v with
        | none => none
        | some y => if y.rw then some (poke s1 y.frame off b, .ok) else none

/-- Does the MMU reach a freed page table while walking to page `v`? -/
def walkBad (s : St) (d v : Nat) : Bool :=
  match s.pd d with
  | none => true
  | some e =>
    match e (v / 1024) with
    | none => false
    | some t => (s.pt t).isNone

/-- A one-byte load by the process. -/
def load (s : St) (d v off : Nat) : Ev :=
  match look s d v with
  | none => .fault
  | some x => .byte (s.data x.frame off)

/-- `pdir_clone`, first loop (paging.c:619-647): a page table for each present entry; the entries
in `is` are still to be done, `done` are the present entries already done.  When the allocation for
an entry fails, the tables released are those of `pdir`, not the ones just allocated. -/
def cloneAlloc (s : St) (e : Nat → Option Nat) (pts : Nat → Option Nat) :
    List Nat → List Nat → St × Bool
  | [], _ => (s, true)
  | i :: is, done =>
    match e i with
    | none => cloneAlloc s e pts is done
    | some _ =>
      match pts i with
      | none =>
        (done.foldl (fun s k => match e k with
                                | none => s
                                | some t => { s with pt := upd s.pt t none }) s, false)
      | some t =>
        cloneAlloc { s with pt := upd s.pt t (some fun _ => none) } e pts is (i :: done)

/-- What `pdir_clone` does to a present entry of the parent (paging.c:668-675). -/
def mark (x : Pte) : Pte :=
  if x.shared then x else { x with cow := x.cow || x.rw, rw := false }

/-- The frames of a table in the order of the inner loops. -/
@[irreducible] def frames (p : Table) : List Nat := (List.range 1024).filterMap fun j => (p j).map Pte.frame

/-- `pdir_clone`, second loop (paging.c:649-681) over the entries `is`: `e` is the parent's
directory, `pts i` the new table of entry `i`. -/
def cloneCopy (c : Cfg) (e : Nat → Option Nat) (pts : Nat → Option Nat) :
    List Nat → St → Option St
  | [], s => some s
  | i :: is, s =>
    match e i with
    | none => cloneCopy c e pts is s
    | some t =>
      match s.pt t, pts i with
      | some p, some n =>
        let q : Table := fun j => (p j).map mark
        let s1 := (frames p).foldl (rcInc c) s
        cloneCopy c e pts is { s1 with pt := upd (upd s1.pt t (some q)) n (some q) }
      | _, _ => none

/-- `pdir_clone` (paging.c:610-682): `n` is the outcome of `kalloc_obj(pdir_t)`, `pts i` the outcome
of the page-table allocation for entry `i`. -/
def fork (c : Cfg) (s : St) (d : Nat) (n : Option Nat) (pts : Nat → Option Nat) :
    Option (St × Ev) :=
  match s.pd d with
  | none => none
  | some e =>
    match n with
    | none => some (s, .enomem)
    | some n =>
      match cloneAlloc s e pts (List.range c.nd) [] with
      | (s1, false) => some (s1, .enomem)
      | (s1, true) =>
        match cloneCopy c e pts (List.range c.nd) s1 with
        | none => none
        | some s2 =>
          some ({ s2 with
                  pd := upd s2.pd n (some fun i => if (e i).isSome then pts i else none)
                  dirs := n :: s2.dirs }, .ok)

/-- The `for (j = 0; j < 1024; j++)` loop of `pdir_destroy` (paging.c:779-788). -/
def dropAll (c : Cfg) : List Nat → St → Option St
  | [], s => some s
  | f :: fs, s =>
    match drop c s f true with
    | none => none
    | some s1 => dropAll c fs s1

/-- The outer loop of `pdir_destroy` (paging.c:772-792). -/
def destroyLoop (c : Cfg) (e : Nat → Option Nat) : List Nat → St → Option St
  | [], s => some s
  | i :: is, s =>
    match e i with
    | none => destroyLoop c e is s
    | some t =>
      match s.pt t with
      | none => none
      | some p =>
        match dropAll c (frames p) s with
        | none => none
        | some s1 => destroyLoop c e is { s1 with pt := upd s1.pt t none }

/-- `pdir_destroy` (paging.c:767-796). -/
def destroy (c : Cfg) (s : St) (d : Nat) : Option (St × Ev) :=
  match s.pd d with
  | none => none
  | some e =>
    match destroyLoop c e (List.range c.nd) s with
    | none => none
    | some s1 => some ({ s1 with pd := upd s1.pd d none, dirs := s1.dirs.erase d }, .ok)

/-- The operations of the memory manager. -/
inductive Op where
  /-- `pdir_clone(get_kernel_pdir())` by execve: an address space with no user page. -/
  | new (n : Option Nat)
  | mapNew (d v : Nat) (rw : Bool) (bytes : Nat → Nat) (pg nt : Option Nat)
  | mapZero (d v : Nat) (rw : Bool) (nt : Option Nat)
  | mapShared (d v f : Nat) (rw : Bool) (nt : Option Nat)
  /-- `ramfs_handle_fault` for a read of a page of a mapped file that has no block
  (kernel/fs/ramfs/mmap.c.h:101-104): the global zero page is mapped shared and writable. -/
  | holeFault (d v : Nat) (nt : Option Nat)
  | setRo (d v : Nat)
  | unmap (d v : Nat) (free : Bool)
  | store (d v off b : Nat) (pg : Option Nat)
  | load (d v off : Nat)
  | fork (d : Nat) (n : Option Nat) (pts : Nat → Option Nat)
  | destroy (d : Nat)
  /-- `ramfs_new_block` (kernel/fs/ramfs/blocks.c.h:5-27): a zeroed frame with one reference. -/
  | newObj (f : Nat)
  /-- `ramfs_destroy_block` (kernel/fs/ramfs/blocks.c.h:29-39). -/
  | freeObj (f : Nat)
  /-- `write` on the file: one byte of a block. -/
  | objWrite (f off b : Nat)

/-- One operation; `none`: the code uses freed memory, frees what is not allocated or drops a
reference that is not there. -/
def step (c : Cfg) (s : St) : Op → Option (St × Ev)
  | .new none => some (s, .enomem)
  | .new (some n) =>
    some ({ s with pd := upd s.pd n (some fun _ => none), dirs := n :: s.dirs }, .ok)
  | .mapNew d v rw bytes pg nt => mapNew c s d v rw bytes pg nt
  | .mapZero d v rw nt => mapZero c s d v rw nt
  | .mapShared d v f rw nt => mapShared c s d v f rw nt
  | .holeFault d v nt => mapShared c s d v c.zero true nt
  | .setRo d v => setRo s d v
  | .unmap d v free => unmap c s d v free
  | .store d v off b pg => if walkBad s d v then none else store c s d v off b pg
  | .load d v off => if walkBad s d v then none else some (s, load s d v off)
  | .fork d n pts => fork c s d n pts
  | .destroy d => destroy c s d
  | .newObj f =>
    some (rcInc c { s with alloc := upd s.alloc f true, data := upd s.data f fun _ => 0 } f, .ok)
  | .freeObj f =>
    match rcDec c s f with
    | none => none
    | some (s1, _) =>
      match kfree s1 f with
      | none => none
      | some s2 => some (s2, .ok)
  | .objWrite f off b => some (poke s f off b, .ok)

/-! ## Specification

The memory the processes see: each process has its own pages, private or shared. -/

/-- A page of an address space: private bytes, or a window on a shared object (a block of a file,
a device); `w` tells whether the process may write it. -/
inductive Page where
  | priv (bytes : Nat → Nat) (w : Bool)
  | shr (o : Nat) (w : Bool)

/-- The memory as the processes see it. -/
structure Mem where
  live : Nat → Bool
  page : Nat → Nat → Option Page
  obj : Nat → Nat → Nat
  isObj : Nat → Bool

/-- What process `d` reads at offset `off` of page `v`. -/
def Mem.read (m : Mem) (d v off : Nat) : Ev :=
  match m.page d v with
  | none => .fault
  | some (.priv b _) => .byte (b off)
  | some (.shr o _) => .byte (m.obj o off)

/-- May process `d` write page `v`? -/
def Mem.writable (m : Mem) (d v : Nat) : Bool :=
  match m.page d v with
  | none => false
  | some (.priv _ w) => w
  | some (.shr _ w) => w

/-- Replace one page. -/
def Mem.setPage (m : Mem) (d v : Nat) (p : Option Page) : Mem :=
  { m with page := upd m.page d (upd (m.page d) v p) }

/-- The effect of a write. -/
def Mem.write (m : Mem) (d v off b : Nat) : Mem :=
  match m.page d v with
  | some (.priv bytes w) => m.setPage d v (some (.priv (upd bytes off b) w))
  | some (.shr o _) => { m with obj := upd m.obj o (upd (m.obj o) off b) }
  | none => m

/-- A page made read-only. -/
def Page.ro : Page → Page
  | .priv b _ => .priv b false
  | .shr o _ => .shr o false

/-- What an operation that reported `ev` does to the memory the processes see. -/
def Mem.step (m : Mem) : Op → Ev → Mem
  | .new (some n), .ok =>
    { m with live := upd m.live n true, page := upd m.page n fun _ => none }
  | .mapNew d v rw bytes _ _, .ok => m.setPage d v (some (.priv bytes rw))
  | .mapZero d v rw _, .ok => m.setPage d v (some (.priv (fun _ => 0) rw))
  | .mapShared d v f rw _, .ok => m.setPage d v (some (.shr f rw))
  | .setRo d v, .ok => m.setPage d v ((m.page d v).map Page.ro)
  | .unmap d v _, .ok => m.setPage d v none
  | .store d v off b _, .ok => m.write d v off b
  | .fork d (some n) _, .ok =>
    { m with live := upd m.live n true, page := upd m.page n (m.page d) }
  | .destroy d, .ok =>
    { m with live := upd m.live d false, page := upd m.page d fun _ => none }
  | .newObj f, .ok =>
    { m with isObj := upd m.isObj f true, obj := upd m.obj f fun _ => 0 }
  | .freeObj f, .ok => { m with isObj := upd m.isObj f false }
  | .objWrite f off b, .ok => { m with obj := upd m.obj f (upd (m.obj f) off b) }
  | _, _ => m

/-- Does the entry map frame `f`? -/
def hits (x : Option Pte) (f : Nat) : Bool :=
  match x with
  | none => false
  | some x => x.frame == f

/-- Number of entries of directory `d` that map frame `f`. -/
def cntD (c : Cfg) (s : St) (d f : Nat) : Nat :=
  ((List.range c.nd).map fun i => (List.range 1024).countP fun j => hits (lookIJ s d i j) f).sum

/-- Number of page-table entries of the machine that map frame `f`. -/
def mappings (c : Cfg) (s : St) (f : Nat) : Nat := (s.dirs.map fun d => cntD c s d f).sum

/-- References to a frame besides the page tables: the RAM file system's on its blocks, the
kernel's on the zero page. -/
def held (c : Cfg) (m : Mem) (f : Nat) : Nat := if m.isObj f = true ∨ f = c.zero then 1 else 0

/-- What the callers and the allocator guarantee: `kmalloc` returns what is not in use, user pages
are below the kernel's, `set_page_rw` is used on pages just mapped, `unmap` frees the frames
of private mappings only, a file block is released after its mappings. -/
def Ok (c : Cfg) (s : St) (m : Mem) : Op → Prop
  | .new n => ∀ k, n = some k → s.pd k = none
  | .mapNew d v _ _ pg nt =>
    (s.pd d).isSome ∧ v / 1024 < c.nd ∧ (∀ g, pg = some g → g < c.lim ∧ g ≠ c.zero ∧
      s.alloc g = false) ∧ (∀ t, nt = some t → s.pt t = none)
  | .mapZero d v _ nt =>
    (s.pd d).isSome ∧ v / 1024 < c.nd ∧ (∀ t, nt = some t → s.pt t = none)
  | .mapShared d v f _ nt =>
    (s.pd d).isSome ∧ v / 1024 < c.nd ∧ (m.isObj f = true ∨ c.lim ≤ f) ∧
      (∀ t, nt = some t → s.pt t = none)
  | .holeFault d v nt =>
    (s.pd d).isSome ∧ v / 1024 < c.nd ∧ (∀ t, nt = some t → s.pt t = none)
  | .setRo d v => ∃ x, look s d v = some x ∧ x.cow = false
  | .unmap d v free =>
    (s.pd d).isSome ∧ ∀ x, look s d v = some x → free = !x.shared
  | .store d _ _ _ pg =>
    (s.pd d).isSome ∧ (∀ g, pg = some g → g < c.lim ∧ g ≠ c.zero ∧ s.alloc g = false)
  | .load d _ _ => (s.pd d).isSome
  | .fork d n pts =>
    (s.pd d).isSome ∧ (∀ k, n = some k → s.pd k = none) ∧
      (∀ i t, pts i = some t → s.pt t = none) ∧
      (∀ i j t, pts i = some t → pts j = some t → i = j)
  | .destroy d => (s.pd d).isSome
  | .newObj f => f < c.lim ∧ f ≠ c.zero ∧ s.alloc f = false
  | .freeObj f => m.isObj f = true ∧ mappings c s f = 0
  | .objWrite f _ _ => m.isObj f = true

/-- The cases in which the code is known to be wrong (see the `_violated` theorems): the read fault
on a hole of a mapped file, `pdir_clone` running out of memory after it has allocated a page
table, `pdir_destroy` of a space in which a device is still mapped. -/
def Avoid (c : Cfg) (s : St) : Op → Prop
  | .holeFault _ _ _ => True
  | .fork d (some _) pts =>
    ∃ e, s.pd d = some e ∧ ∃ j, j < c.nd ∧ (e j).isSome ∧ pts j = none ∧
      (∃ i, i < j ∧ (e i).isSome) ∧ ∀ i, i < j → (e i).isSome → (pts i).isSome
  | .destroy d => ∃ v x, look s d v = some x ∧ c.lim ≤ x.frame
  | _ => False

/-- Boot: no address space, the zero page has the reference of the kernel and is all 0; the other
frames hold anything. -/
def boot (c : Cfg) (junk : Nat → Nat → Nat) : St where
  pt := fun _ => none
  pd := fun _ => none
  dirs := []
  rc := upd (fun _ => 0) c.zero 1
  alloc := fun _ => false
  data := upd junk c.zero fun _ => 0

/-- No process, no shared object; the devices contain anything. -/
def Mem.boot (c : Cfg) (junk : Nat → Nat → Nat) : Mem where
  live := fun _ => false
  page := fun _ _ => none
  obj := upd junk c.zero fun _ => 0
  isObj := fun _ => false

/-- Executions: the states of the memory manager together with the memory the processes must see,
computed from the operations and their results only. -/
inductive Run (c : Cfg) : St → Mem → Prop
  | boot (junk) : Run c (boot c junk) (Mem.boot c junk)
  | step {s m op s' ev} : Run c s m → Ok c s m op → ¬ Avoid c s op →
      step c s op = some (s', ev) → Run c s' (m.step op ev)
/-! ## Counting -/

theorem upd_same {β : Type} {f : Nat → β} {k : Nat} {x : β} : upd f k x k = x := if_pos rfl
theorem upd_other {β : Type} {f : Nat → β} {k i : Nat} {x : β} (h : i ≠ k) :
    upd f k x i = f i := if_neg h

theorem sum_upd {l : List Nat} {g h : Nat → Nat} {a : Nat} (hn : l.Nodup) (ha : a ∈ l)
    (hs : ∀ b, b ∈ l → b ≠ a → h b = g b) :
    (l.map h).sum + g a = (l.map g).sum + h a := by
  induction l with
  | nil => cases ha
  | cons b l ih =>
    rw [List.nodup_cons] at hn
    simp only [List.map_cons, List.sum_cons]
    by_cases hb : b = a
    · subst hb
      have : l.map h = l.map g := by
        apply List.map_congr_left
        intro c hc
        exact hs c (List.mem_cons_of_mem _ hc) (fun e => hn.1 (e ▸ hc))
      rw [this]; omega
    · have ha' : a ∈ l := by
        rcases List.mem_cons.mp ha with e | e
        · exact absurd e.symm hb
        · exact e
      have h1 := ih hn.2 ha' (fun c hc => hs c (List.mem_cons_of_mem _ hc))
      have h2 := hs b (List.mem_cons_self ..) hb
      omega

theorem sum_congr {l : List Nat} {g h : Nat → Nat} (hs : ∀ b, b ∈ l → h b = g b) :
    (l.map h).sum = (l.map g).sum := by
  rw [List.map_congr_left hs]

theorem countP_sum (l : List Nat) (p : Nat → Bool) :
    l.countP p = (l.map fun j => (p j).toNat).sum := by
  induction l with
  | nil => rfl
  | cons a l ih =>
    rw [List.countP_cons, ih, List.map_cons, List.sum_cons]
    cases p a <;> simp <;> omega

theorem sum_pos {l : List Nat} {g : Nat → Nat} {a : Nat} (ha : a ∈ l) (h : 0 < g a) :
    0 < (l.map g).sum := by
  induction l with
  | nil => cases ha
  | cons b l ih =>
    rw [List.map_cons, List.sum_cons]
    rcases List.mem_cons.mp ha with e | e
    · subst e; omega
    · have := ih e; omega

/-- Number of entries `L d i j` that map `f`. -/
def cnt (nd : Nat) (dirs : List Nat) (L : Nat → Nat → Nat → Option Pte) (f : Nat) : Nat :=
  (dirs.map fun d => ((List.range nd).map fun i =>
    (List.range 1024).countP fun j => hits (L d i j) f).sum).sum

theorem mappings_cnt (c : Cfg) (s : St) (f : Nat) :
    mappings c s f = cnt c.nd s.dirs (lookIJ s) f := rfl

theorem cnt_congr {nd : Nat} {dirs : List Nat} {L L' : Nat → Nat → Nat → Option Pte} {f : Nat}
    (h : ∀ d i j, d ∈ dirs → i < nd → j < 1024 → hits (L' d i j) f = hits (L d i j) f) :
    cnt nd dirs L' f = cnt nd dirs L f := by
  unfold cnt
  apply sum_congr; intro d hd
  apply sum_congr; intro i hi
  rw [countP_sum, countP_sum]
  apply sum_congr; intro j hj
  rw [h d i j hd (List.mem_range.mp hi) (List.mem_range.mp hj)]

theorem cnt_set {nd : Nat} {dirs : List Nat} {L L' : Nat → Nat → Nat → Option Pte} {f d i j : Nat}
    (hn : dirs.Nodup) (hd : d ∈ dirs) (hi : i < nd) (hj : j < 1024)
    (h : ∀ d' i' j', ¬ (d' = d ∧ i' = i ∧ j' = j) → L' d' i' j' = L d' i' j') :
    cnt nd dirs L' f + (hits (L d i j) f).toNat = cnt nd dirs L f + (hits (L' d i j) f).toNat := by
  unfold cnt
  have h3 : (List.range 1024).countP (fun j => hits (L' d i j) f) + (hits (L d i j) f).toNat =
      (List.range 1024).countP (fun j => hits (L d i j) f) + (hits (L' d i j) f).toNat := by
    rw [countP_sum, countP_sum]
    apply sum_upd (l := List.range 1024) (g := fun j => (hits (L d i j) f).toNat)
      (h := fun j => (hits (L' d i j) f).toNat) List.nodup_range (List.mem_range.mpr hj)
    intro b _ hb
    show (hits (L' d i b) f).toNat = _
    rw [h d i b (fun e => hb e.2.2)]
  have h2 := sum_upd (l := List.range nd)
    (g := fun i => (List.range 1024).countP fun j => hits (L d i j) f)
    (h := fun i => (List.range 1024).countP fun j => hits (L' d i j) f)
    (a := i) List.nodup_range (List.mem_range.mpr hi) (by
      intro b _ hb
      show List.countP (fun j => hits (L' d b j) f) _ = List.countP (fun j => hits (L d b j) f) _
      congr 1
      funext j
      rw [h d b j (fun e => hb e.2.1)])
  have h1 := sum_upd (l := dirs)
    (g := fun d => ((List.range nd).map fun i =>
      (List.range 1024).countP fun j => hits (L d i j) f).sum)
    (h := fun d => ((List.range nd).map fun i =>
      (List.range 1024).countP fun j => hits (L' d i j) f).sum)
    (a := d) hn hd (by
      intro b _ hb
      have e : (fun i => (List.range 1024).countP fun j => hits (L' b i j) f) =
          fun i => (List.range 1024).countP fun j => hits (L b i j) f := by
        funext i
        have : (fun j => hits (L' b i j) f) = fun j => hits (L b i j) f := by
          funext j
          rw [h b i j (fun e => hb e.1)]
        rw [this]
      rw [e])
  generalize (List.map (fun d => (List.map (fun i => List.countP (fun j => hits (L' d i j) f)
    (List.range 1024)) (List.range nd)).sum) dirs).sum = A at *
  generalize (List.map (fun d => (List.map (fun i => List.countP (fun j => hits (L d i j) f)
    (List.range 1024)) (List.range nd)).sum) dirs).sum = B at *
  generalize (List.map (fun i => List.countP (fun j => hits (L' d i j) f)
    (List.range 1024)) (List.range nd)).sum = C at *
  generalize (List.map (fun i => List.countP (fun j => hits (L d i j) f)
    (List.range 1024)) (List.range nd)).sum = D at *
  omega

theorem cnt_pos {nd : Nat} {dirs : List Nat} {L : Nat → Nat → Nat → Option Pte} {f d i j : Nat}
    (hd : d ∈ dirs) (hi : i < nd) (hj : j < 1024) (h : hits (L d i j) f = true) :
    0 < cnt nd dirs L f := by
  unfold cnt
  apply sum_pos hd
  apply sum_pos (List.mem_range.mpr hi)
  rw [countP_sum]
  apply sum_pos (List.mem_range.mpr hj)
  rw [h]; decide

theorem cnt_two {nd : Nat} {dirs : List Nat} {L : Nat → Nat → Nat → Option Pte}
    {f d i j d' i' j' : Nat} (hn : dirs.Nodup)
    (hd : d ∈ dirs) (hi : i < nd) (hj : j < 1024) (h : hits (L d i j) f = true)
    (hd' : d' ∈ dirs) (hi' : i' < nd) (hj' : j' < 1024) (h' : hits (L d' i' j') f = true)
    (hne : ¬ (d' = d ∧ i' = i ∧ j' = j)) : 2 ≤ cnt nd dirs L f := by
  let L' : Nat → Nat → Nat → Option Pte := fun a b c => if a = d ∧ b = i ∧ c = j then none else L a b c
  have e1 := cnt_set (f := f) (L' := L') hn hd hi hj (fun a b c hc => if_neg hc)
  have e2 : L' d i j = none := if_pos ⟨rfl, rfl, rfl⟩
  have e3 : 0 < cnt nd dirs L' f := by
    apply cnt_pos hd' hi' hj'
    show hits (if _ then _ else _) f = true
    rw [if_neg hne]; exact h'
  rw [e2, h] at e1
  have : (hits none f).toNat = 0 := rfl
  have : (true).toNat = 1 := rfl
  omega

/-! ## The invariant -/

/-- How a page-table entry looks to its process. -/
def view (s : St) (x : Pte) : Page :=
  if x.shared then .shr x.frame x.rw else .priv (s.data x.frame) (x.rw || x.cow)

/-- Tables are live and belong to one entry of one directory. -/
structure Tab (c : Cfg) (s : St) : Prop where
  nodup : s.dirs.Nodup
  dirs : ∀ d, d ∈ s.dirs ↔ (s.pd d).isSome = true
  own : ∀ d e i t, s.pd d = some e → e i = some t → i < c.nd ∧ (s.pt t).isSome = true
  inj : ∀ d e i d' e' i' t, s.pd d = some e → s.pd d' = some e' → e i = some t → e' i' = some t →
    d = d' ∧ i = i'

structure Inv (c : Cfg) (s : St) (m : Mem) : Prop extends Tab c s where
  rc : ∀ f, f < c.lim → s.rc f = mappings c s f + held c m f
  alloc : ∀ f, s.alloc f = true ↔ f < c.lim ∧ f ≠ c.zero ∧ 0 < s.rc f
  obj : ∀ f, m.isObj f = true → f < c.lim ∧ f ≠ c.zero
  shr : ∀ d v x, look s d v = some x → x.shared = true →
    x.cow = false ∧ (m.isObj x.frame = true ∨ c.lim ≤ x.frame)
  prv : ∀ d v x, look s d v = some x → x.shared = false →
    x.frame < c.lim ∧ m.isObj x.frame = false ∧
      (x.rw = true → x.cow = false ∧ x.frame ≠ c.zero ∧ s.rc x.frame = 1)
  zero : s.data c.zero = fun _ => 0
  live : ∀ d, m.live d = (s.pd d).isSome
  page : ∀ d v, m.page d v = (look s d v).map (view s)
  objd : ∀ f, m.isObj f = true ∨ c.lim ≤ f → m.obj f = s.data f

theorem look_some {s : St} {d i j : Nat} {x : Pte} (h : lookIJ s d i j = some x) :
    ∃ e t p, s.pd d = some e ∧ e i = some t ∧ s.pt t = some p ∧ p j = some x := by
  unfold lookIJ at h
  split at h
  · cases h
  · rename_i e he
    split at h
    · cases h
    · rename_i t ht
      split at h
      · cases h
      · rename_i p hp
        exact ⟨e, t, p, he, ht, hp, h⟩

theorem look_eq {s : St} {d i j t : Nat} {e : Nat → Option Nat} {p : Table}
    (h1 : s.pd d = some e) (h2 : e i = some t) (h3 : s.pt t = some p) :
    lookIJ s d i j = p j := by
  unfold lookIJ; rw [h1]; dsimp only; rw [h2]; dsimp only; rw [h3]

theorem vsplit {v w : Nat} (h1 : w / 1024 = v / 1024) (h2 : w % 1024 = v % 1024) : w = v := by
  omega

theorem Tab.mem {c : Cfg} {s : St} (h : Tab c s) {d i j : Nat} {x : Pte}
    (hx : lookIJ s d i j = some x) : d ∈ s.dirs ∧ i < c.nd := by
  obtain ⟨e, t, p, h1, h2, h3, h4⟩ := look_some hx
  exact ⟨(h.dirs d).mpr (by rw [h1]; rfl), (h.own d e i t h1 h2).1⟩

theorem hits_some {x : Pte} : hits (some x) x.frame = true := by simp [hits]

theorem hits_none {f : Nat} : hits none f = false := rfl

theorem hits_ne {x : Pte} {f : Nat} (h : x.frame ≠ f) : hits (some x) f = false := by
  simp [hits, h]

/-- A frame with a single mapping is mapped in one place. -/
theorem Inv.alone {c : Cfg} {s : St} {m : Mem} (h : Inv c s m) {d v d' v' : Nat} {x y : Pte}
    (hx : look s d v = some x) (hy : look s d' v' = some y) (hf : y.frame = x.frame)
    (hl : x.frame < c.lim) (h1 : s.rc x.frame = 1) : d' = d ∧ v' = v := by
  have a1 := h.toTab.mem hx
  have a2 := h.toTab.mem hy
  by_cases hne : d' = d ∧ v' / 1024 = v / 1024 ∧ v' % 1024 = v % 1024
  · exact ⟨hne.1, vsplit hne.2.1 hne.2.2⟩
  · have := cnt_two (f := x.frame) (L := lookIJ s) h.nodup a1.1 a1.2 (Nat.mod_lt v (by decide))
      (by rw [show lookIJ s d (v / 1024) (v % 1024) = some x from hx]; exact hits_some)
      a2.1 a2.2 (Nat.mod_lt v' (by decide))
      (by rw [show lookIJ s d' (v' / 1024) (v' % 1024) = some y from hy, ← hf]; exact hits_some) hne
    have h2 := h.rc _ hl
    rw [mappings_cnt] at h2
    omega

theorem Inv.rc_pos {c : Cfg} {s : St} {m : Mem} (h : Inv c s m) {d v : Nat} {x : Pte}
    (hx : look s d v = some x) (hl : x.frame < c.lim) : 0 < s.rc x.frame := by
  have a1 := h.toTab.mem hx
  have := cnt_pos (f := x.frame) (L := lookIJ s) a1.1 a1.2 (Nat.mod_lt v (by decide))
      (by rw [show lookIJ s d (v / 1024) (v % 1024) = some x from hx]; exact hits_some)
  have h2 := h.rc _ hl
  rw [mappings_cnt] at h2
  omega

theorem view_congr {s s' : St} {x : Pte} (h : x.shared = false → s'.data x.frame = s.data x.frame) :
    view s' x = view s x := by
  unfold view
  cases hx : x.shared
  · rw [h hx]
  · rfl

/-- Replacing the entry of one page. -/
theorem Inv.put {c : Cfg} {s s' : St} {m : Mem} (h : Inv c s m) {d v : Nat} {y : Option Pte}
    (hd : d ∈ s.dirs) (hv : v / 1024 < c.nd)
    (ht : Tab c s') (hdirs : s'.dirs = s.dirs) (hpd : ∀ k, (s'.pd k).isSome = (s.pd k).isSome)
    (hl : ∀ d' i j, lookIJ s' d' i j =
      if d' = d ∧ i = v / 1024 ∧ j = v % 1024 then y else lookIJ s d' i j)
    (hrc : ∀ f, f < c.lim → s'.rc f + (hits (look s d v) f).toNat = s.rc f + (hits y f).toNat)
    (hal : ∀ f, s'.alloc f = true ↔ f < c.lim ∧ f ≠ c.zero ∧ 0 < s'.rc f)
    (hdata : ∀ f, (f < c.lim → 0 < s.rc f) → s'.data f = s.data f)
    (hysh : ∀ q, y = some q → q.shared = true →
      q.cow = false ∧ (m.isObj q.frame = true ∨ c.lim ≤ q.frame))
    (hypr : ∀ q, y = some q → q.shared = false →
      q.frame < c.lim ∧ m.isObj q.frame = false ∧
        (q.rw = true → q.cow = false ∧ q.frame ≠ c.zero ∧ s'.rc q.frame = 1))
    (hy2 : ∀ q, y = some q → q.frame < c.lim → s.rc q.frame = 0 ∨ m.isObj q.frame = true ∨
      q.frame = c.zero ∨ ∃ p, look s d v = some p ∧ p.frame = q.frame) :
    Inv c s' (m.setPage d v (y.map (view s'))) := by
  have hlook : ∀ d' w, look s' d' w = if d' = d ∧ w = v then y else look s d' w := by
    intro d' w
    unfold look
    rw [hl]
    by_cases e : d' = d ∧ w = v
    · rw [if_pos e, if_pos ⟨e.1, by rw [e.2], by rw [e.2]⟩]
    · rw [if_neg e, if_neg (fun k => e ⟨k.1, vsplit k.2.1 k.2.2⟩)]
  have hused : ∀ d' w x, look s d' w = some x → s'.data x.frame = s.data x.frame := by
    intro d' w x hx
    exact hdata _ (fun hlt => h.rc_pos hx hlt)
  have hobj0 : ∀ f, m.isObj f = true → 0 < s.rc f := by
    intro f hf
    have h1 := h.rc f (h.obj f hf).1
    have : held c m f = 1 := if_pos (Or.inl hf)
    omega
  have hz0 : 0 < s.rc c.zero := by
    have h1 := h.rc c.zero c.hz
    have : held c m c.zero = 1 := if_pos (Or.inr rfl)
    omega
  refine ⟨ht, ?_, hal, h.obj, ?_, ?_, ?_, ?_, ?_, ?_⟩
  · intro f hf
    have h1 := h.rc f hf
    have h2 := hrc f hf
    have h3 := cnt_set (f := f) (L := lookIJ s) (L' := lookIJ s') h.nodup hd hv
      (Nat.mod_lt v (by decide)) (fun a b k hk => by rw [hl, if_neg hk])
    rw [mappings_cnt] at h1 ⊢
    rw [hdirs]
    have h4 : lookIJ s' d (v / 1024) (v % 1024) = y := by rw [hl, if_pos ⟨rfl, rfl, rfl⟩]
    rw [h4] at h3
    have h5 : held c (m.setPage d v (y.map (view s'))) f = held c m f := rfl
    have h6 : lookIJ s d (v / 1024) (v % 1024) = look s d v := rfl
    rw [h6] at h3
    omega
  · intro d' w x hx hs
    rw [hlook] at hx
    split at hx
    · exact hysh x hx hs
    · exact h.shr d' w x hx hs
  · intro d' w x hx hs
    rw [hlook] at hx
    split at hx
    · exact hypr x hx hs
    · rename_i hne
      obtain ⟨b1, b2, b3⟩ := h.prv d' w x hx hs
      refine ⟨b1, b2, fun hr => ?_⟩
      obtain ⟨b4, b5, b6⟩ := b3 hr
      refine ⟨b4, b5, ?_⟩
      have h2 := hrc x.frame b1
      have e1 : hits (look s d v) x.frame = false := by
        cases hq : look s d v with
        | none => rfl
        | some p =>
          apply hits_ne
          intro e
          obtain ⟨k1, k2⟩ := h.alone hx hq e b1 b6
          exact hne ⟨k1.symm, k2.symm⟩
      have e2 : hits y x.frame = false := by
        cases hq : y with
        | none => rfl
        | some q =>
          apply hits_ne
          intro e
          have := hy2 q hq (e ▸ b1)
          rw [e] at this
          rcases this with k | k | k | ⟨p, k, k'⟩
          · omega
          · rw [k] at b2; cases b2
          · exact b5 k
          · rw [k, ← k', hits_some] at e1; cases e1
      rw [e1, e2] at h2
      have : (false).toNat = 0 := rfl
      omega
  · rw [hdata _ (fun _ => hz0)]; exact h.zero
  · intro k; rw [hpd]; exact h.live k
  · intro d' w
    rw [hlook]
    by_cases e : d' = d ∧ w = v
    · rw [if_pos e, e.1, e.2]
      show upd m.page d (upd (m.page d) v _) d v = _
      rw [upd_same, upd_same]
    · rw [if_neg e]
      have : (m.setPage d v (y.map (view s'))).page d' w = m.page d' w := by
        show upd m.page d (upd (m.page d) v _) d' w = _
        by_cases e1 : d' = d
        · subst e1
          rw [upd_same, upd_other (fun k => e ⟨rfl, k⟩)]
        · rw [upd_other e1]
      rw [this, h.page]
      cases hq : look s d' w with
      | none => rfl
      | some x => simp only [Option.map_some]; rw [view_congr (fun _ => hused _ _ _ hq)]
  · intro f hf
    show m.obj f = _
    rw [h.objd f hf]
    symm
    apply hdata
    intro hlt
    rcases hf with hf | hf
    · exact hobj0 f hf
    · omega

/-! ## Single entries -/

theorem Tab.congr {c : Cfg} {s s' : St} (h : Tab c s) (h1 : s'.dirs = s.dirs) (h2 : s'.pd = s.pd)
    (h3 : ∀ t, (s.pt t).isSome = true → (s'.pt t).isSome = true) : Tab c s' := by
  refine ⟨by rw [h1]; exact h.nodup, by rw [h1, h2]; exact h.dirs, ?_, by rw [h2]; exact h.inj⟩
  intro d e i t a b
  rw [h2] at a
  exact ⟨(h.own d e i t a b).1, h3 _ (h.own d e i t a b).2⟩

/-- Replacing a page table. -/
theorem look_table {c : Cfg} {s : St} (ht : Tab c s) {d i t : Nat} {e : Nat → Option Nat} {q : Table}
    (h1 : s.pd d = some e) (h2 : e i = some t) (d' i' j : Nat) {s' : St}
    (hs : s'.pd = s.pd) (hp : s'.pt = upd s.pt t (some q)) :
    lookIJ s' d' i' j = if d' = d ∧ i' = i then q j else lookIJ s d' i' j := by
  by_cases hc : d' = d ∧ i' = i
  · rw [if_pos hc, hc.1, hc.2]
    exact look_eq (by rw [hs]; exact h1) h2 (by rw [hp]; exact upd_same)
  · rw [if_neg hc]
    unfold lookIJ
    rw [hs]
    cases he : s.pd d' with
    | none => rfl
    | some e' =>
      dsimp only
      cases hi : e' i' with
      | none => rfl
      | some t' =>
        dsimp only
        have : t' ≠ t := by
          intro k
          subst k
          exact hc (ht.inj _ _ _ _ _ _ _ he h1 hi h2)
        rw [hp, upd_other this]

theorem look_entry {c : Cfg} {s : St} (ht : Tab c s) {d i j t : Nat} {e : Nat → Option Nat}
    {p : Table} {y : Option Pte}
    (h1 : s.pd d = some e) (h2 : e i = some t) (h3 : s.pt t = some p) (d' i' j' : Nat) {s' : St}
    (hs : s'.pd = s.pd) (hp : s'.pt = upd s.pt t (some (upd p j y))) :
    lookIJ s' d' i' j' = if d' = d ∧ i' = i ∧ j' = j then y else lookIJ s d' i' j' := by
  rw [look_table ht h1 h2 d' i' j' hs hp]
  by_cases hc : d' = d ∧ i' = i
  · rw [if_pos hc]
    by_cases hj : j' = j
    · rw [if_pos ⟨hc.1, hc.2, hj⟩, hj]; exact upd_same
    · rw [if_neg (fun k => hj k.2.2), upd_other hj, hc.1, hc.2]
      exact (look_eq h1 h2 h3).symm
  · rw [if_neg hc, if_neg (fun k => hc ⟨k.1, k.2.1⟩)]

theorem isSome_upd {β : Type} {f : Nat → Option β} {k : Nat} {x : β} (t : Nat)
    (h : (f t).isSome = true) : (upd f k (some x) t).isSome = true := by
  by_cases e : t = k
  · rw [e, upd_same]; rfl
  · rw [upd_other e]; exact h

/-- What `setPte` does. -/
theorem setPte_spec {c : Cfg} {s : St} (ht : Tab c s) {d v : Nat} {x : Pte}
    (hx : look s d v = some x) (y : Option Pte) :
    ∃ s', setPte s d v y = some s' ∧ s'.pd = s.pd ∧ s'.dirs = s.dirs ∧ s'.rc = s.rc ∧
      s'.alloc = s.alloc ∧ s'.data = s.data ∧ Tab c s' ∧
      ∀ d' i j, lookIJ s' d' i j =
        if d' = d ∧ i = v / 1024 ∧ j = v % 1024 then y else lookIJ s d' i j := by
  obtain ⟨e, t, p, h1, h2, h3, h4⟩ := look_some hx
  refine ⟨{ s with pt := upd s.pt t (some (upd p (v % 1024) y)) }, ?_, rfl, rfl, rfl, rfl, rfl,
    ht.congr rfl rfl (fun k hk => isSome_upd k hk), ?_⟩
  · unfold setPte; rw [h1]; dsimp only; rw [h2]; dsimp only; rw [h3]
  · intro d' i j
    exact look_entry ht h1 h2 h3 d' i j rfl rfl

theorem Mem.setPage_self {m : Mem} {d v : Nat} : m.setPage d v (m.page d v) = m := by
  unfold Mem.setPage
  have : upd m.page d (upd (m.page d) v (m.page d v)) = m.page := by
    funext a b
    by_cases e : a = d
    · rw [e, upd_same]
      by_cases e' : b = v
      · rw [e', upd_same]
      · rw [upd_other e']
    · rw [upd_other e]
  rw [this]

theorem look_of {s s' : St} {d v : Nat} {y : Option Pte}
    (hl : ∀ d' i j, lookIJ s' d' i j =
      if d' = d ∧ i = v / 1024 ∧ j = v % 1024 then y else lookIJ s d' i j) :
    look s' d v = y := by
  unfold look; rw [hl, if_pos ⟨rfl, rfl, rfl⟩]

theorem setRo_inv {c : Cfg} {s : St} {m : Mem} (h : Inv c s m) {d v : Nat}
    (hok : ∃ x, look s d v = some x ∧ x.cow = false) :
    ∃ s', setRo s d v = some (s', .ok) ∧ Inv c s' (m.step (.setRo d v) .ok) := by
  obtain ⟨x, hx, hc⟩ := hok
  obtain ⟨s', e, a1, a2, a3, a4, a5, a6, a7⟩ :=
    setPte_spec h.toTab hx (some { x with rw := false })
  refine ⟨s', ?_, ?_⟩
  · unfold setRo; rw [hx]; dsimp only; rw [e]
  · have hm := h.toTab.mem hx
    have := h.put (s' := s') (d := d) (v := v) (y := some { x with rw := false }) hm.1 hm.2 a6 a2
      (fun k => by rw [a1]) a7
      (by intro f _; rw [a3, hx]; rfl)
      (by rw [a3, a4]; exact h.alloc)
      (by intro f _; rw [a5])
      (by
        intro q hq hs
        cases hq
        exact ⟨hc, (h.shr d v x hx hs).2⟩)
      (by
        intro q hq hs
        cases hq
        exact ⟨(h.prv d v x hx hs).1, (h.prv d v x hx hs).2.1, fun k => by cases k⟩)
      (by
        intro q hq _
        cases hq
        exact Or.inr (Or.inr (Or.inr ⟨x, hx, rfl⟩)))
    have e2 : m.step (.setRo d v) .ok =
        m.setPage d v ((some { x with rw := false }).map (view s')) := by
      show m.setPage d v ((m.page d v).map Page.ro) = _
      rw [h.page, hx]
      simp only [Option.map_some]
      congr 2
      unfold view
      dsimp only
      rw [a5, hc]
      cases x.shared <;> rfl
    rw [e2]; exact this

/-- A store to a page whose entry is writable. -/
theorem poke_inv {c : Cfg} {s : St} {m : Mem} (h : Inv c s m) {d v off b : Nat} {x : Pte}
    (hx : look s d v = some x) (hr : x.rw = true) :
    Inv c (poke s x.frame off b) (m.write d v off b) := by
  have hlk : ∀ d' w, look (poke s x.frame off b) d' w = look s d' w := fun _ _ => rfl
  have hda : ∀ f, f ≠ x.frame → (poke s x.frame off b).data f = s.data f := by
    intro f hf
    exact upd_other hf
  have hdx : (poke s x.frame off b).data x.frame = upd (s.data x.frame) off b := upd_same
  cases hs : x.shared with
  | true =>
    obtain ⟨-, ho⟩ := h.shr d v x hx hs
    have hw : m.write d v off b = { m with obj := upd m.obj x.frame (upd (m.obj x.frame) off b) } := by
      unfold Mem.write
      rw [h.page, hx]
      simp only [Option.map_some, view, hs, if_true]
    rw [hw]
    have hzz : c.zero ≠ x.frame := by
      intro e
      rcases ho with k | k
      · exact (h.obj _ k).2 e.symm
      · have := c.hz; omega
    refine ⟨h.toTab.congr rfl rfl (fun _ k => k), h.rc, h.alloc, h.obj, h.shr, h.prv, ?_, h.live,
      ?_, ?_⟩
    · rw [hda _ hzz]; exact h.zero
    · intro d' w
      rw [hlk]
      show m.page d' w = _
      rw [h.page]
      cases hq : look s d' w with
      | none => rfl
      | some y =>
        simp only [Option.map_some]
        rw [view_congr (s' := poke s x.frame off b) (s := s)]
        intro hy
        apply hda
        intro e
        obtain ⟨b1, b2, -⟩ := h.prv d' w y hq hy
        rcases ho with k | k
        · rw [e, k] at b2; cases b2
        · omega
    · intro f hf
      show upd m.obj x.frame _ f = _
      by_cases e : f = x.frame
      · rw [e, upd_same, hdx, h.objd _ ho]
      · rw [upd_other e, hda _ e]; exact h.objd f hf
  | false =>
    obtain ⟨b1, b2, b3⟩ := h.prv d v x hx hs
    obtain ⟨b4, b5, b6⟩ := b3 hr
    have hw : m.write d v off b =
        m.setPage d v (some (.priv (upd (s.data x.frame) off b) true)) := by
      unfold Mem.write
      rw [h.page, hx]
      simp only [Option.map_some, view, hs, hr, Bool.true_or]
      rfl
    rw [hw]
    refine ⟨h.toTab.congr rfl rfl (fun _ k => k), h.rc, h.alloc, h.obj, h.shr, h.prv, ?_, h.live,
      ?_, ?_⟩
    · rw [hda _ (fun e => b5 e.symm)]; exact h.zero
    · intro d' w
      rw [hlk]
      show upd m.page d (upd (m.page d) v _) d' w = _
      by_cases e : d' = d ∧ w = v
      · rw [e.1, e.2, upd_same, upd_same, hx]
        simp only [Option.map_some, view, hs, hr, Bool.true_or, hdx]
        rfl
      · have : upd m.page d (upd (m.page d) v (some (.priv (upd (s.data x.frame) off b) true))) d' w
            = m.page d' w := by
          by_cases e1 : d' = d
          · subst e1
            rw [upd_same, upd_other (fun k => e ⟨rfl, k⟩)]
          · rw [upd_other e1]
        rw [this, h.page]
        cases hq : look s d' w with
        | none => rfl
        | some y =>
          simp only [Option.map_some]
          rw [view_congr (s' := poke s x.frame off b) (s := s)]
          intro hy
          apply hda
          intro e2
          exact e (h.alone hx hq e2 b1 b6)
    · intro f hf
      show m.obj f = _
      rw [hda, h.objd f hf]
      intro e
      subst e
      rcases hf with k | k
      · rw [show m.isObj x.frame = true from k] at b2; cases b2
      · omega

theorem held_le {c : Cfg} {m : Mem} {f : Nat} : held c m f ≤ 1 := by
  unfold held; split <;> omega

/-- The zero page is never left with a single reference while it is mapped. -/
theorem Inv.zero_rc {c : Cfg} {s : St} {m : Mem} (h : Inv c s m) {d v : Nat} {x : Pte}
    (hx : look s d v = some x) (hl : x.frame < c.lim) (h1 : s.rc x.frame = 1) :
    x.frame ≠ c.zero := by
  intro e
  have a1 := h.toTab.mem hx
  have := cnt_pos (f := x.frame) (L := lookIJ s) a1.1 a1.2 (Nat.mod_lt v (by decide))
      (by rw [show lookIJ s d (v / 1024) (v % 1024) = some x from hx]; exact hits_some)
  have h2 := h.rc _ hl
  rw [mappings_cnt] at h2
  have : held c m x.frame = 1 := if_pos (Or.inr e)
  omega

/-- The page fault on a copy-on-write page does not change what any process sees. -/
theorem handleCow_inv {c : Cfg} {s : St} {m : Mem} (h : Inv c s m) {d v : Nat} {x : Pte}
    {pg : Option Nat} (hx : look s d v = some x)
    (hpg : ∀ g, pg = some g → g < c.lim ∧ g ≠ c.zero ∧ s.alloc g = false) :
    (x.cow = false ∧ handleCow c s d v pg = some .notCow) ∨
    (x.cow = true ∧ pg = none ∧ handleCow c s d v pg = some .noMem) ∨
    (x.cow = true ∧ ∃ s' y, handleCow c s d v pg = some (.resolved s') ∧ Inv c s' m ∧
      look s' d v = some y ∧ y.rw = true) := by
  cases hc : x.cow with
  | false =>
    left
    refine ⟨rfl, ?_⟩
    unfold handleCow
    rw [hx]; dsimp only
    rw [if_pos hc]
  | true =>
    right
    have hsh : x.shared = false := by
      cases k : x.shared
      · rfl
      · rw [(h.shr d v x hx k).1] at hc; cases hc
    obtain ⟨b1, b2, b3⟩ := h.prv d v x hx hsh
    have hrw : x.rw = false := by
      cases k : x.rw
      · rfl
      · rw [(b3 k).1] at hc; cases hc
    have hm := h.toTab.mem hx
    have hview : m.page d v = some (.priv (s.data x.frame) true) := by
      rw [h.page, hx]
      simp only [Option.map_some, view, hsh, hc, Bool.or_true]
      rfl
    have hg : rcGet c s x.frame = s.rc x.frame := if_pos b1
    by_cases h1 : s.rc x.frame = 1
    · right
      refine ⟨rfl, ?_⟩
      obtain ⟨s', e, a1, a2, a3, a4, a5, a6, a7⟩ :=
        setPte_spec h.toTab hx (some ⟨x.frame, true, false, false⟩)
      refine ⟨s', ⟨x.frame, true, false, false⟩, ?_, ?_, look_of a7, rfl⟩
      · unfold handleCow
        rw [hx]; dsimp only
        rw [if_neg (by rw [hc]; decide), if_pos (by rw [hg]; exact h1), e]
      · have := h.put (s' := s') (d := d) (v := v) (y := some ⟨x.frame, true, false, false⟩)
          hm.1 hm.2 a6 a2
          (fun k => by rw [a1]) a7
          (by intro f _; rw [a3, hx]; rfl)
          (by rw [a3, a4]; exact h.alloc)
          (by intro f _; rw [a5])
          (by intro q hq hs; cases hq; cases hs)
          (by
            intro q hq hs
            cases hq
            exact ⟨b1, b2, fun _ => ⟨rfl, h.zero_rc (x := x) hx b1 h1, by rw [a3]; exact h1⟩⟩)
          (by
            intro q hq _
            cases hq
            exact Or.inr (Or.inr (Or.inr ⟨x, hx, rfl⟩)))
        have e2 : m.setPage d v ((some ⟨x.frame, true, false, false⟩ : Option Pte).map (view s')) = m := by
          have : ((some ⟨x.frame, true, false, false⟩ : Option Pte).map (view s')) = m.page d v := by
            rw [hview]
            simp only [Option.map_some, view, a5]
            rfl
          rw [this, Mem.setPage_self]
        rw [e2] at this
        exact this
    · cases pg with
      | none =>
        left
        refine ⟨rfl, rfl, ?_⟩
        unfold handleCow
        rw [hx]; dsimp only
        rw [if_neg (by rw [hc]; decide), if_neg (by rw [hg]; exact h1)]
      | some g =>
        right
        refine ⟨rfl, ?_⟩
        obtain ⟨g1, g2, g3⟩ := hpg g rfl
        have g0 : s.rc g = 0 := by
          rcases Nat.eq_zero_or_pos (s.rc g) with k | k
          · exact k
          · have := (h.alloc g).mpr ⟨g1, g2, k⟩
            rw [this] at g3; cases g3
        have hpos := h.rc_pos hx b1
        have gx : x.frame ≠ g := fun e => by rw [e] at hpos; omega
        -- the state after the allocation and the two counter updates
        let s1 : St := { s with alloc := upd s.alloc g true
                                data := upd s.data g (s.data x.frame)
                                rc := upd (upd s.rc g (s.rc g + 1)) x.frame (s.rc x.frame - 1) }
        have hs1 : rcDec c (rcInc c { s with alloc := upd s.alloc g true
                                             data := upd s.data g (s.data x.frame) } g) x.frame =
            some (s1, s.rc x.frame - 1) := by
          unfold rcInc
          rw [if_pos g1]
          unfold rcDec
          rw [if_pos b1]
          have e1 : upd s.rc g (s.rc g + 1) x.frame = s.rc x.frame := upd_other gx
          show (if upd s.rc g (s.rc g + 1) x.frame = 0 then _ else _) = _
          rw [if_neg (by omega)]
          show some (({ s with rc := upd _ x.frame (upd s.rc g (s.rc g + 1) x.frame - 1)
                               alloc := _, data := _ } : St),
            upd s.rc g (s.rc g + 1) x.frame - 1) = _
          rw [e1]
        have ht1 : Tab c s1 := h.toTab.congr rfl rfl (fun _ k => k)
        have hx1 : look s1 d v = some x := hx
        obtain ⟨s', e, a1, a2, a3, a4, a5, a6, a7⟩ :=
          setPte_spec ht1 hx1 (some ⟨g, true, false, false⟩)
        have hrc' : ∀ f, s'.rc f = if f = x.frame then s.rc x.frame - 1 else if f = g then 1 else
            s.rc f := by
          intro f
          rw [a3]
          show upd (upd s.rc g (s.rc g + 1)) x.frame (s.rc x.frame - 1) f = _
          by_cases k : f = x.frame
          · rw [k, upd_same, if_pos rfl]
          · rw [upd_other k, if_neg k]
            by_cases k' : f = g
            · rw [k', upd_same, if_pos rfl, g0]
            · rw [upd_other k', if_neg k']
        refine ⟨s', ⟨g, true, false, false⟩, ?_, ?_, look_of a7, rfl⟩
        · unfold handleCow
          rw [hx]; dsimp only
          rw [if_neg (by rw [hc]; decide), if_neg (by rw [hg]; exact h1), hs1]
          dsimp only
          rw [e]
        · have := h.put (s' := s') (d := d) (v := v) (y := some ⟨g, true, false, false⟩)
            hm.1 hm.2 a6 a2
            (fun k => by rw [a1]) a7
            (by
              intro f _
              rw [hrc' f, hx]
              by_cases k : f = x.frame
              · rw [k, if_pos rfl, hits_some, hits_ne (x := ⟨g, true, false, false⟩) (Ne.symm gx)]
                have : (true).toNat = 1 := rfl
                have : (false).toNat = 0 := rfl
                omega
              · rw [if_neg k, hits_ne (Ne.symm k)]
                by_cases k' : f = g
                · rw [if_pos k', k', show hits (some ⟨g, true, false, false⟩) g = true from
                    hits_some (x := ⟨g, true, false, false⟩)]
                  have : (true).toNat = 1 := rfl
                  have : (false).toNat = 0 := rfl
                  omega
                · rw [if_neg k', hits_ne (x := ⟨g, true, false, false⟩) (Ne.symm k')])
            (by
              intro f
              rw [a4, hrc']
              show upd s.alloc g true f = true ↔ _
              by_cases k' : f = g
              · rw [k', upd_same, if_neg (Ne.symm gx), if_pos rfl]
                exact ⟨fun _ => ⟨g1, g2, by decide⟩, fun _ => rfl⟩
              · rw [upd_other k', if_neg k', h.alloc f]
                by_cases k : f = x.frame
                · rw [if_pos k, k]
                  constructor
                  · intro ⟨u1, u2, u3⟩; exact ⟨u1, u2, by omega⟩
                  · intro ⟨u1, u2, u3⟩; exact ⟨u1, u2, by omega⟩
                · rw [if_neg k])
            (by
              intro f hf
              rw [a5]
              show upd s.data g _ f = _
              apply upd_other
              intro k
              subst k
              have := hf g1
              omega)
            (by intro q hq hs; cases hq; cases hs)
            (by
              intro q hq hs
              cases hq
              refine ⟨g1, ?_, fun _ => ⟨rfl, g2, ?_⟩⟩
              · cases k : m.isObj g with
                | false => rfl
                | true =>
                  have h2 := h.rc g g1
                  have : held c m g = 1 := if_pos (Or.inl k)
                  omega
              · rw [hrc', if_neg (Ne.symm gx), if_pos rfl])
            (by intro q hq _; cases hq; exact Or.inl g0)
          have e2 : m.setPage d v ((some ⟨g, true, false, false⟩ : Option Pte).map (view s')) = m := by
            have : ((some ⟨g, true, false, false⟩ : Option Pte).map (view s')) = m.page d v := by
              rw [hview]
              simp only [Option.map_some, view, a5]
              show some (Page.priv (upd s.data g (s.data x.frame) g) true) = _
              rw [upd_same]
            rw [this, Mem.setPage_self]
          rw [e2] at this
          exact this

theorem walk_ok {c : Cfg} {s : St} (ht : Tab c s) {d v : Nat} (hd : (s.pd d).isSome = true) :
    walkBad s d v = false := by
  unfold walkBad
  cases he : s.pd d with
  | none => rw [he] at hd; cases hd
  | some e =>
    dsimp only
    cases h2 : e (v / 1024) with
    | none => rfl
    | some t =>
      dsimp only
      have := (ht.own d e _ t he h2).2
      cases hp : s.pt t with
      | none => rw [hp] at this; cases this
      | some p => rfl

/-- A store by a process. -/
theorem store_inv {c : Cfg} {s : St} {m : Mem} (h : Inv c s m) {d v off b : Nat} {pg : Option Nat}
    (hpg : ∀ g, pg = some g → g < c.lim ∧ g ≠ c.zero ∧ s.alloc g = false) :
    ∃ s' ev, store c s d v off b pg = some (s', ev) ∧
      Inv c s' (m.step (.store d v off b pg) ev) ∧
      ((ev = .ok ∧ m.writable d v = true) ∨ (ev = .fault ∧ m.writable d v = false) ∨
        (ev = .enomem ∧ m.writable d v = true ∧ pg = none ∧
          ∀ x, look s d v = some x → x.rw = false)) := by
  cases hx : look s d v with
  | none =>
    refine ⟨s, .fault, ?_, h, Or.inr (Or.inl ⟨rfl, ?_⟩)⟩
    · unfold store; rw [hx]
    · unfold Mem.writable; rw [h.page, hx]; rfl
  | some x =>
    have hw : m.writable d v = (x.rw || x.cow) := by
      unfold Mem.writable
      rw [h.page, hx]
      simp only [Option.map_some, view]
      cases hs : x.shared with
      | false => rfl
      | true =>
        have := (h.shr d v x hx hs).1
        rw [this, Bool.or_false]; rfl
    cases hr : x.rw with
    | true =>
      refine ⟨poke s x.frame off b, .ok, ?_, poke_inv h hx hr, Or.inl ⟨rfl, by rw [hw, hr]; rfl⟩⟩
      unfold store; rw [hx]; dsimp only; rw [if_pos hr]
    | false =>
      have hun : ∀ o, handleCow c s d v pg = o → store c s d v off b pg =
          (match o with
            | none => none
            | some .notCow => some (s, .fault)
            | some .noMem => some (s, .enomem)
            | some (.resolved s1) =>
              match look s1 d v with
              | none => none
              | some y => if y.rw then some (poke s1 y.frame off b, .ok) else none) := by
        intro o ho
        unfold store; rw [hx]; dsimp only
        rw [if_neg (by rw [hr]; decide), ho]
      rcases handleCow_inv h hx hpg with ⟨k1, k2⟩ | ⟨k1, k2, k3⟩ | ⟨k1, s1, y, k2, k3, k4, k5⟩
      · refine ⟨s, .fault, hun _ k2, h, Or.inr (Or.inl ⟨rfl, by rw [hw, hr, k1]; rfl⟩)⟩
      · refine ⟨s, .enomem, hun _ k3, h, Or.inr (Or.inr ⟨rfl, by rw [hw, hr, k1]; rfl, k2, ?_⟩)⟩
        intro z hz
        cases hz
        exact hr
      · refine ⟨poke s1 y.frame off b, .ok, ?_, poke_inv k3 k4 k5, Or.inl ⟨rfl, by rw [hw, k1, Bool.or_true]⟩⟩
        rw [hun _ k2]
        dsimp only
        rw [k4]; dsimp only
        rw [if_pos k5]

theorem load_read {c : Cfg} {s : St} {m : Mem} (h : Inv c s m) (d v off : Nat) :
    load s d v off = m.read d v off := by
  unfold load Mem.read
  rw [h.page]
  cases hx : look s d v with
  | none => rfl
  | some x =>
    simp only [Option.map_some, view]
    cases hs : x.shared with
    | false => rfl
    | true =>
      show Ev.byte _ = Ev.byte (m.obj x.frame off)
      rw [h.objd _ (h.shr d v x hx hs).2]

/-! ## Mapping and unmapping -/

theorem mapIn_none {c : Cfg} {s : St} {t j : Nat} {x : Pte} {p : Table} (hp : s.pt t = some p)
    (hj : p j = none) :
    mapIn c s t j x =
      some (rcInc c { s with pt := upd s.pt t (some (upd p j (some x))) } x.frame, .ok) := by
  unfold mapIn; rw [hp]; dsimp only; rw [hj]; rfl

theorem mapIn_some {c : Cfg} {s : St} {t j : Nat} {x y : Pte} {p : Table} (hp : s.pt t = some p)
    (hj : p j = some y) : mapIn c s t j x = some (s, .einuse) := by
  unfold mapIn; rw [hp]; dsimp only; rw [hj]; rfl

theorem rcInc_fields {c : Cfg} {s : St} {f : Nat} :
    (rcInc c s f).pt = s.pt ∧ (rcInc c s f).pd = s.pd ∧ (rcInc c s f).dirs = s.dirs ∧
      (rcInc c s f).alloc = s.alloc ∧ (rcInc c s f).data = s.data ∧
      ∀ k, (rcInc c s f).rc k = if k = f ∧ k < c.lim then s.rc k + 1 else s.rc k := by
  unfold rcInc
  by_cases h : f < c.lim
  · rw [if_pos h]
    refine ⟨rfl, rfl, rfl, rfl, rfl, fun k => ?_⟩
    show upd s.rc f (s.rc f + 1) k = _
    by_cases e : k = f
    · subst e; rw [upd_same, if_pos ⟨rfl, h⟩]
    · rw [upd_other e, if_neg (fun q => e q.1)]
  · rw [if_neg h]
    refine ⟨rfl, rfl, rfl, rfl, rfl, fun k => ?_⟩
    rw [if_neg]
    rintro ⟨rfl, q⟩; exact h q

theorem lookIJ_of {s s' : St} (h1 : s'.pt = s.pt) (h2 : s'.pd = s.pd) (d i j : Nat) :
    lookIJ s' d i j = lookIJ s d i j := by
  unfold lookIJ; rw [h1, h2]

/-- What `map_page_int` does. -/
theorem mapPageInt_spec {c : Cfg} {s : St} (ht : Tab c s) {d v : Nat} {x : Pte} {nt : Option Nat}
    (hd : (s.pd d).isSome = true) (hv : v / 1024 < c.nd)
    (hnt : ∀ t, nt = some t → s.pt t = none) :
    (∃ y, look s d v = some y ∧ mapPageInt c s d v x nt = some (s, .einuse)) ∨
    (look s d v = none ∧ mapPageInt c s d v x nt = some (s, .enomem)) ∨
    (look s d v = none ∧ ∃ s', mapPageInt c s d v x nt = some (s', .ok) ∧ Tab c s' ∧
      s'.dirs = s.dirs ∧ (∀ k, (s'.pd k).isSome = (s.pd k).isSome) ∧ s'.alloc = s.alloc ∧
      s'.data = s.data ∧
      (∀ k, s'.rc k = if k = x.frame ∧ k < c.lim then s.rc k + 1 else s.rc k) ∧
      ∀ d' i j, lookIJ s' d' i j =
        if d' = d ∧ i = v / 1024 ∧ j = v % 1024 then some x else lookIJ s d' i j) := by
  cases he : s.pd d with
  | none => rw [he] at hd; cases hd
  | some e =>
    cases hi : e (v / 1024) with
    | some t =>
      have hun : mapPageInt c s d v x nt = mapIn c s t (v % 1024) x := by
        unfold mapPageInt; rw [he]; dsimp only; rw [hi]
      rw [hun]
      have hpt := (ht.own d e _ t he hi).2
      cases hp : s.pt t with
      | none => rw [hp] at hpt; cases hpt
      | some p =>
        have hlk : look s d v = p (v % 1024) := look_eq he hi hp
        cases hj : p (v % 1024) with
        | some y => exact Or.inl ⟨y, by rw [hlk, hj], mapIn_some hp hj⟩
        | none =>
          refine Or.inr (Or.inr ⟨by rw [hlk, hj], _, mapIn_none hp hj, ?_⟩)
          obtain ⟨r1, r2, r3, r4, r5, r6⟩ := rcInc_fields (c := c)
            (s := { s with pt := upd s.pt t (some (upd p (v % 1024) (some x))) }) (f := x.frame)
          refine ⟨ht.congr r3 r2 (fun k hk => ?_), r3, fun k => by rw [r2], r4, r5, r6, ?_⟩
          · rw [r1]; exact isSome_upd k hk
          · intro d' i j
            exact look_entry ht he hi hp d' i j r2 r1
    | none =>
      have hlk : look s d v = none := by
        unfold look lookIJ; rw [he]; dsimp only; rw [hi]
      cases nt with
      | none =>
        refine Or.inr (Or.inl ⟨hlk, ?_⟩)
        unfold mapPageInt; rw [he]; dsimp only; rw [hi]
      | some t =>
        have hfree := hnt t rfl
        right; right
        refine ⟨hlk, ?_⟩
        have hun : mapPageInt c s d v x (some t) =
            mapIn c { s with pt := upd s.pt t (some fun _ => none)
                             pd := upd s.pd d (some (upd e (v / 1024) (some t))) } t (v % 1024) x := by
          unfold mapPageInt; rw [he]; dsimp only; rw [hi]
        rw [hun]
        generalize hs1 : ({ s with pt := upd s.pt t (some fun _ => none)
                                   pd := upd s.pd d (some (upd e (v / 1024) (some t))) } : St) = s1
        have p1 : s1.pt = upd s.pt t (some fun _ => none) := by rw [← hs1]
        have p2 : s1.pd = upd s.pd d (some (upd e (v / 1024) (some t))) := by rw [← hs1]
        have p3 : s1.dirs = s.dirs := by rw [← hs1]
        have p4 : s1.alloc = s.alloc := by rw [← hs1]
        have p5 : s1.data = s.data := by rw [← hs1]
        have p6 : s1.rc = s.rc := by rw [← hs1]
        -- no directory entry points to the new table
        have hno : ∀ d' e' i, s.pd d' = some e' → e' i = some t → False := by
          intro d' e' i a b
          have := (ht.own d' e' i t a b).2
          rw [hfree] at this; cases this
        have hpdd : s1.pd d = some (upd e (v / 1024) (some t)) := by rw [p2]; exact upd_same
        -- entries of the new directory
        have hent : ∀ d' e' i t', s1.pd d' = some e' → e' i = some t' →
            (d' = d ∧ i = v / 1024 ∧ t' = t) ∨ (t' ≠ t ∧ ∃ e0, s.pd d' = some e0 ∧ e0 i = some t') := by
          intro d' e' i t' a b
          rw [p2] at a
          by_cases k : d' = d
          · subst k
            rw [upd_same] at a
            cases a
            by_cases k2 : i = v / 1024
            · left
              rw [k2, upd_same] at b
              cases b
              exact ⟨rfl, k2, rfl⟩
            · right
              rw [upd_other k2] at b
              exact ⟨fun q => hno _ _ _ he (q ▸ b), e, he, b⟩
          · rw [upd_other k] at a
            exact Or.inr ⟨fun q => hno _ _ _ a (q ▸ b), e', a, b⟩
        have ht1 : Tab c s1 := by
          refine ⟨by rw [p3]; exact ht.nodup, ?_, ?_, ?_⟩
          · intro d'
            rw [p3, ht.dirs, p2]
            by_cases k : d' = d
            · rw [k, upd_same, he]; simp
            · rw [upd_other k]
          · intro d' e' i t' a b
            rcases hent d' e' i t' a b with ⟨k1, k2, k3⟩ | ⟨k1, e0, k2, k3⟩
            · rw [k2, k3, p1, upd_same]; exact ⟨hv, rfl⟩
            · rw [p1, upd_other k1]; exact ht.own d' e0 i t' k2 k3
          · intro d1 e1 i1 d2 e2 i2 t' a1 a2 b1 b2
            rcases hent d1 e1 i1 t' a1 b1 with ⟨k1, k2, k3⟩ | ⟨k1, f1, k2, k3⟩
            · rcases hent d2 e2 i2 t' a2 b2 with ⟨l1, l2, l3⟩ | ⟨l1, f2, l2, l3⟩
              · exact ⟨by rw [k1, l1], by rw [k2, l2]⟩
              · exact absurd k3 l1
            · rcases hent d2 e2 i2 t' a2 b2 with ⟨l1, l2, l3⟩ | ⟨l1, f2, l2, l3⟩
              · exact absurd l3 k1
              · exact ht.inj d1 f1 i1 d2 f2 i2 t' k2 l2 k3 l3
        have hp : s1.pt t = some (fun _ => none) := by rw [p1]; exact upd_same
        have hi1 : upd e (v / 1024) (some t) (v / 1024) = some t := upd_same
        refine ⟨_, mapIn_none hp rfl, ?_⟩
        obtain ⟨r1, r2, r3, r4, r5, r6⟩ := rcInc_fields (c := c)
          (s := { s1 with pt := upd s1.pt t (some (upd (fun _ => none) (v % 1024) (some x))) })
          (f := x.frame)
        refine ⟨ht1.congr r3 r2 (fun k hk => ?_), r3.trans p3, ?_, r4.trans p4, r5.trans p5, ?_, ?_⟩
        · rw [r1]; exact isSome_upd k hk
        · intro k
          rw [r2]
          show (s1.pd k).isSome = _
          rw [p2]
          by_cases q : k = d
          · rw [q, upd_same, he]; rfl
          · rw [upd_other q]
        · intro k
          rw [r6]
          show (if _ then s1.rc k + 1 else s1.rc k) = _
          rw [p6]
        · intro d' i j
          rw [look_entry ht1 hpdd hi1 hp d' i j r2 r1]
          by_cases q : d' = d ∧ i = v / 1024 ∧ j = v % 1024
          · rw [if_pos q, if_pos q]
          · rw [if_neg q, if_neg q]
            -- the state with the new empty table looks like the old one
            by_cases q1 : d' = d
            · subst q1
              by_cases q2 : i = v / 1024
              · subst q2
                rw [look_eq hpdd hi1 hp]
                unfold lookIJ; rw [he]; dsimp only; rw [hi]
              · unfold lookIJ
                rw [hpdd, he]
                dsimp only
                rw [upd_other q2]
                cases hq : e i with
                | none => rfl
                | some t' =>
                  dsimp only
                  rw [p1, upd_other (fun k => hno _ _ _ he (k ▸ hq))]
            · unfold lookIJ
              rw [p2, upd_other q1]
              cases hq : s.pd d' with
              | none => rfl
              | some e' =>
                dsimp only
                cases hq2 : e' i with
                | none => rfl
                | some t' =>
                  dsimp only
                  rw [p1, upd_other (fun k => hno _ _ _ hq (k ▸ hq2))]

/-- Mapping a frame that is already in use (the zero page, a shared object, a device). -/
theorem map_inv {c : Cfg} {s : St} {m : Mem} (h : Inv c s m) {d v : Nat} {x : Pte}
    {nt : Option Nat} (hd : (s.pd d).isSome = true) (hv : v / 1024 < c.nd)
    (hnt : ∀ t, nt = some t → s.pt t = none)
    (hx : (x.shared = true ∧ x.cow = false ∧ (m.isObj x.frame = true ∨ c.lim ≤ x.frame)) ∨
      (x.shared = false ∧ x.frame = c.zero ∧ x.rw = false)) :
    ∃ s' ev, mapPageInt c s d v x nt = some (s', ev) ∧
      ((ev = .ok ∧ m.page d v = none ∧ Inv c s' (m.setPage d v (some (view s x)))) ∨
       ((ev = .einuse ∨ ev = .enomem) ∧ s' = s)) := by
  rcases mapPageInt_spec (x := x) h.toTab hd hv hnt with ⟨y, k1, k2⟩ | ⟨k1, k2⟩ | ⟨k1, s', k2, a1, a2, a3, a4, a5, a6, a7⟩
  · exact ⟨s, _, k2, Or.inr ⟨Or.inl rfl, rfl⟩⟩
  · exact ⟨s, _, k2, Or.inr ⟨Or.inr rfl, rfl⟩⟩
  · refine ⟨s', .ok, k2, Or.inl ⟨rfl, by rw [h.page, k1]; rfl, ?_⟩⟩
    have hz : m.isObj c.zero = false := by
      cases k : m.isObj c.zero with
      | false => rfl
      | true => exact absurd rfl (h.obj _ k).2
    have hpos : x.frame < c.lim → 0 < s.rc x.frame := by
      intro hlt
      have h1 := h.rc x.frame hlt
      have : held c m x.frame = 1 := by
        rcases hx with ⟨_, _, k | k⟩ | ⟨_, k, _⟩
        · exact if_pos (Or.inl k)
        · omega
        · exact if_pos (Or.inr k)
      omega
    have := h.put (s' := s') (d := d) (v := v) (y := some x) ((h.dirs d).mpr hd) hv a1 a2 a3 a7
      (by
        intro f hf
        rw [a6, k1]
        by_cases q : f = x.frame
        · rw [if_pos ⟨q, hf⟩, q, hits_some, hits_none]
          have : (true).toNat = 1 := rfl
          have : (false).toNat = 0 := rfl
          omega
        · rw [if_neg (fun k => q k.1), hits_ne (Ne.symm q), hits_none])
      (by
        intro f
        rw [a4, h.alloc, a6]
        by_cases q : f = x.frame ∧ f < c.lim
        · rw [if_pos q]
          have := hpos (q.1 ▸ q.2)
          rw [q.1]
          constructor
          · intro ⟨u1, u2, u3⟩; exact ⟨u1, u2, by omega⟩
          · intro ⟨u1, u2, u3⟩; exact ⟨u1, u2, by omega⟩
        · rw [if_neg q])
      (by intro f _; rw [a5])
      (by
        intro q hq hs
        cases hq
        rcases hx with k | k
        · exact k.2
        · rw [k.1] at hs; cases hs)
      (by
        intro q hq hs
        cases hq
        rcases hx with k | k
        · rw [k.1] at hs; cases hs
        · rw [k.2.1]; exact ⟨c.hz, hz, fun r => by rw [k.2.2] at r; cases r⟩)
      (by
        intro q hq hlt
        cases hq
        rcases hx with ⟨_, _, k | k⟩ | ⟨_, k, _⟩
        · exact Or.inr (Or.inl k)
        · omega
        · exact Or.inr (Or.inr (Or.inl k)))
    have e : view s' x = view s x := view_congr (fun _ => by rw [a5])
    simp only [Option.map_some, e] at this
    exact this

theorem fresh_rc {c : Cfg} {s : St} {m : Mem} (h : Inv c s m) {g : Nat}
    (hg : g < c.lim ∧ g ≠ c.zero ∧ s.alloc g = false) : s.rc g = 0 := by
  rcases Nat.eq_zero_or_pos (s.rc g) with k | k
  · exact k
  · have := (h.alloc g).mpr ⟨hg.1, hg.2.1, k⟩
    rw [this] at hg; cases hg.2.2

theorem fresh_obj {c : Cfg} {s : St} {m : Mem} (h : Inv c s m) {g : Nat}
    (hg : g < c.lim ∧ g ≠ c.zero ∧ s.alloc g = false) : m.isObj g = false := by
  cases k : m.isObj g with
  | false => rfl
  | true =>
    have h2 := h.rc g hg.1
    have : held c m g = 1 := if_pos (Or.inl k)
    have := fresh_rc h hg
    omega

theorem kfree_back {s : St} {g : Nat} {bytes : Nat → Nat} (hg : s.alloc g = false) :
    kfree { s with alloc := upd s.alloc g true, data := upd s.data g bytes } g =
      some { s with data := upd s.data g bytes } := by
  unfold kfree
  rw [if_pos upd_same]
  congr 2
  funext k
  show upd (upd s.alloc g true) g false k = s.alloc k
  by_cases e : k = g
  · rw [e, upd_same, hg]
  · rw [upd_other e, upd_other e]

/-- The contents of a frame that is not in use are of no interest. -/
theorem Inv.free_data {c : Cfg} {s : St} {m : Mem} (h : Inv c s m) {g : Nat} {bytes : Nat → Nat}
    (hg : g < c.lim ∧ g ≠ c.zero ∧ s.alloc g = false) :
    Inv c { s with data := upd s.data g bytes } m := by
  have h0 := fresh_rc h hg
  refine ⟨h.toTab.congr rfl rfl (fun _ k => k), h.rc, h.alloc, h.obj, h.shr, h.prv, ?_, h.live, ?_, ?_⟩
  · show upd s.data g bytes c.zero = _
    rw [upd_other (fun e => hg.2.1 e.symm)]; exact h.zero
  · intro d v
    show _ = (look s d v).map _
    rw [h.page]
    cases hq : look s d v with
    | none => rfl
    | some y =>
      simp only [Option.map_some]
      rw [view_congr (s' := { s with data := upd s.data g bytes }) (s := s)]
      intro hy
      apply upd_other
      intro e
      have b1 := (h.prv d v y hq hy).1
      have := h.rc_pos hq b1
      rw [e] at this; omega
  · intro f hf
    rw [h.objd f hf]
    symm
    apply upd_other
    intro e
    subst e
    rcases hf with k | k
    · rw [fresh_obj h hg] at k; cases k
    · omega

/-- Mapping a new private page. -/
theorem mapNew_inv {c : Cfg} {s : St} {m : Mem} (h : Inv c s m) {d v : Nat} {rw : Bool}
    {bytes : Nat → Nat} {pg nt : Option Nat} (hd : (s.pd d).isSome = true) (hv : v / 1024 < c.nd)
    (hpg : ∀ g, pg = some g → g < c.lim ∧ g ≠ c.zero ∧ s.alloc g = false)
    (hnt : ∀ t, nt = some t → s.pt t = none) :
    ∃ s' ev, mapNew c s d v rw bytes pg nt = some (s', ev) ∧
      ((ev = .ok ∧ m.page d v = none ∧ Inv c s' (m.setPage d v (some (.priv bytes rw)))) ∨
       ((ev = .einuse ∨ ev = .enomem) ∧ Inv c s' m)) := by
  cases pg with
  | none => exact ⟨s, _, rfl, Or.inr ⟨Or.inr rfl, h⟩⟩
  | some g =>
    have hg := hpg g rfl
    have h0 := fresh_rc h hg
    have ho := fresh_obj h hg
    generalize hs1 : ({ s with alloc := upd s.alloc g true, data := upd s.data g bytes } : St) = s1
    have hun : ∀ o, mapPageInt c s1 d v ⟨g, rw, false, false⟩ nt = o →
        mapNew c s d v rw bytes (some g) nt = (match o with
          | none => none
          | some (s1, .ok) => some (s1, .ok)
          | some (s1, ev) =>
            match kfree s1 g with
            | none => none
            | some s2 => some (s2, ev)) := by
      intro o ho
      unfold mapNew
      dsimp only
      rw [hs1, ho]
    have p1 : s1.pt = s.pt := by rw [← hs1]
    have p2 : s1.pd = s.pd := by rw [← hs1]
    have p3 : s1.dirs = s.dirs := by rw [← hs1]
    have p4 : s1.alloc = upd s.alloc g true := by rw [← hs1]
    have p5 : s1.data = upd s.data g bytes := by rw [← hs1]
    have p6 : s1.rc = s.rc := by rw [← hs1]
    have ht1 : Tab c s1 := h.toTab.congr p3 p2 (by rw [p1]; exact fun _ k => k)
    have hlk : ∀ a b k, lookIJ s1 a b k = lookIJ s a b k := lookIJ_of p1 p2
    have hback : kfree s1 g = some { s with data := upd s.data g bytes } := by
      rw [← hs1]; exact kfree_back hg.2.2
    rcases mapPageInt_spec (x := ⟨g, rw, false, false⟩) ht1 (by rw [p2]; exact hd) hv
        (by rw [p1]; exact hnt) with
      ⟨y, k1, k2⟩ | ⟨k1, k2⟩ | ⟨k1, s', k2, a1, a2, a3, a4, a5, a6, a7⟩
    · refine ⟨_, .einuse, ?_, Or.inr ⟨Or.inl rfl, h.free_data (bytes := bytes) hg⟩⟩
      rw [hun _ k2]
      dsimp only
      rw [hback]
    · refine ⟨_, .enomem, ?_, Or.inr ⟨Or.inr rfl, h.free_data (bytes := bytes) hg⟩⟩
      rw [hun _ k2]
      dsimp only
      rw [hback]
    · have k1' : look s d v = none := by
        rw [← k1]; exact (hlk _ _ _).symm
      refine ⟨s', .ok, hun _ k2, Or.inl ⟨rfl, by rw [h.page, k1']; rfl, ?_⟩⟩
      have hrc' : ∀ f, s'.rc f = if f = g then 1 else s.rc f := by
        intro f
        rw [a6, p6]
        by_cases q : f = g
        · rw [if_pos ⟨q, by rw [q]; exact hg.1⟩, if_pos q, q, h0]
        · rw [if_neg (fun k => q k.1), if_neg q]
      have := h.put (s' := s') (d := d) (v := v) (y := some ⟨g, rw, false, false⟩)
        ((h.dirs d).mpr hd) hv a1 (a2.trans p3) (by intro k; rw [a3, p2])
        (by intro d' i j; rw [a7, hlk])
        (by
          intro f hf
          rw [hrc', k1']
          by_cases q : f = g
          · rw [if_pos q, q, hits_none, show hits (some ⟨g, rw, false, false⟩) g = true from
              hits_some (x := ⟨g, rw, false, false⟩), h0]
            rfl
          · rw [if_neg q, hits_none, hits_ne (x := ⟨g, rw, false, false⟩) (Ne.symm q)])
        (by
          intro f
          rw [a4, p4, hrc']
          by_cases q : f = g
          · rw [q, upd_same, if_pos rfl]
            exact ⟨fun _ => ⟨hg.1, hg.2.1, by decide⟩, fun _ => rfl⟩
          · rw [upd_other q, if_neg q]; exact h.alloc f)
        (by
          intro f hf
          rw [a5, p5]
          apply upd_other
          intro q
          have := hf (by rw [q]; exact hg.1)
          rw [q] at this
          omega)
        (by intro q hq hs; cases hq; cases hs)
        (by
          intro q hq hs
          cases hq
          exact ⟨hg.1, ho, fun _ => ⟨rfl, hg.2.1, by rw [hrc', if_pos rfl]⟩⟩)
        (by intro q hq _; cases hq; exact Or.inl h0)
      have e : view s' ⟨g, rw, false, false⟩ = .priv bytes rw := by
        unfold view
        dsimp only
        rw [a5, p5, upd_same, Bool.or_false]
        rfl
      simp only [Option.map_some, e] at this
      exact this

/-- What dropping a reference of a mapped frame does. -/
theorem drop_spec {c : Cfg} {s : St} {f : Nat} {free : Bool}
    (h1 : f < c.lim → 0 < s.rc f)
    (h2 : f < c.lim → s.rc f = 1 → free = true → s.alloc f = true)
    (h3 : c.lim ≤ f → free = false) :
    ∃ s', drop c s f free = some s' ∧ s'.pt = s.pt ∧ s'.pd = s.pd ∧ s'.dirs = s.dirs ∧
      s'.data = s.data ∧
      (∀ k, s'.rc k = if k = f ∧ k < c.lim then s.rc k - 1 else s.rc k) ∧
      (∀ k, s'.alloc k = if k = f ∧ s.rc f = 1 ∧ free = true ∧ f < c.lim then false else s.alloc k) := by
  unfold drop rcDec
  by_cases hl : f < c.lim
  · rw [if_pos hl, if_neg (by have := h1 hl; omega)]
    dsimp only
    by_cases hc : s.rc f - 1 = 0 ∧ free = true
    · rw [if_pos hc]
      have hr : s.rc f = 1 := by have := h1 hl; omega
      have ha := h2 hl hr hc.2
      unfold kfree
      rw [if_pos ha]
      refine ⟨_, rfl, rfl, rfl, rfl, rfl, fun k => ?_, fun k => ?_⟩
      · show upd s.rc f _ k = _
        by_cases q : k = f
        · rw [q, upd_same, if_pos ⟨rfl, hl⟩]
        · rw [upd_other q, if_neg (fun z => q z.1)]
      · show upd s.alloc f false k = _
        by_cases q : k = f
        · rw [q, upd_same, if_pos ⟨rfl, hr, hc.2, hl⟩]
        · rw [upd_other q, if_neg (fun z => q z.1)]
    · rw [if_neg hc]
      refine ⟨_, rfl, rfl, rfl, rfl, rfl, fun k => ?_, fun k => ?_⟩
      · show upd s.rc f _ k = _
        by_cases q : k = f
        · rw [q, upd_same, if_pos ⟨rfl, hl⟩]
        · rw [upd_other q, if_neg (fun z => q z.1)]
      · rw [if_neg]
        rintro ⟨-, z1, z2, -⟩
        exact hc ⟨by omega, z2⟩
  · rw [if_neg hl]
    dsimp only
    have := h3 (by omega)
    rw [if_neg (by rw [this]; simp)]
    refine ⟨_, rfl, rfl, rfl, rfl, rfl, fun k => ?_, fun k => ?_⟩
    · rw [if_neg]; rintro ⟨rfl, z⟩; exact hl z
    · rw [if_neg]; rintro ⟨-, -, -, z⟩; exact hl z

/-- Unmapping a page. -/
theorem unmap_inv {c : Cfg} {s : St} {m : Mem} (h : Inv c s m) {d v : Nat} {free : Bool}
    (hd : (s.pd d).isSome = true) (hfree : ∀ x, look s d v = some x → free = !x.shared) :
    ∃ s' ev, unmap c s d v free = some (s', ev) ∧
      Inv c s' (m.step (.unmap d v free) ev) ∧
      ((ev = .ok ∧ (m.page d v).isSome = true) ∨ (ev = .einval ∧ m.page d v = none)) := by
  cases he : s.pd d with
  | none => rw [he] at hd; cases hd
  | some e =>
    cases hi : e (v / 1024) with
    | none =>
      have hlk : look s d v = none := by
        unfold look lookIJ; rw [he]; dsimp only; rw [hi]
      refine ⟨s, .einval, ?_, h, Or.inr ⟨rfl, by rw [h.page, hlk]; rfl⟩⟩
      unfold unmap; rw [he]; dsimp only; rw [hi]
    | some t =>
      have hpt := (h.own d e _ t he hi).2
      cases hp : s.pt t with
      | none => rw [hp] at hpt; cases hpt
      | some p =>
        have hlk : look s d v = p (v % 1024) := look_eq he hi hp
        cases hj : p (v % 1024) with
        | none =>
          refine ⟨s, .einval, ?_, h, Or.inr ⟨rfl, by rw [h.page, hlk, hj]; rfl⟩⟩
          unfold unmap; rw [he]; dsimp only; rw [hi]; dsimp only; rw [hp]; dsimp only; rw [hj]
        | some x =>
          rw [hj] at hlk
          have hf := hfree x hlk
          have hm := h.toTab.mem hlk
          generalize hs1 : ({ s with pt := upd s.pt t (some (upd p (v % 1024) none)) } : St) = s1
          have hun : ∀ o, drop c s1 x.frame free = o → unmap c s d v free =
              (match o with | none => none | some s1 => some (s1, .ok)) := by
            intro o ho
            unfold unmap; rw [he]; dsimp only; rw [hi]; dsimp only; rw [hp]; dsimp only; rw [hj]
            dsimp only
            rw [hs1, ho]
          have p1 : s1.pt = upd s.pt t (some (upd p (v % 1024) none)) := by rw [← hs1]
          have p2 : s1.pd = s.pd := by rw [← hs1]
          have p3 : s1.dirs = s.dirs := by rw [← hs1]
          have p4 : s1.alloc = s.alloc := by rw [← hs1]
          have p5 : s1.data = s.data := by rw [← hs1]
          have p6 : s1.rc = s.rc := by rw [← hs1]
          have hcase : (x.shared = true ∧ free = false ∧ (m.isObj x.frame = true ∨ c.lim ≤ x.frame)) ∨
              (x.shared = false ∧ free = true ∧ x.frame < c.lim) := by
            cases hs : x.shared with
            | true => rw [hs] at hf; exact Or.inl ⟨rfl, hf, (h.shr d v x hlk hs).2⟩
            | false => rw [hs] at hf; exact Or.inr ⟨rfl, hf, (h.prv d v x hlk hs).1⟩
          obtain ⟨s', k, a1, a2, a3, a4, a5, a6⟩ := drop_spec (c := c) (s := s1) (f := x.frame)
            (free := free)
            (by rw [p6]; exact h.rc_pos hlk)
            (by
              rw [p6, p4]
              intro hl hr _
              exact (h.alloc _).mpr ⟨hl, h.zero_rc hlk hl hr, by omega⟩)
            (by
              intro hl
              rcases hcase with ⟨_, q, _⟩ | ⟨_, _, q⟩
              · exact q
              · omega)
          rw [p6] at a5 a6
          rw [p4] at a6
          refine ⟨s', .ok, hun _ k, ?_, Or.inl ⟨rfl, by rw [h.page, hlk]; rfl⟩⟩
          have := h.put (s' := s') (d := d) (v := v) (y := none) hm.1 hm.2
            (h.toTab.congr (a3.trans p3) (a2.trans p2) (by
              intro q hq
              rw [a1, p1]; exact isSome_upd q hq))
            (a3.trans p3) (by intro q; rw [a2, p2])
            (fun d' i j => look_entry h.toTab he hi hp d' i j (a2.trans p2) (a1.trans p1))
            (by
              intro f hf
              rw [a5, hlk, hits_none]
              by_cases q : f = x.frame
              · rw [if_pos ⟨q, hf⟩, q, hits_some]
                have := h.rc_pos hlk (q ▸ hf)
                have : (true).toNat = 1 := rfl
                have : (false).toNat = 0 := rfl
                omega
              · rw [if_neg (fun z => q z.1), hits_ne (Ne.symm q)])
            (by
              intro f
              rw [a6, a5]
              by_cases q : f = x.frame
              · subst q
                by_cases hl : x.frame < c.lim
                · have hpos := h.rc_pos hlk hl
                  rw [if_pos (c := x.frame = x.frame ∧ x.frame < c.lim) ⟨rfl, hl⟩]
                  rcases hcase with ⟨q1, q2, q3⟩ | ⟨q1, q2, q3⟩
                  · rw [if_neg (by rw [q2]; simp), h.alloc]
                    have ho : m.isObj x.frame = true := by
                      rcases q3 with z | z
                      · exact z
                      · omega
                    have h1 := h.rc _ hl
                    have hh : held c m x.frame = 1 := if_pos (Or.inl ho)
                    have a1 := h.toTab.mem hlk
                    have := cnt_pos (f := x.frame) (L := lookIJ s) a1.1 a1.2
                      (Nat.mod_lt v (by decide))
                      (by rw [show lookIJ s d (v / 1024) (v % 1024) = some x from hlk]
                          exact hits_some)
                    rw [mappings_cnt] at h1
                    constructor
                    · intro ⟨u1, u2, u3⟩; exact ⟨u1, u2, by omega⟩
                    · intro ⟨u1, u2, u3⟩; exact ⟨u1, u2, by omega⟩
                  · by_cases hr : s.rc x.frame = 1
                    · rw [if_pos ⟨rfl, hr, q2, hl⟩]
                      constructor
                      · intro z; cases z
                      · intro ⟨_, _, z⟩; omega
                    · rw [if_neg (fun z => hr z.2.1), h.alloc]
                      constructor
                      · intro ⟨u1, u2, u3⟩; exact ⟨u1, u2, by omega⟩
                      · intro ⟨u1, u2, u3⟩; exact ⟨u1, u2, by omega⟩
                · rw [if_neg (fun z => hl z.2.2.2), if_neg (fun z => hl z.2), h.alloc]
              · rw [if_neg (fun z => q z.1), if_neg (fun z => q z.1), h.alloc])
            (by intro f _; rw [a4, p5])
            (by intro q hq; cases hq)
            (by intro q hq; cases hq)
            (by intro q hq; cases hq)
          exact this

/-! ## Shared objects and new address spaces -/

theorem new_inv {c : Cfg} {s : St} {m : Mem} (h : Inv c s m) {n : Nat} (hn : s.pd n = none) :
    Inv c { s with pd := upd s.pd n (some fun _ => none), dirs := n :: s.dirs }
      { m with live := upd m.live n true, page := upd m.page n fun _ => none } := by
  generalize hs1 : ({ s with pd := upd s.pd n (some fun _ => none), dirs := n :: s.dirs } : St) = s1
  have p1 : s1.pt = s.pt := by rw [← hs1]
  have p2 : s1.pd = upd s.pd n (some fun _ => none) := by rw [← hs1]
  have p3 : s1.dirs = n :: s.dirs := by rw [← hs1]
  have p4 : s1.alloc = s.alloc := by rw [← hs1]
  have p5 : s1.data = s.data := by rw [← hs1]
  have p6 : s1.rc = s.rc := by rw [← hs1]
  have hnd : n ∉ s.dirs := by
    intro k
    have := (h.dirs n).mp k
    rw [hn] at this; cases this
  have hlk : ∀ d i j, lookIJ s1 d i j = if d = n then none else lookIJ s d i j := by
    intro d i j
    by_cases k : d = n
    · rw [if_pos k, k]
      unfold lookIJ
      rw [p2, upd_same]
    · rw [if_neg k]
      unfold lookIJ
      rw [p2, upd_other k, p1]
  have hlv : ∀ d v, look s1 d v = if d = n then none else look s d v := fun d v => hlk d _ _
  refine ⟨⟨?_, ?_, ?_, ?_⟩, ?_, ?_, h.obj, ?_, ?_, ?_, ?_, ?_, ?_⟩
  · rw [p3]; exact List.nodup_cons.mpr ⟨hnd, h.nodup⟩
  · intro d
    rw [p3, p2, List.mem_cons]
    by_cases k : d = n
    · rw [k, upd_same]; exact ⟨fun _ => rfl, fun _ => Or.inl rfl⟩
    · rw [upd_other k, ← h.dirs d]
      exact ⟨fun q => q.resolve_left k, Or.inr⟩
  · intro d e i t a b
    rw [p2] at a
    by_cases k : d = n
    · rw [k, upd_same] at a; cases a; cases b
    · rw [upd_other k] at a; rw [p1]; exact h.own d e i t a b
  · intro d e i d' e' i' t a a' b b'
    rw [p2] at a a'
    by_cases k : d = n
    · rw [k, upd_same] at a; cases a; cases b
    · by_cases k' : d' = n
      · rw [k', upd_same] at a'; cases a'; cases b'
      · rw [upd_other k] at a; rw [upd_other k'] at a'
        exact h.inj d e i d' e' i' t a a' b b'
  · intro f hf
    have h1 := h.rc f hf
    rw [p6, h1]
    have e1 : mappings c s1 f = mappings c s f := by
      unfold mappings
      rw [p3, List.map_cons, List.sum_cons]
      have z : cntD c s1 n f = 0 := by
        unfold cntD
        have : (fun i => (List.range 1024).countP fun j => hits (lookIJ s1 n i j) f) = fun _ => 0 := by
          funext i
          rw [List.countP_eq_zero]
          intro j _
          rw [hlk, if_pos rfl]; simp [hits]
        rw [this]
        have : ∀ l : List Nat, (l.map fun _ => 0).sum = 0 := by
          intro l; induction l with
          | nil => rfl
          | cons a l ih => rw [List.map_cons, List.sum_cons, ih]
        exact this _
      rw [z, Nat.zero_add]
      apply sum_congr
      intro d hd
      have k : d ≠ n := fun q => hnd (q ▸ hd)
      show cntD c s1 d f = cntD c s d f
      unfold cntD
      have : (fun i => (List.range 1024).countP fun j => hits (lookIJ s1 d i j) f) =
          fun i => (List.range 1024).countP fun j => hits (lookIJ s d i j) f := by
        funext i
        have : (fun j => hits (lookIJ s1 d i j) f) = fun j => hits (lookIJ s d i j) f := by
          funext j; rw [hlk, if_neg k]
        rw [this]
      rw [this]
    rw [e1]; rfl
  · rw [p4, p6]; exact h.alloc
  · intro d v x hx hs
    rw [hlv] at hx
    split at hx
    · cases hx
    · exact h.shr d v x hx hs
  · intro d v x hx hs
    rw [hlv] at hx
    split at hx
    · cases hx
    · rw [p6]; exact h.prv d v x hx hs
  · rw [p5]; exact h.zero
  · intro d
    show upd m.live n true d = _
    rw [p2]
    by_cases k : d = n
    · rw [k, upd_same, upd_same]; rfl
    · rw [upd_other k, upd_other k]; exact h.live d
  · intro d v
    show upd m.page n (fun _ => none) d v = _
    rw [hlv]
    by_cases k : d = n
    · rw [k, upd_same, if_pos rfl]; rfl
    · rw [upd_other k, if_neg k, h.page]
      cases hq : look s d v with
      | none => rfl
      | some x => simp only [Option.map_some]; rw [view_congr (fun _ => by rw [p5])]
  · intro f hf; rw [p5]; exact h.objd f hf

theorem newObj_inv {c : Cfg} {s : St} {m : Mem} (h : Inv c s m) {g : Nat}
    (hg : g < c.lim ∧ g ≠ c.zero ∧ s.alloc g = false) :
    Inv c (rcInc c { s with alloc := upd s.alloc g true, data := upd s.data g fun _ => 0 } g)
      { m with isObj := upd m.isObj g true, obj := upd m.obj g fun _ => 0 } := by
  have h0 := fresh_rc h hg
  have ho := fresh_obj h hg
  obtain ⟨r1, r2, r3, r4, r5, r6⟩ := rcInc_fields (c := c)
    (s := { s with alloc := upd s.alloc g true, data := upd s.data g fun _ => 0 }) (f := g)
  generalize rcInc c { s with alloc := upd s.alloc g true, data := upd s.data g fun _ => 0 } g = s1
    at r1 r2 r3 r4 r5 r6
  dsimp only at r1 r2 r3 r4 r5 r6
  have hlk : ∀ a b k, lookIJ s1 a b k = lookIJ s a b k := lookIJ_of r1 r2
  have hlv : ∀ d v, look s1 d v = look s d v := fun d v => hlk d _ _
  have hrc : ∀ f, s1.rc f = if f = g then 1 else s.rc f := by
    intro f
    rw [r6]
    by_cases q : f = g
    · rw [if_pos ⟨q, by rw [q]; exact hg.1⟩, if_pos q, q, h0]
    · rw [if_neg (fun k => q k.1), if_neg q]
  have hdata : ∀ f, f ≠ g → s1.data f = s.data f := by
    intro f hf; rw [r5]; exact upd_other hf
  have hmap : ∀ f, mappings c s1 f = mappings c s f := by
    intro f
    rw [mappings_cnt, mappings_cnt, r3]
    exact cnt_congr (fun d i j _ _ _ => by rw [hlk])
  have hm0 : mappings c s g = 0 := by have := h.rc g hg.1; omega
  refine ⟨h.toTab.congr r3 r2 (by rw [r1]; exact fun _ k => k), ?_, ?_, ?_, ?_, ?_, ?_, ?_, ?_, ?_⟩
  · intro f hf
    rw [hmap, hrc]
    by_cases q : f = g
    · rw [if_pos q, q, hm0]
      show 1 = 0 + (if upd m.isObj g true g = true ∨ g = c.zero then 1 else 0)
      rw [upd_same]; simp
    · rw [if_neg q, h.rc f hf]
      show _ = _ + (if upd m.isObj g true f = true ∨ f = c.zero then 1 else 0)
      rw [upd_other q]; rfl
  · intro f
    rw [r4, hrc]
    by_cases q : f = g
    · rw [q, upd_same, if_pos rfl]
      exact ⟨fun _ => ⟨hg.1, hg.2.1, by decide⟩, fun _ => rfl⟩
    · rw [upd_other q, if_neg q]; exact h.alloc f
  · intro f hf
    by_cases q : f = g
    · rw [q]; exact ⟨hg.1, hg.2.1⟩
    · exact h.obj f (by rw [← upd_other (f := m.isObj) (x := true) q]; exact hf)
  · intro d v x hx hs
    rw [hlv] at hx
    obtain ⟨b1, b2⟩ := h.shr d v x hx hs
    refine ⟨b1, b2.imp (fun k => ?_) id⟩
    show upd m.isObj g true x.frame = true
    by_cases q : x.frame = g
    · rw [q, upd_same]
    · rw [upd_other q]; exact k
  · intro d v x hx hs
    rw [hlv] at hx
    obtain ⟨b1, b2, b3⟩ := h.prv d v x hx hs
    have hne : x.frame ≠ g := by
      intro q
      have := h.rc_pos hx b1
      rw [q] at this; omega
    refine ⟨b1, ?_, ?_⟩
    · show upd m.isObj g true x.frame = false
      rw [upd_other hne]; exact b2
    · rw [hrc, if_neg hne]; exact b3
  · rw [hdata _ (fun q => hg.2.1 q.symm)]; exact h.zero
  · intro d; rw [r2]; exact h.live d
  · intro d v
    show m.page d v = _
    rw [hlv, h.page]
    cases hq : look s d v with
    | none => rfl
    | some x =>
      simp only [Option.map_some]
      rw [view_congr (s' := s1) (s := s)]
      intro hs
      apply hdata
      intro q
      have b1 := (h.prv d v x hq hs).1
      have := h.rc_pos hq b1
      rw [q] at this; omega
  · intro f hf
    show upd m.obj g (fun _ => 0) f = _
    by_cases q : f = g
    · rw [q, upd_same, r5, upd_same]
    · rw [upd_other q, hdata f q]
      apply h.objd
      exact hf.imp (fun k => by rw [← upd_other (f := m.isObj) (x := true) q]; exact k) id

theorem freeObj_inv {c : Cfg} {s : St} {m : Mem} (h : Inv c s m) {g : Nat}
    (hg : m.isObj g = true) (hmap : mappings c s g = 0) :
    ∃ s', step c s (.freeObj g) = some (s', .ok) ∧ Inv c s' (m.step (.freeObj g) .ok) := by
  obtain ⟨hl, hz⟩ := h.obj g hg
  have hr : s.rc g = 1 := by
    rw [h.rc g hl, hmap]
    show 0 + (if _ then _ else _) = 1
    rw [if_pos (Or.inl hg)]
  have ha := (h.alloc g).mpr ⟨hl, hz, by omega⟩
  have hnot : ∀ d v x, look s d v = some x → x.frame ≠ g := by
    intro d v x hx q
    have a1 := h.toTab.mem hx
    have := cnt_pos (f := g) (L := lookIJ s) a1.1 a1.2 (Nat.mod_lt v (by decide))
      (by rw [show lookIJ s d (v / 1024) (v % 1024) = some x from hx, ← q]; exact hits_some)
    rw [mappings_cnt] at hmap
    omega
  refine ⟨{ s with rc := upd s.rc g 0, alloc := upd s.alloc g false }, ?_, ?_⟩
  · have e1 : rcDec c s g = some ({ s with rc := upd s.rc g 0 }, 0) := by
      unfold rcDec
      rw [if_pos hl, if_neg (by omega), hr]
    have e2 : kfree { s with rc := upd s.rc g 0 } g =
        some { s with rc := upd s.rc g 0, alloc := upd s.alloc g false } := by
      unfold kfree
      rw [if_pos ha]
    unfold step
    dsimp only
    rw [e1]
    dsimp only
    rw [e2]
  · refine ⟨h.toTab.congr rfl rfl (fun _ k => k), ?_, ?_, ?_, ?_, ?_, h.zero, h.live, h.page, ?_⟩
    · intro f hf
      show upd s.rc g 0 f = mappings c s f + (if upd m.isObj g false f = true ∨ f = c.zero then 1 else 0)
      by_cases q : f = g
      · rw [q, upd_same, upd_same, hmap, if_neg]
        rintro (k | k)
        · cases k
        · exact hz k
      · rw [upd_other q, upd_other q]; exact h.rc f hf
    · intro f
      show upd s.alloc g false f = true ↔ f < c.lim ∧ f ≠ c.zero ∧ 0 < upd s.rc g 0 f
      by_cases q : f = g
      · rw [q, upd_same, upd_same]; simp
      · rw [upd_other q, upd_other q]; exact h.alloc f
    · intro f hf
      have hf' : upd m.isObj g false f = true := hf
      by_cases q : f = g
      · rw [q, upd_same] at hf'; cases hf'
      · rw [upd_other q] at hf'; exact h.obj f hf'
    · intro d v x hx hs
      obtain ⟨b1, b2⟩ := h.shr d v x hx hs
      refine ⟨b1, b2.imp (fun k => ?_) id⟩
      show upd m.isObj g false x.frame = true
      rw [upd_other (hnot d v x hx)]; exact k
    · intro d v x hx hs
      obtain ⟨b1, b2, b3⟩ := h.prv d v x hx hs
      have q := hnot d v x hx
      refine ⟨b1, ?_, ?_⟩
      · show upd m.isObj g false x.frame = false
        rw [upd_other q]; exact b2
      · show _ → _ ∧ _ ∧ upd s.rc g 0 x.frame = 1
        rw [upd_other q]; exact b3
    · intro f hf
      apply h.objd
      refine hf.imp (fun k => ?_) id
      have k' : upd m.isObj g false f = true := k
      by_cases q : f = g
      · rw [q, upd_same] at k'; cases k'
      · rw [upd_other q] at k'; exact k'

theorem objWrite_inv {c : Cfg} {s : St} {m : Mem} (h : Inv c s m) {g off b : Nat}
    (hg : m.isObj g = true) :
    Inv c (poke s g off b) { m with obj := upd m.obj g (upd (m.obj g) off b) } := by
  obtain ⟨hl, hz⟩ := h.obj g hg
  have hda : ∀ f, f ≠ g → (poke s g off b).data f = s.data f := by
    intro f hf
    exact upd_other hf
  refine ⟨h.toTab.congr rfl rfl (fun _ k => k), h.rc, h.alloc, h.obj, h.shr, h.prv, ?_, h.live,
      ?_, ?_⟩
  · rw [hda _ (fun q => hz q.symm)]; exact h.zero
  · intro d v
    show m.page d v = (look s d v).map _
    rw [h.page]
    cases hq : look s d v with
    | none => rfl
    | some x =>
      simp only [Option.map_some]
      rw [view_congr (s' := poke s g off b) (s := s)]
      intro hs
      apply hda
      intro q
      have := (h.prv d v x hq hs).2.1
      rw [q, hg] at this; cases this
  · intro f hf
    show upd m.obj g _ f = _
    by_cases q : f = g
    · rw [q, upd_same, h.objd g (Or.inl hg)]; exact upd_same.symm
    · rw [upd_other q, hda f q]; exact h.objd f hf

/-! ## Whole directories -/

/-- Number of entries of table `i` of a directory that map `f`. -/
def tcount (pt : Nat → Option Table) (e : Nat → Option Nat) (i f : Nat) : Nat :=
  match e i with
  | none => 0
  | some t =>
    match pt t with
    | none => 0
    | some p => (frames p).count f

theorem count_frames_aux (p : Table) (f : Nat) (l : List Nat) :
    (l.filterMap fun j => (p j).map Pte.frame).count f = l.countP fun j => hits (p j) f := by
  induction l with
  | nil => rfl
  | cons a l ih =>
    rw [List.countP_cons, ← ih]
    cases h : p a with
    | none =>
      rw [List.filterMap_cons_none (by rw [h]; rfl)]
      simp [hits]
    | some x =>
      rw [List.filterMap_cons_some (b := x.frame) (by rw [h]; rfl), List.count_cons]
      simp [hits]

theorem count_frames (p : Table) (f : Nat) :
    (frames p).count f = (List.range 1024).countP fun j => hits (p j) f := by
  unfold frames
  exact count_frames_aux p f _

theorem cntD_tcount {c : Cfg} {s : St} {d : Nat} {e : Nat → Option Nat} (h : s.pd d = some e)
    (f : Nat) : cntD c s d f = ((List.range c.nd).map fun i => tcount s.pt e i f).sum := by
  unfold cntD
  have : (fun i => (List.range 1024).countP fun j => hits (lookIJ s d i j) f) =
      fun i => tcount s.pt e i f := by
    funext i
    unfold tcount
    cases hi : e i with
    | none =>
      dsimp only
      rw [List.countP_eq_zero]
      intro j _
      unfold lookIJ; rw [h]; dsimp only; rw [hi]; simp [hits]
    | some t =>
      dsimp only
      cases hp : s.pt t with
      | none =>
        dsimp only
        rw [List.countP_eq_zero]
        intro j _
        unfold lookIJ; rw [h]; dsimp only; rw [hi]; dsimp only; rw [hp]; simp [hits]
      | some p =>
        dsimp only
        rw [count_frames]
        have : (fun j => hits (lookIJ s d i j) f) = fun j => hits (p j) f := by
          funext j; rw [look_eq h hi hp]
        rw [this]
  rw [this]

theorem mem_frames {p : Table} {f : Nat} : f ∈ frames p ↔ ∃ j x, j < 1024 ∧ p j = some x ∧ x.frame = f := by
  unfold frames
  rw [List.mem_filterMap]
  constructor
  · rintro ⟨j, hj, h⟩
    cases hx : p j with
    | none => rw [hx] at h; cases h
    | some x =>
      rw [hx] at h
      exact ⟨j, x, List.mem_range.mp hj, hx, by simpa using h⟩
  · rintro ⟨j, x, hj, hx, hf⟩
    exact ⟨j, List.mem_range.mpr hj, by rw [hx, ← hf]; rfl⟩

/-- A frame is allocated as long as it has references. -/
def AllocOk (c : Cfg) (s : St) : Prop := ∀ f, s.alloc f = true ↔ f < c.lim ∧ f ≠ c.zero ∧ 0 < s.rc f

theorem dropAll_spec {c : Cfg} (fs : List Nat) : ∀ {s : St}, AllocOk c s →
    (∀ f, f ∈ fs → f < c.lim) →
    (∀ f, f < c.lim → fs.count f + (if f = c.zero then 1 else 0) ≤ s.rc f) →
    ∃ s', dropAll c fs s = some s' ∧ s'.pt = s.pt ∧ s'.pd = s.pd ∧ s'.dirs = s.dirs ∧
      s'.data = s.data ∧ AllocOk c s' ∧ (∀ f, f < c.lim → s'.rc f = s.rc f - fs.count f) := by
  induction fs with
  | nil =>
    intro s ha _ _
    exact ⟨s, rfl, rfl, rfl, rfl, rfl, ha, fun f _ => by simp⟩
  | cons g fs ih =>
    intro s ha hl hc
    have hg := hl g (List.mem_cons_self ..)
    have hcg := hc g hg
    rw [List.count_cons_self] at hcg
    obtain ⟨s1, k, a1, a2, a3, a4, a5, a6⟩ := drop_spec (c := c) (s := s) (f := g) (free := true)
      (fun _ => by omega)
      (fun _ hr _ => (ha g).mpr ⟨hg, by
        intro q
        rw [if_pos q] at hcg
        omega, by omega⟩)
      (fun q => by omega)
    have hrc1 : ∀ f, f < c.lim → s1.rc f = s.rc f - (if f = g then 1 else 0) := by
      intro f hf
      rw [a5]
      by_cases q : f = g
      · rw [if_pos ⟨q, hf⟩, if_pos q]
      · rw [if_neg (fun z => q z.1), if_neg q]; rfl
    have ha1 : AllocOk c s1 := by
      intro f
      rw [a6, a5]
      by_cases q : f = g
      · subst q
        rw [if_pos (c := f = f ∧ f < c.lim) ⟨rfl, hg⟩]
        by_cases hr : s.rc f = 1
        · rw [if_pos ⟨rfl, hr, rfl, hg⟩]
          constructor
          · intro z; cases z
          · intro ⟨_, _, z⟩; omega
        · rw [if_neg (fun z => hr z.2.1), ha f]
          constructor
          · intro ⟨u1, u2, u3⟩; exact ⟨u1, u2, by omega⟩
          · intro ⟨u1, u2, u3⟩; exact ⟨u1, u2, by omega⟩
      · rw [if_neg (fun z => q z.1), if_neg (fun z => q z.1)]; exact ha f
    obtain ⟨s', b0, b1, b2, b3, b4, b5, b6⟩ := ih ha1
      (fun f hf => hl f (List.mem_cons_of_mem _ hf))
      (by
        intro f hf
        have := hc f hf
        rw [hrc1 f hf]
        rw [List.count_cons] at this
        by_cases q : f = g
        · subst q
          simp only [beq_self_eq_true, if_true] at this
          rw [if_pos rfl]; omega
        · rw [if_neg (by simpa using Ne.symm q)] at this
          rw [if_neg q]; omega)
    refine ⟨s', ?_, b1.trans a1, b2.trans a2, b3.trans a3, b4.trans a4, b5, ?_⟩
    · unfold dropAll; rw [k]; exact b0
    · intro f hf
      rw [b6 f hf, hrc1 f hf, List.count_cons]
      by_cases q : f = g
      · subst q
        simp only [beq_self_eq_true, if_true]
        omega
      · rw [if_neg q, if_neg (by simpa using Ne.symm q)]; omega

theorem tcount_upd {pt : Nat → Option Table} {e : Nat → Option Nat} {i k t f : Nat} {x : Option Table}
    (hk : ∀ t', e k = some t' → t' ≠ t) : tcount (upd pt t x) e k f = tcount pt e k f := by
  unfold tcount
  cases h : e k with
  | none => rfl
  | some t' =>
    dsimp only
    rw [upd_other (hk t' h)]

theorem destroyLoop_spec {c : Cfg} {e : Nat → Option Nat} (is : List Nat) : ∀ {s : St},
    is.Nodup → AllocOk c s →
    (∀ i j t, e i = some t → e j = some t → i = j) →
    (∀ i t, i ∈ is → e i = some t → ∃ p, s.pt t = some p ∧ ∀ f, f ∈ frames p → f < c.lim) →
    (∀ f, f < c.lim →
      (is.map fun i => tcount s.pt e i f).sum + (if f = c.zero then 1 else 0) ≤ s.rc f) →
    ∃ s', destroyLoop c e is s = some s' ∧ s'.pd = s.pd ∧ s'.dirs = s.dirs ∧ s'.data = s.data ∧
      AllocOk c s' ∧
      (∀ f, f < c.lim → s'.rc f = s.rc f - (is.map fun i => tcount s.pt e i f).sum) ∧
      (∀ t, (∀ i, i ∈ is → e i ≠ some t) → s'.pt t = s.pt t) := by
  induction is with
  | nil =>
    intro s _ ha _ _ _
    exact ⟨s, rfl, rfl, rfl, rfl, ha, fun f _ => by simp, fun _ _ => rfl⟩
  | cons i is ih =>
    intro s hn ha hinj hp hc
    rw [List.nodup_cons] at hn
    cases hi : e i with
    | none =>
      have hz : ∀ f, tcount s.pt e i f = 0 := by
        intro f; unfold tcount; rw [hi]
      obtain ⟨s', b0, b1, b2, b3, b4, b5, b6⟩ := ih (s := s) hn.2 ha hinj
        (fun k t hk => hp k t (List.mem_cons_of_mem _ hk))
        (by
          intro f hf
          have := hc f hf
          rw [List.map_cons, List.sum_cons, hz] at this
          omega)
      refine ⟨s', ?_, b1, b2, b3, b4, ?_, ?_⟩
      · rw [destroyLoop, hi]; exact b0
      · intro f hf
        rw [b5 f hf, List.map_cons, List.sum_cons, hz, Nat.zero_add]
      · intro t ht
        exact b6 t (fun k hk => ht k (List.mem_cons_of_mem _ hk))
    | some t =>
      obtain ⟨p, hpt, hpl⟩ := hp i t (List.mem_cons_self ..) hi
      have hti : ∀ f, tcount s.pt e i f = (frames p).count f := by
        intro f; unfold tcount; rw [hi]; dsimp only; rw [hpt]
      obtain ⟨s1, a0, a1, a2, a3, a4, a5, a6⟩ := dropAll_spec (c := c) (frames p) ha hpl
        (by
          intro f hf
          have := hc f hf
          rw [List.map_cons, List.sum_cons, hti] at this
          omega)
      generalize hs2 : ({ s1 with pt := upd s1.pt t none } : St) = s2
      have p1 : s2.pt = upd s.pt t none := by rw [← hs2, ← a1]
      have p2 : s2.pd = s.pd := by rw [← hs2]; exact a2
      have p3 : s2.dirs = s.dirs := by rw [← hs2]; exact a3
      have p4 : s2.data = s.data := by rw [← hs2]; exact a4
      have p5 : AllocOk c s2 := by rw [← hs2]; exact a5
      have p6 : s2.rc = s1.rc := by rw [← hs2]
      have hoth : ∀ k, k ∈ is → ∀ t', e k = some t' → t' ≠ t := by
        intro k hk t' ht' q
        subst q
        have := hinj k i t' ht' hi
        exact hn.1 (this ▸ hk)
      have htc : ∀ f, (is.map fun k => tcount s2.pt e k f).sum =
          (is.map fun k => tcount s.pt e k f).sum := by
        intro f
        apply sum_congr
        intro k hk
        rw [p1]
        exact tcount_upd (i := i) (hoth k hk)
      obtain ⟨s', b0, b1, b2, b3, b4, b5, b6⟩ := ih (s := s2) hn.2 p5 hinj
        (by
          intro k t' hk ht'
          rw [p1, upd_other (hoth k hk t' ht')]
          exact hp k t' (List.mem_cons_of_mem _ hk) ht')
        (by
          intro f hf
          have := hc f hf
          rw [List.map_cons, List.sum_cons, hti] at this
          rw [htc, p6, a6 f hf]
          omega)
      refine ⟨s', ?_, b1.trans p2, b2.trans p3, b3.trans p4, b4, ?_, ?_⟩
      · rw [destroyLoop, hi]; dsimp only; rw [hpt]; dsimp only; rw [a0]; dsimp only
        rw [hs2]; exact b0
      · intro f hf
        rw [b5 f hf, p6, a6 f hf, htc, List.map_cons, List.sum_cons, hti]
        omega
      · intro t' ht'
        rw [b6 t' (fun k hk => ht' k (List.mem_cons_of_mem _ hk)), p1, upd_other]
        intro q
        exact ht' i (List.mem_cons_self ..) (q ▸ hi)

theorem sum_mem_le {l : List Nat} {g : Nat → Nat} {a : Nat} (ha : a ∈ l) : g a ≤ (l.map g).sum := by
  induction l with
  | nil => cases ha
  | cons b l ih =>
    rw [List.map_cons, List.sum_cons]
    rcases List.mem_cons.mp ha with q | q
    · rw [q]; omega
    · have := ih q; omega

theorem sum_erase {l : List Nat} {g : Nat → Nat} {a : Nat} (ha : a ∈ l) :
    (l.map g).sum = g a + ((l.erase a).map g).sum := by
  induction l with
  | nil => cases ha
  | cons b l ih =>
    by_cases q : b = a
    · subst q; rw [List.erase_cons_head]; rfl
    · rw [List.erase_cons_tail (by simpa using q), List.map_cons, List.map_cons, List.sum_cons, List.sum_cons]
      have : a ∈ l := by
        rcases List.mem_cons.mp ha with k | k
        · exact absurd k.symm q
        · exact k
      rw [ih this]; omega

theorem cntD_congr {c : Cfg} {s s' : St} {d f : Nat}
    (h : ∀ i j, hits (lookIJ s' d i j) f = hits (lookIJ s d i j) f) :
    cntD c s' d f = cntD c s d f := by
  unfold cntD
  have : (fun i => (List.range 1024).countP fun j => hits (lookIJ s' d i j) f) =
      fun i => (List.range 1024).countP fun j => hits (lookIJ s d i j) f := by
    funext i
    have : (fun j => hits (lookIJ s' d i j) f) = fun j => hits (lookIJ s d i j) f := by
      funext j; rw [h]
    rw [this]
  rw [this]

theorem destroy_inv {c : Cfg} {s : St} {m : Mem} (h : Inv c s m) {d : Nat}
    (hd : (s.pd d).isSome = true)
    (hdev : ∀ v x, look s d v = some x → x.frame < c.lim) :
    ∃ s', destroy c s d = some (s', .ok) ∧ Inv c s' (m.step (.destroy d) .ok) := by
  cases he : s.pd d with
  | none => rw [he] at hd; cases hd
  | some e =>
    have hdm := (h.dirs d).mpr hd
    have hsum : ∀ f, ((List.range c.nd).map fun i => tcount s.pt e i f).sum = cntD c s d f :=
      fun f => (cntD_tcount he f).symm
    have hle : ∀ f, cntD c s d f ≤ mappings c s f := fun f => sum_mem_le (g := fun d => cntD c s d f) hdm
    have hheld : ∀ f, (if f = c.zero then 1 else 0) ≤ held c m f := by
      intro f
      by_cases q : f = c.zero
      · rw [if_pos q]; show _ ≤ (if _ then _ else _); rw [if_pos (Or.inr q)]; exact Nat.le_refl 1
      · rw [if_neg q]; omega
    obtain ⟨s1, b0, b1, b2, b3, b4, b5, b6⟩ := destroyLoop_spec (c := c) (e := e) (List.range c.nd)
      (s := s) List.nodup_range h.alloc
      (fun i j t hi hj => (h.inj d e i d e j t he he hi hj).2)
      (by
        intro i t _ hi
        have := (h.own d e i t he hi).2
        cases hp : s.pt t with
        | none => rw [hp] at this; cases this
        | some p =>
          refine ⟨p, rfl, fun f hf => ?_⟩
          obtain ⟨j, x, hj, hx, hxf⟩ := mem_frames.mp hf
          have hv : look s d (i * 1024 + j) = some x := by
            unfold look
            have e1 : (i * 1024 + j) / 1024 = i := by omega
            have e2 : (i * 1024 + j) % 1024 = j := by omega
            rw [e1, e2, look_eq he hi hp, hx]
          rw [← hxf]; exact hdev _ x hv)
      (by
        intro f hf
        rw [hsum]
        have h1 := h.rc f hf
        have h2 := hle f
        have h3 := hheld f
        omega)
    have hun : destroy c s d =
        some ({ s1 with pd := upd s1.pd d none, dirs := s1.dirs.erase d }, .ok) := by
      unfold destroy; rw [he]; dsimp only; rw [b0]
    refine ⟨_, hun, ?_⟩
    generalize hs2 : ({ s1 with pd := upd s1.pd d none, dirs := s1.dirs.erase d } : St) = s2
    have p1 : s2.pt = s1.pt := by rw [← hs2]
    have p2 : s2.pd = upd s.pd d none := by rw [← hs2, ← b1]
    have p3 : s2.dirs = s.dirs.erase d := by rw [← hs2, ← b2]
    have p4 : s2.alloc = s1.alloc := by rw [← hs2]
    have p5 : s2.data = s.data := by rw [← hs2]; exact b3
    have p6 : s2.rc = s1.rc := by rw [← hs2]
    have hpt : ∀ d' e' i t, d' ≠ d → s.pd d' = some e' → e' i = some t → s1.pt t = s.pt t := by
      intro d' e' i t hne a b
      apply b6
      intro k _ hk
      exact hne (h.inj d' e' i d e k t a he b hk).1
    have hlk : ∀ d' i j, lookIJ s2 d' i j = if d' = d then none else lookIJ s d' i j := by
      intro d' i j
      by_cases q : d' = d
      · rw [if_pos q, q]
        unfold lookIJ; rw [p2, upd_same]
      · rw [if_neg q]
        unfold lookIJ
        rw [p2, upd_other q]
        cases ha : s.pd d' with
        | none => rfl
        | some e' =>
          dsimp only
          cases hb : e' i with
          | none => rfl
          | some t =>
            dsimp only
            rw [p1, hpt d' e' i t q ha hb]
    have hlv : ∀ d' v, look s2 d' v = if d' = d then none else look s d' v := fun d' v => hlk d' _ _
    have hmp : ∀ f, mappings c s f = cntD c s d f + mappings c s2 f := by
      intro f
      unfold mappings
      rw [sum_erase hdm, p3]
      refine congrArg (cntD c s d f + ·) (sum_congr ?_)
      intro k hk
      have hne : k ≠ d := by
        intro q
        subst q
        exact ((List.Nodup.mem_erase_iff h.nodup).mp hk).1 rfl
      exact (cntD_congr (fun i j => by rw [hlk, if_neg hne])).symm
    have hrc : ∀ f, f < c.lim → s2.rc f = s.rc f - cntD c s d f := by
      intro f hf; rw [p6, b5 f hf, hsum]
    refine ⟨⟨?_, ?_, ?_, ?_⟩, ?_, ?_, h.obj, ?_, ?_, ?_, ?_, ?_, ?_⟩
    · rw [p3]; exact h.nodup.erase _
    · intro k
      rw [p3, p2, List.Nodup.mem_erase_iff h.nodup]
      by_cases q : k = d
      · rw [q, upd_same]; simp
      · rw [upd_other q, h.dirs k]
        exact ⟨fun z => z.2, fun z => ⟨q, z⟩⟩
    · intro d' e' i t a b
      rw [p2] at a
      by_cases q : d' = d
      · rw [q, upd_same] at a; cases a
      · rw [upd_other q] at a
        rw [p1, hpt d' e' i t q a b]; exact h.own d' e' i t a b
    · intro d1 e1 i1 d2 e2 i2 t a1 a2 c1 c2
      rw [p2] at a1 a2
      by_cases q1 : d1 = d
      · rw [q1, upd_same] at a1; cases a1
      · by_cases q2 : d2 = d
        · rw [q2, upd_same] at a2; cases a2
        · rw [upd_other q1] at a1; rw [upd_other q2] at a2
          exact h.inj d1 e1 i1 d2 e2 i2 t a1 a2 c1 c2
    · intro f hf
      rw [hrc f hf, h.rc f hf, hmp f]
      show _ = _ + held c m f
      omega
    · rw [p4, p6]; exact b4
    · intro d' v x hx hs
      rw [hlv] at hx
      split at hx
      · cases hx
      · exact h.shr d' v x hx hs
    · intro d' v x hx hs
      rw [hlv] at hx
      split at hx
      · cases hx
      · rename_i hne
        obtain ⟨u1, u2, u3⟩ := h.prv d' v x hx hs
        refine ⟨u1, u2, fun hr => ?_⟩
        obtain ⟨u4, u5, u6⟩ := u3 hr
        refine ⟨u4, u5, ?_⟩
        have h1 := h.rc _ u1
        have h2 := hmp x.frame
        have h3 : 0 < cntD c s d' x.frame := by
          have am := h.toTab.mem hx
          apply sum_pos (List.mem_range.mpr am.2)
          rw [countP_sum]
          apply sum_pos (List.mem_range.mpr (Nat.mod_lt v (by decide : 0 < 1024)))
          rw [show lookIJ s d' (v / 1024) (v % 1024) = some x from hx, hits_some]
          decide
        have h4 : cntD c s d' x.frame ≤ mappings c s2 x.frame := by
          have am := h.toTab.mem hx
          have e1 : cntD c s2 d' x.frame = cntD c s d' x.frame :=
            cntD_congr (fun i j => by rw [hlk, if_neg hne])
          rw [← e1]
          apply sum_mem_le (g := fun d => cntD c s2 d x.frame)
          rw [p3]
          exact (List.Nodup.mem_erase_iff h.nodup).mpr ⟨hne, am.1⟩
        rw [hrc _ u1]
        omega
    · rw [p5]; exact h.zero
    · intro k
      show upd m.live d false k = _
      rw [p2]
      by_cases q : k = d
      · rw [q, upd_same, upd_same]; rfl
      · rw [upd_other q, upd_other q]; exact h.live k
    · intro d' v
      show upd m.page d (fun _ => none) d' v = _
      rw [hlv]
      by_cases q : d' = d
      · rw [q, upd_same, if_pos rfl]; rfl
      · rw [upd_other q, if_neg q, h.page]
        cases hq : look s d' v with
        | none => rfl
        | some x => simp only [Option.map_some]; rw [view_congr (fun _ => by rw [p5])]
    · intro f hf; rw [p5]; exact h.objd f hf

/-! ## Fork -/

theorem cloneAlloc_ok {e : Nat → Option Nat} {pts : Nat → Option Nat} (is : List Nat) :
    ∀ {s s1 : St} {done : List Nat}, cloneAlloc s e pts is done = (s1, true) →
      (∀ i t, pts i = some t → (e i).isSome = true → i ∈ is → s.pt t = none) →
      (∀ i j t, pts i = some t → pts j = some t → i = j) → is.Nodup →
      s1.pd = s.pd ∧ s1.dirs = s.dirs ∧ s1.rc = s.rc ∧ s1.alloc = s.alloc ∧ s1.data = s.data ∧
      (∀ t, (s.pt t).isSome = true → s1.pt t = s.pt t) ∧
      (∀ i, i ∈ is → (e i).isSome = true → (pts i).isSome = true) := by
  induction is with
  | nil =>
    intro s s1 done h _ _ _
    unfold cloneAlloc at h
    cases h
    exact ⟨rfl, rfl, rfl, rfl, rfl, fun _ _ => rfl, fun i hi => by cases hi⟩
  | cons i is ih =>
    intro s s1 done h hf hinj hn
    rw [List.nodup_cons] at hn
    rw [cloneAlloc] at h
    cases hi : e i with
    | none =>
      rw [hi] at h
      obtain ⟨a1, a2, a3, a4, a5, a6, a7⟩ := ih h
        (fun k t hk hs hm => hf k t hk hs (List.mem_cons_of_mem _ hm)) hinj hn.2
      refine ⟨a1, a2, a3, a4, a5, a6, fun k hk hs => ?_⟩
      rcases List.mem_cons.mp hk with q | q
      · rw [q, hi] at hs; cases hs
      · exact a7 k q hs
    | some t0 =>
      rw [hi] at h
      dsimp only at h
      cases hp : pts i with
      | none => rw [hp] at h; cases h
      | some t =>
        rw [hp] at h
        dsimp only at h
        have hft := hf i t hp (by rw [hi]; rfl) (List.mem_cons_self ..)
        obtain ⟨a1, a2, a3, a4, a5, a6, a7⟩ := ih h
          (by
            intro k t' hk hs hm
            show upd s.pt t _ t' = none
            have : t' ≠ t := by
              intro q
              subst q
              have := hinj k i t' hk hp
              exact hn.1 (this ▸ hm)
            rw [upd_other this]
            exact hf k t' hk hs (List.mem_cons_of_mem _ hm)) hinj hn.2
        refine ⟨a1, a2, a3, a4, a5, ?_, ?_⟩
        · intro t' ht'
          have hne : t' ≠ t := by
            intro q
            subst q
            rw [hft] at ht'; cases ht'
          have e1 : upd s.pt t (some fun _ => none) t' = s.pt t' := upd_other hne
          have := a6 t' (by show (upd s.pt t _ t').isSome = true; rw [e1]; exact ht')
          rw [this]; exact e1
        · intro k hk hs
          rcases List.mem_cons.mp hk with q | q
          · rw [q, hp]; rfl
          · exact a7 k q hs

theorem cloneAlloc_fail {e : Nat → Option Nat} {pts : Nat → Option Nat} (is : List Nat) :
    ∀ {s s1 : St} {done : List Nat}, is.Pairwise (· < ·) →
      cloneAlloc s e pts is done = (s1, false) →
      ∃ j, j ∈ is ∧ (e j).isSome = true ∧ pts j = none ∧
        (∀ i, i ∈ is → i < j → (e i).isSome = true → (pts i).isSome = true) ∧
        ((∀ i, i ∈ is → i < j → e i = none) → done = [] → s1 = s) := by
  induction is with
  | nil => intro s s1 done _ h; unfold cloneAlloc at h; cases h
  | cons i is ih =>
    intro s s1 done hs h
    rw [List.pairwise_cons] at hs
    rw [cloneAlloc] at h
    cases hi : e i with
    | none =>
      rw [hi] at h
      obtain ⟨j, a1, a2, a3, a4, a5⟩ := ih hs.2 h
      refine ⟨j, List.mem_cons_of_mem _ a1, a2, a3, ?_, ?_⟩
      · intro k hk hlt hp
        rcases List.mem_cons.mp hk with q | q
        · rw [q, hi] at hp; cases hp
        · exact a4 k q hlt hp
      · intro hk
        exact a5 (fun k hk' => hk k (List.mem_cons_of_mem _ hk'))
    | some t0 =>
      rw [hi] at h
      dsimp only at h
      cases hp : pts i with
      | none =>
        rw [hp] at h
        dsimp only at h
        refine ⟨i, List.mem_cons_self .., by rw [hi]; rfl, hp, ?_, ?_⟩
        · intro k hk hlt
          rcases List.mem_cons.mp hk with q | q
          · omega
          · have := hs.1 k q; omega
        · intro _ hd
          subst hd
          cases h
          rfl
      | some t =>
        rw [hp] at h
        dsimp only at h
        obtain ⟨j, a1, a2, a3, a4, a5⟩ := ih hs.2 h
        refine ⟨j, List.mem_cons_of_mem _ a1, a2, a3, ?_, ?_⟩
        · intro k hk hlt hq
          rcases List.mem_cons.mp hk with q | q
          · rw [q, hp]; rfl
          · exact a4 k q hlt hq
        · intro hk
          have := hk i (List.mem_cons_self ..) (hs.1 j a1)
          rw [hi] at this; cases this

theorem foldl_rcInc {c : Cfg} (fs : List Nat) : ∀ (s : St),
    (fs.foldl (rcInc c) s).pt = s.pt ∧ (fs.foldl (rcInc c) s).pd = s.pd ∧
    (fs.foldl (rcInc c) s).dirs = s.dirs ∧ (fs.foldl (rcInc c) s).alloc = s.alloc ∧
    (fs.foldl (rcInc c) s).data = s.data ∧
    ∀ f, (fs.foldl (rcInc c) s).rc f = if f < c.lim then s.rc f + fs.count f else s.rc f := by
  induction fs with
  | nil => intro s; refine ⟨rfl, rfl, rfl, rfl, rfl, fun f => by simp⟩
  | cons g fs ih =>
    intro s
    rw [List.foldl_cons]
    obtain ⟨a1, a2, a3, a4, a5, a6⟩ := ih (rcInc c s g)
    obtain ⟨b1, b2, b3, b4, b5, b6⟩ := rcInc_fields (c := c) (s := s) (f := g)
    refine ⟨a1.trans b1, a2.trans b2, a3.trans b3, a4.trans b4, a5.trans b5, fun f => ?_⟩
    rw [a6, b6, List.count_cons]
    by_cases hl : f < c.lim
    · rw [if_pos hl, if_pos hl]
      by_cases q : f = g
      · subst q
        rw [if_pos ⟨rfl, hl⟩]
        simp
        omega
      · rw [if_neg (fun z => q z.1), if_neg (by simpa using Ne.symm q)]; rfl
    · rw [if_neg hl, if_neg hl, if_neg (fun z => hl z.2)]

/-- The second loop of `pdir_clone`. -/
theorem cloneCopy_spec {c : Cfg} {e : Nat → Option Nat} {pts : Nat → Option Nat} (is : List Nat) :
    ∀ {s : St}, is.Nodup →
      (∀ i j t, e i = some t → e j = some t → i = j) →
      (∀ i j t, pts i = some t → pts j = some t → i = j) →
      (∀ i j t, pts i = some t → e j ≠ some t) →
      (∀ i t, i ∈ is → e i = some t → (s.pt t).isSome = true ∧ (pts i).isSome = true) →
      ∃ s', cloneCopy c e pts is s = some s' ∧ s'.pd = s.pd ∧ s'.dirs = s.dirs ∧
        s'.alloc = s.alloc ∧ s'.data = s.data ∧
        (∀ f, s'.rc f = if f < c.lim then s.rc f + (is.map fun i => tcount s.pt e i f).sum
          else s.rc f) ∧
        (∀ i t n p, i ∈ is → e i = some t → pts i = some n → s.pt t = some p →
          s'.pt t = some (fun j => (p j).map mark) ∧ s'.pt n = some (fun j => (p j).map mark)) ∧
        (∀ t, (∀ i, i ∈ is → e i ≠ some t ∧ ((e i).isSome = true → pts i ≠ some t)) →
          s'.pt t = s.pt t) := by
  induction is with
  | nil =>
    intro s _ _ _ _ _
    refine ⟨s, rfl, rfl, rfl, rfl, rfl, fun f => by simp, (fun i t n p hi => by cases hi),
      fun _ _ => rfl⟩
  | cons i is ih =>
    intro s hn he hpi hpe hs
    have hn' := List.nodup_cons.mp hn
    cases hi : e i with
    | none =>
      have hz : ∀ f, tcount s.pt e i f = 0 := by
        intro f; unfold tcount; rw [hi]
      obtain ⟨s', b0, b1, b2, b3, b4, b5, b6, b7⟩ := ih (s := s) hn'.2 he hpi hpe
        (fun k t hk => hs k t (List.mem_cons_of_mem _ hk))
      refine ⟨s', ?_, b1, b2, b3, b4, ?_, ?_, ?_⟩
      · rw [cloneCopy, hi]; exact b0
      · intro f
        rw [b5, List.map_cons, List.sum_cons, hz, Nat.zero_add]
      · intro k t n p hk hek
        rcases List.mem_cons.mp hk with q | q
        · rw [q, hi] at hek; cases hek
        · exact b6 k t n p q hek
      · intro t ht
        exact b7 t (fun k hk => ht k (List.mem_cons_of_mem _ hk))
    | some t =>
      obtain ⟨hst, hpt⟩ := hs i t (List.mem_cons_self ..) hi
      cases hp : s.pt t with
      | none => rw [hp] at hst; cases hst
      | some p =>
        cases hq : pts i with
        | none => rw [hq] at hpt; cases hpt
        | some n =>
          have hti : ∀ f, tcount s.pt e i f = (frames p).count f := by
            intro f; unfold tcount; rw [hi]; dsimp only; rw [hp]
          obtain ⟨f1, f2, f3, f4, f5, f6⟩ := foldl_rcInc (c := c) (frames p) s
          generalize hs1 : (frames p).foldl (rcInc c) s = s1 at f1 f2 f3 f4 f5 f6
          generalize hqq : (fun j => (p j).map mark : Table) = qt
          generalize hs2 : ({ s1 with pt := upd (upd s1.pt t (some qt)) n (some qt) } : St) = s2
          have p1 : s2.pt = upd (upd s.pt t (some qt)) n (some qt) := by rw [← hs2, ← f1]
          have p2 : s2.pd = s.pd := by rw [← hs2]; exact f2
          have p3 : s2.dirs = s.dirs := by rw [← hs2]; exact f3
          have p4 : s2.alloc = s.alloc := by rw [← hs2]; exact f4
          have p5 : s2.data = s.data := by rw [← hs2]; exact f5
          have p6 : s2.rc = s1.rc := by rw [← hs2]
          have hne1 : ∀ k, k ∈ is → ∀ t', e k = some t' → t' ≠ t ∧ t' ≠ n := by
            intro k hk t' ht'
            refine ⟨fun z => ?_, fun z => ?_⟩
            · subst z
              have := he k i t' ht' hi
              exact hn'.1 (this ▸ hk)
            · subst z
              exact hpe i k t' hq ht'
          have hne2 : ∀ k, k ∈ is → ∀ n', pts k = some n' → n' ≠ t ∧ n' ≠ n := by
            intro k hk n' hn2
            refine ⟨fun z => ?_, fun z => ?_⟩
            · subst z; exact hpe k i n' hn2 hi
            · subst z
              have := hpi k i n' hn2 hq
              exact hn'.1 (this ▸ hk)
          have hpt2 : ∀ k, k ∈ is → ∀ t', e k = some t' → s2.pt t' = s.pt t' := by
            intro k hk t' ht'
            rw [p1, upd_other (hne1 k hk t' ht').2, upd_other (hne1 k hk t' ht').1]
          have htc : ∀ f, (is.map fun k => tcount s2.pt e k f).sum =
              (is.map fun k => tcount s.pt e k f).sum := by
            intro f
            apply sum_congr
            intro k hk
            unfold tcount
            cases hk' : e k with
            | none => rfl
            | some t' => dsimp only; rw [hpt2 k hk t' hk']
          obtain ⟨s', b0, b1, b2, b3, b4, b5, b6, b7⟩ := ih (s := s2) hn'.2 he hpi hpe
            (by
              intro k t' hk ht'
              rw [hpt2 k hk t' ht']
              exact hs k t' (List.mem_cons_of_mem _ hk) ht')
          have htn : t ≠ n := fun z => hpe i i n hq (z ▸ hi)
          refine ⟨s', ?_, b1.trans p2, b2.trans p3, b3.trans p4, b4.trans p5, ?_, ?_, ?_⟩
          · rw [cloneCopy, hi]; dsimp only; rw [hp, hq]; dsimp only
            rw [hs1, hqq, hs2]
            exact b0
          · intro f
            rw [b5, p6, f6, htc, List.map_cons, List.sum_cons, hti]
            by_cases hl : f < c.lim
            · rw [if_pos hl, if_pos hl, if_pos hl]; omega
            · rw [if_neg hl, if_neg hl, if_neg hl]
          · intro k t' n' p' hk hek hpk hpp
            rcases List.mem_cons.mp hk with z | z
            · subst z
              rw [hi] at hek; cases hek
              rw [hq] at hpk; cases hpk
              rw [hp] at hpp; cases hpp
              rw [hqq]
              constructor
              · rw [b7 t, p1, upd_other htn, upd_same]
                intro k' hk'
                refine ⟨fun z => (hne1 k' hk' t z).1 rfl, fun _ z => (hne2 k' hk' t z).1 rfl⟩
              · rw [b7 n, p1, upd_same]
                intro k' hk'
                refine ⟨fun z => (hne1 k' hk' n z).2 rfl, fun _ z => (hne2 k' hk' n z).2 rfl⟩
            · exact b6 k t' n' p' z hek hpk (by rw [hpt2 k z t' hek]; exact hpp)
          · intro t' ht'
            rw [b7 t' (fun k hk => ht' k (List.mem_cons_of_mem _ hk)), p1]
            have := ht' i (List.mem_cons_self ..)
            rw [upd_other, upd_other]
            · intro z; subst z; exact this.1 hi
            · intro z; subst z; exact this.2 (by rw [hi]; rfl) hq

theorem mark_frame (x : Pte) : (mark x).frame = x.frame := by
  unfold mark; split <;> rfl

theorem mark_shared (x : Pte) : (mark x).shared = x.shared := by
  unfold mark; split <;> rfl

theorem hits_mark (x : Option Pte) (f : Nat) : hits (x.map mark) f = hits x f := by
  cases x with
  | none => rfl
  | some x => simp [hits, mark_frame]

theorem cntD_pos {c : Cfg} {s : St} {d f : Nat} (h : 0 < cntD c s d f) :
    ∃ i j x, j < 1024 ∧ lookIJ s d i j = some x ∧ x.frame = f := by
  have h1 : ∀ (l : List Nat) (g : Nat → Nat), 0 < (l.map g).sum → ∃ a, a ∈ l ∧ 0 < g a := by
    intro l g
    induction l with
    | nil => intro h; simp at h
    | cons a l ih =>
      intro h
      rw [List.map_cons, List.sum_cons] at h
      by_cases q : 0 < g a
      · exact ⟨a, List.mem_cons_self .., q⟩
      · obtain ⟨b, hb, hg⟩ := ih (by omega)
        exact ⟨b, List.mem_cons_of_mem _ hb, hg⟩
  obtain ⟨i, _, hi⟩ := h1 _ _ h
  obtain ⟨j, hj, hh⟩ := List.countP_pos_iff.mp hi
  cases hx : lookIJ s d i j with
  | none => rw [hx] at hh; cases hh
  | some x =>
    rw [hx] at hh
    exact ⟨i, j, x, List.mem_range.mp hj, hx, by simpa [hits] using hh⟩

theorem fork_inv {c : Cfg} {s : St} {m : Mem} (h : Inv c s m) {d : Nat} {n : Option Nat}
    {pts : Nat → Option Nat} (hok : Ok c s m (.fork d n pts))
    (hav : ¬ Avoid c s (.fork d n pts)) :
    ∃ s' ev, fork c s d n pts = some (s', ev) ∧
      ((ev = .ok ∧ n.isSome = true ∧ Inv c s' (m.step (.fork d n pts) .ok)) ∨
       (ev = .enomem ∧ s' = s)) := by
  obtain ⟨hd, hn, hpf, hpi⟩ := hok
  cases he : s.pd d with
  | none => rw [he] at hd; cases hd
  | some e =>
    cases n with
    | none =>
      refine ⟨s, .enomem, ?_, Or.inr ⟨rfl, rfl⟩⟩
      unfold fork; rw [he]
    | some n =>
      have hnn := hn n rfl
      have hdn : d ≠ n := fun q => by rw [q, hnn] at he; cases he
      cases hca : cloneAlloc s e pts (List.range c.nd) [] with
      | mk s1 b =>
      cases b with
      | false =>
        obtain ⟨j, a1, a2, a3, a4, a5⟩ :=
          cloneAlloc_fail (List.range c.nd) List.pairwise_lt_range hca
        have hj := List.mem_range.mp a1
        have hno : ∀ i, i ∈ List.range c.nd → i < j → e i = none := by
          intro i hi hlt
          cases hei : e i with
          | none => rfl
          | some t =>
            exfalso
            apply hav
            refine ⟨e, he, j, hj, a2, a3, ⟨i, hlt, by rw [hei]; rfl⟩, ?_⟩
            intro k hk
            exact a4 k (List.mem_range.mpr (by omega)) hk
        refine ⟨s1, .enomem, ?_, Or.inr ⟨rfl, a5 hno rfl⟩⟩
        unfold fork; rw [he]; dsimp only; rw [hca]
      | true =>
        obtain ⟨a1, a2, a3, a4, a5, a6, a7⟩ := cloneAlloc_ok (List.range c.nd) hca
          (fun i t hi _ _ => hpf i t hi) hpi List.nodup_range
        have hlive : ∀ d' e' i t, s.pd d' = some e' → e' i = some t → (s.pt t).isSome = true :=
          fun d' e' i t x y => (h.own d' e' i t x y).2
        have hpe : ∀ i d' e' j t, pts i = some t → s.pd d' = some e' → e' j ≠ some t := by
          intro i d' e' j t x y z
          have := hlive d' e' j t y z
          rw [hpf i t x] at this; cases this
        have hpts : ∀ i, (e i).isSome = true → (pts i).isSome = true := by
          intro i hi
          cases hei : e i with
          | none => rw [hei] at hi; cases hi
          | some t => exact a7 i (List.mem_range.mpr (h.own d e i t he hei).1) hi
        obtain ⟨s2, b0, b1, b2, b3, b4, b5, b6, b7⟩ := cloneCopy_spec (c := c) (List.range c.nd)
          (s := s1) List.nodup_range
          (fun i j t x y => (h.inj d e i d e j t he he x y).2) hpi
          (fun i j t x => hpe i d e j t x he)
          (by
            intro i t _ hi
            refine ⟨?_, hpts i (by rw [hi]; rfl)⟩
            rw [a6 t (hlive d e i t he hi)]
            exact hlive d e i t he hi)
        have htc : ∀ i f, tcount s1.pt e i f = tcount s.pt e i f := by
          intro i f
          unfold tcount
          cases hi : e i with
          | none => rfl
          | some t => dsimp only; rw [a6 t (hlive d e i t he hi)]
        have hsum : ∀ f, ((List.range c.nd).map fun i => tcount s1.pt e i f).sum = cntD c s d f := by
          intro f
          rw [cntD_tcount he f]
          exact sum_congr (fun i _ => htc i f)
        have hun : fork c s d (some n) pts = some ({ s2 with
                  pd := upd s2.pd n (some fun i => if (e i).isSome then pts i else none)
                  dirs := n :: s2.dirs }, .ok) := by
          unfold fork; rw [he]; dsimp only; rw [hca]; dsimp only; rw [b0]
        refine ⟨_, .ok, hun, Or.inl ⟨rfl, rfl, ?_⟩⟩
        generalize hen : (fun i => if (e i).isSome then pts i else none) = en
        generalize hs3 : ({ s2 with pd := upd s2.pd n (some en), dirs := n :: s2.dirs } : St) = s3
        have p1 : s3.pt = s2.pt := by rw [← hs3]
        have p2 : s3.pd = upd s.pd n (some en) := by rw [← hs3, ← a1, ← b1]
        have p3 : s3.dirs = n :: s.dirs := by rw [← hs3, ← a2, ← b2]
        have p4 : s3.alloc = s.alloc := by rw [← hs3]; exact b3.trans a4
        have p5 : s3.data = s.data := by rw [← hs3]; exact b4.trans a5
        have p6 : ∀ f, s3.rc f = if f < c.lim then s.rc f + cntD c s d f else s.rc f := by
          intro f
          rw [← hs3]
          show s2.rc f = _
          rw [b5, a3, hsum]
        have hen1 : ∀ i t, en i = some t → (e i).isSome = true ∧ pts i = some t := by
          intro i t hi
          rw [← hen] at hi
          dsimp only at hi
          split at hi
          · rename_i k; exact ⟨k, hi⟩
          · cases hi
        have hen2 : ∀ i, (e i).isSome = true → en i = pts i := by
          intro i hi
          rw [← hen]; dsimp only; rw [if_pos hi]
        have hen3 : ∀ i, e i = none → en i = none := by
          intro i hi
          rw [← hen]; dsimp only; rw [hi]; rfl
        have hnd : n ∉ s.dirs := by
          intro k
          have := (h.dirs n).mp k
          rw [hnn] at this; cases this
        -- tables of the parent and of the child
        have htab : ∀ i t p, e i = some t → s.pt t = some p →
            s3.pt t = some (fun j => (p j).map mark) ∧
            ∃ k, pts i = some k ∧ s3.pt k = some (fun j => (p j).map mark) := by
          intro i t p hi hp
          have hq := hpts i (by rw [hi]; rfl)
          cases hk : pts i with
          | none => rw [hk] at hq; cases hq
          | some k =>
            have := b6 i t k p (List.mem_range.mpr (h.own d e i t he hi).1) hi hk
              (by rw [a6 t (hlive d e i t he hi)]; exact hp)
            rw [p1]
            exact ⟨this.1, k, rfl, this.2⟩
        -- tables of the other directories
        have hoth : ∀ d' e' i t, d' ≠ d → s.pd d' = some e' → e' i = some t → s3.pt t = s.pt t := by
          intro d' e' i t hne x y
          rw [p1, b7 t, a6 t (hlive d' e' i t x y)]
          intro k _
          refine ⟨fun z => hne (h.inj d' e' i d e k t x he y z).1, fun _ z => hpe k d' e' i t z x y⟩
        have hlk : ∀ d' i j, lookIJ s3 d' i j =
            if d' = n ∨ d' = d then (lookIJ s d i j).map mark else lookIJ s d' i j := by
          intro d' i j
          by_cases q : d' = n
          · rw [if_pos (Or.inl q), q]
            cases hi : e i with
            | none =>
              unfold lookIJ
              rw [p2, upd_same, he]
              dsimp only
              rw [hen3 i hi, hi]; rfl
            | some t =>
              have hst := hlive d e i t he hi
              cases hp : s.pt t with
              | none => rw [hp] at hst; cases hst
              | some p =>
                obtain ⟨-, k, k1, k2⟩ := htab i t p hi hp
                rw [look_eq he hi hp, look_eq (s := s3) (by rw [p2]; exact upd_same)
                  (by rw [hen2 i (by rw [hi]; rfl)]; exact k1) k2]
          · by_cases q2 : d' = d
            · rw [if_pos (Or.inr q2), q2]
              have hpd : s3.pd d = some e := by rw [p2, upd_other hdn]; exact he
              cases hi : e i with
              | none =>
                unfold lookIJ
                rw [hpd, he]
                dsimp only
                rw [hi]; rfl
              | some t =>
                have hst := hlive d e i t he hi
                cases hp : s.pt t with
                | none => rw [hp] at hst; cases hst
                | some p =>
                  rw [look_eq he hi hp, look_eq (s := s3) hpd hi (htab i t p hi hp).1]
            · rw [if_neg (fun z => z.elim q q2)]
              unfold lookIJ
              rw [p2, upd_other q]
              cases hx : s.pd d' with
              | none => rfl
              | some e' =>
                dsimp only
                cases hy : e' i with
                | none => rfl
                | some t =>
                  dsimp only
                  rw [hoth d' e' i t q2 hx hy]
        have hlv : ∀ d' v, look s3 d' v =
            if d' = n ∨ d' = d then (look s d v).map mark else look s d' v := fun d' v => hlk d' _ _
        have hcd : ∀ f, cntD c s3 n f = cntD c s d f := by
          intro f
          have e1 : ∀ i j, hits (lookIJ s3 n i j) f = hits (lookIJ s d i j) f := by
            intro i j; rw [hlk, if_pos (Or.inl rfl), hits_mark]
          unfold cntD
          have : (fun i => (List.range 1024).countP fun j => hits (lookIJ s3 n i j) f) =
              fun i => (List.range 1024).countP fun j => hits (lookIJ s d i j) f := by
            funext i
            have : (fun j => hits (lookIJ s3 n i j) f) = fun j => hits (lookIJ s d i j) f := by
              funext j; rw [e1]
            rw [this]
          rw [this]
        have hmp : ∀ f, mappings c s3 f = cntD c s d f + mappings c s f := by
          intro f
          unfold mappings
          rw [p3, List.map_cons, List.sum_cons, hcd]
          refine congrArg (cntD c s d f + ·) (sum_congr ?_)
          intro k hk
          apply cntD_congr
          intro i j
          rw [hlk]
          by_cases q : k = n ∨ k = d
          · rw [if_pos q, hits_mark]
            rcases q with q | q
            · exact absurd (q ▸ hk) hnd
            · rw [q]
          · rw [if_neg q]
        refine ⟨⟨?_, ?_, ?_, ?_⟩, ?_, ?_, h.obj, ?_, ?_, ?_, ?_, ?_, ?_⟩
        · rw [p3]; exact List.nodup_cons.mpr ⟨hnd, h.nodup⟩
        · intro k
          rw [p3, p2, List.mem_cons]
          by_cases q : k = n
          · rw [q, upd_same]; exact ⟨fun _ => rfl, fun _ => Or.inl rfl⟩
          · rw [upd_other q, ← h.dirs k]
            exact ⟨fun z => z.resolve_left q, Or.inr⟩
        · intro d' e' i t x y
          rw [p2] at x
          by_cases q : d' = n
          · rw [q, upd_same] at x
            cases x
            obtain ⟨y1, y2⟩ := hen1 i t y
            cases hi : e i with
            | none => rw [hi] at y1; cases y1
            | some t' =>
              have hst := hlive d e i t' he hi
              cases hp : s.pt t' with
              | none => rw [hp] at hst; cases hst
              | some p =>
                obtain ⟨-, k, k1, k2⟩ := htab i t' p hi hp
                rw [y2] at k1; cases k1
                exact ⟨(h.own d e i t' he hi).1, by rw [k2]; rfl⟩
          · rw [upd_other q] at x
            refine ⟨(h.own d' e' i t x y).1, ?_⟩
            by_cases q2 : d' = d
            · subst q2
              rw [he] at x; cases x
              have hst := hlive d' e i t he y
              cases hp : s.pt t with
              | none => rw [hp] at hst; cases hst
              | some p => rw [(htab i t p y hp).1]; rfl
            · rw [hoth d' e' i t q2 x y]; exact hlive d' e' i t x y
        · intro d1 e1 i1 d2 e2 i2 t x1 x2 y1 y2
          rw [p2] at x1 x2
          by_cases q1 : d1 = n
          · rw [q1, upd_same] at x1; cases x1
            obtain ⟨z1, z2⟩ := hen1 i1 t y1
            by_cases q2 : d2 = n
            · rw [q2, upd_same] at x2; cases x2
              obtain ⟨w1, w2⟩ := hen1 i2 t y2
              exact ⟨by rw [q1, q2], hpi i1 i2 t z2 w2⟩
            · rw [upd_other q2] at x2
              exact absurd y2 (hpe i1 d2 e2 i2 t z2 x2)
          · rw [upd_other q1] at x1
            by_cases q2 : d2 = n
            · rw [q2, upd_same] at x2; cases x2
              obtain ⟨w1, w2⟩ := hen1 i2 t y2
              exact absurd y1 (hpe i2 d1 e1 i1 t w2 x1)
            · rw [upd_other q2] at x2
              exact h.inj d1 e1 i1 d2 e2 i2 t x1 x2 y1 y2
        · intro f hf
          rw [p6, if_pos hf, hmp, h.rc f hf]
          show _ = _ + held c m f
          omega
        · intro f
          rw [p4, h.alloc, p6]
          by_cases hl : f < c.lim
          · rw [if_pos hl]
            constructor
            · intro ⟨u1, u2, u3⟩; exact ⟨u1, u2, by omega⟩
            · intro ⟨u1, u2, u3⟩
              refine ⟨u1, u2, ?_⟩
              have h1 := h.rc f hl
              have h2 : cntD c s d f ≤ mappings c s f :=
                sum_mem_le (g := fun d => cntD c s d f) ((h.dirs d).mpr hd)
              omega
          · rw [if_neg hl]
        · intro d' v x hx hs
          rw [hlv] at hx
          split at hx
          · cases hy : look s d v with
            | none => rw [hy] at hx; cases hx
            | some y =>
              rw [hy] at hx
              have hxy : mark y = x := by simpa using hx
              rw [← hxy, mark_shared] at hs
              have := h.shr d v y hy hs
              rw [← hxy]
              unfold mark
              rw [if_pos hs]; exact this
          · exact h.shr d' v x hx hs
        · intro d' v x hx hs
          rw [hlv] at hx
          split at hx
          · cases hy : look s d v with
            | none => rw [hy] at hx; cases hx
            | some y =>
              rw [hy] at hx
              have hxy : mark y = x := by simpa using hx
              rw [← hxy, mark_shared] at hs
              obtain ⟨u1, u2, u3⟩ := h.prv d v y hy hs
              rw [← hxy, mark_frame]
              refine ⟨u1, u2, fun hr => ?_⟩
              unfold mark at hr
              rw [if_neg (by rw [hs]; decide)] at hr
              cases hr
          · rename_i hne
            obtain ⟨u1, u2, u3⟩ := h.prv d' v x hx hs
            refine ⟨u1, u2, fun hr => ?_⟩
            obtain ⟨u4, u5, u6⟩ := u3 hr
            refine ⟨u4, u5, ?_⟩
            rw [p6, if_pos u1]
            have : cntD c s d x.frame = 0 := by
              rcases Nat.eq_zero_or_pos (cntD c s d x.frame) with k | k
              · exact k
              · obtain ⟨i, j, y, hj, hy, hyf⟩ := cntD_pos k
                have hv : look s d (i * 1024 + j) = some y := by
                  unfold look
                  have e1 : (i * 1024 + j) / 1024 = i := by omega
                  have e2 : (i * 1024 + j) % 1024 = j := by omega
                  rw [e1, e2, hy]
                have := h.alone hx hv hyf u1 u6
                exact absurd (Or.inr this.1.symm) hne
            omega
        · rw [p5]; exact h.zero
        · intro k
          show upd m.live n true k = _
          rw [p2]
          by_cases q : k = n
          · rw [q, upd_same, upd_same]; rfl
          · rw [upd_other q, upd_other q]; exact h.live k
        · intro d' v
          show upd m.page n (m.page d) d' v = _
          have hvm : ∀ y, view s3 (mark y) = view s y := by
            intro y
            unfold view
            rw [mark_shared, mark_frame, p5]
            unfold mark
            cases y.shared with
            | true => rfl
            | false =>
              show Page.priv _ (false || (y.cow || y.rw)) = Page.priv _ (y.rw || y.cow)
              rw [Bool.false_or, Bool.or_comm]
          rw [hlv]
          by_cases q : d' = n
          · rw [q, upd_same, if_pos (Or.inl rfl), h.page, Option.map_map]
            congr 1
            funext y
            exact (hvm y).symm
          · rw [upd_other q]
            by_cases q2 : d' = d
            · rw [q2, if_pos (Or.inr rfl), h.page, Option.map_map]
              congr 1
              funext y
              exact (hvm y).symm
            · rw [if_neg (fun z => z.elim q q2), h.page]
              congr 1
              funext y
              exact (view_congr (fun _ => by rw [p5])).symm
        · intro f hf; rw [p5]; exact h.objd f hf

/-! ## All operations -/

theorem boot_inv (c : Cfg) (junk : Nat → Nat → Nat) : Inv c (boot c junk) (Mem.boot c junk) := by
  have hz : ∀ l : List Nat, (l.map fun _ => 0).sum = 0 := by
    intro l; induction l with
    | nil => rfl
    | cons a l ih => rw [List.map_cons, List.sum_cons, ih]
  refine ⟨⟨List.nodup_nil, ?_, ?_, ?_⟩, ?_, ?_, ?_, ?_, ?_, upd_same, ?_, ?_, ?_⟩
  · intro d; exact ⟨(fun h => by cases h), (fun h => by cases h)⟩
  · intro d e i t h; cases h
  · intro d e i d' e' i' t h; cases h
  · intro f _
    show upd (fun _ => 0) c.zero 1 f = 0 + (if false = true ∨ f = c.zero then 1 else 0)
    by_cases q : f = c.zero
    · rw [q, upd_same]; simp
    · rw [upd_other q]; simp [q]
  · intro f
    show false = true ↔ f < c.lim ∧ f ≠ c.zero ∧ 0 < upd (fun _ => 0) c.zero 1 f
    constructor
    · intro h; cases h
    · intro ⟨_, h2, h3⟩
      rw [upd_other h2] at h3; omega
  · intro f h; cases h
  · intro d v x h; cases h
  · intro d v x h; cases h
  · intro d; rfl
  · intro d v; rfl
  · intro f _; rfl

theorem step_inv {c : Cfg} {s : St} {m : Mem} (h : Inv c s m) {op : Op} (hok : Ok c s m op)
    (hav : ¬ Avoid c s op) :
    ∃ s' ev, step c s op = some (s', ev) ∧ Inv c s' (m.step op ev) := by
  cases op with
  | new n =>
    cases n with
    | none => exact ⟨s, _, rfl, h⟩
    | some n => exact ⟨_, _, rfl, new_inv h (hok n rfl)⟩
  | mapNew d v rw bytes pg nt =>
    obtain ⟨s', ev, k1, k2 | k2⟩ := mapNew_inv (rw := rw) (bytes := bytes) h hok.1 hok.2.1 hok.2.2.1
      hok.2.2.2
    · obtain ⟨rfl, -, k3⟩ := k2
      exact ⟨s', _, k1, k3⟩
    · obtain ⟨k3, k4⟩ := k2
      refine ⟨s', ev, k1, ?_⟩
      rcases k3 with rfl | rfl <;> exact k4
  | mapZero d v rw nt =>
    obtain ⟨s', ev, k1, k2 | k2⟩ := map_inv (x := ⟨c.zero, false, rw, false⟩) h hok.1 hok.2.1
      hok.2.2 (Or.inr ⟨rfl, rfl, rfl⟩)
    · obtain ⟨rfl, -, k3⟩ := k2
      refine ⟨s', _, k1, ?_⟩
      have : view s ⟨c.zero, false, rw, false⟩ = .priv (fun _ => 0) rw := by
        show Page.priv (s.data c.zero) (false || rw) = _
        rw [h.zero, Bool.false_or]
      rw [this] at k3
      exact k3
    · obtain ⟨k3, k4⟩ := k2
      refine ⟨s', ev, k1, ?_⟩
      rw [k4]
      rcases k3 with rfl | rfl <;> exact h
  | mapShared d v f rw nt =>
    obtain ⟨s', ev, k1, k2 | k2⟩ := map_inv (x := ⟨f, rw, false, true⟩) h hok.1 hok.2.1
      hok.2.2.2 (Or.inl ⟨rfl, rfl, hok.2.2.1⟩)
    · obtain ⟨rfl, -, k3⟩ := k2
      exact ⟨s', _, k1, k3⟩
    · obtain ⟨k3, k4⟩ := k2
      refine ⟨s', ev, k1, ?_⟩
      rw [k4]
      rcases k3 with rfl | rfl <;> exact h
  | holeFault d v nt => exact absurd trivial hav
  | setRo d v =>
    obtain ⟨s', k1, k2⟩ := setRo_inv h hok
    exact ⟨s', _, k1, k2⟩
  | unmap d v free =>
    obtain ⟨s', ev, k1, k2, -⟩ := unmap_inv h hok.1 hok.2
    exact ⟨s', ev, k1, k2⟩
  | store d v off b pg =>
    obtain ⟨s', ev, k1, k2, -⟩ := store_inv (d := d) (v := v) (off := off) (b := b) h hok.2
    refine ⟨s', ev, ?_, k2⟩
    show (if walkBad s d v = true then none else store c s d v off b pg) = _
    rw [walk_ok h.toTab hok.1, if_neg (by decide)]; exact k1
  | load d v off =>
    refine ⟨s, load s d v off, ?_, h⟩
    show (if walkBad s d v = true then none else some (s, load s d v off)) = _
    rw [walk_ok h.toTab hok, if_neg (by decide)]
  | fork d n pts =>
    obtain ⟨s', ev, k1, k2 | k2⟩ := fork_inv h hok hav
    · obtain ⟨rfl, -, k3⟩ := k2
      exact ⟨s', _, k1, k3⟩
    · obtain ⟨rfl, rfl⟩ := k2
      refine ⟨s', _, k1, ?_⟩
      cases n <;> exact h
  | destroy d =>
    obtain ⟨s', k1, k2⟩ := destroy_inv h hok (by
      intro v x hx
      by_cases q : x.frame < c.lim
      · exact q
      · exact absurd ⟨v, x, hx, by omega⟩ hav)
    exact ⟨s', _, k1, k2⟩
  | newObj f => exact ⟨_, _, rfl, newObj_inv h hok⟩
  | freeObj f =>
    obtain ⟨s', k1, k2⟩ := freeObj_inv h hok.1 hok.2
    exact ⟨s', _, k1, k2⟩
  | objWrite f off b => exact ⟨_, _, rfl, objWrite_inv h hok⟩

theorem run_inv {c : Cfg} {s : St} {m : Mem} (h : Run c s m) : Inv c s m := by
  induction h with
  | boot junk => exact boot_inv c junk
  | step _ hok hav hs ih =>
    obtain ⟨s', ev, k1, k2⟩ := step_inv ih hok hav
    rw [k1] at hs
    cases hs
    exact k2

/-! ## Theorems -/

/-- C39: what a process reads is what the specification says: its own pages with its own writes,
the shared objects with everybody's; a write succeeds exactly on the pages the process may write
(or fails for lack of memory and changes nothing). -/
theorem process_memory_partial {c : Cfg} {s : St} {m : Mem} (h : Run c s m) {d : Nat}
    (hd : m.live d = true) :
    (∀ v off, step c s (.load d v off) = some (s, m.read d v off)) ∧
    (∀ v off b pg, Ok c s m (.store d v off b pg) →
      ∃ s' ev, step c s (.store d v off b pg) = some (s', ev) ∧
        ((ev = .ok ∧ m.writable d v = true ∧ Run c s' (m.write d v off b)) ∨
         (ev = .fault ∧ m.writable d v = false ∧ Run c s' m) ∨
         (ev = .enomem ∧ pg = none ∧ m.writable d v = true ∧ Run c s' m))) := by
  have hi := run_inv h
  have hd' : (s.pd d).isSome = true := by rw [← hi.live]; exact hd
  refine ⟨fun v off => ?_, fun v off b pg hok => ?_⟩
  · show (if walkBad s d v = true then none else some (s, load s d v off)) = _
    rw [walk_ok hi.toTab hd', if_neg (by decide), load_read hi]
  · obtain ⟨s', ev, k1, k2, k3⟩ := store_inv (d := d) (v := v) (off := off) (b := b) hi hok.2
    have hs : step c s (.store d v off b pg) = some (s', ev) := by
      show (if walkBad s d v = true then none else store c s d v off b pg) = _
      rw [walk_ok hi.toTab hd', if_neg (by decide)]; exact k1
    have hr := Run.step h hok (fun k => k) hs
    refine ⟨s', ev, hs, ?_⟩
    rcases k3 with ⟨rfl, k⟩ | ⟨rfl, k⟩ | ⟨rfl, k, k', -⟩
    · exact Or.inl ⟨rfl, k, hr⟩
    · exact Or.inr (Or.inl ⟨rfl, k, hr⟩)
    · exact Or.inr (Or.inr ⟨rfl, k', k, hr⟩)

/-- C39: a write to a private page changes that byte of that page of that process and nothing
else any process can read. -/
theorem private_write_partial {c : Cfg} {s s' : St} {m : Mem} (h : Run c s m)
    {d v off b : Nat} {pg : Option Nat} {bytes : Nat → Nat} {w : Bool}
    (hok : Ok c s m (.store d v off b pg)) (hp : m.page d v = some (.priv bytes w))
    (hs : step c s (.store d v off b pg) = some (s', .ok)) :
    load s' d v off = .byte b ∧
    ∀ d' v' off', ¬ (d' = d ∧ v' = v ∧ off' = off) → load s' d' v' off' = load s d' v' off' := by
  have hi := run_inv h
  have hr := run_inv (Run.step h hok (fun k => k) hs)
  have hw : m.step (.store d v off b pg) .ok =
      m.setPage d v (some (.priv (upd bytes off b) w)) := by
    show m.write d v off b = _
    unfold Mem.write; rw [hp]
  rw [hw] at hr
  refine ⟨?_, fun d' v' off' hne => ?_⟩
  · rw [load_read hr]
    unfold Mem.read Mem.setPage
    dsimp only
    rw [upd_same, upd_same]
    dsimp only
    rw [upd_same]
  · rw [load_read hr, load_read hi]
    unfold Mem.read Mem.setPage
    dsimp only
    by_cases e1 : d' = d
    · subst e1
      rw [upd_same]
      by_cases e2 : v' = v
      · subst e2
        rw [upd_same, hp]
        dsimp only
        rw [upd_other (fun k => hne ⟨rfl, rfl, k⟩)]
      · rw [upd_other e2]
    · rw [upd_other e1]

/-- C39: a write to a shared page is seen by every process that maps the object, and by nobody
through a private page. -/
theorem shared_write_partial {c : Cfg} {s s' : St} {m : Mem} (h : Run c s m)
    {d v off b o : Nat} {pg : Option Nat} {w : Bool}
    (hok : Ok c s m (.store d v off b pg)) (hp : m.page d v = some (.shr o w))
    (hs : step c s (.store d v off b pg) = some (s', .ok)) :
    (∀ d' v' w', m.page d' v' = some (.shr o w') → load s' d' v' off = .byte b) ∧
    (∀ d' v' off', ((∀ w', m.page d' v' ≠ some (.shr o w')) ∨ off' ≠ off) →
      load s' d' v' off' = load s d' v' off') := by
  have hi := run_inv h
  have hr := run_inv (Run.step h hok (fun k => k) hs)
  have hw : m.step (.store d v off b pg) .ok =
      { m with obj := upd m.obj o (upd (m.obj o) off b) } := by
    show m.write d v off b = _
    unfold Mem.write; rw [hp]
  rw [hw] at hr
  refine ⟨fun d' v' w' hq => ?_, fun d' v' off' hne => ?_⟩
  · rw [load_read hr]
    unfold Mem.read
    dsimp only
    rw [hq]
    dsimp only
    rw [upd_same, upd_same]
  · rw [load_read hr, load_read hi]
    unfold Mem.read
    dsimp only
    cases hq : m.page d' v' with
    | none => rfl
    | some p =>
      cases p with
      | priv b' w' => rfl
      | shr o' w' =>
        dsimp only
        by_cases e : o' = o
        · subst e
          rcases hne with k | k
          · exact absurd hq (k w')
          · rw [upd_same, upd_other k]
        · rw [upd_other e]

/-- C39: after a fork parent and child read what the parent read before, and may write the same
pages; no other process notices. -/
theorem fork_partial {c : Cfg} {s s' : St} {m : Mem} (h : Run c s m) {d n : Nat}
    {pts : Nat → Option Nat} (hok : Ok c s m (.fork d (some n) pts))
    (hav : ¬ Avoid c s (.fork d (some n) pts))
    (hs : step c s (.fork d (some n) pts) = some (s', .ok)) :
    (∀ v off, load s' n v off = load s d v off) ∧
    (∀ d' v off, d' ≠ n → load s' d' v off = load s d' v off) ∧
    Run c s' { m with live := upd m.live n true, page := upd m.page n (m.page d) } := by
  have hi := run_inv h
  have hrun := Run.step h hok hav hs
  have hr := run_inv hrun
  refine ⟨fun v off => ?_, fun d' v off hne => ?_, hrun⟩
  · rw [load_read hr, load_read hi]
    show (match upd m.page n (m.page d) n v with | none => _ | some (.priv b _) => _ | some (.shr o _) => _) = _
    rw [upd_same]; rfl
  · rw [load_read hr, load_read hi]
    show (match upd m.page n (m.page d) d' v with | none => _ | some (.priv b _) => _ | some (.shr o _) => _) = _
    rw [upd_other hne]; rfl

/-- C40: the reference count of every frame of RAM is the number of page-table entries that map it,
plus one for the zero page and for a block of the RAM file system; a frame is allocated exactly as
long as it is mapped or belongs to a file. -/
theorem frame_refcount_partial {c : Cfg} {s : St} {m : Mem} (h : Run c s m) (f : Nat)
    (hf : f < c.lim) :
    s.rc f = mappings c s f + (if m.isObj f = true ∨ f = c.zero then 1 else 0) ∧
    (f ≠ c.zero → (s.alloc f = true ↔ 0 < mappings c s f ∨ m.isObj f = true)) ∧
    s.alloc c.zero = false := by
  have hi := run_inv h
  refine ⟨hi.rc f hf, fun hz => ?_, ?_⟩
  · rw [hi.alloc, hi.rc f hf]
    unfold held
    constructor
    · intro ⟨_, _, k⟩
      by_cases q : m.isObj f = true
      · exact Or.inr q
      · rw [if_neg (fun z => z.elim q hz)] at k
        exact Or.inl (by omega)
    · intro k
      refine ⟨hf, hz, ?_⟩
      rcases k with k | k
      · omega
      · rw [if_pos (Or.inl k)]; omega
  · cases k : s.alloc c.zero with
    | false => rfl
    | true => exact absurd rfl ((hi.alloc _).mp k).2.1

/-- C40: no operation frees a frame that is not allocated, drops a reference that does not exist or
follows a directory entry to a page table that has been freed. -/
theorem frame_safety_partial {c : Cfg} {s : St} {m : Mem} (h : Run c s m) {op : Op}
    (hok : Ok c s m op) (hav : ¬ Avoid c s op) : step c s op ≠ none := by
  obtain ⟨s', ev, k, -⟩ := step_inv (run_inv h) hok hav
  rw [k]; simp

/-- C40: the frame behind a private page stays allocated while any process maps it, and is freed by
the unmap that removes the last mapping. -/
theorem unmap_frees_partial {c : Cfg} {s s' : St} {m : Mem} (h : Run c s m) {d v : Nat} {x : Pte}
    (hx : look s d v = some x) (hs : x.shared = false) (hz : x.frame ≠ c.zero)
    (hst : step c s (.unmap d v true) = some (s', .ok)) :
    look s' d v = none ∧ (s'.alloc x.frame = true ↔ 2 ≤ mappings c s x.frame) := by
  have hi := run_inv h
  have hm := hi.toTab.mem hx
  have hok : Ok c s m (.unmap d v true) := by
    refine ⟨(hi.dirs d).mp hm.1, fun y hy => ?_⟩
    rw [hx] at hy; cases hy
    rw [hs]; rfl
  have hr := Run.step h hok (fun k => k) hst
  have hi' := run_inv hr
  obtain ⟨b1, b2, -⟩ := hi.prv d v x hx hs
  have hpg : (m.step (.unmap d v true) .ok).page d v = none := by
    show upd m.page d (upd (m.page d) v none) d v = none
    rw [upd_same, upd_same]
  have hl : look s' d v = none := by
    have := hi'.page d v
    rw [hpg] at this
    cases hq : look s' d v with
    | none => rfl
    | some y => rw [hq] at this; cases this
  refine ⟨hl, ?_⟩
  have h1 := hi.rc _ b1
  have h2 := hi'.rc _ b1
  have hh : held c m x.frame = 0 := by
    unfold held
    rw [if_neg]
    rintro (k | k)
    · rw [b2] at k; cases k
    · exact hz k
  have hh' : held c (m.step (.unmap d v true) .ok) x.frame = 0 := hh
  -- the count goes down by one
  obtain ⟨e, t, p, e1, e2, e3, e4⟩ := look_some hx
  have hun : unmap c s d v true = some (s', .ok) := hst
  unfold unmap at hun
  rw [e1] at hun; dsimp only at hun
  rw [e2] at hun; dsimp only at hun
  rw [e3] at hun; dsimp only at hun
  rw [e4] at hun; dsimp only at hun
  have hpos := hi.rc_pos hx b1
  obtain ⟨s1, k, a1, a2, a3, a4, a5, a6⟩ := drop_spec (c := c)
    (s := { s with pt := upd s.pt t (some (upd p (v % 1024) none)) }) (f := x.frame) (free := true)
    (fun _ => hpos) (fun _ hr1 _ => (hi.alloc _).mpr ⟨b1, hz, hpos⟩) (fun q => by omega)
  rw [k] at hun
  dsimp only at hun
  cases hun
  have hrc := a5 x.frame
  rw [if_pos ⟨rfl, b1⟩] at hrc
  have hrc' : s'.rc x.frame = s.rc x.frame - 1 := hrc
  rw [hi'.alloc]
  constructor
  · intro ⟨_, _, q⟩; omega
  · intro q; exact ⟨b1, hz, by omega⟩

/-- C41: a fork that fails for lack of memory leaves everything as it was. -/
theorem failed_fork_partial {c : Cfg} {s s' : St} {m : Mem} (h : Run c s m) {d : Nat} {n : Option Nat}
    {pts : Nat → Option Nat} {ev : Ev} (hok : Ok c s m (.fork d n pts))
    (hav : ¬ Avoid c s (.fork d n pts))
    (hs : step c s (.fork d n pts) = some (s', ev)) (hev : ev ≠ .ok) :
    ev = .enomem ∧ s' = s := by
  obtain ⟨s1, ev1, k1, k2 | k2⟩ := fork_inv (run_inv h) hok hav
  · rw [show step c s (.fork d n pts) = fork c s d n pts from rfl, k1] at hs
    cases hs
    exact absurd k2.1 hev
  · rw [show step c s (.fork d n pts) = fork c s d n pts from rfl, k1] at hs
    cases hs
    exact k2

/-! ## Violations and examples -/

/-- Executions without the exclusion of the known defects. -/
inductive RunAny (c : Cfg) : St → Mem → Prop
  | boot (junk) : RunAny c (boot c junk) (Mem.boot c junk)
  | step {s m op s' ev} : RunAny c s m → Ok c s m op → step c s op = some (s', ev) →
      RunAny c s' (m.step op ev)

/-- The state after an operation. -/
def next (c : Cfg) (p : St × Mem) (op : Op) : St × Mem :=
  match step c p.1 op with
  | none => p
  | some (s', ev) => (s', p.2.step op ev)

theorem RunAny.next {c : Cfg} {p : St × Mem} {op : Op} (h : RunAny c p.1 p.2)
    (hok : Ok c p.1 p.2 op) (hs : (Paging.step c p.1 op).isSome = true) :
    RunAny c (Paging.next c p op).1 (Paging.next c p op).2 := by
  unfold Paging.next
  cases hq : Paging.step c p.1 op with
  | none => rw [hq] at hs; cases hs
  | some r => exact RunAny.step h hok hq

theorem Run.next {c : Cfg} {p : St × Mem} {op : Op} (h : Run c p.1 p.2)
    (hok : Ok c p.1 p.2 op) (hav : ¬ Avoid c p.1 op) (hs : (Paging.step c p.1 op).isSome = true) :
    Run c (Paging.next c p op).1 (Paging.next c p op).2 := by
  unfold Paging.next
  cases hq : Paging.step c p.1 op with
  | none => rw [hq] at hs; cases hs
  | some r => exact Run.step h hok hav hq

theorem isNone_eq {β : Type} {o : Option β} (h : o.isNone = true) : o = none := by
  cases o with
  | none => rfl
  | some x => cases h

theorem some_all {β : Type} {P : β → Prop} {x : β} (h : P x) : ∀ k, some x = some k → P k := by
  intro k hk; cases hk; exact h

theorem none_all {β : Type} {P : β → Prop} : ∀ k, (none : Option β) = some k → P k := by
  intro k hk; cases hk

/-- A small machine: 3 directory entries, 8 frames of RAM, frame 0 is the zero page. -/
def exC : Cfg := ⟨3, 8, 0, by decide⟩

def ex0 : St × Mem := (boot exC fun _ _ => 7, Mem.boot exC fun _ _ => 7)
/-- One process with two private pages, in different page tables. -/
def ex1 := next exC ex0 (.new (some 1))
def ex2 := next exC ex1 (.mapNew 1 5 true (fun _ => 65) (some 3) (some 10))
def ex3 := next exC ex2 (.mapNew 1 1030 true (fun _ => 66) (some 4) (some 11))

theorem ex1_run : Run exC ex1.1 ex1.2 :=
  Run.next (Run.boot _) (some_all rfl) (fun h => h) rfl

theorem ex2_run : Run exC ex2.1 ex2.2 :=
  Run.next ex1_run ⟨rfl, by decide, some_all ⟨by decide, by decide, rfl⟩, some_all rfl⟩
    (fun h => h) (by decide +kernel)

theorem ex3_run : Run exC ex3.1 ex3.2 :=
  Run.next ex2_run ⟨by decide +kernel, by decide,
    some_all ⟨by decide, by decide, by decide +kernel⟩, some_all (isNone_eq (by decide +kernel))⟩
    (fun h => h) (by decide +kernel)

theorem Run.any {c : Cfg} {s : St} {m : Mem} (h : Run c s m) : RunAny c s m := by
  induction h with
  | boot junk => exact RunAny.boot junk
  | step _ hok _ hs ih => exact RunAny.step ih hok hs

/-- The fork in which the second page-table allocation fails. -/
def exPts : Nat → Option Nat := fun i => if i = 0 then some 20 else none
def ex4 := next exC ex3 (.fork 1 (some 2) exPts)

theorem exPts_some {i t : Nat} (h : exPts i = some t) : i = 0 ∧ t = 20 := by
  unfold exPts at h
  split at h
  · cases h; exact ⟨by assumption, rfl⟩
  · cases h

theorem ex4_run : RunAny exC ex4.1 ex4.2 := by
  apply RunAny.next ex3_run.any
  · refine ⟨by decide +kernel, some_all (isNone_eq (by decide +kernel)), ?_, ?_⟩
    · intro i t h
      rw [(exPts_some h).2]
      exact isNone_eq (by decide +kernel)
    · intro i j t h1 h2
      rw [(exPts_some h1).1, (exPts_some h2).1]
  · decide +kernel

/-- C41 violated: when the allocation of the second page table fails, fork returns -ENOMEM but the
parent's first page table has been freed (and the one just allocated for the child has not): the
parent, which must still read 65 on its page 5, makes the MMU walk through freed memory. -/
theorem failed_fork_violated :
    ∃ (c : Cfg) (s : St) (m : Mem) (d v off : Nat), RunAny c s m ∧ m.live d = true ∧
      m.read d v off = .byte 65 ∧ step c s (.load d v off) = none := by
  exact ⟨exC, ex4.1, ex4.2, 1, 5, 0, ex4_run, by decide +kernel, by decide +kernel,
    isNone_eq (by decide +kernel)⟩

/-- Two processes; process 1 maps a file with a hole, reads it and writes it. -/
def hz1 := next exC ex1 (.new (some 2))
def hz2 := next exC hz1 (.mapZero 2 9 true (some 11))
def hz3 := next exC hz2 (.holeFault 1 5 (some 10))
def hz4 := next exC hz3 (.store 1 5 0 99 none)

theorem hz4_run : RunAny exC hz4.1 hz4.2 := by
  have h1 : RunAny exC hz1.1 hz1.2 := RunAny.next ex1_run.any (some_all rfl) rfl
  have h2 : RunAny exC hz2.1 hz2.2 :=
    RunAny.next h1 ⟨by decide +kernel, by decide, some_all (isNone_eq (by decide +kernel))⟩
      (by decide +kernel)
  have h3 : RunAny exC hz3.1 hz3.2 :=
    RunAny.next h2 ⟨by decide +kernel, by decide, some_all (isNone_eq (by decide +kernel))⟩
      (by decide +kernel)
  exact RunAny.next h3 ⟨by decide +kernel, none_all⟩ (by decide +kernel)

/-- C39 violated: a process that has read a hole of a mapped file and then writes to it writes to
the global zero page: the untouched anonymous memory of another process, which must read 0, reads
99. -/
theorem zero_page_violated :
    ∃ (c : Cfg) (s : St) (m : Mem) (d v off : Nat), RunAny c s m ∧ m.live d = true ∧
      m.page d v = some (.priv (fun _ => 0) true) ∧ load s d v off = .byte 99 := by
  exact ⟨exC, hz4.1, hz4.2, 2, 9, 0, hz4_run, by decide +kernel, rfl, by decide +kernel⟩

/-- A device (frame 100, above the end of RAM) mapped in process 1. -/
def dv1 := next exC ex1 (.mapShared 1 5 100 true (some 10))

theorem dv1_run : Run exC dv1.1 dv1.2 :=
  Run.next ex1_run ⟨rfl, by decide, Or.inr (by decide), some_all rfl⟩ (fun h => h)
    (by decide +kernel)

/-- C40 violated: destroying an address space in which a device is still mapped (fork fails after
`pdir_clone`, the clone is destroyed) hands the address of the device to `kfree`. -/
theorem destroy_device_violated :
    ∃ (c : Cfg) (s : St) (m : Mem) (d : Nat), RunAny c s m ∧ m.live d = true ∧
      step c s (.destroy d) = none :=
  ⟨exC, dv1.1, dv1.2, 1, dv1_run.any, by decide +kernel, isNone_eq (by decide +kernel)⟩

/-! A process forks; both write the same page. -/

def fkPts : Nat → Option Nat := fun i => if i = 0 then some 20 else if i = 1 then some 21 else none
def fk1 := next exC ex3 (.fork 1 (some 2) fkPts)
def fk2 := next exC fk1 (.store 2 5 0 90 (some 6))
def fk3 := next exC fk2 (.store 1 5 0 80 none)

theorem fkPts_some {i t : Nat} (h : fkPts i = some t) :
    (i = 0 ∧ t = 20) ∨ (i = 1 ∧ t = 21) := by
  unfold fkPts at h
  split at h
  · cases h; exact Or.inl ⟨by assumption, rfl⟩
  · split at h
    · cases h; exact Or.inr ⟨by assumption, rfl⟩
    · cases h

theorem fk1_ok : Ok exC ex3.1 ex3.2 (.fork 1 (some 2) fkPts) := by
  refine ⟨by decide +kernel, some_all (isNone_eq (by decide +kernel)), ?_, ?_⟩
  · intro i t h
    rcases fkPts_some h with ⟨-, q⟩ | ⟨-, q⟩ <;> rw [q] <;> exact isNone_eq (by decide +kernel)
  · intro i j t h1 h2
    rcases fkPts_some h1 with ⟨a, b⟩ | ⟨a, b⟩ <;> rcases fkPts_some h2 with ⟨a', b'⟩ | ⟨a', b'⟩ <;> omega

theorem fk1_avoid : ¬ Avoid exC ex3.1 (.fork 1 (some 2) fkPts) := by
  rintro ⟨e, he, j, h1, h2, h3, -⟩
  have h4 : j = 2 := by
    have : j < 3 := h1
    have : j ≠ 0 := by intro q; subst q; cases h3
    have : j ≠ 1 := by intro q; subst q; cases h3
    omega
  subst h4
  have : ((ex3.1.pd 1).bind fun e => e 2).isSome = false := by decide +kernel
  rw [he] at this
  rw [show (some e).bind (fun e => e 2) = e 2 from rfl, h2] at this
  cases this

theorem fk3_run : Run exC fk3.1 fk3.2 := by
  have h1 : Run exC fk1.1 fk1.2 := Run.next ex3_run fk1_ok fk1_avoid (by decide +kernel)
  have h2 : Run exC fk2.1 fk2.2 :=
    Run.next h1 ⟨by decide +kernel, some_all ⟨by decide, by decide, by decide +kernel⟩⟩ (fun h => h)
      (by decide +kernel)
  exact Run.next h2 ⟨by decide +kernel, none_all⟩ (fun h => h) (by decide +kernel)

/-- The theorems apply to it: each process reads its own byte; the second write needed no copy. -/
example : fk3.2.live 1 = true ∧ fk3.2.live 2 = true ∧
    fk3.2.read 1 5 0 = .byte 80 ∧ fk3.2.read 2 5 0 = .byte 90 ∧
    load fk3.1 1 5 0 = .byte 80 ∧ load fk3.1 2 5 0 = .byte 90 ∧ load fk3.1 2 5 1 = .byte 65 ∧
    fk3.1.rc 3 = 1 ∧ fk3.1.rc 4 = 2 ∧ mappings exC fk3.1 4 = 2 := by decide +kernel

/-- A shared block seen by two processes. -/
def sh1 := next exC hz1 (.newObj 5)
def sh2 := next exC sh1 (.mapShared 1 7 5 true (some 10))
def sh3 := next exC sh2 (.mapShared 2 8 5 false (some 11))
def sh4 := next exC sh3 (.store 1 7 3 44 none)

theorem sh3_run : Run exC sh3.1 sh3.2 := by
  have h0 : Run exC hz1.1 hz1.2 := Run.next ex1_run (some_all rfl) (fun h => h) rfl
  have h1 : Run exC sh1.1 sh1.2 :=
    Run.next h0 ⟨by decide, by decide, by decide +kernel⟩ (fun h => h) (by decide +kernel)
  have h2 : Run exC sh2.1 sh2.2 :=
    Run.next h1 ⟨by decide +kernel, by decide, Or.inl (by decide +kernel),
      some_all (isNone_eq (by decide +kernel))⟩ (fun h => h) (by decide +kernel)
  exact Run.next h2 ⟨by decide +kernel, by decide, Or.inl (by decide +kernel),
      some_all (isNone_eq (by decide +kernel))⟩ (fun h => h) (by decide +kernel)

example : sh3.2.page 1 7 = some (.shr 5 true) ∧ sh3.2.page 2 8 = some (.shr 5 false) := ⟨rfl, rfl⟩
example : load sh4.1 2 8 3 = .byte 44 ∧ sh4.1.rc 5 = 3 := by decide +kernel

end Verif.Paging
