/-!
# Memory mappings of ramfs files (kernel/fs/ramfs/mmap.c.h, rw_ops.c.h)

Properties C135-C137.

One file, mapped any number of times; the virtual pages of all processes are numbered by natural numbers.  The file is read and
written through handles, one byte at a time, while processes load and store bytes of the mapped pages.

Simplifications: no memory is ever short; file offsets fit in 32 bits; mappings are unmapped as a whole (see `Mmap` for parts);
`fork` and the reference counts of page frames (see `Paging`) are not modelled; a frame that was freed is not used again, so that
the list `freed` tells which frames may contain anything.
-/
namespace Verif.RamMmap

local notation "PG" => (4096 : Nat)

/-- `struct user_mapping` (include/tilck/kernel/process_mm.h): the first virtual page, the first page of the file, the number of
pages, `PROT_WRITE`, and the handle was opened for reading, for writing. -/
structure Map where
  vp : Nat
  off : Nat
  n : Nat
  prot : Bool
  rd : Bool
  wr : Bool
  deriving DecidableEq, Repr

/-- The inode (`fsize`, the tree of blocks by page of the file), the contents of page frames, the next unused frame, the frames
freed, the mappings, and the page tables: frame and writable.  Frame 0 is the global zero page of the kernel. -/
structure St where
  size : Nat
  blk : Nat → Option Nat
  data : Nat → Nat → Nat
  next : Nat
  freed : List Nat
  maps : List Map
  pte : Nat → Option (Nat × Bool)

/-- `process_get_user_mapping`. -/
def St.map? (s : St) (v : Nat) : Option Map := s.maps.find? (fun m => decide (m.vp ≤ v ∧ v < m.vp + m.n))

/-- blocks.c.h:5-26 `ramfs_new_block`. -/
def St.newFrame (s : St) : St := { s with data := fun f => if f = s.next then fun _ => 0 else s.data f, next := s.next + 1 }

/-- blocks.c.h:41-54 `ramfs_append_new_block`: an insertion in the tree that fails if there is already a block. -/
def St.append (s : St) (i f : Nat) : St :=
  match s.blk i with
  | some _ => s
  | none => { s with blk := fun j => if j = i then some f else s.blk j }

def St.poke (s : St) (f o b : Nat) : St :=
  { s with data := fun g => if g = f then fun p => if p = o then b else s.data g p else s.data g }

def St.setPte (s : St) (v f : Nat) (rw : Bool) : St := { s with pte := fun u => if u = v then some (f, rw) else s.pte u }

inductive Out
  /-- An assertion fails: a debug kernel stops. -/
  | stop
  /-- The process gets a signal, SIGSEGV or SIGBUS. -/
  | fault
  | ret (s : St) (b : Nat)

/-- A process loads the byte `o` of the virtual page `v`: kernel/arch/i386/paging.c:155-176 and mmap.c.h:78-131. -/
def load (s : St) (v o : Nat) : Out :=
  match s.pte v with
  | some (f, _) => .ret s (s.data f o)
  | none =>
    match s.map? v with
    | none => .fault
    | some m =>
      if s.size ≤ PG * (m.off + (v - m.vp)) + o then .fault
      else .ret (s.setPte v 0 true) (s.data 0 o)

/-- mmap.c.h:107-127, for a store to a page that is not present. -/
def fill (dbg : Bool) (s : St) (v i o b : Nat) : Out :=
  if dbg = true ∧ (s.blk i).isSome = true then .stop
  else .ret (((s.newFrame.append i s.next).setPte v s.next true).poke s.next o b) 0

/-- A process stores a byte. -/
def store (dbg : Bool) (s : St) (v o b : Nat) : Out :=
  match s.pte v with
  | some (f, true) => .ret (s.poke f o b) 0
  | some (_, false) => if dbg = true ∧ (s.map? v).any (·.prot) = true then .stop else .fault
  | none =>
    match s.map? v with
    | none => .fault
    | some m =>
      if m.prot = false then .fault
      else if s.size ≤ PG * (m.off + (v - m.vp)) + o then .fault
      else fill dbg s v (m.off + (v - m.vp)) o b

/-- rw_ops.c.h:253-299 `ramfs_read_nolock`, for one byte. -/
def read (s : St) (pos : Nat) : Option Nat :=
  if s.size ≤ pos then none
  else match s.blk (pos / PG) with
    | some f => some (s.data f (pos % PG))
    | none => some 0

def St.grow (s : St) (n : Nat) : St := { s with size := if s.size < n then n else s.size }

/-- rw_ops.c.h:315-371 `ramfs_write_nolock`, for one byte; the assertion is at 341. -/
def write (dbg : Bool) (s : St) (pos b : Nat) : Out :=
  match s.blk (pos / PG) with
  | some f => .ret ((s.poke f (pos % PG) b).grow (pos + 1)) 1
  | none =>
    if dbg = true ∧ pos % PG ≠ 0 then .stop
    else .ret (((s.newFrame.append (pos / PG) s.next).poke s.next (pos % PG) b).grow (pos + 1)) 1

/-- `pow2_round_up_at(len, PAGE_SIZE)` in pages. -/
def pages (len : Nat) : Nat := (len + PG - 1) / PG

/-- rw_ops.c.h:152-176 `ramfs_unmap_past_eof_mappings`: is the page `v` unmapped? -/
def pastEof (s : St) (len v : Nat) : Bool :=
  s.maps.any (fun m => decide (pages len < m.off + m.n ∧ m.vp + (if m.off ≤ pages len then pages len - m.off else 0) ≤ v ∧ v < m.vp + m.n))

/-- rw_ops.c.h:178-223 `ramfs_inode_truncate` and blocks.c.h:56-63 `ramfs_inode_extend`. -/
def truncate (s : St) (len : Nat) : St :=
  if len < s.size then
    { s with
      pte := fun v => if pastEof s len v then none else s.pte v
      freed := (List.range (pages s.size)).filterMap (fun i => if len ≤ PG * i then s.blk i else none) ++ s.freed
      blk := fun i => if len ≤ PG * i then none else s.blk i
      size := len }
  else { s with size := len }

/-- mmap.c.h:42-66 `ramfs_mmap`: the frames of the blocks of the pages asked for, in order. -/
def frames (s : St) (off n : Nat) : List Nat := (List.range n).filterMap (fun k => s.blk (off + k))

/-- kernel/mm/process_mm.c:217-333 `sys_mmap_pgoff`; the pages found by the user heap are free. -/
def mmap (s : St) (m : Map) : Option St :=
  if m.n = 0 ∨ (m.prot = true ∧ m.wr = false) ∨ (m.rd = false ∧ m.wr = false) then none
  else if s.maps.any (fun x => decide (x.vp < m.vp + m.n ∧ m.vp < x.vp + x.n)) = true then none
  else some { s with
    maps := m :: s.maps
    pte := fun v => if m.vp ≤ v ∧ v < m.vp + m.n then ((frames s m.off m.n)[v - m.vp]?).map (fun f => (f, m.rd && m.wr)) else s.pte v }

/-- kernel/mm/process_mm_base.c:374-390 `generic_fs_munmap` of a whole mapping. -/
def munmap (s : St) (m : Map) : Option St :=
  if m ∈ s.maps then
    some { s with maps := s.maps.filter (fun x => x ≠ m), pte := fun v => if m.vp ≤ v ∧ v < m.vp + m.n then none else s.pte v }
  else none

inductive Ev
  | load (v o : Nat)
  | store (v o b : Nat)
  | write (pos b : Nat)
  | truncate (len : Nat)
  | mmap (m : Map)
  | munmap (m : Map)
  deriving DecidableEq, Repr

/-- The state after a call or an access that does not fail. -/
def step (dbg : Bool) (s : St) : Ev → Option St
  | .load v o => if o < PG then (match load s v o with | .ret s' _ => some s' | _ => none) else none
  | .store v o b => if o < PG then (match store dbg s v o b with | .ret s' _ => some s' | _ => none) else none
  | .write pos b => match write dbg s pos b with | .ret s' _ => some s' | _ => none
  | .truncate len => some (truncate s len)
  | .mmap m => mmap s m
  | .munmap m => munmap s m

/-- An empty file. -/
def init : St := ⟨0, fun _ => none, fun _ _ => 0, 1, [], [], fun _ => none⟩

/-! ## Specification -/

inductive Reach (dbg : Bool) (ok : St → Ev → Prop) : St → Prop
  | init : Reach dbg ok init
  | step {s e s'} : Reach dbg ok s → ok s e → step dbg s e = some s' → Reach dbg ok s'

def Any (_ : St) (_ : Ev) : Prop := True

/-- The virtual page `v` shows the page `i` of the file, by the mapping `m`. -/
def Shows (s : St) (m : Map) (v i : Nat) : Prop := m ∈ s.maps ∧ m.vp ≤ v ∧ v < m.vp + m.n ∧ i = m.off + (v - m.vp)

/-- The file has data (no hole, not the end) in the page `i`. -/
def HasData (s : St) (i : Nat) : Prop := (s.blk i).isSome = true

/-- Only pages with data are mapped, and no mapped page is cut off. -/
def Full (s : St) : Ev → Prop
  | .mmap m => ∀ k, k < m.n → HasData s (m.off + k)
  | .truncate len => ∀ m ∈ s.maps, len < s.size → PG * (m.off + m.n - 1) < len
  | _ => True

/-- Only parts of the file without holes are mapped; a mapping may go beyond the end. -/
def Dense (s : St) : Ev → Prop
  | .mmap m => ∀ k, k < m.n → PG * (m.off + k) < s.size → HasData s (m.off + k)
  | _ => True

/-! ## Proofs -/

theorem frames_succ (s : St) (off n : Nat) : frames s off (n + 1) = frames s off n ++ (s.blk (off + n)).toList := by
  unfold frames
  rw [List.range_succ, List.filterMap_append]
  congr 1

theorem frames_length (s : St) (off n : Nat) : (frames s off n).length ≤ n := by
  unfold frames
  exact Nat.le_trans (List.length_filterMap_le _ _) (by simp)

theorem frames_get {s : St} {off n j f : Nat} (h : (frames s off n)[j]? = some f) : ∃ k, j ≤ k ∧ k < n ∧ s.blk (off + k) = some f := by
  induction n with
  | zero => simp [frames] at h
  | succ n ih =>
    rw [frames_succ] at h
    have hl := frames_length s off n
    by_cases hj : j < (frames s off n).length
    · rw [List.getElem?_append_left hj] at h
      obtain ⟨k, h1, h2, h3⟩ := ih h
      exact ⟨k, h1, by omega, h3⟩
    · rw [List.getElem?_append_right (by omega)] at h
      cases hb : s.blk (off + n) with
      | none => rw [hb] at h; simp at h
      | some g =>
        rw [hb] at h
        have h0 : j - (frames s off n).length = 0 := by
          apply Classical.byContradiction
          intro hne
          rw [List.getElem?_eq_none (by simp; omega)] at h
          cases h
        rw [h0] at h
        have : g = f := by simpa using h
        exact ⟨n, by omega, by omega, by rw [hb, this]⟩

theorem frames_dense {s : St} {off n : Nat} (h : ∀ k m, k < m → m < n → HasData s (off + m) → HasData s (off + k)) :
    ∀ j, j < n → (frames s off n)[j]? = s.blk (off + j) := by
  induction n with
  | zero => intro j hj; omega
  | succ n ih =>
    have ih := ih (fun k m h1 h2 => h k m h1 (by omega))
    intro j hj
    rw [frames_succ]
    have hl := frames_length s off n
    cases hb : s.blk (off + n) with
    | none =>
      simp only [Option.toList_none, List.append_nil]
      by_cases hjn : j < n
      · exact ih j hjn
      · have : j = n := by omega
        subst this
        rw [hb, List.getElem?_eq_none hl]
    | some g =>
      have hlen : (frames s off n).length = n := by
        apply Nat.le_antisymm hl
        rcases Nat.eq_zero_or_pos n with h0 | h0
        · omega
        · have hd : HasData s (off + (n - 1)) := h (n - 1) n (by omega) (by omega) (by unfold HasData; rw [hb]; rfl)
          have h1 := ih (n - 1) (by omega)
          apply Classical.byContradiction
          intro hne
          rw [List.getElem?_eq_none (by omega)] at h1
          unfold HasData at hd
          rw [← h1] at hd
          cases hd
      by_cases hjn : j < n
      · rw [List.getElem?_append_left (by omega)]; exact ih j hjn
      · have : j = n := by omega
        subst this
        rw [List.getElem?_append_right (by omega), hlen, hb]
        simp

structure Inv (s : St) : Prop where
  pos : 0 < s.next
  fr : ∀ i f, s.blk i = some f → 0 < f ∧ f < s.next ∧ PG * i < s.size ∧ f ∉ s.freed
  inj : ∀ i j f, s.blk i = some f → s.blk j = some f → i = j
  nf : ∀ f ∈ s.freed, 0 < f ∧ f < s.next
  disj : ∀ m ∈ s.maps, ∀ m' ∈ s.maps, ∀ v, m.vp ≤ v → v < m.vp + m.n → m'.vp ≤ v → v < m'.vp + m'.n → m = m'
  pt : ∀ v f rw, s.pte v = some (f, rw) → f < s.next ∧ ∃ m i, Shows s m v i ∧ PG * i < s.size

theorem map_shows {s : St} {v : Nat} {m : Map} (h : s.map? v = some m) : Shows s m v (m.off + (v - m.vp)) := by
  unfold St.map? at h
  have h1 := List.mem_of_find?_eq_some h
  have h2 : m.vp ≤ v ∧ v < m.vp + m.n := by simpa using List.find?_some h
  exact ⟨h1, h2.1, h2.2, rfl⟩

theorem map_of_shows {s : St} (hi : Inv s) {m : Map} {v i : Nat} (h : Shows s m v i) : s.map? v = some m := by
  cases hf : s.map? v with
  | none =>
    unfold St.map? at hf
    rw [List.find?_eq_none] at hf
    exact absurd (by simpa using ⟨h.2.1, h.2.2.1⟩) (hf m h.1)
  | some m' =>
    have h' := map_shows hf
    rw [hi.disj m h.1 m' h'.1 v h.2.1 h.2.2.1 h'.2.1 h'.2.2.1]

theorem shows_index {s : St} (hi : Inv s) {m m' : Map} {v i i' : Nat} (h : Shows s m v i) (h' : Shows s m' v i') : m = m' ∧ i = i' := by
  have := hi.disj m h.1 m' h'.1 v h.2.1 h.2.2.1 h'.2.1 h'.2.2.1
  subst this
  exact ⟨rfl, h.2.2.2.trans h'.2.2.2.symm⟩

theorem init_inv : Inv init :=
  ⟨by decide, (by intro _ _ h; cases h), (by intro _ _ _ h; cases h), (by intro _ h; cases h), (by intro _ h; cases h), (by intro _ _ _ h; cases h)⟩

theorem poke_inv {s : St} (h : Inv s) (f o b : Nat) : Inv (s.poke f o b) := ⟨h.pos, h.fr, h.inj, h.nf, h.disj, h.pt⟩

theorem grow_inv {s : St} (h : Inv s) (n : Nat) : Inv (s.grow n) := by
  have hs : s.size ≤ (s.grow n).size := by show s.size ≤ if s.size < n then n else s.size; split <;> omega
  refine ⟨h.pos, fun i f e => ?_, h.inj, h.nf, h.disj, fun v f rw e => ?_⟩
  · obtain ⟨a, b, c, d⟩ := h.fr i f e
    exact ⟨a, b, by omega, d⟩
  · obtain ⟨a, m, i, b, c⟩ := h.pt v f rw e
    exact ⟨a, m, i, b, by omega⟩

/-- A new block. -/
theorem append_inv {s : St} (h : Inv s) {i : Nat} (hb : s.blk i = none) (n : Nat) (hn : PG * i < (s.grow n).size) :
    Inv ((s.newFrame.append i s.next).grow n) := by
  have hs : s.size ≤ (s.grow n).size := by show s.size ≤ if s.size < n then n else s.size; split <;> omega
  have e : s.newFrame.append i s.next = { s.newFrame with blk := fun j => if j = i then some s.next else s.blk j } := by
    unfold St.append
    show (match s.blk i with | some _ => s.newFrame | none => _) = _
    rw [hb]; rfl
  have hbl : ((s.newFrame.append i s.next).grow n).blk = fun j => if j = i then some s.next else s.blk j := by rw [e]; rfl
  have hnx : ((s.newFrame.append i s.next).grow n).next = s.next + 1 := by rw [e]; rfl
  have hsz : ((s.newFrame.append i s.next).grow n).size = (s.grow n).size := by rw [e]; rfl
  have hmp : ((s.newFrame.append i s.next).grow n).maps = s.maps := by rw [e]; rfl
  have hpt : ((s.newFrame.append i s.next).grow n).pte = s.pte := by rw [e]; rfl
  have hfr : ((s.newFrame.append i s.next).grow n).freed = s.freed := by rw [e]; rfl
  refine ⟨by rw [hnx]; omega, ?_, ?_, ?_, by rw [hmp]; exact h.disj, ?_⟩
  · rw [hbl, hnx, hsz, hfr]
    intro j f e
    dsimp only at e
    split at e
    · cases e
      rename_i hj
      subst hj
      have := h.pos
      exact ⟨this, by omega, hn, fun hin => by have := h.nf _ hin; omega⟩
    · obtain ⟨a, b, c, d⟩ := h.fr j f e
      exact ⟨a, by omega, by omega, d⟩
  · rw [hbl]
    intro j k f e1 e2
    dsimp only at e1 e2
    split at e1
    · split at e2
      · omega
      · cases e1
        have := (h.fr k _ e2).2.1
        omega
    · split at e2
      · cases e2
        have := (h.fr j _ e1).2.1
        omega
      · exact h.inj j k f e1 e2
  · rw [hfr, hnx]
    intro f hf
    have := h.nf f hf
    omega
  · rw [hpt, hnx, hsz]
    intro v f rw e
    obtain ⟨a, m, k, b, c⟩ := h.pt v f rw e
    exact ⟨by omega, m, k, ⟨hmp ▸ b.1, b.2⟩, by omega⟩

/-- A new page in the page table. -/
theorem setPte_inv {s : St} (h : Inv s) {v f : Nat} {rw : Bool} (hf : f < s.next) {m : Map} {i : Nat} (hm : Shows s m v i) (hi : PG * i < s.size) :
    Inv (s.setPte v f rw) := by
  refine ⟨h.pos, h.fr, h.inj, h.nf, h.disj, fun u g r e => ?_⟩
  replace e : (if u = v then some (f, rw) else s.pte u) = some (g, r) := e
  split at e
  · cases e
    rename_i hu
    subst hu
    exact ⟨hf, m, i, hm, hi⟩
  · exact h.pt u g r e

theorem newFrame_inv {s : St} (h : Inv s) : Inv s.newFrame := by
  refine ⟨Nat.succ_pos _, fun i f e => ?_, h.inj, fun f hf => ?_, h.disj, fun v f rw e => ?_⟩
  · obtain ⟨a, b, c, d⟩ := h.fr i f e
    exact ⟨a, Nat.lt_succ_of_lt b, c, d⟩
  · exact ⟨(h.nf f hf).1, Nat.lt_succ_of_lt (h.nf f hf).2⟩
  · obtain ⟨a, b⟩ := h.pt v f rw e
    exact ⟨Nat.lt_succ_of_lt a, b⟩

theorem append_some {s : St} {i f g : Nat} (h : s.blk i = some g) : s.append i f = s := by
  unfold St.append; rw [h]

theorem grow_zero (s : St) : s.grow 0 = s := by
  unfold St.grow; rw [if_neg (by omega)]

theorem pages_lt {len i : Nat} : i < pages len ↔ PG * i < len := by
  unfold pages; show i < (len + 4096 - 1) / 4096 ↔ 4096 * i < len; omega

theorem pastEof_iff {s : St} (hi : Inv s) {m : Map} {v i len : Nat} (hm : Shows s m v i) : pastEof s len v = true ↔ len ≤ PG * i := by
  have hp := @pages_lt len i
  unfold pastEof
  rw [List.any_eq_true]
  constructor
  · rintro ⟨m', hm', h⟩
    have h : pages len < m'.off + m'.n ∧ m'.vp + (if m'.off ≤ pages len then pages len - m'.off else 0) ≤ v ∧ v < m'.vp + m'.n := by simpa using h
    have hvp : m'.vp ≤ v := by omega
    have := hi.disj m hm.1 m' hm' v hm.2.1 hm.2.2.1 hvp h.2.2
    subst this
    have hi' := hm.2.2.2
    have h2 := h.2.1
    apply Classical.byContradiction
    intro hlt
    have : i < pages len := hp.mpr (by omega)
    split at h2 <;> omega
  · intro hle
    refine ⟨m, hm.1, ?_⟩
    have h1 : ¬ i < pages len := fun h => by have := hp.mp h; omega
    have hi' := hm.2.2.2
    have h2 := hm.2.1
    have h3 := hm.2.2.1
    have : pages len < m.off + m.n ∧ m.vp + (if m.off ≤ pages len then pages len - m.off else 0) ≤ v ∧ v < m.vp + m.n := by
      refine ⟨by omega, ?_, h3⟩
      split <;> omega
    simpa using this

theorem truncate_inv {s : St} (h : Inv s) (len : Nat) : Inv (truncate s len) := by
  unfold truncate
  split
  · refine ⟨h.pos, ?_, ?_, ?_, h.disj, ?_⟩
    · intro i f e
      dsimp only at e ⊢
      split at e
      · cases e
      · rename_i hlt
        obtain ⟨a, b, c, d⟩ := h.fr i f e
        refine ⟨a, b, by omega, ?_⟩
        rw [List.mem_append]
        rintro (hin | hin)
        · obtain ⟨j, _, hj⟩ := List.mem_filterMap.mp hin
          split at hj
          · rename_i hle
            have := h.inj i j f e hj
            subst this
            exact hlt hle
          · cases hj
        · exact d hin
    · intro i j f e1 e2
      dsimp only at e1 e2
      split at e1
      · cases e1
      · split at e2
        · cases e2
        · exact h.inj i j f e1 e2
    · intro f hf
      dsimp only at hf ⊢
      rcases List.mem_append.mp hf with hin | hin
      · obtain ⟨j, _, hj⟩ := List.mem_filterMap.mp hin
        split at hj
        · have := h.fr j f hj; omega
        · cases hj
      · exact h.nf f hin
    · intro v f rw e
      dsimp only at e ⊢
      split at e
      · cases e
      · rename_i hp
        obtain ⟨a, m, i, b, c⟩ := h.pt v f rw e
        refine ⟨a, m, i, b, ?_⟩
        rw [pastEof_iff h b] at hp
        omega
  · refine ⟨h.pos, ?_, h.inj, h.nf, h.disj, ?_⟩
    · intro i f e
      obtain ⟨a, b, c, d⟩ := h.fr i f e
      exact ⟨a, b, by dsimp only; omega, d⟩
    · intro v f rw e
      obtain ⟨a, m, i, b, c⟩ := h.pt v f rw e
      exact ⟨a, m, i, b, by dsimp only; omega⟩

theorem mmap_eq {s s' : St} {m : Map} (h : mmap s m = some s') :
    0 < m.n ∧ (∀ x ∈ s.maps, ¬ (x.vp < m.vp + m.n ∧ m.vp < x.vp + x.n)) ∧ s' = { s with
      maps := m :: s.maps
      pte := fun v => if m.vp ≤ v ∧ v < m.vp + m.n then ((frames s m.off m.n)[v - m.vp]?).map (fun f => (f, m.rd && m.wr)) else s.pte v } := by
  unfold mmap at h
  split at h
  · cases h
  · rename_i h1
    split at h
    · cases h
    · rename_i h2
      injection h with h
      refine ⟨by have := fun x => h1 (Or.inl x); omega, ?_, h.symm⟩
      intro x hx hc
      exact h2 (List.any_eq_true.mpr ⟨x, hx, by simpa using hc⟩)

theorem mmap_inv {s s' : St} (h : Inv s) {m : Map} (hs : mmap s m = some s') : Inv s' := by
  obtain ⟨hn, hd, rfl⟩ := mmap_eq hs
  refine ⟨h.pos, h.fr, h.inj, h.nf, ?_, ?_⟩
  · intro a ha b hb v h1 h2 h3 h4
    rcases List.mem_cons.mp ha with e | ha'
    · rcases List.mem_cons.mp hb with e' | hb'
      · rw [e, e']
      · subst e; exact absurd ⟨by omega, by omega⟩ (hd b hb')
    · rcases List.mem_cons.mp hb with e' | hb'
      · subst e'; exact absurd ⟨by omega, by omega⟩ (hd a ha')
      · exact h.disj a ha' b hb' v h1 h2 h3 h4
  · intro v f rw e
    dsimp only at e
    split at e
    · rename_i hv
      cases hf : (frames s m.off m.n)[v - m.vp]? with
      | none => rw [hf] at e; cases e
      | some g =>
        rw [hf] at e
        cases e
        obtain ⟨k, h1, h2, h3⟩ := frames_get hf
        obtain ⟨a, b, c, d⟩ := h.fr _ _ h3
        refine ⟨b, m, m.off + (v - m.vp), ⟨List.mem_cons_self, hv.1, hv.2, rfl⟩, ?_⟩
        have hc : 4096 * (m.off + k) < s.size := c
        show 4096 * (m.off + (v - m.vp)) < s.size
        omega
    · obtain ⟨a, x, i, b, c⟩ := h.pt v f rw e
      exact ⟨a, x, i, ⟨List.mem_cons_of_mem _ b.1, b.2⟩, c⟩

theorem munmap_inv {s s' : St} (h : Inv s) {m : Map} (hs : munmap s m = some s') : Inv s' := by
  unfold munmap at hs
  split at hs
  · rename_i hm
    injection hs with hs
    subst hs
    refine ⟨h.pos, h.fr, h.inj, h.nf, ?_, ?_⟩
    · intro a ha b hb
      exact h.disj a (List.mem_filter.mp ha).1 b (List.mem_filter.mp hb).1
    · intro v f rw e
      dsimp only at e
      split at e
      · cases e
      · rename_i hv
        obtain ⟨a, x, i, b, c⟩ := h.pt v f rw e
        refine ⟨a, x, i, ⟨List.mem_filter.mpr ⟨b.1, ?_⟩, b.2⟩, c⟩
        have : x ≠ m := fun e => hv (e ▸ ⟨b.2.1, b.2.2.1⟩)
        simpa using this
  · cases hs

/-- What a load does. -/
theorem load_cases {s s' : St} {v o b : Nat} (h : load s v o = .ret s' b) :
    (∃ f rw, s.pte v = some (f, rw) ∧ s' = s ∧ b = s.data f o) ∨
    (∃ m i, s.pte v = none ∧ Shows s m v i ∧ PG * i + o < s.size ∧ s' = s.setPte v 0 true ∧ b = s.data 0 o) := by
  unfold load at h
  split at h
  · rename_i f rw e
    injection h with h1 h2
    exact Or.inl ⟨f, rw, e, h1.symm, h2.symm⟩
  · rename_i e
    split at h
    · cases h
    · rename_i m hm
      split at h
      · cases h
      · rename_i hlt
        injection h with h1 h2
        exact Or.inr ⟨m, _, e, map_shows hm, by omega, h1.symm, h2.symm⟩

/-- What a store does. -/
theorem store_cases {dbg : Bool} {s s' : St} {v o b r : Nat} (h : store dbg s v o b = .ret s' r) :
    (∃ f, s.pte v = some (f, true) ∧ s' = s.poke f o b) ∨
    (∃ m i, s.pte v = none ∧ Shows s m v i ∧ m.prot = true ∧ PG * i + o < s.size ∧
      s' = ((s.newFrame.append i s.next).setPte v s.next true).poke s.next o b ∧ (dbg = true → s.blk i = none)) := by
  unfold store at h
  split at h
  · rename_i f e
    injection h with h1 h2
    exact Or.inl ⟨f, e, h1.symm⟩
  · split at h <;> cases h
  · rename_i e
    split at h
    · cases h
    · rename_i m hm
      split at h
      · cases h
      · rename_i hp
        split at h
        · cases h
        · rename_i hlt
          unfold fill at h
          split at h
          · cases h
          · rename_i hd
            injection h with h1 h2
            refine Or.inr ⟨m, _, e, map_shows hm, by simpa using hp, by omega, h1.symm, ?_⟩
            intro hdb
            cases hb : s.blk (m.off + (v - m.vp)) with
            | none => rfl
            | some g => exact absurd ⟨hdb, by rw [hb]; rfl⟩ hd

theorem step_inv {dbg : Bool} {s s' : St} (h : Inv s) {e : Ev} (hs : step dbg s e = some s') : Inv s' := by
  cases e with
  | load v o =>
    dsimp only [step] at hs
    split at hs
    · split at hs
      · rename_i hl
        injection hs with hs
        subst hs
        rcases load_cases hl with ⟨f, rw, e, rfl, _⟩ | ⟨m, i, e, hm, hlt, rfl, _⟩
        · exact h
        · exact setPte_inv h h.pos hm (by omega)
      · cases hs
    · cases hs
  | store v o b =>
    dsimp only [step] at hs
    split at hs
    · split at hs
      · rename_i hl
        injection hs with hs
        subst hs
        rcases store_cases hl with ⟨f, e, rfl⟩ | ⟨m, i, e, hm, hp, hlt, rfl, _⟩
        · exact poke_inv h _ _ _
        · apply poke_inv
          cases hb : s.blk i with
          | some g =>
            have : s.newFrame.blk i = some g := hb
            rw [append_some this]
            exact setPte_inv (newFrame_inv h) (Nat.lt_succ_self _) (m := m) (i := i) hm (show PG * i < s.size by omega)
          | none =>
            have hg := append_inv h hb 0 (by rw [grow_zero]; omega)
            rw [grow_zero] at hg
            refine setPte_inv hg ?_ (m := m) (i := i) ?_ ?_
            · unfold St.append; split <;> exact Nat.lt_succ_self _
            · unfold St.append; split <;> exact hm
            · unfold St.append; split <;> exact (show PG * i < s.size by omega)
      · cases hs
    · cases hs
  | write pos b =>
    dsimp only [step] at hs
    split at hs
    · rename_i hl
      injection hs with hs
      subst hs
      unfold write at hl
      split at hl
      · injection hl with hl _
        subst hl
        exact grow_inv (poke_inv h _ _ _) _
      · rename_i hb
        split at hl
        · cases hl
        · injection hl with hl _
          subst hl
          have hsz : PG * (pos / PG) < (s.grow (pos + 1)).size := by
            show 4096 * (pos / 4096) < if s.size < pos + 1 then pos + 1 else s.size
            split <;> omega
          exact poke_inv (append_inv h hb (pos + 1) hsz) s.next (pos % PG) b
    · cases hs
  | truncate len =>
    dsimp only [step] at hs
    injection hs with hs
    subst hs
    exact truncate_inv h len
  | mmap m => exact mmap_inv h hs
  | munmap m => exact munmap_inv h hs

theorem reach_inv {dbg : Bool} {ok : St → Ev → Prop} {s : St} (h : Reach dbg ok s) : Inv s := by
  induction h with
  | init => exact init_inv
  | step _ _ hs ih => exact step_inv ih hs

/-- C136. Pages of a mapping beyond the end of the file are not accessible, and nor are pages outside of mappings: in every
history. -/
theorem past_eof_faults {dbg : Bool} {s : St} (h : Reach dbg Any s) {v o : Nat} (hv : ∀ m i, Shows s m v i → s.size ≤ PG * i) (b : Nat) :
    load s v o = .fault ∧ store dbg s v o b = .fault := by
  have hi := reach_inv h
  have hp : s.pte v = none := by
    cases hp : s.pte v with
    | none => rfl
    | some x =>
      obtain ⟨_, m, i, hm, hlt⟩ := hi.pt v x.1 x.2 hp
      have := hv m i hm
      omega
  unfold load store
  rw [hp]
  dsimp only
  cases hm : s.map? v with
  | none => exact ⟨rfl, rfl⟩
  | some m =>
    dsimp only
    have := hv m _ (map_shows hm)
    rw [if_pos (show s.size ≤ PG * (m.off + (v - m.vp)) + o by omega)]
    refine ⟨rfl, ?_⟩
    split
    · rfl
    · exact if_pos (show s.size ≤ PG * (m.off + (v - m.vp)) + o by omega)

/-- What a page shows is the zero page, the block of the file, or a frame that is no block. -/
def Clean (s : St) : Prop := ∀ v f rw, s.pte v = some (f, rw) → f ∉ s.freed ∧
  ∀ m i, Shows s m v i → f = 0 ∨ s.blk i = some f ∨ ∀ j, s.blk j ≠ some f

theorem append_blk (s : St) (i f j : Nat) : (s.append i f).blk j = if j = i ∧ s.blk i = none then some f else s.blk j := by
  unfold St.append
  split
  · rename_i h; rw [if_neg (fun x => by rw [h] at x; cases x.2)]
  · rename_i h
    dsimp only
    by_cases hj : j = i
    · rw [if_pos hj, if_pos ⟨hj, h⟩]
    · rw [if_neg hj, if_neg (fun x => hj x.1)]

theorem append_rest (s : St) (i f : Nat) : (s.append i f).pte = s.pte ∧ (s.append i f).maps = s.maps ∧ (s.append i f).freed = s.freed ∧
    (s.append i f).size = s.size ∧ (s.append i f).data = s.data := by
  unfold St.append
  split <;> exact ⟨rfl, rfl, rfl, rfl, rfl⟩

theorem clean_append {s : St} (hi : Inv s) (h : Clean s) (i : Nat) : Clean (s.newFrame.append i s.next) := by
  obtain ⟨e1, e2, e3, _⟩ := append_rest s.newFrame i s.next
  intro v f rw hp
  rw [e1] at hp
  rw [e3]
  obtain ⟨h1, h2⟩ := h v f rw hp
  have hlt := (hi.pt v f rw hp).1
  refine ⟨h1, fun m k hm => ?_⟩
  have hm' : Shows s m v k := ⟨by have a := hm.1; rw [e2] at a; exact a, hm.2⟩
  have hbl : ∀ j, (s.newFrame.append i s.next).blk j = if j = i ∧ s.blk i = none then some s.next else s.blk j := append_blk s.newFrame i s.next
  rcases h2 m k hm' with h | h | h
  · exact Or.inl h
  · refine Or.inr (Or.inl ?_)
    rw [hbl, if_neg (fun x => by rw [← x.1, h] at x; cases x.2)]
    exact h
  · refine Or.inr (Or.inr fun j => ?_)
    rw [hbl]
    split
    · intro e
      injection e with e
      omega
    · exact h j

theorem clean_step {dbg : Bool} {s s' : St} {e : Ev} (hi : Inv s) (h : Clean s) (ok : Dense s e) (hs : step dbg s e = some s') : Clean s' := by
  cases e with
  | load v o =>
    dsimp only [step] at hs
    split at hs
    · split at hs
      · rename_i hl
        injection hs with hs
        subst hs
        rcases load_cases hl with ⟨f, rw, e, rfl, _⟩ | ⟨m, i, e, hm, hlt, rfl, _⟩
        · exact h
        · intro u f rw e
          replace e : (if u = v then some (0, true) else s.pte u) = some (f, rw) := e
          split at e
          · cases e
            exact ⟨fun hin => by have := hi.nf _ hin; omega, fun _ _ _ => Or.inl rfl⟩
          · exact h u f rw e
      · cases hs
    · cases hs
  | store v o b =>
    dsimp only [step] at hs
    split at hs
    · split at hs
      · rename_i hl
        injection hs with hs
        subst hs
        rcases store_cases hl with ⟨f, e, rfl⟩ | ⟨m, i, e, hm, hp, hlt, rfl, _⟩
        · exact h
        · obtain ⟨e1, e2, e3, _⟩ := append_rest s.newFrame i s.next
          have hc := clean_append hi h i
          intro u f rw e
          replace e : (if u = v then some (s.next, true) else (s.newFrame.append i s.next).pte u) = some (f, rw) := e
          split at e
          · cases e
            rename_i hu
            subst hu
            refine ⟨?_, fun m' k hm' => ?_⟩
            · show s.next ∉ (s.newFrame.append i s.next).freed
              rw [e3]
              intro hin
              have := hi.nf _ hin
              omega
            · have hm'' : Shows s m' u k := by
                obtain ⟨a, b⟩ := hm'
                replace a : m' ∈ (s.newFrame.append i s.next).maps := a
                rw [e2] at a
                exact ⟨a, b⟩
              have hk := (shows_index hi hm hm'').2
              subst hk
              have hbl : ∀ j, (s.newFrame.append i s.next).blk j = if j = i ∧ s.blk i = none then some s.next else s.blk j := append_blk s.newFrame i s.next
              right
              cases hb : s.blk i with
              | none => left; show (s.newFrame.append i s.next).blk i = _; rw [hbl, if_pos ⟨rfl, hb⟩]
              | some g =>
                right
                intro j hj
                replace hj : (s.newFrame.append i s.next).blk j = some s.next := hj
                rw [hbl, if_neg (fun x => by rw [hb] at x; cases x.2)] at hj
                have := (hi.fr j _ hj).2.1
                omega
          · exact hc u f rw e
      · cases hs
    · cases hs
  | write pos b =>
    dsimp only [step] at hs
    split at hs
    · rename_i hl
      injection hs with hs
      subst hs
      unfold write at hl
      split at hl
      · injection hl with hl _
        subst hl
        exact h
      · split at hl
        · cases hl
        · injection hl with hl _
          subst hl
          exact clean_append hi h (pos / PG)
    · cases hs
  | truncate len =>
    dsimp only [step] at hs
    injection hs with hs
    subst hs
    unfold truncate
    split
    · intro v f rw e
      dsimp only at e ⊢
      split at e
      · cases e
      · rename_i hpe
        obtain ⟨h1, h2⟩ := h v f rw e
        obtain ⟨_, m, i, hm, _⟩ := hi.pt v f rw e
        rw [pastEof_iff hi hm] at hpe
        refine ⟨?_, fun m' k hm' => ?_⟩
        · rw [List.mem_append]
          rintro (hin | hin)
          · obtain ⟨j, _, hj⟩ := List.mem_filterMap.mp hin
            split at hj
            · rename_i hle
              rcases h2 m i hm with h3 | h3 | h3
              · have := hi.fr j f hj; omega
              · have := hi.inj i j f h3 hj
                subst this
                exact hpe hle
              · exact h3 j hj
            · cases hj
          · exact h1 hin
        · have hk := (shows_index hi hm (⟨hm'.1, hm'.2⟩ : Shows s m' v k)).2
          subst hk
          rcases h2 m i hm with h3 | h3 | h3
          · exact Or.inl h3
          · exact Or.inr (Or.inl (by rw [if_neg hpe]; exact h3))
          · refine Or.inr (Or.inr fun j => ?_)
            split
            · intro h; cases h
            · exact h3 j
    · exact h
  | mmap m =>
    obtain ⟨hn, hd, rfl⟩ := mmap_eq hs
    have hi' := mmap_inv hi hs
    intro v f rw e
    dsimp only at e
    split at e
    · rename_i hv
      have hfd := frames_dense (s := s) (off := m.off) (n := m.n) (fun k x hk hx hdx => by
        apply ok k (by omega)
        cases hb : s.blk (m.off + x) with
        | none => unfold HasData at hdx; rw [hb] at hdx; cases hdx
        | some g => have := (hi.fr _ _ hb).2.2.1; omega) (v - m.vp) (by omega)
      rw [hfd] at e
      cases hb : s.blk (m.off + (v - m.vp)) with
      | none => rw [hb] at e; cases e
      | some g =>
        rw [hb] at e
        cases e
        refine ⟨(hi.fr _ _ hb).2.2.2, fun m' k hm' => ?_⟩
        have hk := (shows_index hi' (⟨List.mem_cons_self, hv.1, hv.2, rfl⟩ : Shows _ m v (m.off + (v - m.vp))) hm').2
        subst hk
        exact Or.inr (Or.inl hb)
    · rename_i hv
      obtain ⟨h1, h2⟩ := h v f rw e
      refine ⟨h1, fun m' k hm' => ?_⟩
      rcases List.mem_cons.mp hm'.1 with rfl | hin
      · exact absurd ⟨hm'.2.1, hm'.2.2.1⟩ hv
      · exact h2 m' k ⟨hin, hm'.2⟩
  | munmap m =>
    dsimp only [step] at hs
    unfold munmap at hs
    split at hs
    · injection hs with hs
      subst hs
      intro v f rw e
      dsimp only at e
      split at e
      · cases e
      · obtain ⟨h1, h2⟩ := h v f rw e
        exact ⟨h1, fun m' k hm' => h2 m' k ⟨(List.mem_filter.mp hm'.1).1, hm'.2⟩⟩
    · cases hs

theorem reach_clean {dbg : Bool} {s : St} (h : Reach dbg Dense s) : Clean s := by
  induction h with
  | init => intro v f rw e; cases e
  | step hr hok hs ih => exact clean_step (reach_inv hr) ih hok hs

/-- C136. When the parts of the file that are mapped have no holes, no process ever sees a page frame that the kernel has freed. -/
theorem never_freed_partial {dbg : Bool} {s : St} (h : Reach dbg Dense s) {v f : Nat} {rw : Bool} (hp : s.pte v = some (f, rw)) :
    f ∉ s.freed := (reach_clean h v f rw hp).1

/-- Every page of a mapping shows the block of the file. -/
def Tight (s : St) : Prop := ∀ m v i, Shows s m v i → ∃ f, s.blk i = some f ∧ s.pte v = some (f, m.rd && m.wr)

theorem tight_append {s : St} (h : Tight s) (i : Nat) : Tight (s.newFrame.append i s.next) := by
  obtain ⟨e1, e2, e3, _⟩ := append_rest s.newFrame i s.next
  intro m v k hm
  have hm' : Shows s m v k := ⟨by have a := hm.1; rw [e2] at a; exact a, hm.2⟩
  obtain ⟨f, h1, h2⟩ := h m v k hm'
  have hbl : ∀ j, (s.newFrame.append i s.next).blk j = if j = i ∧ s.blk i = none then some s.next else s.blk j := append_blk s.newFrame i s.next
  refine ⟨f, ?_, by rw [e1]; exact h2⟩
  rw [hbl, if_neg (fun x => by rw [← x.1, h1] at x; cases x.2)]
  exact h1

theorem tight_step {dbg : Bool} {s s' : St} {e : Ev} (hi : Inv s) (h : Tight s) (ok : Full s e) (hs : step dbg s e = some s') : Tight s' := by
  cases e with
  | load v o =>
    dsimp only [step] at hs
    split at hs
    · split at hs
      · rename_i hl
        injection hs with hs
        subst hs
        rcases load_cases hl with ⟨f, rw, e, rfl, _⟩ | ⟨m, i, e, hm, hlt, rfl, _⟩
        · exact h
        · obtain ⟨f, _, h2⟩ := h m v i hm
          rw [e] at h2
          cases h2
      · cases hs
    · cases hs
  | store v o b =>
    dsimp only [step] at hs
    split at hs
    · split at hs
      · rename_i hl
        injection hs with hs
        subst hs
        rcases store_cases hl with ⟨f, e, rfl⟩ | ⟨m, i, e, hm, hp, hlt, rfl, _⟩
        · exact h
        · obtain ⟨f, _, h2⟩ := h m v i hm
          rw [e] at h2
          cases h2
      · cases hs
    · cases hs
  | write pos b =>
    dsimp only [step] at hs
    split at hs
    · rename_i hl
      injection hs with hs
      subst hs
      unfold write at hl
      split at hl
      · injection hl with hl _
        subst hl
        exact h
      · split at hl
        · cases hl
        · injection hl with hl _
          subst hl
          exact tight_append h (pos / PG)
    · cases hs
  | truncate len =>
    dsimp only [step] at hs
    injection hs with hs
    subst hs
    unfold truncate
    split
    · rename_i hlt
      intro m v i hm
      have hm' : Shows s m v i := ⟨hm.1, hm.2⟩
      obtain ⟨f, h1, h2⟩ := h m v i hm'
      have hc := ok m hm.1 hlt
      have hle : ¬ len ≤ PG * i := by
        have := hm'.2.2.2
        have := hm'.2.1
        have := hm'.2.2.1
        omega
      refine ⟨f, ?_, ?_⟩
      · dsimp only
        rw [if_neg hle]; exact h1
      · dsimp only
        rw [if_neg (by rw [pastEof_iff hi hm']; exact hle)]
        exact h2
    · exact h
  | mmap m =>
    obtain ⟨hn, hd, rfl⟩ := mmap_eq hs
    intro m' v i hm'
    dsimp only
    rcases List.mem_cons.mp hm'.1 with e | hin
    · subst e
      have hv : m'.vp ≤ v ∧ v < m'.vp + m'.n := ⟨hm'.2.1, hm'.2.2.1⟩
      have hfd := frames_dense (s := s) (off := m'.off) (n := m'.n) (fun k x hk hx _ => ok k (by omega)) (v - m'.vp) (by omega)
      have hdata := ok (v - m'.vp) (by omega)
      rw [← hm'.2.2.2] at hfd hdata
      cases hb : s.blk i with
      | none => unfold HasData at hdata; rw [hb] at hdata; cases hdata
      | some f =>
        refine ⟨f, rfl, ?_⟩
        rw [if_pos hv, hfd, hb]
        rfl
    · have hnv : ¬ (m.vp ≤ v ∧ v < m.vp + m.n) := by
        intro hv
        have := hm'.2.1
        have := hm'.2.2.1
        exact hd m' hin ⟨by omega, by omega⟩
      rw [if_neg hnv]
      exact h m' v i ⟨hin, hm'.2⟩
  | munmap m =>
    dsimp only [step] at hs
    unfold munmap at hs
    split at hs
    · rename_i hm
      injection hs with hs
      subst hs
      intro m' v i hm'
      dsimp only
      obtain ⟨h1, h2⟩ := List.mem_filter.mp hm'.1
      have hne : m' ≠ m := by simpa using h2
      rw [if_neg (fun hv => hne (hi.disj m' h1 m hm v hm'.2.1 hm'.2.2.1 hv.1 hv.2))]
      exact h m' v i ⟨h1, hm'.2⟩
    · cases hs

theorem reach_tight {dbg : Bool} {s : St} (h : Reach dbg Full s) : Tight s := by
  induction h with
  | init => intro m v i hm; exact absurd hm.1 (by simp [init])
  | step hr hok hs ih => exact tight_step (reach_inv hr) ih hok hs

theorem index_div (i o : Nat) (ho : o < PG) : (PG * i + o) / PG = i ∧ (PG * i + o) % PG = o := by omega

/-- C135. A load from a mapping gives what `read` gives at the corresponding offset. -/
theorem load_coherent_partial {dbg : Bool} {s : St} (h : Reach dbg Full s) {m : Map} {v i o : Nat} (hm : Shows s m v i) (ho : o < PG) :
    ∃ b, load s v o = .ret s b ∧ (PG * i + o < s.size → read s (PG * i + o) = some b) := by
  obtain ⟨f, h1, h2⟩ := reach_tight h m v i hm
  refine ⟨s.data f o, ?_, fun hlt => ?_⟩
  · unfold load; rw [h2]
  · unfold read
    rw [if_neg (by omega), (index_div i o ho).1, (index_div i o ho).2, h1]

theorem read_poke {s : St} (hi : Inv s) {i f o b : Nat} (hb : s.blk i = some f) (ho : o < PG) (p : Nat) :
    read (s.poke f o b) p = if p = PG * i + o ∧ p < s.size then some b else read s p := by
  obtain ⟨d1, d2⟩ := index_div i o ho
  unfold read
  show (if s.size ≤ p then none else match s.blk (p / PG) with
    | some g => some ((if g = f then fun q => if q = o then b else s.data g q else s.data g) (p % PG))
    | none => some 0) = _
  by_cases hp : s.size ≤ p
  · rw [if_pos hp, if_neg (fun x => by omega), if_pos hp]
  · rw [if_neg hp, if_neg hp]
    cases hbp : s.blk (p / PG) with
    | none =>
      dsimp only
      rw [if_neg]
      rintro ⟨rfl, _⟩
      rw [d1, hb] at hbp
      cases hbp
    | some g =>
      dsimp only
      by_cases hgf : g = f
      · rw [if_pos hgf]
        subst hgf
        have hpi := hi.inj _ _ _ hbp hb
        by_cases hpo : p % PG = o
        · rw [if_pos hpo, if_pos ⟨by omega, by omega⟩]
        · rw [if_neg hpo, if_neg (fun x => hpo (by rw [x.1]; exact d2))]
      · rw [if_neg hgf, if_neg]
        rintro ⟨rfl, _⟩
        rw [d1, hb] at hbp
        cases hbp
        exact hgf rfl

/-- C135. In every history, a byte written is read back, and the other bytes of the file stay as they were. -/
theorem write_read {dbg : Bool} {s s' : St} (h : Reach dbg Any s) {pos b r : Nat} (hw : write dbg s pos b = .ret s' r) :
    read s' pos = some b ∧ s'.size = max s.size (pos + 1) ∧ ∀ p, p ≠ pos → p < s.size → read s' p = read s p := by
  have hi := reach_inv h
  have hsz : ∀ t : St, t.size = s.size → (t.grow (pos + 1)).size = max s.size (pos + 1) := by
    intro t ht
    show (if t.size < pos + 1 then pos + 1 else t.size) = _
    rw [ht]; split <;> omega
  have hg : ∀ (t : St) (n p : Nat), p < t.size → read (t.grow n) p = read t p := by
    intro t n p hp
    unfold read
    have : t.size ≤ (t.grow n).size := by show t.size ≤ if t.size < n then n else t.size; split <;> omega
    rw [if_neg (by omega), if_neg (by omega)]; rfl
  have hat : ∀ (t : St) (f : Nat), t.blk (pos / PG) = some f → read ((t.poke f (pos % PG) b).grow (pos + 1)) pos = some b := by
    intro t f hf
    unfold read
    have : pos < ((t.poke f (pos % PG) b).grow (pos + 1)).size := by
      show pos < if t.size < pos + 1 then pos + 1 else t.size
      split <;> omega
    rw [if_neg (by omega)]
    have e : ((t.poke f (pos % PG) b).grow (pos + 1)).blk (pos / PG) = some f := hf
    rw [e]
    show some ((if f = f then fun p => if p = pos % PG then b else t.data f p else t.data f) (pos % PG)) = some b
    rw [if_pos rfl, if_pos rfl]
  have hpos : pos = PG * (pos / PG) + pos % PG := by omega
  unfold write at hw
  cases hb : s.blk (pos / PG) with
  | some f =>
    rw [hb] at hw
    injection hw with hw _
    subst hw
    refine ⟨hat s f hb, hsz _ rfl, fun p hp hlt => ?_⟩
    rw [hg (s.poke f (pos % PG) b) _ _ hlt, read_poke hi hb (by omega), if_neg (fun x => hp (x.1.trans hpos.symm))]
  | none =>
    rw [hb] at hw
    dsimp only at hw
    split at hw
    · cases hw
    injection hw with hw _
    subst hw
    have hbl := append_blk s.newFrame (pos / PG) s.next
    obtain ⟨_, _, _, hs', hdt⟩ := append_rest s.newFrame (pos / PG) s.next
    have hn : s.newFrame.blk (pos / PG) = none := hb
    refine ⟨hat _ _ (by rw [hbl, if_pos ⟨rfl, hn⟩]), hsz _ hs', fun p hp hlt => ?_⟩
    rw [hg ((s.newFrame.append (pos / PG) s.next).poke s.next (pos % PG) b) _ _ (show p < (s.newFrame.append (pos / PG) s.next).size by rw [hs']; exact hlt)]
    unfold read
    show (if (s.newFrame.append (pos / PG) s.next).size ≤ p then none else match (s.newFrame.append (pos / PG) s.next).blk (p / PG) with
      | some f => some ((if f = s.next then fun q => if q = pos % PG then b else (s.newFrame.append (pos / PG) s.next).data f q else (s.newFrame.append (pos / PG) s.next).data f) (p % PG))
      | none => some 0) = _
    rw [hs', hbl, hdt]
    have hns : ¬ s.newFrame.size ≤ p := Nat.not_le.mpr hlt
    rw [if_neg hns, if_neg (Nat.not_le.mpr hlt)]
    by_cases hpp : p / PG = pos / PG
    · rw [if_pos ⟨hpp, hn⟩, hpp, hb]
      dsimp only
      rw [if_pos rfl, if_neg (fun x => hp (by omega))]
      show some ((if s.next = s.next then fun _ => 0 else s.data s.next) (p % PG)) = some 0
      rw [if_pos rfl]
    · rw [if_neg (fun x => hpp x.1)]
      show (match s.blk (p / PG) with | some f => _ | none => _) = _
      cases hbp : s.blk (p / PG) with
      | none => rfl
      | some g =>
        dsimp only
        have hgl := (hi.fr _ _ hbp).2.1
        rw [if_neg (by omega)]
        show some ((if g = s.next then fun _ => 0 else s.data g) (p % PG)) = _
        rw [if_neg (by omega)]

/-- C135. A store to a writable mapping (of a file opened for reading and writing) is seen by `read` at the corresponding offset, and
nowhere else. -/
theorem store_coherent_partial {dbg : Bool} {s : St} (h : Reach dbg Full s) {m : Map} {v i o b : Nat} (hm : Shows s m v i) (ho : o < PG)
    (hrw : m.rd = true ∧ m.wr = true) :
    ∃ s', store dbg s v o b = .ret s' 0 ∧ (PG * i + o < s.size → read s' (PG * i + o) = some b) ∧
      ∀ p, p ≠ PG * i + o → read s' p = read s p := by
  obtain ⟨f, h1, h2⟩ := reach_tight h m v i hm
  rw [hrw.1, hrw.2] at h2
  refine ⟨s.poke f o b, ?_, fun hlt => ?_, fun p hp => ?_⟩
  · unfold store; rw [h2]; rfl
  · rw [read_poke (reach_inv h) h1 ho, if_pos ⟨rfl, hlt⟩]
  · rw [read_poke (reach_inv h) h1 ho, if_neg (fun x => hp x.1)]

/-- C135. What is written is loaded by every mapping of the page. -/
theorem write_seen_partial {dbg : Bool} {s s' : St} (h : Reach dbg Full s) {pos b r : Nat} (hw : write dbg s pos b = .ret s' r) {m : Map}
    {v : Nat} (hm : Shows s m v (pos / PG)) : load s' v (pos % PG) = .ret s' b := by
  obtain ⟨f, h1, h2⟩ := reach_tight h m v _ hm
  unfold write at hw
  rw [h1] at hw
  injection hw with hw _
  subst hw
  unfold load
  have : ((s.poke f (pos % PG) b).grow (pos + 1)).pte v = some (f, m.rd && m.wr) := h2
  rw [this]
  dsimp only
  have : ((s.poke f (pos % PG) b).grow (pos + 1)).data f (pos % PG) = b := by
    show (if f = f then fun p => if p = pos % PG then b else s.data f p else s.data f) (pos % PG) = b
    rw [if_pos rfl, if_pos rfl]
  rw [this]

/-- C137. A mapping that is read-only, of a file that was not opened for reading and writing, is not written. -/
theorem readonly_partial {dbg : Bool} {s : St} (h : Reach dbg Full s) {m : Map} {v i o b : Nat} (hm : Shows s m v i) (hp : m.prot = false)
    (hrw : (m.rd && m.wr) = false) : store dbg s v o b = .fault := by
  obtain ⟨f, h1, h2⟩ := reach_tight h m v i hm
  rw [hrw] at h2
  unfold store
  rw [h2]
  dsimp only
  rw [map_of_shows (reach_inv h) hm]
  rw [if_neg]
  rintro ⟨_, h⟩
  simp [hp] at h

/-- C137. A mapping for writing needs a file opened for writing. -/
theorem mmap_needs_write {s s' : St} {m : Map} (h : mmap s m = some s') (hp : m.prot = true) : m.wr = true := by
  unfold mmap at h
  split at h
  · cases h
  · rename_i h1
    cases hw : m.wr with
    | true => rfl
    | false => exact absurd (Or.inr (Or.inl ⟨hp, hw⟩)) h1

/-! ## Witnesses -/

def run (dbg : Bool) (s : St) : List Ev → Option St
  | [] => some s
  | e :: es => (step dbg s e).bind (fun s' => run dbg s' es)

theorem reach_run {dbg : Bool} {es : List Ev} : ∀ {s s' : St}, Reach dbg Any s → run dbg s es = some s' → Reach dbg Any s' := by
  induction es with
  | nil => intro s s' h hr; cases hr; exact h
  | cons e es ih =>
    intro s s' h hr
    dsimp only [run] at hr
    cases hs : step dbg s e with
    | none => rw [hs] at hr; cases hr
    | some s1 => rw [hs] at hr; exact ih (.step h trivial hs) hr

/-- A mapping of one or two pages at page 10. -/
def rwMap (n : Nat) : Map := ⟨10, 0, n, true, true, true⟩

/-- A byte of the file and of a mapping. -/
def sees (s : Option St) (v o pos : Nat) : Option (Option Nat × Option Nat) :=
  s.bind (fun s => match load s v o with | .ret _ b => some (some b, read s pos) | _ => some (none, read s pos))

/-- A file with two pages, mapped, written both ways: a history of the theorems. -/
example : sees (run true init [.write 0 5, .write 4096 6, .mmap (rwMap 2), .store 11 1 7, .write 4098 8]) 11 1 4097 = some (some 7, some 7) ∧
    sees (run true init [.write 0 5, .write 4096 6, .mmap (rwMap 2), .store 11 1 7, .write 4098 8]) 11 2 4098 = some (some 8, some 8) := by
  decide +kernel

def two : St := ((run true init [.write 0 5, .write 4096 6]).getD init)
def twoMapped : St := ((mmap two (rwMap 2)).getD init)

example : Reach true Full twoMapped ∧ Reach true Dense twoMapped ∧ Shows twoMapped (rwMap 2) 11 1 := by
  have hd : ∀ k, k < (rwMap 2).n → HasData two ((rwMap 2).off + k) := by
    intro k hk
    have : k = 0 ∨ k = 1 := by have : (rwMap 2).n = 2 := rfl; omega
    rcases this with rfl | rfl <;> (unfold HasData; decide +kernel)
  exact ⟨.step (.step (.step .init (e := .write 0 5) trivial rfl) (e := .write 4096 6) trivial rfl) (e := .mmap (rwMap 2)) hd rfl,
    .step (.step (.step .init (e := .write 0 5) trivial rfl) (e := .write 4096 6) trivial rfl) (e := .mmap (rwMap 2)) (fun k hk _ => hd k hk) rfl,
    ⟨List.mem_cons_self, by decide, by decide, by decide⟩⟩

/-- C135 fails for files with holes: the pages are mapped one after the other, and a mapping shows the wrong part of the file. -/
theorem hole_shift_violated : ∃ s m, Reach true Any s ∧ Shows s m 10 0 ∧ load s 10 0 = .ret s 7 ∧ read s 0 = some 0 :=
  ⟨_, rwMap 2, reach_run (es := [.write 4096 7, .mmap (rwMap 2)]) .init rfl, ⟨List.mem_cons_self, by decide, by decide, by decide⟩, rfl, by decide +kernel⟩

/-- C135 fails for files that grow: the new data is not seen. -/
theorem grown_violated : ∃ s s' m, Reach true Any s ∧ Shows s m 11 1 ∧ read s 4096 = some 7 ∧ load s 11 0 = .ret s' 0 :=
  ⟨_, _, rwMap 2, reach_run (es := [.write 0 5, .mmap (rwMap 2), .write 4096 7]) .init rfl, ⟨List.mem_cons_self, by decide, by decide, by decide⟩, by decide +kernel, rfl⟩

/-- C135, C136 fail: after a load from a hole, a store goes to the zero page that the whole system shares, and not to the file. -/
theorem zero_page_violated : ∃ s m, Reach true Any s ∧ Shows s m 10 0 ∧ load s 10 0 = .ret s 7 ∧ read s 0 = some 0 ∧ s.data 0 0 = 7 :=
  ⟨_, rwMap 1, reach_run (es := [.truncate 4096, .mmap (rwMap 1), .load 10 0, .store 10 0 7]) .init rfl,
    ⟨List.mem_cons_self, by decide, by decide, by decide⟩, rfl, by decide +kernel, by decide +kernel⟩

/-- C135 fails: a store to a page that was a hole when it was mapped and has been written since is lost … -/
theorem lost_store_violated : ∃ s m, Reach false Any s ∧ Shows s m 10 0 ∧ load s 10 1 = .ret s 7 ∧ read s 1 = some 0 :=
  ⟨_, rwMap 1, reach_run (es := [.truncate 4096, .mmap (rwMap 1), .write 0 5, .store 10 1 7]) .init rfl,
    ⟨List.mem_cons_self, by decide, by decide, by decide⟩, rfl, by decide +kernel⟩

/-- … and stops a debug kernel. -/
theorem store_stops_violated : ∃ s, Reach true Any s ∧ store true s 10 1 7 = .stop :=
  ⟨_, reach_run (es := [.truncate 4096, .mmap (rwMap 1), .write 0 5]) .init rfl, rfl⟩

/-- C136 fails for files with holes: after `truncate` a process still sees, and can write, memory that the kernel has freed. -/
theorem freed_mapped_violated : ∃ s s' f, Reach true Any s ∧ s.pte 10 = some (f, true) ∧ f ∈ s.freed ∧ store true s 10 0 9 = .ret s' 0 ∧ s'.data f 0 = 9 :=
  ⟨_, _, 1, reach_run (es := [.write 4096 7, .mmap (rwMap 2), .truncate 4096]) .init rfl, rfl, by decide +kernel, rfl, by decide +kernel⟩

/-- C137 fails: a read-only mapping of a file opened for reading and writing can be written. -/
theorem readonly_written_violated : ∃ s s' m, Reach true Any s ∧ Shows s m 10 0 ∧ m.prot = false ∧ store true s 10 0 9 = .ret s' 0 ∧ read s' 0 = some 9 :=
  ⟨_, _, ⟨10, 0, 1, false, true, true⟩, reach_run (es := [.write 0 5, .mmap ⟨10, 0, 1, false, true, true⟩]) .init rfl,
    ⟨List.mem_cons_self, by decide, by decide, by decide⟩, rfl, rfl, by decide +kernel⟩

/-- C137 fails: by a read-only mapping of a hole, of a file opened for reading, a process writes the zero page of the system. -/
theorem readonly_zero_violated : ∃ s s' m, Reach true Any s ∧ Shows s m 10 0 ∧ m.prot = false ∧ m.wr = false ∧ store true s 10 0 9 = .ret s' 0 ∧ s'.data 0 0 = 9 :=
  ⟨_, _, ⟨10, 0, 1, false, true, false⟩, reach_run (es := [.truncate 4096, .mmap ⟨10, 0, 1, false, true, false⟩, .load 10 0]) .init rfl,
    ⟨List.mem_cons_self, by decide, by decide, by decide⟩, rfl, rfl, rfl, by decide +kernel⟩

/-- C137 fails: a file opened only for writing is read through a mapping, … -/
theorem writeonly_read_violated : ∃ s m, Reach true Any s ∧ Shows s m 10 0 ∧ m.rd = false ∧ load s 10 0 = .ret s 5 :=
  ⟨_, ⟨10, 0, 1, true, false, true⟩, reach_run (es := [.write 0 5, .mmap ⟨10, 0, 1, true, false, true⟩]) .init rfl,
    ⟨List.mem_cons_self, by decide, by decide, by decide⟩, rfl, rfl⟩

/-- … and a store to it, though asked for, fails, or stops a debug kernel. -/
theorem writeonly_store_violated : (∃ s m, Reach false Any s ∧ Shows s m 10 0 ∧ m.prot = true ∧ store false s 10 0 9 = .fault) ∧
    ∃ s, Reach true Any s ∧ store true s 10 0 9 = .stop :=
  ⟨⟨_, ⟨10, 0, 1, true, false, true⟩, reach_run (es := [.write 0 5, .mmap ⟨10, 0, 1, true, false, true⟩]) .init rfl,
    ⟨List.mem_cons_self, by decide, by decide, by decide⟩, rfl, rfl⟩,
   ⟨_, reach_run (es := [.write 0 5, .mmap ⟨10, 0, 1, true, false, true⟩]) .init rfl, rfl⟩⟩

end Verif.RamMmap
