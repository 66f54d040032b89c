/-!
# What a task holds in the kernel: temporary blocks, exit callbacks, the sound card; kernel threads

Property C177 (temporary kernel allocations), C178 (callbacks at the end of a task), C179 (ownership
of the sound card), C180 (creation of kernel threads).

The heap is the list of the live blocks with their sizes; freeing anything else, or with another
size, is memory corruption: `none`.  Which address the allocator returns, or that there is no memory,
comes from outside with every operation (`none` = out of memory).

Not modelled: the trees and lists themselves (`Avl`, `LList`), interrupts, the playing of sounds.
-/
namespace Verif.TaskRes

abbrev Heap := List (Nat × Nat)

/-- kernel/kmalloc/kmalloc.c `kfree2`: a null pointer is ignored. -/
def kfree (h : Heap) (p sz : Nat) : Option Heap :=
  if p = 0 then some h
  else if (p, sz) ∈ h then some (h.erase (p, sz)) else none

/-- include/tilck/kernel/sched.h `struct kernel_alloc`, with the task it belongs to.  The trees of all
tasks (`kallocs_tree_root`) are kept in one list; a task only ever sees its own entries. -/
structure Rec where
  task : Nat
  node : Nat       -- the address of the struct kernel_alloc
  vaddr : Nat
  size : Nat
  deriving DecidableEq, Repr

/-- kernel/exit.c:113-116 `struct on_task_exit_cb`, with the task; the lists `on_exit` of all tasks are
kept in one list. -/
structure Cb where
  task : Nat
  node : Nat
  cb : Nat         -- the function; 0 is modules/sb16 `sb16_release_on_exit`
  deriving DecidableEq, Repr

/-- sizeof(struct kernel_alloc) and sizeof(struct on_task_exit_cb), on i386. -/
def recSz : Nat := 20
def cbSz : Nat := 12

/-- The kernel: live blocks, records of temporary allocations, exit callbacks, the owner of the sound
card (modules/sb16/generic_x86/sb16.c:48); history: the callbacks called so far, with their task. -/
structure St where
  heap : Heap := []
  ka : List Rec := []
  cbs : List Cb := []
  owner : Option Nat := none
  calls : List (Nat × Nat) := []
  deriving DecidableEq, Repr

/-- The tail of `task_temp_kernel_alloc`, kernel/process.c:401-423: `p` is the block, `a2` the outcome
of the allocation of the record. -/
def tempAlloc2 (t sz p : Nat) (a2 : Option Nat) (s : St) : Option (St × Int) :=
  match a2 with
  | none =>
    match kfree ((p, sz) :: s.heap) p sz with
    | none => none
    | some h => some ({ s with heap := h }, 0)
  | some q =>
    some ({ s with heap := (q, recSz) :: (p, sz) :: s.heap, ka := ⟨t, q, p, sz⟩ :: s.ka }, (p : Int))

/-- kernel/process.c:392-426 `task_temp_kernel_alloc`. -/
def tempAlloc (t sz : Nat) (a1 a2 : Option Nat) (s : St) : Option (St × Int) :=
  match a1 with
  | none => some (s, 0)
  | some p => tempAlloc2 t sz p a2 s

/-- Is it the record of that address in the tree of that task? -/
def isRec (t p : Nat) (r : Rec) : Bool := r.task == t && r.vaddr == p

/-- kernel/process.c:428-456 `task_temp_kernel_free`; a failed assertion is `none` too. -/
def tempFree (t p : Nat) (s : St) : Option (St × Int) :=
  if p = 0 then some (s, 0)
  else
    match s.ka.find? (isRec t p) with
    | none => none
    | some r =>
      match kfree s.heap r.vaddr r.size with
      | none => none
      | some h1 =>
        match kfree h1 r.node recSz with
        | none => none
        | some h2 => some ({ s with heap := h2, ka := s.ka.eraseP (isRec t p) }, 0)

/-- kernel/exit.c:118-141 `register_on_task_exit_cb`. -/
def register (t cb : Nat) (a : Option Nat) (s : St) : St × Int :=
  match a with
  | none => (s, -12)
  | some q => ({ s with heap := (q, cbSz) :: s.heap, cbs := s.cbs ++ [⟨t, q, cb⟩] }, 0)

/-- Is it that callback in the list of that task? -/
def isCb (t cb : Nat) (c : Cb) : Bool := c.task == t && c.cb == cb

/-- kernel/exit.c:143-162 `unregister_on_task_exit_cb`: the object is taken off the list, not freed. -/
def unregister (t cb : Nat) (s : St) : St × Int :=
  if s.cbs.any (isCb t cb) then ({ s with cbs := s.cbs.eraseP (isCb t cb) }, 0) else (s, -2)

/-- kernel/exit.c:164-174 `call_on_task_exit_callbacks`: the list `l` of the task `t`.  The only
callback with an effect here is modules/sb16/generic_x86/sb16.c:287-297 `sb16_release_on_exit`. -/
def callAll (t : Nat) : List Cb → St → Option St
  | [], s => some s
  | c :: l, s =>
    match kfree s.heap c.node cbSz with
    | none => none
    | some h => callAll t l { s with heap := h,
                                     owner := if c.cb = 0 then none else s.owner,
                                     calls := s.calls ++ [(t, c.cb)] }

/-- kernel/exit.c:19-41 `task_free_all_kernel_allocs`, over the records of a task.  Simplified: the
code takes the root of the tree every time, here they come in the order of the list. -/
def freeAll : List Rec → Heap → Option Heap
  | [], h => some h
  | r :: l, h =>
    match kfree h r.vaddr r.size with
    | none => none
    | some h1 =>
      match kfree h1 r.node recSz with
      | none => none
      | some h2 => freeAll l h2

/-- The part of `terminate_process` that concerns them, kernel/exit.c:265-266.  What is left in the
lists of the task is never looked at again. -/
def exitTask (t : Nat) (s : St) : Option (St × Int) :=
  match callAll t (s.cbs.filter (·.task == t)) s with
  | none => none
  | some s1 =>
    match freeAll (s1.ka.filter (·.task == t)) s1.heap with
    | none => none
    | some h => some ({ s1 with heap := h, ka := s1.ka.filter (·.task != t),
                                cbs := s1.cbs.filter (·.task != t) }, 0)

/-- The part of `allocate_new_process` that concerns them, kernel/process.c:221 (the whole task is
copied, with the root of the tree) and 287 (`init_task_lists`: the list of callbacks is emptied). -/
def forkTask (t c : Nat) (s : St) : St × Int :=
  ({ s with ka := s.ka ++ (s.ka.filter (·.task == t)).map (fun r => { r with task := c }),
            cbs := s.cbs.filter (·.task != c) }, 0)

/-- modules/sb16/generic_x86/sb16.c:299-320 `sb16_ioctl_acquire`. -/
def acquire (t : Nat) (a : Option Nat) (s : St) : St × Int :=
  if s.owner.isSome && s.owner != some t then (s, -1)
  else if (register t 0 a s).2 ≥ 0 then ({ (register t 0 a s).1 with owner := some t }, (register t 0 a s).2)
  else register t 0 a s

/-- modules/sb16/generic_x86/sb16.c:322-341 `sb16_ioctl_release`. -/
def release (t : Nat) (s : St) : St × Int :=
  if s.owner ≠ some t then (s, -1)
  else ({ (unregister t 0 s).1 with owner := none }, 0)

inductive Op
  | alloc (t sz : Nat) (a1 a2 : Option Nat)
  | free (t p : Nat)
  | reg (t cb : Nat) (a : Option Nat)
  | unreg (t cb : Nat)
  | exit (t : Nat)
  | fork (t c : Nat)
  | acquire (t : Nat) (a : Option Nat)
  | release (t : Nat)
  deriving DecidableEq, Repr

def step (s : St) : Op → Option (St × Int)
  | .alloc t sz a1 a2 => tempAlloc t sz a1 a2 s
  | .free t p => tempFree t p s
  | .reg t cb a => some (register t cb a s)
  | .unreg t cb => some (unregister t cb s)
  | .exit t => exitTask t s
  | .fork t c => some (forkTask t c s)
  | .acquire t a => some (acquire t a s)
  | .release t => some (release t s)

/-- A history: the state at the end and the results of the calls. -/
def run : St → List Op → Option (St × List Int)
  | s, [] => some (s, [])
  | s, op :: ops =>
    match step s op with
    | none => none
    | some (s1, r) =>
      match run s1 ops with
      | none => none
      | some (s2, rs) => some (s2, r :: rs)

/-! ## Specification -/

/-- What the callers know: the blocks they got and have not given back, the callbacks they registered
and have not unregistered, the callbacks that were called, and how many were unregistered. -/
structure Abs where
  held : List (Nat × Nat × Nat) := []     -- task, address, size
  pending : List (Nat × Nat) := []        -- task, callback
  called : List (Nat × Nat) := []
  unreg : Nat := 0
  deriving DecidableEq, Repr

/-- What a call with a result means to its caller; `none` if it may not have that result. -/
def Abs.step (a : Abs) : Op → Int → Option Abs
  | .alloc t sz _ _, r =>
    if r = 0 then some a
    else if r.toNat ∈ a.held.map (·.2.1) then none      -- a block somebody has already
    else some { a with held := (t, r.toNat, sz) :: a.held }
  | .free t p, _ => some { a with held := a.held.filter (fun x => !(x.1 == t && x.2.1 == p)) }
  | .reg t cb _, r =>
    if r = 0 then some { a with pending := a.pending ++ [(t, cb)] }
    else if r = -12 then some a else none
  | .unreg t cb, r =>
    if (t, cb) ∈ a.pending then
      if r = 0 then some { a with pending := a.pending.erase (t, cb), unreg := a.unreg + 1 } else none
    else if r = -2 then some a else none
  | .exit t, _ =>
    some { a with held := a.held.filter (·.1 != t), pending := a.pending.filter (·.1 != t),
                  called := a.called ++ a.pending.filter (·.1 == t) }
  | .fork _ _, _ => some a
  | .acquire t _, r =>
    if r = 0 then some { a with pending := a.pending ++ [(t, 0)] }
    else if r = -1 ∨ r = -12 then some a else none
  | .release t, r =>
    if r = 0 then
      if (t, 0) ∈ a.pending then
        some { a with pending := a.pending.erase (t, 0), unreg := a.unreg + 1 }
      else none
    else if r = -1 then some a else none

def Abs.run : Abs → List Op → List Int → Option Abs
  | a, [], [] => some a
  | a, op :: ops, r :: rs =>
    match a.step op r with
    | none => none
    | some b => b.run ops rs
  | _, _, _ => none

/-- The allocator never returns null or a block that is in use (C166). -/
def Fresh (s : St) : Option Nat → Prop
  | none => True
  | some p => p ≠ 0 ∧ ∀ x ∈ s.heap, x.1 ≠ p

/-- The conditions on a call: the allocator does its part; a task gives back only blocks it holds; a
task forks when it holds no temporary block (they are only held inside poll and select) and its child
is new; the callback of the sound card is not registered by others. -/
def Good (s : St) (a : Abs) : Op → Prop
  | .alloc _ _ a1 a2 => Fresh s a1 ∧ Fresh s a2 ∧ (a1 = none ∨ a1 ≠ a2)
  | .free t p => p = 0 ∨ ∃ sz, (t, p, sz) ∈ a.held
  | .reg _ cb x => cb ≠ 0 ∧ Fresh s x
  | .unreg _ cb => cb ≠ 0
  | .exit _ => True
  | .fork t c => (∀ x ∈ a.held, x.1 ≠ t) ∧ (∀ x ∈ a.pending, x.1 ≠ c)
  | .acquire _ x => Fresh s x
  | .release _ => True

/-- Every call of the history is a good one. -/
def GoodRun : St → Abs → List Op → Prop
  | _, _, [] => True
  | s, a, op :: ops =>
    Good s a op ∧ ∀ s1 r b, step s op = some (s1, r) → a.step op r = some b → GoodRun s1 b ops

/-- The sound card, as its users see it: who owns it after a call with a result; `none` if the call
may not have that result. -/
def ownStep (o : Option Nat) : Op → Int → Option (Option Nat)
  | .acquire t _, r =>
    if o = none ∨ o = some t then
      if r = 0 then some (some t) else if r = -12 then some o else none
    else if r = -1 then some o else none
  | .release t, r =>
    if o = some t then if r = 0 then some none else none
    else if r = -1 then some o else none
  | .exit t, _ => some (if o = some t then none else o)
  | _, _ => some o

def ownRun : Option Nat → List Op → List Int → Option (Option Nat)
  | o, [], [] => some o
  | o, op :: ops, r :: rs =>
    match ownStep o op r with
    | none => none
    | some o1 => ownRun o1 ops rs
  | _, _, _ => none

/-- Nobody acquires the card while owning it. -/
def AcquireOnce : Option Nat → List Op → List Int → Prop
  | o, op :: ops, r :: rs =>
    (∀ t a, op = .acquire t a → o ≠ some t) ∧ ∀ o1, ownStep o op r = some o1 → AcquireOnce o1 ops rs
  | _, _, _ => True

/-! ## Proofs -/

def recBlocks (r : Rec) : Heap := [(r.vaddr, r.size), (r.node, recSz)]
def cbBlock (c : Cb) : Nat × Nat := (c.node, cbSz)

def expect (s : St) (lk : Heap) : Heap := s.ka.flatMap recBlocks ++ s.cbs.map cbBlock ++ lk

/-- What is kept: the heap is what the records and callbacks say plus the leaked objects. -/
structure Inv (s : St) (a : Abs) (lk : Heap) : Prop where
  perm : s.heap.Perm (expect s lk)
  nodup : (s.heap.map (·.1)).Nodup
  pos : ∀ x ∈ s.heap, x.1 ≠ 0
  held : a.held = s.ka.map (fun r => (r.task, r.vaddr, r.size))
  pend : a.pending = s.cbs.map (fun c => (c.task, c.cb))
  call : a.called = s.calls
  lkn : lk.length = a.unreg

theorem kfree_perm {h xs : Heap} {p sz : Nat} (hp : p ≠ 0) (h1 : h.Perm ((p, sz) :: xs)) :
    kfree h p sz = some (h.erase (p, sz)) ∧ (h.erase (p, sz)).Perm xs := by
  have hm : (p, sz) ∈ h := h1.symm.subset (List.mem_cons_self ..)
  refine ⟨by unfold kfree; rw [if_neg hp, if_pos hm], ?_⟩
  have := h1.erase (p, sz)
  rwa [List.erase_cons_head] at this

theorem nodup_erase {h : Heap} {e : Nat × Nat} (hn : (h.map (·.1)).Nodup) :
    ((h.erase e).map (·.1)).Nodup :=
  hn.sublist (List.Sublist.map _ (List.erase_sublist ..))

theorem freeAll_ok : ∀ (l : List Rec) (h xs : Heap), h.Perm (l.flatMap recBlocks ++ xs) →
    (∀ x ∈ h, x.1 ≠ 0) →
    ∃ h', freeAll l h = some h' ∧ h'.Perm xs ∧ h'.Sublist h := by
  intro l
  induction l with
  | nil => intro h xs hp hz; exact ⟨h, rfl, by simpa using hp, List.Sublist.refl _⟩
  | cons r l ih =>
    intro h xs hp hz
    have hp1 : h.Perm ((r.vaddr, r.size) :: ((r.node, recSz) :: (l.flatMap recBlocks ++ xs))) := by
      simpa [recBlocks] using hp
    have hv : r.vaddr ≠ 0 := hz (r.vaddr, r.size) (hp1.symm.subset (List.mem_cons_self ..))
    have hn : r.node ≠ 0 := hz (r.node, recSz) (hp1.symm.subset (by simp))
    obtain ⟨e1, p1⟩ := kfree_perm hv hp1
    obtain ⟨e2, p2⟩ := kfree_perm hn p1
    obtain ⟨h', e3, p3, s3⟩ := ih _ xs p2
      (fun x hx => hz x (List.mem_of_mem_erase (List.mem_of_mem_erase hx)))
    refine ⟨h', ?_, p3, (s3.trans (List.erase_sublist ..)).trans (List.erase_sublist ..)⟩
    unfold freeAll
    rw [e1]; dsimp only; rw [e2]; exact e3

theorem callAll_ok (t : Nat) : ∀ (l : List Cb) (s : St) (xs : Heap),
    s.heap.Perm (l.map cbBlock ++ xs) → (∀ x ∈ s.heap, x.1 ≠ 0) →
    ∃ s', callAll t l s = some s' ∧ s'.heap.Perm xs ∧ s'.heap.Sublist s.heap ∧ s'.ka = s.ka ∧
      s'.cbs = s.cbs ∧ s'.calls = s.calls ++ l.map (fun c => (t, c.cb)) ∧
      s'.owner = if (∃ c ∈ l, c.cb = 0) then none else s.owner := by
  intro l
  induction l with
  | nil => intro s xs hp hz; exact ⟨s, rfl, by simpa using hp, List.Sublist.refl _, rfl, rfl, by simp, by simp⟩
  | cons c l ih =>
    intro s xs hp hz
    have hp1 : s.heap.Perm ((c.node, cbSz) :: (l.map cbBlock ++ xs)) := by
      simpa [cbBlock] using hp
    have hn : c.node ≠ 0 := hz (c.node, cbSz) (hp1.symm.subset (List.mem_cons_self ..))
    obtain ⟨e1, p1⟩ := kfree_perm hn hp1
    obtain ⟨s', e3, p3, s3, k3, c3, l3, o3⟩ := ih
      { s with heap := s.heap.erase (c.node, cbSz),
               owner := if c.cb = 0 then none else s.owner,
               calls := s.calls ++ [(t, c.cb)] } xs p1
      (fun x hx => hz x (List.mem_of_mem_erase hx))
    refine ⟨s', ?_, p3, s3.trans (List.erase_sublist ..), k3, c3, by rw [l3]; simp, ?_⟩
    · unfold callAll; rw [e1]; exact e3
    · rw [o3]
      by_cases h1 : c.cb = 0
      · simp [h1]
      · simp [h1]

theorem filter_split (t : Nat) (l : List Rec) :
    (l.flatMap recBlocks).Perm ((l.filter (·.task == t)).flatMap recBlocks ++
      (l.filter (·.task != t)).flatMap recBlocks) := by
  have := (List.filter_append_perm (fun r : Rec => r.task == t) l).symm.flatMap_right recBlocks
  simpa [List.flatMap_append, bne] using this

theorem filter_split_cb (t : Nat) (l : List Cb) :
    (l.map cbBlock).Perm ((l.filter (·.task == t)).map cbBlock ++
      (l.filter (·.task != t)).map cbBlock) := by
  have := (List.filter_append_perm (fun r : Cb => r.task == t) l).symm.map cbBlock
  simpa [List.map_append, bne] using this

theorem step_exit {s : St} {a : Abs} {lk : Heap} (hi : Inv s a lk) (t : Nat) :
    ∃ s' r b, step s (.exit t) = some (s', r) ∧ a.step (.exit t) r = some b ∧ Inv s' b lk ∧
      s'.owner = if (∃ c ∈ s.cbs, c.task = t ∧ c.cb = 0) then none else s.owner := by
  have hp := hi.perm
  unfold expect at hp
  have hp1 : s.heap.Perm ((s.cbs.filter (·.task == t)).map cbBlock ++
      ((s.ka.filter (·.task == t)).flatMap recBlocks ++
        ((s.ka.filter (·.task != t)).flatMap recBlocks ++ (s.cbs.filter (·.task != t)).map cbBlock ++ lk))) := by
    refine hp.trans ?_
    refine (((filter_split t s.ka).append (filter_split_cb t s.cbs)).append_right lk).trans ?_
    rw [List.perm_iff_count]
    intro x
    simp only [List.count_append]
    omega
  obtain ⟨s1, e1, p1, u1, k1, c1, l1, o1⟩ := callAll_ok t _ s _ hp1 hi.pos
  obtain ⟨h2, e2, p2, u2⟩ := freeAll_ok _ s1.heap _ p1 (fun x hx => hi.pos x (u1.subset hx))
  rw [← k1] at e2
  refine ⟨{ s1 with heap := h2, ka := s1.ka.filter (·.task != t), cbs := s1.cbs.filter (·.task != t) },
    0, _, ?_, rfl, ?_, ?_⟩
  · show exitTask t s = _
    unfold exitTask
    rw [e1]; dsimp only; rw [e2]
  · refine ⟨?_, ?_, ?_, ?_, ?_, ?_, hi.lkn⟩
    · show h2.Perm (expect _ lk)
      unfold expect
      dsimp only
      rw [k1, c1]; exact p2
    · exact hi.nodup.sublist (List.Sublist.map _ (u2.trans u1))
    · intro x hx; exact hi.pos x (u1.subset (u2.subset hx))
    · show a.held.filter _ = _
      rw [hi.held, k1, List.filter_map]; rfl
    · show a.pending.filter _ = _
      rw [hi.pend, c1, List.filter_map]; rfl
    · show a.called ++ a.pending.filter _ = s1.calls
      rw [hi.call, l1, hi.pend, List.filter_map]
      congr 1
      apply List.map_congr_left
      intro c hc
      have h1 : c.task = t := by simpa using (List.mem_filter.1 hc).2
      rw [h1]
  · dsimp only
    rw [o1]
    simp [List.mem_filter, and_assoc]
theorem mem_heap_rec {s : St} {a : Abs} {lk : Heap} (hi : Inv s a lk) {r : Rec} (hr : r ∈ s.ka) :
    (r.vaddr, r.size) ∈ s.heap ∧ (r.node, recSz) ∈ s.heap := by
  constructor <;> refine hi.perm.symm.subset ?_ <;> unfold expect <;>
    simp only [List.mem_append, List.mem_flatMap] <;>
    exact Or.inl (Or.inl ⟨r, hr, by simp [recBlocks]⟩)

theorem fst_inj {h : Heap} (hn : (h.map (·.1)).Nodup) {p x y : Nat} (h1 : (p, x) ∈ h) (h2 : (p, y) ∈ h) :
    x = y := by
  induction h with
  | nil => simp at h1
  | cons e l ih =>
    simp only [List.map_cons, List.nodup_cons, List.mem_map, not_exists, not_and] at hn
    simp only [List.mem_cons] at h1 h2
    rcases h1 with h1 | h1 <;> rcases h2 with h2 | h2
    · rw [← h1] at h2; exact (Prod.mk.inj h2).2.symm
    · exact absurd (by rw [← h1]) (hn.1 _ h2)
    · exact absurd (by rw [← h2]) (hn.1 _ h1)
    · exact ih hn.2 h1 h2

/-- The addresses of the blocks the tasks hold are different. -/
theorem vaddr_nodup {s : St} {a : Abs} {lk : Heap} (hi : Inv s a lk) : (s.ka.map (·.vaddr)).Nodup := by
  have h1 : ((expect s lk).map (·.1)).Nodup := ((hi.perm.map _).nodup_iff).1 hi.nodup
  have h2 : ((s.ka.flatMap recBlocks).map (·.1)).Nodup := by
    unfold expect at h1
    simp only [List.map_append] at h1
    exact (List.nodup_append.1 (List.nodup_append.1 h1).1).1
  refine h2.sublist ?_
  clear h1 h2 hi
  induction s.ka with
  | nil => exact List.Sublist.refl _
  | cons r l ih =>
    simp only [List.map_cons, List.flatMap_cons, recBlocks, List.cons_append, List.nil_append]
    exact List.Sublist.cons_cons _ (List.Sublist.cons _ ih)

theorem fresh_nodup {s : St} {p sz : Nat} (hn : (s.heap.map (·.1)).Nodup) (hf : Fresh s (some p)) :
    (((p, sz) :: s.heap).map (·.1)).Nodup := by
  simp only [List.map_cons, List.nodup_cons, List.mem_map, not_exists, not_and]
  exact ⟨fun x hx => hf.2 x hx, hn⟩

theorem step_alloc {s : St} {a : Abs} {lk : Heap} (hi : Inv s a lk) {t sz : Nat} {a1 a2 : Option Nat}
    (hg : Good s a (.alloc t sz a1 a2)) :
    ∃ s' r b, step s (.alloc t sz a1 a2) = some (s', r) ∧ a.step (.alloc t sz a1 a2) r = some b ∧
      Inv s' b lk ∧ s'.owner = s.owner ∧ s'.cbs = s.cbs := by
  cases a1 with
  | none => exact ⟨s, 0, a, rfl, rfl, hi, rfl, rfl⟩
  | some p =>
    obtain ⟨f1, f2, f3⟩ := hg
    cases a2 with
    | none =>
      refine ⟨s, 0, a, ?_, rfl, hi, rfl, rfl⟩
      show tempAlloc2 t sz p none s = _
      unfold tempAlloc2
      simp only
      have : kfree ((p, sz) :: s.heap) p sz = some s.heap := by
        unfold kfree
        rw [if_neg f1.1, if_pos (List.mem_cons_self ..), List.erase_cons_head]
      rw [this]
    | some q =>
      have hpq : p ≠ q := by
        intro h
        rcases f3 with h1 | h1
        · exact absurd h1 (by simp)
        · exact h1 (by rw [h])
      have hnm : p ∉ a.held.map (·.2.1) := by
        rw [hi.held]
        simp only [List.map_map, List.mem_map, Function.comp, not_exists, not_and]
        intro r hr h
        exact f1.2 _ (mem_heap_rec hi hr).1 h
      refine ⟨{ s with heap := (q, recSz) :: (p, sz) :: s.heap, ka := ⟨t, q, p, sz⟩ :: s.ka }, (p : Int),
        { a with held := (t, p, sz) :: a.held }, rfl, ?_, ?_, rfl, rfl⟩
      · show (if (p : Int) = 0 then _ else _) = _
        have hp0 := f1.1
        rw [if_neg (by omega)]
        simp only [Int.toNat_natCast]
        rw [if_neg hnm]
      · refine ⟨?_, ?_, ?_, ?_, hi.pend, hi.call, hi.lkn⟩
        · have h1 := hi.perm
          unfold expect at h1 ⊢
          dsimp only
          simp only [List.flatMap_cons, recBlocks, List.cons_append, List.nil_append]
          exact (List.Perm.swap _ _ _).trans ((h1.cons _).cons _)
        · simp only [List.map_cons, List.nodup_cons, List.mem_cons, List.mem_map, not_or, not_exists, not_and]
          exact ⟨⟨fun h => hpq h.symm, fun x hx => f2.2 x hx⟩, fun x hx => f1.2 x hx, hi.nodup⟩
        · intro x hx
          simp only [List.mem_cons] at hx
          rcases hx with h | h | h
          · rw [h]; exact f2.1
          · rw [h]; exact f1.1
          · exact hi.pos x h
        · show (t, p, sz) :: a.held = _
          rw [hi.held]; rfl

theorem eraseP_perm {α β : Type} [DecidableEq β] (f : α → List β) (P : α → Bool) : ∀ (l : List α) (r : α),
    l.find? P = some r → (l.flatMap f).Perm (f r ++ (l.eraseP P).flatMap f) := by
  intro l
  induction l with
  | nil => intro r h; simp at h
  | cons x l ih =>
    intro r h
    cases hx : P x with
    | true =>
      rw [List.find?_cons_of_pos (by simpa using hx)] at h
      rw [List.eraseP_cons_of_pos (by simpa using hx)]
      cases h
      exact List.Perm.refl _
    | false =>
      rw [List.find?_cons_of_neg (by simp [hx])] at h
      rw [List.eraseP_cons_of_neg (by simp [hx])]
      simp only [List.flatMap_cons]
      have := ih r h
      rw [List.perm_iff_count] at this ⊢
      intro b
      have := this b
      simp only [List.count_append] at this ⊢
      omega

theorem filter_eraseP {t p : Nat} : ∀ (l : List Rec), (l.map (·.vaddr)).Nodup →
    l.filter (fun r => !(isRec t p r)) = l.eraseP (isRec t p) := by
  intro l
  induction l with
  | nil => intro _; rfl
  | cons x l ih =>
    intro hn
    simp only [List.map_cons, List.nodup_cons, List.mem_map, not_exists, not_and] at hn
    cases hx : isRec t p x with
    | true =>
      rw [List.eraseP_cons_of_pos (by simpa using hx), List.filter_cons_of_neg (by simp [hx])]
      rw [List.filter_eq_self]
      intro y hy
      have h1 : x.vaddr = p := by simp [isRec] at hx; exact hx.2
      have h2 := hn.1 y hy
      simp [isRec]
      exact Or.inr (fun h3 => h2 (by rw [h3, h1]))
    | false =>
      rw [List.eraseP_cons_of_neg (by simp [hx]), List.filter_cons_of_pos (by simp [hx]), ih hn.2]

theorem step_free {s : St} {a : Abs} {lk : Heap} (hi : Inv s a lk) {t p : Nat}
    (hg : Good s a (.free t p)) :
    ∃ s' r b, step s (.free t p) = some (s', r) ∧ a.step (.free t p) r = some b ∧
      Inv s' b lk ∧ s'.owner = s.owner ∧ s'.cbs = s.cbs := by
  by_cases hp : p = 0
  · refine ⟨s, 0, _, by show tempFree t p s = _; unfold tempFree; rw [if_pos hp], rfl, ?_, rfl, rfl⟩
    have : a.held.filter (fun x => !(x.1 == t && x.2.1 == p)) = a.held := by
      rw [List.filter_eq_self]
      intro x hx
      rw [hi.held] at hx
      obtain ⟨r, hr, e⟩ := List.mem_map.1 hx
      have := hi.pos _ (mem_heap_rec hi hr).1
      subst e
      simp only [hp]
      simp only [Bool.not_eq_true', Bool.and_eq_false_iff, beq_eq_false_iff_ne]
      exact Or.inr this
    rw [this]; exact hi
  · rcases hg with h | ⟨sz, hm⟩
    · exact absurd h hp
    · rw [hi.held] at hm
      obtain ⟨r0, hr0, e0⟩ := List.mem_map.1 hm
      have hr0p : isRec t p r0 = true := by
        simp only [Prod.mk.injEq] at e0
        simp [isRec, e0.1, e0.2.1]
      obtain ⟨r, hr⟩ : ∃ r, s.ka.find? (isRec t p) = some r := by
        cases hf : s.ka.find? (isRec t p) with
        | some r => exact ⟨r, rfl⟩
        | none => exact absurd hr0p (List.find?_eq_none.1 hf r0 hr0)
      have hrm := List.mem_of_find?_eq_some hr
      have hm2 := mem_heap_rec hi hrm
      have hp1 : s.heap.Perm ((r.vaddr, r.size) :: (r.node, recSz) ::
          ((s.ka.eraseP (isRec t p)).flatMap recBlocks ++ s.cbs.map cbBlock ++ lk)) := by
        have h1 := hi.perm
        unfold expect at h1
        refine h1.trans ?_
        have := ((eraseP_perm recBlocks _ _ r hr).append_right (s.cbs.map cbBlock)).append_right lk
        simpa [recBlocks] using this
      obtain ⟨e1, p1⟩ := kfree_perm (hi.pos _ hm2.1) hp1
      obtain ⟨e2, p2⟩ := kfree_perm (hi.pos _ hm2.2) p1
      refine ⟨{ s with heap := (s.heap.erase (r.vaddr, r.size)).erase (r.node, recSz),
                       ka := s.ka.eraseP (isRec t p) }, 0, _, ?_, rfl, ?_, rfl, rfl⟩
      · show tempFree t p s = _
        unfold tempFree
        rw [if_neg hp, hr]; dsimp only; rw [e1]; dsimp only; rw [e2]
      · refine ⟨p2, nodup_erase (nodup_erase hi.nodup), ?_, ?_, hi.pend, hi.call, hi.lkn⟩
        · intro x hx; exact hi.pos x (List.mem_of_mem_erase (List.mem_of_mem_erase hx))
        · show a.held.filter _ = _
          rw [hi.held, List.filter_map]
          dsimp only
          rw [← filter_eraseP s.ka (vaddr_nodup hi)]
          rfl

theorem inv_reg {s : St} {a : Abs} {lk : Heap} (hi : Inv s a lk) {t cb q : Nat} (hf : Fresh s (some q)) :
    Inv { s with heap := (q, cbSz) :: s.heap, cbs := s.cbs ++ [⟨t, q, cb⟩] }
      { a with pending := a.pending ++ [(t, cb)] } lk := by
  refine ⟨?_, fresh_nodup hi.nodup hf, ?_, hi.held, ?_, hi.call, hi.lkn⟩
  · have h1 := hi.perm
    unfold expect at h1 ⊢
    dsimp only
    have := h1.cons (q, cbSz)
    rw [List.perm_iff_count] at this ⊢
    intro b
    have := this b
    simp only [List.count_append, List.count_cons, List.map_append, List.map_cons, List.map_nil,
      List.count_nil, cbBlock] at this ⊢
    omega
  · intro x hx
    simp only [List.mem_cons] at hx
    rcases hx with h | h
    · rw [h]; exact hf.1
    · exact hi.pos x h
  · show a.pending ++ _ = _
    rw [hi.pend]; simp

theorem any_iff {s : St} {a : Abs} {lk : Heap} (hi : Inv s a lk) (t cb : Nat) :
    s.cbs.any (isCb t cb) = true ↔ (t, cb) ∈ a.pending := by
  rw [hi.pend]
  simp only [List.any_eq_true, List.mem_map, isCb, Bool.and_eq_true, beq_iff_eq, Prod.mk.injEq]

theorem erase_map (t cb : Nat) : ∀ (l : List Cb),
    (l.map (fun c => (c.task, c.cb))).erase (t, cb) = (l.eraseP (isCb t cb)).map (fun c => (c.task, c.cb)) := by
  intro l
  induction l with
  | nil => rfl
  | cons x l ih =>
    cases hx : isCb t cb x with
    | true =>
      rw [List.eraseP_cons_of_pos (by simpa using hx)]
      have : (x.task, x.cb) = (t, cb) := by simp [isCb] at hx; rw [hx.1, hx.2]
      rw [List.map_cons, this, List.erase_cons_head]
    | false =>
      rw [List.eraseP_cons_of_neg (by simp [hx])]
      have : (x.task, x.cb) ≠ (t, cb) := by
        intro h
        simp only [Prod.mk.injEq] at h
        simp [isCb, h.1, h.2] at hx
      rw [List.map_cons, List.erase_cons_tail (by simpa using this), ih, List.map_cons]

theorem inv_unreg {s : St} {a : Abs} {lk : Heap} (hi : Inv s a lk) {t cb : Nat}
    (hm : (t, cb) ∈ a.pending) :
    ∃ lk', Inv { s with cbs := s.cbs.eraseP (isCb t cb) }
      { a with pending := a.pending.erase (t, cb), unreg := a.unreg + 1 } lk' := by
  obtain ⟨c, hc⟩ : ∃ c, s.cbs.find? (isCb t cb) = some c := by
    cases hf : s.cbs.find? (isCb t cb) with
    | some r => exact ⟨r, rfl⟩
    | none =>
      have := (any_iff hi t cb).2 hm
      obtain ⟨x, hx, h2⟩ := List.any_eq_true.1 this
      exact absurd h2 (List.find?_eq_none.1 hf x hx)
  refine ⟨cbBlock c :: lk, ?_, hi.nodup, hi.pos, hi.held, ?_, hi.call, ?_⟩
  · have h1 := hi.perm
    unfold expect at h1 ⊢
    dsimp only
    have h2 := eraseP_perm (fun c => [cbBlock c]) _ _ c hc
    have h3 : ∀ l : List Cb, l.flatMap (fun c => [cbBlock c]) = l.map cbBlock := by
      intro l; induction l with
      | nil => rfl
      | cons x l ih => simp [List.flatMap_cons, ih]
    rw [h3, h3] at h2
    rw [List.perm_iff_count] at h1 h2 ⊢
    intro b
    have h4 := h1 b
    have h5 := h2 b
    simp only [List.count_append, List.count_cons, List.count_nil] at h4 h5 ⊢
    omega
  · show a.pending.erase _ = _
    rw [hi.pend, erase_map]
  · simp [hi.lkn]

theorem step_fork {s : St} {a : Abs} {lk : Heap} (hi : Inv s a lk) {t c : Nat}
    (hg : Good s a (.fork t c)) : (forkTask t c s).1 = s := by
  have h1 : s.ka.filter (·.task == t) = [] := by
    rw [List.filter_eq_nil_iff]
    intro r hr
    have := hg.1 (r.task, r.vaddr, r.size) (by rw [hi.held]; exact List.mem_map.2 ⟨r, hr, rfl⟩)
    simpa using this
  have h2 : s.cbs.filter (·.task != c) = s.cbs := by
    rw [List.filter_eq_self]
    intro r hr
    have := hg.2 (r.task, r.cb) (by rw [hi.pend]; exact List.mem_map.2 ⟨r, hr, rfl⟩)
    simpa using this
  unfold forkTask
  dsimp only
  rw [h1, h2]
  simp

/-- The owner of the sound card always has its callback. -/
def OwnInv (s : St) : Prop := ∀ t, s.owner = some t → ∃ c ∈ s.cbs, c.task = t ∧ c.cb = 0

theorem own_unreg {s : St} (ho : OwnInv s) {t cb : Nat} (hcb : cb ≠ 0) :
    OwnInv { s with cbs := s.cbs.eraseP (isCb t cb) } := by
  intro u hu
  obtain ⟨c, hc, h1, h2⟩ := ho u hu
  refine ⟨c, ?_, h1, h2⟩
  show c ∈ s.cbs.eraseP (isCb t cb)
  rw [List.mem_eraseP_of_neg]
  · exact hc
  · simp [isCb, h2]; intro _ h; exact hcb h.symm

theorem step_ok {s : St} {a : Abs} {lk : Heap} (hi : Inv s a lk) (ho : OwnInv s) {op : Op}
    (hg : Good s a op) :
    ∃ s' r b lk', step s op = some (s', r) ∧ a.step op r = some b ∧ Inv s' b lk' ∧ OwnInv s' := by
  cases op with
  | alloc t sz a1 a2 =>
    obtain ⟨s', r, b, h1, h2, h3, h4, h5⟩ := step_alloc hi hg
    exact ⟨s', r, b, lk, h1, h2, h3, fun u hu => by rw [h4] at hu; rw [h5]; exact ho u hu⟩
  | free t p =>
    obtain ⟨s', r, b, h1, h2, h3, h4, h5⟩ := step_free hi hg
    exact ⟨s', r, b, lk, h1, h2, h3, fun u hu => by rw [h4] at hu; rw [h5]; exact ho u hu⟩
  | reg t cb x =>
    cases x with
    | none => exact ⟨s, -12, a, lk, rfl, rfl, hi, ho⟩
    | some q =>
      refine ⟨_, 0, _, lk, rfl, rfl, inv_reg hi hg.2, ?_⟩
      intro u hu
      obtain ⟨c, hc, h⟩ := ho u hu
      exact ⟨c, List.mem_append_left _ hc, h⟩
  | unreg t cb =>
    by_cases hm : (t, cb) ∈ a.pending
    · obtain ⟨lk', h⟩ := inv_unreg hi hm
      refine ⟨_, 0, _, lk', ?_, ?_, h, own_unreg ho hg⟩
      · show some (unregister t cb s) = _
        unfold unregister
        rw [if_pos ((any_iff hi t cb).2 hm)]
      · show (if _ then _ else _) = _
        rw [if_pos hm]; rfl
    · refine ⟨s, -2, a, lk, ?_, ?_, hi, ho⟩
      · show some (unregister t cb s) = _
        unfold unregister
        rw [if_neg (fun h => hm ((any_iff hi t cb).1 h))]
      · show (if _ then _ else _) = _
        rw [if_neg hm]; rfl
  | exit t =>
    obtain ⟨s', r, b, h1, h2, h3, h4⟩ := step_exit hi t
    refine ⟨s', r, b, lk, h1, h2, h3, ?_⟩
    intro u hu
    rw [h4] at hu
    split at hu
    · cases hu
    · rename_i hne
      obtain ⟨c, hc, h5, h6⟩ := ho u hu
      by_cases hut : u = t
      · exact absurd ⟨c, hc, h5.trans hut, h6⟩ hne
      · have hmem : (u, 0) ∈ b.pending := by
          have : b.pending = a.pending.filter (·.1 != t) := by
            have h7 : some _ = some b := h2
            cases h7; rfl
          rw [this, List.mem_filter]
          refine ⟨?_, by simpa using hut⟩
          rw [hi.pend]
          exact List.mem_map.2 ⟨c, hc, by rw [h5, h6]⟩
        rw [h3.pend] at hmem
        obtain ⟨c', hc', e⟩ := List.mem_map.1 hmem
        simp only [Prod.mk.injEq] at e
        exact ⟨c', hc', e.1, e.2⟩
  | fork t c =>
    refine ⟨(forkTask t c s).1, 0, a, lk, rfl, rfl, ?_, ?_⟩ <;> rw [step_fork hi hg] <;> assumption
  | acquire t x =>
    by_cases hown : (s.owner.isSome && s.owner != some t) = true
    · refine ⟨s, -1, a, lk, ?_, rfl, hi, ho⟩
      show some (acquire t x s) = _
      unfold acquire
      rw [if_pos hown]
    · cases x with
      | none =>
        refine ⟨s, -12, a, lk, ?_, rfl, hi, ho⟩
        show some (acquire t none s) = _
        unfold acquire
        rw [if_neg hown]; rfl
      | some q =>
        refine ⟨{ s with heap := (q, cbSz) :: s.heap, cbs := s.cbs ++ [⟨t, q, 0⟩], owner := some t }, 0, _, lk,
          ?_, rfl, ?_, ?_⟩
        · show some (acquire t (some q) s) = _
          unfold acquire
          rw [if_neg hown]; rfl
        · obtain ⟨h1, h2, h3, h4, h5, h6, h7⟩ := inv_reg (t := t) (cb := 0) hi hg
          exact ⟨h1, h2, h3, h4, h5, h6, h7⟩
        · intro u hu
          have hu' : some t = some u := hu
          cases hu'
          exact ⟨⟨t, q, 0⟩, List.mem_append_right _ (List.mem_singleton.2 rfl), rfl, rfl⟩
  | release t =>
    by_cases hown : s.owner = some t
    · have hm : (t, 0) ∈ a.pending := by
        obtain ⟨c, hc, h5, h6⟩ := ho t hown
        rw [hi.pend]
        exact List.mem_map.2 ⟨c, hc, by rw [h5, h6]⟩
      obtain ⟨lk', h1, h2, h3, h4, h5, h6, h7⟩ := inv_unreg hi hm
      refine ⟨{ s with cbs := s.cbs.eraseP (isCb t 0), owner := none }, 0, _, lk', ?_, ?_,
        ⟨h1, h2, h3, h4, h5, h6, h7⟩, ?_⟩
      · show some (release t s) = _
        unfold release unregister
        rw [if_neg (fun h => h hown), if_pos ((any_iff hi t 0).2 hm)]
      · show (if _ then _ else _) = _
        simp [hm]
      · intro u hu; cases hu
    · refine ⟨s, -1, a, lk, ?_, rfl, hi, ho⟩
      show some (release t s) = _
      unfold release
      rw [if_pos hown]

theorem inv_init : Inv {} {} [] :=
  ⟨List.Perm.refl _, List.nodup_nil, fun _ h => (List.not_mem_nil h).elim, rfl, rfl, rfl, rfl⟩

theorem run_ok : ∀ (ops : List Op) (s : St) (a : Abs) (lk : Heap), Inv s a lk → OwnInv s → GoodRun s a ops →
    ∃ s' rs b lk', run s ops = some (s', rs) ∧ a.run ops rs = some b ∧ Inv s' b lk' := by
  intro ops
  induction ops with
  | nil => intro s a lk hi _ _; exact ⟨s, [], a, lk, rfl, rfl, hi⟩
  | cons op ops ih =>
    intro s a lk hi ho hg
    obtain ⟨s1, r, b, lk1, h1, h2, h3, h4⟩ := step_ok hi ho hg.1
    obtain ⟨s2, rs, b2, lk2, e1, e2, e3⟩ := ih s1 b lk1 h3 h4 (hg.2 s1 r b h1 h2)
    refine ⟨s2, r :: rs, b2, lk2, ?_, ?_, e3⟩
    · unfold run; rw [h1]; dsimp only; rw [e1]
    · unfold Abs.run; rw [h2]; exact e2

theorem expect_length {s : St} {lk : Heap} :
    (expect s lk).length = 2 * s.ka.length + s.cbs.length + lk.length := by
  have : (s.ka.flatMap recBlocks).length = 2 * s.ka.length := by
    induction s.ka with
    | nil => rfl
    | cons x l ih => rw [List.flatMap_cons, List.length_append, ih, List.length_cons]; simp [recBlocks]; omega
  unfold expect
  simp [this, Nat.add_assoc]

/-- **C177.** Temporary kernel allocations, in every history of calls of any tasks: memory is never
corrupted; a task never gets a block that somebody holds; the blocks held are live with the size that
was asked for; and besides a record for each of them and the objects of the callbacks nothing is left:
what a task held is gone when it ends, a failed allocation leaves nothing. -/
theorem temp_exact (ops : List Op) (hg : GoodRun {} {} ops) :
    ∃ s rs a, run {} ops = some (s, rs) ∧ Abs.run {} ops rs = some a ∧
      (∀ x ∈ a.held, (x.2.1, x.2.2) ∈ s.heap) ∧ (a.held.map (·.2.1)).Nodup ∧
      s.heap.length = 2 * a.held.length + a.pending.length + a.unreg := by
  obtain ⟨s, rs, a, lk, h1, h2, h3⟩ := run_ok ops {} {} [] inv_init (fun _ h => by cases h) hg
  refine ⟨s, rs, a, h1, h2, ?_, ?_, ?_⟩
  · intro x hx
    rw [h3.held] at hx
    obtain ⟨r, hr, e⟩ := List.mem_map.1 hx
    subst e
    exact (mem_heap_rec h3 hr).1
  · rw [h3.held, List.map_map]
    exact vaddr_nodup h3
  · rw [h3.perm.length_eq, expect_length, h3.held, h3.pend, ← h3.lkn]
    simp

/-- **C178.** The callbacks called so far are, task by task in the order in which the tasks ended,
those it had registered and not unregistered, in the order of registration, once each. -/
theorem callbacks_exact (ops : List Op) (hg : GoodRun {} {} ops) :
    ∃ s rs a, run {} ops = some (s, rs) ∧ Abs.run {} ops rs = some a ∧ s.calls = a.called := by
  obtain ⟨s, rs, a, lk, h1, h2, h3⟩ := run_ok ops {} {} [] inv_init (fun _ h => by cases h) hg
  exact ⟨s, rs, a, h1, h2, h3.call.symm⟩

/-- `GoodRun` can be computed (for the examples). -/
def freshB (s : St) : Option Nat → Bool
  | none => true
  | some p => decide (p ≠ 0) && s.heap.all (fun x => decide (x.1 ≠ p))

def goodB (s : St) (a : Abs) : Op → Bool
  | .alloc _ _ a1 a2 => freshB s a1 && freshB s a2 && (decide (a1 = none) || decide (a1 ≠ a2))
  | .free t p => decide (p = 0) || a.held.any (fun x => decide (x.1 = t) && decide (x.2.1 = p))
  | .reg _ cb x => decide (cb ≠ 0) && freshB s x
  | .unreg _ cb => decide (cb ≠ 0)
  | .exit _ => true
  | .fork t c => a.held.all (fun x => decide (x.1 ≠ t)) && a.pending.all (fun x => decide (x.1 ≠ c))
  | .acquire _ x => freshB s x
  | .release _ => true

def goodRunB : St → Abs → List Op → Bool
  | _, _, [] => true
  | s, a, op :: ops =>
    goodB s a op &&
      match step s op with
      | none => true
      | some (s1, r) =>
        match a.step op r with
        | none => true
        | some b => goodRunB s1 b ops

theorem fresh_of {s : St} {o : Option Nat} (h : freshB s o = true) : Fresh s o := by
  cases o with
  | none => trivial
  | some p =>
    simp only [freshB, Bool.and_eq_true, decide_eq_true_eq, List.all_eq_true] at h
    exact h

theorem good_of {s : St} {a : Abs} {op : Op} (h : goodB s a op = true) : Good s a op := by
  cases op <;> simp only [goodB, Bool.and_eq_true, Bool.or_eq_true, decide_eq_true_eq, List.all_eq_true,
    List.any_eq_true] at h
  · exact ⟨fresh_of h.1.1, fresh_of h.1.2, h.2⟩
  · rcases h with h | ⟨x, hx, h1, h2⟩
    · exact Or.inl h
    · exact Or.inr ⟨x.2.2, by rw [← h1, ← h2]; exact hx⟩
  · exact ⟨h.1, fresh_of h.2⟩
  · exact h
  · trivial
  · exact h
  · exact fresh_of h
  · trivial

theorem good_run_of : ∀ (ops : List Op) (s : St) (a : Abs), goodRunB s a ops = true → GoodRun s a ops := by
  intro ops
  induction ops with
  | nil => intro s a _; trivial
  | cons op ops ih =>
    intro s a h
    unfold goodRunB at h
    rw [Bool.and_eq_true] at h
    refine ⟨good_of h.1, ?_⟩
    intro s1 r b h1 h2
    have h3 := h.2
    rw [h1] at h3
    dsimp only at h3
    rw [h2] at h3
    exact ih s1 b h3

/-- Two tasks with temporary blocks and callbacks, one fork, failures, and the end of both. -/
def demo : List Op :=
  [.alloc 1 64 (some 100) (some 200), .reg 1 7 (some 300), .alloc 2 32 (some 400) none,
   .alloc 2 32 (some 400) (some 500), .reg 1 8 (some 600), .reg 2 7 none, .free 1 100, .fork 1 3,
   .unreg 1 7, .unreg 3 7, .acquire 1 (some 700), .acquire 2 (some 800), .exit 1, .acquire 2 (some 800),
   .release 2, .exit 2]

theorem demo_good : GoodRun {} {} demo := good_run_of _ _ _ (by decide +kernel)

example : (run {} demo).map (·.1.calls) = some [(1, 8), (1, 0)] ∧
    (run {} demo).map (·.1.heap.length) = some 2 ∧
    (run {} demo).map (·.2) = some [100, 0, 0, 400, 0, -12, 0, 0, 0, -2, 0, -1, 0, 0, 0, 0] := by decide +kernel

/-- The task an operation is about. -/
def actor : Op → Nat
  | .alloc t _ _ _ => t
  | .free t _ => t
  | .reg t _ _ => t
  | .unreg t _ => t
  | .exit t => t
  | .fork t _ => t
  | .acquire t _ => t
  | .release t => t

/-- Does the operation take back a callback? -/
def takesBack : Op → Prop
  | .unreg _ _ => True
  | .release _ => True
  | _ => False

theorem abs_step_actors {a b : Abs} {op : Op} {r : Int} (h : a.step op r = some b) :
    (∀ x ∈ b.held, x ∈ a.held ∨ x.1 = actor op) ∧ (∀ x ∈ b.pending, x ∈ a.pending ∨ x.1 = actor op) ∧
    (¬ takesBack op → b.unreg = a.unreg) := by
  cases op <;> simp only [Abs.step] at h <;> (repeat' split at h) <;> first
    | (cases h; done)
    | (cases h
       refine ⟨fun x hx => ?_, fun x hx => ?_, fun hn => ?_⟩ <;>
         first
         | rfl
         | exact Or.inl hx
         | exact Or.inl (List.mem_of_mem_erase hx)
         | exact Or.inl (List.mem_filter.1 hx).1
         | exact absurd trivial hn
         | (simp only [List.mem_append, List.mem_cons, List.not_mem_nil, or_false] at hx
            rcases hx with h1 | h1
            · first | exact Or.inl h1 | exact Or.inr (by rw [h1]; rfl)
            · first | exact Or.inl h1 | exact Or.inr (by rw [h1]; rfl)))

theorem abs_run_append : ∀ (o1 o2 : List Op) (a c : Abs) (rs : List Int), a.run (o1 ++ o2) rs = some c →
    ∃ r1 r2 b, rs = r1 ++ r2 ∧ a.run o1 r1 = some b ∧ b.run o2 r2 = some c := by
  intro o1
  induction o1 with
  | nil => intro o2 a c rs h; exact ⟨[], rs, a, rfl, rfl, h⟩
  | cons op o1 ih =>
    intro o2 a c rs h
    cases rs with
    | nil => simp [Abs.run] at h
    | cons r rs =>
      rw [List.cons_append] at h
      unfold Abs.run at h
      cases hs : a.step op r with
      | none => rw [hs] at h; cases h
      | some a1 =>
        rw [hs] at h
        obtain ⟨r1, r2, b, e1, e2, e3⟩ := ih o2 a1 c rs h
        refine ⟨r :: r1, r2, b, by rw [e1]; rfl, ?_, e3⟩
        unfold Abs.run; rw [hs]; exact e2

theorem abs_run_actors : ∀ (ops : List Op) (a b : Abs) (rs : List Int), a.run ops rs = some b →
    (∀ x ∈ b.held, x ∈ a.held ∨ ∃ op ∈ ops, actor op = x.1) ∧
    (∀ x ∈ b.pending, x ∈ a.pending ∨ ∃ op ∈ ops, actor op = x.1) ∧
    ((∀ op ∈ ops, ¬ takesBack op) → b.unreg = a.unreg) := by
  intro ops
  induction ops with
  | nil =>
    intro a b rs h
    cases rs with
    | nil => unfold Abs.run at h; cases h; exact ⟨fun x h => Or.inl h, fun x h => Or.inl h, fun _ => rfl⟩
    | cons r rs => simp [Abs.run] at h
  | cons op ops ih =>
    intro a b rs h
    cases rs with
    | nil => simp [Abs.run] at h
    | cons r rs =>
      unfold Abs.run at h
      cases hs : a.step op r with
      | none => rw [hs] at h; cases h
      | some a1 =>
        rw [hs] at h
        obtain ⟨i1, i2, i3⟩ := ih a1 b rs h
        obtain ⟨j1, j2, j3⟩ := abs_step_actors hs
        refine ⟨?_, ?_, ?_⟩
        · intro x hx
          rcases i1 x hx with h1 | ⟨o, ho, e⟩
          · rcases j1 x h1 with h2 | h2
            · exact Or.inl h2
            · exact Or.inr ⟨op, List.mem_cons_self .., h2.symm⟩
          · exact Or.inr ⟨o, List.mem_cons_of_mem _ ho, e⟩
        · intro x hx
          rcases i2 x hx with h1 | ⟨o, ho, e⟩
          · rcases j2 x h1 with h2 | h2
            · exact Or.inl h2
            · exact Or.inr ⟨op, List.mem_cons_self .., h2.symm⟩
          · exact Or.inr ⟨o, List.mem_cons_of_mem _ ho, e⟩
        · intro hn
          rw [i3 (fun o ho => hn o (List.mem_cons_of_mem _ ho)), j3 (hn op (List.mem_cons_self ..))]

theorem abs_run_exits : ∀ (ts : List Nat) (a b : Abs) (rs : List Int), a.run (ts.map Op.exit) rs = some b →
    (∀ x ∈ b.held, x ∈ a.held ∧ x.1 ∉ ts) ∧ (∀ x ∈ b.pending, x ∈ a.pending ∧ x.1 ∉ ts) ∧ b.unreg = a.unreg := by
  intro ts
  induction ts with
  | nil =>
    intro a b rs h
    cases rs with
    | nil => simp only [List.map_nil, Abs.run] at h; cases h; simp
    | cons r rs => simp [Abs.run] at h
  | cons t ts ih =>
    intro a b rs h
    cases rs with
    | nil => simp [Abs.run] at h
    | cons r rs =>
      simp only [List.map_cons, Abs.run, Abs.step] at h
      obtain ⟨i1, i2, i3⟩ := ih _ b rs h
      refine ⟨?_, ?_, i3⟩
      · intro x hx
        obtain ⟨h1, h2⟩ := i1 x hx
        obtain ⟨h3, h4⟩ := List.mem_filter.1 h1
        simp only [bne_iff_ne] at h4
        exact ⟨h3, by simp [h4, h2]⟩
      · intro x hx
        obtain ⟨h1, h2⟩ := i2 x hx
        obtain ⟨h3, h4⟩ := List.mem_filter.1 h1
        simp only [bne_iff_ne] at h4
        exact ⟨h3, by simp [h4, h2]⟩

/-- **C178**, memory: if no callback is ever taken back, nothing is left in memory once every task
that did something has ended.  Partial: with `unregister` it is false (next theorem). -/
theorem ended_clean_partial (ops : List Op) (ts : List Nat) (hg : GoodRun {} {} (ops ++ ts.map Op.exit))
    (hn : ∀ op ∈ ops, ¬ takesBack op) (ht : ∀ op ∈ ops, actor op ∈ ts) :
    ∃ s rs, run {} (ops ++ ts.map Op.exit) = some (s, rs) ∧ s.heap = [] := by
  obtain ⟨s, rs, a, h1, h2, _, _, h5⟩ := temp_exact _ hg
  refine ⟨s, rs, h1, ?_⟩
  obtain ⟨r1, r2, b, _, e2, e3⟩ := abs_run_append _ _ _ _ _ h2
  obtain ⟨i1, i2, i3⟩ := abs_run_actors _ _ _ _ e2
  obtain ⟨j1, j2, j3⟩ := abs_run_exits _ _ _ _ e3
  have k1 : a.held = [] := by
    rw [List.eq_nil_iff_forall_not_mem]
    intro x hx
    obtain ⟨h6, h7⟩ := j1 x hx
    rcases i1 x h6 with h8 | ⟨op, ho, e⟩
    · exact List.not_mem_nil h8
    · exact h7 (e ▸ ht op ho)
  have k2 : a.pending = [] := by
    rw [List.eq_nil_iff_forall_not_mem]
    intro x hx
    obtain ⟨h6, h7⟩ := j2 x hx
    rcases i2 x h6 with h8 | ⟨op, ho, e⟩
    · exact List.not_mem_nil h8
    · exact h7 (e ▸ ht op ho)
  have k3 : a.unreg = 0 := by rw [j3, i3 hn]
  rw [k1, k2, k3] at h5
  exact List.length_eq_zero_iff.1 h5

example : ∃ s rs, run {} (([.alloc 1 64 (some 100) (some 200), .reg 2 7 (some 300)] : List Op) ++
    [1, 2].map Op.exit) = some (s, rs) ∧ s.heap = [] :=
  ended_clean_partial _ _
    (good_run_of _ _ _ (by decide +kernel))
    (by simp [takesBack]) (by simp [actor])

/-- **C178 violated.** A callback that is registered and unregistered leaves its object in memory for
ever: after the end of the task it is still there. -/
theorem unregister_leaks_violated :
    ∃ ops, GoodRun {} {} ops ∧ (∀ op ∈ ops, actor op = 1) ∧ ops.getLast? = some (.exit 1) ∧
      ∃ s rs, run {} ops = some (s, rs) ∧ s.heap = [(300, cbSz)] ∧ s.cbs = [] := by
  refine ⟨[.reg 1 7 (some 300), .unreg 1 7, .exit 1], ?_, ?_, rfl,
    { heap := [(300, cbSz)] }, [0, 0, 0], by decide +kernel, rfl, rfl⟩
  · exact good_run_of _ _ _ (by decide +kernel)
  · simp [actor]

/-- **C177**, why a task must not fork while it holds a temporary block: parent and child share the
records, and the second of them to end frees them again. -/
theorem fork_with_block_unsafe :
    run {} [.alloc 1 64 (some 100) (some 200), .fork 1 2, .exit 1] ≠ none ∧
    run {} [.alloc 1 64 (some 100) (some 200), .fork 1 2, .exit 1, .exit 2] = none := by decide +kernel

/-! ### The sound card -/

/-- The callback of the card is registered exactly once by its owner and by nobody else. -/
def Once (s : St) (a : Abs) : Prop :=
  ∀ t, a.pending.count (t, 0) = if s.owner = some t then 1 else 0

theorem once_step {s s1 : St} {a b : Abs} {lk : Heap} {op : Op} {r : Int} (hi : Inv s a lk) (ho : OwnInv s)
    (hg : Good s a op) (h1 : step s op = some (s1, r)) (h2 : a.step op r = some b) (hc : Once s a)
    (ha : ∀ t x, op = .acquire t x → s.owner ≠ some t) :
    Once s1 b ∧ ownStep s.owner op r = some s1.owner := by
  cases op with
  | alloc t sz a1 a2 =>
    obtain ⟨s', r', b', e1, e2, e3, e4, e5⟩ := step_alloc hi hg
    rw [h1] at e1; cases e1
    rw [h2] at e2; cases e2
    have hp : b.pending = a.pending := by rw [e3.pend, e5, ← hi.pend]
    exact ⟨fun u => by rw [hp, e4]; exact hc u, by rw [e4]; rfl⟩
  | free t p =>
    obtain ⟨s', r', b', e1, e2, e3, e4, e5⟩ := step_free hi hg
    rw [h1] at e1; cases e1
    rw [h2] at e2; cases e2
    have hp : b.pending = a.pending := by rw [e3.pend, e5, ← hi.pend]
    exact ⟨fun u => by rw [hp, e4]; exact hc u, by rw [e4]; rfl⟩
  | reg t cb x =>
    have hcb : cb ≠ 0 := hg.1
    cases x with
    | none =>
      have e1 : some (s, (-12 : Int)) = some (s1, r) := h1
      cases e1
      have e2 : some a = some b := h2
      cases e2
      exact ⟨hc, rfl⟩
    | some q =>
      have e1 : some (({ s with heap := (q, cbSz) :: s.heap, cbs := s.cbs ++ [⟨t, q, cb⟩] } : St), (0 : Int)) =
        some (s1, r) := h1
      cases e1
      have e2 : some ({ a with pending := a.pending ++ [(t, cb)] } : Abs) = some b := h2
      cases e2
      refine ⟨fun u => ?_, rfl⟩
      have : List.count (u, 0) [(t, cb)] = 0 := by
        rw [List.count_eq_zero]; simp; intro _ h; exact hcb h.symm
      show (a.pending ++ [(t, cb)]).count (u, 0) = _
      rw [List.count_append, this]; exact hc u
  | unreg t cb =>
    have hcb : cb ≠ 0 := hg
    have ho1 : s1.owner = s.owner := by
      have : some (unregister t cb s) = some (s1, r) := h1
      unfold unregister at this
      split at this <;> cases this <;> rfl
    refine ⟨fun u => ?_, by rw [ho1]; rfl⟩
    rw [ho1, ← hc u]
    simp only [Abs.step] at h2
    split at h2
    · split at h2
      · cases h2
        show (a.pending.erase (t, cb)).count (u, 0) = _
        rw [List.count_erase_of_ne (by simp; intro _ h; exact hcb h.symm)]
      · cases h2
    · split at h2 <;> cases h2; rfl
  | exit t =>
    obtain ⟨s', r', b', e1, e2, e3, e4⟩ := step_exit hi t
    rw [h1] at e1; cases e1
    have hb : b.pending = a.pending.filter (·.1 != t) := by
      have h7 : some _ = some b := h2
      cases h7; rfl
    have hex : (∃ c ∈ s.cbs, c.task = t ∧ c.cb = 0) ↔ s.owner = some t := by
      constructor
      · rintro ⟨c, hcm, h5, h6⟩
        by_cases hne : s.owner = some t
        · exact hne
        · have := hc t
          rw [if_neg hne, List.count_eq_zero] at this
          exact absurd (by rw [hi.pend]; exact List.mem_map.2 ⟨c, hcm, by rw [h5, h6]⟩) this
      · exact ho t
    have e5 : s1.owner = if s.owner = some t then none else s.owner := by
      rw [e4]
      by_cases h : s.owner = some t
      · rw [if_pos h, if_pos (hex.2 h)]
      · rw [if_neg h, if_neg (fun x => h (hex.1 x))]
    refine ⟨fun u => ?_, by rw [e5]; rfl⟩
    rw [hb, e5]
    by_cases hut : u = t
    · subst hut
      have : (a.pending.filter (·.1 != u)).count (u, 0) = 0 := by
        rw [List.count_eq_zero]; simp
      rw [this]
      by_cases h : s.owner = some u
      · rw [if_pos h, if_neg (by simp)]
      · rw [if_neg h, if_neg h]
    · rw [List.count_filter (by simpa using hut), hc u]
      by_cases h : s.owner = some t
      · rw [if_pos h, if_neg (show ¬ s.owner = some u by rw [h]; simp; exact fun x => hut x.symm),
          if_neg (by simp)]
      · rw [if_neg h]
  | fork t c =>
    have e1 : some (forkTask t c s) = some (s1, r) := h1
    have e2 : some a = some b := h2
    cases e2
    have e3 : s1 = s := by
      have := step_fork hi hg
      rw [← this]
      cases e1; rfl
    rw [e3]
    exact ⟨hc, rfl⟩
  | acquire t x =>
    have hne := ha t x rfl
    have e1 : some (acquire t x s) = some (s1, r) := h1
    unfold acquire at e1
    by_cases hown : (s.owner.isSome && s.owner != some t) = true
    · rw [if_pos hown] at e1
      cases e1
      have e2 : some a = some b := h2
      cases e2
      refine ⟨hc, ?_⟩
      have : s.owner ≠ none := by
        intro h; rw [h] at hown; simp at hown
      show (if _ then _ else _) = _
      rw [if_neg (by simp [this, hne])]; rfl
    · rw [if_neg hown] at e1
      have hnone : s.owner = none := by
        cases hs : s.owner with
        | none => rfl
        | some u => rw [hs] at hown hne; simp at hown hne; exact absurd hown hne
      cases x with
      | none =>
        have e3 : some (s, (-12 : Int)) = some (s1, r) := e1
        cases e3
        have e2 : some a = some b := h2
        cases e2
        refine ⟨hc, ?_⟩
        show (if _ then _ else _) = _
        rw [if_pos (Or.inl hnone)]; rfl
      | some q =>
        have e3 : some (({ s with heap := (q, cbSz) :: s.heap, cbs := s.cbs ++ [⟨t, q, 0⟩], owner := some t } : St),
          (0 : Int)) = some (s1, r) := e1
        cases e3
        have e2 : some ({ a with pending := a.pending ++ [(t, 0)] } : Abs) = some b := h2
        cases e2
        refine ⟨fun u => ?_, ?_⟩
        · show (a.pending ++ [(t, 0)]).count (u, 0) = if some t = some u then 1 else 0
          have := hc u
          rw [hnone, if_neg (by simp)] at this
          rw [List.count_append, this]
          by_cases hut : t = u
          · subst hut; simp
          · rw [if_neg (by simpa using hut)]
            simp [hut]
        · show (if _ then _ else _) = _
          rw [if_pos (Or.inl hnone)]; rfl
  | release t =>
    have e1 : some (release t s) = some (s1, r) := h1
    unfold release at e1
    by_cases hown : s.owner = some t
    · rw [if_neg (fun h => h hown)] at e1
      have hr : r = 0 := by cases e1; rfl
      have hs1 : s1.owner = none := by cases e1; rfl
      subst hr
      refine ⟨fun u => ?_, ?_⟩
      · rw [hs1, if_neg (by simp)]
        simp only [Abs.step] at h2
        simp only [if_true] at h2
        split at h2
        · cases h2
          show (a.pending.erase (t, 0)).count (u, 0) = 0
          by_cases hut : u = t
          · subst hut
            rw [List.count_erase_self, hc u, if_pos hown]
          · rw [List.count_erase_of_ne (by simp; exact hut), hc u, hown, if_neg (by simp; exact fun x => hut x.symm)]
        · cases h2
      · rw [hs1]
        show (if _ then _ else _) = _
        rw [if_pos hown]; rfl
    · rw [if_pos hown] at e1
      cases e1
      have e2 : some a = some b := h2
      cases e2
      refine ⟨hc, ?_⟩
      show (if _ then _ else _) = _
      rw [if_neg hown]; rfl

theorem own_run : ∀ (ops : List Op) (s s2 : St) (a : Abs) (lk : Heap) (rs : List Int), Inv s a lk → OwnInv s →
    Once s a → GoodRun s a ops → run s ops = some (s2, rs) → AcquireOnce s.owner ops rs →
    ownRun s.owner ops rs = some s2.owner := by
  intro ops
  induction ops with
  | nil =>
    intro s s2 a lk rs _ _ _ _ hr _
    unfold run at hr
    cases hr; rfl
  | cons op ops ih =>
    intro s s2 a lk rs hi ho hc hg hr ha
    obtain ⟨s1, r, b, lk1, h1, h2, h3, h4⟩ := step_ok hi ho hg.1
    unfold run at hr
    rw [h1] at hr
    dsimp only at hr
    cases h5 : run s1 ops with
    | none => rw [h5] at hr; cases hr
    | some x =>
      obtain ⟨s3, rs1⟩ := x
      rw [h5] at hr
      cases hr
      obtain ⟨k1, k2⟩ := once_step hi ho hg.1 h1 h2 hc ha.1
      unfold ownRun
      rw [k2]
      exact ih s1 _ b lk1 rs1 h3 h4 k1 (hg.2 s1 r b h1 h2) h5 (ha.2 _ k2)

/-- **C179.** The card belongs to one task at a time: from a successful acquire until the owner
releases it or ends, nobody else gets it, and others neither release it nor make it free by ending.
Partial: if no task acquires the card while it owns it. -/
theorem sound_exclusive_partial (ops : List Op) (s : St) (rs : List Int) (hg : GoodRun {} {} ops)
    (hr : run {} ops = some (s, rs)) (ha : AcquireOnce none ops rs) : ownRun none ops rs = some s.owner :=
  own_run ops {} s {} [] rs inv_init (fun _ h => by cases h) (fun _ => by simp) hg hr ha

example : ownRun none demo [100, 0, 0, 400, 0, -12, 0, 0, 0, -2, 0, -1, 0, 0, 0, 0] = some none ∧
    AcquireOnce none demo [100, 0, 0, 400, 0, -12, 0, 0, 0, -2, 0, -1, 0, 0, 0, 0] := by
  refine ⟨by decide +kernel, ?_⟩
  simp [demo, AcquireOnce, ownStep]

/-- **C179 violated.** A task that acquires the card twice and releases it leaves a callback behind:
when it ends, the card is taken from the task that acquired it in between, and a third task gets it. -/
theorem sound_stolen_violated :
    ∃ ops, GoodRun {} {} ops ∧ ∃ s, run {} ops = some (s, [0, 0, 0, 0, 0, 0]) ∧
      ops = [.acquire 1 (some 100), .acquire 1 (some 200), .release 1, .acquire 2 (some 300), .exit 1,
             .acquire 3 (some 400)] ∧
      s.owner = some 3 ∧ ownRun none ops [0, 0, 0, 0, 0, 0] = none ∧
      (release 2 s).2 = -1 := by
  refine ⟨_, ?_, { heap := [(400, cbSz), (300, cbSz), (100, cbSz)], cbs := [⟨2, 300, 0⟩, ⟨3, 400, 0⟩],
                   owner := some 3, calls := [(1, 0)] }, ?_, rfl, rfl, ?_, ?_⟩
  · exact good_run_of _ _ _ (by decide +kernel)
  · decide +kernel
  · decide +kernel
  · decide +kernel

/-! ### Kernel threads -/

/-- A kernel thread: tid, and the addresses of its struct task, its kernel stack, its buffers (0 if it
has none). -/
structure Kth where
  tid : Nat
  ti : Nat
  stack : Nat
  buf : Nat
  deriving DecidableEq, Repr

/-- The kernel, as far as kernel threads are concerned: the live blocks, the threads, and how many times
preemption is disabled. -/
structure KSt where
  heap : Heap := []
  thr : List Kth := []
  noPreempt : Nat := 0
  deriving DecidableEq, Repr

/-- sizeof(struct task), KERNEL_STACK_SIZE and IO_COPYBUF_SIZE + ARGS_COPYBUF_SIZE; the values do not
matter. -/
def taskSz : Nat := 512
def stackSz : Nat := 8192
def bufSz : Nat := 131072

/-- kernel/process.c:145-156 `free_common_task_allocs`, without KRN_STACK_ISOLATION; the kernel process
has no mappings. -/
def freeCommon (h : Heap) (stack buf : Nat) : Option Heap :=
  match kfree h stack stackSz with
  | none => none
  | some h1 => kfree h1 buf bufSz

/-- kernel/process.c:116-135 `do_common_task_allocs` for a struct task full of zeros: the heap, the
fields `kernel_stack` and `io_copybuf` it leaves, and its result; `none` for corruption. -/
def commonAllocs (bufs : Bool) (a1 a2 : Option Nat) (h : Heap) : Option (Heap × Nat × Nat × Bool) :=
  match a1 with
  | none => some (h, 0, 0, false)
  | some st =>
    if bufs then
      match a2 with
      | none =>
        match kfree ((st, stackSz) :: h) st stackSz with
        | none => none
        | some h1 => some (h1, st, 0, false)
      | some b => some ((b, bufSz) :: (st, stackSz) :: h, st, b, true)
    else some ((st, stackSz) :: h, st, 0, true)

/-- kernel/process.c:321-347 `allocate_new_thread`: the new thread, or nothing.  `a0`, `a1`, `a2` are the
outcomes of the allocations.  Not modelled: the registers of the new thread. -/
def allocThread (tid : Nat) (bufs : Bool) (a0 a1 a2 : Option Nat) (h : Heap) : Option (Heap × Option Kth) :=
  match a0 with
  | none => some (h, none)
  | some ti =>
    match commonAllocs bufs a1 a2 ((ti, taskSz) :: h) with
    | none => none
    | some (h1, st, b, true) => some (h1, some ⟨tid, ti, st, b⟩)
    | some (h1, st, b, false) =>
      match freeCommon h1 st b with
      | none => none
      | some h2 =>
        match kfree h2 ti taskSz with
        | none => none
        | some h3 => some (h3, none)

/-- kernel/process.c:898-949 `kthread_create2`; `tid` is what `create_new_kernel_tid` returns. -/
def kthreadCreate (tid : Option Nat) (bufs : Bool) (a0 a1 a2 : Option Nat) (k : KSt) : Option (KSt × Int) :=
  match tid with
  | none => some ({ k with noPreempt := k.noPreempt + 1 }, -11)
  | some t =>
    match allocThread t bufs a0 a1 a2 k.heap with
    | none => none
    | some (h, none) => some ({ k with heap := h, noPreempt := k.noPreempt + 1 }, -12)
    | some (h, some th) =>
      some ({ k with heap := h, thr := th :: k.thr, noPreempt := k.noPreempt + 1 - 1 }, (t : Int))

/-- The end of a kernel thread: `free_mem_for_zombie_task` (kernel/process.c:158-181), which frees what it
used and calls `remove_task`, `free_task` (kernel/process.c:375-390). -/
def kthreadEnd (tid : Nat) (k : KSt) : Option KSt :=
  match k.thr.find? (·.tid == tid) with
  | none => some k
  | some th =>
    match freeCommon k.heap th.stack th.buf with
    | none => none
    | some h1 =>
      match kfree h1 th.ti taskSz with
      | none => none
      | some h2 => some { k with heap := h2, thr := k.thr.eraseP (·.tid == tid) }

inductive KOp
  | create (tid : Option Nat) (bufs : Bool) (a0 a1 a2 : Option Nat)
  | finish (tid : Nat)
  deriving DecidableEq, Repr

def kstep (k : KSt) : KOp → Option KSt
  | .create tid bufs a0 a1 a2 => (kthreadCreate tid bufs a0 a1 a2 k).map (·.1)
  | .finish tid => kthreadEnd tid k

def krun : KSt → List KOp → Option KSt
  | k, [] => some k
  | k, op :: ops =>
    match kstep k op with
    | none => none
    | some k1 => krun k1 ops

/-- The allocator gives addresses that are not null, not in use, and different. -/
def KFresh (k : KSt) : KOp → Prop
  | .create _ _ a0 a1 a2 =>
    (∀ p, a0 = some p ∨ a1 = some p ∨ a2 = some p → p ≠ 0 ∧ ∀ x ∈ k.heap, x.1 ≠ p) ∧
    (∀ p, a0 = some p → a1 ≠ some p ∧ a2 ≠ some p) ∧ (∀ p, a1 = some p → a2 ≠ some p)
  | .finish _ => True

/-- There is a stack, but no memory for the buffers that were asked for. -/
def NoBufs : KOp → Prop
  | .create tid bufs a0 a1 a2 => tid ≠ none ∧ bufs = true ∧ a0 ≠ none ∧ a1 ≠ none ∧ a2 = none
  | .finish _ => False

/-- The blocks a thread needs. -/
def blocksOf (th : Kth) : Heap :=
  [(th.ti, taskSz), (th.stack, stackSz)] ++ (if th.buf = 0 then [] else [(th.buf, bufSz)])

theorem kfree_head {h : Heap} {p sz : Nat} (hp : p ≠ 0) : kfree ((p, sz) :: h) p sz = some h := by
  unfold kfree
  rw [if_neg hp, if_pos (List.mem_cons_self ..), List.erase_cons_head]

theorem kfree_zero {h : Heap} {sz : Nat} : kfree h 0 sz = some h := by
  unfold kfree; rw [if_pos rfl]

/-- **C180.** Every outcome of the creation of a kernel thread other than a lack of memory for its
buffers.  If there is no tid, no memory for the task or for its stack: an error, the same blocks and
the same threads as before.  Otherwise: the tid, one more thread with exactly its blocks, preemption
as before.  Partial: see the two violations. -/
theorem kthread_create_partial (tid : Option Nat) (bufs : Bool) (a0 a1 a2 : Option Nat) (k : KSt)
    (hf : KFresh k (.create tid bufs a0 a1 a2)) (hb : ¬ NoBufs (.create tid bufs a0 a1 a2)) :
    ∃ k' r, kthreadCreate tid bufs a0 a1 a2 k = some (k', r) ∧
      ((tid = none ∨ a0 = none ∨ a1 = none) →
        r = (if tid = none then -11 else -12) ∧ k'.heap = k.heap ∧ k'.thr = k.thr) ∧
      (∀ t p q, tid = some t → a0 = some p → a1 = some q →
        r = t ∧ k'.noPreempt = k.noPreempt ∧ ∃ th, k'.thr = th :: k.thr ∧ th.tid = t ∧
          k'.heap.Perm (blocksOf th ++ k.heap) ∧ (bufs = true → a2 = some th.buf ∧ th.buf ≠ 0) ∧
          (bufs = false → th.buf = 0)) := by
  obtain ⟨f1, f2, f3⟩ := hf
  cases tid with
  | none => exact ⟨_, _, rfl, fun _ => ⟨rfl, rfl, rfl⟩, fun t p q h => by cases h⟩
  | some t =>
    cases a0 with
    | none => exact ⟨_, _, rfl, fun _ => ⟨rfl, rfl, rfl⟩, fun t p q _ h => by cases h⟩
    | some p =>
      have hp := (f1 p (Or.inl rfl)).1
      cases a1 with
      | none =>
        refine ⟨{ k with noPreempt := k.noPreempt + 1 }, -12, ?_, fun _ => ⟨rfl, rfl, rfl⟩, fun t p q _ _ h => by cases h⟩
        simp only [kthreadCreate, allocThread, commonAllocs, freeCommon, kfree_zero, kfree_head hp]
      | some q =>
        cases bufs with
        | false =>
          refine ⟨_, _, rfl, fun h => by simp at h, ?_⟩
          intro t' p' q' h1 h2 h3
          cases h1; cases h2; cases h3
          refine ⟨rfl, rfl, _, rfl, rfl, ?_, by simp, fun _ => rfl⟩
          exact List.Perm.swap _ _ _
        | true =>
          cases a2 with
          | none => exact absurd ⟨by simp, rfl, by simp, by simp, rfl⟩ hb
          | some b =>
            have hb0 := (f1 b (Or.inr (Or.inr rfl))).1
            refine ⟨_, _, rfl, fun h => by simp at h, ?_⟩
            intro t' p' q' h1 h2 h3
            cases h1; cases h2; cases h3
            refine ⟨rfl, rfl, _, rfl, rfl, ?_, fun _ => ⟨rfl, hb0⟩, by simp⟩
            show ((b, bufSz) :: (q, stackSz) :: (p, taskSz) :: k.heap).Perm (blocksOf ⟨t, p, q, b⟩ ++ k.heap)
            unfold blocksOf
            dsimp only
            rw [if_neg hb0, List.perm_iff_count]
            intro x
            simp only [List.count_cons, List.count_append, List.count_nil]
            omega

example : kthreadCreate (some 5000) true (some 10) (some 20) (some 30) {} =
    some ({ heap := [(30, bufSz), (20, stackSz), (10, taskSz)], thr := [⟨5000, 10, 20, 30⟩] }, 5000) := by
  decide +kernel

/-- **C180 violated.** Whenever the creation of a kernel thread fails (and does not corrupt memory),
preemption stays disabled: one more level than before. -/
theorem kthread_fail_preempt_violated (tid : Option Nat) (bufs : Bool) (a0 a1 a2 : Option Nat) (k k' : KSt)
    (r : Int) (h : kthreadCreate tid bufs a0 a1 a2 k = some (k', r)) (hr : r < 0) :
    k'.noPreempt = k.noPreempt + 1 := by
  unfold kthreadCreate at h
  split at h
  · cases h; rfl
  · split at h
    · cases h
    · cases h; rfl
    · cases h; exact absurd hr (by omega)

example : kthreadCreate none false none none none {} = some ({ noPreempt := 1 }, -11) := rfl

/-- **C180 violated.** If there is no memory for the buffers, the stack is freed twice, whatever else is
in memory. -/
theorem kthread_double_free_violated (t p q : Nat) (k : KSt)
    (hf : KFresh k (.create (some t) true (some p) (some q) none)) :
    kthreadCreate (some t) true (some p) (some q) none k = none := by
  obtain ⟨f1, f2, f3⟩ := hf
  have hp := f1 p (Or.inl rfl)
  have hq := f1 q (Or.inr (Or.inl rfl))
  have hpq : p ≠ q := by
    intro h; exact (f2 p rfl).1 (by rw [h])
  have : kfree ((p, taskSz) :: k.heap) q stackSz = none := by
    unfold kfree
    rw [if_neg hq.1, if_neg]
    simp only [List.mem_cons, Prod.mk.injEq, not_or, not_and]
    exact ⟨fun h => absurd h.symm hpq, fun h => hq.2 _ h rfl⟩
  simp only [kthreadCreate, allocThread, commonAllocs, freeCommon, kfree_head hq.1, if_true, this]

example : KFresh {} (.create (some 5000) true (some 10) (some 20) none) := by
  refine ⟨fun p h => ⟨by rintro rfl; simp at h, by simp⟩, fun p h => ?_, fun p h => by simp⟩
  cases h; simp

/-- Every creation of the history meets an allocator that does its part and has memory for the buffers. -/
def KGood : KSt → List KOp → Prop
  | _, [] => True
  | k, op :: ops => KFresh k op ∧ ¬ NoBufs op ∧ ∀ k1, kstep k op = some k1 → KGood k1 ops

def KInv (k : KSt) : Prop := k.heap.Perm (k.thr.flatMap blocksOf) ∧ ∀ x ∈ k.heap, x.1 ≠ 0

theorem kend_ok {k : KSt} (hi : KInv k) (tid : Nat) : ∃ k', kthreadEnd tid k = some k' ∧ KInv k' ∧
    k'.thr = k.thr.eraseP (·.tid == tid) := by
  unfold kthreadEnd
  cases hf : k.thr.find? (·.tid == tid) with
  | none =>
    refine ⟨k, rfl, hi, ?_⟩
    rw [List.eraseP_of_forall_not]
    intro a ha
    exact List.find?_eq_none.1 hf a ha
  | some th =>
    have hp := hi.1.trans (eraseP_perm blocksOf _ _ th hf)
    dsimp only
    have hti : th.ti ≠ 0 := hi.2 (th.ti, taskSz) (hp.symm.subset (by simp [blocksOf]))
    have hst : th.stack ≠ 0 := hi.2 (th.stack, stackSz) (hp.symm.subset (by simp [blocksOf]))
    have hp1 : k.heap.Perm ((th.stack, stackSz) :: ((if th.buf = 0 then [] else [(th.buf, bufSz)]) ++
        (th.ti, taskSz) :: (k.thr.eraseP (·.tid == tid)).flatMap blocksOf)) := by
      refine hp.trans ?_
      rw [List.perm_iff_count]
      intro x
      unfold blocksOf
      simp only [List.count_cons, List.count_append, List.count_nil]
      omega
    obtain ⟨e1, p1⟩ := kfree_perm hst hp1
    unfold freeCommon
    rw [e1]
    dsimp only
    by_cases hb : th.buf = 0
    · rw [hb, kfree_zero]
      rw [if_pos hb] at p1
      obtain ⟨e2, p2⟩ := kfree_perm hti p1
      dsimp only
      rw [e2]
      exact ⟨_, rfl, ⟨p2, fun x hx => hi.2 x (List.mem_of_mem_erase (List.mem_of_mem_erase hx))⟩, rfl⟩
    · rw [if_neg hb] at p1
      obtain ⟨e2, p2⟩ := kfree_perm hb p1
      obtain ⟨e3, p3⟩ := kfree_perm hti p2
      rw [e2]
      dsimp only
      rw [e3]
      exact ⟨_, rfl, ⟨p3, fun x hx => hi.2 x
        (List.mem_of_mem_erase (List.mem_of_mem_erase (List.mem_of_mem_erase hx)))⟩, rfl⟩

/-- **C180**, over every history of creations, failed or not, and ends of threads: memory is never
corrupted and holds exactly the blocks of the threads that exist.  Partial: as long as there is memory
for the buffers. -/
theorem kthread_balanced_partial : ∀ (ops : List KOp) (k : KSt), KInv k → KGood k ops →
    ∃ k', krun k ops = some k' ∧ k'.heap.Perm (k'.thr.flatMap blocksOf) := by
  intro ops
  induction ops with
  | nil => intro k hi _; exact ⟨k, rfl, hi.1⟩
  | cons op ops ih =>
    intro k hi hg
    obtain ⟨g1, g2, g3⟩ := hg
    have hstep : ∃ k1, kstep k op = some k1 ∧ KInv k1 := by
      cases op with
      | finish tid =>
        obtain ⟨k', e, h, _⟩ := kend_ok hi tid
        exact ⟨k', e, h⟩
      | create tid bufs a0 a1 a2 =>
        obtain ⟨k', r, e, h1, h2⟩ := kthread_create_partial tid bufs a0 a1 a2 k g1 g2
        refine ⟨k', by show Option.map _ _ = _; rw [e]; rfl, ?_⟩
        have hz : (tid = none ∨ a0 = none ∨ a1 = none) ∨ ∃ t p q, tid = some t ∧ a0 = some p ∧ a1 = some q := by
          cases tid <;> cases a0 <;> cases a1 <;> simp
        rcases hz with h | ⟨t, p, q, e1, e2, e3⟩
        · obtain ⟨_, h3, h4⟩ := h1 h
          unfold KInv; rw [h3, h4]; exact hi
        · obtain ⟨_, _, th, h4, _, h6, h7, h8⟩ := h2 t p q e1 e2 e3
          refine ⟨?_, ?_⟩
          · rw [h4, List.flatMap_cons]
            exact h6.trans (hi.1.append_left _)
          · intro x hx
            have hx2 := h6.subset hx
            rcases List.mem_append.1 hx2 with h9 | h9
            · have hall : ∀ y ∈ k'.heap, y.1 = 0 → False := by
                intro y hy hy0
                subst e1 e2 e3
                cases bufs with
                | false =>
                  simp only [kthreadCreate, allocThread, commonAllocs, Bool.false_eq_true, if_false] at e
                  cases e
                  simp only [List.mem_cons] at hy
                  rcases hy with h | h | h
                  · exact (g1.1 q (Or.inr (Or.inl rfl))).1 (by rw [h] at hy0; exact hy0)
                  · exact (g1.1 p (Or.inl rfl)).1 (by rw [h] at hy0; exact hy0)
                  · exact hi.2 y h hy0
                | true =>
                  obtain ⟨h10, h11⟩ := h7 rfl
                  rw [h10] at e
                  simp only [kthreadCreate, allocThread, commonAllocs, if_true] at e
                  cases e
                  simp only [List.mem_cons] at hy
                  rcases hy with h | h | h | h
                  · exact h11 (by rw [h] at hy0; exact hy0)
                  · exact (g1.1 q (Or.inr (Or.inl rfl))).1 (by rw [h] at hy0; exact hy0)
                  · exact (g1.1 p (Or.inl rfl)).1 (by rw [h] at hy0; exact hy0)
                  · exact hi.2 y h hy0
              exact fun h => hall x hx h
            · exact hi.2 x h9
    obtain ⟨k1, e1, h1⟩ := hstep
    obtain ⟨k2, e2, h2⟩ := ih k1 h1 (g3 k1 e1)
    refine ⟨k2, ?_, h2⟩
    unfold krun
    rw [e1]; exact e2

example : KInv {} := ⟨List.Perm.refl _, fun _ h => (List.not_mem_nil h).elim⟩

example : krun {} [.create (some 1) true (some 10) (some 20) (some 30), .create (some 2) false (some 40) (some 50) none,
      .create (some 3) false (some 60) none none, .finish 1] =
    some { heap := [(50, stackSz), (40, taskSz)], thr := [⟨2, 40, 50, 0⟩], noPreempt := 1 } := by decide +kernel

end Verif.TaskRes
