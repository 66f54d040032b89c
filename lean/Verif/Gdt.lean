/-!
# Segments for thread-local storage (kernel/arch/i386/gdt.c)

Properties C131-C134.

The table of segment descriptors (GDT) is shared by the kernel and all processes.  A process asks for descriptors with
`set_thread_area` and keeps the indexes of up to three of them; they are shared by `fork` and given up by `execve` and at the end of
the process.  The calls run with preemption disabled, so that each is one step.

Simplifications: the reference counts are unbounded integers (`s32` in the code); the LDT of a process, which nothing creates, and
bad addresses are not modelled.
-/
namespace Verif.Gdt

/-- `struct gdt_entry` (kernel/arch/i386/gdt_int.h:74-113). -/
structure Seg where
  base : Nat := 0
  limit : Nat := 0
  typ : Nat := 0
  s : Bool := false
  dpl : Nat := 0
  p : Bool := false
  avl : Bool := false
  d : Bool := false
  g : Bool := false
  deriving DecidableEq, Repr

/-- The field `access`. -/
def Seg.access (e : Seg) : Nat := e.typ + (if e.s then 16 else 0) + 32 * e.dpl + (if e.p then 128 else 0)

/-- `struct user_desc` (kernel/arch/i386/gdt_int.h:118-140). -/
structure Desc where
  num : Nat
  base : Nat
  limit : Nat
  flags : Nat
  deriving DecidableEq, Repr

def Desc.bit (d : Desc) (k : Nat) : Bool := d.flags / 2 ^ k % 2 = 1

/-- `INVALID_ENTRY_NUM`. -/
def ANY : Nat := 2 ^ 32 - 1

/-- gdt.c:404: `USER_DESC_FLAGS_EMPTY` is 40. -/
def Desc.empty (d : Desc) : Bool := d.flags = 40 ∧ d.base = 0 ∧ d.limit = 0

/-- gdt.c:405-413, with `gdt_set_entry` (52-79). -/
def Desc.seg (d : Desc) : Seg :=
  if d.empty then {}
  else ⟨d.base, d.limit % 2 ^ 20, d.flags / 2 % 4 * 4 + (if d.bit 3 then 0 else 2), true, 3, !d.bit 5, d.bit 6, d.bit 0, d.bit 4⟩

/-- The table, the reference counts, the size, and the processes with `gdt_entries` (include/tilck/kernel/arch/i386/arch_utils.h:46). -/
structure World where
  gdt : Nat → Seg
  ref : Nat → Int
  size : Nat
  procs : List (Nat × List Nat)

def World.slots (w : World) (p : Nat) : Option (List Nat) := (w.procs.find? (fun q => q.1 == p)).map (·.2)

/-- gdt.c:81-95 `set_entry_num`. -/
def World.setEntry (w : World) (n : Nat) (e : Seg) : World :=
  { w with gdt := fun m => if m = n then e else w.gdt m, ref := fun m => if m = n then w.ref n + 1 else w.ref m }

/-- gdt.c:97-110 `gdt_clear_entry`. -/
def World.clear (w : World) (n : Nat) : World :=
  { w with ref := fun m => if m = n then w.ref n - 1 else w.ref m,
           gdt := fun m => if m = n ∧ w.ref n - 1 = 0 then {} else w.gdt m }

/-- gdt.c:112-124 `gdt_entry_inc_ref_count`. -/
def World.inc (w : World) (n : Nat) : World :=
  { w with ref := fun m => if m = n then w.ref n + 1 else w.ref m }

/-- gdt.c:198-215 `gdt_add_entry`: the entry it takes. -/
def World.free? (w : World) : Option Nat :=
  (List.range w.size).find? (fun n => decide (0 < n ∧ (w.gdt n).access = 0))

/-- gdt.c:385-388 `gdt_set_slot`. -/
def World.setSlot (w : World) (p k n : Nat) : World :=
  { w with procs := w.procs.map (fun q => if q.1 = p then (q.1, q.2.set k n) else q) }

def EINVAL : Int := -22
def ESRCH : Int := -3

/-- A kernel that stops at an assertion, or the result, with the entry number stored in the descriptor. -/
inductive Out
  | stop
  | ret (w : World) (rc : Int) (num : Nat)

/-- gdt.c:422-448: the entry number is -1. `mem`: the allocations of `gdt_expand` (138-196) succeed. -/
def setAny (w : World) (p : Nat) (sl : List Nat) (d : Desc) (mem : Bool) : Out :=
  match sl.findIdx? (· == 0) with
  | none => .ret w ESRCH d.num
  | some k =>
    match w.free? with
    | some n => .ret ((w.setEntry n d.seg).setSlot p k n) 0 n
    | none =>
      if 65536 < w.size * 2 ∨ mem = false then .ret w ESRCH d.num
      else
        let w' := { w with size := w.size * 2 }
        match w'.free? with
        | some n => .ret ((w'.setEntry n d.seg).setSlot p k n) 0 n
        | none => .stop

/-- gdt.c:450-477: the entry number is given. -/
def setThis (w : World) (p : Nat) (sl : List Nat) (d : Desc) : Out :=
  match sl.findIdx? (· == d.num) with
  | some _ => .ret (w.setEntry d.num d.seg) 0 d.num
  | none =>
    if w.size ≤ d.num ∨ (w.gdt d.num).access ≠ 0 then .ret w EINVAL d.num
    else match sl.findIdx? (· == 0) with
      | none => .ret w ESRCH d.num
      | some k => .ret ((w.setSlot p k d.num).setEntry d.num d.seg) 0 d.num

/-- gdt.c:390-492 `sys_set_thread_area`; `dbg`: a build with assertions, here the one on the limit in `gdt_set_entry`. -/
def setArea (dbg : Bool) (w : World) (p : Nat) (sl : List Nat) (d : Desc) (mem : Bool) : Out :=
  if d.empty = false ∧ dbg = true ∧ 2 ^ 20 - 1 < d.limit then .stop
  else if d.empty = true ∧ d.num = ANY then .ret w EINVAL d.num
  else if d.num = ANY then setAny w p sl d mem
  else setThis w p sl d

/-- kernel/arch/i386/process32.c:206-208. -/
def incAll (w : World) (sl : List Nat) : World := sl.foldl (fun w n => if n ≠ 0 then w.inc n else w) w

/-- kernel/arch/i386/process32.c:223-228. -/
def clearAll (w : World) (sl : List Nat) : World := sl.foldl (fun w n => if n ≠ 0 then w.clear n else w) w

inductive Ev
  | area (p : Nat) (d : Desc) (mem : Bool)
  | fork (p c : Nat)
  | exec (p : Nat)
  | exit (p : Nat)
  deriving DecidableEq, Repr

/-- One call. `fork`: process32.c:193-212, the child `c` is new; the assertion is the one at gdt.c:119. `exec`: kernel/process.c:834-835.
`exit`: kernel/process.c:370, when the process is freed. None: the process does not exist. -/
def step (dbg : Bool) (w : World) : Ev → Option Out
  | .area p d mem =>
    match w.slots p with
    | none => none
    | some sl => if d.num < 2 ^ 32 ∧ d.base < 2 ^ 32 ∧ d.limit < 2 ^ 32 ∧ d.flags < 2 ^ 32 then some (setArea dbg w p sl d mem) else none
  | .fork p c =>
    match w.slots p with
    | none => none
    | some sl =>
      if w.slots c ≠ none then none
      else if dbg = true ∧ (sl.any (fun n => n ≠ 0 ∧ (w.gdt n).access = 0)) = true then some .stop
      else some (.ret { incAll w sl with procs := w.procs ++ [(c, sl)] } c 0)
  | .exec p =>
    match w.slots p with
    | none => none
    | some sl => some (.ret { clearAll w sl with procs := w.procs.map (fun q => if q.1 = p then (q.1, [0, 0, 0]) else q) } 0 0)
  | .exit p =>
    match w.slots p with
    | none => none
    | some sl => some (.ret { clearAll w sl with procs := w.procs.filter (fun q => q.1 ≠ p) } 0 0)

/-- The kernel's own segments: gdt.c:263-310 and double_fault.c:38-50; the addresses and sizes of the two TSS are parameters. -/
def kernelSeg (tss df : Nat × Nat) : Nat → Seg
  | 1 => ⟨0, 2 ^ 20 - 1, 10, true, 0, true, false, true, true⟩
  | 2 => ⟨0, 2 ^ 20 - 1, 2, true, 0, true, false, true, true⟩
  | 3 => ⟨0, 2 ^ 20 - 1, 10, true, 3, true, false, true, true⟩
  | 4 => ⟨0, 2 ^ 20 - 1, 2, true, 3, true, false, true, true⟩
  | 5 => ⟨tss.1, tss.2, 9, false, 0, true, false, true, false⟩
  | 6 => ⟨df.1, df.2, 9, false, 0, true, false, true, false⟩
  | _ => {}

/-- After boot (`initial_gdt_in_bss` has 8 entries) with the first process. -/
def boot (tss df : Nat × Nat) : World :=
  ⟨kernelSeg tss df, fun n => if n ≤ 6 then 1 else 0, 8, [(1, [0, 0, 0])]⟩

/-! ## Specification -/

/-- The histories in which each call satisfies `ok`. -/
inductive Reach (dbg : Bool) (tss df : Nat × Nat) (ok : World → Ev → Prop) : World → Prop
  | boot : Reach dbg tss df ok (boot tss df)
  | step {w e w' rc num} : Reach dbg tss df ok w → ok w e → step dbg w e = some (.ret w' rc num) → Reach dbg tss df ok w'

def Any (_ : World) (_ : Ev) : Prop := True

/-- The process `p` has got the entry `n` (for itself, or from its parent) and not given it up. -/
def Has (w : World) (p n : Nat) : Prop := n ≠ 0 ∧ ∃ sl, w.slots p = some sl ∧ n ∈ sl

/-- Nobody asks for an entry that it has, or for the entry 0. -/
def NewOnly (w : World) : Ev → Prop
  | .area p d _ => d.num ≠ 0 ∧ ¬ Has w p d.num
  | _ => True

/-- Nobody clears an entry, or forks while it has entries. -/
def Apart (w : World) : Ev → Prop
  | .area _ d _ => d.empty = false
  | .fork p _ => ∀ n, ¬ Has w p n
  | _ => True

/-- Nobody clears an entry, or asks for an impossible limit. -/
def NoClear (_ : World) : Ev → Prop
  | .area _ d _ => d.empty = false ∧ d.limit < 2 ^ 20
  | _ => True

/-- The segment asked for (Linux, `set_thread_area(2)`): a data or code segment of ring 3. -/
structure Wants (d : Desc) (e : Seg) : Prop where
  base : e.base = d.base
  limit : e.limit = d.limit
  ring : e.dpl = 3 ∧ e.s = true
  kind : e.typ = d.flags / 2 % 4 * 4 + (if d.flags / 8 % 2 = 1 then 0 else 2)
  present : e.p = true ↔ d.flags / 32 % 2 = 0
  size : (e.d = true ↔ d.flags % 2 = 1) ∧ (e.g = true ↔ d.flags / 16 % 2 = 1) ∧ (e.avl = true ↔ d.flags / 64 % 2 = 1)

/-! ## Proofs -/

/-- How many times an entry is kept by processes. -/
def uses (w : World) (n : Nat) : Nat := (w.procs.map (fun q => q.2.count n)).sum

theorem mem_of_slots {w : World} {p : Nat} {sl : List Nat} (h : w.slots p = some sl) : (p, sl) ∈ w.procs := by
  unfold World.slots at h
  cases hf : w.procs.find? (fun q => q.1 == p) with
  | none => rw [hf] at h; cases h
  | some q =>
    rw [hf] at h
    cases h
    have h1 := List.find?_some hf
    have h2 := List.mem_of_find?_eq_some hf
    simp at h1
    rw [← h1]
    exact h2

theorem slots_of_mem {w : World} {p : Nat} {sl : List Nat} (hu : (w.procs.map (·.1)).Nodup) (h : (p, sl) ∈ w.procs) :
    w.slots p = some sl := by
  unfold World.slots
  generalize w.procs = l at *
  induction l with
  | nil => cases h
  | cons q l ih =>
    rw [List.map_cons, List.nodup_cons] at hu
    rcases List.mem_cons.mp h with rfl | h
    · rw [List.find?_cons_of_pos (by simp)]; rfl
    · by_cases e : q.1 = p
      · exact absurd (List.mem_map.mpr ⟨(p, sl), h, e.symm⟩) hu.1
      · rw [List.find?_cons_of_neg (by simpa using e)]
        exact ih hu.2 h

theorem slots_none {w : World} {p : Nat} (h : w.slots p = none) : p ∉ w.procs.map (·.1) := by
  intro hm
  obtain ⟨q, hq, e⟩ := List.mem_map.mp hm
  unfold World.slots at h
  rw [Option.map_eq_none_iff, List.find?_eq_none] at h
  exact h q hq (by simpa using e)

theorem sum_ge {l : List (Nat × List Nat)} {q : Nat × List Nat} {n : Nat} (h : q ∈ l) :
    q.2.count n ≤ (l.map (fun q => q.2.count n)).sum := by
  induction l with
  | nil => cases h
  | cons x l ih =>
    rw [List.map_cons, List.sum_cons]
    rcases List.mem_cons.mp h with rfl | h
    · omega
    · have := ih h; omega

/-- Replacing the slots of one process. -/
theorem sum_replace {l : List (Nat × List Nat)} (hu : (l.map (·.1)).Nodup) {p : Nat} {sl : List Nat} (h : (p, sl) ∈ l) (f : List Nat → List Nat) (n : Nat) :
    ((l.map (fun q => if q.1 = p then (q.1, f q.2) else q)).map (fun q => q.2.count n)).sum + sl.count n =
      (l.map (fun q => q.2.count n)).sum + (f sl).count n := by
  induction l with
  | nil => cases h
  | cons x l ih =>
    rw [List.map_cons, List.nodup_cons] at hu
    rw [List.map_cons, List.map_cons, List.sum_cons, List.map_cons, List.sum_cons]
    rcases List.mem_cons.mp h with rfl | h
    · have hn : l.map (fun q => if q.1 = p then (q.1, f q.2) else q) = l := by
        conv => rhs; rw [← List.map_id l]
        refine List.map_congr_left (fun q hq => ?_)
        have : q.1 ≠ p := fun e => hu.1 (List.mem_map.mpr ⟨q, hq, e⟩)
        rw [if_neg this]; rfl
      rw [hn, if_pos rfl]
      show (f sl).count n + _ + sl.count n = sl.count n + _ + (f sl).count n
      omega
    · have hx : x.1 ≠ p := fun e => hu.1 (List.mem_map.mpr ⟨(p, sl), h, e.symm⟩)
      have := ih hu.2 h
      rw [if_neg hx]
      omega

theorem sum_remove {l : List (Nat × List Nat)} (hu : (l.map (·.1)).Nodup) {p : Nat} {sl : List Nat} (h : (p, sl) ∈ l) (n : Nat) :
    ((l.filter (fun q => q.1 ≠ p)).map (fun q => q.2.count n)).sum + sl.count n = (l.map (fun q => q.2.count n)).sum := by
  induction l with
  | nil => cases h
  | cons x l ih =>
    rw [List.map_cons, List.nodup_cons] at hu
    rw [List.map_cons, List.sum_cons]
    rcases List.mem_cons.mp h with rfl | h
    · have hn : l.filter (fun q => q.1 ≠ p) = l := by
        refine List.filter_eq_self.mpr (fun q hq => ?_)
        have : q.1 ≠ p := fun e => hu.1 (List.mem_map.mpr ⟨q, hq, e⟩)
        simpa using this
      rw [List.filter_cons_of_neg (by simp), hn]
      show _ = sl.count n + _
      omega
    · have hx : x.1 ≠ p := fun e => hu.1 (List.mem_map.mpr ⟨(p, sl), h, e.symm⟩)
      have := ih hu.2 h
      rw [List.filter_cons_of_pos (by simpa using hx), List.map_cons, List.sum_cons]
      omega

theorem count_set0 {sl : List Nat} {k n m : Nat} (h : sl.findIdx? (· == 0) = some k) (hm : m ≠ 0) :
    (sl.set k n).count m = sl.count m + if n = m then 1 else 0 := by
  induction sl generalizing k with
  | nil => cases h
  | cons x sl ih =>
    rw [List.findIdx?_cons] at h
    split at h
    · cases h
      rename_i hx
      have hx0 : x = 0 := by simpa using hx
      subst hx0
      rw [List.set_cons_zero, List.count_cons, List.count_cons]
      have : ((0 : Nat) == m) = false := by simpa using Ne.symm hm
      rw [this]
      simp
    · obtain ⟨j, hj, rfl⟩ := Option.map_eq_some_iff.mp h
      rw [List.set_cons_succ, List.count_cons, List.count_cons, ih hj]
      omega

theorem mem_findIdx {sl : List Nat} {k n : Nat} (h : sl.findIdx? (· == n) = some k) : n ∈ sl := by
  have h1 : (sl.findIdx? (· == n)).isSome := by rw [h]; rfl
  rw [List.findIdx?_isSome] at h1
  obtain ⟨x, hx, e⟩ := List.any_eq_true.mp h1
  have : x = n := by simpa using e
  exact this ▸ hx

theorem not_mem_findIdx {sl : List Nat} {n : Nat} (h : sl.findIdx? (· == n) = none) : n ∉ sl := by
  rw [List.findIdx?_eq_none_iff] at h
  intro hm
  have := h n hm
  simp at this

theorem incAll_ref (sl : List Nat) : ∀ (w : World) (m : Nat),
    (incAll w sl).ref m = w.ref m + (if m = 0 then 0 else (sl.count m : Int)) ∧ (incAll w sl).gdt = w.gdt ∧
      (incAll w sl).size = w.size := by
  unfold incAll
  induction sl with
  | nil => intro w m; simp
  | cons x sl ih =>
    intro w m
    rw [List.foldl_cons]
    by_cases hx : x = 0
    · rw [if_neg (fun h => h hx)]
      have := ih w m
      rw [List.count_cons]
      by_cases hm : m = 0
      · simp [hm] at this ⊢; exact this
      · have e : (x == m) = false := by simp [hx]; exact fun h => hm h.symm
        rw [e]; simp [hm] at this ⊢; exact this
    · rw [if_pos hx]
      obtain ⟨h1, h2, h3⟩ := ih (w.inc x) m
      refine ⟨?_, h2.trans rfl, h3.trans rfl⟩
      rw [h1]
      show (if m = x then w.ref x + 1 else w.ref m) + _ = _
      rw [List.count_cons]
      by_cases hm : m = x
      · subst hm; simp [hx]; omega
      · have e : (x == m) = false := by simpa using Ne.symm hm
        rw [e]; simp [hm]

theorem clearAll_spec (sl : List Nat) : ∀ (w : World) (m : Nat), ((sl.count m : Int) ≤ w.ref m ∨ m = 0) →
    (clearAll w sl).ref m = w.ref m - (if m = 0 then 0 else (sl.count m : Int)) ∧
    (clearAll w sl).gdt m = (if m ≠ 0 ∧ m ∈ sl ∧ w.ref m = sl.count m then {} else w.gdt m) ∧
    (clearAll w sl).size = w.size := by
  unfold clearAll
  induction sl with
  | nil => intro w m _; simp
  | cons x sl ih =>
    intro w m hle
    rw [List.foldl_cons]
    by_cases hx : x = 0
    · rw [if_neg (fun h => h hx)]
      by_cases hm : m = 0
      · have := ih w m (Or.inr hm)
        simp [hm] at this ⊢; exact this
      · have e : (x == m) = false := by simp [hx]; exact fun h => hm h.symm
        have hc : (x :: sl).count m = sl.count m := by rw [List.count_cons, e]; simp
        rw [hc] at hle ⊢
        have := ih w m hle
        refine ⟨this.1, ?_, this.2.2⟩
        rw [this.2.1]
        have hmem : m ∈ x :: sl ↔ m ∈ sl := by
          rw [List.mem_cons]
          exact ⟨fun h => h.resolve_left (fun e => hm (e.trans hx)), Or.inr⟩
        simp only [hmem]
    · rw [if_pos hx]
      by_cases hm : m = x
      · subst hm
        have hc : (m :: sl).count m = sl.count m + 1 := by rw [List.count_cons]; simp
        rw [hc] at hle ⊢
        have hr : (w.clear m).ref m = w.ref m - 1 := if_pos rfl
        have hle' : (sl.count m : Int) ≤ (w.clear m).ref m ∨ m = 0 := by
          rw [hr]
          rcases hle with h | h
          · left; omega
          · exact Or.inr h
        obtain ⟨h1, h2, h3⟩ := ih (w.clear m) m hle'
        refine ⟨?_, ?_, h3⟩
        · rw [h1, hr, if_neg hx, if_neg hx]; omega
        · rw [h2, hr]
          have hg : (w.clear m).gdt m = if w.ref m - 1 = 0 then {} else w.gdt m := by
            show (if m = m ∧ w.ref m - 1 = 0 then _ else _) = _
            by_cases h : w.ref m - 1 = 0
            · rw [if_pos ⟨rfl, h⟩, if_pos h]
            · rw [if_neg (fun x => h x.2), if_neg h]
          rw [hg]
          have hcp : m ∈ sl ↔ 0 < sl.count m := List.count_pos_iff.symm
          by_cases hq : w.ref m = ((sl.count m + 1 : Nat) : Int)
          · rw [if_pos (show m ≠ 0 ∧ m ∈ m :: sl ∧ w.ref m = ((sl.count m + 1 : Nat) : Int) from ⟨hx, List.mem_cons_self, hq⟩)]
            by_cases hms : m ∈ sl
            · rw [if_pos ⟨hx, hms, by omega⟩]
            · rw [if_neg (fun x => hms x.2.1), if_pos]
              have : sl.count m = 0 := by rw [hcp] at hms; omega
              omega
          · rw [if_neg (show ¬ (m ≠ 0 ∧ m ∈ m :: sl ∧ w.ref m = ((sl.count m + 1 : Nat) : Int)) from fun x => hq x.2.2),
              if_neg (fun x => hq (by have := x.2.2; omega)), if_neg]
            intro h
            rcases hle with hle | hle
            · omega
            · exact hx hle
      · have e : (x == m) = false := by simpa using Ne.symm hm
        have hc : (x :: sl).count m = sl.count m := by rw [List.count_cons, e]; simp
        rw [hc] at hle ⊢
        have hr : (w.clear x).ref m = w.ref m := if_neg hm
        have hg : (w.clear x).gdt m = w.gdt m := if_neg (fun h => hm h.1)
        obtain ⟨h1, h2, h3⟩ := ih (w.clear x) m (by rw [hr]; exact hle)
        refine ⟨by rw [h1, hr], ?_, h3⟩
        rw [h2, hr, hg]
        have hmem : m ∈ x :: sl ↔ m ∈ sl := by
          rw [List.mem_cons]
          exact ⟨fun h => h.resolve_left hm, Or.inr⟩
        simp only [hmem]

def World.grow (w : World) (sz : Nat) : World := { w with size := sz }

/-- What a call can do. -/
theorem area_cases {dbg : Bool} {w w' : World} {p : Nat} {sl : List Nat} {d : Desc} {mem : Bool} {rc : Int} {num : Nat}
    (h : setArea dbg w p sl d mem = .ret w' rc num) :
    ((rc = EINVAL ∨ rc = ESRCH) ∧ w' = w ∧ num = d.num) ∨
    (∃ k sz, rc = 0 ∧ sl.findIdx? (· == 0) = some k ∧ 0 < num ∧ num < sz ∧ (w.gdt num).access = 0 ∧ w.size ≤ sz ∧ (w.size ≠ sz → sz ≤ 65536) ∧
      w' = ((w.grow sz).setEntry num d.seg).setSlot p k num ∧ (d.num ≠ ANY → num = d.num ∧ num ∉ sl)) ∨
    (rc = 0 ∧ num = d.num ∧ num ∈ sl ∧ w' = w.setEntry num d.seg) := by
  have hfree : ∀ (v : World) n, v.free? = some n → 0 < n ∧ n < v.size ∧ (v.gdt n).access = 0 := by
    intro v n hv
    unfold World.free? at hv
    have h1 : 0 < n ∧ (v.gdt n).access = 0 := by simpa using List.find?_some hv
    have h2 := List.mem_range.mp (List.mem_of_find?_eq_some hv)
    exact ⟨h1.1, h2, h1.2⟩
  unfold setArea at h
  split at h
  · cases h
  · split at h
    · cases h; exact Or.inl ⟨Or.inl rfl, rfl, rfl⟩
    · split at h
      · rename_i hany
        unfold setAny at h
        split at h
        · cases h; exact Or.inl ⟨Or.inr rfl, rfl, rfl⟩
        · rename_i k hk
          split at h
          · rename_i n hn
            cases h
            obtain ⟨a, b, c⟩ := hfree _ _ hn
            exact Or.inr (Or.inl ⟨k, w.size, rfl, hk, a, b, c, Nat.le_refl _, fun h => absurd rfl h, rfl, fun h => absurd hany h⟩)
          · split at h
            · cases h; exact Or.inl ⟨Or.inr rfl, rfl, rfl⟩
            · rename_i hsz
              dsimp only at h
              split at h
              · rename_i n hn
                cases h
                obtain ⟨a, b, c⟩ := hfree _ _ hn
                exact Or.inr (Or.inl ⟨k, w.size * 2, rfl, hk, a, b, c, by omega, fun _ => by
                  have := fun x => hsz (Or.inl x); omega, rfl, fun h => absurd hany h⟩)
              · cases h
      · rename_i hany
        unfold setThis at h
        split at h
        · rename_i j hj
          cases h
          exact Or.inr (Or.inr ⟨rfl, rfl, mem_findIdx hj, rfl⟩)
        · rename_i hj
          split at h
          · cases h; exact Or.inl ⟨Or.inl rfl, rfl, rfl⟩
          · rename_i hc
            split at h
            · cases h; exact Or.inl ⟨Or.inr rfl, rfl, rfl⟩
            · rename_i k hk
              cases h
              have hn0 : d.num ≠ 0 := by
                intro e
                rw [e] at hj
                rw [hj] at hk
                cases hk
              refine Or.inr (Or.inl ⟨k, w.size, rfl, hk, by omega, ?_, ?_, Nat.le_refl _, fun h => absurd rfl h, rfl,
                fun _ => ⟨rfl, not_mem_findIdx hj⟩⟩)
              · have := fun x => hc (Or.inl x); omega
              · exact Decidable.byContradiction (fun x => hc (Or.inr x))

theorem seg_user (d : Desc) : d.seg = {} ∨ (d.seg.dpl = 3 ∧ d.seg.s = true) := by
  unfold Desc.seg
  split
  · exact Or.inl rfl
  · exact Or.inr ⟨rfl, rfl⟩

theorem seg_access {e : Seg} (h : e = {} ∨ (e.dpl = 3 ∧ e.s = true)) : e.access = 0 ↔ e = {} := by
  constructor
  · intro h0
    rcases h with h | ⟨h1, h2⟩
    · exact h
    · unfold Seg.access at h0
      rw [h1] at h0
      omega
  · intro h0; rw [h0]; rfl

theorem kernel_access (tss df : Nat × Nat) {n : Nat} (h : (kernelSeg tss df n).access = 0) : n = 0 ∨ 7 ≤ n := by
  match n with
  | 0 => exact Or.inl rfl
  | 1 | 2 | 3 | 4 | 5 | 6 => exact absurd h (by simp [kernelSeg, Seg.access])
  | n + 7 => exact Or.inr (by omega)

structure Inv (tss df : Nat × Nat) (w : World) : Prop where
  uniq : (w.procs.map (·.1)).Nodup
  kern : ∀ n, 1 ≤ n → n ≤ 6 → w.gdt n = kernelSeg tss df n
  slot : ∀ q ∈ w.procs, ∀ n ∈ q.2, n = 0 ∨ (7 ≤ n ∧ n < w.size)
  size : 8 ≤ w.size ∧ w.size ≤ 65536
  tail : ∀ n, w.size ≤ n → w.gdt n = {} ∧ w.ref n = 0
  user : ∀ n, n = 0 ∨ 7 ≤ n → w.gdt n = {} ∨ ((w.gdt n).dpl = 3 ∧ (w.gdt n).s = true)
  cnt : ∀ n, n ≠ 0 → (uses w n : Int) ≤ w.ref n

theorem boot_inv (tss df : Nat × Nat) : Inv tss df (boot tss df) := by
  refine ⟨(by decide : ([1] : List Nat).Nodup), fun _ _ _ => rfl, ?_, (by decide : 8 ≤ 8 ∧ 8 ≤ 65536), ?_, ?_, ?_⟩
  · intro q hq n hn
    have : q = (1, [0, 0, 0]) := by simpa [boot] using hq
    subst this
    left
    simpa using hn
  · intro n hn
    have hn8 : 8 ≤ n := hn
    constructor
    · match n, hn8 with
      | n + 8, _ => rfl
    · exact if_neg (by omega)
  · intro n hn
    left
    show kernelSeg tss df n = {}
    match n, hn with
    | 0, _ => rfl
    | 1, h | 2, h | 3, h | 4, h | 5, h | 6, h => exact absurd h (by decide)
    | n + 7, _ => rfl
  · intro n hn
    have h0 : uses (boot tss df) n = 0 := by
      show ([0, 0, 0].count n) + 0 = 0
      rw [Nat.add_zero, List.count_eq_zero]
      simp [hn]
    rw [h0]
    show (0 : Int) ≤ if n ≤ 6 then 1 else 0
    split <;> decide

theorem map_fst (l : List (Nat × List Nat)) (p : Nat) (f : List Nat → List Nat) :
    (l.map (fun q => if q.1 = p then (q.1, f q.2) else q)).map (·.1) = l.map (·.1) := by
  rw [List.map_map]
  refine List.map_congr_left (fun q _ => ?_)
  simp only [Function.comp_apply]
  split <;> rfl

theorem mem_map_slots {l : List (Nat × List Nat)} {p : Nat} {f : List Nat → List Nat} {q : Nat × List Nat}
    (h : q ∈ l.map (fun q => if q.1 = p then (q.1, f q.2) else q)) : (q.1 ≠ p ∧ q ∈ l) ∨ (∃ sl, (p, sl) ∈ l ∧ q = (p, f sl)) := by
  obtain ⟨x, hx, e⟩ := List.mem_map.mp h
  split at e
  · rename_i hp
    right
    refine ⟨x.2, ?_, ?_⟩
    · rw [← hp]; exact hx
    · rw [← e, hp]
  · rename_i hp
    left
    rw [← e]
    exact ⟨hp, hx⟩

theorem mem_set {sl : List Nat} {k n m : Nat} (h : m ∈ sl.set k n) : m = n ∨ m ∈ sl := by
  rcases List.mem_or_eq_of_mem_set h with h | h
  · exact Or.inr h
  · exact Or.inl h

/-- The count after a new entry has been given to a process. -/
theorem uses_set {w : World} (hu : (w.procs.map (·.1)).Nodup) {p k n m : Nat} {sl : List Nat} (hs : w.slots p = some sl)
    (hk : sl.findIdx? (· == 0) = some k) (hm : m ≠ 0) (sz : Nat) (e : Seg) :
    uses (((w.grow sz).setEntry n e).setSlot p k n) m = uses w m + if n = m then 1 else 0 := by
  have h1 := sum_replace hu (mem_of_slots hs) (fun s => s.set k n) m
  have h2 := count_set0 (n := n) hk hm
  show ((w.procs.map (fun q => if q.1 = p then (q.1, q.2.set k n) else q)).map (fun q => q.2.count m)).sum = _
  unfold uses
  omega

theorem step_inv {dbg : Bool} {tss df : Nat × Nat} {w : World} (h : Inv tss df w) {e : Ev} {w' : World} {rc : Int} {num : Nat}
    (hs : step dbg w e = some (.ret w' rc num)) : Inv tss df w' := by
  cases e with
  | area p d mem =>
    dsimp only [step] at hs
    cases hsl : w.slots p with
    | none => rw [hsl] at hs; cases hs
    | some sl =>
      rw [hsl] at hs
      dsimp only at hs
      split at hs
      · rename_i hb
        have hs' : setArea dbg w p sl d mem = .ret w' rc num := by injection hs
        rcases area_cases hs' with ⟨_, rfl, _⟩ | ⟨k, sz, _, hk, h0, hlt, hacc, hsz, hsz2, rfl, _⟩ | ⟨_, _, hmem, rfl⟩
        · exact h
        · have h7 : 7 ≤ num := by
            rcases Nat.lt_or_ge num 7 with h7 | h7
            · rw [h.kern num (by omega) (by omega)] at hacc
              rcases kernel_access _ _ hacc with h | h <;> omega
            · exact h7
          have hg : ∀ m, (((w.grow sz).setEntry num d.seg).setSlot p k num).gdt m = if m = num then d.seg else w.gdt m := fun _ => rfl
          have hr : ∀ m, (((w.grow sz).setEntry num d.seg).setSlot p k num).ref m = if m = num then w.ref num + 1 else w.ref m := fun _ => rfl
          refine ⟨?_, ?_, ?_, ?_, ?_, ?_, ?_⟩
          · exact (map_fst w.procs p (fun s => s.set k num)) ▸ h.uniq
          · intro n h1 h2
            rw [hg, if_neg (by omega)]
            exact h.kern n h1 h2
          · intro q hq n hn
            show n = 0 ∨ (7 ≤ n ∧ n < sz)
            rcases mem_map_slots (f := fun s => s.set k num) hq with ⟨_, hq⟩ | ⟨sl', hq', rfl⟩
            · rcases h.slot q hq n hn with h | h
              · exact Or.inl h
              · exact Or.inr ⟨h.1, by omega⟩
            · rcases mem_set hn with rfl | hn
              · exact Or.inr ⟨h7, hlt⟩
              · rcases h.slot (p, sl') hq' n hn with h | h
                · exact Or.inl h
                · exact Or.inr ⟨h.1, by omega⟩
          · show 8 ≤ sz ∧ sz ≤ 65536
            have := h.size
            by_cases e : w.size = sz
            · omega
            · have := hsz2 e; omega
          · intro n hn
            have hn' : sz ≤ n := hn
            rw [hg, hr, if_neg (by omega), if_neg (by omega)]
            exact h.tail n (by omega)
          · intro n hn
            rw [hg]
            split
            · exact seg_user d
            · exact h.user n hn
          · intro n hn
            rw [uses_set h.uniq hsl hk hn, hr]
            have := h.cnt n hn
            by_cases e : n = num
            · rw [if_pos e, if_pos e.symm, ← e]; omega
            · rw [if_neg e, if_neg (Ne.symm e)]; exact this
        · have hnum := h.slot _ (mem_of_slots hsl) num hmem
          have hsz := h.size
          have hg : ∀ m, (w.setEntry num d.seg).gdt m = if m = num then d.seg else w.gdt m := fun _ => rfl
          have hr : ∀ m, (w.setEntry num d.seg).ref m = if m = num then w.ref num + 1 else w.ref m := fun _ => rfl
          refine ⟨h.uniq, ?_, h.slot, h.size, ?_, ?_, ?_⟩
          · intro n h1 h2
            rw [hg, if_neg (by omega)]
            exact h.kern n h1 h2
          · intro n hn
            have hn' : w.size ≤ n := hn
            rw [hg, hr, if_neg (by omega), if_neg (by omega)]
            exact h.tail n hn'
          · intro n hn
            rw [hg]
            split
            · exact seg_user d
            · exact h.user n hn
          · intro n hn
            rw [hr]
            have : (uses (w.setEntry num d.seg) n : Int) ≤ w.ref n := h.cnt n hn
            split
            · rename_i e
              subst e
              omega
            · exact this
      · cases hs
  | fork p c =>
    dsimp only [step] at hs
    cases hsl : w.slots p with
    | none => rw [hsl] at hs; cases hs
    | some sl =>
      rw [hsl] at hs
      dsimp only at hs
      split at hs
      · cases hs
      · rename_i hc
        split at hs
        · cases hs
        · injection hs with hs
          injection hs with hs _ _
          subst hs
          have hm := mem_of_slots hsl
          have hinc := incAll_ref sl w
          refine ⟨?_, ?_, ?_, ?_, ?_, ?_, ?_⟩
          · show ((w.procs ++ [(c, sl)]).map (·.1)).Nodup
            rw [List.map_append, List.nodup_append]
            refine ⟨h.uniq, by simp, ?_⟩
            intro a ha b hb e
            have : b = c := by simpa using hb
            exact slots_none (Decidable.byContradiction hc) (this ▸ e ▸ ha)
          · intro n h1 h2
            show (incAll w sl).gdt n = _
            rw [(hinc n).2.1]
            exact h.kern n h1 h2
          · intro q hq n hn
            show n = 0 ∨ (7 ≤ n ∧ n < (incAll w sl).size)
            rw [(hinc n).2.2]
            rcases List.mem_append.mp hq with hq | hq
            · exact h.slot q hq n hn
            · rw [List.mem_singleton.mp hq] at hn
              exact h.slot _ hm n hn
          · show 8 ≤ (incAll w sl).size ∧ _
            rw [(hinc 0).2.2]
            exact h.size
          · intro n hn
            have hn' : w.size ≤ n := by rw [← (hinc n).2.2]; exact hn
            show (incAll w sl).gdt n = {} ∧ (incAll w sl).ref n = 0
            rw [(hinc n).2.1, (hinc n).1]
            have hsz := h.size
            refine ⟨(h.tail n hn').1, ?_⟩
            rw [(h.tail n hn').2, if_neg (by omega)]
            have : sl.count n = 0 := List.count_eq_zero.mpr (fun hin => by
              rcases h.slot _ hm n hin with h | h <;> omega)
            rw [this]; rfl
          · intro n hn
            show (incAll w sl).gdt n = {} ∨ ((incAll w sl).gdt n).dpl = 3 ∧ ((incAll w sl).gdt n).s = true
            rw [(hinc n).2.1]
            exact h.user n hn
          · intro n hn
            show ((((w.procs ++ [(c, sl)]).map (fun q => q.2.count n)).sum : Nat) : Int) ≤ (incAll w sl).ref n
            rw [(hinc n).1, if_neg hn, List.map_append, List.sum_append]
            have := h.cnt n hn
            unfold uses at this
            simp at this ⊢
            omega
  | exec p =>
    dsimp only [step] at hs
    cases hsl : w.slots p with
    | none => rw [hsl] at hs; cases hs
    | some sl =>
      rw [hsl] at hs
      dsimp only at hs
      injection hs with hs
      injection hs with hs _ _
      subst hs
      have hm := mem_of_slots hsl
      have hle : ∀ m, (sl.count m : Int) ≤ w.ref m ∨ m = 0 := by
        intro m
        by_cases e : m = 0
        · exact Or.inr e
        · have h1 := h.cnt m e
          have h2 : sl.count m ≤ uses w m := sum_ge (n := m) hm
          left; omega
      have hcl := fun m => clearAll_spec sl w m (hle m)
      refine ⟨?_, ?_, ?_, ?_, ?_, ?_, ?_⟩
      · exact (map_fst w.procs p (fun _ => [0, 0, 0])) ▸ h.uniq
      · intro n h1 h2
        show (clearAll w sl).gdt n = _
        rw [(hcl n).2.1, if_neg, h.kern n h1 h2]
        intro hx
        rcases h.slot _ hm n hx.2.1 with h | h <;> omega
      · intro q hq n hn
        show n = 0 ∨ (7 ≤ n ∧ n < (clearAll w sl).size)
        rw [(hcl n).2.2]
        rcases mem_map_slots (f := fun _ => [0, 0, 0]) hq with ⟨_, hq⟩ | ⟨sl', hq, rfl⟩
        · exact h.slot q hq n hn
        · left
          simpa using hn
      · show 8 ≤ (clearAll w sl).size ∧ _
        rw [(hcl 0).2.2]
        exact h.size
      · intro n hn
        have hn' : w.size ≤ n := by rw [← (hcl n).2.2]; exact hn
        show (clearAll w sl).gdt n = {} ∧ (clearAll w sl).ref n = 0
        have hsz := h.size
        have h0 : sl.count n = 0 := List.count_eq_zero.mpr (fun hin => by
          rcases h.slot _ hm n hin with h | h <;> omega)
        rw [(hcl n).2.1, (hcl n).1, h0, (h.tail n hn').1, (h.tail n hn').2]
        simp
      · intro n hn
        show (clearAll w sl).gdt n = {} ∨ ((clearAll w sl).gdt n).dpl = 3 ∧ ((clearAll w sl).gdt n).s = true
        rw [(hcl n).2.1]
        split
        · exact Or.inl rfl
        · exact h.user n hn
      · intro n hn
        show ((((w.procs.map (fun q => if q.1 = p then (q.1, [0, 0, 0]) else q)).map (fun q => q.2.count n)).sum : Nat) : Int) ≤ (clearAll w sl).ref n
        rw [(hcl n).1, if_neg hn]
        have h1 := sum_replace h.uniq hm (fun _ => [0, 0, 0]) n
        have h2 := h.cnt n hn
        have h3 : [0, 0, 0].count n = 0 := List.count_eq_zero.mpr (by simp [hn])
        unfold uses at h2
        omega
  | exit p =>
    dsimp only [step] at hs
    cases hsl : w.slots p with
    | none => rw [hsl] at hs; cases hs
    | some sl =>
      rw [hsl] at hs
      dsimp only at hs
      injection hs with hs
      injection hs with hs _ _
      subst hs
      have hm := mem_of_slots hsl
      have hle : ∀ m, (sl.count m : Int) ≤ w.ref m ∨ m = 0 := by
        intro m
        by_cases e : m = 0
        · exact Or.inr e
        · have h1 := h.cnt m e
          have h2 : sl.count m ≤ uses w m := sum_ge (n := m) hm
          left; omega
      have hcl := fun m => clearAll_spec sl w m (hle m)
      refine ⟨?_, ?_, ?_, ?_, ?_, ?_, ?_⟩
      · exact (List.filter_sublist.map _).nodup h.uniq
      · intro n h1 h2
        show (clearAll w sl).gdt n = _
        rw [(hcl n).2.1, if_neg, h.kern n h1 h2]
        intro hx
        rcases h.slot _ hm n hx.2.1 with h | h <;> omega
      · intro q hq n hn
        show n = 0 ∨ (7 ≤ n ∧ n < (clearAll w sl).size)
        rw [(hcl n).2.2]
        exact h.slot q (List.mem_filter.mp hq).1 n hn
      · show 8 ≤ (clearAll w sl).size ∧ _
        rw [(hcl 0).2.2]
        exact h.size
      · intro n hn
        have hn' : w.size ≤ n := by rw [← (hcl n).2.2]; exact hn
        show (clearAll w sl).gdt n = {} ∧ (clearAll w sl).ref n = 0
        have hsz := h.size
        have h0 : sl.count n = 0 := List.count_eq_zero.mpr (fun hin => by
          rcases h.slot _ hm n hin with h | h <;> omega)
        rw [(hcl n).2.1, (hcl n).1, h0, (h.tail n hn').1, (h.tail n hn').2]
        simp
      · intro n hn
        show (clearAll w sl).gdt n = {} ∨ ((clearAll w sl).gdt n).dpl = 3 ∧ ((clearAll w sl).gdt n).s = true
        rw [(hcl n).2.1]
        split
        · exact Or.inl rfl
        · exact h.user n hn
      · intro n hn
        show ((((w.procs.filter (fun q => q.1 ≠ p)).map (fun q => q.2.count n)).sum : Nat) : Int) ≤ (clearAll w sl).ref n
        rw [(hcl n).1, if_neg hn]
        have h1 := sum_remove h.uniq hm n
        have h2 := h.cnt n hn
        unfold uses at h2
        omega

theorem reach_inv {dbg : Bool} {tss df : Nat × Nat} {ok : World → Ev → Prop} {w : World} (h : Reach dbg tss df ok w) : Inv tss df w := by
  induction h with
  | boot => exact boot_inv tss df
  | step _ _ hs ih => exact step_inv ih hs

/-- C131. Whatever processes do, the kernel's segments stay as they were at boot. -/
theorem kernel_segments_safe {dbg : Bool} {tss df : Nat × Nat} {w : World} (h : Reach dbg tss df Any w) (n : Nat)
    (h1 : 1 ≤ n) (h6 : n ≤ 6) : w.gdt n = (boot tss df).gdt n := (reach_inv h).kern n h1 h6

/-- C131. All other entries are empty or ordinary segments of ring 3: no process gets a segment, gate or task of the
kernel's. -/
theorem ring3_only {dbg : Bool} {tss df : Nat × Nat} {w : World} (h : Reach dbg tss df Any w) (n : Nat)
    (hn : n = 0 ∨ 7 ≤ n) : w.gdt n = {} ∨ ((w.gdt n).dpl = 3 ∧ (w.gdt n).s = true) := (reach_inv h).user n hn

theorem area_step {dbg : Bool} {w w' : World} {p : Nat} {d : Desc} {mem : Bool} {rc : Int} {num : Nat}
    (hs : step dbg w (.area p d mem) = some (.ret w' rc num)) :
    ∃ sl, w.slots p = some sl ∧ setArea dbg w p sl d mem = .ret w' rc num := by
  dsimp only [step] at hs
  cases hsl : w.slots p with
  | none => rw [hsl] at hs; cases hs
  | some sl =>
    rw [hsl] at hs
    dsimp only at hs
    split at hs
    · exact ⟨sl, rfl, by injection hs⟩
    · cases hs

theorem slots_replace {l : List (Nat × List Nat)} {p q : Nat} {f : List Nat → List Nat} :
    ((l.map (fun x => if x.1 = p then (x.1, f x.2) else x)).find? (fun x => x.1 == q)).map (·.2) =
      ((l.find? (fun x => x.1 == q)).map (·.2)).map (if q = p then f else id) := by
  induction l with
  | nil => rfl
  | cons x l ih =>
    rw [List.map_cons]
    by_cases hq : x.1 = q
    · have h1 : (if x.1 = p then (x.1, f x.2) else x).1 = q := by split <;> exact hq
      rw [List.find?_cons_of_pos (by simpa using h1), List.find?_cons_of_pos (by simpa using hq)]
      by_cases hp : q = p
      · rw [if_pos (hq.trans hp), if_pos hp]; rfl
      · rw [if_neg (fun e => hp (hq.symm.trans e)), if_neg hp]; rfl
    · have h1 : ¬ (if x.1 = p then (x.1, f x.2) else x).1 = q := by split <;> exact hq
      rw [List.find?_cons_of_neg (by simpa using h1), List.find?_cons_of_neg (by simpa using hq)]
      exact ih

theorem setSlot_slots (w : World) (p k n q : Nat) :
    (w.setSlot p k n).slots q = (w.slots q).map (if q = p then (fun s => s.set k n) else id) :=
  slots_replace (f := fun s => s.set k n)

theorem findIdx_lt {sl : List Nat} {k n : Nat} (h : sl.findIdx? (· == n) = some k) : ∃ h : k < sl.length, sl[k] = n := by
  rw [List.findIdx?_eq_some_iff_getElem] at h
  obtain ⟨hk, h1, _⟩ := h
  exact ⟨hk, by simpa using h1⟩

theorem has_set {w : World} {p k n m : Nat} {sl : List Nat} (hsl : w.slots p = some sl) (hk : sl.findIdx? (· == 0) = some k)
    (hm : m ≠ 0) : Has (w.setSlot p k n) p m ↔ (m = n ∨ Has w p m) := by
  obtain ⟨hlt, h0⟩ := findIdx_lt hk
  unfold Has
  rw [setSlot_slots, hsl, if_pos rfl]
  constructor
  · rintro ⟨_, s, hs, hin⟩
    cases hs
    rcases mem_set hin with h | h
    · exact Or.inl h
    · exact Or.inr ⟨hm, sl, rfl, h⟩
  · rintro (rfl | ⟨_, s, hs, hin⟩)
    · exact ⟨hm, _, rfl, List.mem_set hlt _⟩
    · cases hs
      refine ⟨hm, _, rfl, ?_⟩
      obtain ⟨i, hi, e⟩ := List.getElem_of_mem hin
      have hik : i ≠ k := by
        intro h
        subst h
        exact hm (e.symm.trans h0)
      have hi' : i < (sl.set k n).length := by simpa using hi
      have : (sl.set k n)[i] = m := by rw [List.getElem_set_ne (Ne.symm hik)]; exact e
      exact this ▸ List.getElem_mem hi'

/-- C132. A `set_thread_area` that succeeds has made the entry it names, or a free one, into the segment asked for; the process
has it from now on, keeps what it had, and nothing else changes. -/
theorem area_effect_partial {dbg : Bool} {tss df : Nat × Nat} {w w' : World} (h : Reach dbg tss df Any w) {p : Nat} {d : Desc} {mem : Bool}
    {num : Nat} (hs : step dbg w (.area p d mem) = some (.ret w' 0 num)) (hne : d.empty = false) (hl : d.limit < 2 ^ 20)
    (h0 : d.num ≠ 0) :
    Wants d (w'.gdt num) ∧ Has w' p num ∧ 7 ≤ num ∧ (d.num ≠ ANY → num = d.num) ∧
    (d.num = ANY ∨ ¬ Has w p num → w.gdt num = {}) ∧
    (∀ m, m ≠ num → w'.gdt m = w.gdt m) ∧ (∀ m, m ≠ 0 → (Has w' p m ↔ m = num ∨ Has w p m)) ∧ (∀ q, q ≠ p → w'.slots q = w.slots q) := by
  have hi := reach_inv h
  obtain ⟨sl, hsl, ha⟩ := area_step hs
  have hseg : d.seg = ⟨d.base, d.limit % 2 ^ 20, d.flags / 2 % 4 * 4 + (if d.bit 3 then 0 else 2), true, 3, !d.bit 5, d.bit 6, d.bit 0, d.bit 4⟩ := by
    unfold Desc.seg; rw [if_neg (by rw [hne]; decide)]
  have hw : Wants d d.seg := by
    rw [hseg]
    unfold Desc.bit
    refine ⟨rfl, Nat.mod_eq_of_lt hl, ⟨rfl, rfl⟩, ?_, ?_, ?_, ?_, ?_⟩
    all_goals simp
    all_goals omega
  rcases area_cases ha with ⟨hrc, _, _⟩ | ⟨k, sz, _, hk, hp, hlt, hacc, hsz, _, rfl, hany⟩ | ⟨_, hnum, hmem, rfl⟩
  · exact absurd hrc (by decide)
  · have h7 : 7 ≤ num := by
      rcases Nat.lt_or_ge num 7 with h7 | h7
      · rw [hi.kern num (by omega) (by omega)] at hacc
        rcases kernel_access _ _ hacc with h | h <;> omega
      · exact h7
    have hhas := fun m (hm : m ≠ 0) => has_set (w := (w.grow sz).setEntry num d.seg) (n := num) hsl hk hm
    refine ⟨?_, (hhas num (by omega)).mpr (Or.inl rfl), h7, fun h => (hany h).1, fun _ => (seg_access (hi.user num (Or.inr h7))).mp hacc, ?_, hhas, ?_⟩
    · show Wants d (if num = num then d.seg else _)
      rw [if_pos rfl]; exact hw
    · intro m hm
      exact if_neg hm
    · intro q hq
      rw [setSlot_slots, if_neg hq]
      exact Option.map_id_fun ▸ rfl
  · have hn0 : num ≠ 0 := by rw [hnum]; exact h0
    have h7 : 7 ≤ num := by
      rcases hi.slot _ (mem_of_slots hsl) num hmem with h | h
      · exact absurd h hn0
      · exact h.1
    have hHas : Has w p num := ⟨hn0, sl, hsl, hmem⟩
    refine ⟨?_, hHas, h7, fun _ => hnum, ?_, ?_, ?_, fun _ _ => rfl⟩
    · show Wants d (if num = num then d.seg else _)
      rw [if_pos rfl]; exact hw
    · rintro (h | h)
      · have : num < 65536 := by
          rcases hi.slot _ (mem_of_slots hsl) num hmem with h | h
          · exact absurd h hn0
          · have := hi.size; omega
        rw [hnum, h] at this
        exact absurd this (by decide)
      · exact absurd hHas h
    · intro m hm
      exact if_neg hm
    · intro m _
      exact ⟨fun h => Or.inr h, fun h => h.elim (fun e => e ▸ hHas) id⟩

/-- C132. A `set_thread_area` that fails changes nothing. -/
theorem area_failed {dbg : Bool} {w w' : World} {p : Nat} {d : Desc} {mem : Bool} {rc : Int} {num : Nat}
    (hs : step dbg w (.area p d mem) = some (.ret w' rc num)) (hrc : rc ≠ 0) :
    (rc = EINVAL ∨ rc = ESRCH) ∧ w' = w ∧ num = d.num := by
  obtain ⟨sl, hsl, ha⟩ := area_step hs
  rcases area_cases ha with h | ⟨_, _, h, _⟩ | ⟨h, _⟩
  · exact h
  · exact absurd h hrc
  · exact absurd h hrc

/-- C132. A process may not touch an entry in use that it has not got, neither the kernel's nor that of another process, nor one
outside of the table. -/
theorem area_refused {dbg : Bool} {w : World} {p : Nat} {d : Desc} {mem : Bool} (hx : w.slots p ≠ none)
    (hb : d.num < ANY ∧ d.base < 2 ^ 32 ∧ d.limit < 2 ^ 20 ∧ d.flags < 2 ^ 32)
    (hu : w.size ≤ d.num ∨ (w.gdt d.num).access ≠ 0) (hh : ¬ Has w p d.num) (h0 : d.num ≠ 0) :
    step dbg w (.area p d mem) = some (.ret w EINVAL d.num) := by
  cases hsl : w.slots p with
  | none => exact absurd hsl hx
  | some sl =>
    have hnotin : d.num ∉ sl := fun hin => hh ⟨h0, sl, hsl, hin⟩
    have hANY : d.num ≠ ANY := by omega
    have hA : ANY = 2 ^ 32 - 1 := rfl
    dsimp only [step]
    rw [hsl]
    dsimp only
    rw [if_pos ⟨by omega, hb.2.1, by omega, hb.2.2.2⟩]
    unfold setArea
    rw [if_neg (fun x => by have := x.2.2; omega), if_neg (fun x => hANY x.2), if_neg hANY]
    unfold setThis
    have : sl.findIdx? (· == d.num) = none := by
      rw [List.findIdx?_eq_none_iff]
      intro x hx
      have : x ≠ d.num := fun e => hnotin (e ▸ hx)
      simpa using this
    rw [this]
    dsimp only
    rw [if_pos (hu)]

/-- C132. A process that has less than three entries gets a new one whenever there is memory and the table is not full. -/
theorem area_granted {dbg : Bool} {tss df : Nat × Nat} {w : World} (h : Reach dbg tss df Any w) {p : Nat} {sl : List Nat} (hsl : w.slots p = some sl)
    (hfree : 0 ∈ sl) {d : Desc} (hb : d.num = ANY ∧ d.base < 2 ^ 32 ∧ d.limit < 2 ^ 20 ∧ d.flags < 2 ^ 32) (hne : d.empty = false)
    (hroom : w.size * 2 ≤ 65536 ∨ ∃ n, 0 < n ∧ n < w.size ∧ w.gdt n = {}) :
    ∃ w' num, step dbg w (.area p d true) = some (.ret w' 0 num) := by
  have hi := reach_inv h
  have hA : ANY < 2 ^ 32 := by decide
  have hk : ∃ k, sl.findIdx? (· == 0) = some k := by
    cases hk : sl.findIdx? (· == 0) with
    | none => exact absurd hfree (not_mem_findIdx hk)
    | some k => exact ⟨k, rfl⟩
  obtain ⟨k, hk⟩ := hk
  dsimp only [step]
  rw [hsl]
  dsimp only
  rw [if_pos ⟨by omega, hb.2.1, by omega, hb.2.2.2⟩]
  unfold setArea
  rw [if_neg (fun x => by have := x.2.2; omega), if_neg (fun x => by rw [hne] at x; exact absurd x.1 (by decide)), if_pos hb.1]
  unfold setAny
  rw [hk]
  dsimp only
  cases hf : w.free? with
  | some n => exact ⟨_, _, rfl⟩
  | none =>
    dsimp only
    have hno : ∀ n, 0 < n → n < w.size → w.gdt n ≠ {} := by
      intro n h1 h2 he
      unfold World.free? at hf
      rw [List.find?_eq_none] at hf
      have := hf n (List.mem_range.mpr h2)
      rw [he] at this
      exact this (by simp [h1, Seg.access])
    rw [if_neg (by
      rintro (h | h)
      · rcases hroom with h' | ⟨n, h1, h2, h3⟩
        · omega
        · exact hno n h1 h2 h3
      · exact absurd h (by decide))]
    cases hf' : ({ w with size := w.size * 2 } : World).free? with
    | some n => exact ⟨_, _, rfl⟩
    | none =>
      exfalso
      unfold World.free? at hf'
      rw [List.find?_eq_none] at hf'
      have hsz := hi.size
      have := hf' w.size (List.mem_range.mpr (show w.size < w.size * 2 by omega))
      dsimp only at this
      rw [(hi.tail w.size (Nat.le_refl _)).1] at this
      have h8 : 0 < w.size := by omega
      exact this (by simp [h8, Seg.access])

/-- C133. `fork`, `exec` and the end of a process leave the entries that another process has as they are. -/
theorem in_use_kept {dbg : Bool} {tss df : Nat × Nat} {w w' : World} (h : Reach dbg tss df Any w) {q : Nat} {e : Ev} {rc : Int} {num : Nat}
    (he : (∃ c, e = .fork q c) ∨ e = .exec q ∨ e = .exit q) (hs : step dbg w e = some (.ret w' rc num)) {p n : Nat} (hp : p ≠ q)
    (hh : Has w p n) : w'.gdt n = w.gdt n ∧ Has w' p n := by
  have hi := reach_inv h
  obtain ⟨hn, s, hps, hin⟩ := hh
  have hpm := mem_of_slots hps
  have hclear : ∀ sl, w.slots q = some sl → (clearAll w sl).gdt n = w.gdt n := by
    intro sl hsl
    have hqm := mem_of_slots hsl
    have h1 := sum_remove hi.uniq hqm n
    have h2 : s.count n ≤ ((w.procs.filter (fun x => x.1 ≠ q)).map (fun x => x.2.count n)).sum :=
      sum_ge (q := (p, s)) (List.mem_filter.mpr ⟨hpm, by simpa using hp⟩)
    have h3 := hi.cnt n hn
    have h4 : 0 < s.count n := List.count_pos_iff.mpr hin
    unfold uses at h3
    rw [(clearAll_spec sl w n (Or.inl (by omega))).2.1]
    exact if_neg (fun x => by have := x.2.2; omega)
  rcases he with ⟨c, rfl⟩ | rfl | rfl
  · dsimp only [step] at hs
    cases hsl : w.slots q with
    | none => rw [hsl] at hs; cases hs
    | some sl =>
      rw [hsl] at hs
      dsimp only at hs
      split at hs
      · cases hs
      · split at hs
        · cases hs
        · injection hs with hs
          injection hs with hs _ _
          subst hs
          refine ⟨by rw [(incAll_ref sl w n).2.1], hn, s, ?_, hin⟩
          show ((w.procs ++ [(c, sl)]).find? (fun x => x.1 == p)).map (·.2) = some s
          rw [List.find?_append]
          unfold World.slots at hps
          cases hf : w.procs.find? (fun x => x.1 == p) with
          | none => rw [hf] at hps; cases hps
          | some x => rw [hf] at hps; exact hps
  · dsimp only [step] at hs
    cases hsl : w.slots q with
    | none => rw [hsl] at hs; cases hs
    | some sl =>
      rw [hsl] at hs
      injection hs with hs
      injection hs with hs _ _
      subst hs
      refine ⟨hclear sl hsl, hn, s, ?_, hin⟩
      have := slots_replace (l := w.procs) (p := q) (q := p) (f := fun _ => [0, 0, 0])
      rw [if_neg hp] at this
      refine Eq.trans this ?_
      unfold World.slots at hps
      rw [hps]; rfl
  · dsimp only [step] at hs
    cases hsl : w.slots q with
    | none => rw [hsl] at hs; cases hs
    | some sl =>
      rw [hsl] at hs
      injection hs with hs
      injection hs with hs _ _
      subst hs
      refine ⟨hclear sl hsl, hn, s, ?_, hin⟩
      show ((w.procs.filter (fun x => x.1 ≠ q)).find? (fun x => x.1 == p)).map (·.2) = some s
      rw [List.find?_filter]
      unfold World.slots at hps
      rw [← hps]
      congr 2
      funext x
      by_cases hx : x.1 = p
      · simp [hx, hp]
      · simp [hx]

/-- The counters are exact and entries with counter 0 are empty. -/
def Exact (w : World) : Prop := ∀ n, 7 ≤ n → w.ref n = uses w n ∧ (w.ref n = 0 → w.gdt n = {})

theorem uses_grow {w : World} (hu : (w.procs.map (·.1)).Nodup) {p k n m sz : Nat} {sl : List Nat} {e : Seg} (hs : w.slots p = some sl)
    (hk : sl.findIdx? (· == 0) = some k) (hm : m ≠ 0) :
    uses (((w.grow sz).setEntry n e).setSlot p k n) m = uses w m + if n = m then 1 else 0 :=
  uses_set hu hs hk hm sz e

theorem exact_step {dbg : Bool} {tss df : Nat × Nat} {w w' : World} {e : Ev} {rc : Int} {num : Nat} (hi : Inv tss df w) (hx : Exact w)
    (ok : NewOnly w e) (hs : step dbg w e = some (.ret w' rc num)) : Exact w' := by
  cases e with
  | area p d mem =>
    obtain ⟨sl, hsl, ha⟩ := area_step hs
    rcases area_cases ha with ⟨_, rfl, _⟩ | ⟨k, sz, _, hk, hp, hlt, hacc, hsz, _, rfl, hany⟩ | ⟨_, hnum, hmem, rfl⟩
    · exact hx
    · intro n hn
      rw [uses_grow hi.uniq hsl hk (by omega)]
      obtain ⟨h1, h2⟩ := hx n hn
      by_cases hnn : n = num
      · subst hnn
        have e1 : (((w.grow sz).setEntry n d.seg).setSlot p k n).ref n = w.ref n + 1 := if_pos rfl
        rw [e1, if_pos rfl]
        exact ⟨by omega, fun h => by omega⟩
      · have e1 : (((w.grow sz).setEntry num d.seg).setSlot p k num).ref n = w.ref n := if_neg hnn
        have e2 : (((w.grow sz).setEntry num d.seg).setSlot p k num).gdt n = w.gdt n := if_neg hnn
        rw [e1, e2, if_neg (Ne.symm hnn)]
        exact ⟨h1, h2⟩
    · exact absurd ⟨ok.1, sl, hsl, hnum ▸ hmem⟩ ok.2
  | fork p c =>
    dsimp only [step] at hs
    cases hsl : w.slots p with
    | none => rw [hsl] at hs; cases hs
    | some sl =>
      rw [hsl] at hs
      dsimp only at hs
      split at hs
      · cases hs
      · split at hs
        · cases hs
        · injection hs with hs
          injection hs with hs _ _
          subst hs
          intro n hn
          obtain ⟨h1, h2⟩ := hx n hn
          obtain ⟨r1, r2, _⟩ := incAll_ref sl w n
          rw [if_neg (show n ≠ 0 by omega)] at r1
          refine ⟨?_, ?_⟩
          · show (incAll w sl).ref n = (((w.procs ++ [(c, sl)]).map (fun q => q.2.count n)).sum : Nat)
            rw [r1, List.map_append, List.sum_append]
            unfold uses at h1
            simp
            omega
          · show (incAll w sl).ref n = 0 → (incAll w sl).gdt n = {}
            rw [r1, r2]
            intro h
            exact h2 (by omega)
  | exec p =>
    dsimp only [step] at hs
    cases hsl : w.slots p with
    | none => rw [hsl] at hs; cases hs
    | some sl =>
      rw [hsl] at hs
      injection hs with hs
      injection hs with hs _ _
      subst hs
      intro n hn
      obtain ⟨h1, h2⟩ := hx n hn
      have hqm := mem_of_slots hsl
      have hsum := sum_replace hi.uniq hqm (fun _ => [0, 0, 0]) n
      have h0 : ([0, 0, 0] : List Nat).count n = 0 := List.count_eq_zero.mpr (by simp; omega)
      have hle : sl.count n ≤ uses w n := sum_ge (q := (p, sl)) hqm
      obtain ⟨r1, r2, _⟩ := clearAll_spec sl w n (Or.inl (by omega))
      rw [if_neg (show n ≠ 0 by omega)] at r1
      refine ⟨?_, ?_⟩
      · show (clearAll w sl).ref n = ((((w.procs.map (fun q => if q.1 = p then (q.1, [0, 0, 0]) else q))).map (fun q => q.2.count n)).sum : Nat)
        rw [r1]
        unfold uses at h1
        omega
      · show (clearAll w sl).ref n = 0 → (clearAll w sl).gdt n = {}
        rw [r1, r2]
        intro h
        split
        · rfl
        · rename_i hc
          have : n ∉ sl := fun hin => hc ⟨by omega, hin, by omega⟩
          have : sl.count n = 0 := List.count_eq_zero.mpr this
          exact h2 (by omega)
  | exit p =>
    dsimp only [step] at hs
    cases hsl : w.slots p with
    | none => rw [hsl] at hs; cases hs
    | some sl =>
      rw [hsl] at hs
      injection hs with hs
      injection hs with hs _ _
      subst hs
      intro n hn
      obtain ⟨h1, h2⟩ := hx n hn
      have hqm := mem_of_slots hsl
      have hsum := sum_remove hi.uniq hqm n
      have hle : sl.count n ≤ uses w n := sum_ge (q := (p, sl)) hqm
      obtain ⟨r1, r2, _⟩ := clearAll_spec sl w n (Or.inl (by omega))
      rw [if_neg (show n ≠ 0 by omega)] at r1
      refine ⟨?_, ?_⟩
      · show (clearAll w sl).ref n = (((w.procs.filter (fun q => q.1 ≠ p)).map (fun q => q.2.count n)).sum : Nat)
        rw [r1]
        unfold uses at h1
        omega
      · show (clearAll w sl).ref n = 0 → (clearAll w sl).gdt n = {}
        rw [r1, r2]
        intro h
        split
        · rfl
        · rename_i hc
          have : n ∉ sl := fun hin => hc ⟨by omega, hin, by omega⟩
          have : sl.count n = 0 := List.count_eq_zero.mpr this
          exact h2 (by omega)

theorem reach_exact {dbg : Bool} {tss df : Nat × Nat} {w : World} (h : Reach dbg tss df NewOnly w) : Exact w := by
  induction h with
  | boot =>
    intro n hn
    have h1 : (boot tss df).ref n = 0 := if_neg (by omega)
    have h2 : uses (boot tss df) n = 0 := by
      show ([0, 0, 0] : List Nat).count n + 0 = 0
      rw [List.count_eq_zero.mpr (by simp; omega)]
    refine ⟨by rw [h1, h2]; rfl, fun _ => ?_⟩
    show kernelSeg tss df n = {}
    unfold kernelSeg
    split <;> first | omega | rfl
  | step hr hok hs ih => exact exact_step (reach_inv hr) ih hok hs

theorem uses_zero {w : World} (hu : (w.procs.map (·.1)).Nodup) {n : Nat} (hn : n ≠ 0) (h : ∀ p, ¬ Has w p n) : uses w n = 0 := by
  unfold uses
  rw [List.sum_eq_zero_iff_forall_eq_nat]
  intro x hx
  obtain ⟨⟨p, sl⟩, hq, rfl⟩ := List.mem_map.mp hx
  exact List.count_eq_zero.mpr (fun hin => h p ⟨hn, sl, slots_of_mem hu hq, hin⟩)

/-- C133. When nobody sets an entry that it already has, an entry that no process has (any more) is free again. -/
theorem freed_partial {dbg : Bool} {tss df : Nat × Nat} {w : World} (h : Reach dbg tss df NewOnly w) {n : Nat} (hn : 7 ≤ n)
    (hh : ∀ p, ¬ Has w p n) : w.gdt n = {} := by
  obtain ⟨h1, h2⟩ := reach_exact h n hn
  rw [uses_zero (reach_inv h).uniq (by omega) hh] at h1
  exact h2 h1

/-- No two processes have the same entry, and an entry that someone has is in use. -/
def Alone (w : World) : Prop := ∀ n, n ≠ 0 → uses w n ≤ 1 ∧ (0 < uses w n → (w.gdt n).access ≠ 0)

theorem seg_nonzero {d : Desc} (h : d.empty = false) : d.seg.access ≠ 0 := by
  rcases seg_user d with e | e
  · unfold Desc.seg at e
    rw [if_neg (by rw [h]; decide)] at e
    have : (3 : Nat) = 0 := congrArg Seg.dpl e
    omega
  · intro h0
    have := (seg_access (Or.inr e)).mp h0
    rw [this] at e
    exact absurd e.1 (by decide)

theorem alone_step {dbg : Bool} {tss df : Nat × Nat} {w w' : World} {e : Ev} {rc : Int} {num : Nat} (hi : Inv tss df w) (hx : Alone w)
    (ok : Apart w e) (hs : step dbg w e = some (.ret w' rc num)) : Alone w' := by
  have hclear : ∀ p sl, w.slots p = some sl → ∀ n, n ≠ 0 → sl.count n < uses w n → (clearAll w sl).gdt n = w.gdt n := by
    intro p sl hsl n hn hlt
    have h3 := hi.cnt n hn
    rw [(clearAll_spec sl w n (Or.inl (by omega))).2.1]
    exact if_neg (fun x => by have := x.2.2; omega)
  cases e with
  | area p d mem =>
    obtain ⟨sl, hsl, ha⟩ := area_step hs
    rcases area_cases ha with ⟨_, rfl, _⟩ | ⟨k, sz, _, hk, hp, hlt, hacc, hsz, _, rfl, hany⟩ | ⟨_, hnum, hmem, rfl⟩
    · exact hx
    · intro n hn
      rw [uses_grow hi.uniq hsl hk hn]
      obtain ⟨h1, h2⟩ := hx n hn
      by_cases hnn : n = num
      · subst hnn
        have e2 : (((w.grow sz).setEntry n d.seg).setSlot p k n).gdt n = d.seg := if_pos rfl
        rw [e2, if_pos rfl]
        have : ¬ 0 < uses w n := fun h => h2 h hacc
        exact ⟨by omega, fun _ => seg_nonzero ok⟩
      · have e2 : (((w.grow sz).setEntry num d.seg).setSlot p k num).gdt n = w.gdt n := if_neg hnn
        rw [e2, if_neg (Ne.symm hnn)]
        exact ⟨h1, h2⟩
    · intro n hn
      obtain ⟨h1, h2⟩ := hx n hn
      refine ⟨h1, fun hu => ?_⟩
      by_cases hnn : n = num
      · have e2 : (w.setEntry num d.seg).gdt n = d.seg := if_pos hnn
        rw [e2]; exact seg_nonzero ok
      · have e2 : (w.setEntry num d.seg).gdt n = w.gdt n := if_neg hnn
        rw [e2]; exact h2 hu
  | fork p c =>
    dsimp only [step] at hs
    cases hsl : w.slots p with
    | none => rw [hsl] at hs; cases hs
    | some sl =>
      rw [hsl] at hs
      dsimp only at hs
      split at hs
      · cases hs
      · split at hs
        · cases hs
        · injection hs with hs
          injection hs with hs _ _
          subst hs
          intro n hn
          obtain ⟨h1, h2⟩ := hx n hn
          have hz : sl.count n = 0 := List.count_eq_zero.mpr (fun hin => ok n ⟨hn, sl, hsl, hin⟩)
          have hu : uses { incAll w sl with procs := w.procs ++ [(c, sl)] } n = uses w n := by
            show ((w.procs ++ [(c, sl)]).map (fun q => q.2.count n)).sum = _
            rw [List.map_append, List.sum_append]
            unfold uses
            simpa using hz
          rw [hu]
          refine ⟨h1, ?_⟩
          show _ → ((incAll w sl).gdt n).access ≠ 0
          rw [(incAll_ref sl w n).2.1]
          exact h2
  | exec p =>
    dsimp only [step] at hs
    cases hsl : w.slots p with
    | none => rw [hsl] at hs; cases hs
    | some sl =>
      rw [hsl] at hs
      injection hs with hs
      injection hs with hs _ _
      subst hs
      intro n hn
      obtain ⟨h1, h2⟩ := hx n hn
      have hsum := sum_replace hi.uniq (mem_of_slots hsl) (fun _ => [0, 0, 0]) n
      have h0 : ([0, 0, 0] : List Nat).count n = 0 := List.count_eq_zero.mpr (by simp; omega)
      have hu : ((w.procs.map (fun q => if q.1 = p then (q.1, [0, 0, 0]) else q)).map (fun q => q.2.count n)).sum + sl.count n = uses w n := by
        unfold uses
        omega
      generalize hU : ((w.procs.map (fun q => if q.1 = p then (q.1, [0, 0, 0]) else q)).map (fun q => q.2.count n)).sum = U at hu
      refine ⟨Nat.le_trans (Nat.le_of_eq hU) (by omega), fun hpos => ?_⟩
      replace hpos : 0 < U := hU ▸ hpos
      show ((clearAll w sl).gdt n).access ≠ 0
      rw [hclear p sl hsl n hn (by omega)]
      exact h2 (by omega)
  | exit p =>
    dsimp only [step] at hs
    cases hsl : w.slots p with
    | none => rw [hsl] at hs; cases hs
    | some sl =>
      rw [hsl] at hs
      injection hs with hs
      injection hs with hs _ _
      subst hs
      intro n hn
      obtain ⟨h1, h2⟩ := hx n hn
      have hsum : ((w.procs.filter (fun q => q.1 ≠ p)).map (fun q => q.2.count n)).sum + sl.count n = uses w n :=
        sum_remove hi.uniq (mem_of_slots hsl) n
      generalize hU : ((w.procs.filter (fun q => q.1 ≠ p)).map (fun q => q.2.count n)).sum = U at hsum
      refine ⟨Nat.le_trans (Nat.le_of_eq hU) (by omega), fun hpos => ?_⟩
      replace hpos : 0 < U := hU ▸ hpos
      show ((clearAll w sl).gdt n).access ≠ 0
      rw [hclear p sl hsl n hn (by omega)]
      exact h2 (by omega)

theorem reach_alone {dbg : Bool} {tss df : Nat × Nat} {w : World} (h : Reach dbg tss df Apart w) : Alone w := by
  induction h with
  | boot =>
    intro n hn
    have h2 : uses (boot tss df) n = 0 := by
      show ([0, 0, 0] : List Nat).count n + 0 = 0
      rw [List.count_eq_zero.mpr (by simp; omega)]
    exact ⟨by omega, fun h => by omega⟩
  | step hr hok hs ih => exact alone_step (reach_inv hr) ih hok hs

theorem has_uses {w : World} {p n : Nat} (h : Has w p n) : 0 < uses w n := by
  obtain ⟨_, sl, hsl, hin⟩ := h
  have h1 : sl.count n ≤ uses w n := sum_ge (q := (p, sl)) (mem_of_slots hsl)
  have h2 : 0 < sl.count n := List.count_pos_iff.mpr hin
  omega

/-- C134. When nobody clears entries or forks with them, no two processes have the same entry … -/
theorem not_shared_partial {dbg : Bool} {tss df : Nat × Nat} {w : World} (h : Reach dbg tss df Apart w) {p q n : Nat} (hp : Has w p n)
    (hq : Has w q n) : p = q := by
  apply Classical.byContradiction
  intro hne
  have hi := reach_inv h
  obtain ⟨h1, _⟩ := reach_alone h n hp.1
  obtain ⟨_, s1, hs1, hin1⟩ := hp
  obtain ⟨_, s2, hs2, hin2⟩ := hq
  have a1 := sum_remove hi.uniq (mem_of_slots hs1) n
  have a2 : s2.count n ≤ ((w.procs.filter (fun x => x.1 ≠ p)).map (fun x => x.2.count n)).sum :=
    sum_ge (q := (q, s2)) (List.mem_filter.mpr ⟨mem_of_slots hs2, by simpa using Ne.symm hne⟩)
  have a3 : 0 < s1.count n := List.count_pos_iff.mpr hin1
  have a4 : 0 < s2.count n := List.count_pos_iff.mpr hin2
  unfold uses at h1
  omega

/-- … and what a process does with its entries leaves those of the others as they are. -/
theorem isolation_partial {dbg : Bool} {tss df : Nat × Nat} {w w' : World} (h : Reach dbg tss df Apart w) {p q : Nat} {d : Desc} {mem : Bool}
    {rc : Int} {num n : Nat} (hs : step dbg w (.area p d mem) = some (.ret w' rc num)) (hq : Has w q n) (hne : q ≠ p) :
    w'.gdt n = w.gdt n ∧ Has w' q n := by
  obtain ⟨sl, hsl, ha⟩ := area_step hs
  have hu := (reach_alone h n hq.1).2 (has_uses hq)
  rcases area_cases ha with ⟨_, rfl, _⟩ | ⟨k, sz, _, hk, hp, hlt, hacc, hsz, _, rfl, hany⟩ | ⟨_, hnum, hmem, rfl⟩
  · exact ⟨rfl, hq⟩
  · have hnn : n ≠ num := fun e => hu (e ▸ hacc)
    refine ⟨if_neg hnn, hq.1, ?_⟩
    obtain ⟨_, s, h1, h2⟩ := hq
    refine ⟨s, ?_, h2⟩
    rw [setSlot_slots, if_neg hne]
    show Option.map id (w.slots q) = some s
    rw [h1]; rfl
  · have hnn : n ≠ num := fun e => hne (not_shared_partial h hq ⟨hq.1, sl, hsl, e ▸ hmem⟩)
    exact ⟨if_neg hnn, hq⟩

/-- An entry that someone has is in use. -/
def InUse (w : World) : Prop := ∀ n, n ≠ 0 → 0 < uses w n → (w.gdt n).access ≠ 0

theorem inuse_step {dbg : Bool} {tss df : Nat × Nat} {w w' : World} {e : Ev} {rc : Int} {num : Nat} (hi : Inv tss df w) (hx : InUse w)
    (ok : NoClear w e) (hs : step dbg w e = some (.ret w' rc num)) : InUse w' := by
  have hclear : ∀ p sl, w.slots p = some sl → ∀ n, n ≠ 0 → sl.count n < uses w n → (clearAll w sl).gdt n = w.gdt n := by
    intro p sl hsl n hn hlt
    have h3 := hi.cnt n hn
    rw [(clearAll_spec sl w n (Or.inl (by omega))).2.1]
    exact if_neg (fun x => by have := x.2.2; omega)
  cases e with
  | area p d mem =>
    obtain ⟨sl, hsl, ha⟩ := area_step hs
    rcases area_cases ha with ⟨_, rfl, _⟩ | ⟨k, sz, _, hk, hp, hlt, hacc, hsz, _, rfl, hany⟩ | ⟨_, hnum, hmem, rfl⟩
    · exact hx
    · intro n hn
      rw [uses_grow hi.uniq hsl hk hn]
      have h2 := hx n hn
      by_cases hnn : n = num
      · subst hnn
        have e2 : (((w.grow sz).setEntry n d.seg).setSlot p k n).gdt n = d.seg := if_pos rfl
        rw [e2, if_pos rfl]
        exact fun _ => seg_nonzero ok.1
      · have e2 : (((w.grow sz).setEntry num d.seg).setSlot p k num).gdt n = w.gdt n := if_neg hnn
        rw [e2, if_neg (Ne.symm hnn)]
        exact h2
    · intro n hn
      have h2 := hx n hn
      refine fun hu => ?_
      by_cases hnn : n = num
      · have e2 : (w.setEntry num d.seg).gdt n = d.seg := if_pos hnn
        rw [e2]; exact seg_nonzero ok.1
      · have e2 : (w.setEntry num d.seg).gdt n = w.gdt n := if_neg hnn
        rw [e2]; exact h2 hu
  | fork p c =>
    dsimp only [step] at hs
    cases hsl : w.slots p with
    | none => rw [hsl] at hs; cases hs
    | some sl =>
      rw [hsl] at hs
      dsimp only at hs
      split at hs
      · cases hs
      · split at hs
        · cases hs
        · injection hs with hs
          injection hs with hs _ _
          subst hs
          intro n hn
          have h2 := hx n hn
          have hu : uses { incAll w sl with procs := w.procs ++ [(c, sl)] } n = uses w n + sl.count n := by
            show ((w.procs ++ [(c, sl)]).map (fun q => q.2.count n)).sum = _
            rw [List.map_append, List.sum_append]
            unfold uses
            simp
          rw [hu]
          show _ → ((incAll w sl).gdt n).access ≠ 0
          rw [(incAll_ref sl w n).2.1]
          have hle : sl.count n ≤ uses w n := sum_ge (q := (p, sl)) (mem_of_slots hsl)
          exact fun h => h2 (by omega)
  | exec p =>
    dsimp only [step] at hs
    cases hsl : w.slots p with
    | none => rw [hsl] at hs; cases hs
    | some sl =>
      rw [hsl] at hs
      injection hs with hs
      injection hs with hs _ _
      subst hs
      intro n hn
      have h2 := hx n hn
      have hsum := sum_replace hi.uniq (mem_of_slots hsl) (fun _ => [0, 0, 0]) n
      have h0 : ([0, 0, 0] : List Nat).count n = 0 := List.count_eq_zero.mpr (by simp; omega)
      have hu : ((w.procs.map (fun q => if q.1 = p then (q.1, [0, 0, 0]) else q)).map (fun q => q.2.count n)).sum + sl.count n = uses w n := by
        unfold uses
        omega
      generalize hU : ((w.procs.map (fun q => if q.1 = p then (q.1, [0, 0, 0]) else q)).map (fun q => q.2.count n)).sum = U at hu
      refine fun hpos => ?_
      replace hpos : 0 < U := hU ▸ hpos
      show ((clearAll w sl).gdt n).access ≠ 0
      rw [hclear p sl hsl n hn (by omega)]
      exact h2 (by omega)
  | exit p =>
    dsimp only [step] at hs
    cases hsl : w.slots p with
    | none => rw [hsl] at hs; cases hs
    | some sl =>
      rw [hsl] at hs
      injection hs with hs
      injection hs with hs _ _
      subst hs
      intro n hn
      have h2 := hx n hn
      have hsum : ((w.procs.filter (fun q => q.1 ≠ p)).map (fun q => q.2.count n)).sum + sl.count n = uses w n :=
        sum_remove hi.uniq (mem_of_slots hsl) n
      generalize hU : ((w.procs.filter (fun q => q.1 ≠ p)).map (fun q => q.2.count n)).sum = U at hsum
      refine fun hpos => ?_
      replace hpos : 0 < U := hU ▸ hpos
      show ((clearAll w sl).gdt n).access ≠ 0
      rw [hclear p sl hsl n hn (by omega)]
      exact h2 (by omega)

theorem reach_inuse {dbg : Bool} {tss df : Nat × Nat} {w : World} (h : Reach dbg tss df NoClear w) : InUse w := by
  induction h with
  | boot =>
    intro n hn
    have h2 : uses (boot tss df) n = 0 := by
      show ([0, 0, 0] : List Nat).count n + 0 = 0
      rw [List.count_eq_zero.mpr (by simp; omega)]
    intro h
    omega
  | step hr hok hs ih => exact inuse_step (reach_inv hr) ih hok hs

/-- C133. When nobody clears entries or asks for a limit that does not fit, no call stops the kernel. -/
theorem never_stops_partial {dbg : Bool} {tss df : Nat × Nat} {w : World} (h : Reach dbg tss df NoClear w) {e : Ev} (ok : NoClear w e) :
    step dbg w e ≠ some .stop := by
  have hi := reach_inv h
  intro hs
  cases e with
  | area p d mem =>
    dsimp only [step] at hs
    cases hsl : w.slots p with
    | none => rw [hsl] at hs; cases hs
    | some sl =>
      rw [hsl] at hs
      dsimp only at hs
      split at hs
      · injection hs with hs
        unfold setArea at hs
        rw [if_neg (fun x => by have := x.2.2; have := ok.2; omega), if_neg (fun x => by rw [ok.1] at x; exact absurd x.1 (by decide))] at hs
        split at hs
        · unfold setAny at hs
          split at hs
          · cases hs
          · split at hs
            · cases hs
            · split at hs
              · cases hs
              · dsimp only at hs
                split at hs
                · cases hs
                · rename_i hf'
                  unfold World.free? at hf'
                  rw [List.find?_eq_none] at hf'
                  have hsz := hi.size
                  have := hf' w.size (List.mem_range.mpr (show w.size < w.size * 2 by omega))
                  dsimp only at this
                  rw [(hi.tail w.size (Nat.le_refl _)).1] at this
                  have h8 : 0 < w.size := by omega
                  exact this (by simp [h8, Seg.access])
        · unfold setThis at hs
          split at hs
          · cases hs
          · split at hs
            · cases hs
            · split at hs <;> cases hs
      · cases hs
  | fork p c =>
    dsimp only [step] at hs
    cases hsl : w.slots p with
    | none => rw [hsl] at hs; cases hs
    | some sl =>
      rw [hsl] at hs
      dsimp only at hs
      split at hs
      · cases hs
      · split at hs
        · rename_i hc
          obtain ⟨_, ha⟩ := hc
          rw [List.any_eq_true] at ha
          obtain ⟨n, hn, hd⟩ := ha
          have hd' : n ≠ 0 ∧ (w.gdt n).access = 0 := by simpa using hd
          exact reach_inuse h n hd'.1 (has_uses ⟨hd'.1, sl, hsl, hn⟩) hd'.2
        · cases hs
  | exec p =>
    dsimp only [step] at hs
    cases hsl : w.slots p with
    | none => rw [hsl] at hs; cases hs
    | some sl => rw [hsl] at hs; cases hs
  | exit p =>
    dsimp only [step] at hs
    cases hsl : w.slots p with
    | none => rw [hsl] at hs; cases hs
    | some sl => rw [hsl] at hs; cases hs

/-! ## Witnesses -/

/-- The world after a call. -/
def next (dbg : Bool) (w : World) (e : Ev) : World :=
  match step dbg w e with
  | some (.ret w' _ _) => w'
  | _ => w

theorem reach_next {dbg : Bool} {tss df : Nat × Nat} {ok : World → Ev → Prop} {w : World} (h : Reach dbg tss df ok w) {e : Ev}
    (hok : ok w e) : Reach dbg tss df ok (next dbg w e) := by
  unfold next
  split
  · rename_i hs; exact Reach.step h hok hs
  · exact h

theorem reach_run {dbg : Bool} {tss df : Nat × Nat} (es : List Ev) : ∀ {w : World}, Reach dbg tss df Any w →
    Reach dbg tss df Any (es.foldl (next dbg) w) := by
  induction es with
  | nil => exact fun h => h
  | cons e es ih => exact fun h => ih (reach_next h trivial)

theorem no_entries {w : World} {p : Nat} (h : w.slots p = some [0, 0, 0]) (n : Nat) : ¬ Has w p n := by
  rintro ⟨h0, sl, hsl, hin⟩
  rw [h] at hsl
  cases hsl
  simp at hin
  exact h0 hin

/-- A descriptor as a libc asks for: 32-bit, limit in pages, usable. -/
def tls (num base : Nat) : Desc := ⟨num, base, 2 ^ 20 - 1, 81⟩

/-- The empty descriptor. -/
def none' (num : Nat) : Desc := ⟨num, 0, 0, 40⟩

def w0 : World := boot (0, 103) (0, 103)

/-- Two processes with an entry each. -/
def two : World := [Ev.fork 1 2, .area 1 (tls ANY 4096) true, .area 2 (tls ANY 8192) true].foldl (next false) w0

example : Has two 1 7 ∧ Has two 2 8 ∧ (two.gdt 7).base = 4096 ∧ (two.gdt 8).base = 8192 ∧ two.size = 16 :=
  ⟨⟨by decide, [7, 0, 0], by decide +kernel, by decide⟩, ⟨by decide, [8, 0, 0], by decide +kernel, by decide⟩, by decide +kernel⟩

/-- The histories of `freed_partial`, `isolation_partial` and `never_stops_partial` contain that one. -/
example : Reach false (0, 103) (0, 103) Apart two ∧ Reach false (0, 103) (0, 103) NoClear two ∧ Reach false (0, 103) (0, 103) NewOnly two := by
  refine ⟨?_, ?_, ?_⟩
  · exact reach_next (reach_next (reach_next Reach.boot (e := .fork 1 2) (no_entries (by decide +kernel))) (e := .area 1 (tls ANY 4096) true) rfl)
      (e := .area 2 (tls ANY 8192) true) rfl
  · exact reach_next (reach_next (reach_next Reach.boot (e := .fork 1 2) trivial) (e := .area 1 (tls ANY 4096) true) ⟨rfl, by decide⟩)
      (e := .area 2 (tls ANY 8192) true) ⟨rfl, by decide⟩
  · exact reach_next (reach_next (reach_next Reach.boot (e := .fork 1 2) trivial) (e := .area 1 (tls ANY 4096) true)
      ⟨by decide, no_entries (by decide +kernel) _⟩) (e := .area 2 (tls ANY 8192) true) ⟨by decide, no_entries (by decide +kernel) _⟩

/-- After the end of process 2 its entry is free, that of process 1 is not. -/
example : ((next false two (.exit 2)).gdt 8) = {} ∧ ((next false two (.exit 2)).gdt 7).base = 4096 := by decide +kernel

/-- C131 fails for the entry 0, which the processor never uses: a process that has less than three entries can set it. -/
theorem null_entry_violated : ∃ w, Reach false (0, 103) (0, 103) Any w ∧ w.gdt 0 ≠ {} :=
  ⟨_, reach_run [.area 1 (tls 0 4096) true] .boot, by decide +kernel⟩

/-- C132 fails for limits of more than 20 bits: release builds cut them off … -/
theorem limit_cut_violated : ∃ d w' num, step false w0 (.area 1 d true) = some (.ret w' 0 num) ∧ d.empty = false ∧ (w'.gdt num).limit ≠ d.limit :=
  ⟨⟨ANY, 4096, 2 ^ 20, 81⟩, _, 7, rfl, rfl, by decide +kernel⟩

/-- … and with assertions the kernel stops. -/
theorem limit_stops_violated : ∃ d, step true w0 (.area 1 d true) = some .stop := ⟨⟨ANY, 4096, 2 ^ 20, 81⟩, rfl⟩

/-- C133 fails without the condition: setting one's own entry again, it is never freed. -/
theorem leak_violated : ∃ w, Reach false (0, 103) (0, 103) Any w ∧ (∀ p, ¬ Has w p 7) ∧ w.gdt 7 ≠ {} := by
  refine ⟨_, reach_run [.area 1 (tls ANY 4096) true, .area 1 (tls 7 8192) true, .exit 1] .boot, ?_, by decide +kernel⟩
  rintro p ⟨_, sl, hsl, _⟩
  have : (List.foldl (next false) (boot (0, 103) (0, 103)) [.area 1 (tls ANY 4096) true, .area 1 (tls 7 8192) true, .exit 1]).procs = [] := by
    decide +kernel
  unfold World.slots at hsl
  rw [this] at hsl
  cases hsl

/-- C133 fails with assertions: a process that has cleared its entry stops the kernel by `fork`. -/
theorem fork_stops_violated : ∃ w, Reach true (0, 103) (0, 103) Any w ∧ step true w (.fork 1 2) = some .stop :=
  ⟨_, reach_run [.area 1 (tls ANY 4096) true, .area 1 (none' 7) true] .boot, rfl⟩

/-- C134 fails after `fork`: the child changes the segment of its parent. -/
theorem shared_after_fork_violated : ∃ w w' num, Reach false (0, 103) (0, 103) Any w ∧ Has w 1 7 ∧
    step false w (.area 2 (tls 7 12288) true) = some (.ret w' 0 num) ∧ w'.gdt 7 ≠ w.gdt 7 :=
  ⟨_, _, 7, reach_run [.area 1 (tls ANY 4096) true, .fork 1 2] .boot, ⟨by decide, [7, 0, 0], by decide +kernel, by decide⟩, rfl, by decide +kernel⟩

/-- C134 fails when a process clears its entry: another one gets it, and the first can still change it. -/
theorem cleared_reused_violated : ∃ w w' num, Reach false (0, 103) (0, 103) Any w ∧ Has w 2 7 ∧ (w.gdt 7).base = 8192 ∧
    step false w (.area 1 (tls 7 12288) true) = some (.ret w' 0 num) ∧ (w'.gdt 7).base = 12288 :=
  ⟨_, _, 7, reach_run [.fork 1 2, .area 1 (tls ANY 4096) true, .area 1 (none' 7) true, .area 2 (tls ANY 8192) true] .boot,
    ⟨by decide, [7, 0, 0], by decide +kernel, by decide⟩, by decide +kernel, rfl, by decide +kernel⟩

end Verif.Gdt
