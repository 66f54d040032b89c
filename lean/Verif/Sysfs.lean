import Verif.Itoa
import Verif.LList
/-!
# Files of sysfs (modules/sysfs/types.c.h, fileops.c.h, sysfs.c)

Property C187 (a value written to a sysfs file is the value read back) and C188 (what is written to a
buffered sysfs file gets to the object).

Bytes are numbers.  The machine has `w` = 32 bits where numbers are read and printed.
-/
namespace Verif.Sysfs

/-! ## Values -/

/-- modules/sysfs/types.c.h:78-100 `sysfs_ulong_store`: `text` is what the user wrote, `stale` what is
behind it in the kernel's buffer from earlier calls.  `none`: more than 32 bytes are copied to `tmp`, which
has 32, and the stack of the kernel is overwritten.  Simplified: a number that fills all of `tmp` ends
there. -/
def ulongStore (text stale : List Nat) (old : Nat) : Option Nat :=
  if 32 < max text.length 31 then none
  else
    let r := Itoa.strtoul 32 10 ((text ++ stale).take (max text.length 31))
    some (if r.err = none then r.val.toNat else old)

/-- types.c.h:66-76 `sysfs_ulong_load`, for a buffer that is long enough. -/
def ulongLoad (v : Nat) : Option (List Nat) := (Itoa.itoaU 32 10 v).map (· ++ [10])

/-- types.c.h:126-149 `sysfs_long_store`. -/
def longStore (text stale : List Nat) (old : Int) : Option Int :=
  if 32 < max text.length 31 then none
  else
    let r := Itoa.strtol 32 10 ((text ++ stale).take (max text.length 31))
    some (if r.err = none then r.val else old)

/-- types.c.h:175-190 `sysfs_bool_store`; `bool` is any number other than 0. -/
def boolStore (text stale : List Nat) (old : Bool) : Bool :=
  match text ++ stale with
  | a :: b :: _ =>
    if a = 48 ∨ b = 49 then
      if b = 0 ∨ b = 10 ∨ b = 13 then a != 48 else old
    else old
  | _ => old

/-- types.c.h:163-173 `sysfs_bool_load`. -/
def boolLoad (v : Bool) : List Nat := [if v then 49 else 48, 10]

/-- types.c.h:214-232 `sysfs_config_str_store` for a property of `cap` bytes. -/
def strStore (text stale : List Nat) (cap : Nat) : List Nat :=
  ((text ++ stale).takeWhile fun c => c != 0 && c != 10).take (min text.length (cap - 1))

/-- types.c.h:203-212 `sysfs_config_str_load`, for a buffer that is long enough. -/
def strLoad (s : List Nat) : List Nat := s ++ [10]

/-! ## Buffered files -/

/-- `struct sysfs_handle`: position, and the buffer if it is loaded. -/
structure H where
  pos : Nat := 0
  data : Option (List Nat) := none
  deriving DecidableEq, Repr

/-- The object's data (`struct sysfs_buffer`), the open handles, and the pointers of the list of dirty
handles: its head is node 0, the node of handle `i` is `i + 1` (the list of `LList`). -/
structure St where
  val : List Nat
  h : Nat → Option H := fun _ => none
  m : LList.Mem := ⟨fun x => x, fun x => x⟩

/-- The state with handle `i` changed (glue; the handle table of kernel/vfs/vfs.c). -/
def St.setH (s : St) (i : Nat) (x : Option H) : St := { s with h := fun j => if j = i then x else s.h j }

/-- Bytes copied over others from a position on (the `memcpy` and the new `data_len` of
fileops.c.h:272-280). -/
def over (c : List Nat) (p : Nat) (bs : List Nat) : List Nat := c.take p ++ bs ++ c.drop (p + bs.length)

/-- The buffer, loaded if it is not (fileops.c.h:62-95 `sysfs_load_data`, types.c.h:290-303; there is
memory for it). -/
def H.buf (x : H) (s : St) : List Nat := x.data.getD s.val

/-- fileops.c.h:193-206 (read of a buffered file): the data; `none` if the assertion that the position is
within the data fails. -/
def read (s : St) (i n : Nat) : Option (St × List Nat) :=
  match s.h i with
  | none => some (s, [])
  | some x =>
    if (x.buf s).length < x.pos then none
    else
      some (s.setH i (some { pos := x.pos + (((x.buf s).drop x.pos).take n).length, data := some (x.buf s) }),
        ((x.buf s).drop x.pos).take n)

/-- fileops.c.h:261-286 (write to a buffered file) for a property of `cap` bytes: the count written;
`none` if the assertion that the position is within the buffer fails, or if there would be memory in the
buffer that was never written. -/
def write (cap : Nat) (s : St) (i : Nat) (bs : List Nat) : Option (St × Nat) :=
  match s.h i with
  | none => some (s, 0)
  | some x =>
    if cap < x.pos ∨ (x.buf s).length < x.pos then none
    else
      some ({ s with m := LList.addTail 0 (i + 1) s.m }.setH i
        (some { pos := x.pos + (bs.take (cap - x.pos)).length,
                data := some (over (x.buf s) x.pos (bs.take (cap - x.pos))) }), (bs.take (cap - x.pos)).length)

/-- fileops.c.h:97-132 `sysfs_flush_data` with types.c.h:305-316 `sysfs_databuf_store`. -/
def flush (cap : Nat) (s : St) (i : Nat) : St :=
  match s.h i with
  | none => s
  | some x =>
    if LList.isNodeInList (i + 1) s.m then
      { s with val := (x.buf s).take cap, m := LList.nodeInit (i + 1) (LList.remove (i + 1) s.m) }
    else s

/-- Is the buffer of the handle loaded (fileops.c.h:163, 352)? -/
def loaded (s : St) (i : Nat) : Bool :=
  match s.h i with
  | none => false
  | some x => x.data.isSome

/-- fileops.c.h:155-167 `sysfs_fsync`. -/
def fsync (cap : Nat) (s : St) (i : Nat) : St := if loaded s i then flush cap s i else s

/-- fileops.c.h:341-357 `sysfs_on_close`. -/
def close (cap : Nat) (s : St) (i : Nat) : St := (fsync cap s i).setH i none

/-- The pointers after the node `a` is copied to `b` with the handle (kernel/vfs/vfs.c:75-98). -/
def copyNode (m : LList.Mem) (a b : Nat) : LList.Mem := ⟨LList.set m.nx b (m.nx a), LList.set m.pv b (m.pv a)⟩

/-- fileops.c.h:359-392 `sysfs_on_dup`, after kernel/vfs/vfs.c:75-98: the new handle `j` is a copy of `i`,
also of the list node; it is flushed and its buffer is forgotten. -/
def dup (cap : Nat) (s : St) (i j : Nat) : St :=
  match s.h i with
  | none => s
  | some x =>
    let s1 := { s with m := copyNode s.m (i + 1) (j + 1) }.setH j (some x)
    if x.data.isSome then (flush cap s1 j).setH j (some { x with data := none }) else s1

/-- modules/sysfs/sysfs.c:152-184 `sysfs_syncfs`: the first handle is taken off the list, then
`sysfs_fsync` is called for it, until the list is empty.  `none`: not ended after `fuel` rounds. -/
def sync (cap : Nat) : Nat → St → Option St
  | 0, _ => none
  | fuel + 1, s =>
    if LList.isEmpty 0 s.m then some s
    else
      sync cap fuel (fsync cap
        { s with m := LList.nodeInit (s.m.nx 0) (LList.remove (s.m.nx 0) s.m) } (s.m.nx 0 - 1))

/-- fileops.c.h:300-339 `sysfs_file_seek` with SEEK_SET; SEEK_END with offset 0 is SEEK_SET to the size of
the property (312, 328). -/
def seek (s : St) (i p : Nat) : St :=
  match s.h i with
  | none => s
  | some x => s.setH i (some { x with pos := p })

/-- fileops.c.h:461-509 `sysfs_open_file`. -/
def openF (s : St) (i : Nat) : St :=
  { s with m := LList.nodeInit (i + 1) s.m }.setH i (some { data := some s.val })

/-- What a program does with one open file. -/
inductive Op
  | read (n : Nat)
  | write (bs : List Nat)
  | seek (p : Nat)
  | fsync

/-- What it sees. -/
structure Res where
  data : List Nat := []
  count : Nat := 0
  deriving DecidableEq, Repr

/-- One call (`static_ops_file_sysfs`, fileops.c.h:456-466). -/
def step (cap : Nat) (s : St) (i : Nat) : Op → Option (St × Res)
  | .read n => (read s i n).map fun x => (x.1, { data := x.2 })
  | .write bs => (write cap s i bs).map fun x => (x.1, { count := x.2 })
  | .seek p => some (seek s i p, {})
  | .fsync => some (fsync cap s i, {})

/-- A history with one handle: the state after it and the results; `none` if the kernel stops. -/
def run (cap : Nat) (s : St) (i : Nat) : List Op → Option (St × List Res)
  | [] => some (s, [])
  | o :: l => (step cap s i o).bind fun x => (run cap x.1 i l).map fun y => (y.1, x.2 :: y.2)

/-! ## Specification -/

/-- A file of at most `cap` bytes: what the program sees in it, the position, and whether something was
written since the last fsync. -/
structure File where
  content : List Nat
  pos : Nat := 0
  dirty : Bool := false
  deriving DecidableEq, Repr

def File.step (cap : Nat) (f : File) : Op → File × Res
  | .read n => ({ f with pos := f.pos + ((f.content.drop f.pos).take n).length }, { data := (f.content.drop f.pos).take n })
  | .write bs =>
    ({ content := f.content.take f.pos ++ bs.take (cap - f.pos) ++ f.content.drop (f.pos + (bs.take (cap - f.pos)).length),
       pos := f.pos + (bs.take (cap - f.pos)).length, dirty := true }, { count := (bs.take (cap - f.pos)).length })
  | .seek p => ({ f with pos := p }, {})
  | .fsync => ({ f with dirty := false }, {})

def File.run (cap : Nat) (f : File) : List Op → File × List Res
  | [] => (f, [])
  | o :: l => ((File.run cap (f.step cap o).1 l).1, (f.step cap o).2 :: (File.run cap (f.step cap o).1 l).2)

/-- No seek beyond the end, and an fsync between any two writes. -/
def Plain (cap : Nat) (f : File) : List Op → Prop
  | [] => True
  | o :: l => (match o with
      | .seek p => p ≤ f.content.length
      | .write _ => f.dirty = false
      | _ => True) ∧ Plain cap (f.step cap o).1 l

/-! ## Proofs for values -/

theorem take_buf (text stale : List Nat) (m : Nat) (h : text.length ≤ m) :
    (text ++ stale).take m = text ++ stale.take (m - text.length) := by
  rw [List.take_append, List.take_of_length_le h]

/-- The text the user wrote: digits of a number and a line end. -/
def Line (ds : List Nat) : List Nat := ds ++ [10]

/-- C187 (part): a number of at most 31 digits written with a line end becomes the value of an unsigned
property, whatever was in the kernel's buffer before, and is read back as its canonical decimal text. -/
theorem ulong_set_partial (ds stale : List Nat) (v old : Nat) (hv : Itoa.numVal 10 ds = some v) (hne : ds ≠ [])
    (hlen : ds.length ≤ 31) (hfit : v < 2 ^ 32) :
    ulongStore (Line ds) stale old = some v ∧
    ∃ t, ulongLoad v = some (Line t) ∧ Itoa.Canonical 10 v t := by
  constructor
  · unfold ulongStore
    have hl : (Line ds).length = ds.length + 1 := by simp [Line]
    rw [if_neg (by omega), take_buf _ _ _ (by omega)]
    have e : Line ds ++ stale.take (max (Line ds).length 31 - (Line ds).length) =
        ds ++ (10 :: stale.take (max (Line ds).length 31 - (Line ds).length)) := by simp [Line]
    rw [e, Itoa.strtoul_exact 32 10 (by decide) ds _ v hne hv hfit (by show Itoa.digitOf 10 10 = none; decide)]
    simp
  · obtain ⟨t, h1, h2⟩ := Itoa.uitoa_canonical 32 10 v (by decide) (by decide) hfit
    exact ⟨t, by simp [ulongLoad, h1, Line], h2⟩

/-- Not vacuous: 4294967295. -/
example : Itoa.numVal 10 [52, 50, 57, 52, 57, 54, 55, 50, 57, 53] = some 4294967295 := by decide

/-- C187 (part): the same for signed properties and numbers that are not negative. -/
theorem long_set_partial (ds stale : List Nat) (v : Nat) (old : Int) (hv : Itoa.numVal 10 ds = some v) (hne : ds ≠ [])
    (hlen : ds.length ≤ 31) (hfit : v < 2 ^ 31) :
    longStore (Line ds) stale old = some v := by
  unfold longStore
  have hl : (Line ds).length = ds.length + 1 := by simp [Line]
  rw [if_neg (by omega), take_buf _ _ _ (by omega)]
  have e : Line ds ++ stale.take (max (Line ds).length 31 - (Line ds).length) =
      ds ++ (10 :: stale.take (max (Line ds).length 31 - (Line ds).length)) := by simp [Line]
  rw [e, Itoa.strtol_exact_nonneg 32 10 (by decide) (by decide) ds _ v hne hv hfit
    (by show Itoa.digitOf 10 10 = none; decide)]
  simp

/-- C187 (part): a text that does not start with a digit changes nothing. -/
theorem ulong_bad_partial (c : Nat) (cs stale : List Nat) (old : Nat) (hc : Itoa.digitOf 10 c = none)
    (hlen : cs.length ≤ 31) : ulongStore (c :: cs) stale old = some old := by
  unfold ulongStore
  have hl : (c :: cs).length = cs.length + 1 := rfl
  rw [if_neg (by omega), take_buf _ _ _ (by omega)]
  show some (if (Itoa.loopU 32 10 0 (c :: (cs ++ _)) 0 0).err = none then _ else old) = _
  simp [Itoa.loopU, hc]

/-- C187 is violated: without a line end, digits left in the kernel's buffer by an earlier call are taken as
part of the number: writing "12" may set 1234. -/
theorem ulong_stale_violated : ∃ stale, ulongStore [49, 50] stale 0 = some 1234 ∧ ulongStore [49, 50] [] 0 = some 12 :=
  ⟨[51, 52, 10], by decide, by decide⟩

/-- C187 is violated: every write of more than 32 bytes to a number overwrites the stack of the kernel. -/
theorem ulong_smash_violated (text stale : List Nat) (old : Nat) (h : 32 < text.length) :
    ulongStore text stale old = none := by
  unfold ulongStore
  rw [if_pos (by omega)]

theorem long_smash_violated (text stale : List Nat) (old : Int) (h : 32 < text.length) :
    longStore text stale old = none := by
  unfold longStore
  rw [if_pos (by omega)]

/-- C187 (part): a "0" line clears a boolean property. -/
theorem bool_clear_partial (stale : List Nat) (old : Bool) :
    boolStore [48, 10] stale old = false ∧ boolLoad (boolStore [48, 10] stale old) = [48, 10] := by
  constructor <;> rfl

/-- C187 is violated: no text whatever sets a boolean property. -/
theorem bool_set_violated (text stale : List Nat) : boolStore text stale false = false := by
  unfold boolStore
  split
  · rename_i a b l h
    split
    · rename_i h1
      split
      · rename_i h2
        have : a = 48 := by
          rcases h1 with h1 | h1
          · exact h1
          · omega
        simp [this]
      · rfl
    · rfl
  · rfl

theorem takeWhile_all {p : Nat → Bool} : ∀ (s r : List Nat), (∀ c ∈ s, p c = true) →
    (s ++ r).takeWhile p = s ++ r.takeWhile p
  | [], _, _ => rfl
  | c :: s, r, h => by
    show List.takeWhile p (c :: (s ++ r)) = _
    rw [List.takeWhile_cons, if_pos (h c (List.mem_cons_self ..)),
      takeWhile_all s r (fun x hx => h x (List.mem_cons_of_mem _ hx))]
    rfl

/-- C187 for text properties: a line of text, with or without its line end, becomes the value, cut to the
size of the property, whatever was in the kernel's buffer before, and is read back as a line. -/
theorem str_set (s stale : List Nat) (cap : Nat) (hs : ∀ c ∈ s, c ≠ 0 ∧ c ≠ 10) :
    strStore s stale cap = s.take (cap - 1) ∧ strStore (Line s) stale cap = s.take (cap - 1) ∧
    strLoad (strStore s stale cap) = Line (s.take (cap - 1)) := by
  have hp : ∀ c ∈ s, (c != 0 && c != 10) = true := fun c hc => by simp [hs c hc]
  have h1 : strStore s stale cap = s.take (cap - 1) := by
    unfold strStore
    rw [takeWhile_all s stale hp, List.take_append]
    rw [show min s.length (cap - 1) - s.length = 0 by omega, List.take_zero, List.append_nil]
    by_cases c : s.length ≤ cap - 1
    · rw [Nat.min_eq_left c, List.take_length, List.take_of_length_le c]
    · rw [Nat.min_eq_right (by omega)]
  refine ⟨h1, ?_, by rw [h1]; rfl⟩
  unfold strStore
  have e : (Line s ++ stale).takeWhile (fun c => c != 0 && c != 10) = s := by
    show (s ++ [10] ++ stale).takeWhile _ = s
    rw [List.append_assoc, takeWhile_all s _ hp]
    simp
  rw [e]
  have hl : (Line s).length = s.length + 1 := by simp [Line]
  rw [hl]
  by_cases c : s.length ≤ cap - 1
  · rw [List.take_of_length_le (by omega), List.take_of_length_le c]
  · rw [Nat.min_eq_right (by omega)]

example : strStore [97, 98, 99, 10] [120, 121] 3 = [97, 98] := by decide

/-! ## Proofs for buffered files -/

/-- The pointers of the list when nothing is dirty, or only handle `i`. -/
def Links (m : LList.Mem) (i : Nat) : Bool → Prop
  | false => m.nx 0 = 0 ∧ m.pv 0 = 0 ∧ m.nx (i + 1) = i + 1 ∧ m.pv (i + 1) = i + 1
  | true => m.nx 0 = i + 1 ∧ m.pv 0 = i + 1 ∧ m.nx (i + 1) = 0 ∧ m.pv (i + 1) = 0

theorem links_add {m : LList.Mem} {i : Nat} (h : Links m i false) : Links (LList.addTail 0 (i + 1) m) i true := by
  obtain ⟨h1, h2, h3, h4⟩ := h
  simp [Links, LList.addTail, LList.addBefore, LList.addAfter, LList.set, h1, h2]

theorem links_clean {m : LList.Mem} {i : Nat} (h : Links m i false) : LList.isNodeInList (i + 1) m = false := by
  obtain ⟨h1, h2, h3, h4⟩ := h
  simp [LList.isNodeInList, LList.isEmpty, h3, h4]

theorem links_dirty {m : LList.Mem} {i : Nat} (h : Links m i true) : LList.isNodeInList (i + 1) m = true := by
  obtain ⟨h1, h2, h3, h4⟩ := h
  simp [LList.isNodeInList, LList.isEmpty, h1, h2, h3, h4]

theorem links_remove {m : LList.Mem} {i : Nat} (h : Links m i true) :
    Links (LList.nodeInit (i + 1) (LList.remove (i + 1) m)) i false := by
  obtain ⟨h1, h2, h3, h4⟩ := h
  simp [Links, LList.nodeInit, LList.remove, LList.set, h3, h4]

structure Inv (cap : Nat) (s : St) (i : Nat) (f : File) : Prop where
  h : s.h i = some { pos := f.pos, data := some f.content }
  links : Links s.m i f.dirty
  pos : f.pos ≤ f.content.length
  len : f.content.length ≤ cap
  val : f.dirty = false → s.val = f.content

theorem fsync_inv {cap : Nat} {s : St} {i : Nat} {f : File} (hi : Inv cap s i f) :
    Inv cap (fsync cap s i) i { f with dirty := false } := by
  obtain ⟨h1, h2, h3, h4, h5⟩ := hi
  have hl : loaded s i = true := by simp [loaded, h1]
  unfold fsync
  rw [if_pos hl]
  cases hd : f.dirty with
  | false =>
    rw [hd] at h2
    have e : flush cap s i = s := by simp [flush, h1, links_clean h2]
    rw [e]
    exact ⟨h1, h2, h3, h4, fun _ => h5 hd⟩
  | true =>
    rw [hd] at h2
    have e : flush cap s i = { s with val := f.content.take cap, m := LList.nodeInit (i + 1) (LList.remove (i + 1) s.m) } := by
      simp [flush, h1, links_dirty h2, H.buf]
    rw [e]
    exact ⟨h1, links_remove h2, h3, h4, fun _ => List.take_of_length_le h4⟩

theorem step_inv {cap : Nat} {s : St} {i : Nat} {f : File} (hi : Inv cap s i f) {o : Op}
    (ho : match o with
      | .seek p => p ≤ f.content.length
      | .write _ => f.dirty = false
      | _ => True) :
    ∃ s1, step cap s i o = some (s1, (f.step cap o).2) ∧ Inv cap s1 i (f.step cap o).1 := by
  obtain ⟨h1, h2, h3, h4, h5⟩ := hi
  cases o with
  | read n =>
    have e : read s i n = some (s.setH i (some { pos := f.pos + ((f.content.drop f.pos).take n).length, data := some f.content }), (f.content.drop f.pos).take n) := by
      unfold read
      rw [h1]
      exact if_neg (show ¬ f.content.length < f.pos by omega)
    refine ⟨_, by simp only [step, e]; rfl, ?_⟩
    refine ⟨by simp [St.setH, File.step], h2, ?_, h4, h5⟩
    show f.pos + ((f.content.drop f.pos).take n).length ≤ f.content.length
    simp only [List.length_take, List.length_drop]
    omega
  | write bs =>
    have ho' : f.dirty = false := ho
    have e : write cap s i bs = some ({ s with m := LList.addTail 0 (i + 1) s.m }.setH i
        (some { pos := f.pos + (bs.take (cap - f.pos)).length, data := some (over f.content f.pos (bs.take (cap - f.pos))) }), (bs.take (cap - f.pos)).length) := by
      unfold write
      rw [h1]
      exact if_neg (show ¬ (cap < f.pos ∨ f.content.length < f.pos) by omega)
    rw [ho'] at h2
    refine ⟨_, by simp only [step, e]; rfl, ?_⟩
    refine ⟨by simp [St.setH, File.step, over], links_add h2, ?_, ?_, fun k => by cases k⟩
    · simp only [File.step, List.length_append, List.length_take, List.length_drop]
      omega
    · simp only [File.step, List.length_append, List.length_take, List.length_drop]
      omega
  | seek p =>
    refine ⟨_, rfl, ?_⟩
    have e : seek s i p = s.setH i (some { pos := p, data := some f.content }) := by simp [seek, h1]
    rw [e]
    exact ⟨by simp [St.setH, File.step], h2, ho, h4, h5⟩
  | fsync => exact ⟨_, rfl, fsync_inv ⟨h1, h2, h3, h4, h5⟩⟩

theorem run_inv {cap i : Nat} : ∀ (l : List Op) (s : St) (f : File), Inv cap s i f → Plain cap f l →
    ∃ s1, run cap s i l = some (s1, (f.run cap l).2) ∧ Inv cap s1 i (f.run cap l).1
  | [], s, f, h, _ => ⟨s, rfl, h⟩
  | o :: l, s, f, h, hp => by
    obtain ⟨s1, h1, h2⟩ := step_inv h hp.1
    obtain ⟨s2, h3, h4⟩ := run_inv l s1 _ h2 hp.2
    exact ⟨s2, by simp [run, h1, h3, File.run], h4⟩

/-- C188 (part): with one open handle, no seek beyond the end, and an fsync between any two writes, every
history reads and writes as a file of at most `cap` bytes would, and after the close the object has the
content that the program saw. -/
theorem buffered_partial (cap i : Nat) (val : List Nat) (hv : val.length ≤ cap) (l : List Op)
    (hp : Plain cap { content := val } l) :
    ∃ s1, run cap (openF { val := val } i) i l = some (s1, (File.run cap { content := val } l).2) ∧
      (close cap s1 i).val = (File.run cap { content := val } l).1.content := by
  have h0 : Inv cap (openF { val := val } i) i { content := val } := by
    refine ⟨by simp [openF, St.setH], ?_, Nat.zero_le _, hv, fun _ => rfl⟩
    simp [Links, openF, St.setH, LList.nodeInit, LList.set]
  obtain ⟨s1, h1, h2⟩ := run_inv l _ _ h0 hp
  exact ⟨s1, h1, (fsync_inv h2).val rfl⟩

example : Plain 4 { content := [1, 2] } [.write [7, 8, 9], .seek 1, .read 9, .fsync, .write [5, 6], .read 1] := by
  simp [Plain, File.step]

example : File.run 4 { content := [1, 2] } [.write [7, 8, 9], .seek 1, .read 1, .fsync, .write [5, 6, 4], .read 1] =
    (⟨[7, 8, 5, 6], 4, true⟩, [{ count := 3 }, {}, { data := [8] }, {}, { count := 2 }, {}]) := by decide

/-- The state after opening the file and writing to it twice. -/
theorem twice_links {m : LList.Mem} {i : Nat} (h : Links m i true) :
    let m2 := LList.addTail 0 (i + 1) m
    m2.nx 0 = i + 1 ∧ m2.pv 0 = i + 1 ∧ m2.nx (i + 1) = 0 ∧ m2.pv (i + 1) = i + 1 := by
  obtain ⟨h1, h2, h3, h4⟩ := h
  simp [LList.addTail, LList.addBefore, LList.addAfter, LList.set, h1, h2, h3]

/-- The node of the handle points to itself backwards, as after two writes. -/
def Broken (s : St) (i : Nat) : Prop :=
  s.m.nx 0 = i + 1 ∧ s.m.pv 0 = i + 1 ∧ s.m.nx (i + 1) = 0 ∧ s.m.pv (i + 1) = i + 1

theorem write_twice {cap i : Nat} {val a b : List Nat} (hv : val.length ≤ cap) :
    ∃ s1 r, run cap (openF { val := val } i) i [.write a, .write b] = some (s1, r) ∧ s1.val = val ∧ Broken s1 i := by
  have h0 : Inv cap (openF { val := val } i) i { content := val } := by
    refine ⟨by simp [openF, St.setH], ?_, Nat.zero_le _, hv, fun _ => rfl⟩
    simp [Links, openF, St.setH, LList.nodeInit, LList.set]
  obtain ⟨s1, h1, h2⟩ := step_inv (o := .write a) h0 rfl
  have hv1 : s1.val = val := by
    have hw : step cap (openF { val := val } i) i (.write a) = some (s1, _) := h1
    simp only [step, write, openF, St.setH, H.buf, ite_true, Option.getD] at hw
    rw [if_neg (by simp)] at hw
    simp only [Option.map_some, Option.some.injEq, Prod.mk.injEq] at hw
    rw [← hw.1]
  obtain ⟨k1, k2, k3, k4, -⟩ := h2
  generalize hf : (File.step cap { content := val } (Op.write a)).1 = f at k1 k2 k3 k4
  have hd : f.dirty = true := by rw [← hf]; rfl
  rw [hd] at k2
  have e : ∃ x n, write cap s1 i b = some ({ s1 with m := LList.addTail 0 (i + 1) s1.m }.setH i x, n) := by
    refine ⟨some { pos := f.pos + (b.take (cap - f.pos)).length, data := some (over f.content f.pos (b.take (cap - f.pos))) },
      (b.take (cap - f.pos)).length, ?_⟩
    unfold write
    rw [k1]
    exact if_neg (show ¬ (cap < f.pos ∨ f.content.length < f.pos) by omega)
  obtain ⟨x, n, e⟩ := e
  have e2 : step cap s1 i (.write b) = some ({ s1 with m := LList.addTail 0 (i + 1) s1.m }.setH i x, { count := n }) := by
    simp only [step, e, Option.map_some]
  refine ⟨St.setH { s1 with m := LList.addTail 0 (i + 1) s1.m } i x,
    [(File.step cap { content := val } (Op.write a)).2, { count := n }], ?_, ?_, ?_⟩
  · simp only [run, h1, Option.bind_some, e2, Option.map_some]
  · exact hv1
  · exact twice_links k2

/-- C188 is violated: a program that opens a buffered file, writes to it twice and closes it has changed
nothing; all that it wrote is lost. -/
theorem twice_lost_violated (cap i : Nat) (val a b : List Nat) (hv : val.length ≤ cap) :
    ∃ s1 r, run cap (openF { val := val } i) i [.write a, .write b] = some (s1, r) ∧ (close cap s1 i).val = val := by
  obtain ⟨s1, r, h1, h2, h3, h4, h5, h6⟩ := write_twice (i := i) (a := a) (b := b) hv
  refine ⟨s1, r, h1, ?_⟩
  have hn : LList.isNodeInList (i + 1) s1.m = false := by
    simp [LList.isNodeInList, h5, h6]
  have hf : flush cap s1 i = s1 := by
    unfold flush
    cases s1.h i with
    | none => rfl
    | some x => simp [hn]
  show (fsync cap s1 i).val = val
  unfold fsync
  split
  · rw [hf]; exact h2
  · exact h2

/-- The head of the list points to the node, and the node to itself backwards. -/
def Stuck (s : St) (i : Nat) : Prop := s.m.nx 0 = i + 1 ∧ s.m.pv (i + 1) = i + 1

theorem sync_stuck (cap i : Nat) : ∀ (fuel : Nat) (s : St), Stuck s i → sync cap fuel s = none
  | 0, _, _ => rfl
  | fuel + 1, s, ⟨h1, h2⟩ => by
    have he : LList.isEmpty 0 s.m = false := by simp [LList.isEmpty, h1]
    have hm1 : (LList.nodeInit (i + 1) (LList.remove (i + 1) s.m)).nx 0 = i + 1 := by
      simp [LList.nodeInit, LList.remove, LList.set, h1, h2]
    have hm2 : (LList.nodeInit (i + 1) (LList.remove (i + 1) s.m)).pv (i + 1) = i + 1 := by
      simp [LList.nodeInit, LList.set]
    have hm3 : LList.isNodeInList (i + 1) (LList.nodeInit (i + 1) (LList.remove (i + 1) s.m)) = false := by
      simp [LList.isNodeInList, LList.isEmpty, LList.nodeInit, LList.set]
    show (if LList.isEmpty 0 s.m = true then some s else _) = none
    rw [if_neg (by simp [he]), h1]
    apply sync_stuck cap i fuel
    have e : fsync cap { s with m := LList.nodeInit (i + 1) (LList.remove (i + 1) s.m) } (i + 1 - 1) =
        { s with m := LList.nodeInit (i + 1) (LList.remove (i + 1) s.m) } := by
      show fsync cap _ i = _
      unfold fsync flush
      split
      · split
        · rfl
        · rw [if_neg (by simp [hm3])]
      · rfl
    rw [e]
    exact ⟨hm1, hm2⟩

/-- C188 is violated: after two writes to a buffered file, sync() never ends. -/
theorem sync_hangs_violated (cap i : Nat) (val a b : List Nat) (hv : val.length ≤ cap) :
    ∃ s1 r, run cap (openF { val := val } i) i [.write a, .write b] = some (s1, r) ∧
      ∀ fuel, sync cap fuel s1 = none := by
  obtain ⟨s1, r, h1, -, h3, -, -, h6⟩ := write_twice (i := i) (a := a) (b := b) hv
  exact ⟨s1, r, h1, fun fuel => sync_stuck cap i fuel s1 ⟨h3, h6⟩⟩

/-- C188 is violated: what was written before a sync() is never stored: after write, sync and close the
object is as before. -/
theorem sync_lost_violated (cap i : Nat) (val a : List Nat) (hv : val.length ≤ cap) :
    ∃ s1 r s2, run cap (openF { val := val } i) i [.write a] = some (s1, r) ∧ sync cap 2 s1 = some s2 ∧
      (close cap s2 i).val = val := by
  have h0 : Inv cap (openF { val := val } i) i { content := val } := by
    refine ⟨by simp [openF, St.setH], ?_, Nat.zero_le _, hv, fun _ => rfl⟩
    simp [Links, openF, St.setH, LList.nodeInit, LList.set]
  obtain ⟨s1, h1, h2⟩ := step_inv (o := .write a) h0 rfl
  have hv1 : s1.val = val := by
    have hw : step cap (openF { val := val } i) i (.write a) = some (s1, _) := h1
    simp only [step, write, openF, St.setH, H.buf, ite_true, Option.getD] at hw
    rw [if_neg (by simp)] at hw
    simp only [Option.map_some, Option.some.injEq, Prod.mk.injEq] at hw
    rw [← hw.1]
  have hl : Links s1.m i true := h2.links
  have hc := links_remove hl
  have hcl := links_clean hc
  have hfl : ∀ s : St, LList.isNodeInList (i + 1) s.m = false → fsync cap s i = s := by
    intro s hs
    unfold fsync flush
    split
    · split
      · rfl
      · rw [if_neg (by simp [hs])]
    · rfl
  refine ⟨s1, _, { s1 with m := LList.nodeInit (i + 1) (LList.remove (i + 1) s1.m) },
    by simp only [run, h1, Option.bind_some, Option.map_some]; rfl, ?_, ?_⟩
  · show (if LList.isEmpty 0 s1.m = true then some s1 else sync cap 1 _) = _
    rw [if_neg (by simp [LList.isEmpty, hl.1]), hl.1]
    show sync cap 1 (fsync cap _ i) = _
    rw [hfl _ hcl]
    show (if LList.isEmpty 0 _ = true then some _ else _) = _
    rw [if_pos (by simp [LList.isEmpty, hc.1, hc.2.1])]
  · show (fsync cap _ i).val = val
    rw [hfl _ hcl]
    exact hv1

/-- C188 is violated: two descriptors of the same open file (dup) do not see what is written with the
other, and the one closed last undoes what was written with the other. -/
theorem dup_violated : ∃ s1 r1 s2 r2, run 4 (openF { val := [0, 0] } 0) 0 [.write [65]] = some (s1, r1) ∧
    run 4 (dup 4 s1 0 1) 1 [.write [66]] = some (s2, r2) ∧ (close 4 s2 1).val = [0, 66] ∧
    (close 4 (close 4 s2 1) 0).val = [65, 0] :=
  ⟨_, _, _, _, rfl, rfl, rfl, rfl⟩

/-- C188 is violated: reading at the end of the property (SEEK_END) stops the kernel if the content is
shorter. -/
theorem seek_end_violated (cap i n : Nat) (val : List Nat) (hv : val.length < cap) :
    run cap (openF { val := val } i) i [.seek cap, .read n] = none := by
  simp [run, step, seek, read, openF, St.setH, H.buf, hv]


end Verif.Sysfs
