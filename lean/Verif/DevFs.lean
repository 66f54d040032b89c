/-!
# The device filesystem (kernel/fs/devfs.c)

Properties C189 (every driver has its own major number) and C190 (a device file is found under its name and
leads to its driver).  Names are lists of bytes without the final zero.
-/
namespace Verif.DevFs

/-! ## Drivers -/

/-- kernel/fs/devfs.c:56-63: the next dynamic number.  Simplified: no wrap at 2^16, as there are at most 31
drivers. -/
def dynMajor (l : List Nat) : Nat := l.foldl (fun m x => if x = m then m + 1 else m) 900

/-- kernel/fs/devfs.c:50-76 `register_driver`: `l` are the numbers of the registered drivers, `arg` the
number asked for or `none` (negative).  `none`: panic. -/
def register (l : List Nat) (arg : Option Nat) : Option (List Nat × Nat) :=
  if 31 ≤ l.length then none
  else
    match arg with
    | none => some (l ++ [dynMajor l], dynMajor l)
    | some a => if a % 65536 ∈ l then none else some (l ++ [a % 65536], a % 65536)

/-- Several registrations: the numbers given. -/
def registerAll : List Nat → List (Option Nat) → Option (List Nat)
  | l, [] => some l
  | l, a :: as => (register l a).bind fun x => registerAll x.1 as

/-- kernel/fs/devfs.c:35-44 `get_driver_info`: the place of the first driver with the number. -/
def driverFrom : List Nat → Nat → Nat → Option Nat
  | [], _, _ => none
  | x :: l, m, i => if x = m then some i else driverFrom l m (i + 1)

def driver (l : List Nat) (m : Nat) : Option Nat := driverFrom l m 0

/-! ## Files -/

/-- `enum vfs_entry_type`, as far as it matters. -/
inductive Kind
  | char | block | other
  deriving DecidableEq, Repr

/-- `struct devfs_file` (include/tilck/kernel/fs/devfs.h:20-35); `drv` is the driver that set it up. -/
structure File where
  name : List Nat
  ino : Nat
  major : Nat
  minor : Nat
  kind : Kind
  drv : Nat
  deriving DecidableEq, Repr

/-- `struct devfs_data`, the drivers, and the number of blocks allocated for files and handles. -/
structure St where
  drivers : List Nat
  files : List File := []
  next : Nat := 2
  mem : Nat := 0
  deriving DecidableEq, Repr

/-- kernel/fs/devfs.c:105-150 `create_dev_file`; `mem`: there is memory; `res`: what the driver's function
says, an error number or the kind of the file. -/
def create (s : St) (name : List Nat) (major minor : Nat) (mem : Bool) (res : Except Int Kind) : St × Int :=
  match driver s.drivers major with
  | none => (s, -22)
  | some d =>
    if !mem then (s, -12)
    else
      match res with
      | .error e => ({ s with next := s.next + 1 }, e)
      | .ok k =>
        if k ≠ .char ∧ k ≠ .block then ({ s with next := s.next + 1 }, -22)
        else
          ({ s with next := s.next + 1, mem := s.mem + 1,
                    files := s.files ++ [⟨name, s.next, major, minor, k, d⟩] }, 0)

/-- kernel/fs/devfs.c:433-435: `strncmp` of the first `nl` bytes, then the final zero. -/
def sameName : List Nat → List Nat → Bool
  | p, [] => p.isEmpty
  | [], _ :: _ => false
  | p :: ps, n :: ns => p == n && sameName ps ns

/-- kernel/fs/devfs.c:408-446 `devfs_get_entry` for a name that is neither `.` nor `..`. -/
def lookup (s : St) (name : List Nat) : Option File := s.files.find? fun f => sameName f.name name

/-- kernel/fs/devfs.c:201-250 `devfs_stat`, the device number; `none`: panic. -/
def statRdev (f : File) : Option Nat :=
  match f.kind with
  | .char => some ((f.major <<< 8) ||| f.minor)
  | _ => none

/-- kernel/fs/devfs.c:275-296 `devfs_open_file`; `mem`: there is memory; `extra`: what `create_extra`
says. -/
def openF (s : St) (mem : Bool) (extra : Int) : St × Int :=
  if !mem then (s, -12)
  else if extra ≠ 0 then ({ s with mem := s.mem + 1 }, extra)
  else ({ s with mem := s.mem + 1 }, 0)

/-- kernel/fs/devfs.c:321-330 `devfs_on_close` and the end of the handle. -/
def close (s : St) : St := { s with mem := s.mem - 1 }

/-- kernel/fs/devfs.c:376-406 `devfs_getdents` from position `pos` when the caller takes `room` entries:
the names and the new position. -/
def getdents (s : St) (pos room : Nat) : List (List Nat) × Nat :=
  (((s.files.drop pos).take room).map (·.name), pos + ((s.files.drop pos).take room).length)

/-- Several calls. -/
def getdentsAll (s : St) : Nat → List Nat → List (List Nat)
  | _, [] => []
  | pos, r :: rs => (getdents s pos r).1 ++ getdentsAll s (getdents s pos r).2 rs

/-- kernel/fs/devfs.c:164-190 `devfs_dir_seek` with SEEK_SET. -/
def seek (s : St) (target : Int) : Option Nat :=
  if target < 0 ∨ s.files.length < target then none else some target.toNat

/-- A request to create a device file, with what happens in it. -/
structure Req where
  name : List Nat
  major : Nat
  minor : Nat
  mem : Bool := true
  res : Except Int Kind := .ok .char

def creates (s : St) : List Req → St × List Int
  | [] => (s, [])
  | r :: l =>
    let x := create s r.name r.major r.minor r.mem r.res
    ((creates x.1 l).1, x.2 :: (creates x.1 l).2)

/-! ## Specification -/

/-- A device: name, numbers. -/
structure Dev where
  name : List Nat
  major : Nat
  minor : Nat
  deriving DecidableEq, Repr

/-- A request succeeds if the driver exists, there is memory and the driver sets up a device. -/
def Good (drivers : List Nat) (r : Req) : Prop :=
  r.major ∈ drivers ∧ r.mem = true ∧ (∃ k, r.res = .ok k ∧ (k = .char ∨ k = .block))

instance (drivers : List Nat) (r : Req) : Decidable (Good drivers r) :=
  match h : r.res with
  | .error _ => isFalse fun ⟨_, _, k, hk, _⟩ => by rw [h] at hk; cases hk
  | .ok k =>
    if c : r.major ∈ drivers ∧ r.mem = true ∧ (k = .char ∨ k = .block) then isTrue ⟨c.1, c.2.1, k, h, c.2.2⟩
    else isFalse fun ⟨a, b, k', hk, d⟩ => by rw [h] at hk; cases hk; exact c ⟨a, b, d⟩

/-- The devices that a list of requests makes. -/
def devices (drivers : List Nat) (l : List Req) : List Dev :=
  (l.filter fun r => decide (Good drivers r)).map fun r => ⟨r.name, r.major, r.minor⟩

/-- What a device file is. -/
def File.dev (f : File) : Dev := ⟨f.name, f.major, f.minor⟩

/-! ## Proofs: drivers -/

theorem dyn_append (l : List Nat) (a : Nat) :
    dynMajor (l ++ [a]) = if a = dynMajor l then dynMajor l + 1 else dynMajor l := by
  unfold dynMajor
  rw [List.foldl_append]
  rfl

theorem registerAll_inv : ∀ (as : List (Option Nat)) (l l' : List Nat), (∀ m, some m ∈ as → m < 900) →
    l.Nodup → 900 ≤ dynMajor l → (∀ x ∈ l, x < dynMajor l) → registerAll l as = some l' →
    l'.Nodup ∧ l'.length = l.length + as.length
  | [], l, l', _, h1, _, _, h => by
    cases h
    exact ⟨h1, rfl⟩
  | a :: as, l, l', ha, h1, h2, h3, h => by
    have ha' : ∀ m, some m ∈ as → m < 900 := fun m hm => ha m (List.mem_cons_of_mem _ hm)
    unfold registerAll register at h
    split at h
    · cases h
    · cases a with
      | none =>
        have hn : dynMajor l ∉ l := fun hm => Nat.lt_irrefl _ (h3 _ hm)
        have hd : dynMajor (l ++ [dynMajor l]) = dynMajor l + 1 := by rw [dyn_append, if_pos rfl]
        have := registerAll_inv as (l ++ [dynMajor l]) l' ha'
          (List.nodup_append.2 ⟨h1, by simp, fun x hx y hy e => by
            rw [List.mem_singleton] at hy; exact hn (by rw [← hy, ← e]; exact hx)⟩)
          (by omega)
          (fun x hx => by
            rw [List.mem_append, List.mem_singleton] at hx
            rcases hx with hx | hx
            · have := h3 x hx; omega
            · omega) h
        refine ⟨this.1, ?_⟩
        rw [this.2]; simp; omega
      | some m =>
        have hm : m < 900 := ha m (List.mem_cons_self ..)
        have e : m % 65536 = m := Nat.mod_eq_of_lt (by omega)
        dsimp only at h
        rw [e] at h
        split at h
        · cases h
        · rename_i hn
          have hd : dynMajor (l ++ [m]) = dynMajor l := by rw [dyn_append, if_neg (by omega)]
          have := registerAll_inv as (l ++ [m]) l' ha'
            (List.nodup_append.2 ⟨h1, by simp, fun x hx y hy e => by
              rw [List.mem_singleton] at hy; exact hn (by rw [← hy, ← e]; exact hx)⟩)
            (by omega)
            (fun x hx => by
              rw [List.mem_append, List.mem_singleton] at hx
              rcases hx with hx | hx
              · have := h3 x hx; omega
              · omega) h
          refine ⟨this.1, ?_⟩
          rw [this.2]; simp; omega

theorem driverFrom_get : ∀ (l : List Nat) (i k m : Nat), l.Nodup → l[k]? = some m → driverFrom l m i = some (i + k)
  | [], _, _, _, _, h => by simp at h
  | x :: l, i, 0, m, _, h => by
    have : x = m := by simpa using h
    simp [driverFrom, this]
  | x :: l, i, k + 1, m, hn, h => by
    have h' : l[k]? = some m := by simpa using h
    have hx : x ≠ m := fun e => (List.nodup_cons.1 hn).1 (by rw [e]; exact List.mem_of_getElem? h')
    unfold driverFrom
    rw [if_neg hx, driverFrom_get l (i + 1) k m (List.nodup_cons.1 hn).2 h']
    congr 1
    omega

/-- C189 (part): if the numbers asked for are below the dynamic ones, then after any registrations all
drivers have different numbers, and every number leads to the driver that it was given to. -/
theorem majors_partial (as : List (Option Nat)) (l : List Nat) (ha : ∀ m, some m ∈ as → m < 900)
    (h : registerAll [] as = some l) :
    l.Nodup ∧ l.length = as.length ∧ ∀ k m, l[k]? = some m → driver l m = some k := by
  have := registerAll_inv as [] l ha List.nodup_nil (by decide) (fun x hx => by cases hx) h
  refine ⟨this.1, by simpa using this.2, fun k m hk => ?_⟩
  have e := driverFrom_get l 0 k m this.1 hk
  rw [Nat.zero_add] at e
  exact e

example : registerAll [] [some 4, none, some 29, none, none] = some [4, 900, 29, 901, 902] := by decide

/-- C189: a number asked for is given, or the kernel stops; it is never changed to another one. -/
theorem asked_given (l l' : List Nat) (a m : Nat) (ha : a < 65536) (h : register l (some a) = some (l', m)) :
    m = a ∧ a ∉ l ∧ l' = l ++ [a] := by
  unfold register at h
  split at h
  · cases h
  · dsimp only at h
    rw [Nat.mod_eq_of_lt ha] at h
    split at h
    · cases h
    · rename_i hn
      cases h
      exact ⟨rfl, hn, rfl⟩

example : register [4] (some 29) = some ([4, 29], 29) := by decide

/-- C189 is violated: with a number asked for among the dynamic ones, two drivers get the same number, and
the devices of the second are those of the first. -/
theorem majors_violated : registerAll [] [some 901, none, none] = some [901, 900, 901] ∧
    driver [901, 900, 901] 901 = some 0 := by decide

/-! ## Proofs: files -/

theorem sameName_iff : ∀ (p n : List Nat), sameName p n = true ↔ p = n
  | p, [] => by unfold sameName; exact List.isEmpty_iff
  | [], _ :: _ => by simp [sameName]
  | p :: ps, n :: ns => by simp [sameName, sameName_iff ps ns]

theorem driver_mem : ∀ (l : List Nat) (m i : Nat), (∃ d, driverFrom l m i = some d) ↔ m ∈ l
  | [], m, i => by simp [driverFrom]
  | x :: l, m, i => by
    unfold driverFrom
    by_cases c : x = m
    · simp [c]
    · rw [if_neg c, driver_mem l m (i + 1), List.mem_cons]
      exact ⟨Or.inr, fun h => h.resolve_left fun e => c e.symm⟩

theorem create_good (s : St) (r : Req) (h : Good s.drivers r) :
    ∃ f, create s r.name r.major r.minor r.mem r.res =
      ({ s with next := s.next + 1, mem := s.mem + 1, files := s.files ++ [f] }, 0) ∧
      f.dev = ⟨r.name, r.major, r.minor⟩ ∧ f.ino = s.next ∧ r.res = .ok f.kind ∧
      driver s.drivers r.major = some f.drv := by
  obtain ⟨h1, h2, k, h3, h4⟩ := h
  obtain ⟨d, hd⟩ := (driver_mem s.drivers r.major 0).2 h1
  refine ⟨⟨r.name, s.next, r.major, r.minor, k, d⟩, ?_, rfl, rfl, h3, hd⟩
  unfold create driver
  rw [hd, h2, h3]
  dsimp only
  rw [if_neg (by simp), if_neg (by rcases h4 with h4 | h4 <;> simp [h4])]

theorem create_bad (s : St) (r : Req) (h : ¬ Good s.drivers r) :
    (create s r.name r.major r.minor r.mem r.res).1.files = s.files ∧
    (create s r.name r.major r.minor r.mem r.res).1.drivers = s.drivers ∧
    (create s r.name r.major r.minor r.mem r.res).1.mem = s.mem ∧
    s.next ≤ (create s r.name r.major r.minor r.mem r.res).1.next := by
  unfold create
  split
  · simp
  · rename_i d hd
    split
    · simp
    · rename_i hm
      split
      · simp
      · rename_i k hk
        split
        · simp
        · rename_i hc
          refine absurd ⟨(driver_mem s.drivers r.major 0).1 ⟨d, hd⟩, by simpa using hm, k, hk, ?_⟩ h
          cases k <;> simp_all

structure FInv (s : St) : Prop where
  inos : (s.files.map (·.ino)).Nodup
  below : ∀ f ∈ s.files, f.ino < s.next
  drv : ∀ f ∈ s.files, driver s.drivers f.major = some f.drv

theorem creates_inv : ∀ (l : List Req) (s : St), FInv s →
    FInv (creates s l).1 ∧ (creates s l).1.drivers = s.drivers ∧
    (creates s l).1.files.map File.dev = s.files.map File.dev ++ devices s.drivers l ∧
    (creates s l).1.mem = s.mem + (devices s.drivers l).length
  | [], s, h => ⟨h, rfl, by simp [creates, devices], by simp [creates, devices]⟩
  | r :: l, s, h => by
    by_cases g : Good s.drivers r
    · obtain ⟨f, e, e1, e2, e3, e4⟩ := create_good s r g
      have hm : f.major = r.major := congrArg Dev.major e1
      have hi : FInv { s with next := s.next + 1, mem := s.mem + 1, files := s.files ++ [f] } := by
        refine ⟨?_, ?_, ?_⟩
        · show ((s.files ++ [f]).map (·.ino)).Nodup
          rw [List.map_append]
          refine List.nodup_append.2 ⟨h.inos, by simp, ?_⟩
          intro x hx y hy e
          obtain ⟨g', hg, rfl⟩ := List.mem_map.1 hx
          have : y = s.next := by simpa [e2] using hy
          have := h.below g' hg
          omega
        · intro x hx
          rcases List.mem_append.1 hx with hx | hx
          · exact Nat.lt_succ_of_lt (h.below x hx)
          · rw [List.mem_singleton.1 hx, e2]; exact Nat.lt_succ_self _
        · intro x hx
          rcases List.mem_append.1 hx with hx | hx
          · exact h.drv x hx
          · rw [List.mem_singleton.1 hx, hm]; exact e4
      obtain ⟨i1, i2, i3, i4⟩ := creates_inv l _ hi
      have ed : devices s.drivers (r :: l) = ⟨r.name, r.major, r.minor⟩ :: devices s.drivers l := by
        simp [devices, g]
      simp only [creates, e]
      refine ⟨i1, i2, ?_, ?_⟩
      · rw [i3, ed]; simp [e1]
      · rw [i4, ed]; simp; omega
    · obtain ⟨b1, b2, b3, b4⟩ := create_bad s r g
      have hi : FInv (create s r.name r.major r.minor r.mem r.res).1 := by
        refine ⟨by rw [b1]; exact h.inos, fun f hf => ?_, fun f hf => ?_⟩
        · rw [b1] at hf; exact Nat.lt_of_lt_of_le (h.below f hf) b4
        · rw [b1] at hf; rw [b2]; exact h.drv f hf
      obtain ⟨i1, i2, i3, i4⟩ := creates_inv l _ hi
      have ed : devices s.drivers (r :: l) = devices s.drivers l := by simp [devices, g]
      simp only [creates]
      refine ⟨i1, i2.trans b2, ?_, ?_⟩
      · rw [i3, b1, b2, ed]
      · rw [i4, b2, b3, ed]

/-- C190: after any requests to create device files, the file found under a name is the first device made
with that name (none if there is none), and it leads to the driver with the device's major number. -/
theorem lookup_exact (drivers : List Nat) (l : List Req) (name : List Nat) :
    (lookup (creates { drivers := drivers } l).1 name).map File.dev =
      (devices drivers l).find? (fun d => d.name = name) ∧
    ∀ f, lookup (creates { drivers := drivers } l).1 name = some f → driver drivers f.major = some f.drv := by
  obtain ⟨i1, i2, i3, -⟩ := creates_inv l { drivers := drivers } ⟨by simp, by simp, by simp⟩
  constructor
  · have e : devices drivers l = (creates { drivers := drivers } l).1.files.map File.dev := by simpa using i3.symm
    rw [e, List.find?_map]
    unfold lookup
    congr 1
    congr 1
    funext f
    rw [Bool.eq_iff_iff, sameName_iff]
    exact ⟨fun h => decide_eq_true h, fun h => of_decide_eq_true h⟩
  · intro f hf
    have := i1.drv f (List.mem_of_find?_eq_some hf)
    rw [i2] at this
    exact this

/-- C190: the files have different inode numbers, and one block of memory is used for each. -/
theorem files_exact (drivers : List Nat) (l : List Req) :
    let s := (creates { drivers := drivers } l).1
    (s.files.map (·.ino)).Nodup ∧ s.mem = (devices drivers l).length := by
  obtain ⟨i1, -, -, i4⟩ := creates_inv l { drivers := drivers } ⟨by simp, by simp, by simp⟩
  exact ⟨i1.inos, by simpa using i4⟩

theorem getdentsAll_take (s : St) : ∀ (rs : List Nat) (pos : Nat),
    getdentsAll s pos rs = ((s.files.drop pos).take rs.sum).map (·.name)
  | [], pos => by simp [getdentsAll]
  | r :: rs, pos => by
    unfold getdentsAll
    rw [getdentsAll_take s rs]
    unfold getdents
    dsimp only
    rw [← List.map_append]
    congr 1
    rw [List.sum_cons, List.take_add, List.length_take, List.length_drop]
    congr 1
    rw [List.drop_drop]
    by_cases c : r ≤ s.files.length - pos
    · rw [Nat.min_eq_left c]
    · rw [List.drop_eq_nil_of_le (by omega), List.drop_eq_nil_of_le (by omega)]

/-- C190: however many entries each call to getdents takes, the calls together list every device once, in
the order they were made, as far as there was room. -/
theorem list_exact (drivers : List Nat) (l : List Req) (rooms : List Nat) :
    getdentsAll (creates { drivers := drivers } l).1 0 rooms =
      ((devices drivers l).map (·.name)).take rooms.sum := by
  obtain ⟨-, -, i3, -⟩ := creates_inv l { drivers := drivers } ⟨by simp, by simp, by simp⟩
  have e : devices drivers l = (creates { drivers := drivers } l).1.files.map File.dev := by simpa using i3.symm
  rw [getdentsAll_take, e, List.drop_zero, List.map_take, List.map_map]
  rfl

/-- C190: after a seek, listing goes on at that entry; a seek beyond the end is refused. -/
theorem seek_exact (s : St) (t : Int) (rooms : List Nat) :
    match seek s t with
    | none => t < 0 ∨ (s.files.length : Int) < t
    | some p => (p : Int) = t ∧ getdentsAll s p rooms = ((s.files.map (·.name)).drop p).take rooms.sum := by
  unfold seek
  by_cases c : t < 0 ∨ (s.files.length : Int) < t
  · rw [if_pos c]; exact c
  · rw [if_neg c]
    refine ⟨by omega, ?_⟩
    rw [getdentsAll_take, List.map_take, List.map_drop]

def reqs : List Req :=
  [⟨[110], 1, 3, true, .ok .char⟩, ⟨[102], 29, 0, true, .ok .char⟩, ⟨[120], 7, 0, true, .ok .char⟩,
   ⟨[122], 1, 5, true, .ok .other⟩, ⟨[121], 1, 6, true, .ok .char⟩]

example : devices [1, 29] reqs = [⟨[110], 1, 3⟩, ⟨[102], 29, 0⟩, ⟨[121], 1, 6⟩] := by decide

example : (creates { drivers := [1, 29] } reqs).2 = [0, 0, -22, -22, 0] := by decide

/-- C190 (part): devices with minor numbers below 256 have different device numbers in stat. -/
theorem rdev_partial (f g : File) (hf : f.kind = .char) (hg : g.kind = .char) (h1 : f.minor < 256) (h2 : g.minor < 256)
    (h : statRdev f = statRdev g) : f.major = g.major ∧ f.minor = g.minor := by
  unfold statRdev at h
  rw [hf, hg] at h
  have e1 : (f.major <<< 8) ||| f.minor = f.major * 256 + f.minor := by
    rw [← Nat.shiftLeft_add_eq_or_of_lt (by simpa using h1), Nat.shiftLeft_eq]
  have e2 : (g.major <<< 8) ||| g.minor = g.major * 256 + g.minor := by
    rw [← Nat.shiftLeft_add_eq_or_of_lt (by simpa using h2), Nat.shiftLeft_eq]
  dsimp only at h
  rw [e1, e2] at h
  simp only [Option.some.injEq] at h
  omega

/-- C190 is violated: minor numbers from 256 on are mixed with the major number. -/
theorem rdev_violated : statRdev ⟨[97], 2, 1, 256, .char, 0⟩ = statRdev ⟨[98], 3, 1, 0, .char, 0⟩ ∧
    statRdev ⟨[97], 2, 1, 256, .char, 0⟩ ≠ none := by decide

/-- C190 is violated: a block device is made without complaint, and stat of it stops the kernel. -/
theorem block_violated (s : St) (name : List Nat) (major minor : Nat) (h : major ∈ s.drivers) :
    ∃ s' f, create s name major minor true (.ok .block) = (s', 0) ∧ f ∈ s'.files ∧ f.name = name ∧ statRdev f = none := by
  obtain ⟨f, e, e1, -, e3, -⟩ := create_good s ⟨name, major, minor, true, .ok .block⟩ ⟨h, rfl, .block, rfl, Or.inr rfl⟩
  refine ⟨_, f, e, by simp, congrArg Dev.name e1, ?_⟩
  have : f.kind = .block := (Except.ok.inj e3).symm
  simp [statRdev, this]

/-- C190 is violated: a second device with the name of another is made without complaint and can never be
found. -/
theorem name_violated : (creates { drivers := [1] } [⟨[97], 1, 3, true, .ok .char⟩, ⟨[97], 1, 5, true, .ok .char⟩]).2 = [0, 0] ∧
    (lookup (creates { drivers := [1] } [⟨[97], 1, 3, true, .ok .char⟩, ⟨[97], 1, 5, true, .ok .char⟩]).1 [97]).map
      (·.minor) = some 3 := by decide

/-- C190 (part): opening and closing a device file gives back all memory; without memory nothing is taken. -/
theorem open_partial (s : St) (mem : Bool) :
    (mem = true → (openF s mem 0).2 = 0 ∧ close (openF s mem 0).1 = s) ∧ (mem = false → openF s mem 0 = (s, -12)) := by
  constructor
  · intro h
    subst h
    simp [openF, close]
  · intro h
    subst h
    rfl

/-- C190 is violated: each open that the driver refuses takes a handle for ever. -/
theorem open_leak_violated (s : St) (e : Int) (he : e ≠ 0) :
    (openF s true e).2 = e ∧ (openF s true e).1.mem = s.mem + 1 := by
  simp [openF, he]

end Verif.DevFs
