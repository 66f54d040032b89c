/-!
# Names in FAT directories

Model of how directories are read (common/fat32_base.c): `fat_walk` with its reconstruction of long names,
`fat_get_short_name`, `fat_search_entry_cb`, `fat_search_entry`, and of `fat_getdents` (kernel/fs/fat32.c) under
`vfs_getdents64` (kernel/vfs/vfs_getdents.c.h).

A slot of a directory is its 32 bytes. A directory is the list of the slots in its clusters, in the order of the
chain (the chain itself is the subject of `Verif.FatCompact`). Writing behind the end of the buffer for long names
(`lname_buf`) is the outcome `none`. The buffer for a path component (`pc`, 256 bytes) is not modelled: paths in the kernel
have at most 255 characters, and the boot loaders look up constant ones.
-/

namespace Verif.FatDir

/-- `struct fat_entry`, `struct fat_long_entry` (fat32_base.h:76-116): 32 bytes. -/
abbrev Slot := List UInt8

def byte (s : Slot) (i : Nat) : UInt8 := s.getD i 0

/-- `is_long_name_entry` (fat32_base.h:119-122). -/
def isLong (s : Slot) : Bool := byte s 11 &&& 0x0F == 0x0F

/-- The bit-field `volume_id` (fat32_base.h:83). -/
def isVol (s : Slot) : Bool := byte s 11 &&& 0x08 != 0

/-- The bit-field `directory` (fat32_base.h:84). -/
def isDir (s : Slot) : Bool := byte s 11 &&& 0x10 != 0

/-- `fat_get_first_cluster` (fat32_base.h:187-190). -/
def firstClu (s : Slot) : Nat :=
  (byte s 26).toNat + 256 * (byte s 27).toNat + 65536 * ((byte s 20).toNat + 256 * (byte s 21).toNat)

/-- `shortname_checksum` (fat32_base.c:27-38) of what is left of the name, from `sum` on. -/
def sumFrom (sum : UInt8) : List UInt8 → UInt8
  | [] => sum
  | c :: l => sumFrom ((if sum &&& 1 != 0 then (0x80 : UInt8) else 0) + (sum >>> 1) + c) l

def checksum (s : Slot) : UInt8 := sumFrom 0 ((List.range 11).map (byte s))

/-- `fat32_valid_chars` (fat32_base.c:40-137). -/
def validChar (c : UInt8) : Bool :=
  decide (35 ≤ c ∧ c ≤ 126) && !([42, 47, 58, 60, 62, 63, 92, 124].contains c)

/-- `struct fat_walk_long_name_ctx` (fat32_base.h:243-249): the buffer up to `lname_sz`. -/
structure LCtx where
  valid : Bool
  buf : List UInt8
  chk : Option UInt8
deriving DecidableEq, Repr

/-- Lines 257-262: the state at the beginning of `fat_walk`; `none` is the checksum -1. -/
def LCtx.init : LCtx := ⟨false, [], none⟩

/-- Where the characters of a long-name slot are: LDIR_Name1, LDIR_Name2 and LDIR_Name3 (fat32_base.h:104-116). -/
def charPos : List Nat := [1, 3, 5, 7, 9, 14, 16, 18, 20, 22, 24, 28, 30]

/-- The three loops over the characters (fat32_base.c:164-208), joined: `none` if one is not ASCII, else the
characters up to the terminator. -/
def scanChars (s : Slot) : List Nat → Option (List UInt8)
  | [] => some []
  | p :: ps =>
    if byte s (p + 1) ≠ 0 then none
    else if byte s p = 0 ∨ byte s p = 0xFF then some []
    else
      match scanChars s ps with
      | none => none
      | some l => some (byte s p :: l)

/-- Lines 212-222, the characters in the order in which they are added to the buffer of 256 bytes. -/
def push (x : LCtx) : List UInt8 → Option LCtx
  | [] => some x
  | c :: l =>
    if validChar c = false then some { x with valid := false }
    else if x.buf.length < 256 then push { x with buf := x.buf ++ [c] } l
    else none

/-- `fat_handle_long_dir_entry` (fat32_base.c:147-223). -/
def handleLong (x : LCtx) (s : Slot) : Option LCtx :=
  let x1 := if x.chk ≠ some (byte s 13) then { valid := true, buf := [], chk := some (byte s 13) } else x
  if x1.valid = false then some x1
  else
    match scanChars s charPos with
    | none => some { x1 with valid := false }
    | some l => push x1 l.reverse

/-- Lines 297-300 and `finalize_long_name` (fat32_base.c:225-240); the outer `none` is the terminator written behind
the end of the buffer. -/
def longName (x : LCtx) (s : Slot) : Option (Option (List UInt8)) :=
  if x.buf.length > 0 ∧ x.valid = true then
    if x.chk = some (checksum s) then
      if x.buf.length < 256 then some (some x.buf.reverse) else none
    else some none
  else some none

/-- `fat_walk` with a long-name context (fat32_base.c:245-342) over the slots of a directory. The callback gets
the slot, the long name if there is one and its own state, and tells whether to stop. -/
def walk {σ : Type} (cb : Slot → Option (List UInt8) → σ → σ × Bool) : LCtx → σ → List Slot → Option σ
  | _, a, [] => some a
  | x, a, s :: l =>
    if isLong s then
      match handleLong x s with
      | none => none
      | some x' => walk cb x' a l
    else if isVol s then walk cb x a l
    else if byte s 0 = 0xE5 then walk cb x a l
    else if byte s 0 = 0 then some a
    else
      match longName x s with
      | none => none
      | some ln =>
        if (cb s ln a).2 then some (cb s ln a).1
        else walk cb { valid := x.valid, buf := [], chk := none } (cb s ln a).1 l

/-- `tolower` (include/tilck/common/string_util.h:66-68). -/
def lower (c : UInt8) : UInt8 := if 65 ≤ c ∧ c ≤ 90 then c + 32 else c

/-- `stricmp(a, b) == 0` (common/string_util.c:197-204), for strings without NUL. -/
def sameNoCase (a b : List UInt8) : Bool := a.map lower == b.map lower

/-- The characters up to the first space. -/
def upToSpace : List UInt8 → List UInt8
  | [] => []
  | c :: l => if c = 32 then [] else c :: upToSpace l

/-- `fat_get_short_name` (fat32_base.c:488-522). -/
def shortName (s : Slot) : List UInt8 :=
  (upToSpace ((List.range 8).map (byte s))).map (if byte s 12 &&& 0x08 != 0 then lower else id) ++
  (if byte s 8 ≠ 32 then
    46 :: (upToSpace ((List.range 3).map (fun i => byte s (8 + i)))).map (if byte s 12 &&& 0x10 != 0 then lower else id)
  else [])

/-! ### Looking up names -/

/-- `struct fat_search_ctx` (fat32_base.h:288-305); `pc` is `none` while `pcl` is 0. -/
structure SCtx where
  path : List UInt8
  pc : Option (List UInt8) := none
  result : Option Slot := none
  subdir : Nat := 0
  notDir : Bool := false
deriving DecidableEq, Repr

/-- `fat_fetch_next_component` (fat32_base.c:524-541): the characters up to the next slash or the end. -/
def fetch : List UInt8 → List UInt8 × List UInt8
  | [] => ([], [])
  | c :: l => if c = 47 then ([], c :: l) else (c :: (fetch l).1, (fetch l).2)

/-- Lines 563-582: does the entry match the component? -/
def nameMatch (s : Slot) (ln : Option (List UInt8)) (pc : List UInt8) : Bool :=
  match ln with
  | some n => n == pc
  | none => sameNoCase (shortName s) pc

/-- Lines 551-556: the next component is fetched if there is none. -/
def SCtx.fetched (x : SCtx) : SCtx :=
  match x.pc with
  | some _ => x
  | none => { x with pc := some (fetch x.path).1, path := (fetch x.path).2 }

/-- Lines 584-636: what happens with a matching entry. -/
def hit (single : Bool) (s : Slot) (x : SCtx) : SCtx × Bool :=
  if single ∨ x.path = [] then ({ x with result := some s }, true)
  else if x.path.drop 1 = [] then
    if isDir s then ({ x with path := x.path.drop 1, result := some s }, true)
    else ({ x with path := x.path.drop 1, notDir := true }, true)
  else if isDir s then ({ x with path := x.path.drop 1, pc := none, subdir := firstClu s }, true)
  else ({ x with path := x.path.drop 1 }, true)

/-- `fat_search_entry_cb` (fat32_base.c:543-637). -/
def searchCb (single : Bool) (s : Slot) (ln : Option (List UInt8)) (x : SCtx) : SCtx × Bool :=
  if nameMatch s ln (x.fetched.pc.getD []) then hit single s x.fetched else (x.fetched, false)

/-- The kernel's look-up of one component (`fat_get_entry`, kernel/fs/fat32.c:535-588) in a directory that is not
the root or for a name that is not `.` or `..`; `name` goes up to the end of the string or a slash. -/
def lookup (name : List UInt8) (dir : List Slot) : Option (Option Slot) :=
  match walk (searchCb true) .init { path := name } dir with
  | none => none
  | some x => some (if x.notDir then none else x.result)

/-- The loop of `fat_search_entry` (fat32_base.c:683-688); `dirs` gives the slots of the directory at a cluster.
`fuel` bounds the number of components. -/
def searchLoop (dirs : Nat → List Slot) : Nat → SCtx → Option SCtx
  | 0, x => some x
  | fuel + 1, x =>
    if x.subdir = 0 then some x
    else
      match walk (searchCb false) .init { x with subdir := 0 } (dirs x.subdir) with
      | none => none
      | some x' => searchLoop dirs fuel x'

/-- Results of `fat_search_entry`: the entry, -ENOTDIR, -ENOENT. -/
inductive SRes | found (s : Slot) | enotdir | enoent
deriving DecidableEq, Repr

/-- `fat_search_entry` (fat32_base.c:655-699) for a path, without its leading slash, that is not empty; cluster 0 is
the root directory. The outer `none` is a buffer overflow. -/
def search (dirs : Nat → List Slot) (path : List UInt8) : Option SRes :=
  match walk (searchCb false) .init { path := path } (dirs 0) with
  | none => none
  | some x =>
    match searchLoop dirs path.length x with
    | none => none
    | some x => some (if x.notDir then .enotdir else match x.result with | none => .enoent | some s => .found s)

/-! ### Listing directories -/

/-- `fat_getdents_cb` (kernel/fs/fat32.c:363-391): the name that is shown. -/
def entName (s : Slot) (ln : Option (List UInt8)) : List UInt8 := ln.getD (shortName s)

/-- `vde->name_len`, a `u8` (kernel/fs/fat32.c:386). -/
def nameLen (n : List UInt8) : Nat := (n.length % 256 + 1) % 256

/-- An entry in the user's buffer: the slot (for the inode number), the type and the characters copied. -/
structure Dent where
  slot : Slot
  dir : Bool
  name : List UInt8
deriving DecidableEq, Repr

/-- `struct vfs_getdents_ctx` (vfs_getdents.c.h:5-14), `h->dir_pos` and the buffer. -/
structure GCtx where
  offset : Nat
  off : Nat
  pos : Nat
  out : List Dent
deriving DecidableEq, Repr

/-- `vfs_getdents_cb` (vfs_getdents.c.h:34-98) for FAT, where the flag VFS_FS_RQ_DE_SKIP is set; `hs` is
`sizeof(struct linux_dirent64)`, `cap` the size of the buffer. The user's buffer is writable. The characters copied are
those of the name and its terminator, `name_len` of them. -/
def dentsCb (hs cap : Nat) (s : Slot) (ln : Option (List UInt8)) (x : GCtx) : GCtx × Bool :=
  if x.off < x.pos then ({ x with off := x.off + 1 }, false)
  else if x.offset + (hs + nameLen (entName s ln)) > cap then (x, true)
  else ({ offset := x.offset + (hs + nameLen (entName s ln)), off := x.off + 1, pos := x.pos + 1,
          out := x.out ++ [⟨s, isDir s, (entName s ln ++ [0]).take (nameLen (entName s ln))⟩] }, false)

/-- `vfs_getdents64` on a directory (vfs_getdents.c.h:100-129, kernel/fs/fat32.c:393-420): what is returned and the new
position. As `fat_walk` always returns 0 and nothing sets `ctx.rc`, so does `fat_getdents`. -/
def getdents (hs cap pos : Nat) (dir : List Slot) : Option (List Dent × Nat) :=
  match walk (dentsCb hs cap) .init ⟨0, 0, pos, []⟩ dir with
  | none => none
  | some x => some (x.out, x.pos)

/-- The slots of the fixed root directory of FAT16 that `fat_walk` looks at: as many as would fit in a cluster
(fat32_base.c:249, 279, 325-326). -/
def fixedRoot (perCluster : Nat) (dir : List Slot) : List Slot := dir.take perCluster

/-- The check at the beginning of `fat_getdents` (kernel/fs/fat32.c:402-403) for the root directory, whose `e` is
its first slot. -/
def rootListable (dir : List Slot) : Bool := isDir (dir.headD []) || isVol (dir.headD [])

/-! ### Specification: the layout of a directory -/

/-- A file: its long name in UTF-16, if it has one, and its slot, with the short name and all the rest. -/
structure File where
  long : Option (List UInt16)
  slot : Slot
deriving DecidableEq, Repr

/-- A character in memory, low byte first. -/
def le (u : UInt16) : List UInt8 := [u.toUInt8, (u >>> 8).toUInt8]

/-- A slot with 13 characters of a long name. -/
def mkLong (ord : UInt8) (u : List UInt16) (chk : UInt8) : Slot :=
  [ord] ++ (u.take 5).flatMap le ++ [0x0F, 0, chk] ++ ((u.drop 5).take 6).flatMap le ++ [0, 0] ++ ((u.drop 11).take 2).flatMap le

/-- Less than 13 characters are terminated by 0 and filled up with FFFF. -/
def pad (u : List UInt16) : List UInt16 :=
  if u.length = 13 then u else u ++ [0] ++ List.replicate (12 - u.length) 0xFFFF

/-- The slots of a long name: its end first, marked with 40h. -/
def longSlots (chk : UInt8) (ord : Nat) (u : List UInt16) : List Slot :=
  if h : u.length ≤ 13 then [mkLong (UInt8.ofNat ord ||| 0x40) (pad u) chk]
  else longSlots chk (ord + 1) (u.drop 13) ++ [mkLong (UInt8.ofNat ord) (u.take 13) chk]
termination_by u.length
decreasing_by simp; omega

/-- The bits of the attribute byte: 3 is the label, 4 a directory. -/
def attr (s : Slot) (k : Nat) : Bool := (byte s 11).toNat.testBit k

/-- Bits 0 to 3 together: a part of a long name. -/
def longAttr (s : Slot) : Bool := attr s 0 && attr s 1 && attr s 2 && attr s 3

/-- The sum of the short name that its long name carries: rotate to the right by one bit, add the next character. -/
def sum11 (s : Slot) : UInt8 := ((List.range 11).map (byte s)).foldl (fun a c => (a <<< 7 ||| a >>> 1) + c) 0

/-- Without the blanks at the end. -/
def strip : List UInt8 → List UInt8
  | [] => []
  | c :: l => if strip l = [] ∧ c = 32 then [] else c :: strip l

/-- A letter in lower case. -/
def low (c : UInt8) : UInt8 := if 'A'.toNat ≤ c.toNat ∧ c.toNat ≤ 'Z'.toNat then c ||| 0x20 else c

/-- The base of the short name: 8 characters, the first one 05 instead of E5. -/
def baseOf (s : Slot) : List UInt8 :=
  strip ((if byte s 0 = 5 then 0xE5 else byte s 0) :: [byte s 1, byte s 2, byte s 3, byte s 4, byte s 5, byte s 6, byte s 7])

def extOf (s : Slot) : List UInt8 := strip [byte s 8, byte s 9, byte s 10]

/-- The short name: base and extension, each in lower case if its bit (3 and 4) in byte 12 is set. -/
def shortOf (s : Slot) : List UInt8 :=
  (if (byte s 12).toNat.testBit 3 then (baseOf s).map low else baseOf s) ++
  (if extOf s = [] then [] else '.'.toNat.toUInt8 :: (if (byte s 12).toNat.testBit 4 then (extOf s).map low else extOf s))

/-- The first cluster: the low half is in bytes 26 and 27, the high one in 20 and 21. -/
def clusterOf (s : Slot) : Nat :=
  ((byte s 27).toNat * 2 ^ 8 + (byte s 26).toNat) + ((byte s 21).toNat * 2 ^ 8 + (byte s 20).toNat) * 2 ^ 16

/-- The slots of a file. -/
def File.slots (f : File) : List Slot :=
  match f.long with
  | none => [f.slot]
  | some n => longSlots (sum11 f.slot) 1 n ++ [f.slot]

/-- The characters of long names that are supported: printable ASCII, except the blank, `!`, `"` and those FAT forbids. -/
def supported (u : UInt16) : Bool :=
  decide (35 ≤ u ∧ u ≤ 126) && !([42, 47, 58, 60, 62, 63, 92, 124].contains u)

/-- The long name shown for a file. -/
def File.shown (f : File) : Option (List UInt8) :=
  match f.long with
  | none => none
  | some n => if n.all supported then some (n.map (·.toUInt8)) else none

/-- The slot is neither free nor a label nor part of a long name; long names have 1 to 255 characters, none of them
0 or 255 (ÿ). A short name that is shown has no blanks inside and does not begin with the byte 05. -/
structure File.Ok (f : File) : Prop where
  slot : attr f.slot 3 = false ∧ byte f.slot 0 ≠ 0xE5 ∧ byte f.slot 0 ≠ 0
  long : ∀ n, f.long = some n → 0 < n.length ∧ n.length ≤ 255 ∧ 0 ∉ n ∧ 0xFF ∉ n
  short : f.shown = none → byte f.slot 0 ≠ 5 ∧ 32 ∉ baseOf f.slot ∧ 32 ∉ extOf f.slot

/-- The name shown for a file. -/
def File.name (f : File) : List UInt8 := f.shown.getD (shortOf f.slot)

/-- What is left of removed files, and labels: at most 19 slots of long names (an own limitation of this
specification), none of them with the checksum `chk`. -/
def Dead (chk : Option UInt8) (ds : List Slot) : Prop :=
  (∀ d ∈ ds, longAttr d = true ∨ attr d 3 = true ∨ byte d 0 = 0xE5) ∧ (ds.filter longAttr).length ≤ 19 ∧
  (∀ d ∈ ds, longAttr d = true → some (byte d 13) ≠ chk)

/-- The slots of a directory with these files: before each file there may be dead slots, and the end mark, if there is
one, may be followed by anything. -/
inductive Holds : List File → List Slot → Prop
  | last {ds} : Dead none ds → Holds [] ds
  | mark {ds m junk} : Dead none ds → attr m 3 = false → byte m 0 = 0 → Holds [] (ds ++ m :: junk)
  | file {f fs ds l} : f.Ok → Dead (some (sum11 f.slot)) ds → Holds fs l → Holds (f :: fs) (ds ++ f.slots ++ l)

/-- The callback, applied to one file after the other until it asks to stop. -/
def visit {σ : Type} (cb : Slot → Option (List UInt8) → σ → σ × Bool) (a : σ) : List File → σ
  | [] => a
  | f :: fs => if (cb f.slot f.shown a).2 then (cb f.slot f.shown a).1 else visit cb (cb f.slot f.shown a).1 fs

theorem u8_all {p : UInt8 → Prop} [DecidablePred p] (h : ∀ n : Fin 256, p (UInt8.ofNat n)) (c : UInt8) : p c := by
  have := h ⟨c.toNat, c.toNat_lt⟩
  simpa using this

theorem isVol_eq (s : Slot) : isVol s = attr s 3 :=
  u8_all (p := fun c => (c &&& 0x08 != 0) = c.toNat.testBit 3) (by decide +kernel) (byte s 11)

theorem isDir_eq (s : Slot) : isDir s = attr s 4 :=
  u8_all (p := fun c => (c &&& 0x10 != 0) = c.toNat.testBit 4) (by decide +kernel) (byte s 11)

theorem isLong_eq (s : Slot) : isLong s = longAttr s :=
  u8_all (p := fun c => (c &&& 0x0F == 0x0F) = (c.toNat.testBit 0 && c.toNat.testBit 1 && c.toNat.testBit 2 && c.toNat.testBit 3))
    (by decide +kernel) (byte s 11)

theorem lower_eq (c : UInt8) : lower c = low c := u8_all (p := fun c => lower c = low c) (by decide +kernel) c

theorem checksum_eq (s : Slot) : checksum s = sum11 s := by
  unfold checksum sum11
  have h : ∀ (l : List UInt8) (a : UInt8), sumFrom a l = l.foldl (fun (a c : UInt8) => (a <<< 7 ||| a >>> 1) + c) a := by
    intro l
    induction l with
    | nil => intro a; rfl
    | cons c l ih =>
      intro a
      have e : (if a &&& 1 != 0 then (0x80 : UInt8) else 0) + (a >>> 1) = (a <<< 7 ||| a >>> 1) :=
        u8_all (p := fun a => (if a &&& 1 != 0 then (0x80 : UInt8) else 0) + (a >>> 1) = (a <<< 7 ||| a >>> 1)) (by decide +kernel) a
      show sumFrom ((if a &&& 1 != 0 then (0x80 : UInt8) else 0) + (a >>> 1) + c) l = _
      rw [e, ih]
      rfl
  exact h _ 0

theorem firstClu_eq (s : Slot) : firstClu s = clusterOf s := by
  unfold firstClu clusterOf
  omega

theorem upToSpace_strip : ∀ {l : List UInt8}, 32 ∉ strip l → upToSpace l = strip l
  | [], _ => rfl
  | c :: l, h => by
    unfold strip at h ⊢
    unfold upToSpace
    by_cases hc : strip l = [] ∧ c = 32
    · rw [if_pos hc, if_pos hc.2]
    · rw [if_neg hc] at h ⊢
      have h1 : c ≠ 32 := fun e => h (by simp [e])
      rw [if_neg h1, upToSpace_strip (fun hm => h (by simp [hm]))]

theorem map_ite (b : Bool) (l : List UInt8) : l.map (if b then lower else id) = if b then l.map low else l := by
  cases b
  · simp
  · simp only [if_true]
    exact List.map_congr_left (fun c _ => lower_eq c)

theorem shortName_eq {s : Slot} (h : byte s 0 ≠ 5 ∧ 32 ∉ baseOf s ∧ 32 ∉ extOf s) : shortName s = shortOf s := by
  have hb : upToSpace ((List.range 8).map (byte s)) = baseOf s := by
    have e : baseOf s = strip ((List.range 8).map (byte s)) := by
      unfold baseOf
      rw [if_neg h.1]
      rfl
    have := h.2.1
    rw [e] at this ⊢
    exact upToSpace_strip this
  have he : upToSpace ((List.range 3).map (fun i => byte s (8 + i))) = extOf s := by
    have := upToSpace_strip h.2.2
    exact this
  have hn : byte s 8 ≠ 32 ↔ extOf s ≠ [] := by
    rw [← he]
    show _ ↔ upToSpace (byte s 8 :: _) ≠ []
    unfold upToSpace
    split
    · simp [*]
    · simp [*]
  have b3 : (byte s 12 &&& 0x08 != 0) = (byte s 12).toNat.testBit 3 :=
    u8_all (p := fun c => (c &&& 0x08 != 0) = c.toNat.testBit 3) (by decide +kernel) (byte s 12)
  have b4 : (byte s 12 &&& 0x10 != 0) = (byte s 12).toNat.testBit 4 :=
    u8_all (p := fun c => (c &&& 0x10 != 0) = c.toNat.testBit 4) (by decide +kernel) (byte s 12)
  unfold shortName shortOf
  rw [hb, he, b3, b4, map_ite, map_ite]
  congr 1
  by_cases hx : extOf s = []
  · rw [if_neg (fun e => hn.mp e hx), if_pos hx]
  · rw [if_pos (hn.mpr hx), if_neg hx]
    rfl

theorem Dead.old {chk : Option UInt8} {ds : List Slot} (h : Dead chk ds) :
    (∀ d ∈ ds, isLong d = true ∨ isVol d = true ∨ byte d 0 = 0xE5) ∧ (ds.filter isLong).length ≤ 19 ∧
    (∀ d ∈ ds, isLong d = true → some (byte d 13) ≠ chk) := by
  have e : isLong = longAttr := funext isLong_eq
  obtain ⟨h1, h2, h3⟩ := h
  refine ⟨fun d hd => ?_, by rw [e]; exact h2, fun d hd hl => h3 d hd (by rw [← isLong_eq]; exact hl)⟩
  rw [isLong_eq, isVol_eq]
  exact h1 d hd

theorem notLong {s : Slot} (h : attr s 3 = false) : isLong s = false := by
  rw [isLong_eq]
  unfold longAttr
  rw [h, Bool.and_false]

theorem File.Ok.old {f : File} (h : f.Ok) : isLong f.slot = false ∧ isVol f.slot = false ∧ byte f.slot 0 ≠ 0xE5 ∧ byte f.slot 0 ≠ 0 :=
  ⟨notLong h.slot.1, by rw [isVol_eq]; exact h.slot.1, h.slot.2⟩

theorem File.Ok.entName {f : File} (h : f.Ok) : FatDir.entName f.slot f.shown = f.name := by
  unfold FatDir.entName File.name
  cases hs : f.shown with
  | some n => rfl
  | none => exact shortName_eq (h.short hs)


/-! ### Reconstruction of long names -/

theorem byte_mkLong13 {ord chk : UInt8} {u : List UInt16} (hu : u.length = 13) : byte (mkLong ord u chk) 13 = chk := by
  match u, hu with
  | [a, b, c, d, e, f, g, h, i, j, k, l, m], _ => rfl

theorem isLong_mkLong {ord chk : UInt8} {u : List UInt16} (hu : u.length = 13) : isLong (mkLong ord u chk) = true := by
  have h11 : byte (mkLong ord u chk) 11 = 0x0F := by
    match u, hu with
    | [a, b, c, d, e, f, g, h, i, j, k, l, m], _ => rfl
  unfold isLong
  rw [h11]
  decide

/-- What the three loops find among characters. -/
def scanU : List UInt16 → Option (List UInt8)
  | [] => some []
  | u :: us =>
    if (u >>> 8).toUInt8 ≠ 0 then none
    else if u.toUInt8 = 0 ∨ u.toUInt8 = 0xFF then some []
    else
      match scanU us with
      | none => none
      | some l => some (u.toUInt8 :: l)

theorem scan_mkLong {ord chk : UInt8} {u : List UInt16} (hu : u.length = 13) :
    scanChars (mkLong ord u chk) charPos = scanU u := by
  match u, hu with
  | [a, b, c, d, e, f, g, h, i, j, k, l, m], _ => rfl

theorem hi_zero (u : UInt16) : (u >>> 8).toUInt8 = 0 ↔ u.toNat < 256 := by
  rw [← UInt8.toNat_inj]
  have h := u.toNat_lt
  simp [UInt16.toNat_shiftRight, Nat.shiftRight_eq_div_pow]
  omega

theorem lo_toNat (u : UInt16) : u.toUInt8.toNat = u.toNat % 256 := by simp

theorem supported_iff (u : UInt16) : supported u = true ↔ (u >>> 8).toUInt8 = 0 ∧ validChar u.toUInt8 = true := by
  rw [hi_zero]
  have hl := lo_toNat u
  have h16 : ∀ k : UInt16, u = k ↔ u.toNat = k.toNat := fun k => UInt16.toNat_inj.symm
  have h8 : ∀ k : UInt8, u.toUInt8 = k ↔ u.toNat % 256 = k.toNat := fun k => by rw [← hl]; exact UInt8.toNat_inj.symm
  unfold supported validChar
  simp only [Bool.and_eq_true, decide_eq_true_eq, Bool.not_eq_true', List.contains_eq_mem, List.mem_cons, List.not_mem_nil,
    or_false, decide_eq_false_iff_not, UInt16.le_iff_toNat_le, UInt8.le_iff_toNat_le, hl, h16, h8]
  simp only [UInt16.toNat_ofNat, UInt8.toNat_ofNat]
  omega

theorem scanU_append {t : List UInt16} (ht : t = [] ∨ ∃ r, t = 0 :: r) : ∀ {u : List UInt16}, 0 ∉ u → 0xFF ∉ u →
    scanU (u ++ t) = if u.all (fun x => (x >>> 8).toUInt8 = 0) then some (u.map (·.toUInt8)) else none
  | [], _, _ => by
    rcases ht with rfl | ⟨r, rfl⟩
    · rfl
    · rfl
  | x :: u, h0, hF => by
    have ih := scanU_append ht (u := u) (fun h => h0 (by simp [h])) (fun h => hF (by simp [h]))
    rw [List.cons_append]
    unfold scanU
    by_cases hh : (x >>> 8).toUInt8 = 0
    · rw [if_neg (by simp [hh])]
      have hlt := (hi_zero x).mp hh
      have hx0 : x.toUInt8 ≠ 0 := by
        intro e
        have : x.toNat % 256 = 0 := by rw [← lo_toNat, e]; rfl
        exact h0 (by
          have : x = 0 := by rw [← UInt16.toNat_inj]; simp; omega
          simp [this])
      have hxF : x.toUInt8 ≠ 0xFF := by
        intro e
        have : x.toNat % 256 = 255 := by rw [← lo_toNat, e]; rfl
        exact hF (by
          have : x = 0xFF := by rw [← UInt16.toNat_inj]; simp; omega
          simp [this])
      rw [if_neg (by simp [hx0, hxF]), ih]
      simp only [List.all_cons, hh, decide_true, Bool.true_and]
      by_cases hall : (u.all fun x => decide ((x >>> 8).toUInt8 = 0)) = true
      · rw [if_pos hall, if_pos hall]; rfl
      · rw [if_neg hall, if_neg hall]
    · rw [if_pos (by simpa using hh)]
      simp [hh]

theorem push_ok : ∀ {l : List UInt8} {x : LCtx}, x.buf.length + l.length ≤ 256 → x.valid = true →
    ∃ x', push x l = some x' ∧ x'.chk = x.chk ∧ x'.buf.length ≤ x.buf.length + l.length ∧
      x'.valid = l.all validChar ∧ (x'.valid = true → x'.buf = x.buf ++ l)
  | [], x, _, hv => ⟨x, rfl, rfl, by simp, by simpa using hv, fun _ => by simp⟩
  | c :: l, x, h, hv => by
    unfold push
    by_cases hc : validChar c = false
    · rw [if_pos hc]
      exact ⟨_, rfl, rfl, by simp, by simp [hc], fun e => by simp at e⟩
    · rw [if_neg hc, if_pos (by simp at h; omega)]
      obtain ⟨x', h1, h2, h3, h4, h5⟩ := push_ok (l := l) (x := { x with buf := x.buf ++ [c] }) (by simp at h ⊢; omega) hv
      refine ⟨x', h1, h2, by simp at h3 ⊢; omega, ?_, fun e => ?_⟩
      · rw [h4]; simp at hc; simp [hc]
      · rw [h5 e]; simp

/-- One slot of a long name. -/
theorem handle_ok {x : LCtx} {ord chk : UInt8} {u t : List UInt16} (ht : t = [] ∨ ∃ r, t = 0 :: r) (hlen : (u ++ t).length = 13)
    (h0 : 0 ∉ u) (hF : 0xFF ∉ u) (hx : x.chk = some chk) (hl : x.buf.length + u.length ≤ 256) :
    ∃ x', handleLong x (mkLong ord (u ++ t) chk) = some x' ∧ x'.chk = some chk ∧
      x'.buf.length ≤ x.buf.length + u.length ∧ x'.valid = (x.valid && u.all supported) ∧
      (x'.valid = true → x'.buf = x.buf ++ (u.map (·.toUInt8)).reverse) := by
  have hb := byte_mkLong13 (ord := ord) (chk := chk) hlen
  unfold handleLong
  dsimp only
  have hx1 : (if x.chk ≠ some (byte (mkLong ord (u ++ t) chk) 13) then
      { valid := true, buf := [], chk := some (byte (mkLong ord (u ++ t) chk) 13) } else x) = x := by
    rw [hb, if_neg (by simp [hx])]
  rw [hx1]
  by_cases hv : x.valid = true
  · rw [if_neg (by simp [hv]), scan_mkLong hlen, scanU_append ht h0 hF]
    have hs : u.all supported = (u.all (fun x => (x >>> 8).toUInt8 = 0) && (u.map (·.toUInt8)).reverse.all validChar) := by
      rw [Bool.eq_iff_iff]
      simp only [List.all_eq_true, Bool.and_eq_true, decide_eq_true_eq, List.mem_reverse, List.mem_map]
      constructor
      · intro h
        exact ⟨fun y hy => ((supported_iff y).mp (h y hy)).1, fun c ⟨y, hy, e⟩ => e ▸ ((supported_iff y).mp (h y hy)).2⟩
      · intro h y hy
        exact (supported_iff y).mpr ⟨h.1 y hy, h.2 _ ⟨y, hy, rfl⟩⟩
    by_cases ha : u.all (fun x => (x >>> 8).toUInt8 = 0) = true
    · rw [if_pos ha]
      dsimp only
      obtain ⟨x', h1, h2, h3, h4, h5⟩ := push_ok (l := (u.map (·.toUInt8)).reverse) (x := x) (by simpa using hl) hv
      refine ⟨x', h1, by rw [h2, hx], by simpa using h3, ?_, h5⟩
      rw [h4, hv, hs, ha]
      rfl
    · rw [if_neg ha]
      refine ⟨_, rfl, hx, by simp, ?_, fun e => by simp at e⟩
      simp only [Bool.not_eq_true] at ha
      rw [hs, ha]
      simp
  · have hv' : x.valid = false := by simpa using hv
    rw [if_pos hv']
    exact ⟨x, rfl, hx, by omega, by simp [hv'], fun e => absurd e hv⟩

/-- Reading several slots of long names. -/
def handleAll (x : LCtx) : List Slot → Option LCtx
  | [] => some x
  | s :: l =>
    match handleLong x s with
    | none => none
    | some x' => handleAll x' l

theorem handleAll_append {l2 : List Slot} : ∀ {l1 : List Slot} {x : LCtx},
    handleAll x (l1 ++ l2) = match handleAll x l1 with | none => none | some x' => handleAll x' l2
  | [], x => rfl
  | s :: l1, x => by
    rw [List.cons_append]
    show (match handleLong x s with | none => none | some x' => handleAll x' (l1 ++ l2)) =
      match (match handleLong x s with | none => none | some x' => handleAll x' l1) with
      | none => none | some x' => handleAll x' l2
    cases h : handleLong x s with
    | none => rfl
    | some x' => exact handleAll_append (x := x')

theorem pad_split {u : List UInt16} (h : u.length ≤ 13) : ∃ t, pad u = u ++ t ∧ (t = [] ∨ ∃ r, t = 0 :: r) ∧ (u ++ t).length = 13 := by
  unfold pad
  by_cases h13 : u.length = 13
  · rw [if_pos h13]
    exact ⟨[], by simp, Or.inl rfl, by simpa using h13⟩
  · rw [if_neg h13]
    exact ⟨0 :: List.replicate (12 - u.length) 0xFFFF, by simp, Or.inr ⟨_, rfl⟩, by simp; omega⟩

/-- All the slots of a long name. -/
theorem longSlots_ok (chk : UInt8) : ∀ (n : Nat) (u : List UInt16), u.length ≤ n → ∀ (ord : Nat) (x : LCtx), 0 ∉ u → 0xFF ∉ u →
    x.chk = some chk → x.buf.length + u.length ≤ 256 →
    ∃ x', handleAll x (longSlots chk ord u) = some x' ∧ x'.chk = some chk ∧
      x'.buf.length ≤ x.buf.length + u.length ∧ x'.valid = (x.valid && u.all supported) ∧
      (x'.valid = true → x'.buf = x.buf ++ (u.map (·.toUInt8)).reverse) := by
  intro n
  induction n with
  | zero =>
    intro u hu ord x h0 hF hx hl
    obtain rfl : u = [] := List.eq_nil_of_length_eq_zero (by omega)
    obtain ⟨t, h1, h2, h3⟩ := pad_split (u := []) (by simp)
    unfold longSlots
    rw [dif_pos (by simp), h1]
    unfold handleAll
    obtain ⟨x', k1, k2⟩ := handle_ok (ord := UInt8.ofNat ord ||| 0x40) h2 h3 h0 hF hx hl
    rw [k1]
    exact ⟨x', rfl, k2⟩
  | succ n ih =>
    intro u hu ord x h0 hF hx hl
    unfold longSlots
    by_cases h13 : u.length ≤ 13
    · obtain ⟨t, h1, h2, h3⟩ := pad_split h13
      rw [dif_pos h13, h1]
      unfold handleAll
      obtain ⟨x', k1, k2⟩ := handle_ok (ord := UInt8.ofNat ord ||| 0x40) h2 h3 h0 hF hx hl
      rw [k1]
      exact ⟨x', rfl, k2⟩
    · rw [dif_neg h13, handleAll_append (x := x)]
      obtain ⟨x1, a1, a2, a3, a4, a5⟩ := ih (u.drop 13) (by simp; omega) (ord + 1) x (fun h => h0 (List.mem_of_mem_drop h))
        (fun h => hF (List.mem_of_mem_drop h)) hx (by simp; omega)
      rw [a1]
      dsimp only
      unfold handleAll
      have ht13 : (u.take 13 ++ []).length = 13 := by simp; omega
      have hsum : (u.drop 13).length + (u.take 13).length = u.length := by simp; omega
      obtain ⟨x', b1, b2, b3, b4, b5⟩ := handle_ok (x := x1) (ord := UInt8.ofNat ord) (u := u.take 13) (t := []) (Or.inl rfl) ht13
        (fun h => h0 (List.mem_of_mem_take h)) (fun h => hF (List.mem_of_mem_take h)) a2 (by omega)
      rw [List.append_nil] at b1
      rw [b1]
      have hall : u.all supported = ((u.drop 13).all supported && (u.take 13).all supported) := by
        conv => lhs; rw [← List.take_append_drop 13 u]
        rw [List.all_append, Bool.and_comm]
      refine ⟨x', rfl, b2, by omega, ?_, ?_⟩
      · rw [b4, a4, hall, Bool.and_assoc]
      · intro hv
        have hv1 : x1.valid = true := by
          rw [b4] at hv
          simp only [Bool.and_eq_true] at hv
          exact hv.1
        rw [b5 hv, a5 hv1]
        have e : u.map (·.toUInt8) = (u.take 13).map (·.toUInt8) ++ (u.drop 13).map (·.toUInt8) := by
          rw [← List.map_append, List.take_append_drop]
        rw [e, List.reverse_append, List.append_assoc]

theorem handle_reset {x : LCtx} {s : Slot} (h : x.chk ≠ some (byte s 13)) :
    handleLong x s = handleLong ⟨true, [], some (byte s 13)⟩ s := by
  unfold handleLong
  dsimp only
  rw [if_pos h, ite_self]

theorem longSlots_ne (chk : UInt8) (ord : Nat) (u : List UInt16) : ∀ s ∈ longSlots chk ord u, isLong s = true ∧ byte s 13 = chk := by
  have key : ∀ (n : Nat) (u : List UInt16), u.length ≤ n → ∀ (ord : Nat), ∀ s ∈ longSlots chk ord u, isLong s = true ∧ byte s 13 = chk := by
    intro n
    induction n with
    | zero =>
      intro u hu ord s hs
      unfold longSlots at hs
      rw [dif_pos (by omega)] at hs
      obtain ⟨t, h1, h2, h3⟩ := pad_split (u := u) (by omega)
      simp only [List.mem_singleton] at hs
      rw [h1] at hs
      subst hs
      exact ⟨isLong_mkLong h3, byte_mkLong13 h3⟩
    | succ n ih =>
      intro u hu ord s hs
      unfold longSlots at hs
      by_cases h13 : u.length ≤ 13
      · rw [dif_pos h13] at hs
        obtain ⟨t, h1, h2, h3⟩ := pad_split (u := u) (by omega)
        simp only [List.mem_singleton] at hs
        rw [h1] at hs
        subst hs
        exact ⟨isLong_mkLong h3, byte_mkLong13 h3⟩
      · rw [dif_neg h13] at hs
        rcases List.mem_append.mp hs with hs | hs
        · exact ih (u.drop 13) (by simp; omega) (ord + 1) s hs
        · simp only [List.mem_singleton] at hs
          have h3 : (u.take 13).length = 13 := by simp; omega
          subst hs
          exact ⟨isLong_mkLong h3, byte_mkLong13 h3⟩
  exact key u.length u (Nat.le_refl _) ord

theorem longSlots_cons (chk : UInt8) (ord : Nat) (u : List UInt16) : ∃ s l, longSlots chk ord u = s :: l := by
  have hne : longSlots chk ord u ≠ [] := by
    unfold longSlots
    split <;> simp
  obtain ⟨s, l, h⟩ := List.exists_cons_of_ne_nil hne
  exact ⟨s, l, h⟩

/-- The long name of a file, read when the checksum of what was read before is different. -/
theorem long_ok {chk : UInt8} {u : List UInt16} {x : LCtx} (h0 : 0 ∉ u) (hF : 0xFF ∉ u) (hx : x.chk ≠ some chk)
    (hl : u.length ≤ 255) :
    ∃ x', handleAll x (longSlots chk 1 u) = some x' ∧ x'.chk = some chk ∧ x'.buf.length ≤ u.length ∧
      x'.valid = u.all supported ∧ (x'.valid = true → x'.buf = (u.map (·.toUInt8)).reverse) := by
  obtain ⟨s, l, hs⟩ := longSlots_cons chk 1 u
  have hb : byte s 13 = chk := (longSlots_ne chk 1 u s (by rw [hs]; simp)).2
  have e : handleAll x (longSlots chk 1 u) = handleAll ⟨true, [], some chk⟩ (longSlots chk 1 u) := by
    rw [hs]
    unfold handleAll
    rw [handle_reset (by rw [hb]; exact hx), hb]
  rw [e]
  have := longSlots_ok chk u.length u (Nat.le_refl _) 1 ⟨true, [], some chk⟩ h0 hF rfl (by simp; omega)
  simpa using this

/-! ### Walking a directory -/

theorem scan_length (s : Slot) : ∀ (ps : List Nat) (l : List UInt8), scanChars s ps = some l → l.length ≤ ps.length
  | [], l, h => by unfold scanChars at h; cases h; simp
  | p :: ps, l, h => by
    unfold scanChars at h
    split at h
    · cases h
    · split at h
      · cases h; simp
      · cases h2 : scanChars s ps with
        | none => rw [h2] at h; cases h
        | some l' =>
          rw [h2] at h
          cases h
          have := scan_length s ps l' h2
          simpa using this

theorem push_bound : ∀ {l : List UInt8} {x : LCtx}, x.buf.length + l.length ≤ 256 →
    ∃ x', push x l = some x' ∧ x'.chk = x.chk ∧ x'.buf.length ≤ x.buf.length + l.length
  | [], x, _ => ⟨x, rfl, rfl, by simp⟩
  | c :: l, x, h => by
    unfold push
    by_cases hc : validChar c = false
    · rw [if_pos hc]
      exact ⟨_, rfl, rfl, by simp⟩
    · rw [if_neg hc, if_pos (by simp at h; omega)]
      obtain ⟨x', h1, h2, h3⟩ := push_bound (l := l) (x := { x with buf := x.buf ++ [c] }) (by simp at h ⊢; omega)
      exact ⟨x', h1, h2, by simp at h3 ⊢; omega⟩

/-- Any slot of a long name. -/
theorem handle_any {x : LCtx} {s : Slot} (h : x.buf.length + 13 ≤ 256) :
    ∃ x', handleLong x s = some x' ∧ x'.chk = some (byte s 13) ∧ x'.buf.length ≤ x.buf.length + 13 := by
  unfold handleLong
  dsimp only
  have hx1 : ∃ x1, (if x.chk ≠ some (byte s 13) then { valid := true, buf := [], chk := some (byte s 13) } else x) = x1 ∧
      x1.chk = some (byte s 13) ∧ x1.buf.length ≤ x.buf.length := by
    by_cases hc : x.chk ≠ some (byte s 13)
    · rw [if_pos hc]; exact ⟨_, rfl, rfl, by simp⟩
    · rw [if_neg hc]; exact ⟨_, rfl, by simpa using hc, Nat.le_refl _⟩
  obtain ⟨x1, e1, e2, e3⟩ := hx1
  rw [e1]
  by_cases hv : x1.valid = false
  · rw [if_pos hv]
    exact ⟨x1, rfl, e2, by omega⟩
  · rw [if_neg hv]
    cases hs : scanChars s charPos with
    | none => exact ⟨_, rfl, e2, by show x1.buf.length ≤ _; omega⟩
    | some l =>
      have hl := scan_length s charPos l hs
      have h13 : charPos.length = 13 := rfl
      obtain ⟨x', h1, h2, h3⟩ := push_bound (l := l.reverse) (x := x1) (by simp; omega)
      exact ⟨x', h1, by rw [h2, e2], by simp at h3; omega⟩

section
variable {σ : Type} {cb : Slot → Option (List UInt8) → σ → σ × Bool}

theorem walk_cons (x : LCtx) (a : σ) (s : Slot) (l : List Slot) : walk cb x a (s :: l) =
    if isLong s then
      match handleLong x s with
      | none => none
      | some x' => walk cb x' a l
    else if isVol s then walk cb x a l
    else if byte s 0 = 0xE5 then walk cb x a l
    else if byte s 0 = 0 then some a
    else
      match longName x s with
      | none => none
      | some ln =>
        if (cb s ln a).2 then some (cb s ln a).1
        else walk cb { valid := x.valid, buf := [], chk := none } (cb s ln a).1 l := rfl

theorem walk_longs {a : σ} {l : List Slot} : ∀ {ls : List Slot} {x : LCtx}, (∀ s ∈ ls, isLong s = true) →
    walk cb x a (ls ++ l) = match handleAll x ls with | none => none | some x' => walk cb x' a l
  | [], x, _ => rfl
  | s :: ls, x, h => by
    show walk cb x a (s :: (ls ++ l)) = match (match handleLong x s with | none => none | some x' => handleAll x' ls) with
      | none => none | some x' => walk cb x' a l
    conv => lhs; unfold walk
    rw [if_pos (h s (by simp))]
    cases handleLong x s with
    | none => rfl
    | some x' => exact walk_longs (fun t ht => h t (by simp [ht]))

/-- Dead slots change nothing but the state of the reconstruction. -/
theorem walk_dead {a : σ} {l : List Slot} : ∀ {ds : List Slot} {x : LCtx},
    (∀ d ∈ ds, isLong d = true ∨ isVol d = true ∨ byte d 0 = 0xE5) → x.buf.length + 13 * (ds.filter isLong).length ≤ 256 →
    ∃ x', walk cb x a (ds ++ l) = walk cb x' a l ∧ (x'.chk = x.chk ∨ ∃ d ∈ ds, isLong d = true ∧ x'.chk = some (byte d 13))
  | [], x, _, _ => ⟨x, rfl, Or.inl rfl⟩
  | d :: ds, x, h, hl => by
    have hd := h d (by simp)
    have ih := fun x => walk_dead (a := a) (l := l) (ds := ds) (x := x) (fun t ht => h t (by simp [ht]))
    rw [List.cons_append, walk_cons]
    by_cases hlong : isLong d = true
    · rw [if_pos hlong]
      have hcount : ((d :: ds).filter isLong).length = (ds.filter isLong).length + 1 := by simp [hlong]
      obtain ⟨x1, k1, k2, k3⟩ := handle_any (x := x) (s := d) (by omega)
      rw [k1]
      obtain ⟨x', w1, w2⟩ := ih x1 (by omega)
      refine ⟨x', w1, ?_⟩
      rcases w2 with w2 | ⟨e, he, w2⟩
      · exact Or.inr ⟨d, by simp, hlong, by rw [w2, k2]⟩
      · exact Or.inr ⟨e, by simp [he], w2⟩
    · rw [if_neg hlong]
      have hcount : ((d :: ds).filter isLong).length = (ds.filter isLong).length := by simp [hlong]
      obtain ⟨x', w1, w2⟩ := ih x (by omega)
      have fin : x'.chk = x.chk ∨ ∃ e ∈ d :: ds, isLong e = true ∧ x'.chk = some (byte e 13) := by
        rcases w2 with w2 | ⟨e, he, w2⟩
        · exact Or.inl w2
        · exact Or.inr ⟨e, by simp [he], w2⟩
      by_cases hvol : isVol d = true
      · rw [if_pos hvol]; exact ⟨x', w1, fin⟩
      · rw [if_neg hvol]
        have hE5 : byte d 0 = 0xE5 := by
          rcases hd with h | h | h
          · exact absurd h hlong
          · exact absurd h hvol
          · exact h
        rw [if_pos hE5]
        exact ⟨x', w1, fin⟩

theorem walk_slot {a : σ} {l : List Slot} {s : Slot} {x : LCtx} {ln : Option (List UInt8)}
    (h : isLong s = false ∧ isVol s = false ∧ byte s 0 ≠ 0xE5 ∧ byte s 0 ≠ 0) (hn : longName x s = some ln) :
    walk cb x a (s :: l) = if (cb s ln a).2 then some (cb s ln a).1
      else walk cb { valid := x.valid, buf := [], chk := none } (cb s ln a).1 l := by
  conv => lhs; unfold walk
  rw [if_neg (by simp [h.1]), if_neg (by simp [h.2.1]), if_neg h.2.2.1, if_neg h.2.2.2, hn]

theorem walk_file {f : File} (hf : f.Ok) {a : σ} {ds l : List Slot} (hd : Dead (some (sum11 f.slot)) ds) {x : LCtx}
    (hx : x.chk = none ∧ x.buf = []) :
    ∃ v, walk cb x a (ds ++ f.slots ++ l) = if (cb f.slot f.shown a).2 then some (cb f.slot f.shown a).1
      else walk cb { valid := v, buf := [], chk := none } (cb f.slot f.shown a).1 l := by
  rw [List.append_assoc]
  obtain ⟨x1, w1, w2⟩ := walk_dead (cb := cb) (a := a) (l := f.slots ++ l) (ds := ds) (x := x) hd.old.1
    (by rw [hx.2]; have := hd.old.2.1; simp; omega)
  have hchk : x1.chk ≠ some (checksum f.slot) := by
    rcases w2 with w2 | ⟨d, h1, h2, h3⟩
    · rw [w2, hx.1]; simp
    · rw [h3]; rw [checksum_eq]; exact hd.old.2.2 d h1 h2
  rw [w1]
  unfold File.slots File.shown
  rw [← checksum_eq]
  cases hl : f.long with
  | none =>
    refine ⟨x1.valid, ?_⟩
    refine walk_slot hf.old ?_
    unfold longName
    rw [if_neg hchk]
    split <;> rfl
  | some n =>
    obtain ⟨n1, n2, n3, n4⟩ := hf.long n hl
    obtain ⟨x2, k1, k2, k3, k4, k5⟩ := long_ok n3 n4 hchk n2
    dsimp only
    rw [List.append_assoc, walk_longs (fun s hs => (longSlots_ne _ _ _ s hs).1), k1]
    refine ⟨x2.valid, ?_⟩
    refine walk_slot hf.old ?_
    unfold longName
    by_cases ha : n.all supported = true
    · rw [if_pos ha]
      have hv : x2.valid = true := by rw [k4, ha]
      have hb := k5 hv
      have hlen : x2.buf.length = n.length := by rw [hb]; simp
      rw [if_pos ⟨by omega, hv⟩, if_pos k2, if_pos (by omega), hb, List.reverse_reverse]
    · rw [if_neg ha, if_neg (by rw [k4]; exact fun h => ha h.2)]

/-- **The walk.** The callback gets the files of the directory, one after the other, with their long names. -/
theorem walk_visits {fs : List File} {l : List Slot} (h : Holds fs l) : ∀ {x : LCtx} {a : σ}, x.chk = none ∧ x.buf = [] →
    walk cb x a l = some (visit cb a fs) := by
  induction h with
  | @last ds hd =>
    intro x a hx
    obtain ⟨x1, w1, w2⟩ := walk_dead (cb := cb) (a := a) (l := []) (ds := ds) (x := x) hd.old.1
      (by rw [hx.2]; have := hd.old.2.1; simp; omega)
    rw [List.append_nil] at w1
    rw [w1]
    rfl
  | @mark ds m junk hd m0 m3 =>
    intro x a hx
    obtain ⟨x1, w1, w2⟩ := walk_dead (cb := cb) (a := a) (l := m :: junk) (ds := ds) (x := x) hd.old.1
      (by rw [hx.2]; have := hd.old.2.1; simp; omega)
    rw [w1]
    have m1 := notLong m0
    have m2 : isVol m = false := by rw [isVol_eq]; exact m0
    unfold walk
    rw [if_neg (by simp [m1]), if_neg (by simp [m2]), if_neg (by rw [m3]; decide), if_pos m3]
    rfl
  | @file f fs ds l hf hd _ ih =>
    intro x a hx
    obtain ⟨v, hv⟩ := walk_file (cb := cb) hf (a := a) (l := l) hd hx
    rw [hv]
    unfold visit
    split
    · rfl
    · exact ih ⟨rfl, rfl⟩

end

/-! ### Theorems: looking up names -/

/-- Does a file answer to a name? Long names must be the same; only the case of short names does not matter. -/
def File.answers (f : File) (name : List UInt8) : Bool :=
  match f.shown with
  | some n => n == name
  | none => (shortOf f.slot).map low == name.map low

theorem fetch_ok {r : List UInt8} (hr : r = [] ∨ ∃ r', r = 47 :: r') : ∀ {c : List UInt8}, 47 ∉ c → fetch (c ++ r) = (c, r)
  | [], _ => by
    rcases hr with rfl | ⟨r', rfl⟩
    · rfl
    · rfl
  | b :: c, h => by
    rw [List.cons_append]
    unfold fetch
    have hb : b ≠ 47 := fun e => h (by simp [e])
    rw [if_neg hb, fetch_ok hr (fun hm => h (by simp [hm]))]

theorem nameMatch_eq {f : File} (hf : f.Ok) (n : List UInt8) : nameMatch f.slot f.shown n = f.answers n := by
  unfold nameMatch File.answers
  cases hs : f.shown with
  | some m => rfl
  | none =>
    dsimp only
    unfold sameNoCase
    rw [shortName_eq (hf.short hs), funext lower_eq]

theorem searchCb_miss {single : Bool} {f : File} (hf : f.Ok) {x : SCtx} {n : List UInt8} (hn : x.fetched.pc = some n) (h : f.answers n = false) :
    searchCb single f.slot f.shown x = (x.fetched, false) := by
  have hm : nameMatch f.slot f.shown n = false := (nameMatch_eq hf n).trans h
  unfold searchCb
  rw [hn]
  exact if_neg (by rw [Option.getD_some, hm]; decide)

theorem searchCb_hit {single : Bool} {f : File} (hf : f.Ok) {x : SCtx} {n : List UInt8} (hn : x.fetched.pc = some n) (h : f.answers n = true) :
    searchCb single f.slot f.shown x = hit single f.slot x.fetched := by
  have hm : nameMatch f.slot f.shown n = true := (nameMatch_eq hf n).trans h
  unfold searchCb
  rw [hn]
  exact if_pos (by rw [Option.getD_some, hm])

theorem hit_stops (single : Bool) (s : Slot) (x : SCtx) : (hit single s x).2 = true := by
  unfold hit
  repeat' split
  all_goals rfl

theorem fetched_fetched (x : SCtx) {n : List UInt8} (hn : x.fetched.pc = some n) : x.fetched.fetched = x.fetched := by
  generalize x.fetched = y at hn ⊢
  unfold SCtx.fetched
  rw [hn]

/-- The search goes on until the first file that answers to the name. -/
theorem visit_search {single : Bool} {n : List UInt8} : ∀ {fs : List File} {x : SCtx}, (∀ f ∈ fs, f.Ok) → x.fetched.pc = some n →
    visit (searchCb single) x fs = match fs.find? (·.answers n) with
      | none => if fs = [] then x else x.fetched
      | some f => visit (searchCb single) x [f]
  | [], x, _, _ => rfl
  | f :: fs, x, hok, hn => by
    by_cases h : f.answers n = true
    · have e : List.find? (fun g : File => g.answers n) (f :: fs) = some f := List.find?_cons_of_pos (p := fun g : File => g.answers n) h
      rw [e]
      dsimp only
      have hstop : (searchCb single f.slot f.shown x).2 = true := by
        rw [searchCb_hit (hok f (by simp)) hn h]; exact hit_stops ..
      unfold visit
      rw [if_pos hstop, if_pos hstop]
    · have h' : f.answers n = false := by simpa using h
      have e : List.find? (fun g : File => g.answers n) (f :: fs) = List.find? (fun g : File => g.answers n) fs :=
        List.find?_cons_of_neg (p := fun g : File => g.answers n) h
      rw [e]
      conv => lhs; unfold visit
      rw [searchCb_miss (hok f (by simp)) hn h']
      dsimp only
      rw [if_neg (by simp)]
      have hn2 : x.fetched.fetched.pc = some n := by rw [fetched_fetched x hn]; exact hn
      rw [visit_search (x := x.fetched) (fun g hg => hok g (by simp [hg])) hn2]
      cases hf : fs.find? (·.answers n) with
      | none =>
        dsimp only
        have hne : ¬ (f :: fs = []) := by simp
        rw [if_neg hne, fetched_fetched x hn, ite_self]
      | some g =>
        dsimp only
        have hg : g.answers n = true := List.find?_some (p := fun g : File => g.answers n) hf
        have hgo := hok g (by simp [List.mem_of_find?_eq_some hf])
        unfold visit
        rw [searchCb_hit hgo hn hg, searchCb_hit hgo hn2 hg, fetched_fetched x hn]

theorem Holds.ok {fs : List File} {dir : List Slot} (h : Holds fs dir) : ∀ f ∈ fs, f.Ok := by
  induction h with
  | last => intro f hf; cases hf
  | mark => intro f hf; cases hf
  | file hf _ _ ih =>
    intro g hg
    rcases List.mem_cons.mp hg with rfl | hg
    · exact hf
    · exact ih g hg

/-- **C72, look-up in the kernel.** Looking up a name in a directory, the rest of the path behind it, gives the first file
that answers to it: the one that has the name, if names are unique. Partial: what is left of removed files must not have the checksum of the file
that follows, see `removed_name_violated`; `ÿ` must not occur, see `y_umlaut_violated`. -/
theorem lookup_partial {fs : List File} {dir : List Slot} (h : Holds fs dir) {name rest : List UInt8} (hn : 47 ∉ name)
    (hr : rest = [] ∨ ∃ r, rest = 47 :: r) : lookup (name ++ rest) dir = some ((fs.find? (·.answers name)).map (·.slot)) := by
  have hf : ({ path := name ++ rest } : SCtx).fetched = { path := rest, pc := some name } := by
    unfold SCtx.fetched
    dsimp only
    rw [fetch_ok hr hn]
  unfold lookup
  rw [walk_visits h ⟨rfl, rfl⟩]
  dsimp only
  rw [visit_search (n := name) h.ok (by rw [hf])]
  cases hff : fs.find? (·.answers name) with
  | none =>
    dsimp only
    rw [hf]
    split <;> rfl
  | some f =>
    have ha : f.answers name = true := by simpa using List.find?_some hff
    dsimp only
    unfold visit
    rw [searchCb_hit (h.ok f (List.mem_of_find?_eq_some hff)) (n := name) (by rw [hf]) ha, hf]
    rfl

/-- A path, without its leading slash. -/
def pathOf (slash : Bool) : List (List UInt8) → List UInt8
  | [] => []
  | [c] => c ++ (if slash then [47] else [])
  | c :: d :: cs => c ++ 47 :: pathOf slash (d :: cs)

/-- Path resolution, as POSIX has it: `files c` are the files in the directory at cluster `c`. -/
def resolve (files : Nat → List File) (slash : Bool) : Nat → List (List UInt8) → SRes
  | _, [] => .enoent
  | c, [n] =>
    match (files c).find? (·.answers n) with
    | none => .enoent
    | some f => if slash ∧ attr f.slot 4 = false then .enotdir else .found f.slot
  | c, n :: m :: ns =>
    match (files c).find? (·.answers n) with
    | none => .enoent
    | some f => if attr f.slot 4 = false then .enotdir else resolve files slash (clusterOf f.slot) (m :: ns)

def dotdot : List UInt8 := [46, 46]

/-- The directories at the clusters in `D` are all there, with their subdirectories; only `..` leads elsewhere. -/
def Dirs (files : Nat → List File) (dirs : Nat → List Slot) (D : Nat → Prop) : Prop :=
  ∀ c, D c → Holds (files c) (dirs c) ∧
    ∀ f ∈ files c, attr f.slot 4 = true → f.answers dotdot = false → clusterOf f.slot ≠ 0 ∧ D (clusterOf f.slot)

/-- What the search in one directory leads to. -/
theorem search_step {files : Nat → List File} {slash : Bool} {c : Nat} {n : List UInt8} {ns : List (List UInt8)} {x : SCtx}
    (hpath : x.path = pathOf slash (n :: ns)) (hpc : x.pc = none) (hres : x.result = none) (hsub : x.subdir = 0) (hnd : x.notDir = false)
    (h47 : 47 ∉ n) (hne : ∀ m ∈ ns, m ≠ []) (hok : ∀ f ∈ files c, f.Ok) :
    (∃ r, (visit (searchCb false) x (files c)).subdir = 0 ∧
      (if (visit (searchCb false) x (files c)).notDir then SRes.enotdir else
        match (visit (searchCb false) x (files c)).result with | none => SRes.enoent | some s => SRes.found s) = r ∧
      (r = resolve files slash c (n :: ns) ∨ r = .enoent ∧ resolve files slash c (n :: ns) = .enotdir)) ∨
    (∃ f m ms, ns = m :: ms ∧ (files c).find? (·.answers n) = some f ∧ isDir f.slot = true ∧
      visit (searchCb false) x (files c) =
        { path := pathOf slash ns, pc := none, result := none, subdir := firstClu f.slot, notDir := false }) := by
  obtain ⟨r, hr, hr2⟩ : ∃ r, pathOf slash (n :: ns) = n ++ r ∧ (r = [] ∨ ∃ r', r = 47 :: r') := by
    cases ns with
    | nil =>
      refine ⟨_, rfl, ?_⟩
      cases slash
      · exact Or.inl rfl
      · exact Or.inr ⟨[], rfl⟩
    | cons m ms => exact ⟨_, rfl, Or.inr ⟨_, rfl⟩⟩
  have hx : x = { path := n ++ r } := by
    cases x; simp_all
  have hfetch := fetch_ok hr2 h47
  have hf : x.fetched = { path := r, pc := some n } := by
    rw [hx]
    unfold SCtx.fetched
    dsimp only
    rw [hfetch]
  have hv := visit_search (single := false) (n := n) (fs := files c) (x := x) hok (by rw [hf])
  cases hff : (files c).find? (·.answers n) with
  | none =>
    rw [hff] at hv
    dsimp only at hv
    rw [hf, hx] at hv
    refine Or.inl ⟨.enoent, ?_, ?_, Or.inl ?_⟩
    · rw [hx, hv]; split <;> rfl
    · rw [hx, hv]; split <;> rfl
    · cases ns <;> (unfold resolve; rw [hff])
  | some f =>
    have ha : f.answers n = true := by simpa using List.find?_some hff
    rw [hff] at hv
    dsimp only at hv
    have hcb : searchCb false f.slot f.shown x =
        if r = [] then ({ path := r, pc := some n, result := some f.slot }, true) else
        if r.drop 1 = [] then
          if isDir f.slot then ({ path := r.drop 1, pc := some n, result := some f.slot }, true)
          else ({ path := r.drop 1, pc := some n, notDir := true }, true)
        else if isDir f.slot then ({ path := r.drop 1, pc := none, subdir := firstClu f.slot }, true)
        else ({ path := r.drop 1, pc := some n }, true) := by
      rw [searchCb_hit (hok f (List.mem_of_find?_eq_some hff)) (n := n) (by rw [hf]) ha, hf]
      unfold hit
      dsimp only
      by_cases hrr : r = []
      · rw [if_pos (Or.inr hrr), if_pos hrr]
      · rw [if_neg (by simp [hrr]), if_neg hrr]
    have hvis : visit (searchCb false) x [f] = (searchCb false f.slot f.shown x).1 := by
      unfold visit
      unfold visit
      split <;> rfl
    rw [hvis, hcb] at hv
    rw [hv]
    cases ns with
    | nil =>
      have hrv : r = if slash then [47] else [] := by
        have : n ++ (if slash then [47] else []) = n ++ r := hr
        exact (List.append_cancel_left this).symm
      refine Or.inl ?_
      unfold resolve
      rw [hff, hrv]
      cases slash
      · exact ⟨_, rfl, rfl, Or.inl rfl⟩
      · by_cases hd : isDir f.slot = true
        · have hd2 : attr f.slot 4 = true := by rw [← isDir_eq]; exact hd
          simp [hd, hd2]
        · have hd2 : attr f.slot 4 = false := by rw [← isDir_eq]; simpa using hd
          simp [hd, hd2]
    | cons m ms =>
      have hrv : r = 47 :: pathOf slash (m :: ms) := by
        have : n ++ (47 :: pathOf slash (m :: ms)) = n ++ r := hr
        exact (List.append_cancel_left this).symm
      have hpne : pathOf slash (m :: ms) ≠ [] := by
        have hm0 := hne m (by simp)
        cases ms with
        | nil => unfold pathOf; simp [hm0]
        | cons m' ms => unfold pathOf; simp
      rw [hrv, if_neg (by simp), List.drop_one, List.tail_cons, if_neg hpne]
      by_cases hd : isDir f.slot = true
      · rw [if_pos hd]
        exact Or.inr ⟨f, m, ms, rfl, rfl, hd, rfl⟩
      · rw [if_neg hd]
        refine Or.inl ⟨.enoent, rfl, rfl, Or.inr ⟨rfl, ?_⟩⟩
        unfold resolve
        rw [hff]
        dsimp only
        rw [if_pos (by rw [← isDir_eq]; simpa using hd)]

/-- **C72, look-up of paths in the boot loaders.** The search for a path finds what POSIX path resolution finds. Partial:
as for `lookup_partial`; a file in the middle of a path gives -ENOENT instead of -ENOTDIR (`enotdir_violated`), and `..` must
not occur (`dotdot_violated`). -/
theorem search_partial {files : Nat → List File} {dirs : Nat → List Slot} {D : Nat → Prop} (hD : Dirs files dirs D) (h0 : D 0)
    {slash : Bool} {n : List UInt8} {ns : List (List UInt8)} (hc : ∀ m ∈ n :: ns, m ≠ [] ∧ 47 ∉ m)
    (hdd : ∀ m ∈ n :: ns, ∀ c, D c → ∀ f ∈ files c, f.answers m = true → f.answers dotdot = false) :
    ∃ r, search dirs (pathOf slash (n :: ns)) = some r ∧
      (r = resolve files slash 0 (n :: ns) ∨ r = .enoent ∧ resolve files slash 0 (n :: ns) = .enotdir) := by
  have loop : ∀ (ns : List (List UInt8)) (n : List UInt8) (fuel c : Nat) (x : SCtx), D c → ns.length ≤ fuel →
      (∀ m ∈ n :: ns, m ≠ [] ∧ 47 ∉ m) →
      (∀ m ∈ n :: ns, ∀ c, D c → ∀ f ∈ files c, f.answers m = true → f.answers dotdot = false) →
      x.path = pathOf slash (n :: ns) → x.pc = none → x.result = none → x.subdir = 0 → x.notDir = false →
      ∃ y r, searchLoop dirs fuel (visit (searchCb false) x (files c)) = some y ∧
        (if y.notDir then SRes.enotdir else match y.result with | none => SRes.enoent | some s => SRes.found s) = r ∧
        (r = resolve files slash c (n :: ns) ∨ r = .enoent ∧ resolve files slash c (n :: ns) = .enotdir) := by
    intro ns
    induction ns with
    | nil =>
      intro n fuel c x hDc _ hc _ h1 h2 h3 h4 h5
      rcases search_step (files := files) (c := c) h1 h2 h3 h4 h5 (hc n (by simp)).2 (by simp) (hD c hDc).1.ok with ⟨r, e1, e2, e3⟩ | ⟨f, m, ms, e, _⟩
      · refine ⟨_, r, ?_, e2, e3⟩
        cases fuel with
        | zero => rfl
        | succ fuel => unfold searchLoop; rw [if_pos e1]
      · cases e
    | cons m ms ih =>
      intro n fuel c x hDc hfuel hc hdd h1 h2 h3 h4 h5
      rcases search_step (files := files) (c := c) h1 h2 h3 h4 h5 (hc n (by simp)).2 (fun k hk => (hc k (by simp [hk])).1) (hD c hDc).1.ok with
        ⟨r, e1, e2, e3⟩ | ⟨f, m', ms', e, e1, e2, e3⟩
      · refine ⟨_, r, ?_, e2, e3⟩
        cases fuel with
        | zero => rfl
        | succ fuel => unfold searchLoop; rw [if_pos e1]
      · cases e
        rw [isDir_eq] at e2
        rw [firstClu_eq] at e3
        have hfm := List.mem_of_find?_eq_some e1
        have hfa : f.answers n = true := by simpa using List.find?_some e1
        obtain ⟨hf0, hDf⟩ := (hD c hDc).2 f hfm e2 (hdd n (by simp) c hDc f hfm hfa)
        obtain ⟨fuel, rfl⟩ : ∃ k, fuel = k + 1 := ⟨fuel - 1, by simp at hfuel; omega⟩
        rw [e3]
        unfold searchLoop
        dsimp only
        rw [if_neg hf0, walk_visits (hD _ hDf).1 ⟨rfl, rfl⟩]
        dsimp only
        obtain ⟨y, r, k1, k2, k3⟩ := ih m fuel (clusterOf f.slot)
          { path := pathOf slash (m :: ms), pc := none, result := none, subdir := 0, notDir := false } hDf
          (by simp at hfuel; omega) (fun k hk => hc k (by simp [List.mem_cons.mp hk])) (fun k hk => hdd k (by simp [List.mem_cons.mp hk]))
          rfl rfl rfl rfl rfl
        refine ⟨y, r, k1, k2, ?_⟩
        have hres : resolve files slash c (n :: m :: ms) = resolve files slash (clusterOf f.slot) (m :: ms) := by
          conv => lhs; unfold resolve
          rw [e1]
          dsimp only
          rw [if_neg (by simp [e2])]
        rw [hres]
        exact k3
  have hlen : ∀ (ns : List (List UInt8)) (n : List UInt8), ns.length ≤ (pathOf slash (n :: ns)).length := by
    intro ns
    induction ns with
    | nil => intro n; simp
    | cons m ms ih =>
      intro n
      have := ih m
      unfold pathOf
      simp only [List.length_cons, List.length_append]
      omega
  obtain ⟨y, r, k1, k2, k3⟩ := loop ns n (pathOf slash (n :: ns)).length 0 { path := pathOf slash (n :: ns) } h0 (hlen ns n) hc hdd
    rfl rfl rfl rfl rfl
  refine ⟨r, ?_, k3⟩
  unfold search
  rw [walk_visits (hD 0 h0).1 ⟨rfl, rfl⟩]
  dsimp only
  rw [k1]
  dsimp only
  rw [k2]

/-! ### Theorems: listing a directory -/

/-- What the user gets for a file: its type, its name and the terminator. -/
def File.dent (f : File) : Dent := ⟨f.slot, attr f.slot 4, f.name ++ [0]⟩

/-- The size of an entry in the user's buffer. -/
def File.size (hs : Nat) (f : File) : Nat := hs + (f.name.length + 1)

/-- The first files that fit in the buffer, `used` bytes of which are in use. -/
def fit (hs cap : Nat) : Nat → List File → List File
  | _, [] => []
  | used, f :: fs => if used + f.size hs > cap then [] else f :: fit hs cap (used + f.size hs) fs

theorem visit_take {hs cap : Nat} : ∀ {fs : List File} {used k : Nat} {out : List Dent}, (∀ f ∈ fs, f.name.length ≤ 254) → (∀ f ∈ fs, f.Ok) →
    ∃ u, visit (dentsCb hs cap) ⟨used, k, k, out⟩ fs =
      ⟨u, k + (fit hs cap used fs).length, k + (fit hs cap used fs).length, out ++ (fit hs cap used fs).map File.dent⟩
  | [], used, k, out, _, _ => ⟨used, by simp [visit, fit]⟩
  | f :: fs, used, k, out, h, hok => by
    have hname : entName f.slot f.shown = f.name := (hok f (by simp)).entName
    have hf := h f (by simp)
    have hlen : nameLen (entName f.slot f.shown) = f.name.length + 1 := by
      unfold nameLen
      rw [hname]
      show (f.name.length % 256 + 1) % 256 = _
      omega
    unfold visit fit
    by_cases hc : used + f.size hs > cap
    · have e : dentsCb hs cap f.slot f.shown ⟨used, k, k, out⟩ = (⟨used, k, k, out⟩, true) := by
        unfold dentsCb
        dsimp only
        have hc' : used + (hs + (f.name.length + 1)) > cap := hc
        rw [if_neg (by omega), hlen, if_pos hc']
      rw [e, if_pos hc, if_pos rfl]
      exact ⟨used, by simp⟩
    · have e : dentsCb hs cap f.slot f.shown ⟨used, k, k, out⟩ = (⟨used + f.size hs, k + 1, k + 1, out ++ [f.dent]⟩, false) := by
        unfold dentsCb
        dsimp only
        have hc' : ¬ used + (hs + (f.name.length + 1)) > cap := hc
        rw [if_neg (by omega), hlen, if_neg hc', hname]
        have : (f.name ++ [0]).take (f.name.length + 1) = f.name ++ [0] := List.take_of_length_le (by simp)
        rw [this, isDir_eq]
        rfl
      rw [e, if_neg hc, if_neg (by simp)]
      obtain ⟨u, hu⟩ := visit_take (hs := hs) (cap := cap) (fs := fs) (used := used + f.size hs) (k := k + 1) (out := out ++ [f.dent])
        (fun g hg => h g (by simp [hg])) (fun g hg => hok g (by simp [hg]))
      refine ⟨u, ?_⟩
      dsimp only
      rw [hu]
      simp only [List.length_cons, List.map_cons, List.append_assoc, List.singleton_append]
      congr 1 <;> omega

theorem visit_skip {hs cap pos : Nat} {fs2 : List File} : ∀ {fs : List File} {k : Nat}, k + fs.length ≤ pos →
    visit (dentsCb hs cap) ⟨0, k, pos, []⟩ (fs ++ fs2) = visit (dentsCb hs cap) ⟨0, k + fs.length, pos, []⟩ fs2
  | [], k, _ => rfl
  | f :: fs, k, h => by
    simp only [List.length_cons] at h
    have e : dentsCb hs cap f.slot f.shown ⟨0, k, pos, []⟩ = (⟨0, k + 1, pos, []⟩, false) := by
      unfold dentsCb
      dsimp only
      rw [if_pos (by omega)]
    rw [List.cons_append]
    conv => lhs; unfold visit
    rw [e, if_neg (by simp)]
    dsimp only
    rw [visit_skip (by omega)]
    simp only [List.length_cons]
    congr 2
    omega

/-- One call: it continues where the last one ended and returns as many files as fit. -/
theorem getdents_ok {fs : List File} {dir : List Slot} (h : Holds fs dir) (hlen : ∀ f ∈ fs, f.name.length ≤ 254) {hs cap pos : Nat}
    (hp : pos ≤ fs.length) :
    getdents hs cap pos dir = some ((fit hs cap 0 (fs.drop pos)).map File.dent, pos + (fit hs cap 0 (fs.drop pos)).length) := by
  unfold getdents
  rw [walk_visits h ⟨rfl, rfl⟩]
  dsimp only
  have hl : (fs.take pos).length = pos := by simp; omega
  have e := visit_skip (hs := hs) (cap := cap) (pos := pos) (fs := fs.take pos) (fs2 := fs.drop pos) (k := 0) (by omega)
  rw [List.take_append_drop, hl, Nat.zero_add] at e
  obtain ⟨u, hu⟩ := visit_take (hs := hs) (cap := cap) (fs := fs.drop pos) (used := 0) (k := pos) (out := [])
    (fun f hf => hlen f (List.mem_of_mem_drop hf)) (fun f hf => h.ok f (List.mem_of_mem_drop hf))
  rw [e, hu]
  simp

/-- Calls of `getdents` on a directory just opened, with buffers of these sizes: what each returns. -/
def calls (hs : Nat) (dir : List Slot) : Nat → List Nat → Option (List (List Dent))
  | _, [] => some []
  | pos, cap :: caps =>
    match getdents hs cap pos dir with
    | none => none
    | some (out, pos') =>
      match calls hs dir pos' caps with
      | none => none
      | some outs => some (out :: outs)

theorem fit_prefix {hs cap : Nat} : ∀ {fs : List File} {used : Nat}, fit hs cap used fs = fs.take (fit hs cap used fs).length
  | [], used => by simp [fit]
  | f :: fs, used => by
    unfold fit
    split
    · simp
    · simp only [List.length_cons, List.take_succ_cons]
      rw [← fit_prefix]

/-- **C72, listing.** However a directory is read, the calls together return its files in order, each one once, with the
name it has. If every buffer has room for at least one entry and a call returns nothing, then all files have been
returned. Partial: as for `lookup_partial`, and names have at most 254 characters, see `name255_violated`. -/
theorem listing_partial {fs : List File} {dir : List Slot} (h : Holds fs dir) (hlen : ∀ f ∈ fs, f.name.length ≤ 254) (hs : Nat)
    (caps : List Nat) :
    ∃ outs n, calls hs dir 0 caps = some outs ∧ outs.flatten = (fs.take n).map File.dent ∧ n ≤ fs.length ∧
      ((∀ cap ∈ caps, hs + 255 ≤ cap) → [] ∈ outs → n = fs.length) := by
  have key : ∀ (caps : List Nat) (pos : Nat), pos ≤ fs.length →
      ∃ outs n, calls hs dir pos caps = some outs ∧ outs.flatten = ((fs.drop pos).take n).map File.dent ∧ pos + n ≤ fs.length ∧
        ((∀ cap ∈ caps, hs + 255 ≤ cap) → [] ∈ outs → pos + n = fs.length) := by
    intro caps
    induction caps with
    | nil => intro pos hp; exact ⟨[], 0, rfl, by simp, by omega, fun _ hm => by cases hm⟩
    | cons cap caps ih =>
      intro pos hp
      have hg := getdents_ok h hlen (hs := hs) (cap := cap) hp
      have hpre := fit_prefix (hs := hs) (cap := cap) (fs := fs.drop pos) (used := 0)
      generalize hk : fit hs cap 0 (fs.drop pos) = out at *
      have hle : pos + out.length ≤ fs.length := by
        have := congrArg List.length hpre
        simp only [List.length_take, List.length_drop] at this
        omega
      obtain ⟨outs, n, c1, c2, c3, c4⟩ := ih (pos + out.length) hle
      refine ⟨out.map File.dent :: outs, out.length + n, ?_, ?_, by omega, ?_⟩
      · unfold calls
        rw [hg]
        dsimp only
        rw [c1]
      · have e1 : (fs.drop pos).take (out.length + n) = out ++ (fs.drop (pos + out.length)).take n := by
          rw [List.take_add, ← hpre, List.drop_drop]
        rw [List.flatten_cons, c2, e1, List.map_append]
      · intro hcaps hm
        rcases List.mem_cons.mp hm with hm | hm
        · have hout : out = [] := by simpa using hm.symm
          have hd : fs.drop pos = [] := by
            cases hfs : fs.drop pos with
            | nil => rfl
            | cons f r =>
              have hf : f ∈ fs := List.mem_of_mem_drop (i := pos) (by rw [hfs]; simp)
              have := hlen f hf
              have hcap := hcaps cap (by simp)
              rw [hfs] at hk
              unfold fit at hk
              rw [if_neg (by unfold File.size; omega), hout] at hk
              cases hk
          have hpos : fs.length ≤ pos := List.drop_eq_nil_iff.mp hd
          omega
        · have := c4 (fun k hk => hcaps k (by simp [hk])) hm
          omega
  obtain ⟨outs, n, c1, c2, c3, c4⟩ := key caps 0 (by omega)
  exact ⟨outs, n, c1, by simpa using c2, by omega, fun a b => by have := c4 a b; omega⟩

/-! ### A concrete directory, and violations -/

/-- A slot with this short name, attribute, NT byte and first cluster. -/
def mkShort (name : List UInt8) (attr nt : UInt8) (clu : UInt8) : Slot :=
  name ++ [attr, nt] ++ List.replicate 13 0 ++ [clu] ++ List.replicate 5 0

/-- The slots of a file that has been removed. -/
def removed (f : File) : List Slot := f.slots.map (fun s => s.set 0 0xE5)

/-- A label. -/
def exLabel : Slot := mkShort [77, 89, 68, 73, 83, 75, 32, 32, 32, 32, 32] 0x08 0 0

/-- `a-long-name.text`, in two slots. -/
def exLong : File := ⟨some [97, 45, 108, 111, 110, 103, 45, 110, 97, 109, 101, 46, 116, 101, 120, 116], mkShort [65, 45, 76, 79, 78, 71, 126, 49, 84, 69, 88] 0x20 0 7⟩

/-- `readme.txt`, a short name in lower case. -/
def exShort : File := ⟨none, mkShort [82, 69, 65, 68, 77, 69, 32, 32, 84, 88, 84] 0x20 0x18 8⟩

/-- `old-long-name.text`, removed. -/
def exOld : File := ⟨some [111, 108, 100, 45, 108, 111, 110, 103, 45, 110, 97, 109, 101, 46, 116, 101, 120, 116], mkShort [79, 76, 68, 45, 76, 79, 126, 49, 84, 69, 88] 0x20 0 9⟩

/-- The directory `dir` at cluster 5. -/
def exDir : File := ⟨some [100, 105, 114], mkShort [68, 73, 82, 32, 32, 32, 32, 32, 32, 32, 32] 0x10 0 5⟩

def exFiles : List File := [exLong, exShort, exDir]

def exSlots : List Slot :=
  [exLabel] ++ exLong.slots ++ (removed exOld ++ exShort.slots ++ ([] ++ exDir.slots ++ ([] ++ (List.replicate 32 0) :: [[1, 2, 3]])))

theorem exOk : exLong.Ok ∧ exShort.Ok ∧ exDir.Ok :=
  ⟨⟨by decide, fun n h => by cases h; decide, by decide +kernel⟩, ⟨by decide, fun n h => (by cases h), by decide +kernel⟩, ⟨by decide, fun n h => by cases h; decide, by decide +kernel⟩⟩

theorem exHolds : Holds exFiles exSlots := by
  unfold exSlots exFiles
  refine .file exOk.1 (by unfold Dead; decide +kernel) ?_
  refine .file exOk.2.1 (by unfold Dead; decide +kernel) ?_
  refine .file exOk.2.2 (by unfold Dead; decide +kernel) ?_
  exact .mark (by unfold Dead; decide +kernel) (by decide) (by decide)

/-- The names shown. -/
example : exFiles.map File.name = [[97, 45, 108, 111, 110, 103, 45, 110, 97, 109, 101, 46, 116, 101, 120, 116], [114, 101, 97, 100, 109, 101, 46, 116, 120, 116], [100, 105, 114]] := by decide +kernel

/-- `README.TXT` finds the file with the short name. -/
example : lookup ([82, 69, 65, 68, 77, 69, 46, 84, 88, 84] ++ [47, 120]) exSlots = some (some exShort.slot) := by
  rw [lookup_partial exHolds (by decide) (Or.inr ⟨_, rfl⟩)]; decide +kernel

example : lookup ([65, 45, 76, 79, 78, 71, 45, 78, 65, 77, 69, 46, 84, 69, 88, 84] ++ [47, 120]) exSlots = some none := by
  rw [lookup_partial exHolds (by decide) (Or.inr ⟨_, rfl⟩)]; decide +kernel

/-- Three calls with small buffers. -/
example : (calls 20 exSlots 0 [40, 40, 100]) =
    some [[exLong.dent], [exShort.dent], [exDir.dent]] := by decide +kernel

example : ∃ outs n, calls 20 exSlots 0 [275, 275, 275, 275] = some outs ∧ outs.flatten = (exFiles.take n).map File.dent ∧
    n ≤ 3 ∧ ((∀ cap ∈ [275, 275, 275, 275], 20 + 255 ≤ cap) → [] ∈ outs → n = 3) :=
  listing_partial exHolds (by decide +kernel) 20 _

/-- The directory at cluster 5: `.`, `..` and `file`. -/
def exSub : List File :=
  [⟨none, mkShort [46, 32, 32, 32, 32, 32, 32, 32, 32, 32, 32] 0x10 0 5⟩, ⟨none, mkShort [46, 46, 32, 32, 32, 32, 32, 32, 32, 32, 32] 0x10 0 0⟩, ⟨none, mkShort [70, 73, 76, 69, 32, 32, 32, 32, 32, 32, 32] 0x20 0 6⟩]

def exSubSlots : List Slot := [] ++ [mkShort [46, 32, 32, 32, 32, 32, 32, 32, 32, 32, 32] 0x10 0 5] ++ ([] ++ [mkShort [46, 46, 32, 32, 32, 32, 32, 32, 32, 32, 32] 0x10 0 0] ++ ([] ++ [mkShort [70, 73, 76, 69, 32, 32, 32, 32, 32, 32, 32] 0x20 0 6] ++ []))

def exTree (c : Nat) : List File := if c = 0 then exFiles else exSub
def exDisk (c : Nat) : List Slot := if c = 0 then exSlots else exSubSlots

theorem exDirs : Dirs exTree exDisk (fun c => c = 0 ∨ c = 5) := by
  intro c hc
  rcases hc with rfl | rfl
  · exact ⟨exHolds, by decide +kernel⟩
  · refine ⟨?_, by decide +kernel⟩
    refine .file ⟨by decide, fun n h => (by cases h), by decide +kernel⟩ (by unfold Dead; decide +kernel) ?_
    refine .file ⟨by decide, fun n h => (by cases h), by decide +kernel⟩ (by unfold Dead; decide +kernel) ?_
    refine .file ⟨by decide, fun n h => (by cases h), by decide +kernel⟩ (by unfold Dead; decide +kernel) ?_
    exact .last (by unfold Dead; decide +kernel)

/-- `/dir/./file` is found. -/
example : ∃ r, search exDisk (pathOf false [[100, 105, 114], [46], [102, 105, 108, 101]]) = some r ∧
    (r = resolve exTree false 0 [[100, 105, 114], [46], [102, 105, 108, 101]] ∨ r = .enoent ∧ resolve exTree false 0 [[100, 105, 114], [46], [102, 105, 108, 101]] = .enotdir) :=
  search_partial exDirs (Or.inl rfl) (by decide) (by
    intro m hm c hc
    rcases hc with rfl | rfl
    · revert m; decide +kernel
    · revert m; decide +kernel)

example : resolve exTree false 0 [[100, 105, 114], [46], [102, 105, 108, 101]] = .found (mkShort [70, 73, 76, 69, 32, 32, 32, 32, 32, 32, 32] 0x20 0 6) := by decide +kernel

/-- **C72, violated.** A file with a long name has been removed, and later one has been created whose short name is that
of the removed file, and which has no long name. The new file is shown under the long name of the removed one, and
cannot be found under its own. -/
theorem removed_name_violated : ∃ (old new : File), old.Ok ∧ new.Ok ∧ new.long = none ∧
    lookup (shortOf new.slot) (removed old ++ new.slots) = some none ∧
    ∃ n, old.shown = some n ∧ lookup n (removed old ++ new.slots) = some (some new.slot) :=
  ⟨exOld, ⟨none, exOld.slot⟩, ⟨by decide, fun n h => by cases h; decide, by decide +kernel⟩, ⟨by decide, fun n h => (by cases h), by decide +kernel⟩, rfl, by decide +kernel,
    _, rfl, by decide +kernel⟩

/-- **C72, violated.** `aÿb` and `aÿc` are both shown as `a`, so one of them cannot be found. -/
theorem y_umlaut_violated : ∃ (f g : File), f.long = some [97, 255, 98] ∧ g.long = some [97, 255, 99] ∧
    lookup [97] (f.slots ++ g.slots) = some (some f.slot) ∧
    calls 20 (f.slots ++ g.slots) 0 [100] = some [[⟨f.slot, false, [97, 0]⟩, ⟨g.slot, false, [97, 0]⟩]] :=
  ⟨⟨some [97, 255, 98], mkShort [65, 126, 49, 32, 32, 32, 32, 32, 32, 32, 32] 0x20 0 7⟩, ⟨some [97, 255, 99], mkShort [65, 126, 50, 32, 32, 32, 32, 32, 32, 32, 32] 0x20 0 8⟩, rfl, rfl, by decide +kernel, by decide +kernel⟩

/-- **C72, violated.** A file with a blank in its long name is not found under it; it is shown under its short name. -/
theorem blank_violated : ∃ f : File, f.Ok ∧ f.long = some [109, 121, 32, 102] ∧
    lookup [109, 121, 32, 102] f.slots = some none ∧ lookup (shortOf f.slot) f.slots = some (some f.slot) :=
  ⟨⟨some [109, 121, 32, 102], mkShort [77, 89, 70, 126, 49, 32, 32, 32, 32, 32, 32] 0x20 0 7⟩, ⟨by decide, fun n h => by cases h; decide, by decide +kernel⟩, rfl, by decide +kernel, by decide +kernel⟩

/-- **C72, violated.** Short names are cut at a blank inside: `A B.TXT` is shown as `A.TXT`. -/
theorem short_blank_violated : ∃ f : File, f.long = none ∧ shortOf f.slot = [65, 32, 66, 46, 84, 88, 84] ∧
    lookup [65, 46, 84, 88, 84] f.slots = some (some f.slot) ∧ lookup (shortOf f.slot) f.slots = some none :=
  ⟨⟨none, mkShort [65, 32, 66, 32, 32, 32, 32, 32, 84, 88, 84] 0x20 0 7⟩, rfl, by decide +kernel, by decide +kernel, by decide +kernel⟩

/-- **Memory safety, violated.** Twenty slots of long names with the same checksum, left by removed files, make the kernel
write behind the end of its buffer when the directory is read. -/
theorem lname_overflow_violated : ∃ dir : List Slot, dir.length = 20 ∧ (∀ s ∈ dir, byte s 0 = 0xE5) ∧ lookup [97] dir = none :=
  ⟨List.replicate 20 (mkLong 0xE5 (List.replicate 13 97) 1), by decide, by decide, by decide +kernel⟩

/-- **C72, violated.** For a name of 255 characters, which FAT allows, the user gets no name at all. -/
theorem name255_violated : ∃ f : File, f.Ok ∧ f.name.length = 255 ∧ calls 20 f.slots 0 [1000] = some [[⟨f.slot, false, []⟩]] :=
  ⟨⟨some (List.replicate 255 97), mkShort [65, 65, 65, 65, 65, 65, 126, 49, 32, 32, 32] 0x20 0 7⟩, ⟨by decide, fun n h => by cases h; decide +kernel, by decide +kernel⟩, by decide +kernel, by decide +kernel⟩

/-- **C72, violated.** If the buffer is too small for the next entry the call should fail with EINVAL; it returns 0, which
means that there are no more files. -/
theorem small_buffer_violated : Holds exFiles exSlots ∧ getdents 20 30 0 exSlots = some ([], 0) :=
  ⟨exHolds, by decide +kernel⟩

/-- **C72, violated.** The root directory of a volume without a label, whose first entry is a file, cannot be listed:
`getdents` fails with ENOTDIR. -/
theorem no_label_violated : exShort.Ok ∧ Holds [exShort] exShort.slots ∧ rootListable exShort.slots = false := by
  refine ⟨exOk.2.1, ?_, by decide +kernel⟩
  have := Holds.file (ds := []) (l := []) exOk.2.1 (by unfold Dead; decide) (.last (by unfold Dead; decide))
  simpa using this

/-- **C72, violated.** On FAT16 only as many slots of the root directory are looked at as fit in one cluster, though it
may be larger: with clusters of 512 bytes, the file in slot 16 is not found. -/
theorem fixed_root_violated : ∃ fs : List File, (∀ f ∈ fs, f.Ok) ∧ exShort ∈ fs ∧
    lookup (shortOf exShort.slot) (fs.flatMap File.slots) = some (some exShort.slot) ∧
    lookup (shortOf exShort.slot) (fixedRoot 16 (fs.flatMap File.slots)) = some none :=
  ⟨List.replicate 16 exDir ++ [exShort], by
    intro f hf
    rcases List.mem_append.mp hf with hf | hf
    · rw [List.eq_of_mem_replicate hf]; exact exOk.2.2
    · simp at hf; rw [hf]; exact exOk.2.1, by simp, by decide +kernel, by decide +kernel⟩

/-- **C72, violated in the boot loaders.** `/dir/../readme.txt` is not found, although `..` of the directory is the root
directory (cluster 0), where the file is. -/
theorem dotdot_violated : search exDisk (pathOf false [[100, 105, 114], dotdot, [114, 101, 97, 100, 109, 101, 46, 116, 120, 116]]) = some .enoent ∧
    resolve exTree false 0 [[100, 105, 114], dotdot, [114, 101, 97, 100, 109, 101, 46, 116, 120, 116]] = .found exShort.slot := by
  constructor <;> decide +kernel

/-- **C72, violated in the boot loaders.** A file in the middle of a path should give ENOTDIR. -/
theorem enotdir_violated : search exDisk (pathOf false [[114, 101, 97, 100, 109, 101, 46, 116, 120, 116], [120]]) = some .enoent ∧
    resolve exTree false 0 [[114, 101, 97, 100, 109, 101, 46, 116, 120, 116], [120]] = .enotdir := by
  constructor <;> decide +kernel

end Verif.FatDir
