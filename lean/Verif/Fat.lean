import Mathlib.Data.Nat.Bitwise

/-!
# FAT volumes: the allocation table, file data, mapped files, alignment of the data area

Model of the parts of `common/fat32_base.c`, `include/tilck/common/fat32_base.h`,
`kernel/fs/fat32.c` and `kernel/fs/fat32_mm.c` that find and return the bytes of files.

A volume is an image, a function from byte offsets (from the header) to bytes, and the decoded fields
of its header. Simplifications: the header fields are a record beside the image (the code reads them
from the first sector, which nothing here writes except `BPB_RsvdSecCnt`, which `align` changes in the
record); `ASSERT`s are not modelled, as release builds do not have them; only little-endian machines.
All 32-bit unsigned arithmetic of the code is explicit (`% W`).
-/

namespace Verif.Fat

/-- 2^32: `u32` arithmetic is modulo `W`. -/
def W : Nat := 4294967296

/-- Bytes of the volume by offset from the header. -/
abbrev Img := Nat → UInt8

/-- `struct fat_hdr` and the FAT32 part of the header (fat32_base.h:16-60), the fields used. -/
structure Hdr where
  bps : Nat
  spc : Nat
  rsvd : Nat
  nfats : Nat
  rootEnt : Nat
  tot16 : Nat
  tot32 : Nat
  fsz16 : Nat
  fsz32 : Nat
  rootClus : Nat
deriving DecidableEq, Repr

/-- `enum fat_type` (fat32_base.h:8-14), the two supported kinds. -/
inductive Ft | fat16 | fat32
deriving DecidableEq, Repr

/-- The numeric value of the type is the size of an entry (fat32_base.h:8-14,
fat32_base.c:379-380). -/
def Ft.size : Ft → Nat
  | .fat16 => 2
  | .fat32 => 4

/-- `fat_get_FATSz` (fat32_base.h:167-174). -/
def fatSz (h : Hdr) : Nat := if h.fsz16 ≠ 0 then h.fsz16 else h.fsz32

/-- `fat_get_TotSec` (fat32_base.h:176-179). -/
def totSec (h : Hdr) : Nat := if h.tot16 ≠ 0 then h.tot16 else h.tot32

/-- `fat_get_root_dir_sectors` (fat32_base.h:181-185). -/
def rootSecs (h : Hdr) : Nat := (h.rootEnt * 32 + (h.bps - 1)) % W / h.bps

/-- `fat_get_cluster_size` (fat32_base.h:161-164). -/
def cluSize (h : Hdr) : Nat := h.bps * h.spc

/-- `fat_get_cluster_count` (fat32_base.c:344-353). -/
def cluCount (h : Hdr) : Nat :=
  (totSec h + 3 * W - (h.rsvd + h.nfats * fatSz h % W + rootSecs h) % W) % W / h.spc

/-- `fat_get_type` (fat32_base.c:355-374); `none` is FAT12. -/
def getType (h : Hdr) : Option Ft :=
  if cluCount h < 4085 then none
  else if cluCount h < 65525 then some .fat16
  else some .fat32

/-- `fat_get_entry_ptr` (fat32_base.c:376-395): the offset of the entry. -/
def entryAddr (h : Hdr) (ft : Ft) (fatN clu : Nat) : Nat :=
  ((fatN * fatSz h % W + h.rsvd + clu * ft.size % W / h.bps) % W * h.bps) % W + clu * ft.size % W % h.bps

/-- `*(u16 *)ptr`. -/
def rd16 (m : Img) (a : Nat) : Nat := (m a).toNat + 256 * (m (a + 1)).toNat

/-- `*(u32 *)ptr`. -/
def rd32 (m : Img) (a : Nat) : Nat :=
  (m a).toNat + 256 * (m (a + 1)).toNat + 65536 * (m (a + 2)).toNat + 16777216 * (m (a + 3)).toNat

/-- `*(u16 *)ptr = v`. -/
def wr16 (m : Img) (a v : Nat) : Img := fun x =>
  if x = a then UInt8.ofNat v else if x = a + 1 then UInt8.ofNat (v / 256) else m x

/-- `*(u32 *)ptr = v`. -/
def wr32 (m : Img) (a v : Nat) : Img := fun x =>
  if x = a then UInt8.ofNat v
  else if x = a + 1 then UInt8.ofNat (v / 256)
  else if x = a + 2 then UInt8.ofNat (v / 65536)
  else if x = a + 3 then UInt8.ofNat (v / 16777216) else m x

/-- `fat_read_fat_entry` (fat32_base.c:401-409). -/
def readEntry (h : Hdr) (ft : Ft) (m : Img) (fatN clu : Nat) : Nat :=
  match ft with
  | .fat16 => rd16 m (entryAddr h .fat16 fatN clu)
  | .fat32 => rd32 m (entryAddr h .fat32 fatN clu) &&& 0x0FFFFFFF

/-- `fat_write_fat_entry` (fat32_base.c:411-435). -/
def writeEntry (h : Hdr) (ft : Ft) (m : Img) (fatN clu v : Nat) : Img :=
  match ft with
  | .fat16 => wr16 m (entryAddr h .fat16 fatN clu) (v % 65536)
  | .fat32 =>
    wr32 m (entryAddr h .fat32 fatN clu)
      ((rd32 m (entryAddr h .fat32 fatN clu) &&& 0xF0000000) ||| v)

/-- `fat_is_end_of_clusterchain` (fat32_base.h:198-214). -/
def isEoc (ft : Ft) (v : Nat) : Bool :=
  match ft with
  | .fat16 => decide (v ≥ 0xFFF8)
  | .fat32 => decide (v ≥ 0x0FFFFFF0) && decide (v ≠ 0x0FFFFFF7)

/-- `fat_is_bad_cluster` (fat32_base.h:216-223). -/
def isBad (ft : Ft) (v : Nat) : Bool :=
  match ft with
  | .fat16 => decide (v = 0xFFF7)
  | .fat32 => decide (v = 0x0FFFFFF7)

/-- `fat_get_first_data_sector` (fat32_base.c:437-453). -/
def firstData (h : Hdr) : Nat := (h.rsvd + h.nfats * fatSz h % W + rootSecs h) % W

/-- `fat_get_sector_for_cluster` (fat32_base.c:455-461). -/
def sectorOf (h : Hdr) (n : Nat) : Nat := ((n + W - 2) % W * h.spc + firstData h) % W

/-- `fat_get_pointer_to_cluster_data` (fat32_base.h:225-230), as an offset from the header. -/
def dataAddr (h : Hdr) (c : Nat) : Nat := sectorOf h c * h.bps % W

/-! ### Reading files -/

/-- `struct fatfs_handle` (include/tilck/kernel/fs/fat32.h), the position and the cached cluster. -/
structure Hd where
  pos : Int
  clu : Nat
deriving DecidableEq, Repr

/-- `memcpy(buf, data + off, n)`. -/
def bytesAt (m : Img) (a n : Nat) : List UInt8 := (List.range n).map (fun i => m (a + i))

/-- `offt` is a signed 64-bit integer and overflow wraps (-fwrapv). -/
def s64 (x : Int) : Int := (x + 9223372036854775808) % 18446744073709551616 - 9223372036854775808

/-- MIN3 of the code. -/
def min3 (a b c : Int) : Int := min a (min b c)

theorem min3_le1 (a b c : Int) : min3 a b c ≤ a := by unfold min3; omega
theorem min3_le2 (a b c : Int) : min3 a b c ≤ b := by unfold min3; omega
theorem min3_le3 (a b c : Int) : min3 a b c ≤ c := by unfold min3; omega

/-- The loop of `fat_read` (kernel/fs/fat32.c:64-104): `acc` is what has been copied. -/
def readLoop (h : Hdr) (ft : Ft) (m : Img) (fsize : Nat) (bufsize : Nat) (acc : List UInt8) (s : Hd) :
    List UInt8 × Hd :=
  if hz : cluSize h = 0 then (acc, s) else
  let cluOff := s.pos % (cluSize h : Int)
  let cluRem := (cluSize h : Int) - cluOff
  let n := min3 cluRem ((bufsize : Int) - acc.length) ((fsize : Int) - s.pos)
  let acc' := acc ++ bytesAt m (dataAddr h s.clu + cluOff.toNat) n.toNat
  let s' := { s with pos := s.pos + n }
  if n < cluRem then (acc', s')
  else
    let v := readEntry h ft m 0 s.clu
    if isEoc ft v then (acc', s')
    else readLoop h ft m fsize bufsize acc' { s' with clu := v }
termination_by ((fsize : Int) - s.pos).toNat
decreasing_by
  have h1 : s.pos % (cluSize h : Int) < cluSize h := Int.emod_lt_of_pos _ (by omega)
  have h2 := min3_le3 ((cluSize h : Int) - s.pos % (cluSize h : Int)) ((bufsize : Int) - acc.length) ((fsize : Int) - s.pos)
  have h3 : ¬ min3 ((cluSize h : Int) - s.pos % (cluSize h : Int)) ((bufsize : Int) - acc.length) ((fsize : Int) - s.pos) <
    (cluSize h : Int) - s.pos % (cluSize h : Int) := by assumption
  omega

/-- `fat_read` (kernel/fs/fat32.c:35-107) of a regular file: the bytes read and the new handle. -/
def read (h : Hdr) (ft : Ft) (m : Img) (fsize : Nat) (bufsize : Nat) (s : Hd) : List UInt8 × Hd :=
  if s.pos ≥ fsize then ([], s) else readLoop h ft m fsize bufsize [] s

/-- `fat_rewind` (kernel/fs/fat32.c:110-117). -/
def rewind (first : Nat) : Hd := ⟨0, first⟩

/-- The loop of `fat_seek_forward` (kernel/fs/fat32.c:137-167). -/
def seekLoop (h : Hdr) (ft : Ft) (m : Img) (fsize : Nat) (dist moved : Int) (s : Hd) : Hd :=
  if hz : cluSize h = 0 then s else
  let cluOff := s.pos % (cluSize h : Int)
  let cluRem := (cluSize h : Int) - cluOff
  let n := min3 cluRem (dist - moved) ((fsize : Int) - s.pos)
  let s' := { s with pos := s.pos + n }
  if n < cluRem then s'
  else
    let v := readEntry h ft m 0 s.clu
    if isEoc ft v then s'
    else seekLoop h ft m fsize dist (moved + n) { s' with clu := v }
termination_by ((fsize : Int) - s.pos).toNat
decreasing_by
  have h1 : s.pos % (cluSize h : Int) < cluSize h := Int.emod_lt_of_pos _ (by omega)
  have h2 := min3_le3 ((cluSize h : Int) - s.pos % (cluSize h : Int)) (dist - moved) ((fsize : Int) - s.pos)
  have h3 : ¬ min3 ((cluSize h : Int) - s.pos % (cluSize h : Int)) (dist - moved) ((fsize : Int) - s.pos) <
    (cluSize h : Int) - s.pos % (cluSize h : Int) := by assumption
  omega

/-- `fat_seek_forward` (kernel/fs/fat32.c:119-170). -/
def seekForward (h : Hdr) (ft : Ft) (m : Img) (fsize : Nat) (dist : Int) (s : Hd) : Hd :=
  if dist = 0 then s
  else if s64 (s.pos + dist) > fsize then { pos := s64 (s.pos + dist), clu := W - 1 }
  else seekLoop h ft m fsize dist 0 s

inductive Whence | set | cur | endd
deriving DecidableEq, Repr

/-- `fat_seek` (kernel/fs/fat32.c:221-278) of a regular file; `none` is -EINVAL. -/
def seek (h : Hdr) (ft : Ft) (m : Img) (fsize first : Nat) (off : Int) (w : Whence) (s : Hd) :
    Option Int × Hd :=
  match w with
  | .set =>
    if off < 0 then (none, s)
    else
      let s' := seekForward h ft m fsize off (rewind first)
      (some s'.pos, s')
  | .endd =>
    if off ≥ 0 then
      let s' := seekForward h ft m fsize off s
      (some s'.pos, s')
    else if (fsize : Int) + off < 0 then (none, s)
    else
      let s' := seekForward h ft m fsize (fsize + off) (rewind first)
      (some s'.pos, s')
  | .cur =>
    if off < 0 then
      if s.pos + off < 0 then (none, s)
      else
        let s' := seekForward h ft m fsize (s.pos + off) (rewind first)
        (some s'.pos, s')
    else
      let s' := seekForward h ft m fsize off s
      (some s'.pos, s')

/-- The loop of `fat_read_whole_file` (fat32_base.c:715-749); `fuel` bounds the number of clusters. -/
def wholeLoop (h : Hdr) (ft : Ft) (m : Img) (fsize bufsize : Nat) :
    Nat → List UInt8 → Nat → List UInt8
  | 0, acc, _ => acc
  | fuel + 1, acc, clu =>
    let rem := min (fsize - acc.length) (bufsize - acc.length)
    if rem ≤ cluSize h then acc ++ bytesAt m (dataAddr h clu) rem
    else
      let acc' := acc ++ bytesAt m (dataAddr h clu) (cluSize h)
      let v := readEntry h ft m 0 clu
      if isEoc ft v then acc'
      else if acc'.length < fsize then wholeLoop h ft m fsize bufsize fuel acc' v
      else acc'

/-- `fat_read_whole_file` (fat32_base.c:702-752). The number of iterations is at most the size of the
file, as every one but the last copies a whole cluster. -/
def readWhole (h : Hdr) (ft : Ft) (m : Img) (fsize first bufsize : Nat) : List UInt8 :=
  wholeLoop h ft m fsize bufsize (fsize + 1) [] first

/-! ### Mapped files -/

/-- 4096. -/
def PG : Nat := 4096

/-- `map_pages`: page `k` from virtual page `vp` on shows the memory from `a` on. -/
def mapPages (t : Nat → Option Nat) (vp a n : Nat) : Nat → Option Nat := fun x =>
  if vp ≤ x ∧ x < vp + n then some (a + (x - vp) * PG) else t x

/-- The loop of `fat_mmap` (kernel/fs/fat32_mm.c:117-180), when no page table is missing. `vp` counts
the pages mapped. `data += off_begin - off` after `off = off_begin` adds zero (line 136-137). The
result tells, for every page of the mapping, the offset in the image shown there. -/
def mmapLoop (h : Hdr) (ft : Ft) (m : Img) (ob oe : Nat) :
    Nat → Nat → Nat → Nat → (Nat → Option Nat) → (Nat → Option Nat)
  | 0, _, _, _, t => t
  | fuel + 1, off, vp, clu, t =>
    if off ≥ oe then t
    else
      let ce := off + cluSize h
      let v := readEntry h ft m 0 clu
      if ce > ob then
        let off' := if off < ob then ob else off
        let n := (min ce oe - off') / PG
        let t' := mapPages t vp (dataAddr h clu) n
        if isEoc ft v then t' else mmapLoop h ft m ob oe fuel (off' + n * PG) (vp + n) v t'
      else if isEoc ft v then t else mmapLoop h ft m ob oe fuel (off + cluSize h) vp v t

/-- `fat_mmap` (kernel/fs/fat32_mm.c:96-183) of `len` bytes from file offset `ob`. `fuel` bounds the
length of the chain. -/
def mmap (h : Hdr) (ft : Ft) (m : Img) (first ob len fuel : Nat) : Nat → Option Nat :=
  mmapLoop h ft m ob (ob + len) fuel 0 0 first (fun _ => none)

/-! ### Used space and alignment -/

/-- The loop of `fat_calculate_used_bytes` (fat32_base.c:863-869): the value of `clu` at its end. -/
def lastUsed (h : Hdr) (ft : Ft) (m : Img) : Nat → Nat
  | 0 => 0
  | c + 1 =>
    if readEntry h ft m 0 c ≠ 0 ∧ isBad ft (readEntry h ft m 0 c) = false then c + 1
    else lastUsed h ft m c

/-- `fat_calculate_used_bytes` (fat32_base.c:856-876). -/
def usedBytes (h : Hdr) (ft : Ft) (m : Img) : Nat :=
  if lastUsed h ft m (cluCount h) = 0 then 0
  else (sectorOf h (lastUsed h ft m (cluCount h)) + 1) % W * h.bps % W

/-- The loop of `fat_get_first_free_cluster_off` (fat32_base.c:847-850), `n` clusters to go. -/
def firstFreeFrom (h : Hdr) (ft : Ft) (m : Img) : Nat → Nat → Nat
  | 0, c => c
  | n + 1, c => if readEntry h ft m 0 c = 0 then c else firstFreeFrom h ft m n (c + 1)

/-- `fat_get_first_free_cluster_off` (fat32_base.c:840-854). -/
def firstFreeOff (h : Hdr) (ft : Ft) (m : Img) : Nat :=
  (sectorOf h (firstFreeFrom h ft m (cluCount h) 0) + 1) % W * h.bps % W

/-- `fat_is_first_data_sector_aligned` (fat32_base.c:878-883). -/
def isAligned (h : Hdr) (page : Nat) : Bool := decide (firstData h * h.bps % W % page = 0)

/-- The number of bytes `fat_align_first_data_sector` moves the data by (fat32_base.c:898). -/
def alignRem (h : Hdr) (page : Nat) : Nat := page - firstData h * h.bps % W % page

/-- `fat_align_first_data_sector` (fat32_base.c:892-923): `memmove`, the header, `bzero`. `rem` is never
zero, so the early return of line 906 is never taken. -/
def align (h : Hdr) (ft : Ft) (m : Img) (page : Nat) : Hdr × Img :=
  let used := usedBytes h ft m
  let rem := alignRem h page
  let res := h.rsvd * h.bps
  ({ h with rsvd := (h.rsvd + rem / h.bps) % 65536 },
   fun x =>
     if res ≤ x ∧ x < res + rem then 0
     else if res + rem ≤ x ∧ x < rem + used then m (x - rem)
     else m x)

/-! ### Specification: the layout of a FAT volume -/

/-- Sectors of the fixed root directory (FAT16): 32 bytes per entry, rounded up. -/
def rootLen (h : Hdr) : Nat := (h.rootEnt * 32 + (h.bps - 1)) / h.bps

/-- Where the data area begins: after the reserved sectors, the FATs and the fixed root directory. -/
def dataStart (h : Hdr) : Nat :=
  (h.rsvd + h.nfats * fatSz h + rootLen h) * h.bps

/-- Where cluster `c` begins; the first one of the data area is number 2. -/
def cluAt (h : Hdr) (c : Nat) : Nat := dataStart h + (c - 2) * cluSize h

/-- Where the entry for cluster `c` of FAT number `k` is. -/
def fatAt (h : Hdr) (ft : Ft) (k c : Nat) : Nat := (h.rsvd + k * fatSz h) * h.bps + c * ft.size

/-- Cluster numbers are below the values with a special meaning. -/
def Ft.limit : Ft → Nat
  | .fat16 => 0xFFF7
  | .fat32 => 0x0FFFFFF0

/-- A volume with `n` data clusters (2 to `n`+1) whose FATs have room for them, smaller than 4 GB. -/
structure Volume (h : Hdr) (ft : Ft) (n : Nat) : Prop where
  bps : 0 < h.bps
  spc : 0 < h.spc
  fits : (n + 2) * ft.size ≤ fatSz h * h.bps
  small : dataStart h + n * cluSize h < W
  root : h.rootEnt * 32 + h.bps ≤ W
  nfats : 0 < h.nfats
  limit : n + 2 ≤ ft.limit

theorem Volume.sectors {h ft n} (v : Volume h ft n) :
    h.rsvd + h.nfats * fatSz h + rootLen h + n * h.spc < W := by
  have h1 := v.small
  have h2 := v.bps
  unfold dataStart cluSize at h1
  have : (h.rsvd + h.nfats * fatSz h + rootLen h + n * h.spc) * 1 ≤
      (h.rsvd + h.nfats * fatSz h + rootLen h + n * h.spc) * h.bps :=
    Nat.mul_le_mul_left _ h2
  have e : n * (h.bps * h.spc) = n * h.spc * h.bps := by
    rw [Nat.mul_comm h.bps, Nat.mul_assoc]
  rw [e, ← Nat.add_mul] at h1
  omega

theorem rootSecs_eq {h ft n} (v : Volume h ft n) :
    rootSecs h = rootLen h := by
  unfold rootSecs rootLen
  rw [Nat.mod_eq_of_lt]
  have := v.root
  have := v.bps
  omega

theorem firstData_eq {h ft n} (v : Volume h ft n) :
    firstData h = h.rsvd + h.nfats * fatSz h + rootLen h := by
  have h1 := v.sectors
  unfold firstData
  rw [rootSecs_eq v, Nat.mod_eq_of_lt (by omega : h.nfats * fatSz h < W), Nat.mod_eq_of_lt (by omega)]

theorem firstData_mul {h ft n} (v : Volume h ft n) : firstData h * h.bps = dataStart h := by
  rw [firstData_eq v]; rfl

/-- The cluster data is where the layout says. -/
theorem dataAddr_eq {h ft n} (v : Volume h ft n) {c : Nat} (h2 : 2 ≤ c) (hc : c < n + 2) :
    dataAddr h c = cluAt h c := by
  have h1 := v.sectors
  have hle : (c - 2) * h.spc ≤ n * h.spc := Nat.mul_le_mul_right _ (by omega)
  have hn : n * 1 ≤ n * h.spc := Nat.mul_le_mul_left _ v.spc
  have e1 : (c + W - 2) % W = c - 2 := by
    rw [show c + W - 2 = c - 2 + W by unfold W; omega, Nat.add_mod_right, Nat.mod_eq_of_lt (by omega)]
  have e2 : sectorOf h c = (c - 2) * h.spc + firstData h := by
    unfold sectorOf
    rw [e1, Nat.mod_eq_of_lt]
    rw [firstData_eq v]; omega
  have e3 : sectorOf h c * h.bps = cluAt h c := by
    rw [e2, Nat.add_mul, firstData_mul v]
    unfold cluAt cluSize
    rw [Nat.mul_assoc, Nat.mul_comm h.spc, Nat.add_comm]
  unfold dataAddr
  rw [e3, Nat.mod_eq_of_lt]
  have := v.small
  have : (c - 2) * cluSize h ≤ n * cluSize h := Nat.mul_le_mul_right _ (by omega)
  unfold cluAt
  omega

theorem fat_area {h ft n} (v : Volume h ft n) {k c : Nat} (hk : k < h.nfats) (hc : c < n + 2) :
    h.rsvd * h.bps ≤ fatAt h ft k c ∧
    fatAt h ft k c + ft.size ≤ (h.rsvd + (k + 1) * fatSz h) * h.bps ∧
    (h.rsvd + (k + 1) * fatSz h) * h.bps ≤ dataStart h := by
  have h1 := v.fits
  have h2 : (c + 1) * ft.size ≤ (n + 2) * ft.size := Nat.mul_le_mul_right _ (by omega)
  have h3 : (k + 1) * fatSz h ≤ h.nfats * fatSz h := Nat.mul_le_mul_right _ hk
  unfold fatAt dataStart
  refine ⟨?_, ?_, Nat.mul_le_mul_right _ (by omega)⟩
  · rw [Nat.add_mul]; omega
  · rw [Nat.add_mul h.rsvd ((k + 1) * fatSz h), Nat.add_mul h.rsvd, Nat.add_mul k 1, Nat.add_mul (k * fatSz h),
      Nat.one_mul]
    rw [Nat.add_mul, Nat.one_mul] at h2
    omega

/-- The entry of a cluster is where the layout says. -/
theorem entryAddr_eq {h ft n} (v : Volume h ft n) {k c : Nat} (hk : k < h.nfats) (hc : c < n + 2) :
    entryAddr h ft k c = fatAt h ft k c := by
  obtain ⟨a1, a2, a3⟩ := fat_area v hk hc
  have hs := v.small
  have hb := v.bps
  have hF : fatAt h ft k c < W := by
    have : 0 < ft.size := by cases ft <;> decide
    omega
  have hoff : c * ft.size % W = c * ft.size := Nat.mod_eq_of_lt (by unfold fatAt at hF; omega)
  have hdm := Nat.div_add_mod (c * ft.size) h.bps
  have hsec : k * fatSz h % W = k * fatSz h := by
    apply Nat.mod_eq_of_lt
    have : (h.rsvd + k * fatSz h) * 1 ≤ (h.rsvd + k * fatSz h) * h.bps := Nat.mul_le_mul_left _ hb
    unfold fatAt at hF
    omega
  unfold entryAddr
  rw [hoff, hsec]
  have e : (k * fatSz h + h.rsvd + c * ft.size / h.bps) * h.bps + c * ft.size % h.bps = fatAt h ft k c := by
    unfold fatAt
    rw [Nat.add_mul, Nat.add_comm (k * fatSz h), Nat.mul_comm (c * ft.size / h.bps)]
    omega
  have hlt : (k * fatSz h + h.rsvd + c * ft.size / h.bps) * h.bps < W := by omega
  have hlt' : k * fatSz h + h.rsvd + c * ft.size / h.bps < W := by
    have : (k * fatSz h + h.rsvd + c * ft.size / h.bps) * 1 ≤
        (k * fatSz h + h.rsvd + c * ft.size / h.bps) * h.bps := Nat.mul_le_mul_left _ hb
    omega
  rw [Nat.mod_eq_of_lt hlt', Nat.mod_eq_of_lt hlt, e]

/-! ### The allocation table -/

theorem ofNat_toNat (v : Nat) : (UInt8.ofNat v).toNat = v % 256 := by
  simp

theorem rd16_lt (m : Img) (a : Nat) : rd16 m a < 65536 := by
  have h1 := (m a).toNat_lt
  have h2 := (m (a + 1)).toNat_lt
  unfold rd16; omega

theorem rd32_lt (m : Img) (a : Nat) : rd32 m a < W := by
  have h1 := (m a).toNat_lt
  have h2 := (m (a + 1)).toNat_lt
  have h3 := (m (a + 2)).toNat_lt
  have h4 := (m (a + 3)).toNat_lt
  unfold rd32 W; omega

theorem rd16_wr16 (m : Img) (a v : Nat) (hv : v < 65536) : rd16 (wr16 m a v) a = v := by
  unfold rd16 wr16
  rw [if_pos rfl, if_neg (by omega), if_pos rfl, ofNat_toNat, ofNat_toNat]
  omega

theorem rd32_wr32 (m : Img) (a v : Nat) (hv : v < W) : rd32 (wr32 m a v) a = v := by
  unfold rd32 wr32
  rw [if_pos rfl, if_neg (by omega), if_pos rfl, if_neg (by omega), if_neg (by omega), if_pos rfl,
    if_neg (by omega), if_neg (by omega), if_neg (by omega), if_pos rfl, ofNat_toNat, ofNat_toNat,
    ofNat_toNat, ofNat_toNat]
  unfold W at hv
  omega

theorem wr16_other (m : Img) (a v x : Nat) (hx : x < a ∨ a + 2 ≤ x) : wr16 m a v x = m x := by
  unfold wr16
  rw [if_neg (by omega), if_neg (by omega)]

theorem wr32_other (m : Img) (a v x : Nat) (hx : x < a ∨ a + 4 ≤ x) : wr32 m a v x = m x := by
  unfold wr32
  rw [if_neg (by omega), if_neg (by omega), if_neg (by omega), if_neg (by omega)]

theorem mask28 (v : Nat) : v &&& 0x0FFFFFFF = v % 268435456 :=
  Nat.and_two_pow_sub_one_eq_mod v 28

theorem mask_top (v : Nat) (hv : v < W) : v &&& 0xF0000000 = v / 268435456 * 268435456 := by
  have e1 : v / 268435456 * 268435456 = (v >>> 28) <<< 28 := by
    rw [Nat.shiftLeft_eq, Nat.shiftRight_eq_div_pow]
  have e2 : (0xF0000000 : Nat) = 15 <<< 28 := by decide
  have e3 : v / 268435456 < 16 := by unfold W at hv; omega
  rw [e1, e2]
  apply Nat.eq_of_testBit_eq
  intro i
  rw [Nat.testBit_and, Nat.testBit_shiftLeft, Nat.testBit_shiftLeft, Nat.testBit_shiftRight]
  by_cases hi : 28 ≤ i
  · have e4 : 28 + (i - 28) = i := by omega
    rw [e4]
    have e5 : Nat.testBit 15 (i - 28) = decide (i - 28 < 4) := by
      have := Nat.testBit_two_pow_sub_one 4 (i - 28)
      simpa using this
    rw [e5]
    by_cases h4 : i - 28 < 4
    · simp [hi, h4]
    · have : v.testBit i = false := by
        apply Nat.testBit_lt_two_pow
        have h32 : (2:Nat) ^ 32 ≤ 2 ^ i := Nat.pow_le_pow_right (by decide) (by omega)
        have : W = 2 ^ 32 := by decide
        omega
      simp [this]
  · simp [hi]

theorem merge (o v : Nat) (ho : o < W) (hv : v < 268435456) :
    (o &&& 0xF0000000) ||| v = o / 268435456 * 268435456 + v := by
  rw [mask_top o ho]
  have e1 : o / 268435456 * 268435456 = (o / 268435456) <<< 28 := by
    rw [Nat.shiftLeft_eq]
  rw [e1, ← Nat.shiftLeft_add_eq_or_of_lt (by omega : v < 2 ^ 28)]

/-- The largest value an entry can hold: 16 bits, or 28. -/
def Ft.maxVal : Ft → Nat
  | .fat16 => 65536
  | .fat32 => 268435456

/-- What a write changes: the bytes of the entry only. -/
theorem write_other (h : Hdr) (ft : Ft) (m : Img) (k c v x : Nat)
    (hx : x < entryAddr h ft k c ∨ entryAddr h ft k c + ft.size ≤ x) :
    writeEntry h ft m k c v x = m x := by
  cases ft
  · exact wr16_other _ _ _ _ hx
  · exact wr32_other _ _ _ _ hx

theorem readEntry_congr {h : Hdr} {ft : Ft} {m m' : Img} {k c k' c' : Nat} {h' : Hdr}
    (hm : ∀ i, i < ft.size → m (entryAddr h ft k c + i) = m' (entryAddr h' ft k' c' + i)) :
    readEntry h ft m k c = readEntry h' ft m' k' c' := by
  cases ft
  · have h0 := hm 0 (by decide)
    have h1 := hm 1 (by decide)
    show rd16 _ _ = rd16 _ _
    unfold rd16
    rw [← h1]
    simp only [Nat.add_zero] at h0
    rw [h0]
  · have h0 := hm 0 (by decide)
    have h1 := hm 1 (by decide)
    have h2 := hm 2 (by decide)
    have h3 := hm 3 (by decide)
    show rd32 _ _ &&& _ = rd32 _ _ &&& _
    unfold rd32
    rw [← h1, ← h2, ← h3]
    simp only [Nat.add_zero] at h0
    rw [h0]

/-- C43: after writing an entry of one FAT, reading it gives the value written; every other entry of
every FAT reads as before; the reserved top four bits of a FAT32 entry are kept; and no byte outside
the entry changes, in particular none of the data area nor of the reserved sectors. -/
theorem entry_round_trip {h : Hdr} {ft : Ft} {n : Nat} (v : Volume h ft n) (m : Img) {k c val : Nat}
    (hk : k < h.nfats) (hc : c < n + 2) (hv : val < ft.maxVal) :
    let m' := writeEntry h ft m k c val
    readEntry h ft m' k c = val ∧
    (∀ k' c', k' < h.nfats → c' < n + 2 → (k', c') ≠ (k, c) →
      readEntry h ft m' k' c' = readEntry h ft m k' c') ∧
    (ft = .fat32 → (m' (fatAt h ft k c + 3)).toNat / 16 = (m (fatAt h ft k c + 3)).toNat / 16) ∧
    (∀ x, x < h.rsvd * h.bps ∨ dataStart h ≤ x → m' x = m x) := by
  intro m'
  have ea := entryAddr_eq v hk hc
  obtain ⟨a1, a2, a3⟩ := fat_area v hk hc
  refine ⟨?_, ?_, ?_, ?_⟩
  · cases ft
    · show rd16 (wr16 _ _ _) _ = _
      have : val < 65536 := hv
      rw [Nat.mod_eq_of_lt this]
      exact rd16_wr16 _ _ _ this
    · have hv' : val < 268435456 := hv
      have hlt := rd32_lt m (entryAddr h .fat32 k c)
      show rd32 (wr32 _ _ _) _ &&& 0x0FFFFFFF = _
      rw [merge _ _ hlt hv', rd32_wr32 _ _ _ (by unfold W at *; omega), mask28]
      omega
  · intro k' c' hk' hc' hne
    have eb := entryAddr_eq v hk' hc'
    obtain ⟨b1, b2, b3⟩ := fat_area v hk' hc'
    apply readEntry_congr
    intro i hi
    apply write_other
    rw [ea, eb]
    by_cases hkk : k' = k
    · subst hkk
      have hcc : c' ≠ c := fun e => hne (by rw [e])
      unfold fatAt
      rcases Nat.lt_or_gt_of_ne hcc with hl | hl
      · have : (c' + 1) * ft.size ≤ c * ft.size := Nat.mul_le_mul_right _ hl
        rw [Nat.add_mul] at this
        omega
      · have : (c + 1) * ft.size ≤ c' * ft.size := Nat.mul_le_mul_right _ hl
        rw [Nat.add_mul] at this
        omega
    · rcases Nat.lt_or_gt_of_ne hkk with hl | hl
      · have : (h.rsvd + (k' + 1) * fatSz h) * h.bps ≤ (h.rsvd + k * fatSz h) * h.bps :=
          Nat.mul_le_mul_right _ (Nat.add_le_add_left (Nat.mul_le_mul_right _ hl) _)
        have e : fatAt h ft k c = (h.rsvd + k * fatSz h) * h.bps + c * ft.size := rfl
        omega
      · have : (h.rsvd + (k + 1) * fatSz h) * h.bps ≤ (h.rsvd + k' * fatSz h) * h.bps :=
          Nat.mul_le_mul_right _ (Nat.add_le_add_left (Nat.mul_le_mul_right _ hl) _)
        have e : fatAt h ft k' c' = (h.rsvd + k' * fatSz h) * h.bps + c' * ft.size := rfl
        omega
  · rintro rfl
    have hv' : val < 268435456 := hv
    have hlt := rd32_lt m (entryAddr h .fat32 k c)
    show (wr32 _ _ _ _).toNat / 16 = _
    rw [merge _ _ hlt hv', ea]
    rw [ea] at hlt
    unfold wr32
    rw [if_neg (by omega), if_neg (by omega), if_neg (by omega), if_pos rfl, ofNat_toNat]
    have h1 := (m (fatAt h .fat32 k c)).toNat_lt
    have h2 := (m (fatAt h .fat32 k c + 1)).toNat_lt
    have h3 := (m (fatAt h .fat32 k c + 2)).toNat_lt
    have h4 := (m (fatAt h .fat32 k c + 3)).toNat_lt
    unfold rd32
    omega
  · intro x hx
    apply write_other
    rw [ea]
    omega

/-! ### Specification: the contents of a file -/

/-- The clusters `cs` hold a file of `size` bytes whose directory entry names `first`: each links to
the next, the last is marked as such, and there is room for `size` bytes. -/
structure FileOn (h : Hdr) (ft : Ft) (n : Nat) (m : Img) (first size : Nat) (cs : List Nat) : Prop where
  start : 0 < size → cs.head? = some first
  valid : ∀ c ∈ cs, 2 ≤ c ∧ c < n + 2
  next : ∀ i, i + 1 < cs.length → readEntry h ft m 0 (cs.getD i 0) = cs.getD (i + 1) 0
  last : ∀ i, i + 1 = cs.length → isEoc ft (readEntry h ft m 0 (cs.getD i 0)) = true
  room : size ≤ cs.length * cluSize h

/-- Byte `i` of the file stored in the clusters `cs`. -/
def fileByte (h : Hdr) (m : Img) (cs : List Nat) (i : Nat) : UInt8 :=
  m (cluAt h (cs.getD (i / cluSize h) 0) + i % cluSize h)

/-- Bytes `p` to `p + k - 1` of the file. -/
def fileBytes (h : Hdr) (m : Img) (cs : List Nat) (p k : Nat) : List UInt8 :=
  (List.range k).map (fun j => fileByte h m cs (p + j))

theorem fileBytes_length (h m cs p k) : (fileBytes h m cs p k).length = k := by
  simp [fileBytes]

theorem fileBytes_add (h m cs p k l) :
    fileBytes h m cs p k ++ fileBytes h m cs (p + k) l = fileBytes h m cs p (k + l) := by
  unfold fileBytes
  rw [List.range_add, List.map_append, List.map_map]
  congr 1
  apply List.map_congr_left
  intro x _
  show _ = fileByte h m cs (p + (k + x))
  rw [Nat.add_assoc]

theorem cluSize_pos {h ft n} (v : Volume h ft n) : 0 < cluSize h := Nat.mul_pos v.bps v.spc

theorem div_same {p j z : Nat} (hj : p % z + j < z) : (p + j) / z = p / z ∧ (p + j) % z = p % z + j := by
  have hz : 0 < z := by omega
  have h1 := Nat.div_add_mod p z
  have e : p + j = (p % z + j) + z * (p / z) := by omega
  constructor
  · rw [e, Nat.add_mul_div_left _ _ hz, Nat.div_eq_of_lt hj, Nat.zero_add]
  · rw [e, Nat.add_mul_mod_self_left, Nat.mod_eq_of_lt hj]

theorem div_next {p j z : Nat} (hz : 0 < z) (hj : p % z + j = z) : (p + j) / z = p / z + 1 ∧ (p + j) % z = 0 := by
  have h1 := Nat.div_add_mod p z
  have e : p + j = z * (p / z + 1) := by rw [Nat.mul_add, Nat.mul_one]; omega
  constructor
  · rw [e, Nat.mul_div_cancel_left _ hz]
  · rw [e, Nat.mul_mod_right]

theorem getD_mem {cs : List Nat} {i : Nat} (hi : i < cs.length) : cs.getD i 0 ∈ cs := by
  rw [List.getD_eq_getElem _ _ hi]
  exact List.getElem_mem hi

theorem notEoc {h ft n} (v : Volume h ft n) {c : Nat} (hc : c < n + 2) : isEoc ft c = false := by
  have := v.limit
  cases ft
  · have : n + 2 ≤ 0xFFF7 := this
    simp [isEoc]; omega
  · have : n + 2 ≤ 0x0FFFFFF0 := this
    simp [isEoc]; omega

theorem index_lt {h ft n m first size cs} (v : Volume h ft n) (f : FileOn h ft n m first size cs)
    {p : Nat} (hp : p < size) : p / cluSize h < cs.length := by
  rw [Nat.div_lt_iff_lt_mul (cluSize_pos v)]
  exact Nat.lt_of_lt_of_le hp f.room

/-- A piece of one cluster is the corresponding piece of the file. -/
theorem bytesAt_file {h ft n m first size cs} (v : Volume h ft n) (f : FileOn h ft n m first size cs)
    {p k : Nat} (hp : p < size) (hk : p % cluSize h + k ≤ cluSize h) :
    bytesAt m (dataAddr h (cs.getD (p / cluSize h) 0) + p % cluSize h) k = fileBytes h m cs p k := by
  obtain ⟨h2, hc⟩ := f.valid _ (getD_mem (index_lt v f hp))
  rw [dataAddr_eq v h2 hc]
  unfold bytesAt fileBytes fileByte
  apply List.map_congr_left
  intro j hj
  have hj' := List.mem_range.mp hj
  obtain ⟨e1, e2⟩ := div_same (p := p) (j := j) (z := cluSize h) (by omega)
  rw [e1, e2, Nat.add_assoc]

/-- The invariant of an open file: unless it is at the end, the cached cluster is the one that holds
the current position. -/
def HInv (h : Hdr) (size : Nat) (cs : List Nat) (s : Hd) : Prop :=
  0 ≤ s.pos ∧ (s.pos < size → s.clu = cs.getD (s.pos.toNat / cluSize h) 0)

theorem min3_nat (a b c : Nat) : min3 (a : Int) b c = ((min a (min b c) : Nat) : Int) := by
  unfold min3; omega

theorem readLoop_spec {h ft n m first size cs} (v : Volume h ft n) (f : FileOn h ft n m first size cs)
    (buf : Nat) : ∀ (d p : Nat) (acc : List UInt8) (clu : Nat), size - p = d → p ≤ size →
      acc.length ≤ buf → (p < size → clu = cs.getD (p / cluSize h) 0) →
      (readLoop h ft m size buf acc ⟨p, clu⟩).1 =
        acc ++ fileBytes h m cs p (min (buf - acc.length) (size - p)) ∧
      (readLoop h ft m size buf acc ⟨p, clu⟩).2.pos = ((p + min (buf - acc.length) (size - p) : Nat) : Int) ∧
      HInv h size cs (readLoop h ft m size buf acc ⟨p, clu⟩).2 := by
  intro d
  induction d using Nat.strongRecOn with
  | _ d ih =>
    intro p acc clu hd hp hacc hclu
    have hz := cluSize_pos v
    have hmod : p % cluSize h < cluSize h := Nat.mod_lt _ hz
    rw [readLoop, dif_neg (by omega)]
    dsimp only
    have em : ((p : Int) % (cluSize h : Int)) = ((p % cluSize h : Nat) : Int) := by omega
    rw [em]
    have e1 : ((cluSize h : Int) - ((p % cluSize h : Nat) : Int)) = ((cluSize h - p % cluSize h : Nat) : Int) := by
      omega
    have e2 : ((buf : Int) - (acc.length : Int)) = ((buf - acc.length : Nat) : Int) := by omega
    have e3 : ((size : Int) - (p : Int)) = ((size - p : Nat) : Int) := by omega
    rw [e1, e2, e3, min3_nat, Int.toNat_natCast, Int.toNat_natCast]
    generalize hk : min (cluSize h - p % cluSize h) (min (buf - acc.length) (size - p)) = k
    have hkle : p % cluSize h + k ≤ cluSize h := by omega
    -- the bytes copied
    have hbytes : bytesAt m (dataAddr h clu + p % cluSize h) k = fileBytes h m cs p k := by
      by_cases hps : p < size
      · rw [hclu hps]; exact bytesAt_file v f hps hkle
      · have : k = 0 := by omega
        subst this; rfl
    rw [hbytes]
    by_cases hlt : k < cluSize h - p % cluSize h
    · rw [if_pos (by omega)]
      have ek : min (buf - acc.length) (size - p) = k := by omega
      rw [ek]
      refine ⟨rfl, by dsimp only; omega, by dsimp only; omega, ?_⟩
      intro hlt'
      dsimp only at hlt' ⊢
      have : p < size := by omega
      rw [hclu this]
      obtain ⟨e4, _⟩ := div_same (p := p) (j := k) (z := cluSize h) (by omega)
      rw [show ((p : Int) + (k : Int)).toNat = p + k by omega, e4]
    · rw [if_neg (by omega)]
      have hps : p < size := by omega
      have hi := index_lt v f hps
      have hkz : p % cluSize h + k = cluSize h := by omega
      obtain ⟨e4, _⟩ := div_next hz hkz
      rw [hclu hps]
      by_cases hl : p / cluSize h + 1 < cs.length
      · have hnx := f.next _ hl
        have hne : isEoc ft (cs.getD (p / cluSize h + 1) 0) = false :=
          notEoc v (f.valid _ (getD_mem hl)).2
        rw [hnx, hne]
        rw [if_neg (by decide)]
        have hlen : (acc ++ fileBytes h m cs p k).length = acc.length + k := by
          rw [List.length_append, fileBytes_length]
        have key := ih (size - (p + k)) (by omega) (p + k) (acc ++ fileBytes h m cs p k)
          (cs.getD (p / cluSize h + 1) 0) rfl (by omega) (by rw [hlen]; omega) (fun _ => by rw [e4])
        rw [show ((p + k : Nat) : Int) = (p : Int) + (k : Int) by omega] at key
        obtain ⟨k1, k2, k3⟩ := key
        refine ⟨?_, ?_, k3⟩
        · rw [k1, hlen, List.append_assoc, fileBytes_add]
          congr 2; omega
        · rw [k2, hlen]; omega
      · have hl' : p / cluSize h + 1 = cs.length := by omega
        rw [f.last _ hl', if_pos rfl]
        have hroom := f.room
        have : p + k = cs.length * cluSize h := by
          rw [← hl', Nat.add_mul, Nat.one_mul]
          have := Nat.div_add_mod p (cluSize h)
          rw [Nat.mul_comm] at this
          omega
        have ek : min (buf - acc.length) (size - p) = k := by omega
        rw [ek]
        refine ⟨rfl, by dsimp only; omega, by dsimp only; omega, ?_⟩
        intro hlt'
        dsimp only at hlt'
        omega

theorem seekLoop_spec {h ft n m first size cs} (v : Volume h ft n) (f : FileOn h ft n m first size cs)
    (dist : Nat) : ∀ (d p moved : Nat) (clu : Nat), size - p = d → moved ≤ dist → p + (dist - moved) ≤ size →
      (p < size → clu = cs.getD (p / cluSize h) 0) →
      (seekLoop h ft m size dist moved ⟨p, clu⟩).pos = ((p + (dist - moved) : Nat) : Int) ∧
      HInv h size cs (seekLoop h ft m size dist moved ⟨p, clu⟩) := by
  intro d
  induction d using Nat.strongRecOn with
  | _ d ih =>
    intro p moved clu hd hm hp hclu
    have hz := cluSize_pos v
    have hmod : p % cluSize h < cluSize h := Nat.mod_lt _ hz
    rw [seekLoop, dif_neg (by omega)]
    dsimp only
    have em : ((p : Int) % (cluSize h : Int)) = ((p % cluSize h : Nat) : Int) := by omega
    rw [em]
    have e1 : ((cluSize h : Int) - ((p % cluSize h : Nat) : Int)) = ((cluSize h - p % cluSize h : Nat) : Int) := by
      omega
    have e2 : ((dist : Int) - (moved : Int)) = ((dist - moved : Nat) : Int) := by omega
    have e3 : ((size : Int) - (p : Int)) = ((size - p : Nat) : Int) := by omega
    rw [e1, e2, e3, min3_nat]
    generalize hk : min (cluSize h - p % cluSize h) (min (dist - moved) (size - p)) = k
    by_cases hlt : k < cluSize h - p % cluSize h
    · rw [if_pos (by omega)]
      have ek : dist - moved = k := by omega
      rw [ek]
      refine ⟨by dsimp only; omega, by dsimp only; omega, ?_⟩
      intro hlt'
      dsimp only at hlt' ⊢
      have : p < size := by omega
      rw [hclu this]
      obtain ⟨e4, _⟩ := div_same (p := p) (j := k) (z := cluSize h) (by omega)
      rw [show ((p : Int) + (k : Int)).toNat = p + k by omega, e4]
    · rw [if_neg (by omega)]
      have hps : p < size := by omega
      have hi := index_lt v f hps
      have hkz : p % cluSize h + k = cluSize h := by omega
      obtain ⟨e4, _⟩ := div_next hz hkz
      rw [hclu hps]
      by_cases hl : p / cluSize h + 1 < cs.length
      · have hnx := f.next _ hl
        have hne : isEoc ft (cs.getD (p / cluSize h + 1) 0) = false :=
          notEoc v (f.valid _ (getD_mem hl)).2
        rw [hnx, hne]
        rw [if_neg (by decide)]
        have key := ih (size - (p + k)) (by omega) (p + k) (moved + k)
          (cs.getD (p / cluSize h + 1) 0) rfl (by omega) (by omega) (fun _ => by rw [e4])
        rw [show ((p + k : Nat) : Int) = (p : Int) + (k : Int) by omega,
          show ((moved + k : Nat) : Int) = (moved : Int) + (k : Int) by omega] at key
        obtain ⟨k2, k3⟩ := key
        refine ⟨?_, k3⟩
        rw [k2]; omega
      · have hl' : p / cluSize h + 1 = cs.length := by omega
        rw [f.last _ hl', if_pos rfl]
        have hroom := f.room
        have : p + k = cs.length * cluSize h := by
          rw [← hl', Nat.add_mul, Nat.one_mul]
          have := Nat.div_add_mod p (cluSize h)
          rw [Nat.mul_comm] at this
          omega
        refine ⟨by dsimp only; omega, by dsimp only; omega, ?_⟩
        intro hlt'
        dsimp only at hlt'
        omega

/-! ### Specification: an open file -/

inductive Op
  | read (bufsize : Nat)
  | seek (off : Int) (w : Whence)
deriving DecidableEq, Repr

inductive Res
  | data (l : List UInt8)
  | pos (p : Int)
  | einval
deriving DecidableEq, Repr

/-- Where POSIX's lseek moves to in a file of `size` bytes. -/
def target (size : Nat) (pos : Int) (off : Int) : Whence → Int
  | .set => off
  | .cur => pos + off
  | .endd => size + off

/-- A file of `size` bytes with the contents `bytes` (first byte, number), at position `pos`, as POSIX
describes it. -/
def specStep (bytes : Nat → Nat → List UInt8) (size : Nat) (pos : Nat) : Op → Res × Nat
  | .read k => (.data (bytes pos (min k (size - pos))), pos + min k (size - pos))
  | .seek off w =>
    if target size pos off w < 0 then (.einval, pos)
    else (.pos (target size pos off w), (target size pos off w).toNat)

def specRun (bytes : Nat → Nat → List UInt8) (size : Nat) : Nat → List Op → List Res
  | _, [] => []
  | pos, op :: ops => (specStep bytes size pos op).1 :: specRun bytes size (specStep bytes size pos op).2 ops

/-- One call on the handle, `fat_read` or `fat_seek`. -/
def step (h : Hdr) (ft : Ft) (m : Img) (size first : Nat) (s : Hd) : Op → Res × Hd
  | .read k => (.data (read h ft m size k s).1, (read h ft m size k s).2)
  | .seek off w =>
    match seek h ft m size first off w s with
    | (none, s') => (.einval, s')
    | (some p, s') => (.pos p, s')

def runOps (h : Hdr) (ft : Ft) (m : Img) (size first : Nat) : Hd → List Op → List Res
  | _, [] => []
  | s, op :: ops =>
    (step h ft m size first s op).1 :: runOps h ft m size first (step h ft m size first s op).2 ops

/-- The calls for which the code is right: positions fit in 63 bits, and SEEK_END is not used with
offsets that are zero or positive. -/
def OkOps (size : Nat) : Nat → List Op → Prop
  | _, [] => True
  | pos, op :: ops =>
    (match op with
     | .read _ => True
     | .seek off w => target size pos off w < 9223372036854775808 ∧ (w = .endd → off < 0)) ∧
    OkOps size (specStep (fun _ _ => []) size pos op).2 ops

theorem specStep_pos (b b' : Nat → Nat → List UInt8) (size pos : Nat) (op : Op) :
    (specStep b size pos op).2 = (specStep b' size pos op).2 := by
  cases op with
  | read k => rfl
  | seek off w => unfold specStep; dsimp only

theorem s64_id {x : Int} (h0 : 0 ≤ x) (h1 : x < 9223372036854775808) : s64 x = x := by
  unfold s64; omega

theorem hinv_first {h ft n m first size cs} (f : FileOn h ft n m first size cs) :
    HInv h size cs ⟨0, first⟩ := by
  refine ⟨Int.le_refl 0, ?_⟩
  intro hs
  dsimp only at hs ⊢
  have := f.start (by omega)
  rw [Int.toNat_zero, Nat.zero_div]
  cases cs with
  | nil => cases this
  | cons a l => simp at this; simp [this]

theorem seekForward_spec {h ft n m first size cs} (v : Volume h ft n) (f : FileOn h ft n m first size cs)
    {s : Hd} (hi : HInv h size cs s) {dist : Int} (hd : 0 ≤ dist) (hb : s.pos + dist < 9223372036854775808) :
    (seekForward h ft m size dist s).pos = s.pos + dist ∧
    HInv h size cs (seekForward h ft m size dist s) := by
  obtain ⟨hp, hc⟩ := hi
  unfold seekForward
  split
  · rename_i h0
    subst h0
    exact ⟨by omega, hp, hc⟩
  · rw [s64_id (by omega) hb]
    split
    · refine ⟨rfl, ?_, ?_⟩
      · dsimp only; omega
      · intro hlt; dsimp only at hlt; omega
    · rename_i hle
      obtain ⟨p, hpe⟩ := Int.eq_ofNat_of_zero_le hp
      obtain ⟨d, hde⟩ := Int.eq_ofNat_of_zero_le hd
      obtain ⟨sp, sc⟩ := s
      dsimp only at hpe hc hle ⊢
      subst hpe
      subst hde
      have := seekLoop_spec v f d (size - p) p 0 sc rfl (Nat.zero_le _) (by omega)
        (fun hlt => by simpa using hc (by omega))
      obtain ⟨k1, k2⟩ := this
      exact ⟨by rw [show ((0 : Nat) : Int) = 0 from rfl] at k1; rw [k1]; omega, k2⟩

theorem step_spec {h ft n m first size cs} (v : Volume h ft n) (f : FileOn h ft n m first size cs)
    {s : Hd} (hi : HInv h size cs s) (op : Op)
    (hop : match op with
     | .read _ => True
     | .seek off w => target size s.pos.toNat off w < 9223372036854775808 ∧ (w = .endd → off < 0)) :
    (step h ft m size first s op).1 = (specStep (fileBytes h m cs) size s.pos.toNat op).1 ∧
    (step h ft m size first s op).2.pos = ((specStep (fileBytes h m cs) size s.pos.toNat op).2 : Int) ∧
    HInv h size cs (step h ft m size first s op).2 := by
  have hp := hi.1
  cases op with
  | read k =>
    show _ ∧ _ ∧ HInv h size cs (read h ft m size k s).2
    unfold step specStep read
    dsimp only
    by_cases hge : s.pos ≥ size
    · rw [if_pos hge]
      have e : min k (size - s.pos.toNat) = 0 := by omega
      rw [e]
      refine ⟨rfl, ?_, hi⟩
      dsimp only; omega
    · rw [if_neg hge]
      obtain ⟨p, hpe⟩ := Int.eq_ofNat_of_zero_le hp
      obtain ⟨sp, sc⟩ := s
      dsimp only at hpe hge ⊢
      subst hpe
      have := readLoop_spec v f k (size - p) p [] sc rfl (by omega) (Nat.zero_le _)
        (fun hlt => by simpa using hi.2 (by show (p : Int) < _; omega))
      obtain ⟨k1, k2, k3⟩ := this
      refine ⟨?_, ?_, k3⟩
      · rw [k1]; simp
      · rw [k2]; simp
  | seek off w =>
    obtain ⟨hb, hw⟩ := hop
    have epos : ((s.pos.toNat : Nat) : Int) = s.pos := by omega
    unfold specStep
    dsimp only
    rw [epos] at hb ⊢
    unfold step
    dsimp only
    cases w with
    | set =>
      unfold seek target at *
      dsimp only at *
      by_cases h0 : off < 0
      · rw [if_pos h0, if_pos h0]; exact ⟨rfl, by dsimp only; omega, hi⟩
      · rw [if_neg h0, if_neg h0]
        obtain ⟨k1, k2⟩ := seekForward_spec v f (hinv_first f) (dist := off) (by omega)
          (by show (0 : Int) + off < _; omega)
        refine ⟨?_, ?_, k2⟩
        · show Res.pos _ = Res.pos _
          unfold rewind; rw [k1]; simp
        · show (seekForward _ _ _ _ _ (rewind first)).pos = _
          unfold rewind; rw [k1]; dsimp only; omega
    | cur =>
      unfold seek target at *
      dsimp only at *
      by_cases h0 : off < 0
      · rw [if_pos h0]
        by_cases h1 : s.pos + off < 0
        · rw [if_pos h1, if_pos h1]; exact ⟨rfl, by dsimp only; omega, hi⟩
        · rw [if_neg h1, if_neg h1]
          obtain ⟨k1, k2⟩ := seekForward_spec v f (hinv_first f) (dist := s.pos + off) (by omega)
            (by show (0 : Int) + (s.pos + off) < _; omega)
          refine ⟨?_, ?_, k2⟩
          · show Res.pos _ = Res.pos _
            unfold rewind; rw [k1]; simp
          · show (seekForward _ _ _ _ _ (rewind first)).pos = _
            unfold rewind; rw [k1]; dsimp only; omega
      · rw [if_neg h0, if_neg (by omega : ¬ s.pos + off < 0)]
        obtain ⟨k1, k2⟩ := seekForward_spec v f hi (dist := off) (by omega) hb
        refine ⟨?_, ?_, k2⟩
        · show Res.pos _ = Res.pos _
          rw [k1]
        · show (seekForward _ _ _ _ _ s).pos = _
          rw [k1]; omega
    | endd =>
      have h0 := hw rfl
      unfold seek target at *
      dsimp only at *
      rw [if_neg (by omega : ¬ off ≥ 0)]
      by_cases h1 : (size : Int) + off < 0
      · rw [if_pos h1, if_pos h1]; exact ⟨rfl, by dsimp only; omega, hi⟩
      · rw [if_neg h1, if_neg h1]
        obtain ⟨k1, k2⟩ := seekForward_spec v f (hinv_first f) (dist := size + off) (by omega)
          (by show (0 : Int) + (size + off) < _; omega)
        refine ⟨?_, ?_, k2⟩
        · show Res.pos _ = Res.pos _
          unfold rewind; rw [k1]; simp
        · show (seekForward _ _ _ _ _ (rewind first)).pos = _
          unfold rewind; rw [k1]; dsimp only; omega

theorem run_spec {h ft n m first size cs} (v : Volume h ft n) (f : FileOn h ft n m first size cs)
    (ops : List Op) : ∀ (s : Hd), HInv h size cs s → OkOps size s.pos.toNat ops →
    runOps h ft m size first s ops = specRun (fileBytes h m cs) size s.pos.toNat ops := by
  induction ops with
  | nil => intros; rfl
  | cons op ops ih =>
    intro s hi hok
    obtain ⟨h1, h2⟩ := hok
    obtain ⟨k1, k2, k3⟩ := step_spec v f hi op h1
    unfold runOps specRun
    rw [k1]
    have e : (step h ft m size first s op).2.pos.toNat = (specStep (fileBytes h m cs) size s.pos.toNat op).2 := by
      rw [k2]; simp
    rw [ih _ k3 (by rw [e, specStep_pos _ (fun _ _ => [])]; exact h2), e]

/-- C71: an open FAT file behaves as POSIX says: whatever reads and seeks a program makes after
opening it, with any buffer sizes, it gets the bytes stored in the clusters of the file, in order, up to
its size, and the positions it expects. Missing: SEEK_END with an offset that is not negative, and
positions that do not fit in 63 bits; both are wrong in the code. -/
theorem open_file_partial {h ft n m first size cs} (v : Volume h ft n) (f : FileOn h ft n m first size cs)
    (ops : List Op) (hok : OkOps size 0 ops) :
    runOps h ft m size first ⟨0, first⟩ ops = specRun (fileBytes h m cs) size 0 ops :=
  run_spec v f ops ⟨0, first⟩ (hinv_first f) hok

/-- C71: reading a whole file, as the boot loaders do, gives its first bytes, as many as it has or as fit
in the buffer. -/
theorem read_whole {h ft n m first size cs} (v : Volume h ft n) (f : FileOn h ft n m first size cs)
    (buf : Nat) : readWhole h ft m size first buf = fileBytes h m cs 0 (min size buf) := by
  have hz := cluSize_pos v
  have key : ∀ (fuel i clu : Nat), size - i * cluSize h < fuel → i * cluSize h ≤ size → i * cluSize h ≤ buf →
      (i * cluSize h < size → clu = cs.getD i 0) →
      wholeLoop h ft m size buf fuel (fileBytes h m cs 0 (i * cluSize h)) clu =
        fileBytes h m cs 0 (min size buf) := by
    intro fuel
    induction fuel with
    | zero => intro i clu hf; omega
    | succ fuel ih =>
      intro i clu hf his hib hclu
      unfold wholeLoop
      dsimp only
      rw [fileBytes_length]
      generalize hr : min (size - i * cluSize h) (buf - i * cluSize h) = rem
      have hdiv : i * cluSize h / cluSize h = i := Nat.mul_div_cancel _ hz
      have hmod : i * cluSize h % cluSize h = 0 := Nat.mul_mod_left _ _
      have hpiece : ∀ k, i * cluSize h < size → k ≤ cluSize h →
          bytesAt m (dataAddr h clu) k = fileBytes h m cs (i * cluSize h) k := by
        intro k hlt hk
        have := bytesAt_file v f (p := i * cluSize h) (k := k) hlt (by omega)
        rw [hdiv, hmod, Nat.add_zero] at this
        rw [hclu hlt, this]
      by_cases hle : rem ≤ cluSize h
      · rw [if_pos hle]
        by_cases hlt : i * cluSize h < size
        · rw [hpiece rem hlt hle]
          have := fileBytes_add h m cs 0 (i * cluSize h) rem
          rw [Nat.zero_add] at this
          rw [this]
          congr 1; omega
        · have : rem = 0 := by omega
          subst this
          show fileBytes _ _ _ _ _ ++ [] = _
          rw [List.append_nil]
          congr 1; omega
      · rw [if_neg hle]
        have hlt : i * cluSize h < size := by omega
        have e1 := fileBytes_add h m cs 0 (i * cluSize h) (cluSize h)
        rw [Nat.zero_add] at e1
        have e2 : i * cluSize h + cluSize h = (i + 1) * cluSize h := by rw [Nat.add_mul, Nat.one_mul]
        rw [hpiece _ hlt (Nat.le_refl _), e1, e2, hclu hlt, fileBytes_length]
        have hroom := f.room
        have hl : i + 1 < cs.length := by
          rcases Nat.lt_or_ge (i + 1) cs.length with hl | hl
          · exact hl
          · have : cs.length * cluSize h ≤ (i + 1) * cluSize h := Nat.mul_le_mul_right _ hl
            omega
        have hnx := f.next _ hl
        have hne : isEoc ft (cs.getD (i + 1) 0) = false := notEoc v (f.valid _ (getD_mem hl)).2
        rw [hnx, hne]
        rw [if_neg (by decide)]
        rw [if_pos (by omega)]
        exact ih (i + 1) _ (by omega) (by omega) (by omega) (fun _ => rfl)
  have := key (size + 1) 0 first (by omega) (by omega) (by omega) (fun hlt => by
    have := f.start (by omega)
    cases cs with
    | nil => cases this
    | cons a l => simp at this; simp [this])
  rw [Nat.zero_mul] at this
  exact this

/-! ### Mapped files -/

/-- What page `k` of a mapping of `len` bytes from offset `ob` should show: that part of the file's
clusters; nothing beyond the last one. -/
def pageOf (h : Hdr) (cs : List Nat) (ob len k : Nat) : Option Nat :=
  if k * PG < len ∧ ob + k * PG < cs.length * cluSize h then
    some (cluAt h (cs.getD ((ob + k * PG) / cluSize h) 0) + (ob + k * PG) % cluSize h)
  else none

theorem PG_pos : 0 < PG := by decide

theorem pageOf_eq {h : Hdr} {z : Nat} (hz : cluSize h = z * PG) (cs : List Nat) (q l k : Nat) :
    pageOf h cs (q * cluSize h) (l * PG) k =
      if k < l ∧ q * z + k < cs.length * z then
        some (cluAt h (cs.getD ((q * z + k) / z) 0) + (q * z + k) % z * PG)
      else none := by
  unfold pageOf
  have e1 : q * cluSize h + k * PG = (q * z + k) * PG := by
    rw [hz, Nat.add_mul, Nat.mul_assoc]
  have e2 : cs.length * cluSize h = cs.length * z * PG := by rw [hz, Nat.mul_assoc]
  rw [e1, e2, hz, Nat.mul_div_mul_right _ _ PG_pos, Nat.mul_mod_mul_right]
  congr 1
  rw [Nat.mul_lt_mul_right PG_pos, Nat.mul_lt_mul_right PG_pos]

theorem mmapLoop_end (h ft m ob oe) : ∀ (fuel off vp clu : Nat) (t : Nat → Option Nat), oe ≤ off →
    mmapLoop h ft m ob oe fuel off vp clu t = t := by
  intro fuel off vp clu t hle
  cases fuel with
  | zero => rfl
  | succ fuel => unfold mmapLoop; rw [if_pos hle]

theorem mmapLoop_spec {h ft n m first size cs} (v : Volume h ft n) (f : FileOn h ft n m first size cs)
    {z q l : Nat} (hz : cluSize h = z * PG) (hz0 : 0 < z) :
    ∀ (fuel i : Nat), i < cs.length → cs.length - i ≤ fuel → ∀ (t : Nat → Option Nat),
      (∀ x, x < i * z - q * z → t x = pageOf h cs (q * cluSize h) (l * PG) x) →
      (∀ x, i * z - q * z ≤ x → t x = none) →
      mmapLoop h ft m (q * cluSize h) (q * cluSize h + l * PG) fuel (i * cluSize h) (i * z - q * z)
        (cs.getD i 0) t = pageOf h cs (q * cluSize h) (l * PG) := by
  intro fuel
  induction fuel with
  | zero => intro i hi hf; omega
  | succ fuel ih =>
    intro i hi hf t ht1 ht2
    have ePG : ∀ a, a * cluSize h = a * z * PG := fun a => by rw [hz, Nat.mul_assoc]
    have iz : (i + 1) * z = i * z + z := by rw [Nat.add_mul, Nat.one_mul]
    have hiL : (i + 1) * z ≤ cs.length * z := Nat.mul_le_mul_right _ hi
    unfold mmapLoop
    by_cases hend : i * cluSize h ≥ q * cluSize h + l * PG
    · rw [if_pos hend]
      funext x
      have hend' : i * z ≥ q * z + l := by
        rw [ePG, ePG, ← Nat.add_mul] at hend
        exact Nat.le_of_mul_le_mul_right hend PG_pos
      by_cases hx : x < i * z - q * z
      · exact ht1 x hx
      · rw [ht2 x (by omega), pageOf_eq hz, if_neg (by omega)]
    · rw [if_neg hend]
      have hend' : i * z < q * z + l := by
        rw [ePG, ePG, ← Nat.add_mul] at hend
        have := Nat.lt_of_mul_lt_mul_right (Nat.lt_of_not_ge hend)
        exact this
      dsimp only
      have hnx : ∀ (hl : i + 1 < cs.length),
          readEntry h ft m 0 (cs.getD i 0) = cs.getD (i + 1) 0 ∧ isEoc ft (cs.getD (i + 1) 0) = false :=
        fun hl => ⟨f.next _ hl, notEoc v (f.valid _ (getD_mem hl)).2⟩
      by_cases hskip : i * cluSize h + cluSize h > q * cluSize h
      · rw [if_pos hskip]
        have hqi : q ≤ i := by
          have : (i + 1) * cluSize h > q * cluSize h := by rw [Nat.add_mul, Nat.one_mul]; exact hskip
          have := Nat.lt_of_mul_lt_mul_right this
          omega
        have hqz : q * z ≤ i * z := Nat.mul_le_mul_right _ hqi
        have hqc : q * cluSize h ≤ i * cluSize h := Nat.mul_le_mul_right _ hqi
        rw [if_neg (by omega : ¬ i * cluSize h < q * cluSize h)]
        have en : (min (i * cluSize h + cluSize h) (q * cluSize h + l * PG) - i * cluSize h) / PG =
            min z (q * z + l - i * z) := by
          rw [ePG, ePG q, ← Nat.add_mul, show i * z * PG + cluSize h = (i * z + z) * PG by
            rw [hz, Nat.add_mul], Nat.min_def, Nat.min_def]
          split
          · rename_i hle
            have := Nat.le_of_mul_le_mul_right hle PG_pos
            rw [if_pos (by omega), ← Nat.sub_mul, Nat.mul_div_cancel _ PG_pos]; omega
          · rename_i hle
            have : ¬ (i * z + z ≤ q * z + l) := fun h => hle (Nat.mul_le_mul_right _ h)
            rw [← Nat.sub_mul, Nat.mul_div_cancel _ PG_pos]
            split <;> omega
        rw [en]
        generalize hk : min z (q * z + l - i * z) = k
        obtain ⟨c2, cn⟩ := f.valid _ (getD_mem hi)
        rw [dataAddr_eq v c2 cn]
        -- the pages mapped so far are right
        have hmap : ∀ x, x < i * z - q * z + k →
            mapPages t (i * z - q * z) (cluAt h (cs.getD i 0)) k x = pageOf h cs (q * cluSize h) (l * PG) x := by
          intro x hx
          unfold mapPages
          by_cases hx' : i * z - q * z ≤ x
          · rw [if_pos ⟨hx', hx⟩, pageOf_eq hz, if_pos (by omega)]
            obtain ⟨j, hj⟩ : ∃ j, x = i * z - q * z + j := ⟨x - (i * z - q * z), by omega⟩
            have e1 : q * z + x = j + i * z := by omega
            have hjz : j < z := by omega
            rw [e1, Nat.add_mul_div_right _ _ hz0, Nat.div_eq_of_lt hjz, Nat.zero_add,
              Nat.add_mul_mod_self_right, Nat.mod_eq_of_lt hjz]
            rw [show x - (i * z - q * z) = j by omega]
          · rw [if_neg (by omega)]
            exact ht1 x (by omega)
        have hmap2 : ∀ x, i * z - q * z + k ≤ x →
            mapPages t (i * z - q * z) (cluAt h (cs.getD i 0)) k x = none := by
          intro x hx
          unfold mapPages
          rw [if_neg (by omega)]
          exact ht2 x (by omega)
        -- nothing more to map
        have hdone : (i + 1 = cs.length ∨ q * z + l ≤ i * z + z) →
            mapPages t (i * z - q * z) (cluAt h (cs.getD i 0)) k = pageOf h cs (q * cluSize h) (l * PG) := by
          intro hor
          funext x
          by_cases hx : x < i * z - q * z + k
          · exact hmap x hx
          · rw [hmap2 x (by omega), pageOf_eq hz, if_neg]
            rintro ⟨a1, a2⟩
            rcases hor with hor | hor
            · rw [← hor, iz] at a2; omega
            · omega
        by_cases hl : i + 1 < cs.length
        · obtain ⟨e1, e2⟩ := hnx hl
          rw [e1, e2, if_neg (by decide)]
          by_cases hfull : i * z + z ≤ q * z + l
          · have ek : k = z := by omega
            rw [ek] at hmap hmap2 ⊢
            have e3 : i * cluSize h + z * PG = (i + 1) * cluSize h := by
              rw [Nat.add_mul, Nat.one_mul, hz]
            have e4 : i * z - q * z + z = (i + 1) * z - q * z := by omega
            rw [e3, e4]
            exact ih (i + 1) hl (by omega) _ (fun x hx => hmap x (by omega)) (fun x hx => hmap2 x (by omega))
          · rw [mmapLoop_end]
            · exact hdone (Or.inr (by omega))
            · rw [ePG, ePG, ← Nat.add_mul, ← Nat.add_mul]
              exact Nat.mul_le_mul_right _ (by omega)
        · rw [f.last i (by omega), if_pos rfl]
          exact hdone (Or.inl (by omega))
      · rw [if_neg hskip]
        have hqi : i + 1 ≤ q := by
          have : (i + 1) * cluSize h ≤ q * cluSize h := by rw [Nat.add_mul, Nat.one_mul]; omega
          rcases Nat.lt_or_ge q (i + 1) with hlt | hge
          · have hcz : 0 < cluSize h := by rw [hz]; exact Nat.mul_pos hz0 PG_pos
            have := Nat.le_of_mul_le_mul_right this hcz
            omega
          · exact hge
        have hqz : (i + 1) * z ≤ q * z := Nat.mul_le_mul_right _ hqi
        by_cases hl : i + 1 < cs.length
        · obtain ⟨e1, e2⟩ := hnx hl
          rw [e1, e2, if_neg (by decide)]
          have e3 : i * cluSize h + cluSize h = (i + 1) * cluSize h := by rw [Nat.add_mul, Nat.one_mul]
          have e4 : i * z - q * z = (i + 1) * z - q * z := by omega
          rw [e3, e4]
          exact ih (i + 1) hl (by omega) t (fun x hx => by omega) (fun x hx => ht2 x (by omega))
        · rw [f.last i (by omega), if_pos rfl]
          funext x
          rw [ht2 x (by omega), pageOf_eq hz, if_neg]
          rintro ⟨a1, a2⟩
          have : cs.length = i + 1 := by omega
          rw [this] at a2
          omega

/-- C75: a mapping of a file that is not empty, from the beginning of one of its clusters, shows in each
of its pages the part of the file that belongs there, as far as the file has clusters; clusters are whole
numbers of pages (the volume is not mappable otherwise). Missing: offsets in the middle of a cluster, and
empty files, which are wrong in the code. -/
theorem mmap_shows_file_partial {h ft n m first size cs} (v : Volume h ft n)
    (f : FileOn h ft n m first size cs) (hs : 0 < size) {z q l fuel : Nat} (hz : cluSize h = z * PG)
    (hf : cs.length ≤ fuel) (k : Nat) :
    mmap h ft m first (q * cluSize h) (l * PG) fuel k = pageOf h cs (q * cluSize h) (l * PG) k ∧
    (∀ a, mmap h ft m first (q * cluSize h) (l * PG) fuel k = some a →
      ∀ i, i < PG → m (a + i) = fileByte h m cs (q * cluSize h + k * PG + i)) := by
  have hz0 : 0 < z := by
    rcases Nat.eq_zero_or_pos z with h0 | h0
    · have := cluSize_pos v
      rw [hz, h0, Nat.zero_mul] at this
      omega
    · exact h0
  have hst := f.start hs
  have hlen : 0 < cs.length := by
    cases cs with
    | nil => cases hst
    | cons a l => simp
  have hfirst : cs.getD 0 0 = first := by
    cases cs with
    | nil => cases hst
    | cons a l => simp at hst; simp [hst]
  have key : mmap h ft m first (q * cluSize h) (l * PG) fuel = pageOf h cs (q * cluSize h) (l * PG) := by
    have := mmapLoop_spec (q := q) (l := l) v f hz hz0 fuel 0 hlen (by omega) (fun _ => none)
      (fun x hx => by omega) (fun _ _ => rfl)
    rw [Nat.zero_mul, Nat.zero_mul, Nat.zero_sub, hfirst] at this
    exact this
  rw [key]
  refine ⟨rfl, ?_⟩
  intro a ha i hi
  rw [pageOf_eq hz] at ha
  split at ha
  · injection ha with ha
    rw [← ha]
    unfold fileByte
    have e1 : q * cluSize h + k * PG = (q * z + k) * PG := by
      rw [hz, Nat.add_mul, Nat.mul_assoc]
    have hj : (q * z + k) * PG % cluSize h + i < cluSize h := by
      rw [hz, Nat.mul_mod_mul_right]
      have h1 : (q * z + k) % z < z := Nat.mod_lt _ hz0
      have h2 : ((q * z + k) % z + 1) * PG ≤ z * PG := Nat.mul_le_mul_right _ h1
      rw [Nat.add_mul, Nat.one_mul] at h2
      omega
    obtain ⟨e2, e3⟩ := div_same hj
    rw [e1, e2, e3, hz, Nat.mul_div_mul_right _ _ PG_pos, Nat.mul_mod_mul_right, Nat.add_assoc]
  · cases ha

/-! ### Used space -/

theorem lastUsed_ge {h ft m} : ∀ (n c : Nat), c < n → readEntry h ft m 0 c ≠ 0 →
    isBad ft (readEntry h ft m 0 c) = false → c + 1 ≤ lastUsed h ft m n ∧ lastUsed h ft m n ≤ n := by
  intro n
  induction n with
  | zero => intro c hc; omega
  | succ n ih =>
    intro c hc h0 hb
    unfold lastUsed
    by_cases he : c = n
    · subst he
      rw [if_pos ⟨h0, hb⟩]; omega
    · split
      · omega
      · have := ih c (by omega) h0 hb
        omega

/-- C74: the number of bytes said to be in use reaches beyond every cluster in use, and beyond the FATs
and the root directory, except for the last two clusters of the volume, which it does not look at. -/
theorem used_bytes_partial {h ft n} (v : Volume h ft n) (m : Img) (hn : cluCount h = n)
    {c : Nat} (hc1 : 1 ≤ c) (hc : c < n) (h0 : readEntry h ft m 0 c ≠ 0)
    (hb : isBad ft (readEntry h ft m 0 c) = false) :
    cluAt h (c + 1) + h.bps ≤ usedBytes h ft m ∧
    usedBytes h ft m ≤ dataStart h + n * cluSize h ∧
    (2 ≤ c → cluAt h c + cluSize h < usedBytes h ft m) := by
  obtain ⟨hl1, hl2⟩ := lastUsed_ge n c hc h0 hb
  have hsm := v.small
  have hbp := v.bps
  unfold usedBytes
  rw [hn, if_neg (by omega)]
  generalize hL : lastUsed h ft m n = L at *
  have hLc : dataAddr h L = cluAt h L := dataAddr_eq v (by omega) (by omega)
  -- the sector of cluster L, without wrapping
  have hsec : sectorOf h L * h.bps = cluAt h L := by
    have h1 := v.sectors
    have hle : (L - 2) * h.spc ≤ n * h.spc := Nat.mul_le_mul_right _ (by omega)
    have hnn : n * 1 ≤ n * h.spc := Nat.mul_le_mul_left _ v.spc
    have e1 : (L + W - 2) % W = L - 2 := by
      rw [show L + W - 2 = L - 2 + W by unfold W; omega, Nat.add_mod_right, Nat.mod_eq_of_lt (by omega)]
    have e2 : sectorOf h L = (L - 2) * h.spc + firstData h := by
      unfold sectorOf
      rw [e1, Nat.mod_eq_of_lt]
      rw [firstData_eq v]; omega
    rw [e2, Nat.add_mul, firstData_mul v]
    unfold cluAt cluSize
    rw [Nat.mul_assoc, Nat.mul_comm h.spc, Nat.add_comm]
  have hcs : h.bps ≤ cluSize h := by
    unfold cluSize
    have := Nat.mul_le_mul_left h.bps v.spc
    omega
  have h3 : cluAt h L + cluSize h ≤ dataStart h + n * cluSize h := by
    unfold cluAt
    have : (L - 2 + 1) * cluSize h ≤ n * cluSize h := Nat.mul_le_mul_right _ (by omega)
    rw [Nat.add_mul, Nat.one_mul] at this
    omega
  have h4 : cluAt h (c + 1) ≤ cluAt h L := by
    unfold cluAt
    have : (c + 1 - 2) * cluSize h ≤ (L - 2) * cluSize h := Nat.mul_le_mul_right _ (by omega)
    omega
  have h5 : (sectorOf h L + 1) * h.bps = cluAt h L + h.bps := by rw [Nat.add_mul, hsec, Nat.one_mul]
  have h6 : sectorOf h L + 1 < W := by
    have : (sectorOf h L + 1) * 1 ≤ (sectorOf h L + 1) * h.bps := Nat.mul_le_mul_left _ hbp
    omega
  rw [Nat.mod_eq_of_lt h6, h5, Nat.mod_eq_of_lt (by omega)]
  refine ⟨by omega, by omega, ?_⟩
  intro hc2
  have : cluAt h c + cluSize h = cluAt h (c + 1) := by
    unfold cluAt
    rw [show c + 1 - 2 = c - 2 + 1 by omega, Nat.add_mul, Nat.one_mul, Nat.add_assoc]
  omega

/-! ### Alignment of the data area -/

theorem alignRem_facts {h ft n} (v : Volume h ft n) {page : Nat} (hp : 0 < page) (hd : h.bps ∣ page) :
    alignRem h page / h.bps * h.bps = alignRem h page ∧ 0 < alignRem h page ∧ alignRem h page ≤ page ∧
    (dataStart h + alignRem h page) % page = 0 := by
  have hsm := v.small
  unfold alignRem
  rw [firstData_mul v, Nat.mod_eq_of_lt (by omega : dataStart h < W)]
  have hlt := Nat.mod_lt (dataStart h) hp
  have hdv : h.bps ∣ dataStart h := Dvd.intro_left _ rfl
  have hdm : h.bps ∣ dataStart h % page := (Nat.dvd_mod_iff hd).mpr hdv
  refine ⟨Nat.div_mul_cancel (Nat.dvd_sub hd hdm), by omega, by omega, ?_⟩
  have := Nat.div_add_mod (dataStart h) page
  have e : dataStart h + (page - dataStart h % page) = page * (dataStart h / page + 1) := by
    rw [Nat.mul_add, Nat.mul_one]; omega
  rw [e, Nat.mul_mod_right]

/-- C73: aligning the data area to the page size keeps the volume as it was: every entry of every FAT,
the fixed root directory, every cluster in use that the code looks at, and the reserved sectors; and the
data area then begins on a page. The number of reserved sectors must fit in its field, the volume must
stay below 4 GB, and the reserved entry 1 of the FAT must not be free, as it never is. Missing: the last
two clusters of the volume. -/
theorem align_keeps_volume_partial {h ft n} (v : Volume h ft n) (m : Img) (hn : cluCount h = n)
    {page : Nat} (hp : 0 < page) (hd : h.bps ∣ page)
    (hr : h.rsvd + page / h.bps < 65536)
    (hsm : dataStart h + page + n * cluSize h < W) (hn2 : 2 ≤ n)
    (h1 : readEntry h ft m 0 1 ≠ 0) (h1b : isBad ft (readEntry h ft m 0 1) = false) :
    let h' := (align h ft m page).1
    let m' := (align h ft m page).2
    isAligned h' page = true ∧
    Volume h' ft n ∧
    (∀ k c, k < h.nfats → c < n + 2 → readEntry h' ft m' k c = readEntry h ft m k c) ∧
    (∀ c, 2 ≤ c → c < n → readEntry h ft m 0 c ≠ 0 → isBad ft (readEntry h ft m 0 c) = false →
      ∀ i, i < cluSize h → m' (dataAddr h' c + i) = m (dataAddr h c + i)) ∧
    (∀ i, i < rootLen h * h.bps → m' (dataStart h' - rootLen h * h.bps + i) =
      m (dataStart h - rootLen h * h.bps + i)) ∧
    (∀ x, x < h.rsvd * h.bps → m' x = m x) := by
  intro h' m'
  obtain ⟨r1, r2, r3, r4⟩ := alignRem_facts v hp hd
  obtain ⟨u1, u2, _⟩ := used_bytes_partial v m hn (c := 1) (by omega) (by omega) h1 h1b
  have hbp := v.bps
  have hrr : (h.rsvd + alignRem h page / h.bps) % 65536 = h.rsvd + alignRem h page / h.bps := by
    apply Nat.mod_eq_of_lt
    have : alignRem h page / h.bps ≤ page / h.bps := Nat.div_le_div_right r3
    omega
  have hh' : h' = { h with rsvd := h.rsvd + alignRem h page / h.bps } := by
    show ({ h with rsvd := (h.rsvd + alignRem h page / h.bps) % 65536 } : Hdr) = _
    rw [hrr]
  have hm' : ∀ x, m' x = if h.rsvd * h.bps ≤ x ∧ x < h.rsvd * h.bps + alignRem h page then 0
      else if h.rsvd * h.bps + alignRem h page ≤ x ∧ x < alignRem h page + usedBytes h ft m then
        m (x - alignRem h page) else m x := fun _ => rfl
  have ers : ∀ a, (h.rsvd + alignRem h page / h.bps + a) * h.bps = (h.rsvd + a) * h.bps + alignRem h page := by
    intro a
    rw [Nat.add_mul, Nat.add_mul, r1, Nat.add_mul]; omega
  have eds : dataStart h' = dataStart h + alignRem h page := by
    rw [hh']
    show (h.rsvd + alignRem h page / h.bps + h.nfats * fatSz h + rootLen h) * h.bps = _
    rw [Nat.add_assoc, ers]
    unfold dataStart
    rw [Nat.add_assoc]
  have ecl : cluSize h' = cluSize h := by rw [hh']; rfl
  have v' : Volume h' ft n := by
    refine ⟨by rw [hh']; exact v.bps, by rw [hh']; exact v.spc, by rw [hh']; exact v.fits, ?_, by rw [hh']; exact v.root,
      by rw [hh']; exact v.nfats, v.limit⟩
    rw [eds, ecl]; omega
  have c2 : cluAt h (1 + 1) = dataStart h := by unfold cluAt; simp
  rw [c2] at u1
  -- bytes that move
  have hmove : ∀ x, h.rsvd * h.bps ≤ x → x < usedBytes h ft m → m' (x + alignRem h page) = m x := by
    intro x hx1 hx2
    rw [hm', if_neg (by omega), if_pos (by omega), Nat.add_sub_cancel]
  refine ⟨?_, v', ?_, ?_, ?_, ?_⟩
  · unfold isAligned
    have h7 := v'.small
    rw [firstData_mul v', Nat.mod_eq_of_lt (by omega : dataStart h' < W), eds, r4]
    rfl
  · intro k c hk hc
    have ea := entryAddr_eq v hk hc
    have ea' : entryAddr h' ft k c = fatAt h' ft k c := entryAddr_eq v' (by rw [hh']; exact hk) hc
    obtain ⟨a1, a2, a3⟩ := fat_area v hk hc
    have ef : fatAt h' ft k c = fatAt h ft k c + alignRem h page := by
      rw [hh']
      show (h.rsvd + alignRem h page / h.bps + k * fatSz h) * h.bps + c * ft.size = _
      rw [ers]
      unfold fatAt
      omega
    apply readEntry_congr
    intro i hi
    rw [ea, ea', ef, Nat.add_right_comm]
    exact hmove _ (by omega) (by omega)
  · intro c hc2 hcn h0 hb i hi
    obtain ⟨_, _, w3⟩ := used_bytes_partial v m hn (c := c) (by omega) hcn h0 hb
    have w3 := w3 hc2
    rw [dataAddr_eq v hc2 (by omega), dataAddr_eq v' hc2 (by omega)]
    have ec : cluAt h' c = cluAt h c + alignRem h page := by
      unfold cluAt
      rw [eds, ecl]; omega
    rw [ec, Nat.add_right_comm]
    apply hmove
    · have : h.rsvd * h.bps ≤ dataStart h := by
        unfold dataStart
        exact Nat.mul_le_mul_right _ (by omega)
      unfold cluAt
      omega
    · omega
  · intro i hi
    have e : h.rsvd * h.bps + rootLen h * h.bps ≤ dataStart h := by
      unfold dataStart
      rw [← Nat.add_mul]
      exact Nat.mul_le_mul_right _ (by omega)
    rw [eds, show dataStart h + alignRem h page - rootLen h * h.bps + i =
      dataStart h - rootLen h * h.bps + i + alignRem h page by omega]
    exact hmove _ (by omega) (by omega)
  · intro x hx
    rw [hm', if_neg (by omega), if_neg (by omega)]

/-! ### Concrete volumes -/

/-- FAT16, 16-byte sectors, one sector per cluster, one FAT of eight entries, six clusters. -/
def exH : Hdr := ⟨16, 1, 1, 1, 0, 8, 0, 1, 0, 0⟩

/-- A file of 20 bytes in the clusters 5 and 3; cluster 6 holds another one. Data byte `i` of the volume
is `i`. -/
def exM : Img := fun x =>
  if x = 16 ∨ x = 17 ∨ x = 18 ∨ x = 19 then 0xff      -- entries 0 and 1
  else if x = 26 then 3                                  -- entry 5
  else if x = 22 ∨ x = 23 then 0xff                      -- entry 3
  else if x = 28 ∨ x = 29 then 0xff                      -- entry 6
  else if x < 32 then 0
  else UInt8.ofNat x

theorem exV : Volume exH .fat16 6 := by
  constructor <;> decide

theorem exF : FileOn exH .fat16 6 exM 5 20 [5, 3] := by
  refine ⟨fun _ => rfl, by decide, ?_, ?_, by decide⟩
  · intro i hi
    have : i = 0 := by simp at hi; omega
    subst this; decide
  · intro i hi
    have : i = 1 := by simp at hi; omega
    subst this; decide

-- C43: write 7 as the successor of cluster 2; the others keep theirs.
example : readEntry exH .fat16 (writeEntry exH .fat16 exM 0 2 7) 0 2 = 7 ∧
    readEntry exH .fat16 (writeEntry exH .fat16 exM 0 2 7) 0 5 = 3 := by decide

-- C71: read 18 bytes, go back, read across the cluster boundary.
example : OkOps 20 0 [.read 18, .seek (-4) .cur, .read 10, .seek (-1) .endd, .read 1, .seek 100 .set, .read 1] := by
  refine ⟨trivial, ⟨by decide, by decide⟩, trivial, ⟨by decide, by decide⟩, trivial, ⟨by decide, by decide⟩,
    trivial, trivial⟩

example : (runOps exH .fat16 exM 20 5 ⟨0, 5⟩ [.read 2, .seek 14 .set, .read 4, .seek (-3) .endd, .read 9]) =
    [.data [80, 81], .pos 14, .data [94, 95, 48, 49], .pos 17, .data [49, 50, 51]] := by
  decide +kernel

-- the whole file
example : readWhole exH .fat16 exM 20 5 1000 =
    [80, 81, 82, 83, 84, 85, 86, 87, 88, 89, 90, 91, 92, 93, 94, 95, 48, 49, 50, 51] := by
  decide +kernel

/-- C71 fails: SEEK_END with offset 0, the usual way to find the size of a file, stays where it is and
returns that position (kernel/fs/fat32.c:246-249: the position is not moved to the end first). -/
theorem seek_end_violated :
    Volume exH .fat16 6 ∧ FileOn exH .fat16 6 exM 5 20 [5, 3] ∧
    runOps exH .fat16 exM 20 5 ⟨0, 5⟩ [.seek 0 .endd] = [.pos 0] ∧
    specRun (fileBytes exH exM [5, 3]) 20 0 [.seek 0 .endd] = [.pos 20] :=
  ⟨exV, exF, by decide +kernel, by decide +kernel⟩

/-- C71 fails: a seek whose target does not fit in 63 bits is not refused but ends at the end of the
file. -/
theorem seek_overflow_violated :
    runOps exH .fat16 exM 20 5 ⟨0, 5⟩ [.seek 7 .set, .seek 9223372036854775807 .cur] = [.pos 7, .pos 20] := by
  decide +kernel

/-- FAT16, one 4096-byte sector of FAT, clusters of two pages. -/
def pgH : Hdr := ⟨4096, 2, 1, 1, 0, 42, 0, 1, 0, 0⟩

/-- A file of 16384 bytes in the clusters 4 and 3. -/
def pgM : Img := fun x =>
  if x = 4096 ∨ x = 4097 ∨ x = 4098 ∨ x = 4099 then 0xff
  else if x = 4096 + 8 then 3
  else if x = 4096 + 6 ∨ x = 4096 + 7 then 0xff
  else if x < 8192 then 0
  else UInt8.ofNat (x / 4096)

theorem pgV : Volume pgH .fat16 20 := by
  constructor <;> decide

theorem pgF : FileOn pgH .fat16 20 pgM 4 16384 [4, 3] := by
  refine ⟨fun _ => rfl, by decide, ?_, ?_, by decide⟩
  · intro i hi
    have : i = 0 := by simp at hi; omega
    subst this; decide
  · intro i hi
    have : i = 1 := by simp at hi; omega
    subst this; decide

-- C75: three pages from the beginning.
example : (List.range 4).map (mmap pgH .fat16 pgM 4 (0 * cluSize pgH) (3 * PG) 9) =
    [some 24576, some 28672, some 16384, none] := by decide +kernel

/-- C75 fails: mapping from the second page of the file on shows its first page, as
`data += off_begin - off` comes after `off = off_begin` (fat32_mm.c:136-137). -/
theorem mmap_middle_violated :
    mmap pgH .fat16 pgM 4 4096 4096 9 0 = some (cluAt pgH 4) ∧
    pageOf pgH [4, 3] 4096 4096 0 = some (cluAt pgH 4 + 4096) := by
  decide +kernel

/-- C75 fails: mapping an empty file (its first cluster is 0) shows what lies two clusters before the
data area; here these are 8 KB of kernel memory before the volume and its reserved sector. -/
theorem mmap_empty_violated :
    FileOn pgH .fat16 20 pgM 0 0 [] ∧
    mmap pgH .fat16 pgM 0 0 8192 9 0 = some (W - 8192) ∧
    (dataAddr pgH 0 + 8192 * 2) % W = dataStart pgH := by
  refine ⟨⟨by decide, by decide, ?_, ?_, by decide⟩, by decide +kernel, by decide +kernel⟩
  · intro i hi; simp at hi
  · intro i hi; simp at hi

/-- The volume of `exH` with a file in its last cluster, number 7. -/
def lastM : Img := fun x => if x = 30 ∨ x = 31 then 0xff else exM x

/-- C73, C74 fail: a file in one of the last two clusters of the volume is not counted as used space, so
it is cut off when the volume is loaded, and it is not moved by the alignment (fat32_base.c:863: cluster
numbers go up to count + 1, the loop looks only below count). -/
theorem last_clusters_violated :
    Volume exH .fat16 6 ∧ cluCount exH = 6 ∧ FileOn exH .fat16 6 lastM 7 16 [7] ∧
    usedBytes exH .fat16 lastM ≤ cluAt exH 7 ∧
    readWhole exH .fat16 lastM 16 7 16 ≠
      readWhole (align exH .fat16 lastM 64).1 .fat16 (align exH .fat16 lastM 64).2 16 7 16 := by
  refine ⟨exV, by decide, ⟨fun _ => rfl, by decide, ?_, ?_, by decide⟩, by decide +kernel, by decide +kernel⟩
  · intro i hi; simp at hi
  · intro i hi
    have : i = 0 := by simpa using hi
    subst this; decide

-- C73: the hypotheses hold for `exH` when aligned to 64 bytes.
example : cluCount exH = 6 ∧ exH.bps ∣ 64 ∧ exH.rsvd + 64 / exH.bps < 65536 ∧
    dataStart exH + 64 + 6 * cluSize exH < W ∧ readEntry exH .fat16 exM 0 1 ≠ 0 ∧
    isBad .fat16 (readEntry exH .fat16 exM 0 1) = false ∧
    (align exH .fat16 exM 64).1.rsvd = 3 := by decide +kernel

/-- A FAT32 volume with 65525 clusters, the fewest possible, not aligned. -/
def minFat32 : Hdr := ⟨512, 1, 31, 2, 0, 0, 31 + 2 * 512 + 65525, 0, 512, 2⟩

/-- C73 fails: the alignment takes the sectors it inserts away from the data area, as the total does not
grow; a small FAT32 volume becomes too small for FAT32, and is taken for a FAT16 one when it is mounted
the next time. -/
theorem align_type_violated (m : Img) :
    isAligned minFat32 4096 = false ∧ getType minFat32 = some .fat32 ∧
    getType (align minFat32 .fat32 m 4096).1 = some .fat16 := by
  refine ⟨by decide +kernel, by decide +kernel, ?_⟩
  show getType { minFat32 with rsvd := _ } = _
  decide +kernel

end Verif.Fat
