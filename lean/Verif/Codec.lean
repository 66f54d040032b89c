/-!
# CRC-32 and base64 (common/3rd_party/crc32.c, common/3rd_party/base64.c)

Properties C151 (CRC-32) and C152 (base64).  Bytes are numbers below 256, `size_t` and `uint32_t` are
numbers below 2^32 (the 32-bit build).
-/
namespace Verif.Codec

/-! ## Model -/

/-- common/3rd_party/crc32.c:46-90 `crc32_tab`. -/
def tab : List Nat :=
  [0x00000000, 0x77073096, 0xee0e612c, 0x990951ba, 0x076dc419, 0x706af48f, 0xe963a535, 0x9e6495a3,
   0x0edb8832, 0x79dcb8a4, 0xe0d5e91e, 0x97d2d988, 0x09b64c2b, 0x7eb17cbd, 0xe7b82d07, 0x90bf1d91,
   0x1db71064, 0x6ab020f2, 0xf3b97148, 0x84be41de, 0x1adad47d, 0x6ddde4eb, 0xf4d4b551, 0x83d385c7,
   0x136c9856, 0x646ba8c0, 0xfd62f97a, 0x8a65c9ec, 0x14015c4f, 0x63066cd9, 0xfa0f3d63, 0x8d080df5,
   0x3b6e20c8, 0x4c69105e, 0xd56041e4, 0xa2677172, 0x3c03e4d1, 0x4b04d447, 0xd20d85fd, 0xa50ab56b,
   0x35b5a8fa, 0x42b2986c, 0xdbbbc9d6, 0xacbcf940, 0x32d86ce3, 0x45df5c75, 0xdcd60dcf, 0xabd13d59,
   0x26d930ac, 0x51de003a, 0xc8d75180, 0xbfd06116, 0x21b4f4b5, 0x56b3c423, 0xcfba9599, 0xb8bda50f,
   0x2802b89e, 0x5f058808, 0xc60cd9b2, 0xb10be924, 0x2f6f7c87, 0x58684c11, 0xc1611dab, 0xb6662d3d,
   0x76dc4190, 0x01db7106, 0x98d220bc, 0xefd5102a, 0x71b18589, 0x06b6b51f, 0x9fbfe4a5, 0xe8b8d433,
   0x7807c9a2, 0x0f00f934, 0x9609a88e, 0xe10e9818, 0x7f6a0dbb, 0x086d3d2d, 0x91646c97, 0xe6635c01,
   0x6b6b51f4, 0x1c6c6162, 0x856530d8, 0xf262004e, 0x6c0695ed, 0x1b01a57b, 0x8208f4c1, 0xf50fc457,
   0x65b0d9c6, 0x12b7e950, 0x8bbeb8ea, 0xfcb9887c, 0x62dd1ddf, 0x15da2d49, 0x8cd37cf3, 0xfbd44c65,
   0x4db26158, 0x3ab551ce, 0xa3bc0074, 0xd4bb30e2, 0x4adfa541, 0x3dd895d7, 0xa4d1c46d, 0xd3d6f4fb,
   0x4369e96a, 0x346ed9fc, 0xad678846, 0xda60b8d0, 0x44042d73, 0x33031de5, 0xaa0a4c5f, 0xdd0d7cc9,
   0x5005713c, 0x270241aa, 0xbe0b1010, 0xc90c2086, 0x5768b525, 0x206f85b3, 0xb966d409, 0xce61e49f,
   0x5edef90e, 0x29d9c998, 0xb0d09822, 0xc7d7a8b4, 0x59b33d17, 0x2eb40d81, 0xb7bd5c3b, 0xc0ba6cad,
   0xedb88320, 0x9abfb3b6, 0x03b6e20c, 0x74b1d29a, 0xead54739, 0x9dd277af, 0x04db2615, 0x73dc1683,
   0xe3630b12, 0x94643b84, 0x0d6d6a3e, 0x7a6a5aa8, 0xe40ecf0b, 0x9309ff9d, 0x0a00ae27, 0x7d079eb1,
   0xf00f9344, 0x8708a3d2, 0x1e01f268, 0x6906c2fe, 0xf762575d, 0x806567cb, 0x196c3671, 0x6e6b06e7,
   0xfed41b76, 0x89d32be0, 0x10da7a5a, 0x67dd4acc, 0xf9b9df6f, 0x8ebeeff9, 0x17b7be43, 0x60b08ed5,
   0xd6d6a3e8, 0xa1d1937e, 0x38d8c2c4, 0x4fdff252, 0xd1bb67f1, 0xa6bc5767, 0x3fb506dd, 0x48b2364b,
   0xd80d2bda, 0xaf0a1b4c, 0x36034af6, 0x41047a60, 0xdf60efc3, 0xa867df55, 0x316e8eef, 0x4669be79,
   0xcb61b38c, 0xbc66831a, 0x256fd2a0, 0x5268e236, 0xcc0c7795, 0xbb0b4703, 0x220216b9, 0x5505262f,
   0xc5ba3bbe, 0xb2bd0b28, 0x2bb45a92, 0x5cb36a04, 0xc2d7ffa7, 0xb5d0cf31, 0x2cd99e8b, 0x5bdeae1d,
   0x9b64c2b0, 0xec63f226, 0x756aa39c, 0x026d930a, 0x9c0906a9, 0xeb0e363f, 0x72076785, 0x05005713,
   0x95bf4a82, 0xe2b87a14, 0x7bb12bae, 0x0cb61b38, 0x92d28e9b, 0xe5d5be0d, 0x7cdcefb7, 0x0bdbdf21,
   0x86d3d2d4, 0xf1d4e242, 0x68ddb3f8, 0x1fda836e, 0x81be16cd, 0xf6b9265b, 0x6fb077e1, 0x18b74777,
   0x88085ae6, 0xff0f6a70, 0x66063bca, 0x11010b5c, 0x8f659eff, 0xf862ae69, 0x616bffd3, 0x166ccf45,
   0xa00ae278, 0xd70dd2ee, 0x4e048354, 0x3903b3c2, 0xa7672661, 0xd06016f7, 0x4969474d, 0x3e6e77db,
   0xaed16a4a, 0xd9d65adc, 0x40df0b66, 0x37d83bf0, 0xa9bcae53, 0xdebb9ec5, 0x47b2cf7f, 0x30b5ffe9,
   0xbdbdf21c, 0xcabac28a, 0x53b39330, 0x24b4a3a6, 0xbad03605, 0xcdd70693, 0x54de5729, 0x23d967bf,
   0xb3667a2e, 0xc4614ab8, 0x5d681b02, 0x2a6f2b94, 0xb40bbe37, 0xc30c8ea1, 0x5a05df1b, 0x2d02ef8d]

/-- common/3rd_party/crc32.c:100-101: one round of the loop. -/
def crcByte (crc b : Nat) : Nat := tab.getD ((crc ^^^ b) &&& 0xff) 0 ^^^ (crc >>> 8)

/-- common/3rd_party/crc32.c:92-104 `crc32`. -/
def crc32 (crc : Nat) (buf : List Nat) : Nat :=
  buf.foldl crcByte (crc ^^^ 0xffffffff) ^^^ 0xffffffff

/-- common/3rd_party/base64.c:23-24 `base64_table`. -/
def b64 : List Nat := "ABCDEFGHIJKLMNOPQRSTUVWXYZabcdefghijklmnopqrstuvwxyz0123456789+/".toList.map Char.toNat

def t64 (i : Nat) : Nat := b64.getD i 0

/-- common/3rd_party/base64.c:59-92 the loop of `base64_encode` and what follows it; `ll` is
`line_len`. -/
def encGo : Nat → List Nat → List Nat
  | ll, a :: b :: c :: r =>
    [t64 (a >>> 2), t64 (((a &&& 3) <<< 4) ||| (b >>> 4)), t64 (((b &&& 15) <<< 2) ||| (c >>> 6)),
      t64 (c &&& 0x3f)] ++
    if 72 ≤ ll + 4 then 10 :: encGo 0 r else encGo (ll + 4) r
  | _, [a, b] => [t64 (a >>> 2), t64 (((a &&& 3) <<< 4) ||| (b >>> 4)), t64 ((b &&& 15) <<< 2), 61, 10]
  | _, [a] => [t64 (a >>> 2), t64 ((a &&& 3) <<< 4), 61, 61, 10]
  | ll, [] => if ll = 0 then [] else [10]

/-- common/3rd_party/base64.c:46-51: the size of the buffer (`none`: refused, "integer overflow"). -/
def encSize (len : Nat) : Option Nat :=
  let o1 := (len * 4 % 2 ^ 32 / 3 + 4) % 2 ^ 32
  let o2 := (o1 + o1 / 72) % 2 ^ 32
  let o3 := (o2 + 1) % 2 ^ 32
  if o3 < len then none else some o3

/-- common/3rd_party/base64.c:38-93 `base64_encode`, when `malloc` succeeds: the text, without the
terminating zero. -/
def encode (src : List Nat) : Option (List Nat) := (encSize src.length).map fun _ => encGo 0 src

/-- common/3rd_party/base64.c:113-116: the table of the decoder; 0x80 for characters to be skipped. -/
def dtab (c : Nat) : Nat :=
  if c = 61 then 0 else if b64.idxOf c < 64 then b64.idxOf c else 0x80

/-- The state of the loop of the decoder: `block`, `pad`, the bytes up to `pos`, the highest number of
bytes of the buffer that have been written (ghost), whether the padding was found invalid. -/
structure D where
  block : List Nat
  pad : Nat
  out : List Nat
  top : Nat
  bad : Bool
  deriving DecidableEq, Repr

/-- common/3rd_party/base64.c:143-145: three bytes from a block. -/
def three (l : List Nat) : List Nat :=
  match l with
  | [a, b, c, d] => [((a <<< 2) ||| (b >>> 4)) % 256, ((b <<< 4) ||| (c >>> 2)) % 256,
      ((c <<< 6) ||| d) % 256]
  | _ => []

/-- common/3rd_party/base64.c:132-160: the loop of `base64_decode`. -/
def decGo : D → List Nat → D
  | s, [] => s
  | s, c :: r =>
    if dtab c = 0x80 then decGo s r
    else
      if s.block.length = 3 then
        if (if c = 61 then s.pad + 1 else s.pad) = 0 then
          decGo ⟨[], 0, s.out ++ three (s.block ++ [dtab c]), s.out.length + 3, false⟩ r
        else if (if c = 61 then s.pad + 1 else s.pad) = 1 then
          ⟨[], 1, s.out ++ (three (s.block ++ [dtab c])).take 2, s.out.length + 3, false⟩
        else if (if c = 61 then s.pad + 1 else s.pad) = 2 then
          ⟨[], 2, s.out ++ (three (s.block ++ [dtab c])).take 1, s.out.length + 3, false⟩
        else ⟨[], 3, s.out, s.out.length + 3, true⟩
      else decGo ⟨s.block ++ [dtab c], if c = 61 then s.pad + 1 else s.pad, s.out, s.top, s.bad⟩ r

/-- common/3rd_party/base64.c:118-122: the characters that count. -/
def count (src : List Nat) : Nat := (src.filter fun c => dtab c ≠ 0x80).length

/-- common/3rd_party/base64.c:127: the size of the buffer of the decoder. -/
def decSize (src : List Nat) : Nat := count src / 4 * 3

/-- common/3rd_party/base64.c:106-164 `base64_decode`, when `malloc` succeeds. -/
def decode (src : List Nat) : Option (List Nat) :=
  if count src = 0 ∨ count src % 4 ≠ 0 then none
  else if (decGo ⟨[], 0, [], 0, false⟩ src).bad then none
  else some (decGo ⟨[], 0, [], 0, false⟩ src).out

/-! ## Specification -/

def Bytes (l : List Nat) : Prop := ∀ b ∈ l, b < 256

/-- The shift register of CRC-32 (IEEE 802.3, reflected): one bit goes in. -/
def lfsr (reg : Nat) (bit : Bool) : Nat :=
  if (reg.testBit 0) != bit then reg / 2 ^^^ 0xEDB88320 else reg / 2

/-- The bits of a byte, the lowest first. -/
def bitsOf (b : Nat) : List Bool := (List.range 8).map b.testBit

/-- CRC-32: register all ones, all the bits, complement. -/
def crcSpec (l : List Nat) : Nat :=
  (l.flatMap bitsOf).foldl lfsr (2 ^ 32 - 1) ^^^ (2 ^ 32 - 1)

/-- RFC 4648: groups of 24 bits, as four digits to the base of 64; a short group is filled with zero
bits and its missing digits are written `=`. -/
def alphabet : String := "ABCDEFGHIJKLMNOPQRSTUVWXYZabcdefghijklmnopqrstuvwxyz0123456789+/"
def digit (n : Nat) : Nat := (alphabet.toList.getD (n % 64) 'A').toNat
def rfc : List Nat → List Nat
  | a :: b :: c :: r =>
    let n := a * 65536 + b * 256 + c
    digit (n / 262144) :: digit (n / 4096) :: digit (n / 64) :: digit n :: rfc r
  | [a, b] => let n := a * 65536 + b * 256; [digit (n / 262144), digit (n / 4096), digit (n / 64), 61]
  | [a] => let n := a * 65536; [digit (n / 262144), digit (n / 4096), 61, 61]
  | [] => []


/-- MIME: lines of at most 72 characters, each ended by a newline. -/
def wrap (t : List Nat) : List Nat :=
  if t = [] then [] else t.take 72 ++ 10 :: wrap (t.drop 72)
  termination_by t.length
  decreasing_by
    have : 0 < t.length := List.length_pos_iff.mpr ‹_›
    simp only [List.length_drop]; omega

/-- The characters of a base64 text; a decoder passes over all the others. -/
def Sig (c : Nat) : Bool := decide (c = 61 ∨ c ∈ alphabet.toList.map Char.toNat)

/-! ## CRC-32 -/

def P : Nat := 0xEDB88320

/-- One shift of the register. -/
def sh (x : Nat) : Nat := (x >>> 1) ^^^ (if x.testBit 0 then P else 0)

theorem shr1 (x : Nat) : x >>> 1 = x / 2 := by simp [Nat.shiftRight_eq_div_pow]

theorem sh_xor (x y : Nat) : sh (x ^^^ y) = sh x ^^^ sh y := by
  unfold sh
  rw [Nat.shiftRight_xor_distrib, Nat.testBit_xor]
  cases x.testBit 0 <;> cases y.testBit 0 <;> simp
  · rw [Nat.xor_assoc]
  · rw [Nat.xor_assoc, Nat.xor_comm (y >>> 1), Nat.xor_assoc]
  · rw [Nat.xor_assoc, ← Nat.xor_assoc P, Nat.xor_comm P, Nat.xor_assoc, Nat.xor_self]; simp

def shs : Nat → Nat → Nat
  | 0, x => x
  | n + 1, x => shs n (sh x)

theorem shs_xor (n x y : Nat) : shs n (x ^^^ y) = shs n x ^^^ shs n y := by
  induction n generalizing x y with
  | zero => rfl
  | succ n ih => show shs n (sh (x ^^^ y)) = _; rw [sh_xor, ih]; rfl

theorem sh_even (x : Nat) : sh (2 * x) = x := by
  unfold sh
  have h : (2 * x).testBit 0 = false := by simp [Nat.testBit_zero]
  rw [h]
  simp [shr1]

theorem shs_shift (n x : Nat) : shs n (2 ^ n * x) = x := by
  induction n generalizing x with
  | zero => simp [shs]
  | succ n ih =>
    show shs n (sh (2 ^ (n + 1) * x)) = x
    have : 2 ^ (n + 1) * x = 2 * (2 ^ n * x) := by rw [Nat.pow_succ]; ac_rfl
    rw [this, sh_even, ih]

/-- The table is right: each of its 256 entries is what eight shifts make of its index. -/
theorem tab_ok : ∀ i, i < 256 → tab.getD i 0 = shs 8 i := by
  have h : (List.range 256).all (fun i => tab.getD i 0 == shs 8 i) = true := by decide +kernel
  intro i hi
  have := List.all_eq_true.mp h i (List.mem_range.mpr hi)
  exact beq_iff_eq.mp this

theorem split8 (x : Nat) : x = (x % 256) ^^^ (2 ^ 8 * (x / 256)) := by
  apply Nat.eq_of_testBit_eq
  intro i
  have h256 : (256 : Nat) = 2 ^ 8 := rfl
  rw [Nat.testBit_xor, h256, Nat.testBit_mod_two_pow, Nat.testBit_two_pow_mul, Nat.testBit_div_two_pow]
  by_cases h : i < 8
  · have h2 : ¬ 8 ≤ i := by omega
    simp [h, h2]
  · have h2 : 8 ≤ i := by omega
    have h3 : i - 8 + 8 = i := by omega
    simp [h, h2, h3]

theorem crcByte_eq (crc b : Nat) (hb : b < 256) : crcByte crc b = shs 8 (crc ^^^ b) := by
  have h1 : (crc ^^^ b) &&& 0xff = (crc ^^^ b) % 256 := Nat.and_two_pow_sub_one_eq_mod _ 8
  have h2 : (crc ^^^ b) / 256 = crc >>> 8 := by
    have : (crc ^^^ b) >>> 8 = crc >>> 8 ^^^ b >>> 8 := Nat.shiftRight_xor_distrib
    rw [Nat.shiftRight_eq_div_pow] at this
    have hb0 : b >>> 8 = 0 := by rw [Nat.shiftRight_eq_div_pow]; exact Nat.div_eq_of_lt hb
    rw [hb0, Nat.xor_zero] at this
    exact this
  unfold crcByte
  rw [h1, tab_ok _ (Nat.mod_lt _ (by decide))]
  conv => rhs; rw [split8 (crc ^^^ b)]
  rw [shs_xor, shs_shift, h2]

/-- Eight steps of the register of the specification. -/
theorem lfsr_sh (x : Nat) (y : Nat) : lfsr x (y.testBit 0) = sh (x ^^^ y) ^^^ (y / 2) := by
  unfold lfsr sh
  rw [Nat.testBit_xor, Nat.shiftRight_xor_distrib, shr1, shr1]
  have hx : ∀ a b c : Nat, ((a ^^^ b) ^^^ c) ^^^ b = a ^^^ c := by
    intro a b c
    rw [Nat.xor_assoc, Nat.xor_assoc, ← Nat.xor_assoc b, Nat.xor_comm b c, Nat.xor_assoc, Nat.xor_self]
    simp
  rw [hx]
  cases x.testBit 0 <;> cases y.testBit 0 <;> simp [P]

theorem lfsr_bits (n x y : Nat) :
    ((List.range n).map y.testBit).foldl lfsr x = shs n (x ^^^ (y % 2 ^ n)) := by
  induction n generalizing x y with
  | zero => simp [shs, Nat.mod_one]
  | succ n ih =>
    rw [List.range_succ_eq_map]
    simp only [List.map_cons, List.foldl_cons, List.map_map]
    have h : (y.testBit ∘ Nat.succ) = (y / 2).testBit := by
      funext i; simp [Nat.testBit_succ]
    rw [h, ih]
    show _ = shs n (sh (x ^^^ (y % 2 ^ (n + 1))))
    congr 1
    have h0 : (y % 2 ^ (n + 1)).testBit 0 = y.testBit 0 := by
      rw [Nat.testBit_mod_two_pow]; simp
    have h1 : y % 2 ^ (n + 1) / 2 = (y / 2) % 2 ^ n := by
      rw [Nat.pow_succ, Nat.mul_comm, Nat.mod_mul_right_div_self]
    rw [← h0, lfsr_sh, h1, Nat.xor_assoc, Nat.xor_self, Nat.xor_zero]

theorem foldl_bits (l : List Nat) (hl : Bytes l) (x : Nat) :
    (l.flatMap bitsOf).foldl lfsr x = l.foldl crcByte x := by
  induction l generalizing x with
  | nil => rfl
  | cons b l ih =>
    have hb : b < 256 := hl b (List.mem_cons_self ..)
    rw [List.flatMap_cons, List.foldl_append, List.foldl_cons,
      ih (fun c hc => hl c (List.mem_cons_of_mem _ hc))]
    congr 1
    unfold bitsOf
    rw [lfsr_bits, crcByte_eq _ _ hb, Nat.mod_eq_of_lt hb]

/-- **C151.** The table-driven computation gives the CRC-32 of every sequence of bytes. -/
theorem crc32_is_crc (l : List Nat) (hl : Bytes l) : crc32 0 l = crcSpec l := by
  unfold crc32 crcSpec
  rw [Nat.zero_xor, foldl_bits l hl]

/-- **C151.** The checksum can be computed piece by piece. -/
theorem crc32_append (c : Nat) (a b : List Nat) : crc32 (crc32 c a) b = crc32 c (a ++ b) := by
  unfold crc32
  rw [List.foldl_append, Nat.xor_assoc, Nat.xor_self, Nat.xor_zero]

theorem xor_cancel {a b c : Nat} (h : a ^^^ c = b ^^^ c) : a = b := by
  have := congrArg (· ^^^ c) h
  simpa [Nat.xor_assoc] using this

/-- The register can be run backwards. -/
theorem sh_inj {x y : Nat} (hx : x < 2 ^ 32) (hy : y < 2 ^ 32) (h : sh x = sh y) : x = y := by
  have key : ∀ z, z < 2 ^ 32 → (sh z).testBit 31 = z.testBit 0 := by
    intro z hz
    unfold sh
    rw [Nat.testBit_xor, Nat.testBit_shiftRight]
    have : z.testBit 32 = false := Nat.testBit_lt_two_pow hz
    rw [this]
    cases z.testBit 0 <;> decide
  have h0 : x.testBit 0 = y.testBit 0 := by rw [← key x hx, ← key y hy, h]
  unfold sh at h
  rw [h0] at h
  have h1 : x >>> 1 = y >>> 1 := xor_cancel h
  apply Nat.eq_of_testBit_eq
  intro i
  cases i with
  | zero => exact h0
  | succ i =>
    have := congrArg (fun z => z.testBit i) h1
    simpa [Nat.testBit_shiftRight, Nat.add_comm] using this

theorem sh_lt {x : Nat} (hx : x < 2 ^ 32) : sh x < 2 ^ 32 := by
  unfold sh
  apply Nat.xor_lt_two_pow
  · rw [shr1]; omega
  · split <;> decide

theorem shs_lt (n : Nat) {x : Nat} (hx : x < 2 ^ 32) : shs n x < 2 ^ 32 := by
  induction n generalizing x with
  | zero => exact hx
  | succ n ih => exact ih (sh_lt hx)

theorem shs_inj (n : Nat) {x y : Nat} (hx : x < 2 ^ 32) (hy : y < 2 ^ 32) (h : shs n x = shs n y) :
    x = y := by
  induction n generalizing x y with
  | zero => exact h
  | succ n ih => exact sh_inj hx hy (ih (sh_lt hx) (sh_lt hy) h)

theorem crcByte_lt {c b : Nat} (hc : c < 2 ^ 32) (hb : b < 256) : crcByte c b < 2 ^ 32 := by
  rw [crcByte_eq c b hb]
  exact shs_lt 8 (Nat.xor_lt_two_pow hc (Nat.lt_trans hb (by decide)))

theorem fold_lt {c : Nat} (hc : c < 2 ^ 32) {l : List Nat} (hl : Bytes l) :
    l.foldl crcByte c < 2 ^ 32 := by
  induction l generalizing c with
  | nil => exact hc
  | cons b l ih =>
    exact ih (crcByte_lt hc (hl b (List.mem_cons_self ..)))
      (fun d hd => hl d (List.mem_cons_of_mem _ hd))

theorem fold_inj {c d : Nat} (hc : c < 2 ^ 32) (hd : d < 2 ^ 32) {l : List Nat} (hl : Bytes l)
    (h : l.foldl crcByte c = l.foldl crcByte d) : c = d := by
  induction l generalizing c d with
  | nil => exact h
  | cons b l ih =>
    have hb : b < 256 := hl b (List.mem_cons_self ..)
    have := ih (crcByte_lt hc hb) (crcByte_lt hd hb) (fun d hd => hl d (List.mem_cons_of_mem _ hd)) h
    rw [crcByte_eq _ _ hb, crcByte_eq _ _ hb] at this
    have h32 : b < 2 ^ 32 := Nat.lt_trans hb (by decide)
    exact xor_cancel (shs_inj 8 (Nat.xor_lt_two_pow hc h32) (Nat.xor_lt_two_pow hd h32) this)

/-- Up to four bytes as one number. -/
def word : List Nat → Nat
  | [] => 0
  | b :: l => b + 256 * word l

theorem shs_add (m n x : Nat) : shs (m + n) x = shs n (shs m x) := by
  induction m generalizing x with
  | zero => simp [shs]
  | succ m ih => rw [Nat.succ_add]; exact ih (sh x)

theorem word_cons (b w : Nat) (hb : b < 256) : b + 256 * w = b ^^^ (2 ^ 8 * w) := by
  have h := split8 (b + 256 * w)
  rw [Nat.add_mul_mod_self_left, Nat.mod_eq_of_lt hb, Nat.add_mul_div_left _ _ (by decide),
    Nat.div_eq_of_lt hb, Nat.zero_add] at h
  exact h

theorem fold_word (c : Nat) (l : List Nat) (hl : Bytes l) :
    l.foldl crcByte c = shs (8 * l.length) (c ^^^ word l) := by
  induction l generalizing c with
  | nil => simp [shs, word]
  | cons b l ih =>
    have hb : b < 256 := hl b (List.mem_cons_self ..)
    rw [List.foldl_cons, ih _ (fun d hd => hl d (List.mem_cons_of_mem _ hd)), crcByte_eq _ _ hb]
    have : 8 * (b :: l).length = 8 + 8 * l.length := by simp; omega
    rw [this, shs_add]
    congr 1
    show _ = shs 8 (c ^^^ (b + 256 * word l))
    rw [word_cons _ _ hb, ← Nat.xor_assoc, shs_xor 8 (c ^^^ b), shs_shift]

theorem word_inj {a b : List Nat} (ha : Bytes a) (hb : Bytes b) (hl : a.length = b.length)
    (h : word a = word b) : a = b := by
  induction a generalizing b with
  | nil => cases b with
    | nil => rfl
    | cons _ _ => simp at hl
  | cons x a ih =>
    cases b with
    | nil => simp at hl
    | cons y b =>
      have hx : x < 256 := ha x (List.mem_cons_self ..)
      have hy : y < 256 := hb y (List.mem_cons_self ..)
      have h : x + 256 * word a = y + 256 * word b := h
      have h1 : x = y := by omega
      have h2 : word a = word b := by omega
      rw [h1, ih (fun d hd => ha d (List.mem_cons_of_mem _ hd))
        (fun d hd => hb d (List.mem_cons_of_mem _ hd)) (by simpa using hl) h2]

theorem word_lt {a : List Nat} (ha : Bytes a) (hl : a.length ≤ 4) : word a < 2 ^ 32 := by
  have key : ∀ (l : List Nat), Bytes l → word l < 256 ^ l.length := by
    intro l hl
    induction l with
    | nil => simp [word]
    | cons b l ih =>
      have hb : b < 256 := hl b (List.mem_cons_self ..)
      have := ih (fun d hd => hl d (List.mem_cons_of_mem _ hd))
      show b + 256 * word l < 256 ^ (l.length + 1)
      rw [Nat.pow_succ]; omega
  have h1 := key a ha
  have h2 : 256 ^ a.length ≤ 256 ^ 4 := Nat.pow_le_pow_right (by decide) hl
  have h3 : (256 : Nat) ^ 4 = 2 ^ 32 := by decide
  omega

/-- **C151.** Every damage that is confined to four consecutive bytes is detected: messages that
differ there have different checksums. -/
theorem burst_detected (pre mid mid' post : List Nat) (h1 : Bytes pre) (h2 : Bytes mid)
    (h3 : Bytes mid') (h4 : Bytes post) (hl : mid.length = mid'.length) (h5 : mid.length ≤ 4)
    (hne : mid ≠ mid') : crc32 0 (pre ++ mid ++ post) ≠ crc32 0 (pre ++ mid' ++ post) := by
  intro h
  unfold crc32 at h
  have h := xor_cancel h
  rw [List.foldl_append, List.foldl_append, List.foldl_append, List.foldl_append] at h
  have hc : pre.foldl crcByte (0 ^^^ 0xffffffff) < 2 ^ 32 := fold_lt (by decide) h1
  have h := fold_inj (fold_lt hc h2) (fold_lt hc h3) h4 h
  rw [fold_word _ _ h2, fold_word _ _ h3, ← hl] at h
  have h := shs_inj _ (Nat.xor_lt_two_pow hc (word_lt h2 h5))
    (Nat.xor_lt_two_pow hc (word_lt h3 (by omega))) h
  rw [Nat.xor_comm, Nat.xor_comm _ (word mid')] at h
  exact hne (word_inj h2 h3 hl (xor_cancel h))

/-- The usual check value; a changed message. -/
example : crc32 0 [49, 50, 51, 52, 53, 54, 55, 56, 57] = 0xCBF43926 ∧
    crc32 0 [49, 50, 51, 52, 53, 54, 55, 56, 58] ≠ 0xCBF43926 := by decide +kernel

/-! ## Base64 -/

theorem t64_digit (i : Nat) (hi : i < 64) : t64 i = digit i := by
  have h : (List.range 64).all (fun i => t64 i == digit i) = true := by decide +kernel
  exact beq_iff_eq.mp (List.all_eq_true.mp h i (List.mem_range.mpr hi))

theorem digit_mod (n m : Nat) (h : n % 64 = m % 64) : digit n = digit m := by
  unfold digit; rw [h]

theorem and3 (a : Nat) : a &&& 3 = a % 4 := Nat.and_two_pow_sub_one_eq_mod a 2
theorem and15 (a : Nat) : a &&& 15 = a % 16 := Nat.and_two_pow_sub_one_eq_mod a 4
theorem and63 (a : Nat) : a &&& 0x3f = a % 64 := Nat.and_two_pow_sub_one_eq_mod a 6
theorem shl_or (a b n : Nat) (h : b < 2 ^ n) : (a <<< n) ||| b = a * 2 ^ n + b := by
  rw [← Nat.shiftLeft_add_eq_or_of_lt h, Nat.shiftLeft_eq]
theorem shr (a n : Nat) : a >>> n = a / 2 ^ n := Nat.shiftRight_eq_div_pow a n

theorem g1 {a : Nat} (ha : a < 256) : t64 (a >>> 2) = digit (a / 4) := by
  rw [shr]; exact t64_digit _ (by show a / 4 < 64; omega)
theorem g2 {a b : Nat} (hb : b < 256) :
    t64 (((a &&& 3) <<< 4) ||| (b >>> 4)) = digit (a % 4 * 16 + b / 16) := by
  rw [and3, shr, shl_or _ _ _ (by show b / 16 < 16; omega)]
  exact t64_digit _ (by show a % 4 * 16 + b / 16 < 64; omega)
theorem g3 {b c : Nat} (hc : c < 256) :
    t64 (((b &&& 15) <<< 2) ||| (c >>> 6)) = digit (b % 16 * 4 + c / 64) := by
  rw [and15, shr, shl_or _ _ _ (by show c / 64 < 4; omega)]
  exact t64_digit _ (by show b % 16 * 4 + c / 64 < 64; omega)
theorem g4 {c : Nat} : t64 (c &&& 0x3f) = digit c := by
  rw [and63, t64_digit _ (by omega)]; exact digit_mod _ _ (by omega)
theorem g5 {a : Nat} : t64 ((a &&& 3) <<< 4) = digit (a % 4 * 16) := by
  rw [and3, Nat.shiftLeft_eq]; exact t64_digit _ (by show a % 4 * 16 < 64; omega)
theorem g6 {a : Nat} : t64 ((a &&& 15) <<< 2) = digit (a % 16 * 4) := by
  rw [and15, Nat.shiftLeft_eq]; exact t64_digit _ (by show a % 16 * 4 < 64; omega)

/-- The four characters of a group. -/
theorem rfc3 {a b c : Nat} (ha : a < 256) (hb : b < 256) (hc : c < 256) (r : List Nat) :
    rfc (a :: b :: c :: r) = digit (a / 4) :: digit (a % 4 * 16 + b / 16) ::
      digit (b % 16 * 4 + c / 64) :: digit c :: rfc r := by
  rw [rfc]
  rw [digit_mod (n := (a * 65536 + b * 256 + c) / 262144) (m := a / 4) (by omega),
    digit_mod (n := (a * 65536 + b * 256 + c) / 4096) (m := a % 4 * 16 + b / 16) (by omega),
    digit_mod (n := (a * 65536 + b * 256 + c) / 64) (m := b % 16 * 4 + c / 64) (by omega),
    digit_mod (n := a * 65536 + b * 256 + c) (m := c) (by omega)]
theorem rfc2 {a b : Nat} (ha : a < 256) (hb : b < 256) :
    rfc [a, b] = [digit (a / 4), digit (a % 4 * 16 + b / 16), digit (b % 16 * 4), 61] := by
  rw [rfc]
  rw [digit_mod (n := (a * 65536 + b * 256) / 262144) (m := a / 4) (by omega),
    digit_mod (n := (a * 65536 + b * 256) / 4096) (m := a % 4 * 16 + b / 16) (by omega),
    digit_mod (n := (a * 65536 + b * 256) / 64) (m := b % 16 * 4) (by omega)]
theorem rfc1 {a : Nat} (ha : a < 256) :
    rfc [a] = [digit (a / 4), digit (a % 4 * 16), 61, 61] := by
  rw [rfc]
  rw [digit_mod (n := (a * 65536) / 262144) (m := a / 4) (by omega),
    digit_mod (n := (a * 65536) / 4096) (m := a % 4 * 16) (by omega)]

/-- The lines, character by character; `ll` characters of the line are out already. -/
def wrapGo : Nat → List Nat → List Nat
  | ll, [] => if ll = 0 then [] else [10]
  | ll, c :: t => c :: if ll + 1 = 72 then 10 :: wrapGo 0 t else wrapGo (ll + 1) t

theorem wrapGo_take (ll : Nat) (hl : ll < 72) (t : List Nat) (ht : t ≠ [] ∨ ll ≠ 0) :
    wrapGo ll t = t.take (72 - ll) ++ 10 :: wrapGo 0 (t.drop (72 - ll)) := by
  induction t generalizing ll with
  | nil =>
    have : ll ≠ 0 := by rcases ht with h | h; exact absurd rfl h; exact h
    simp [wrapGo, this]
  | cons c t ih =>
    rw [wrapGo]
    by_cases h : ll + 1 = 72
    · have h71 : ll = 71 := by omega
      subst h71; simp
    · rw [if_neg h, ih (ll + 1) (by omega) (Or.inr (by omega))]
      have : 72 - ll = (72 - (ll + 1)) + 1 := by omega
      rw [this]; simp

theorem wrapGo_eq (n : Nat) : ∀ t : List Nat, t.length ≤ n → wrapGo 0 t = wrap t := by
  induction n with
  | zero =>
    intro t ht
    have : t = [] := List.eq_nil_of_length_eq_zero (by omega)
    subst this; rw [wrap]; rfl
  | succ n ih =>
    intro t ht
    rw [wrap]
    by_cases h : t = []
    · subst h; rfl
    · rw [if_neg h, wrapGo_take 0 (by decide) t (Or.inl h)]
      have h0 : 0 < t.length := List.length_pos_iff.mpr h
      rw [ih (t.drop (72 - 0)) (by simp only [List.length_drop]; omega)]

theorem wrapGo4 {ll : Nat} (hl : ll < 72) (h4 : ll % 4 = 0) (p q r s : Nat) (t : List Nat) :
    wrapGo ll (p :: q :: r :: s :: t) =
      [p, q, r, s] ++ if 72 ≤ ll + 4 then 10 :: wrapGo 0 t else wrapGo (ll + 4) t := by
  rw [wrapGo, if_neg (by omega), wrapGo, if_neg (by omega), wrapGo, if_neg (by omega), wrapGo]
  by_cases h : 72 ≤ ll + 4
  · rw [if_pos h, if_pos (by omega)]; rfl
  · rw [if_neg h, if_neg (by omega)]; rfl

theorem encGo_eq : ∀ (ll : Nat) (l : List Nat), ll < 72 → ll % 4 = 0 → Bytes l →
    encGo ll l = wrapGo ll (rfc l)
  | ll, [], _, _, _ => by rw [encGo, rfc, wrapGo]
  | ll, [a], h1, h2, hb => by
    have ha : a < 256 := hb a (by simp)
    rw [encGo, rfc1 ha, wrapGo4 h1 h2, g1 ha, g5]
    by_cases h : 72 ≤ ll + 4
    · rw [if_pos h]; rfl
    · rw [if_neg h, wrapGo, if_neg (by omega)]; rfl
  | ll, [a, b], h1, h2, hb => by
    have ha : a < 256 := hb a (by simp)
    have hb' : b < 256 := hb b (by simp)
    rw [encGo, rfc2 ha hb', wrapGo4 h1 h2, g1 ha, g2 hb', g6]
    by_cases h : 72 ≤ ll + 4
    · rw [if_pos h]; rfl
    · rw [if_neg h, wrapGo, if_neg (by omega)]; rfl
  | ll, a :: b :: c :: r, h1, h2, hb => by
    have ha : a < 256 := hb a (by simp)
    have hb' : b < 256 := hb b (by simp)
    have hc : c < 256 := hb c (by simp)
    have hr : Bytes r := fun x hx => hb x (by simp [hx])
    rw [encGo, rfc3 ha hb' hc, wrapGo4 h1 h2, g1 ha, g2 hb', g3 hc, g4]
    by_cases h : 72 ≤ ll + 4
    · rw [if_pos h, if_pos h, encGo_eq 0 r (by decide) rfl hr]
    · rw [if_neg h, if_neg h, encGo_eq (ll + 4) r (by omega) (by omega) hr]

theorem encSize_some (len : Nat) (h : len < 2 ^ 30) :
    encSize len = some (len * 4 / 3 + 4 + (len * 4 / 3 + 4) / 72 + 1) := by
  unfold encSize
  have e1 : len * 4 % 2 ^ 32 = len * 4 := Nat.mod_eq_of_lt (by omega)
  have e2 : (len * 4 / 3 + 4) % 2 ^ 32 = len * 4 / 3 + 4 := Nat.mod_eq_of_lt (by omega)
  have e3 : (len * 4 / 3 + 4 + (len * 4 / 3 + 4) / 72) % 2 ^ 32
    = len * 4 / 3 + 4 + (len * 4 / 3 + 4) / 72 := Nat.mod_eq_of_lt (by omega)
  have e4 : (len * 4 / 3 + 4 + (len * 4 / 3 + 4) / 72 + 1) % 2 ^ 32
    = len * 4 / 3 + 4 + (len * 4 / 3 + 4) / 72 + 1 := Nat.mod_eq_of_lt (by omega)
  dsimp only
  rw [e1, e2, e3, e4, if_neg (by omega)]

theorem encSize_none (len : Nat) (h1 : 2 ^ 30 ≤ len) (h2 : len < 2 ^ 32) : encSize len = none := by
  unfold encSize
  dsimp only
  have e2 : (len * 4 % 2 ^ 32 / 3 + 4) % 2 ^ 32 = len * 4 % 2 ^ 32 / 3 + 4 :=
    Nat.mod_eq_of_lt (by omega)
  have e3 : (len * 4 % 2 ^ 32 / 3 + 4 + (len * 4 % 2 ^ 32 / 3 + 4) / 72) % 2 ^ 32
    = len * 4 % 2 ^ 32 / 3 + 4 + (len * 4 % 2 ^ 32 / 3 + 4) / 72 := Nat.mod_eq_of_lt (by omega)
  have e4 : (len * 4 % 2 ^ 32 / 3 + 4 + (len * 4 % 2 ^ 32 / 3 + 4) / 72 + 1) % 2 ^ 32
    = len * 4 % 2 ^ 32 / 3 + 4 + (len * 4 % 2 ^ 32 / 3 + 4) / 72 + 1 := Nat.mod_eq_of_lt (by omega)
  rw [e2, e3, e4]
  have e5 : len * 4 % 2 ^ 32 + 2 ^ 32 ≤ len * 4 := by omega
  rw [if_pos (by omega)]

/-- **C152.** The encoder gives the base64 text of RFC 4648, in lines of 72 characters; it refuses
exactly the inputs of 2^30 bytes and more. -/
theorem encode_correct (l : List Nat) (hl : Bytes l) (hlen : l.length < 2 ^ 32) :
    encode l = if l.length < 2 ^ 30 then some (wrap (rfc l)) else none := by
  unfold encode
  by_cases h : l.length < 2 ^ 30
  · rw [if_pos h, encSize_some _ h, encGo_eq 0 l (by decide) rfl hl,
      wrapGo_eq _ _ (Nat.le_refl _)]; rfl
  · rw [if_neg h, encSize_none _ (by omega) hlen]; rfl

theorem encGo_length : ∀ (ll : Nat) (l : List Nat), ll < 72 → ll % 4 = 0 →
    72 * (encGo ll l).length ≤ 73 * (4 * ((l.length + 2) / 3)) + ll + 71
  | ll, [], h1, h2 => by
    rw [encGo]
    by_cases h : ll = 0
    · rw [if_pos h]; simp
    · rw [if_neg h]; simp; omega
  | ll, [a], h1, h2 => by rw [encGo]; simp; omega
  | ll, [a, b], h1, h2 => by rw [encGo]; simp; omega
  | ll, a :: b :: c :: r, h1, h2 => by
    rw [encGo]
    by_cases h : 72 ≤ ll + 4
    · have := encGo_length 0 r (by decide) rfl
      rw [if_pos h]; simp; omega
    · have := encGo_length (ll + 4) r (by omega) (by omega)
      rw [if_neg h]; simp; omega

/-- **C152.** Whatever is encoded, the text and its terminating zero fit in the buffer. -/
theorem encode_fits (l : List Nat) (hlen : l.length < 2 ^ 32) (n : Nat)
    (h : encSize l.length = some n) : (encGo 0 l).length + 1 ≤ n := by
  by_cases h30 : l.length < 2 ^ 30
  · rw [encSize_some _ h30] at h
    have := Option.some.inj h
    have h2 := encGo_length 0 l (by decide) rfl
    have h3 : l.length = 3 * ((l.length + 2) / 3) ∨ l.length + 1 = 3 * ((l.length + 2) / 3) ∨
      l.length + 2 = 3 * ((l.length + 2) / 3) := by omega
    generalize (l.length + 2) / 3 = d at h2 h3
    rcases h3 with h3 | h3 | h3
    · have h4 : l.length * 4 / 3 = 4 * d := by omega
      rw [h4] at this
      omega
    · have h4 : l.length * 4 / 3 + 2 = 4 * d := by omega
      omega
    · have h4 : l.length * 4 / 3 + 3 = 4 * d := by omega
      omega
  · rw [encSize_none _ (by omega) hlen] at h
    exact absurd h (by simp)

theorem sig_iff (c : Nat) (hc : c < 256) : Sig c = decide (dtab c ≠ 0x80) := by
  have h : (List.range 256).all (fun c => Sig c == decide (dtab c ≠ 0x80)) = true := by decide +kernel
  exact beq_iff_eq.mp (List.all_eq_true.mp h c (List.mem_range.mpr hc))

theorem dtab_digit (n : Nat) : dtab (digit n) = n % 64 ∧ digit n ≠ 61 := by
  have h : (List.range 64).all (fun n => dtab (digit n) == n && digit n != 61) = true := by
    decide +kernel
  have := List.all_eq_true.mp h (n % 64) (List.mem_range.mpr (by omega))
  have e : digit n = digit (n % 64) := digit_mod _ _ (by omega)
  rw [e]
  simp only [Bool.and_eq_true, beq_iff_eq, bne_iff_ne] at this
  exact this

theorem dtab61 : dtab 61 = 0 := by decide +kernel

theorem decGo_skip (s : D) (t : List Nat) :
    decGo s t = decGo s (t.filter fun c => dtab c ≠ 0x80) := by
  induction t generalizing s with
  | nil => rfl
  | cons c r ih =>
    by_cases h : dtab c = 0x80
    · rw [decGo, if_pos h, List.filter_cons_of_neg (by simp [h])]
      exact ih s
    · rw [List.filter_cons_of_pos (by simp [h]), decGo, decGo, if_neg h, if_neg h, ih, ih]

/-- A digit that does not complete a block. -/
theorem dec_put (b o : List Nat) (p w : Nat) (n : Nat) (r : List Nat) (hb : b.length < 3) :
    decGo ⟨b, p, o, w, false⟩ (digit n :: r) = decGo ⟨b ++ [n % 64], p, o, w, false⟩ r := by
  obtain ⟨h1, h2⟩ := dtab_digit n
  rw [decGo, h1, if_neg (by omega)]
  show (if b.length = 3 then _ else _) = _
  rw [if_neg (by omega), if_neg h2]

theorem dec_pad (b o : List Nat) (p w : Nat) (r : List Nat) (hb : b.length < 3) :
    decGo ⟨b, p, o, w, false⟩ (61 :: r) = decGo ⟨b ++ [0], p + 1, o, w, false⟩ r := by
  rw [decGo, dtab61, if_neg (by omega)]
  show (if b.length = 3 then _ else _) = _
  rw [if_neg (by omega), if_pos rfl]

theorem dec_full (b o : List Nat) (w : Nat) (n : Nat) (r : List Nat) (hb : b.length = 3) :
    decGo ⟨b, 0, o, w, false⟩ (digit n :: r) =
      decGo ⟨[], 0, o ++ three (b ++ [n % 64]), o.length + 3, false⟩ r := by
  obtain ⟨h1, h2⟩ := dtab_digit n
  rw [decGo, h1, if_neg (by omega)]
  show (if b.length = 3 then _ else _) = _
  rw [if_pos hb, if_neg h2, if_pos rfl]

theorem dec_end1 (b o : List Nat) (w : Nat) (r : List Nat) (hb : b.length = 3) :
    decGo ⟨b, 0, o, w, false⟩ (61 :: r) =
      ⟨[], 1, o ++ (three (b ++ [0])).take 2, o.length + 3, false⟩ := by
  rw [decGo, dtab61, if_neg (by omega)]
  show (if b.length = 3 then _ else _) = _
  rw [if_pos hb, if_pos rfl]
  rfl

theorem dec_end2 (b o : List Nat) (w : Nat) (r : List Nat) (hb : b.length = 3) :
    decGo ⟨b, 1, o, w, false⟩ (61 :: r) =
      ⟨[], 2, o ++ (three (b ++ [0])).take 1, o.length + 3, false⟩ := by
  rw [decGo, dtab61, if_neg (by omega)]
  show (if b.length = 3 then _ else _) = _
  rw [if_pos hb, if_pos rfl]
  rfl

theorem e1 (x y : Nat) (hy : y < 64) : ((x <<< 2) ||| (y >>> 4)) % 256 = (x * 4 + y / 16) % 256 := by
  rw [shr, shl_or _ _ _ (by show y / 16 < 4; omega)]
theorem e2 (x y : Nat) (hy : y < 64) : ((x <<< 4) ||| (y >>> 2)) % 256 = (x * 16 + y / 4) % 256 := by
  rw [shr, shl_or _ _ _ (by show y / 4 < 16; omega)]
theorem e3 (x y : Nat) (hy : y < 64) : ((x <<< 6) ||| y) % 256 = (x * 64 + y) % 256 := by
  rw [shl_or _ _ _ (by show y < 64; omega)]

theorem three_eq (p q r s : Nat) (hq : q < 64) (hr : r < 64) (hs : s < 64) :
    three [p, q, r, s] = [(p * 4 + q / 16) % 256, (q * 16 + r / 4) % 256, (r * 64 + s) % 256] := by
  show [_, _, _] = _
  rw [e1 p q hq, e2 q r hr, e3 r s hs]

theorem decGo_rfc : ∀ (l : List Nat), Bytes l → ∀ (o : List Nat) (w : Nat),
    (decGo ⟨[], 0, o, w, false⟩ (rfc l)).out = o ++ l ∧
      (decGo ⟨[], 0, o, w, false⟩ (rfc l)).bad = false
  | [], _, o, w => by rw [rfc, decGo]; simp
  | [a], hb, o, w => by
    have ha : a < 256 := hb a (by simp)
    rw [rfc1 ha, dec_put _ _ _ _ _ _ (by simp), dec_put _ _ _ _ _ _ (by simp),
      dec_pad _ _ _ _ _ (by simp), dec_end2 _ _ _ _ (by simp)]
    refine ⟨?_, rfl⟩
    show o ++ (three [_, _, _, _]).take 1 = _
    rw [three_eq _ _ _ _ (by omega) (by omega) (by omega)]
    congr 1
    show [_] = [a]
    congr 1; omega
  | [a, b], hb, o, w => by
    have ha : a < 256 := hb a (by simp)
    have hb' : b < 256 := hb b (by simp)
    rw [rfc2 ha hb', dec_put _ _ _ _ _ _ (by simp), dec_put _ _ _ _ _ _ (by simp),
      dec_put _ _ _ _ _ _ (by simp), dec_end1 _ _ _ _ (by simp)]
    refine ⟨?_, rfl⟩
    show o ++ (three [_, _, _, _]).take 2 = _
    rw [three_eq _ _ _ _ (by omega) (by omega) (by omega)]
    congr 1
    show [_, _] = [a, b]
    congr 1
    · omega
    · congr 1; omega
  | a :: b :: c :: r, hb, o, w => by
    have ha : a < 256 := hb a (by simp)
    have hb' : b < 256 := hb b (by simp)
    have hc : c < 256 := hb c (by simp)
    have hr : Bytes r := fun x hx => hb x (by simp [hx])
    rw [rfc3 ha hb' hc, dec_put _ _ _ _ _ _ (by simp), dec_put _ _ _ _ _ _ (by simp),
      dec_put _ _ _ _ _ _ (by simp), dec_full _ _ _ _ _ (by simp)]
    have e : three ([] ++ [a / 4 % 64] ++ [(a % 4 * 16 + b / 16) % 64] ++
        [(b % 16 * 4 + c / 64) % 64] ++ [c % 64]) = [a, b, c] := by
      show three [_, _, _, _] = _
      rw [three_eq _ _ _ _ (by omega) (by omega) (by omega)]
      congr 1
      · omega
      · congr 1
        · omega
        · congr 1; omega
    rw [e]
    obtain ⟨i1, i2⟩ := decGo_rfc r hr (o ++ [a, b, c]) (o.length + 3)
    exact ⟨by rw [i1]; simp, i2⟩

theorem rfc_len : ∀ l : List Nat, (rfc l).length = 4 * ((l.length + 2) / 3)
  | [] => by rw [rfc]; rfl
  | [_] => by rw [rfc]; simp
  | [_, _] => by rw [rfc]; simp
  | _ :: _ :: _ :: r => by
    have := rfc_len r
    rw [rfc]; simp only [List.length_cons, this]; omega

theorem digit_lt (n : Nat) : digit n < 256 ∧ Sig (digit n) = true := by
  have h : (List.range 64).all (fun n => decide (digit n < 256) && Sig (digit n)) = true := by
    decide +kernel
  have := List.all_eq_true.mp h (n % 64) (List.mem_range.mpr (by omega))
  have e : digit n = digit (n % 64) := digit_mod _ _ (by omega)
  rw [e]
  simpa using this

theorem rfc_sig : ∀ l : List Nat, ∀ c ∈ rfc l, c < 256 ∧ Sig c = true
  | [] => by rw [rfc]; simp
  | [a] => by
    rw [rfc]; intro c hc
    have e : Sig 61 = true := by decide +kernel
    simp only [List.mem_cons, List.not_mem_nil, or_false] at hc
    rcases hc with h | h | h | h <;> subst h <;> first | exact digit_lt _ | exact ⟨by decide, e⟩
  | [a, b] => by
    rw [rfc]; intro c hc
    have e : Sig 61 = true := by decide +kernel
    simp only [List.mem_cons, List.not_mem_nil, or_false] at hc
    rcases hc with h | h | h | h <;> subst h <;> first | exact digit_lt _ | exact ⟨by decide, e⟩
  | a :: b :: c :: r => by
    rw [rfc]; intro c hc
    simp only [List.mem_cons] at hc
    rcases hc with h | h | h | h | h
    · subst h; exact digit_lt _
    · subst h; exact digit_lt _
    · subst h; exact digit_lt _
    · subst h; exact digit_lt _
    · exact rfc_sig r c h

theorem filter_same (t : List Nat) (ht : Bytes t) :
    (t.filter fun c => dtab c ≠ 0x80) = t.filter Sig := by
  apply List.filter_congr
  intro c hc
  rw [sig_iff c (ht c hc)]

/-- **C152.** Every text whose base64 characters are those of the encoding of `l` — with whatever line
breaks, spaces and other characters in between — is decoded to `l`. -/
theorem decode_correct_partial (l t : List Nat) (hl : Bytes l) (ht : Bytes t) (hne : l ≠ [])
    (h : t.filter Sig = rfc l) : decode t = some l := by
  have hc : count t = 4 * ((l.length + 2) / 3) := by
    unfold count; rw [filter_same t ht, h, rfc_len]
  have h0 : 0 < l.length := List.length_pos_iff.mpr hne
  unfold decode
  rw [hc, if_neg (by omega), decGo_skip, filter_same t ht, h]
  obtain ⟨i1, i2⟩ := decGo_rfc l hl [] 0
  rw [i1, i2]; rfl

theorem wrap_filter (n : Nat) : ∀ t : List Nat, t.length ≤ n →
    (∀ c ∈ t, c < 256 ∧ Sig c = true) → (wrap t).filter Sig = t ∧ Bytes (wrap t) := by
  have e10 : Sig 10 = false := by decide +kernel
  induction n with
  | zero =>
    intro t ht _
    have : t = [] := List.eq_nil_of_length_eq_zero (by omega)
    subst this; rw [wrap]; simp [Bytes]
  | succ n ih =>
    intro t ht hs
    rw [wrap]
    by_cases h : t = []
    · subst h; simp [Bytes]
    · have h0 : 0 < t.length := List.length_pos_iff.mpr h
      obtain ⟨i1, i2⟩ := ih (t.drop 72) (by simp only [List.length_drop]; omega)
        (fun c hc => hs c (List.mem_of_mem_drop hc))
      rw [if_neg h, List.filter_append, List.filter_cons_of_neg (by rw [e10]; simp), i1,
        List.filter_eq_self.mpr (fun c hc => (hs c (List.mem_of_mem_take hc)).2)]
      refine ⟨List.take_append_drop 72 t, ?_⟩
      intro c hc
      rcases List.mem_append.mp hc with g | g
      · exact (hs c (List.mem_of_mem_take g)).1
      · rcases List.mem_cons.mp g with g | g
        · subst g; decide
        · exact i2 c g

/-- **C152.** What has been encoded is decoded again. -/
theorem round_trip_partial (l t : List Nat) (hl : Bytes l) (hne : l ≠ []) (hlen : l.length < 2 ^ 32)
    (h : encode l = some t) : decode t = some l := by
  rw [encode_correct l hl hlen] at h
  by_cases h30 : l.length < 2 ^ 30
  · rw [if_pos h30] at h
    have e := Option.some.inj h
    obtain ⟨i1, i2⟩ := wrap_filter _ (rfc l) (Nat.le_refl _) (rfc_sig l)
    exact decode_correct_partial l t hl (e ▸ i2) hne (e ▸ i1)
  · rw [if_neg h30] at h; exact absurd h (by simp)

/-- **C152 (violated).** The empty sequence has an encoding, the empty text, but that is refused by the
decoder. -/
theorem empty_violated : encode [] = some [] ∧ decode [] = none := by
  refine ⟨by decide +kernel, by decide +kernel⟩

/-- **C152 (violated).** The decoder takes texts that are no encoding: `QQ==QUJD` (a padded group
inside) gives `A`, what follows the group is dropped without an error; `Q=JD`, with a `=` in the
middle of a group, gives two bytes. -/
theorem malformed_violated :
    decode [81, 81, 61, 61, 81, 85, 74, 68] = some [65] ∧ decode [81, 61, 74, 68] = some [64, 2] := by
  refine ⟨by decide +kernel, by decide +kernel⟩

theorem decGo_top : ∀ (t : List Nat) (s : D) (k : Nat), s.block.length ≤ 3 →
    s.out.length ≤ 3 * k → s.top ≤ 3 * k →
    (decGo s t).top ≤ 3 * (k + (s.block.length + (t.filter fun c => dtab c ≠ 0x80).length) / 4) ∧
    (decGo s t).block.length ≤ 3
  | [], s, k, hb, ho, hw => by rw [decGo]; exact ⟨by omega, hb⟩
  | c :: r, s, k, hb, ho, hw => by
    by_cases h : dtab c = 0x80
    · rw [decGo, if_pos h, List.filter_cons_of_neg (by simp [h])]
      exact decGo_top r s k hb ho hw
    · rw [decGo, if_neg h, List.filter_cons_of_pos (by simp [h])]
      by_cases h3 : s.block.length = 3
      · rw [if_pos h3]
        have ht : (three (s.block ++ [dtab c])).length ≤ 3 := by
          unfold three; split <;> simp
        generalize (if c = 61 then s.pad + 1 else s.pad) = p
        have base : s.out.length + 3 ≤ 3 * (k + (s.block.length +
            (c :: r.filter fun c => dtab c ≠ 0x80).length) / 4) := by
          rw [List.length_cons, h3]
          generalize (r.filter fun c => dtab c ≠ 0x80).length = z
          omega
        by_cases p0 : p = 0
        · rw [if_pos p0]
          have := decGo_top r ⟨[], 0, s.out ++ three (s.block ++ [dtab c]), s.out.length + 3, false⟩
            (k + 1) (by simp) (by simp only [List.length_append]; omega)
            (by show s.out.length + 3 ≤ _; omega)
          refine ⟨Nat.le_trans this.1 ?_, this.2⟩
          rw [List.length_cons, h3]
          simp only [List.length_nil]
          generalize (r.filter fun c => dtab c ≠ 0x80).length = z
          omega
        · rw [if_neg p0]
          by_cases p1 : p = 1
          · rw [if_pos p1]; exact ⟨base, by simp⟩
          · rw [if_neg p1]
            by_cases p2 : p = 2
            · rw [if_pos p2]; exact ⟨base, by simp⟩
            · rw [if_neg p2]; exact ⟨base, by simp⟩
      · rw [if_neg h3]
        have := decGo_top r ⟨s.block ++ [dtab c], if c = 61 then s.pad + 1 else s.pad, s.out, s.top,
          s.bad⟩ k (by simp only [List.length_append, List.length_singleton]; omega) ho hw
        refine ⟨Nat.le_trans this.1 ?_, this.2⟩
        show 3 * (k + ((s.block ++ [dtab c]).length + (r.filter fun c => dtab c ≠ 0x80).length) / 4) ≤ _
        rw [List.length_append, List.length_singleton, List.length_cons]
        generalize (r.filter fun c => dtab c ≠ 0x80).length = z
        omega

/-- **C152.** Whatever the text, valid or not, the decoder writes nothing behind its buffer, nor behind
its block of four. -/
theorem decode_fits (t : List Nat) :
    (decGo ⟨[], 0, [], 0, false⟩ t).top ≤ decSize t ∧
    (decGo ⟨[], 0, [], 0, false⟩ t).block.length ≤ 3 := by
  have := decGo_top t ⟨[], 0, [], 0, false⟩ 0 (by simp) (by simp) (by simp)
  refine ⟨Nat.le_trans this.1 ?_, this.2⟩
  unfold decSize count
  simp only [List.length_nil]
  generalize (t.filter fun c => dtab c ≠ 0x80).length = z
  omega

/-- A text of two lines, and with a padded group. -/
example : encode [77, 97, 110] = some [84, 87, 70, 117, 10] ∧ decode [84, 87, 70, 117, 10] = some [77, 97, 110] ∧
    encode [77] = some [84, 81, 61, 61, 10] ∧ decode [84, 10, 81, 32, 61, 61] = some [77] ∧
    (encode (List.replicate 60 200)).map List.length = some 82 := by
  refine ⟨by decide +kernel, by decide +kernel, by decide +kernel, by decide +kernel, by decide +kernel⟩


end Verif.Codec
