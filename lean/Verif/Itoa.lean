import Verif.Str
/-!
# Number formatting and parsing (common/itoa.cpp)

Properties C06 (round trip) and C07 (exact values, out-of-range detection).

Characters are byte codes (`Nat`), a C string is the list of bytes before the NUL.  The integer
width `w` is a parameter (32 or 64 in the code).  The kernel is built with `-fwrapv`
(other/cmake/compiler_flags.cmake:138), so signed arithmetic wraps modulo `2^w`.
-/
namespace Verif.Itoa

/-- common/itoa.cpp:16 `DIGITS[d]`. -/
def digitChar (d : Nat) : Nat := if d < 10 then 48 + d else 87 + d

/-- common/string_util.c:10-44 `digit_to_val` (`none` for -1). -/
def digitToVal (c : Nat) : Option Nat :=
  if 48 ≤ c ∧ c ≤ 57 then some (c - 48)
  else if 65 ≤ c ∧ c ≤ 70 then some (c - 55)
  else if 97 ≤ c ∧ c ≤ 102 then some (c - 87)
  else none

/-- common/itoa.cpp:61-64 `is_valid_digit`, combined with the table lookup that follows it. -/
def digitOf (base c : Nat) : Option Nat :=
  match digitToVal c with
  | some d => if d < base then some d else none
  | none => none

/-- common/itoa.cpp:18-29 `__uitoa_fixed`; `k` digits remain, so `j = 4*(k-1)`. -/
def fixedLoop (v : Nat) : Nat → List Nat
  | 0 => []
  | k + 1 => digitChar ((v >>> (4 * k)) % 16) :: fixedLoop v k

def uitoaFixed (w v : Nat) : List Nat := fixedLoop v (w / 4)

/-- common/itoa.cpp:47-50: digits, least significant first.  The first argument only bounds the
recursion (a `w`-bit value has at most `w` digits). -/
def emit : Nat → Nat → Nat → List Nat
  | 0, _, _ => []
  | f + 1, base, v => if v = 0 then [] else digitChar (v % base) :: emit f base (v / base)

/-- common/itoa.cpp:31-59 `__itoa` for unsigned `T`. -/
def itoaU (w base v : Nat) : Option (List Nat) :=
  if v = 0 then some [digitChar 0] else Str.strReverse (emit w base v)

/-- Two's complement value of an integer modulo `2^w`. -/
def wrapS (w : Nat) (x : Int) : Int := (x + 2 ^ (w - 1)) % 2 ^ w - 2 ^ (w - 1)

/-- common/itoa.cpp:31-59 `__itoa` for signed `T`: `(U) -svalue` is `-svalue` modulo `2^w`. -/
def itoaS (w base : Nat) (v : Int) : Option (List Nat) :=
  if v = 0 then some [digitChar 0]
  else
    let value : Nat := if 0 ≤ v then v.toNat else ((wrapS w (-v)) % 2 ^ w).toNat
    Str.strReverse (emit w base value ++ (if v < 0 then [45] else []))

inductive Err | einval | erange
  deriving DecidableEq, Repr

/-- Outcome of `tilck_strto(u)l`: value, `*error`, offset of `*endptr`. -/
structure Res where
  val : Int
  err : Option Err
  endOff : Nat
  deriving DecidableEq, Repr

/-- common/itoa.cpp:84-119 for unsigned `T`; `start` is `str`, `off` is `p`. -/
def loopU (w base start : Nat) : List Nat → Nat → Nat → Res
  | [], res, off => ⟨res, if off = start then some .einval else none, off⟩
  | c :: cs, res, off =>
    match digitOf base c with
    | none => ⟨res, if off = start then some .einval else none, off⟩
    | some d =>
      let next := (res * base + d) % 2 ^ w
      if next < res then ⟨0, some .erange, start⟩ else loopU w base start cs next (off + 1)

/-- common/itoa.cpp:66-121 `__tilck_strtol` for unsigned `T` (`tilck_strtoul`). -/
def strtoul (w base : Nat) (s : List Nat) : Res := loopU w base 0 s 0 0

/-- common/itoa.cpp:84-119 for signed `T`; `neg` is `sign == -1`. -/
def loopS (w base start : Nat) (neg : Bool) : List Nat → Int → Nat → Res
  | [], res, off => ⟨res, if off = start then some .einval else none, off⟩
  | c :: cs, res, off =>
    match digitOf base c with
    | none => ⟨res, if off = start then some .einval else none, off⟩
    | some d =>
      let next := wrapS w (res * base + (if neg then -1 else 1) * d)
      if (!neg) != decide (next ≥ 0) then ⟨0, some .erange, start⟩
      else loopS w base start neg cs next (off + 1)

/-- common/itoa.cpp:66-121 `__tilck_strtol` for signed `T` (`tilck_strtol`). -/
def strtol (w base : Nat) : List Nat → Res
  | 45 :: s => loopS w base 1 true s 0 1
  | s => loopS w base 0 false s 0 0

/-! ## Specification -/

/-- Positional value of a text in base `base` (`none` if some character is not a digit). -/
def numVal (base : Nat) : List Nat → Option Nat
  | [] => some 0
  | c :: cs =>
    match digitOf base c, numVal base cs with
    | some d, some v => some (d * base ^ cs.length + v)
    | _, _ => none

/-- The text stops being a number here: end of string or a non-digit. -/
def Stops (base : Nat) : List Nat → Prop
  | [] => True
  | c :: _ => digitOf base c = none

/-! ## Lemmas -/

theorem digitOf_lt {base c d : Nat} (h : digitOf base c = some d) : d < base := by
  unfold digitOf at h
  split at h
  · split at h
    · rename_i h2; simp at h; omega
    · simp at h
  · simp at h

theorem digitToVal_char {d : Nat} (h : d < 16) : digitToVal (digitChar d) = some d := by
  unfold digitToVal digitChar
  by_cases h1 : d < 10
  · rw [if_pos h1, if_pos (by omega)]; simp
  · rw [if_neg h1, if_neg (by omega), if_neg (by omega), if_pos (by omega)]; simp

theorem digitOf_char {base d : Nat} (hb : base ≤ 16) (h : d < base) :
    digitOf base (digitChar d) = some d := by
  simp [digitOf, digitToVal_char (show d < 16 by omega), h]

theorem digitChar_ne {d : Nat} (h : d < 16) (hne : d ≠ 0) : digitChar d ≠ 48 := by
  unfold digitChar; split <;> omega

theorem digitChar_ne_minus (d : Nat) : digitChar d ≠ 45 := by
  unfold digitChar; split <;> omega

theorem numVal_append (base : Nat) (a b : List Nat) (x y : Nat) (ha : numVal base a = some x)
    (hb : numVal base b = some y) : numVal base (a ++ b) = some (x * base ^ b.length + y) := by
  induction a generalizing x with
  | nil => simp [numVal] at ha; subst ha; simp [hb]
  | cons c a ih =>
    simp only [numVal] at ha
    cases hd : digitOf base c with
    | none => simp [hd] at ha
    | some d =>
      cases hv : numVal base a with
      | none => simp [hd, hv] at ha
      | some v =>
        simp [hd, hv] at ha
        have := ih v hv
        simp only [List.cons_append, numVal, hd, this]
        subst ha
        simp [Nat.pow_add, Nat.add_mul, Nat.mul_assoc, Nat.add_assoc]

theorem emit_spec (base : Nat) (hb : 2 ≤ base) (hb' : base ≤ 16) (f : Nat) : ∀ v, v < 2 ^ f →
    numVal base (emit f base v).reverse = some v ∧
    (∀ c ∈ emit f base v, ∃ d < base, c = digitChar d) ∧
    (v ≠ 0 → ∃ d < base, d ≠ 0 ∧ (emit f base v).getLast? = some (digitChar d)) := by
  induction f with
  | zero => intro v hv; simp at hv; subst hv; simp [emit, numVal]
  | succ f ih =>
    intro v hv
    by_cases h0 : v = 0
    · subst h0; simp [emit, numVal]
    · simp only [emit, if_neg h0]
      have hlt : v / base < 2 ^ f := by
        rw [Nat.div_lt_iff_lt_mul (by omega)]
        have : 2 ^ f * 2 ≤ 2 ^ f * base := Nat.mul_le_mul_left _ hb
        rw [Nat.pow_succ] at hv; omega
      obtain ⟨h1, h2, h3⟩ := ih _ hlt
      have hm : v % base < base := Nat.mod_lt _ (by omega)
      refine ⟨?_, ?_, ?_⟩
      · rw [List.reverse_cons]
        have hone : numVal base [digitChar (v % base)] = some (v % base) := by
          simp [numVal, digitOf_char hb' hm]
        rw [numVal_append base _ _ _ _ h1 hone]
        simp
        rw [Nat.mul_comm]; exact Nat.div_add_mod v base
      · intro c hc
        rcases List.mem_cons.mp hc with rfl | hc
        · exact ⟨_, hm, rfl⟩
        · exact h2 c hc
      · intro _
        by_cases hz : v / base = 0
        · have he : emit f base (v / base) = [] := by rw [hz]; cases f <;> simp [emit]
          rw [he]
          have hvb : v < base := by
            rcases Nat.div_eq_zero_iff.mp hz with h | h <;> omega
          refine ⟨v % base, hm, by rw [Nat.mod_eq_of_lt hvb]; exact h0, by simp⟩
        · obtain ⟨d, hd1, hd2, hd3⟩ := h3 hz
          refine ⟨d, hd1, hd2, ?_⟩
          rw [List.getLast?_cons, hd3]; rfl

/-- Result of formatting: the canonical representation of `v`. -/
def Canonical (base v : Nat) (s : List Nat) : Prop :=
  numVal base s = some v ∧ (∀ c ∈ s, ∃ d < base, c = digitChar d) ∧
    s ≠ [] ∧ (s.head? = some 48 → s = [48])

/-- **C06.** `uitoa32/64/N` write the canonical representation: only digits, no leading zeros, and
the positional value of the text is the number. -/
theorem uitoa_canonical (w base v : Nat) (hb : 2 ≤ base) (hb' : base ≤ 16) (hv : v < 2 ^ w) :
    ∃ s, itoaU w base v = some s ∧ Canonical base v s := by
  unfold itoaU
  by_cases h0 : v = 0
  · subst h0
    refine ⟨_, if_pos rfl, ?_, ?_, by simp, by simp [digitChar]⟩
    · simp [numVal, digitOf_char hb' (show 0 < base by omega)]
    · intro c hc; simp at hc; exact ⟨0, by omega, hc⟩
  · obtain ⟨h1, h2, h3⟩ := emit_spec base hb hb' w v hv
    obtain ⟨d, hd1, hd2, hd3⟩ := h3 h0
    rw [if_neg h0, Str.str_reverse_correct]
    refine ⟨_, rfl, h1, by simpa using h2, ?_, ?_⟩
    · intro h
      have : emit w base v = [] := by simpa using h
      rw [this] at hd3; simp at hd3
    · rw [List.head?_reverse, hd3]
      intro h
      exact absurd (Option.some.inj h) (digitChar_ne (by omega) hd2)

/-- The canonical representation is unique up to its value: parsing lemma for the unsigned loop. -/
theorem loopU_exact (w base : Nat) (hb : 1 ≤ base) (start : Nat) (s rest : List Nat)
    (hrest : Stops base rest) : ∀ res off v, numVal base s = some v →
      res * base ^ s.length + v < 2 ^ w → (start < off ∨ s ≠ []) → start ≤ off →
      loopU w base start (s ++ rest) res off =
        ⟨((res * base ^ s.length + v : Nat) : Int), none, off + s.length⟩ := by
  induction s with
  | nil =>
    intro res off v hv hlt hso _
    simp [numVal] at hv; subst hv
    have hne : off ≠ start := by rcases hso with h | h; omega; exact absurd rfl h
    cases rest with
    | nil => simp [loopU, hne]
    | cons c cs => simp only [Stops] at hrest; simp [loopU, hrest, hne]
  | cons c s ih =>
    intro res off v hv hlt hso hs
    simp only [numVal] at hv
    cases hd : digitOf base c with
    | none => simp [hd] at hv
    | some d =>
      cases hv' : numVal base s with
      | none => simp [hd, hv'] at hv
      | some v' =>
        simp [hd, hv'] at hv
        have hexp : res * base ^ (c :: s).length + v = (res * base + d) * base ^ s.length + v' := by
          subst hv; simp [Nat.pow_succ, Nat.add_mul, Nat.mul_assoc, Nat.mul_comm base, Nat.add_assoc]
        have hge : res * base + d ≤ (res * base + d) * base ^ s.length :=
          Nat.le_mul_of_pos_right _ (Nat.pow_pos (by omega))
        have hres : res ≤ res * base := Nat.le_mul_of_pos_right _ (by omega)
        rw [hexp] at hlt ⊢
        have hmod : (res * base + d) % 2 ^ w = res * base + d := Nat.mod_eq_of_lt (by omega)
        simp only [List.cons_append, loopU, hd, hmod]
        rw [if_neg (by omega), ih _ (off + 1) v' hv' hlt (Or.inl (by omega)) (by omega)]
        simp; omega

/-- **C07 (partial).** Unsigned parsing of any digit text whose value fits is exact, with no error,
and `endptr` is the first character after the number. -/
theorem strtoul_exact (w base : Nat) (hb : 1 ≤ base) (s rest : List Nat) (v : Nat)
    (hs : s ≠ []) (hv : numVal base s = some v) (hfit : v < 2 ^ w) (hrest : Stops base rest) :
    strtoul w base (s ++ rest) = ⟨v, none, s.length⟩ := by
  have := loopU_exact w base hb 0 s rest hrest 0 0 v hv (by simpa using hfit) (Or.inr hs) (by omega)
  simpa [strtoul] using this

theorem wrapS_id {w : Nat} (hw : 1 ≤ w) {x : Int} (h1 : -(2 ^ (w - 1)) ≤ x) (h2 : x < 2 ^ (w - 1)) :
    wrapS w x = x := by
  have hp : (2 : Int) ^ w = 2 * 2 ^ (w - 1) := by
    obtain ⟨k, rfl⟩ : ∃ k, w = k + 1 := ⟨w - 1, by omega⟩
    simp [Int.pow_succ]; omega
  unfold wrapS
  rw [Int.emod_eq_of_lt (by omega) (by omega)]; omega

theorem loopS_exact (w base : Nat) (hw : 1 ≤ w) (hb : 1 ≤ base) (start : Nat) (neg : Bool)
    (s rest : List Nat) (hrest : Stops base rest) :
    ∀ (res off v : Nat), numVal base s = some v →
      (neg = true → res * base ^ s.length + v ≤ 2 ^ (w - 1)) →
      (neg = false → res * base ^ s.length + v < 2 ^ (w - 1)) →
      (neg = true → res = 0 → ∀ c, s.head? = some c → digitOf base c ≠ some 0) →
      (start < off ∨ s ≠ []) → start ≤ off →
      loopS w base start neg (s ++ rest) (if neg then -(res : Int) else res) off =
        ⟨if neg then -((res * base ^ s.length + v : Nat) : Int)
          else ((res * base ^ s.length + v : Nat) : Int), none, off + s.length⟩ := by
  induction s with
  | nil =>
    intro res off v hv hlt hlt' _ hso _
    simp [numVal] at hv; subst hv
    have hne : off ≠ start := by rcases hso with h | h; omega; exact absurd rfl h
    cases rest with
    | nil => simp [loopS, hne]
    | cons c cs => simp only [Stops] at hrest; simp [loopS, hrest, hne]
  | cons c s ih =>
    intro res off v hv hlt hlt' hz hso hs
    simp only [numVal] at hv
    cases hd : digitOf base c with
    | none => simp [hd] at hv
    | some d =>
      cases hv' : numVal base s with
      | none => simp [hd, hv'] at hv
      | some v' =>
        simp [hd, hv'] at hv
        have hexp : res * base ^ (c :: s).length + v = (res * base + d) * base ^ s.length + v' := by
          subst hv; simp [Nat.pow_succ, Nat.add_mul, Nat.mul_assoc, Nat.mul_comm base, Nat.add_assoc]
        have hge : res * base + d ≤ (res * base + d) * base ^ s.length :=
          Nat.le_mul_of_pos_right _ (Nat.pow_pos (by omega))
        have hres : res ≤ res * base := Nat.le_mul_of_pos_right _ (by omega)
        rw [hexp] at hlt hlt' ⊢
        have hpn : (2 : Int) ^ (w - 1) = ((2 ^ (w - 1) : Nat) : Int) := by simp
        have hnext : wrapS w ((if neg then -(res : Int) else res) * base +
            (if neg then -1 else 1) * d) = if neg then -((res * base + d : Nat) : Int)
              else ((res * base + d : Nat) : Int) := by
          cases neg with
          | true =>
            have := hlt rfl
            simp only [if_true]
            have e : -(res : Int) * base + -1 * d = -((res * base + d : Nat) : Int) := by
              push_cast; rw [Int.neg_mul]; omega
            rw [e]
            exact wrapS_id hw (by omega) (by have : 0 < 2 ^ (w - 1) := Nat.pow_pos (by omega); omega)
          | false =>
            have := hlt' rfl
            simp only [Bool.false_eq_true, if_false]
            have e : (res : Int) * base + 1 * d = ((res * base + d : Nat) : Int) := by
              push_cast; omega
            rw [e]
            exact wrapS_id hw (by omega) (by omega)
        have hcond : ((!neg) != decide ((if neg then -((res * base + d : Nat) : Int)
              else ((res * base + d : Nat) : Int)) ≥ 0)) = false := by
          cases neg with
          | true =>
            have hpos : 0 < res * base + d := by
              by_cases hr : res = 0
              · have := hz rfl hr c rfl
                rw [hd] at this
                have : d ≠ 0 := fun h => this (by rw [h])
                omega
              · omega
            have : ¬ (-((res * base + d : Nat) : Int) ≥ 0) := by omega
            simp only [if_true, decide_eq_false this]; rfl
          | false =>
            have : ((res * base + d : Nat) : Int) ≥ 0 := by omega
            simp only [Bool.false_eq_true, if_false, decide_eq_true this]; rfl
        simp only [List.cons_append, loopS, hd, hnext, hcond]
        have hz' : neg = true → res * base + d = 0 → ∀ c', s.head? = some c' →
            digitOf base c' ≠ some 0 := by
          intro hn h0
          have := hz hn (by omega) c rfl
          rw [hd] at this
          exact absurd (by rw [show d = 0 by omega]) this
        have := ih _ (off + 1) v' hv' hlt hlt' hz' (Or.inl (by omega)) (by omega)
        simp only [Bool.false_eq_true, if_false]
        rw [this]
        simp only [List.length_cons]
        congr 1; omega

/-- **C07 (partial).** Signed parsing of a digit text (no sign) whose value fits is exact. -/
theorem strtol_exact_nonneg (w base : Nat) (hw : 1 ≤ w) (hb : 1 ≤ base) (s rest : List Nat) (v : Nat)
    (hs : s ≠ []) (hv : numVal base s = some v) (hfit : v < 2 ^ (w - 1)) (hrest : Stops base rest) :
    strtol w base (s ++ rest) = ⟨v, none, s.length⟩ := by
  have hm : strtol w base (s ++ rest) = loopS w base 0 false (s ++ rest) 0 0 := by
    unfold strtol
    split
    · rename_i t h
      cases s with
      | nil => exact absurd rfl hs
      | cons c cs =>
        simp at h
        have : digitOf base 45 = none := by simp [digitOf, digitToVal]
        rw [h.1] at hv
        simp [numVal, this] at hv
    · rfl
  have := loopS_exact w base hw hb 0 false s rest hrest 0 0 v hv (by simp) (by simpa using hfit)
    (by simp) (Or.inr hs) (by omega)
  rw [hm]; simpa using this

/-- **C07 (partial).** Signed parsing of `-` followed by a digit text whose value fits is exact
provided the first digit is not 0 (see `strtol_minus_zero_violated` for the missing case). -/
theorem strtol_exact_neg_partial (w base : Nat) (hw : 1 ≤ w) (hb : 1 ≤ base) (s rest : List Nat) (v : Nat)
    (hs : s ≠ []) (hv : numVal base s = some v) (hfit : v ≤ 2 ^ (w - 1))
    (hnz : ∀ c, s.head? = some c → digitOf base c ≠ some 0) (hrest : Stops base rest) :
    strtol w base (45 :: (s ++ rest)) = ⟨-v, none, s.length + 1⟩ := by
  have := loopS_exact w base hw hb 1 true s rest hrest 0 1 v hv (by simpa using hfit) (by simp)
    (by simpa using hnz) (Or.inr hs) (by omega)
  simp [strtol] at this ⊢
  rw [this, Nat.add_comm]

/-- **C07 violated**: a negative number written with a leading zero (`-0`, `-05`, ...) is always
rejected with `-ERANGE`, although its value fits. -/
theorem strtol_minus_zero_violated (w base : Nat) (hw : 1 ≤ w) (hb : 1 ≤ base) (s : List Nat) :
    strtol w base (45 :: 48 :: s) = ⟨0, some .erange, 1⟩ := by
  have hd : digitOf base 48 = some 0 := by simp [digitOf, digitToVal]; omega
  have hz : wrapS w 0 = 0 := wrapS_id hw (by
    have : (0:Int) < 2 ^ (w - 1) := Int.pow_pos (by omega)
    omega) (Int.pow_pos (by omega))
  simp [strtol, loopS, hd, hz]

/-- **C07 violated**: a decimal text above `2^32-1` accepted by the 32-bit unsigned parser with a
wrong value and no error ("5000000000" reads as 705032704). -/
theorem strtoul32_missed_overflow_violated :
    numVal 10 [53,48,48,48,48,48,48,48,48,48] = some 5000000000 ∧
    strtoul 32 10 [53,48,48,48,48,48,48,48,48,48] = ⟨705032704, none, 10⟩ := by decide

/-- **C07 violated**: a hexadecimal text accepted with a wrong value ("155555555"). -/
theorem strtoul32_hex_missed_overflow_violated :
    numVal 16 [49,53,53,53,53,53,53,53,53] = some 0x155555555 ∧
    strtoul 32 16 [49,53,53,53,53,53,53,53,53] = ⟨0x55555555, none, 9⟩ := by decide

/-- **C07 violated** for the signed 64-bit parser ("20000000000000000000" reads as
1553255926290448384). -/
theorem strtol64_missed_overflow_violated :
    numVal 10 (50 :: List.replicate 19 48) = some 20000000000000000000 ∧
    strtol 64 10 (50 :: List.replicate 19 48) = ⟨1553255926290448384, none, 20⟩ := by decide

/-! ### Overflow detection that does hold -/

theorem numVal_prefix_split (base : Nat) (c : Nat) (s : List Nat) (d v' : Nat)
    (hd : digitOf base c = some d) (hv : numVal base s = some v') :
    numVal base (c :: s) = some (d * base ^ s.length + v') := by simp [numVal, hd, hv]

/-- The unsigned loop reports an error if the accumulated value reaches `2^w`
but exceeds the last prefix by less than `2^w`. -/
theorem loopU_detect (w base : Nat) (hb : 2 ≤ base) (start : Nat) (s rest : List Nat) :
    ∀ res off v, numVal base s = some v → res < 2 ^ w →
      2 ^ w ≤ res * base ^ s.length + v →
      (res * base ^ s.length + v) - (res * base ^ s.length + v) / base < 2 ^ w →
      loopU w base start (s ++ rest) res off = ⟨0, some .erange, start⟩ := by
  induction s with
  | nil =>
    intro res off v hv h1 h2 _
    simp [numVal] at hv; subst hv; simp at h2; omega
  | cons c s ih =>
    intro res off v hv h1 h2 h3
    simp only [numVal] at hv
    cases hd : digitOf base c with
    | none => simp [hd] at hv
    | some d =>
      cases hv' : numVal base s with
      | none => simp [hd, hv'] at hv
      | some v' =>
        simp [hd, hv'] at hv
        have hexp : res * base ^ (c :: s).length + v = (res * base + d) * base ^ s.length + v' := by
          subst hv; simp [Nat.pow_succ, Nat.add_mul, Nat.mul_assoc, Nat.mul_comm base, Nat.add_assoc]
        rw [hexp] at h2 h3
        have hdlt := digitOf_lt hd
        simp only [List.cons_append, loopU, hd]
        by_cases hov : res * base + d < 2 ^ w
        · have hmod : (res * base + d) % 2 ^ w = res * base + d := Nat.mod_eq_of_lt hov
          have hres : res ≤ res * base := Nat.le_mul_of_pos_right _ (by omega)
          rw [hmod, if_neg (by omega)]
          exact ih _ _ v' hv' hov h2 h3
        · -- the first overflowing step; the tail must be empty
          have hge : 2 ^ w ≤ res * base + d := by omega
          cases hs : s with
          | cons c2 s2 =>
            exfalso
            -- V ≥ 2·(res*base+d) ≥ 2^(w+1), so V - V/base ≥ V/2 ≥ 2^w
            have hV : (res * base + d) * base ≤ (res * base + d) * base ^ s.length := by
              apply Nat.mul_le_mul_left
              rw [hs]; simp only [List.length_cons, Nat.pow_succ]
              exact Nat.le_mul_of_pos_left _ (Nat.pow_pos (by omega))
            have hV2 : (res * base + d) * 2 ≤ (res * base + d) * base := Nat.mul_le_mul_left _ hb
            have hhalf : ((res * base + d) * base ^ s.length + v') / base ≤
                ((res * base + d) * base ^ s.length + v') / 2 := Nat.div_le_div_left hb (by omega)
            omega
          | nil =>
            rw [hs] at h2 h3 hv'
            simp [numVal] at hv'
            subst hv'
            simp at h2 h3
            have hq : (res * base + d) / base = res := by
              rw [Nat.mul_comm, Nat.mul_add_div (by omega), Nat.div_eq_of_lt hdlt, Nat.add_zero]
            rw [hq] at h3
            have hlt2 : res * base + d < 2 * 2 ^ w := by omega
            have hmod : (res * base + d) % 2 ^ w = res * base + d - 2 ^ w := by
              rw [Nat.mod_eq_sub_mod hge, Nat.mod_eq_of_lt (by omega)]
            rw [hmod, if_pos (by omega)]

/-- **C07 (partial).** The unsigned parser reports `-ERANGE` for every digit text whose value `v`
is at least `2^w` and satisfies `v - v/base < 2^w` (for base 10: up to 11% above the limit), whatever
follows it.  Larger values may be missed, see the witnesses above. -/
theorem strtoul_overflow_detected_partial (w base : Nat) (hb : 2 ≤ base) (s rest : List Nat) (v : Nat)
    (hv : numVal base s = some v) (h1 : 2 ^ w ≤ v) (h2 : v - v / base < 2 ^ w) :
    strtoul w base (s ++ rest) = ⟨0, some .erange, 0⟩ :=
  loopU_detect w base hb 0 s rest 0 0 v hv (Nat.pow_pos (by omega)) (by simpa using h1)
    (by simpa using h2)

theorem loopS_detect (w base : Nat) (hw : 1 ≤ w) (hb : 2 ≤ base) (start : Nat) (s rest : List Nat) :
    ∀ (res off v : Nat), numVal base s = some v → res < 2 ^ (w - 1) →
      2 ^ (w - 1) ≤ res * base ^ s.length + v → res * base ^ s.length + v < 2 ^ w →
      loopS w base start false (s ++ rest) res off = ⟨0, some .erange, start⟩ := by
  have hp : (2 : Nat) ^ w = 2 * 2 ^ (w - 1) := by
    obtain ⟨k, rfl⟩ : ∃ k, w = k + 1 := ⟨w - 1, by omega⟩
    simp [Nat.pow_succ]; omega
  have hpI : (2 : Int) ^ w = ((2 ^ w : Nat) : Int) := by simp
  have hpI' : (2 : Int) ^ (w - 1) = ((2 ^ (w - 1) : Nat) : Int) := by simp
  induction s with
  | nil =>
    intro res off v hv h1 h2 _
    simp [numVal] at hv; subst hv; simp at h2; omega
  | cons c s ih =>
    intro res off v hv h1 h2 h3
    simp only [numVal] at hv
    cases hd : digitOf base c with
    | none => simp [hd] at hv
    | some d =>
      cases hv' : numVal base s with
      | none => simp [hd, hv'] at hv
      | some v' =>
        simp [hd, hv'] at hv
        have hexp : res * base ^ (c :: s).length + v = (res * base + d) * base ^ s.length + v' := by
          subst hv; simp [Nat.pow_succ, Nat.add_mul, Nat.mul_assoc, Nat.mul_comm base, Nat.add_assoc]
        rw [hexp] at h2 h3
        have hge : res * base + d ≤ (res * base + d) * base ^ s.length :=
          Nat.le_mul_of_pos_right _ (Nat.pow_pos (by omega))
        have e : (res : Int) * base + (if false = true then -1 else 1) * d =
            ((res * base + d : Nat) : Int) := by
          simp only [Bool.false_eq_true, if_false]; push_cast; omega
        simp only [List.cons_append, loopS, hd, e]
        by_cases hov : res * base + d < 2 ^ (w - 1)
        · rw [wrapS_id hw (by omega) (by omega)]
          have : ((res * base + d : Nat) : Int) ≥ 0 := by omega
          simp only [decide_eq_true this]
          exact ih _ _ v' hv' hov h2 h3
        · have hneg : ¬ (wrapS w ((res * base + d : Nat) : Int) ≥ 0) := by
            unfold wrapS
            rw [← Int.sub_emod_right, Int.emod_eq_of_lt (by omega) (by omega)]
            omega
          simp only [decide_eq_false hneg]
          rfl

/-- **C07 (partial).** The signed parser reports `-ERANGE` for every unsigned-looking text whose
value lies in `[2^(w-1), 2^w)`. -/
theorem strtol_overflow_detected_partial (w base : Nat) (hw : 1 ≤ w) (hb : 2 ≤ base)
    (s rest : List Nat) (v : Nat) (hv : numVal base s = some v) (h1 : 2 ^ (w - 1) ≤ v)
    (h2 : v < 2 ^ w) : strtol w base (s ++ rest) = ⟨0, some .erange, 0⟩ := by
  have hm : strtol w base (s ++ rest) = loopS w base 0 false (s ++ rest) 0 0 := by
    unfold strtol
    split
    · rename_i t h
      cases s with
      | nil =>
        simp [numVal] at hv
        have : 0 < 2 ^ (w - 1) := Nat.pow_pos (by omega)
        omega
      | cons c cs =>
        simp at h
        have : digitOf base 45 = none := by simp [digitOf, digitToVal]
        rw [h.1] at hv
        simp [numVal, this] at hv
    · rfl
  rw [hm]
  exact loopS_detect w base hw hb 0 s rest 0 0 v hv (Nat.pow_pos (by omega)) (by simpa using h1)
    (by simpa using h2)

/-! ### Round trips (C06) -/

/-- **C06.** Unsigned round trip for every base, width and value. -/
theorem uitoa_strtoul_roundtrip (w base v : Nat) (hb : 2 ≤ base) (hb' : base ≤ 16) (hv : v < 2 ^ w) :
    ∃ s, itoaU w base v = some s ∧ strtoul w base s = ⟨v, none, s.length⟩ := by
  obtain ⟨s, h1, h2, h3, h4, h5⟩ := uitoa_canonical w base v hb hb' hv
  refine ⟨s, h1, ?_⟩
  have := strtoul_exact w base (by omega) s [] v h4 h2 hv trivial
  simpa using this

/-- **C06.** Signed round trip: `itoaN` then `tilck_strtol` returns the same number, including the
most negative one. -/
theorem itoa_strtol_roundtrip (w base : Nat) (hw : 1 ≤ w) (hb : 2 ≤ base) (hb' : base ≤ 16) (v : Int)
    (h1 : -(2 ^ (w - 1)) ≤ v) (h2 : v < 2 ^ (w - 1)) :
    ∃ s, itoaS w base v = some s ∧ strtol w base s = ⟨v, none, s.length⟩ := by
  have hp : (2 : Nat) ^ w = 2 * 2 ^ (w - 1) := by
    obtain ⟨k, rfl⟩ : ∃ k, w = k + 1 := ⟨w - 1, by omega⟩
    simp [Nat.pow_succ]; omega
  have hpI : (2 : Int) ^ w = ((2 ^ w : Nat) : Int) := by simp
  have hpI' : (2 : Int) ^ (w - 1) = ((2 ^ (w - 1) : Nat) : Int) := by simp
  have hpos : 0 < 2 ^ (w - 1) := Nat.pow_pos (by omega)
  rw [hpI'] at h1 h2
  unfold itoaS
  by_cases h0 : v = 0
  · subst h0
    refine ⟨_, if_pos rfl, ?_⟩
    have hn : numVal base [digitChar 0] = some 0 := by
      simp [numVal, digitOf_char hb' (show 0 < base by omega)]
    have := strtol_exact_nonneg w base hw (by omega) [digitChar 0] [] 0 (by simp) hn hpos trivial
    simpa using this
  · rw [if_neg h0]
    by_cases hs : 0 ≤ v
    · obtain ⟨n, rfl⟩ : ∃ n : Nat, v = n := ⟨v.toNat, by omega⟩
      obtain ⟨e1, e2, e3⟩ := emit_spec base hb hb' w n (by omega)
      obtain ⟨d, d1, d2, d3⟩ := e3 (by omega)
      simp only [hs, if_true, show ¬ ((n : Int) < 0) by omega, if_false, List.append_nil,
        Int.toNat_natCast, Str.str_reverse_correct]
      refine ⟨_, rfl, ?_⟩
      have hne : (emit w base n).reverse ≠ [] := by
        intro h; have h' : emit w base n = [] := by simpa using h
        rw [h'] at d3; simp at d3
      have := strtol_exact_nonneg w base hw (by omega) _ [] n hne e1 (by omega) trivial
      simpa using this
    · obtain ⟨n, hn⟩ : ∃ n : Nat, v = -(n : Int) := ⟨(-v).toNat, by omega⟩
      subst hn
      have hval : ((wrapS w (- -(n : Int))) % 2 ^ w).toNat = n := by
        rw [Int.neg_neg]
        unfold wrapS
        rw [hpI', hpI]
        by_cases hlim : n < 2 ^ (w - 1)
        · rw [Int.emod_eq_of_lt (a := (n:Int) + _) (by omega) (by omega),
            Int.emod_eq_of_lt (by omega) (by omega)]; omega
        · have : n = 2 ^ (w - 1) := by omega
          rw [← Int.sub_emod_right ((n:Int) + _), Int.emod_eq_of_lt (a := (n:Int) + _ - _) (by omega) (by omega)]
          rw [← Int.add_emod_right, Int.emod_eq_of_lt (by omega) (by omega)]; omega
      obtain ⟨e1, e2, e3⟩ := emit_spec base hb hb' w n (by omega)
      obtain ⟨d, d1, d2, d3⟩ := e3 (by omega)
      simp only [hs, if_false, show (-(n : Int) < 0) by omega, if_true, hval,
        Str.str_reverse_correct, List.reverse_append, List.reverse_cons, List.reverse_nil, List.nil_append]
      refine ⟨_, rfl, ?_⟩
      have hne : (emit w base n).reverse ≠ [] := by
        intro h; have h' : emit w base n = [] := by simpa using h
        rw [h'] at d3; simp at d3
      have := strtol_exact_neg_partial w base hw (by omega) _ [] n hne e1 (by omega) (by
        intro c hc
        rw [List.head?_reverse, d3] at hc
        rw [← Option.some.inj hc, digitOf_char hb' d1]
        simpa using d2) trivial
      simpa using this

theorem fixedLoop_spec (v : Nat) (k : Nat) :
    (fixedLoop v k).length = k ∧ numVal 16 (fixedLoop v k) = some (v % 16 ^ k) := by
  induction k with
  | zero => simp [fixedLoop, numVal, Nat.mod_one]
  | succ k ih =>
    obtain ⟨h1, h2⟩ := ih
    refine ⟨by simp [fixedLoop, h1], ?_⟩
    simp only [fixedLoop, numVal, digitOf_char (Nat.le_refl 16) (Nat.mod_lt _ (by omega)), h2, h1]
    congr 1
    rw [Nat.shiftRight_eq_div_pow, Nat.pow_mul, show (2:Nat)^4 = 16 by rfl, Nat.pow_succ,
      Nat.mod_mul (x := v) (a := 16 ^ k) (b := 16)]
    rw [Nat.mul_comm]; omega

/-- **C06.** The fixed-width hexadecimal form has exactly `w/4` digits and parses back. -/
theorem uitoa_hex_fixed_roundtrip (w v : Nat) (hw : 4 ∣ w) (hw0 : 0 < w) (hv : v < 2 ^ w) :
    (uitoaFixed w v).length = w / 4 ∧ numVal 16 (uitoaFixed w v) = some v ∧
    strtoul w 16 (uitoaFixed w v) = ⟨v, none, w / 4⟩ := by
  obtain ⟨h1, h2⟩ := fixedLoop_spec v (w / 4)
  have hpow : 16 ^ (w / 4) = 2 ^ w := by
    rw [show (16:Nat) = 2 ^ 4 by rfl, ← Nat.pow_mul, Nat.mul_div_cancel' hw]
  rw [hpow, Nat.mod_eq_of_lt hv] at h2
  refine ⟨h1, h2, ?_⟩
  have hne : uitoaFixed w v ≠ [] := by
    intro h
    have : (uitoaFixed w v).length = 0 := by rw [h]; rfl
    rw [uitoaFixed, h1] at this; omega
  have := strtoul_exact w 16 (by omega) (uitoaFixed w v) [] v hne h2 hv trivial
  rw [List.append_nil] at this
  rw [this, uitoaFixed, h1]

/-! ### Non-vacuity -/

example : itoaS 8 10 (-128) = some [45, 49, 50, 56] := by decide
example : strtol 8 10 [45, 49, 50, 56] = ⟨-128, none, 4⟩ := by decide
example : itoaU 32 16 0xbeef = some [98, 101, 101, 102] := by decide
example : uitoaFixed 32 0xbeef = [48, 48, 48, 48, 98, 101, 101, 102] := by decide
example : strtoul 8 10 [50, 53, 54] = ⟨0, some .erange, 0⟩ := by decide
example : strtol 32 10 [49, 50, 120] = ⟨12, none, 2⟩ := by decide

end Verif.Itoa
