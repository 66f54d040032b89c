/-!
# Time (kernel/datetime.c, part of kernel/timer.c, common/3rd_party/datetime.c, kernel/arch/generic_x86/{pit,rtc}.c, system calls)

Properties C93 to C97.

Unsigned C types are natural numbers reduced by hand (`u32`, `u64`), signed ones integers (`s32`). The compiler is called with -fwrapv.
-/
namespace Verif.Time

/-- Conversions of C. -/
def u8 (x : Nat) : Nat := x % 256
def u16 (x : Nat) : Nat := x % 65536
def u32 (x : Int) : Nat := (x % 4294967296).toNat
def u64 (x : Int) : Nat := (x % 18446744073709551616).toNat
def s32 (x : Int) : Int := (x + 2147483648) % 4294967296 - 2147483648
def s64 (x : Int) : Int := (x + 9223372036854775808) % 18446744073709551616 - 9223372036854775808

/-! ## Dates -/

/-- `struct datetime` (include/tilck/common/datetime.h:6-22). -/
structure DateTime where
  sec : Nat
  min : Nat
  hour : Nat
  day : Nat
  month : Nat
  year : Nat
deriving DecidableEq, Repr

/-- `__year_to_secs` (common/3rd_party/datetime.c:126-188), with `*is_leap`. `year` counts from 1900. No computation overflows: see
`year_fits`. -/
def yearToSecs (year : Int) : Int × Bool :=
  if 2 ≤ year ∧ year ≤ 138 then
    let leaps := (year - 68) / 4
    if (year - 68) % 4 = 0 then (31536000 * (year - 70) + 86400 * (leaps - 1), true)
    else (31536000 * (year - 70) + 86400 * leaps, false)
  else
    let c0 := Int.tdiv (year - 100) 400
    let r0 := Int.tmod (year - 100) 400
    let cycles := if r0 < 0 then c0 - 1 else c0
    let rem := if r0 < 0 then r0 + 400 else r0
    let x : Int × Int × Bool :=  -- centuries, leaps, is_leap
      if rem = 0 then (0, 0, true)
      else
        let cen : Int := if rem ≥ 200 then (if rem ≥ 300 then 3 else 2) else (if rem ≥ 100 then 1 else 0)
        let rem := rem - 100 * cen
        if rem = 0 then (cen, 0, false) else (cen, rem / 4, decide (rem % 4 = 0))
    let leaps := x.2.1 + 97 * cycles + 24 * x.1 - (if x.2.2 then 1 else 0)
    ((year - 100) * 31536000 + leaps * 86400 + 946684800 + 86400, x.2.2)

/-- `secs_through_month` (190-196). -/
def monthTable : List Int := [0, 31 * 86400, 59 * 86400, 90 * 86400, 120 * 86400, 151 * 86400, 181 * 86400, 212 * 86400,
  243 * 86400, 273 * 86400, 304 * 86400, 334 * 86400]

/-- `__month_to_secs` (188-204). -/
def monthToSecs (month : Int) (leap : Bool) : Int := monthTable.getD month.toNat 0 + if leap ∧ month ≥ 2 then 86400 else 0

/-- `datetime_to_timestamp` (219-243). -/
def datetimeToTimestamp (d : DateTime) : Int :=
  let year0 : Int := d.year - 1900
  let month0 : Int := d.month - 1
  let adj : Int := if month0 ≥ 12 ∨ month0 < 0 then (if Int.tmod month0 12 < 0 then Int.tdiv month0 12 - 1 else Int.tdiv month0 12) else 0
  let month : Int := if month0 ≥ 12 ∨ month0 < 0 then (if Int.tmod month0 12 < 0 then Int.tmod month0 12 + 12 else Int.tmod month0 12) else month0
  let y := yearToSecs (year0 + adj)
  y.1 + monthToSecs month y.2 + 86400 * ((d.day : Int) - 1) + 3600 * d.hour + 60 * d.min + d.sec

/-- `days_in_month` (55): from March. -/
def marchTable : List Int := [31, 30, 31, 30, 31, 31, 30, 31, 30, 31, 31, 29]

/-- The loop over the months (105-106): the number of whole months in `r` days from the first of March, and the rest. -/
def monthLoop : List Int → Int → Int → Int × Int
  | [], m, r => (m, r)
  | d :: ds, m, r => if d ≤ r then monthLoop ds (m + 1) (r - d) else (m, r)

/-- `timestamp_to_datetime` (47-124); `none` is the result -1. The variables of type int hold their values: the first check bounds them. -/
def timestampToDatetime (t : Int) : Option DateTime :=
  if t < -2147483648 * 31622400 ∨ t > 2147483647 * 31622400 then none
  else
    let secs := t - (946684800 + 86400 * (31 + 29))
    let d0 := Int.tdiv secs 86400
    let r0 := Int.tmod secs 86400
    let remsecs := if r0 < 0 then r0 + 86400 else r0
    let days := if r0 < 0 then d0 - 1 else d0
    let q0 := Int.tdiv days 146097
    let e0 := Int.tmod days 146097
    let remdays := if e0 < 0 then e0 + 146097 else e0
    let qc := if e0 < 0 then q0 - 1 else q0
    let c := if remdays / 36524 = 4 then 3 else remdays / 36524
    let r1 := remdays - c * 36524
    let q := if r1 / 1461 = 25 then 24 else r1 / 1461
    let r2 := r1 - q * 1461
    let y := if r2 / 365 = 4 then 3 else r2 / 365
    let r3 := r2 - y * 365
    let years := y + 4 * q + 100 * c + 400 * qc
    let ml := monthLoop marchTable 0 r3
    let month := if ml.1 ≥ 10 then ml.1 - 12 else ml.1
    let years' := if ml.1 ≥ 10 then years + 1 else years
    if years' + 100 > 2147483647 ∨ years' + 100 < -2147483648 then none
    else some
      { year := ((years' + 2000) % 65536).toNat, month := ((month + 3) % 256).toNat, day := ((ml.2 + 1) % 256).toNat,
        hour := ((remsecs / 3600) % 256).toNat, min := ((remsecs / 60 % 60) % 256).toNat, sec := ((remsecs % 60) % 256).toNat }

/-- `bcd_to_dec` (kernel/arch/generic_x86/rtc.c:40-43). -/
def bcdToDec (b : Nat) : Nat := u8 ((b &&& 0xf0) >>> 1 + (b &&& 0xf0) >>> 3 + (b &&& 0xf))

/-- `hw_read_clock_cmos` (rtc.c:79-134), after the registers `d` have been read twice with the same result. -/
def cmosClock (use24 useBin : Bool) (d : DateTime) : DateTime :=
  let pm := d.hour ≥ 128
  let d := { d with hour := d.hour % 128 }
  let d := if useBin then d else
    { sec := bcdToDec d.sec, min := bcdToDec d.min, hour := bcdToDec d.hour, day := bcdToDec d.day, month := bcdToDec d.month, year := bcdToDec (u8 d.year) }
  let d := if use24 then d else { d with hour := if d.hour = 12 then (if pm then d.hour else 0) else if pm then (d.hour + 12) % 24 else d.hour }
  { d with year := u16 (d.year + if d.year < 70 then 2000 else 1900) }

/-- `fat_datetime_to_regular_datetime` (kernel/fs/fat32.c:279-297). -/
def fatDatetime (date time tenth : Nat) : DateTime :=
  { day := date % 32, month := date / 32 % 16, year := date / 512 % 128 + 1980,
    sec := u8 (time % 32 + tenth / 10), min := time / 32 % 64, hour := time / 2048 % 32 }

/-! ## The clock -/

def BILLION : Nat := 1000000000
/-- PIT_FREQ_MHZ (kernel/arch/generic_x86/pit.c:33). -/
def PIT : Nat := 1193181818

/-- The divisor chosen by `hw_timer_setup` (pit.c:127). -/
def divisor (hz : Nat) : Nat := (PIT + 500 * hz) / (1000 * hz)

/-- The state of the clock (kernel/timer.c:20-29, kernel/datetime.c:34-42, rtc.c:160-161) of a kernel with `hz` ticks per second: `lastEdge` is
`rtc_uie_last_accepted_edge_ns`, and before tick `wake` the thread which reads the hardware clock sleeps. -/
structure Clk where
  hz : Nat
  ticks : Nat
  time : Nat
  dur : Nat
  frac : Nat
  denom : Nat
  acc : Nat
  adjVal : Int
  adjRem : Int
  lastSync : Nat
  lastDrift : Int
  lastEdge : Nat
  wake : Nat
deriving DecidableEq, Repr

/-- `init_timer` (timer.c:578-582) with `hw_timer_setup` for `hz` (pit.c:109-148), and `init_system_time` (datetime.c:236-252). -/
def clk0 (hz : Nat) : Clk :=
  { hz := hz, ticks := 0, time := 0, dur := u32 (divisor hz * BILLION * 1000 / PIT), frac := divisor hz * BILLION * 1000 % PIT, denom := PIT, acc := 0,
    adjVal := 0, adjRem := 0, lastSync := 0, lastDrift := 0, lastEdge := 0, wake := 0 }

/-- By how much the time goes on (timer.c:449-454). -/
def Clk.delta (c : Clk) : Nat := if c.adjRem ≠ 0 then u32 (s32 c.dur + c.adjVal) else c.dur

/-- `timer_irq_handler` (timer.c:446-479), without nested interrupts. -/
def Clk.irq (c : Clk) : Clk :=
  let acc := u32 (c.acc + c.frac)
  { c with
    ticks := u64 (c.ticks + 1)
    time := u64 (c.time + c.delta + if acc ≥ c.denom then 1 else 0)
    acc := if acc ≥ c.denom then acc - c.denom else acc
    adjRem := if c.adjRem ≠ 0 then s32 (c.adjRem - 1) else c.adjRem }

/-- `clock_apply_drift` (datetime.c:112-140); `none`: division by zero. -/
def Clk.applyDrift (c : Clk) (drift : Int) : Option Clk :=
  if drift = 0 then some c
  else
    let maxStep := Int.tdiv (s32 c.dur) 10
    if u32 maxStep = 0 then none
    else some { c with adjVal := if drift > 0 then s32 (-maxStep) else maxStep, adjRem := s32 (u32 (u64 (drift.natAbs) / u32 maxStep)) }

/-- `clock_nudge_tick_duration` (datetime.c:142-177). -/
def Clk.nudge (c : Clk) (drift : Int) : Option Clk :=
  if c.lastSync = 0 then some c
  else if (decide (drift > 0)) ≠ (decide (c.lastDrift > 0)) then some c
  else if c.dur = 0 then none
  else
    let ticksGap := u64 (c.time - c.lastSync) / c.dur
    if ticksGap = 0 then some c
    else
      let perTick := Int.tdiv drift (s64 ticksGap)
      let adjustment := Int.tdiv (s64 (perTick * 3)) 4
      some { c with dur := u32 (c.dur - adjustment) }

/-- An iteration of `clock_drift_adj` (datetime.c:179-222), when the second `sec` (after the boot) of the hardware clock begins.
`rtc_wait_for_second_edge` (rtc.c:283-333) takes no edge less than 500 ms after the last one. Simplified: the thread runs at once, so that the
time at the edge is the time now. -/
def Clk.resync (c : Clk) (sec : Int) : Option Clk :=
  if c.ticks < c.wake then some c
  else if u64 (c.time - c.lastEdge) < 500000000 then some c
  else
    let drift := s64 (c.time - sec * BILLION)
    (c.applyDrift drift).bind fun c => (c.nudge drift).map fun c =>
      { c with lastSync := c.time, lastDrift := drift, lastEdge := c.time, wake := u64 (c.ticks + 60 * c.hz) }

/-- What happens to the clock. -/
inductive Ev
  | irq
  | resync (sec : Int)
deriving DecidableEq, Repr

/-- `none`: division by zero, a panic. -/
def Clk.step (c : Clk) : Ev → Option Clk
  | .irq => some c.irq
  | .resync sec => c.resync sec

def Clk.run (c : Clk) : List Ev → Option Clk
  | [] => some c
  | e :: es => (c.step e).bind (·.run es)

/-- `n` timer interrupts. -/
def Clk.irqs (c : Clk) : Nat → Clk
  | 0 => c
  | n + 1 => (c.irq).irqs n

/-! ## Conversions -/

/-- `div_round_up64` (include/tilck/common/utils.h:15,38-41). -/
def divRoundUp64 (n unit : Nat) : Nat := u64 ((n + unit : Int) - 1) / unit

/-- `timespec_to_ticks` (datetime.c:293-317), TS_SCALE = BILLION (include/tilck/kernel/datetime.h:10-12). -/
def timespecToTicks (dur : Nat) (sec nsec : Int) : Nat :=
  u64 (divRoundUp64 (u64 (u64 sec * BILLION)) dur + divRoundUp64 (u64 nsec) dur)

/-- `ticks_to_timespec` (datetime.c:282-291). -/
def ticksToTimespec (dur ticks : Nat) : Int × Nat :=
  let tot := u64 (ticks * dur)
  (s64 (tot / BILLION), tot % BILLION)

/-- `real_time_get_timespec` (datetime.c:319-329), also the monotonic clock (331-335). -/
def getTime (boot : Int) (c : Clk) : Int × Nat := (s64 (boot + s64 (c.time / BILLION)), c.time % BILLION)

/-- The clocks of `do_clock_gettime` (datetime.c:378-408) and `do_clock_getres` (410-438). -/
inductive ClkId | realtime | monotonic | cpu
deriving DecidableEq, Repr

/-- `do_clock_gettime`; `cpu` are the ticks used by the task. -/
def clockGettime (boot : Int) (c : Clk) (cpu : Nat) : ClkId → Int × Nat
  | .realtime => getTime boot c
  | .monotonic => getTime boot c
  | .cpu => ticksToTimespec c.dur cpu

/-- `do_clock_getres`, for a kernel with `hz` ticks per second. -/
def doClockGetres (hz : Nat) (_ : ClkId) : Int × Nat := (0, BILLION / hz)

/-- `sys_clock_getres_time32` (datetime.c:483-505). -/
def sysClockGetresTime32 (hz : Nat) (id : ClkId) : Int × Nat := doClockGetres hz id

/-- `sys_clock_getres` (datetime.c:507-523). -/
def sysClockGetres (boot : Int) (c : Clk) (cpu : Nat) (id : ClkId) : Int × Nat := clockGettime boot c cpu id

/-- The result of `do_nanosleep` (kernel/syscalls.c:38-62) for a request accepted at tick `start`, when the thread runs again at tick `now`,
with a signal pending or not: the remaining time, or nothing (0). -/
def nanosleep (dur start : Nat) (sec nsec : Int) (now : Nat) (signal : Bool) : Option (Int × Nat) :=
  let wake := u64 (start + timespecToTicks dur sec nsec)
  if signal then (if now < wake then some (ticksToTimespec dur (wake - now)) else some (0, 0)) else none

/-- The number of ticks `poll` waits for `ms` milliseconds (kernel/poll.c:177-178), ms > 0. -/
def pollTicks (hz ms : Nat) : Nat := max (ms / (1000 / hz)) 1

/-- The number of ticks `select` waits (kernel/select.c:185-190). -/
def selectTicks (hz : Nat) (sec usec : Int) : Nat := min (max (u64 (u64 (u64 sec * hz) + u64 usec / (1000000 / hz))) 1) 4294967295

/-! ## Specification of dates -/

/-- The Gregorian calendar. -/
def Leap (y : Nat) : Prop := y % 4 = 0 ∧ (y % 100 ≠ 0 ∨ y % 400 = 0)
instance (y : Nat) : Decidable (Leap y) := by unfold Leap; infer_instance

def yearDays (y : Nat) : Nat := if Leap y then 366 else 365

/-- The length of month `m` (1 to 12). -/
def monthDays (y m : Nat) : Nat := if m = 2 then (if Leap y then 29 else 28) else if m = 4 ∨ m = 6 ∨ m = 9 ∨ m = 11 then 30 else 31

/-- The days from the beginning of year 0 to the beginning of year `y`. -/
def daysToYear : Nat → Nat
  | 0 => 0
  | y + 1 => daysToYear y + yearDays y

/-- The days in the first `m` months of year `y`. -/
def daysToMonth (y : Nat) : Nat → Nat
  | 0 => 0
  | m + 1 => daysToMonth y m + monthDays y (m + 1)

structure Valid (d : DateTime) : Prop where
  month : 1 ≤ d.month ∧ d.month ≤ 12
  day : 1 ≤ d.day ∧ d.day ≤ monthDays d.year d.month
  hour : d.hour < 24
  min : d.min < 60
  sec : d.sec < 60

/-- The days from the beginning of year 0. -/
def dayNumber (d : DateTime) : Nat := daysToYear d.year + daysToMonth d.year (d.month - 1) + (d.day - 1)

/-- The seconds since 1970-01-01 00:00:00. -/
def epoch (d : DateTime) : Int := ((dayNumber d : Int) - dayNumber ⟨0, 0, 0, 1, 1, 1970⟩) * 86400 + 3600 * d.hour + 60 * d.min + d.sec

/-! ## Dates: proofs -/

theorem daysToYear_eq (y : Nat) : daysToYear y + (y + 99) / 100 = 365 * y + (y + 3) / 4 + (y + 399) / 400 := by
  induction y with
  | zero => rfl
  | succ y ih =>
    rw [daysToYear, yearDays]
    by_cases hl : Leap y
    · rw [if_pos hl]; unfold Leap at hl; omega
    · rw [if_neg hl]; unfold Leap at hl; omega

theorem daysToMonth_eq (y m : Nat) (hm : m < 12) :
    daysToMonth y m = (monthTable.getD m 0 / 86400).toNat + if Leap y ∧ 2 ≤ m then 1 else 0 := by
  have h : m = 0 ∨ m = 1 ∨ m = 2 ∨ m = 3 ∨ m = 4 ∨ m = 5 ∨ m = 6 ∨ m = 7 ∨ m = 8 ∨ m = 9 ∨ m = 10 ∨ m = 11 := by omega
  by_cases hl : Leap y <;>
  rcases h with rfl | rfl | rfl | rfl | rfl | rfl | rfl | rfl | rfl | rfl | rfl | rfl <;>
    simp [daysToMonth, monthDays, hl, monthTable]

theorem dayNumber_1970 : dayNumber ⟨0, 0, 0, 1, 1, 1970⟩ = 719528 := by
  have h := daysToYear_eq 1970
  unfold dayNumber
  dsimp only
  generalize daysToYear 1970 = x at *
  have : daysToMonth 1970 (1 - 1) = 0 := rfl
  omega

/-- The variables of `__year_to_secs` of type int hold their values. -/
theorem year_fits (y : Int) (h : 2 ≤ y ∧ y ≤ 138) (l : Int) (hl : l = (y - 68) / 4 ∨ l = (y - 68) / 4 - 1) :
    -2147483648 ≤ 31536000 * (y - 70) + 86400 * l ∧ 31536000 * (y - 70) + 86400 * l < 2147483648 := by omega

theorem tdivmod (a b : Int) (hb : 0 < b) : (if Int.tmod a b < 0 then Int.tdiv a b - 1 else Int.tdiv a b) = a / b ∧
    (if Int.tmod a b < 0 then Int.tmod a b + b else Int.tmod a b) = a % b := by
  have h1 := Int.mul_tdiv_add_tmod a b
  have h2 := Int.mul_ediv_add_emod a b
  have h3 := Int.emod_nonneg a (by omega : b ≠ 0)
  have h4 := Int.emod_lt_of_pos a hb
  have h5 := Int.tmod_lt_of_pos a hb
  have h6 : -b < Int.tmod a b := by
    have := Int.tmod_lt_of_pos (-a) hb
    rw [Int.neg_tmod] at this
    omega
  generalize Int.tdiv a b = q at *
  generalize Int.tmod a b = r at *
  generalize a / b = q' at *
  generalize a % b = r' at *
  split
  · have : b * (q - 1) + (r + b) = b * q' + r' := by rw [Int.mul_sub]; omega
    have h7 : b * (q - 1 - q') = r' - (r + b) := by rw [Int.mul_sub]; omega
    have h8 : q - 1 - q' = 0 := by
      rcases Int.lt_trichotomy (q - 1 - q') 0 with e | e | e
      · have : b * (q - 1 - q') ≤ b * (-1) := Int.mul_le_mul_of_nonneg_left (by omega) (by omega)
        omega
      · exact e
      · have : b * 1 ≤ b * (q - 1 - q') := Int.mul_le_mul_of_nonneg_left (by omega) (by omega)
        omega
    rw [h8] at h7
    omega
  · have h7 : b * (q - q') = r' - r := by rw [Int.mul_sub]; omega
    have h8 : q - q' = 0 := by
      rcases Int.lt_trichotomy (q - q') 0 with e | e | e
      · have : b * (q - q') ≤ b * (-1) := Int.mul_le_mul_of_nonneg_left (by omega) (by omega)
        omega
      · exact e
      · have : b * 1 ≤ b * (q - q') := Int.mul_le_mul_of_nonneg_left (by omega) (by omega)
        omega
    rw [h8] at h7
    omega

theorem daysToYear_cycles (y : Nat) (c n r : Int) (h : (y : Int) = 2000 + 400 * c + 100 * n + r) (hn : 0 ≤ n ∧ n ≤ 3) (hr : 0 < r ∧ r < 100) :
    (daysToYear y : Int) = 730485 + 146097 * c + 36524 * n + 365 * r + (r + 3) / 4 := by
  have hd := daysToYear_eq y
  have h1 : (y + 99) / 100 = (21 + 4 * c + n).toNat := by omega
  have h2 : (y + 399) / 400 = (6 + c).toNat := by omega
  have h3 : (((y + 3) / 4 : Nat) : Int) = 500 + 100 * c + 25 * n + (r + 3) / 4 := by omega
  rw [h1, h2] at hd
  omega

theorem yearToSecs_eq (y : Nat) : yearToSecs ((y : Int) - 1900) = (((daysToYear y : Int) - 719528) * 86400, decide (Leap y)) := by
  have hd := daysToYear_eq y
  unfold yearToSecs
  split
  · rename_i h
    dsimp only
    split
    · rename_i h4
      have hl : Leap y := by unfold Leap; omega
      rw [decide_eq_true hl]
      congr 1
      omega
    · rename_i h4
      have hl : ¬ Leap y := by unfold Leap; omega
      rw [decide_eq_false hl]
      congr 1
      omega
  · dsimp only
    obtain ⟨h1, h2⟩ := tdivmod ((y : Int) - 1900 - 100) 400 (by decide)
    rw [h1, h2]
    split
    · rename_i h0
      have hl : Leap y := by unfold Leap; omega
      rw [decide_eq_true hl]
      simp only [if_true]
      congr 1
      omega
    · rename_i h0
      generalize hcen : (if ((y : Int) - 1900 - 100) % 400 ≥ 200 then (if ((y : Int) - 1900 - 100) % 400 ≥ 300 then (3 : Int) else 2) else (if ((y : Int) - 1900 - 100) % 400 ≥ 100 then 1 else 0)) = cen
      have hcen' : cen = ((y : Int) - 1900 - 100) % 400 / 100 := by
        rw [← hcen]; split <;> split <;> omega
      split
      · rename_i h3
        have hl : ¬ Leap y := by unfold Leap; omega
        rw [decide_eq_false hl]
        congr 1
        simp only [Bool.false_eq_true, if_false]
        omega
      · rename_i h3
        have hx := daysToYear_cycles y (((y : Int) - 1900 - 100) / 400) cen (((y : Int) - 1900 - 100) % 400 - 100 * cen) (by omega) (by omega) (by omega)
        clear hd
        have hl : Leap y ↔ (((y : Int) - 1900 - 100) % 400 - 100 * cen) % 4 = 0 := by unfold Leap; omega
        by_cases hly : Leap y
        · rw [decide_eq_true hly, decide_eq_true (hl.mp hly)]
          congr 1
          have h5 := hl.mp hly
          simp only [if_true]
          clear hl hcen h1 h2
          rw [hx]
          generalize hr : ((y : Int) - 1900 - 100) % 400 - 100 * cen = r at *
          omega
        · rw [decide_eq_false hly, decide_eq_false (fun e => hly (hl.mpr e))]
          congr 1
          have h5 : ¬ _ := fun e => hly (hl.mpr e)
          simp only [Bool.false_eq_true, if_false]
          clear hl hcen h1 h2
          rw [hx]
          generalize hr : ((y : Int) - 1900 - 100) % 400 - 100 * cen = r at *
          omega

/-- C93: for every date the time stamp is the number of seconds since 1970. -/
theorem datetime_to_timestamp_correct (d : DateTime) (h : Valid d) : datetimeToTimestamp d = epoch d := by
  obtain ⟨m1, m2⟩ := h.month
  have hd := h.day.1
  unfold datetimeToTimestamp
  dsimp only
  rw [if_neg (by omega), if_neg (by omega)]
  rw [show (d.year : Int) - 1900 + 0 = (d.year : Int) - 1900 by omega, yearToSecs_eq]
  unfold epoch
  rw [dayNumber_1970, dayNumber, daysToMonth_eq _ _ (by omega), monthToSecs]
  have hm : ((d.month : Int) - 1).toNat = d.month - 1 := by omega
  rw [hm]
  have hmm : (decide (Leap d.year) = true ∧ (d.month : Int) - 1 ≥ 2) ↔ (Leap d.year ∧ 2 ≤ d.month - 1) := by
    rw [decide_eq_true_iff]
    constructor <;> (rintro ⟨a, b⟩; exact ⟨a, by omega⟩)
  have hcond : (if decide (Leap d.year) = true ∧ (d.month : Int) - 1 ≥ 2 then (86400 : Int) else 0) = ((if Leap d.year ∧ 2 ≤ d.month - 1 then 1 else 0 : Nat) : Int) * 86400 := by
    by_cases hc : Leap d.year ∧ 2 ≤ d.month - 1
    · rw [if_pos (hmm.mpr hc), if_pos hc]; rfl
    · rw [if_neg (fun e => hc (hmm.mp e)), if_neg hc]; rfl
  dsimp only
  rw [hcond]
  have ht : monthTable.getD (d.month - 1) 0 = ((monthTable.getD (d.month - 1) 0 / 86400).toNat : Int) * 86400 := by
    have hx : d.month - 1 < 12 := by omega
    generalize d.month - 1 = k at hx
    have : k = 0 ∨ k = 1 ∨ k = 2 ∨ k = 3 ∨ k = 4 ∨ k = 5 ∨ k = 6 ∨ k = 7 ∨ k = 8 ∨ k = 9 ∨ k = 10 ∨ k = 11 := by omega
    rcases this with rfl | rfl | rfl | rfl | rfl | rfl | rfl | rfl | rfl | rfl | rfl | rfl <;> decide
  generalize (monthTable.getD (d.month - 1) 0 / 86400).toNat = T at *
  rw [ht]
  generalize (if Leap d.year ∧ 2 ≤ d.month - 1 then 1 else 0 : Nat) = L at *
  omega

/-- The days before each month, from March. -/
def cum (k : Int) : Int :=
  if k = 0 then 0 else if k = 1 then 31 else if k = 2 then 61 else if k = 3 then 92 else if k = 4 then 122 else if k = 5 then 153 else if k = 6 then 184
  else if k = 7 then 214 else if k = 8 then 245 else if k = 9 then 275 else if k = 10 then 306 else if k = 11 then 337 else 366

theorem monthLoop_spec (r : Int) (h0 : 0 ≤ r) (h1 : r ≤ 365) :
    ∃ k : Nat, k < 12 ∧ monthLoop marchTable 0 r = ((k : Int), r - cum k) ∧ cum k ≤ r ∧ r < cum (k + 1) := by
  simp only [monthLoop, marchTable]
  by_cases a0 : r < 31
  · exact ⟨0, by omega, by rw [if_neg (by omega)]; simp [cum], by simp [cum]; omega, by simp [cum]; omega⟩
  rw [if_pos (by omega)]
  by_cases a1 : r < 61
  · exact ⟨1, by omega, by rw [if_neg (by omega)]; simp [cum], by simp [cum]; omega, by simp [cum]; omega⟩
  rw [if_pos (by omega)]
  by_cases a2 : r < 92
  · exact ⟨2, by omega, by rw [if_neg (by omega)]; simp [cum]; omega, by simp [cum]; omega, by simp [cum]; omega⟩
  rw [if_pos (by omega)]
  by_cases a3 : r < 122
  · exact ⟨3, by omega, by rw [if_neg (by omega)]; simp [cum]; omega, by simp [cum]; omega, by simp [cum]; omega⟩
  rw [if_pos (by omega)]
  by_cases a4 : r < 153
  · exact ⟨4, by omega, by rw [if_neg (by omega)]; simp [cum]; omega, by simp [cum]; omega, by simp [cum]; omega⟩
  rw [if_pos (by omega)]
  by_cases a5 : r < 184
  · exact ⟨5, by omega, by rw [if_neg (by omega)]; simp [cum]; omega, by simp [cum]; omega, by simp [cum]; omega⟩
  rw [if_pos (by omega)]
  by_cases a6 : r < 214
  · exact ⟨6, by omega, by rw [if_neg (by omega)]; simp [cum]; omega, by simp [cum]; omega, by simp [cum]; omega⟩
  rw [if_pos (by omega)]
  by_cases a7 : r < 245
  · exact ⟨7, by omega, by rw [if_neg (by omega)]; simp [cum]; omega, by simp [cum]; omega, by simp [cum]; omega⟩
  rw [if_pos (by omega)]
  by_cases a8 : r < 275
  · exact ⟨8, by omega, by rw [if_neg (by omega)]; simp [cum]; omega, by simp [cum]; omega, by simp [cum]; omega⟩
  rw [if_pos (by omega)]
  by_cases a9 : r < 306
  · exact ⟨9, by omega, by rw [if_neg (by omega)]; simp [cum]; omega, by simp [cum]; omega, by simp [cum]; omega⟩
  rw [if_pos (by omega)]
  by_cases a10 : r < 337
  · exact ⟨10, by omega, by rw [if_neg (by omega)]; simp [cum]; omega, by simp [cum]; omega, by simp [cum]; omega⟩
  rw [if_pos (by omega), if_neg (by omega)]
  exact ⟨11, by omega, by simp [cum]; omega, by simp [cum]; omega, by simp [cum]; omega⟩

/-- From March on: the years' beginning. -/
theorem march_days (Y : Nat) (y q c qc : Int) (hY : (Y : Int) = 2000 + y + 4 * q + 100 * c + 400 * qc)
    (hy : 0 ≤ y ∧ y ≤ 3) (hq : 0 ≤ q ∧ q ≤ 24) (hc : 0 ≤ c ∧ c ≤ 3) :
    (daysToYear Y : Int) + (if Leap Y then 1 else 0 : Nat) = 730486 + 365 * y + 1461 * q + 36524 * c + 146097 * qc := by
  have hd := daysToYear_eq (Y + 1)
  rw [daysToYear, yearDays] at hd
  have h1 : (Y + 1 + 99) / 100 = (21 + 4 * qc + c).toNat := by omega
  have h2 : (Y + 1 + 399) / 400 = (6 + qc).toNat := by omega
  have h3 : (((Y + 1 + 3) / 4 : Nat) : Int) = 501 + 100 * qc + 25 * c + q := by omega
  rw [h1, h2] at hd
  split at hd <;> rename_i hl
  · rw [if_pos hl]; omega
  · rw [if_neg hl]; omega

theorem jan_days (Y : Nat) (y q c qc : Int) (hY : (Y : Int) = 2001 + y + 4 * q + 100 * c + 400 * qc)
    (hy : 0 ≤ y ∧ y ≤ 3) (hq : 0 ≤ q ∧ q ≤ 24) (hc : 0 ≤ c ∧ c ≤ 3) :
    (daysToYear Y : Int) = 730486 + 365 + 365 * y + 1461 * q + 36524 * c + 146097 * qc := by
  have hd := daysToYear_eq Y
  have h1 : (Y + 99) / 100 = (21 + 4 * qc + c).toNat := by omega
  have h2 : (Y + 399) / 400 = (6 + qc).toNat := by omega
  have h3 : (((Y + 3) / 4 : Nat) : Int) = 501 + 100 * qc + 25 * c + q := by omega
  rw [h1, h2] at hd
  omega

/-- The calendar part: `D` days after 2000-03-01. -/
theorem days_ok (D qc c q y r3 : Int) (hD : D = 146097 * qc + 36524 * c + 1461 * q + 365 * y + r3)
    (hy : 0 ≤ y ∧ y ≤ 3) (hq : 0 ≤ q ∧ q ≤ 24) (hc : 0 ≤ c ∧ c ≤ 3) (hr : 0 ≤ r3 ∧ r3 ≤ 365)
    (hlast : r3 = 365 → y = 3 ∧ (q = 24 → c = 3))
    (h0 : -730545 ≤ D) (h1 : D < 23936532 - 730545) :
    ∃ Y m d : Nat, Y < 65536 ∧ 1 ≤ m ∧ m ≤ 12 ∧ 1 ≤ d ∧ d ≤ monthDays Y m ∧
      (daysToYear Y : Int) + daysToMonth Y (m - 1) + (d - 1) = D + 730545 ∧
      (m : Int) = (if (monthLoop marchTable 0 r3).1 ≥ 10 then (monthLoop marchTable 0 r3).1 - 12 else (monthLoop marchTable 0 r3).1) + 3 ∧
      (Y : Int) = (if (monthLoop marchTable 0 r3).1 ≥ 10 then y + 4 * q + 100 * c + 400 * qc + 1 else y + 4 * q + 100 * c + 400 * qc) + 2000 ∧
      (d : Int) = (monthLoop marchTable 0 r3).2 + 1 := by
  obtain ⟨k, hk, hml, hk1, hk2⟩ := monthLoop_spec r3 hr.1 hr.2
  rw [hml]
  dsimp only
  by_cases hk10 : (k : Int) ≥ 10
  · rw [if_pos hk10, if_pos hk10]
    have hc10 : 306 ≤ r3 := by
      have : k = 10 ∨ k = 11 := by omega
      rcases this with rfl | rfl <;> simp [cum] at hk1 <;> omega
    obtain ⟨Y, hY⟩ : ∃ Y : Nat, (Y : Int) = y + 4 * q + 100 * c + 400 * qc + 1 + 2000 := ⟨(y + 4 * q + 100 * c + 400 * qc + 1 + 2000).toNat, by omega⟩
    have hj := jan_days Y y q c qc (by omega) hy hq hc
    have hlt : Y < 65536 := by omega
    have : k = 10 ∨ k = 11 := by omega
    rcases this with rfl | rfl
    · have e1 : cum ((10 : Nat) : Int) = 306 := by decide
      have e2 : cum (((10 : Nat) : Int) + 1) = 337 := by decide
      rw [e1] at hk1 ⊢
      rw [e2] at hk2
      refine ⟨Y, 1, (r3 - 306 + 1).toNat, hlt, by omega, by omega, by omega, ?_, ?_, by omega, by omega, by omega⟩
      · simp [monthDays]; omega
      · simp [daysToMonth]; omega
    · have e1 : cum ((11 : Nat) : Int) = 337 := by decide
      rw [e1] at hk1 ⊢
      refine ⟨Y, 2, (r3 - 337 + 1).toNat, hlt, by omega, by omega, by omega, ?_, ?_, by omega, by omega, by omega⟩
      · unfold monthDays
        rw [if_pos rfl]
        by_cases hl : Leap Y
        · rw [if_pos hl]; omega
        · rw [if_neg hl]
          unfold Leap at hl
          omega
      · simp [daysToMonth, monthDays]; omega
  · rw [if_neg hk10, if_neg hk10]
    have hc10 : r3 < 306 := by
      have : k = 0 ∨ k = 1 ∨ k = 2 ∨ k = 3 ∨ k = 4 ∨ k = 5 ∨ k = 6 ∨ k = 7 ∨ k = 8 ∨ k = 9 := by omega
      rcases this with rfl | rfl | rfl | rfl | rfl | rfl | rfl | rfl | rfl | rfl <;> simp [cum] at hk2 <;> omega
    have hpos : 0 ≤ y + 4 * q + 100 * c + 400 * qc + 2000 := by
      rcases Int.lt_trichotomy (y + 4 * q + 100 * c + 400 * qc) (-2001) with e | e | e
      · omega
      · have a1 : qc = -6 := by omega
        subst a1
        have a2 : c = 3 := by omega
        subst a2
        have a3 : q = 24 := by omega
        subst a3
        omega
      · omega
    obtain ⟨Y, hY⟩ : ∃ Y : Nat, (Y : Int) = y + 4 * q + 100 * c + 400 * qc + 2000 := ⟨(y + 4 * q + 100 * c + 400 * qc + 2000).toNat, by omega⟩
    have hj := march_days Y y q c qc (by omega) hy hq hc
    have hlt : Y < 65536 := by omega
    have hday : ∃ d : Nat, (d : Int) = r3 - cum k + 1 := ⟨(r3 - cum k + 1).toNat, by omega⟩
    obtain ⟨d, hd⟩ := hday
    refine ⟨Y, k + 3, d, hlt, by omega, by omega, by omega, ?_, ?_, by omega, by omega, by omega⟩
    · have : k = 0 ∨ k = 1 ∨ k = 2 ∨ k = 3 ∨ k = 4 ∨ k = 5 ∨ k = 6 ∨ k = 7 ∨ k = 8 ∨ k = 9 := by omega
      rcases this with rfl | rfl | rfl | rfl | rfl | rfl | rfl | rfl | rfl | rfl <;> simp [cum] at hk1 hk2 hd <;> simp [monthDays] <;> omega
    · rw [daysToMonth_eq _ _ (by omega)]
      have hif : (if Leap Y ∧ 2 ≤ k + 3 - 1 then 1 else 0 : Nat) = (if Leap Y then 1 else 0 : Nat) := by
        by_cases hl : Leap Y
        · rw [if_pos ⟨hl, by omega⟩, if_pos hl]
        · rw [if_neg (fun e => hl e.1), if_neg hl]
      rw [hif]
      generalize (if Leap Y then 1 else 0 : Nat) = L at *
      have : k = 0 ∨ k = 1 ∨ k = 2 ∨ k = 3 ∨ k = 4 ∨ k = 5 ∨ k = 6 ∨ k = 7 ∨ k = 8 ∨ k = 9 := by omega
      rcases this with rfl | rfl | rfl | rfl | rfl | rfl | rfl | rfl | rfl | rfl <;> simp [cum] at hd <;> simp [monthTable] <;> omega

theorem epoch_first : epoch ⟨0, 0, 0, 1, 1, 0⟩ = -62167219200 := by
  unfold epoch
  rw [dayNumber_1970]
  rfl

theorem epoch_last : epoch ⟨59, 59, 23, 31, 12, 65535⟩ = 2005949145599 := by
  unfold epoch
  rw [dayNumber_1970, dayNumber]
  dsimp only
  rw [daysToMonth_eq _ _ (by decide)]
  have h := daysToYear_eq 65535
  generalize daysToYear 65535 = x at *
  have h1 : (monthTable.getD (12 - 1) 0 / 86400).toNat = 334 := by decide
  have h2 : ¬ (Leap 65535 ∧ 2 ≤ 12 - 1) := by unfold Leap; omega
  rw [h1, if_neg h2]
  omega

/-- C93: every time in the years 0 to 65535 is converted to the date and time of day it stands for. -/
theorem timestamp_to_datetime_correct (t : Int) (h0 : epoch ⟨0, 0, 0, 1, 1, 0⟩ ≤ t) (h1 : t ≤ epoch ⟨59, 59, 23, 31, 12, 65535⟩) :
    ∃ d, timestampToDatetime t = some d ∧ Valid d ∧ epoch d = t := by
  rw [epoch_first] at h0
  rw [epoch_last] at h1
  unfold timestampToDatetime
  rw [if_neg (by omega)]
  dsimp only
  obtain ⟨hd, hr⟩ := tdivmod (t - (946684800 + 86400 * (31 + 29))) 86400 (by decide)
  rw [hd, hr]
  obtain ⟨hd2, hr2⟩ := tdivmod ((t - (946684800 + 86400 * (31 + 29))) / 86400) 146097 (by decide)
  rw [hd2, hr2]
  clear hd hr hd2 hr2
  have ht : t = ((t - (946684800 + 86400 * (31 + 29))) / 86400 + 11017) * 86400 + (t - (946684800 + 86400 * (31 + 29))) % 86400 := by omega
  have hs : 0 ≤ (t - (946684800 + 86400 * (31 + 29))) % 86400 ∧ (t - (946684800 + 86400 * (31 + 29))) % 86400 < 86400 := by omega
  generalize (t - (946684800 + 86400 * (31 + 29))) % 86400 = rs at *
  generalize (t - (946684800 + 86400 * (31 + 29))) / 86400 = D at *
  have hD : D = 146097 * (D / 146097) + D % 146097 := by omega
  have hD2 : 0 ≤ D % 146097 ∧ D % 146097 < 146097 := by omega
  generalize D / 146097 = qc at *
  generalize D % 146097 = rd at *
  generalize hc : (if rd / 36524 = 4 then 3 else rd / 36524) = c
  have hc' : 0 ≤ c ∧ c ≤ 3 ∧ 0 ≤ rd - c * 36524 ∧ (rd - c * 36524 ≤ 36523 ∨ (c = 3 ∧ rd - c * 36524 ≤ 36524)) := by rw [← hc]; split <;> omega
  clear hc
  obtain ⟨r1, hr1⟩ : ∃ r1, r1 = rd - c * 36524 := ⟨_, rfl⟩
  rw [← hr1] at hc' ⊢
  generalize hq : (if r1 / 1461 = 25 then 24 else r1 / 1461) = q
  have hq' : 0 ≤ q ∧ q ≤ 24 ∧ 0 ≤ r1 - q * 1461 ∧ r1 - q * 1461 ≤ 1460 := by rw [← hq]; split <;> omega
  clear hq
  obtain ⟨r2, hr2⟩ : ∃ r2, r2 = r1 - q * 1461 := ⟨_, rfl⟩
  rw [← hr2] at hq' ⊢
  generalize hy : (if r2 / 365 = 4 then 3 else r2 / 365) = y
  have hy' : 0 ≤ y ∧ y ≤ 3 ∧ 0 ≤ r2 - y * 365 ∧ r2 - y * 365 ≤ 365 ∧ (r2 - y * 365 = 365 → y = 3) := by rw [← hy]; split <;> omega
  clear hy
  obtain ⟨r3, hr3⟩ : ∃ r3, r3 = r2 - y * 365 := ⟨_, rfl⟩
  rw [← hr3] at hy' ⊢
  obtain ⟨Y, m, d, b1, b2, b3, b4, b5, b6, b7, b8, b9⟩ := days_ok D qc c q y r3 (by omega) ⟨hy'.1, hy'.2.1⟩ ⟨hq'.1, hq'.2.1⟩ ⟨hc'.1, hc'.2.1⟩
    ⟨hy'.2.2.1, hy'.2.2.2.1⟩ (by omega) (by omega) (by omega)
  rw [← b7, ← b9]
  generalize hyr : (if (monthLoop marchTable 0 r3).1 ≥ 10 then y + 4 * q + 100 * c + 400 * qc + 1 else y + 4 * q + 100 * c + 400 * qc) = yr at *
  have hmd : monthDays Y m ≤ 31 := by unfold monthDays; split <;> split <;> omega
  rw [if_neg (by omega), ← b8]
  refine ⟨_, rfl, ?_, ?_⟩
  · constructor
    · dsimp only; omega
    · dsimp only
      rw [show ((Y : Int) % 65536).toNat = Y by omega, show ((m : Int) % 256).toNat = m by omega, show ((d : Int) % 256).toNat = d by omega]
      exact ⟨b4, b5⟩
    · dsimp only; omega
    · dsimp only; omega
    · dsimp only; omega
  · unfold epoch
    rw [dayNumber_1970, dayNumber]
    dsimp only
    rw [show ((Y : Int) % 65536).toNat = Y by omega, show ((m : Int) % 256).toNat = m by omega, show ((d : Int) % 256).toNat = d by omega]
    generalize daysToMonth Y (m - 1) = A at *
    generalize daysToYear Y = B at *
    omega

theorem daysToYear_mono {a b : Nat} (h : a ≤ b) : daysToYear a ≤ daysToYear b := by
  induction h with
  | refl => omega
  | step _ ih => rw [daysToYear]; omega

theorem daysToMonth_mono (y : Nat) {a b : Nat} (h : a ≤ b) : daysToMonth y a ≤ daysToMonth y b := by
  induction h with
  | refl => omega
  | step _ ih => rw [daysToMonth]; omega

theorem daysToMonth_12 (y : Nat) : daysToMonth y 12 = yearDays y := by
  by_cases hl : Leap y <;> simp [daysToMonth, monthDays, yearDays, hl]

theorem inYear (d : DateTime) (h : Valid d) : daysToMonth d.year (d.month - 1) + (d.day - 1) < daysToMonth d.year (d.month - 1 + 1) := by
  have h1 := h.month
  have h2 := h.day
  rw [daysToMonth, show d.month - 1 + 1 = d.month by omega]
  omega

theorem inYear' (d : DateTime) (h : Valid d) : daysToMonth d.year (d.month - 1) + (d.day - 1) < yearDays d.year := by
  have h1 := inYear d h
  have h2 := h.month
  have := daysToMonth_mono d.year (show d.month - 1 + 1 ≤ 12 by omega)
  rw [daysToMonth_12] at this
  omega

theorem dayNumber_inj (d e : DateTime) (hd : Valid d) (he : Valid e) (h : dayNumber d = dayNumber e) :
    d.year = e.year ∧ d.month = e.month ∧ d.day = e.day := by
  have a1 := inYear' d hd
  have a2 := inYear' e he
  have hy : d.year = e.year := by
    unfold dayNumber at h
    rcases Nat.lt_trichotomy d.year e.year with x | x | x
    · have := daysToYear_mono (show d.year + 1 ≤ e.year by omega)
      rw [daysToYear] at this
      omega
    · exact x
    · have := daysToYear_mono (show e.year + 1 ≤ d.year by omega)
      rw [daysToYear] at this
      omega
  have b1 := inYear d hd
  have b2 := inYear e he
  have m1 := hd.month
  have m2 := he.month
  have d1 := hd.day
  have d2 := he.day
  have h' : daysToMonth d.year (d.month - 1) + (d.day - 1) = daysToMonth d.year (e.month - 1) + (e.day - 1) := by
    unfold dayNumber at h
    rw [← hy] at h
    omega
  have hm : d.month = e.month := by
    rw [← hy] at b2
    rcases Nat.lt_trichotomy (d.month - 1) (e.month - 1) with x | x | x
    · have := daysToMonth_mono d.year (show d.month - 1 + 1 ≤ e.month - 1 by omega)
      omega
    · omega
    · have := daysToMonth_mono d.year (show e.month - 1 + 1 ≤ d.month - 1 by omega)
      omega
  refine ⟨hy, hm, ?_⟩
  rw [← hm] at h'
  omega

/-- Different dates are different times. -/
theorem epoch_inj (d e : DateTime) (hd : Valid d) (he : Valid e) (h : epoch d = epoch e) : d = e := by
  unfold epoch at h
  have a1 := hd.hour; have a2 := hd.min; have a3 := hd.sec
  have b1 := he.hour; have b2 := he.min; have b3 := he.sec
  have hn : dayNumber d = dayNumber e := by omega
  obtain ⟨h1, h2, h3⟩ := dayNumber_inj d e hd he hn
  have hs : d.sec = e.sec ∧ d.min = e.min ∧ d.hour = e.hour := by omega
  cases d; cases e
  simp at h1 h2 h3 hs ⊢
  omega

theorem epoch_mono_last (d : DateTime) (h : Valid d) (hy : d.year < 65536) :
    epoch ⟨0, 0, 0, 1, 1, 0⟩ ≤ epoch d ∧ epoch d ≤ epoch ⟨59, 59, 23, 31, 12, 65535⟩ := by
  rw [epoch_first, epoch_last]
  unfold epoch
  rw [dayNumber_1970]
  have a := inYear' d h
  have a1 := h.hour; have a2 := h.min; have a3 := h.sec
  have m := daysToYear_mono (show d.year + 1 ≤ 65536 by omega)
  rw [daysToYear] at m
  have e := daysToYear_eq 65536
  unfold dayNumber
  generalize daysToYear 65536 = z at *
  omega

/-- C93: converting a date to a time and back gives the date. -/
theorem date_round_trip (d : DateTime) (h : Valid d) (hy : d.year < 65536) : timestampToDatetime (datetimeToTimestamp d) = some d := by
  rw [datetime_to_timestamp_correct d h]
  obtain ⟨h0, h1⟩ := epoch_mono_last d h hy
  obtain ⟨e, he, hv, hee⟩ := timestamp_to_datetime_correct (epoch d) h0 h1
  rw [he, epoch_inj e d hv h hee]

example : Valid ⟨59, 59, 23, 29, 2, 2024⟩ ∧ datetimeToTimestamp ⟨59, 59, 23, 29, 2, 2024⟩ = 1709251199 ∧
    timestampToDatetime 1709251199 = some ⟨59, 59, 23, 29, 2, 2024⟩ :=
  ⟨⟨by decide, by decide, by decide, by decide, by decide⟩, by decide, by decide⟩

/-- C93: after the year 65535 the conversion claims to succeed but gives a date 65536 years earlier. -/
theorem year_wraps_violated : timestampToDatetime 2005949145600 = some ⟨0, 0, 0, 1, 1, 0⟩ ∧
    epoch ⟨0, 0, 0, 1, 1, 0⟩ ≠ 2005949145600 := by
  refine ⟨by decide, ?_⟩
  rw [epoch_first]
  decide

/-! ### The hardware clock -/

/-- The two decimal digits of a number below 100, as the clock stores them. -/
def twoDigits (n : Nat) : Nat := n / 10 * 16 + n % 10

/-- The hour on a 12-hour clock: 12, 1, ..., 11, with bit 7 set in the afternoon. `code` is how the clock stores numbers. -/
def hour12 (code : Nat → Nat) (h : Nat) : Nat := code (if h % 12 = 0 then 12 else h % 12) + if h < 12 then 0 else 128

/-- The contents of the registers of a clock in binary or decimal, 12 or 24-hour mode, at time `d`. -/
def registers (use24 useBin : Bool) (d : DateTime) : DateTime :=
  let code := if useBin then id else twoDigits
  { sec := code d.sec, min := code d.min, hour := if use24 then code d.hour else hour12 code d.hour, day := code d.day, month := code d.month,
    year := code (d.year % 100) }

theorem bcd_all : ∀ n < 100, bcdToDec (twoDigits n) = n := by decide +kernel

theorem hour12_bin : ∀ h < 24, hour12 id h % 128 = (if h % 12 = 0 then 12 else h % 12) ∧ (decide (hour12 id h ≥ 128) = decide (12 ≤ h)) := by
  decide +kernel

theorem hour12_bcd : ∀ h < 24, bcdToDec (hour12 twoDigits h % 128) = (if h % 12 = 0 then 12 else h % 12) ∧ (decide (hour12 twoDigits h ≥ 128) = decide (12 ≤ h)) := by
  decide +kernel

theorem hour24_bcd : ∀ h < 24, bcdToDec (twoDigits h % 128) = h := by decide +kernel

/-- C93: whichever mode the hardware clock is in, the time read from it is its time, for the years 1970 to 2069. -/
theorem rtc_correct (use24 useBin : Bool) (d : DateTime) (h : Valid d) (hy : 1970 ≤ d.year ∧ d.year < 2070) :
    cmosClock use24 useBin (registers use24 useBin d) = d := by
  have a1 := h.hour; have a2 := h.min; have a3 := h.sec; have a4 := h.month; have a5 := h.day
  have hmd : monthDays d.year d.month ≤ 31 := by unfold monthDays; split <;> split <;> omega
  obtain ⟨x1, x2⟩ := hour12_bin d.hour a1
  obtain ⟨z1, z2⟩ := hour12_bcd d.hour a1
  have z3 := hour24_bcd d.hour a1
  have w1 := bcd_all d.sec (by omega)
  have w2 := bcd_all d.min (by omega)
  have w3 := bcd_all d.day (by omega)
  have w4 := bcd_all d.month (by omega)
  have w5 : bcdToDec (u8 (twoDigits (d.year % 100))) = d.year % 100 := by
    rw [show u8 (twoDigits (d.year % 100)) = twoDigits (d.year % 100) by unfold u8 twoDigits; omega]
    exact bcd_all _ (by omega)
  have y1 : u16 (d.year % 100 + if d.year % 100 < 70 then 2000 else 1900) = d.year := by
    unfold u16
    split <;> omega
  obtain ⟨sec, min, hour, day, month, year⟩ := d
  dsimp only at *
  cases use24 <;> cases useBin
  · simp only [registers, cmosClock, Bool.false_eq_true, if_false, z1, w1, w2, w3, w4, w5]
    have z2' : (hour12 twoDigits hour ≥ 128) ↔ 12 ≤ hour := by simpa using z2
    simp only [z2']
    rw [y1, DateTime.mk.injEq]
    refine ⟨rfl, rfl, ?_, rfl, rfl, rfl⟩
    by_cases c1 : hour % 12 = 0 <;> by_cases c2 : 12 ≤ hour <;> simp only [c1, c2, if_true, if_false] <;> (try split) <;> omega
  · simp only [registers, cmosClock, Bool.false_eq_true, if_false, if_true, x1, id]
    have x2' : (hour12 id hour ≥ 128) ↔ 12 ≤ hour := by simpa using x2
    simp only [x2']
    rw [y1, DateTime.mk.injEq]
    refine ⟨rfl, rfl, ?_, rfl, rfl, rfl⟩
    by_cases c1 : hour % 12 = 0 <;> by_cases c2 : 12 ≤ hour <;> simp only [c1, c2, if_true, if_false] <;> (try split) <;> omega
  · simp only [registers, cmosClock, Bool.false_eq_true, if_false, if_true, w1, w2, w3, w4, w5, z3]
    rw [y1]
  · simp only [registers, cmosClock, if_true, id]
    rw [y1]
    congr 1
    omega

example : registers false false ⟨30, 15, 13, 24, 12, 1999⟩ = ⟨0x30, 0x15, 0x81, 0x24, 0x12, 0x99⟩ := by decide

/-! ### Times of FAT files -/

/-- The fields of a directory entry of a FAT file system for a time: two-second units in `time`, hundredths of a second in `tenth`. -/
def fatDateField (d : DateTime) : Nat := (d.year - 1980) * 512 + d.month * 32 + d.day
def fatTimeField (d : DateTime) : Nat := d.hour * 2048 + d.min * 32 + d.sec / 2
def fatTenthField (d : DateTime) (hundredths : Nat) : Nat := d.sec % 2 * 100 + hundredths

/-- C93: the date, the hour and the minute of a file are right. The second is not: see `fat_seconds_violated`. -/
theorem fat_date_partial (d : DateTime) (hundredths : Nat) (h : Valid d) (hy : 1980 ≤ d.year ∧ d.year < 2108) (hh : hundredths < 100) :
    ∃ sec, fatDatetime (fatDateField d) (fatTimeField d) (fatTenthField d hundredths) = { d with sec := sec } ∧ sec < 60 := by
  have a1 := h.hour; have a2 := h.min; have a3 := h.sec; have a4 := h.month; have a5 := h.day
  have hmd : monthDays d.year d.month ≤ 31 := by unfold monthDays; split <;> split <;> omega
  refine ⟨u8 (fatTimeField d % 32 + fatTenthField d hundredths / 10), ?_, ?_⟩
  · unfold fatDatetime fatDateField fatTimeField
    obtain ⟨sec, min, hour, day, month, year⟩ := d
    dsimp only at *
    rw [DateTime.mk.injEq]
    refine ⟨rfl, ?_, ?_, ?_, ?_, ?_⟩ <;> omega
  · unfold u8 fatTimeField fatTenthField
    have : (d.hour * 2048 + d.min * 32 + d.sec / 2) % 32 = d.sec / 2 := by omega
    rw [this]
    have h1 : (d.sec % 2 * 100 + hundredths) / 10 ≤ 19 := by omega
    have h2 : d.sec / 2 ≤ 29 := by omega
    rw [Nat.mod_eq_of_lt (by omega)]
    omega

/-- C93: a file written at 12:00:40 is said to be of 12:00:20, and one of 12:00:01.50 of 12:00:15. -/
theorem fat_seconds_violated :
    fatDatetime (fatDateField ⟨40, 0, 12, 1, 1, 2024⟩) (fatTimeField ⟨40, 0, 12, 1, 1, 2024⟩) (fatTenthField ⟨40, 0, 12, 1, 1, 2024⟩ 0) =
      ⟨20, 0, 12, 1, 1, 2024⟩ ∧
    fatDatetime (fatDateField ⟨1, 0, 12, 1, 1, 2024⟩) (fatTimeField ⟨1, 0, 12, 1, 1, 2024⟩) (fatTenthField ⟨1, 0, 12, 1, 1, 2024⟩ 50) =
      ⟨15, 0, 12, 1, 1, 2024⟩ := by decide

/-! ## The clock: proofs -/

theorem u64_of_lt {x : Int} (h0 : 0 ≤ x) (h : x < 18446744073709551616) : (u64 x : Int) = x := by unfold u64; omega
theorem u64_nat {x : Nat} (h : x < 18446744073709551616) : u64 x = x := by unfold u64; omega
theorem u64_toNat {x : Int} (h0 : 0 ≤ x) (h : x < 18446744073709551616) : u64 x = x.toNat := by unfold u64; omega
theorem u32_of_lt {x : Int} (h0 : 0 ≤ x) (h : x < 4294967296) : (u32 x : Int) = x := by unfold u32; omega
theorem u32_lt (x : Int) : u32 x < 4294967296 := by unfold u32; omega
theorem s32_dec (x : Int) : s32 (s32 x - 1) = s32 (x - 1) := by unfold s32; omega
theorem s32_of_lt {x : Int} (h0 : -2147483648 ≤ x) (h : x < 2147483648) : s32 x = x := by unfold s32; omega
theorem s64_of_lt {x : Int} (h0 : -9223372036854775808 ≤ x) (h : x < 9223372036854775808) : s64 x = x := by unfold s64; omega

/-- What every clock satisfies. -/
structure WF (c : Clk) : Prop where
  dur : c.dur < 4294967296
  frac : c.frac < c.denom
  acc : c.acc < c.denom
  denom : c.denom ≤ 2147483648

theorem divisor_bounds (hz : Nat) (h : 18 ≤ hz) (h' : hz ≤ 1000) : 1193 ≤ divisor hz ∧ divisor hz ≤ 66288 ∧ (19 ≤ hz → divisor hz ≤ 65535) := by
  unfold divisor PIT
  refine ⟨?_, ?_, ?_⟩
  · rw [Nat.le_div_iff_mul_le (by omega)]
    omega
  · apply Nat.le_of_lt_succ
    rw [Nat.div_lt_iff_lt_mul (by omega)]
    omega
  · intro h19
    apply Nat.le_of_lt_succ
    rw [Nat.div_lt_iff_lt_mul (by omega)]
    omega

theorem clk0_dur (hz : Nat) (h : 18 ≤ hz) (h' : hz ≤ 1000) : (clk0 hz).dur = divisor hz * BILLION * 1000 / PIT := by
  obtain ⟨h1, h2, -⟩ := divisor_bounds hz h h'
  show u32 ((divisor hz * BILLION * 1000 / PIT : Nat) : Int) = _
  unfold u32 BILLION PIT
  omega

theorem clk0_wf (hz : Nat) : WF (clk0 hz) := by
  refine ⟨by unfold clk0; dsimp only; exact u32_lt _, Nat.mod_lt _ (by decide), ?_, ?_⟩
  · show 0 < PIT; decide
  · show PIT ≤ _; decide

/-- A tick: the nanoseconds with their fraction go on by the tick's. -/
theorem irq_time (c : Clk) (h : WF c) (hroom : c.time + c.delta + 1 < 18446744073709551616) :
    c.irq.time * c.denom + c.irq.acc = c.time * c.denom + c.acc + (c.delta * c.denom + c.frac) ∧ WF c.irq := by
  have ha := h.acc
  have hf := h.frac
  have hd := h.denom
  have hu : u32 ((c.acc : Int) + c.frac) = c.acc + c.frac := by unfold u32; omega
  have ht : c.irq.time = c.time + c.delta + if c.acc + c.frac ≥ c.denom then 1 else 0 := by
    unfold Clk.irq
    dsimp only
    rw [hu]
    split <;> (unfold u64; omega)
  have hacc : c.irq.acc = if c.acc + c.frac ≥ c.denom then c.acc + c.frac - c.denom else c.acc + c.frac := by
    unfold Clk.irq
    dsimp only
    rw [hu]
  refine ⟨?_, h.dur, h.frac, ?_, h.denom⟩
  · rw [ht, hacc]
    split
    · rw [Nat.add_mul, Nat.add_mul]
      omega
    · rw [Nat.add_zero, Nat.add_mul]
      omega
  · rw [show c.irq.denom = c.denom from rfl, hacc]
    split <;> omega

theorem delta_plain (c : Clk) (h : c.adjRem = 0) : c.delta = c.dur := by unfold Clk.delta; rw [if_neg (by omega)]

/-- `n` ticks without correction. -/
theorem irqs_time (n : Nat) (c : Clk) (h : WF c) (h0 : c.adjRem = 0) (hroom : c.time + n * (c.dur + 1) < 18446744073709551616) :
    (c.irqs n).time * c.denom + (c.irqs n).acc = c.time * c.denom + c.acc + n * (c.dur * c.denom + c.frac) ∧ (c.irqs n).acc < c.denom ∧
      (c.irqs n) = { c with ticks := (c.irqs n).ticks, time := (c.irqs n).time, acc := (c.irqs n).acc } ∧
      (c.ticks + n < 18446744073709551616 → (c.irqs n).ticks = c.ticks + n) := by
  induction n generalizing c with
  | zero => exact ⟨by simp [Clk.irqs], h.acc, rfl, fun _ => rfl⟩
  | succ n ih =>
    have hdel := delta_plain c h0
    have hroom' : c.time + (c.dur + 1) + n * (c.dur + 1) < 18446744073709551616 := by
      rw [Nat.add_mul] at hroom; omega
    have hn0 : 0 ≤ n * (c.dur + 1) := Nat.zero_le _
    obtain ⟨h1, h2⟩ := irq_time c h (by omega)
    have h3 : c.irq.adjRem = 0 := by
      unfold Clk.irq
      dsimp only
      rw [if_neg (by omega), h0]
    have h4 : c.irq.time ≤ c.time + c.dur + 1 := by
      rw [← hdel]
      unfold Clk.irq
      dsimp only
      split <;> (unfold u64; omega)
    obtain ⟨i1, i2, i3, i4⟩ := ih c.irq h2 h3 (by
      show c.irq.time + n * (c.dur + 1) < _
      omega)
    refine ⟨?_, i2, ?_, ?_⟩
    · show (c.irq.irqs n).time * c.denom + (c.irq.irqs n).acc = _
      have i1' : (c.irq.irqs n).time * c.denom + (c.irq.irqs n).acc = c.irq.time * c.denom + c.irq.acc + n * (c.dur * c.denom + c.frac) := i1
      rw [i1', h1, hdel, Nat.add_mul n 1, Nat.one_mul]
      generalize n * (c.dur * c.denom + c.frac) = x
      omega
    · show c.irq.irqs n = _
      refine i3.trans ?_
      rw [Clk.mk.injEq]
      exact ⟨rfl, rfl, rfl, rfl, rfl, rfl, rfl, rfl, by omega, rfl, rfl, rfl, rfl⟩
    · intro hlt
      have ht : c.irq.ticks = c.ticks + 1 := by
        unfold Clk.irq
        dsimp only
        unfold u64
        omega
      show (c.irq.irqs n).ticks = _
      rw [i4 (by omega), ht]
      omega

/-- C95: after `n` ticks the clock shows exactly the nanoseconds `n` periods of the timer take, rounded down: the period is `divisor` pulses of
1193181.818 Hz. -/
theorem tick_time_exact (hz n : Nat) (h : 18 ≤ hz ∧ hz ≤ 1000) (hroom : n * (divisor hz * 1000000000000 / 1193181818 + 1) < 18446744073709551616) :
    ((clk0 hz).irqs n).time = n * divisor hz * 1000000000000 / 1193181818 := by
  have hw := clk0_wf hz
  have hdur : (clk0 hz).dur = divisor hz * 1000000000000 / 1193181818 := by
    rw [clk0_dur hz h.1 h.2]
    unfold BILLION PIT
    rw [Nat.mul_assoc]
  obtain ⟨h1, h2, -⟩ := irqs_time n (clk0 hz) hw rfl (by
    rw [hdur]
    show 0 + n * (divisor hz * 1000000000000 / 1193181818 + 1) < _
    omega)
  have hnum : (clk0 hz).dur * (clk0 hz).denom + (clk0 hz).frac = divisor hz * 1000000000000 := by
    rw [hdur]
    show divisor hz * 1000000000000 / 1193181818 * 1193181818 + divisor hz * 1000000000 * 1000 % 1193181818 = _
    rw [Nat.mul_assoc (divisor hz)]
    exact Nat.div_add_mod' _ _
  rw [hnum] at h1
  have h1' : ((clk0 hz).irqs n).time * 1193181818 + ((clk0 hz).irqs n).acc = n * (divisor hz * 1000000000000) := by
    have e0 : (clk0 hz).time = 0 := rfl
    have e1 : (clk0 hz).acc = 0 := rfl
    have e2 : (clk0 hz).denom = 1193181818 := rfl
    rw [e0, e1, e2, Nat.zero_mul, Nat.zero_add] at h1
    exact h1
  have h2' : ((clk0 hz).irqs n).acc < 1193181818 := h2
  rw [Nat.mul_assoc]
  generalize ((clk0 hz).irqs n).time = t at *
  generalize n * (divisor hz * 1000000000000) = x at *
  omega

/-- C95: the rate is the nearest one the timer can have to `hz` interrupts per second. -/
theorem divisor_nearest (hz : Nat) (h : 0 < hz) (k : Nat) :
    (((divisor hz * (1000 * hz) : Nat) : Int) - 1193181818).natAbs ≤ (((k * (1000 * hz) : Nat) : Int) - 1193181818).natAbs := by
  have h1 : divisor hz * (1000 * hz) ≤ 1193181818 + 500 * hz ∧ 1193181818 + 500 * hz < divisor hz * (1000 * hz) + 1000 * hz := by
    unfold divisor PIT
    have h1 := Nat.div_add_mod' (1193181818 + 500 * hz) (1000 * hz)
    have h2 := Nat.mod_lt (1193181818 + 500 * hz) (show 1000 * hz > 0 by omega)
    constructor <;> omega
  rcases Nat.lt_trichotomy k (divisor hz) with e | e | e
  · have : (k + 1) * (1000 * hz) ≤ divisor hz * (1000 * hz) := Nat.mul_le_mul_right _ e
    rw [Nat.add_mul] at this
    omega
  · subst e; exact Nat.le_refl _
  · have : (divisor hz + 1) * (1000 * hz) ≤ k * (1000 * hz) := Nat.mul_le_mul_right _ e
    rw [Nat.add_mul] at this
    omega

/-- C95: the divisor fits in the timer's 16 bits for 19 to 1000 interrupts per second, -/
theorem divisor_fits_partial (hz : Nat) (h : 19 ≤ hz ∧ hz ≤ 1000) : 1 ≤ divisor hz ∧ divisor hz < 65536 := by
  obtain ⟨h1, h2, h3⟩ := divisor_bounds hz (by omega) h.2
  have := h3 h.1
  omega

/-- C95: but not for 18, which `hw_timer_setup` admits (pit.c:113-114): the timer ticks 88 times as fast. -/
theorem divisor_18_violated : divisor 18 = 66288 ∧ 66288 % 65536 = 752 := by decide

theorem resync_same (c c' : Clk) (sec : Int) (h : c.resync sec = some c') (hd : c.dur < 4294967296) : c'.time = c.time ∧ c'.dur < 4294967296 := by
  unfold Clk.resync at h
  split at h
  · simp at h; subst h; exact ⟨rfl, hd⟩
  split at h
  · simp at h; subst h; exact ⟨rfl, hd⟩
  dsimp only at h
  generalize s64 ((c.time : Int) - sec * BILLION) = drift at h
  cases ha : c.applyDrift drift with
  | none => rw [ha] at h; simp at h
  | some c1 =>
    rw [ha] at h
    dsimp only [Option.bind] at h
    have h1 : c1.time = c.time ∧ c1.dur = c.dur := by
      unfold Clk.applyDrift at ha
      split at ha
      · simp at ha; subst ha; exact ⟨rfl, rfl⟩
      dsimp only at ha
      split at ha
      · simp at ha
      · simp at ha; subst ha; exact ⟨rfl, rfl⟩
    cases hn : c1.nudge drift with
    | none => rw [hn] at h; simp at h
    | some c2 =>
      rw [hn] at h
      simp at h
      subst h
      dsimp only
      have h2 : c2.time = c1.time ∧ c2.dur < 4294967296 := by
        unfold Clk.nudge at hn
        split at hn
        · simp at hn; subst hn; exact ⟨rfl, by omega⟩
        split at hn
        · simp at hn; subst hn; exact ⟨rfl, by omega⟩
        split at hn
        · simp at hn
        dsimp only at hn
        split at hn
        · simp at hn; subst hn; exact ⟨rfl, by omega⟩
        · simp at hn; subst hn; exact ⟨rfl, u32_lt _⟩
      exact ⟨by omega, h2.2⟩

theorem irq_mono (c : Clk) (hd : c.dur < 4294967296) (hroom : c.time + 4294967296 < 18446744073709551616) :
    c.time ≤ c.irq.time ∧ c.irq.time ≤ c.time + 4294967296 := by
  have hdel : c.delta < 4294967296 := by unfold Clk.delta; split; exact u32_lt _; exact hd
  unfold Clk.irq
  dsimp only
  split <;> (unfold u64; omega)

/-- C95: whatever ticks and corrections happen, the clock never goes back (it has room for 584 years), and its nanoseconds are below a
thousand millions. -/
theorem clock_never_backwards (evs : List Ev) (c c' : Clk) (hd : c.dur < 4294967296) (h : c.run evs = some c')
    (hroom : c.time + evs.length * 4294967296 < 18446744073709551616) : c.time ≤ c'.time := by
  induction evs generalizing c with
  | nil => simp [Clk.run] at h; subst h; exact Nat.le_refl _
  | cons e es ih =>
    have hroom' : c.time + 4294967296 + es.length * 4294967296 < 18446744073709551616 := by
      rw [List.length_cons, Nat.add_mul] at hroom; omega
    rw [Clk.run] at h
    cases e with
    | irq =>
      dsimp only [Clk.step, Option.bind] at h
      obtain ⟨m1, m2⟩ := irq_mono c hd (by omega)
      have := ih c.irq hd h (by omega)
      omega
    | resync sec =>
      cases hr : c.resync sec with
      | none => dsimp only [Clk.step] at h; rw [hr] at h; simp at h
      | some c1 =>
        dsimp only [Clk.step] at h
        rw [hr] at h
        obtain ⟨e1, e2⟩ := resync_same c c1 sec hr hd
        have := ih c1 e2 h (by omega)
        omega

/-- C95: the time read is the time of the boot plus the clock's, in seconds and nanoseconds. -/
theorem gettime_correct (boot : Int) (c : Clk) (hb : -4611686018427387904 ≤ boot ∧ boot < 4611686018427387904) (ht : c.time < 18446744073709551616) :
    (getTime boot c).1 * 1000000000 + (getTime boot c).2 = boot * 1000000000 + c.time ∧ (getTime boot c).2 < 1000000000 := by
  unfold getTime BILLION
  dsimp only
  rw [s64_of_lt (x := ((c.time : Int) / (1000000000 : Nat))) (by omega) (by omega), s64_of_lt (by omega) (by omega)]
  omega

example : (clk0 250).dur = 4000228 ∧ ((clk0 250).irqs 250).time = 1000057143 := by decide +kernel

/-! ### Corrections of the clock -/

theorem irqs_slew (n : Nat) (c c0 : Clk) (k adj : Int) (hw : WF c) (hadj : c.adjVal = adj) (hrem : c.adjRem = s32 k) (hk : n ≤ k) (hk2 : k < 4294967296)
    (hdelta : u32 (s32 c.dur + adj) = c.dur + adj)
    (hsame : c0.dur = c.dur ∧ c0.frac = c.frac ∧ c0.denom = c.denom ∧ c0.acc = c.acc ∧ c0.adjRem = 0)
    (hlow : 0 ≤ (c.dur : Int) + adj)
    (hroom : c.time + n * (c.dur + adj + 1) < 18446744073709551616) (hroom0 : c0.time + n * ((c.dur : Int) + 1) < 18446744073709551616) :
    ((c.irqs n).time : Int) - (c0.irqs n).time = c.time - c0.time + n * adj ∧ (c.irqs n).adjRem = s32 (k - n) := by
  induction n generalizing c c0 k with
  | zero => exact ⟨by simp [Clk.irqs], by simp [Clk.irqs, hrem]⟩
  | succ n ih =>
    have e1 : ((n + 1 : Nat) : Int) * (c.dur + adj + 1) = n * ((c.dur : Int) + adj + 1) + (c.dur + adj + 1) := by rw [Int.natCast_add, Int.add_mul]; omega
    have e2 : ((n + 1 : Nat) : Int) * ((c.dur : Int) + 1) = n * ((c.dur : Int) + 1) + (c.dur + 1) := by rw [Int.natCast_add, Int.add_mul]; omega
    have e3 : ((n + 1 : Nat) : Int) * adj = n * adj + adj := by rw [Int.natCast_add, Int.add_mul]; omega
    rw [e1] at hroom
    rw [e2] at hroom0
    have p1 : 0 ≤ (n : Int) * ((c.dur : Int) + adj + 1) := Int.mul_nonneg (by omega) (by omega)
    have p2 : 0 ≤ (n : Int) * ((c.dur : Int) + 1) := Int.mul_nonneg (by omega) (by omega)
    have hne : c.adjRem ≠ 0 := by rw [hrem]; unfold s32; omega
    have hdel : (c.delta : Int) = c.dur + adj := by
      unfold Clk.delta
      rw [if_pos hne, hadj, hdelta]
    have hdel0 : c0.delta = c.dur := by rw [delta_plain c0 hsame.2.2.2.2, hsame.1]
    have ha := hw.acc
    have hf := hw.frac
    have hd := hw.denom
    obtain ⟨s1, s2, s3, s4, s5⟩ := hsame
    have t1 : (c.irq.time : Int) = c.time + (c.dur + adj) + (if u32 ((c.acc : Int) + c.frac) ≥ c.denom then 1 else 0 : Int) := by
      unfold Clk.irq
      dsimp only
      rw [hdel]
      apply u64_of_lt
      · split <;> omega
      · split <;> omega
    have t2 : (c0.irq.time : Int) = c0.time + c.dur + (if u32 ((c.acc : Int) + c.frac) ≥ c.denom then 1 else 0 : Int) := by
      unfold Clk.irq
      dsimp only
      rw [hdel0, s2, s3, s4]
      apply u64_of_lt
      · split <;> omega
      · split <;> omega
    have hb : 0 ≤ (if u32 ((c.acc : Int) + c.frac) ≥ c.denom then 1 else 0 : Int) ∧ (if u32 ((c.acc : Int) + c.frac) ≥ c.denom then 1 else 0 : Int) ≤ 1 := by split <;> omega
    generalize (if u32 ((c.acc : Int) + c.frac) ≥ c.denom then 1 else 0 : Int) = bb at t1 t2 hb
    have r1 : c.irq.adjRem = s32 (k - 1) := by
      unfold Clk.irq
      dsimp only
      rw [if_pos hne, hrem, s32_dec]
    have w' : WF c.irq := (irq_time c hw (by omega)).2
    obtain ⟨i1, i2⟩ := ih c.irq c0.irq (k - 1) w' hadj r1 (by omega) (by omega) hdelta
      ⟨s1, s2, s3, by unfold Clk.irq; dsimp only; rw [s2, s3, s4], by unfold Clk.irq; dsimp only; rw [if_neg (by omega), s5]⟩ hlow
      (by show (c.irq.time : Int) + n * ((c.dur : Int) + adj + 1) < _; omega) (by show (c0.irq.time : Int) + n * ((c.dur : Int) + 1) < _; omega)
    constructor
    · show ((c.irq.irqs n).time : Int) - (c0.irq.irqs n).time = _
      rw [i1, t1, t2, e3]
      omega
    · show (c.irq.irqs n).adjRem = _
      rw [i2]
      congr 1
      omega

theorem resync_fields (c c1 : Clk) (sec : Int) (drift : Int) (hdrift : drift = c.time - sec * 1000000000)
    (hb : -9223372036854775808 < drift ∧ drift < 9223372036854775808) (hd : 20 ≤ c.dur ∧ c.dur < 2147483648) (hne : drift ≠ 0)
    (hready : c.wake ≤ c.ticks) (hedge : c.lastEdge + 500000000 ≤ c.time ∧ c.time < 18446744073709551616)
    (h : c.resync sec = some c1) :
    c1.adjVal = (if drift > 0 then -((c.dur / 10 : Nat) : Int) else (c.dur / 10 : Nat)) ∧
    c1.adjRem = s32 ((drift.natAbs / (c.dur / 10) % 4294967296 : Nat) : Int) ∧
    c1.time = c.time ∧ c1.frac = c.frac ∧ c1.denom = c.denom ∧ c1.acc = c.acc := by
  unfold Clk.resync at h
  rw [if_neg (by omega), if_neg (by unfold u64; omega)] at h
  dsimp only at h
  have hB : ((c.time : Int) - sec * (BILLION : Nat)) = drift := by rw [hdrift]; rfl
  rw [hB, s64_of_lt (by omega) (by omega)] at h
  have hms : Int.tdiv (s32 c.dur) 10 = ((c.dur / 10 : Nat) : Int) := by
    rw [s32_of_lt (by omega) (by omega)]
    rfl
  have hu : u32 ((c.dur / 10 : Nat) : Int) = c.dur / 10 := by unfold u32; omega
  cases ha : c.applyDrift drift with
  | none => rw [ha] at h; simp at h
  | some c2 =>
    rw [ha] at h
    dsimp only [Option.bind] at h
    unfold Clk.applyDrift at ha
    rw [if_neg hne] at ha
    dsimp only at ha
    rw [hms, hu, if_neg (by omega)] at ha
    simp only [Option.some.injEq] at ha
    cases hn : c2.nudge drift with
    | none => rw [hn] at h; simp at h
    | some c3 =>
      rw [hn] at h
      simp only [Option.map_some, Option.some.injEq] at h
      have h3 : c3 = { c2 with dur := c3.dur } := by
        unfold Clk.nudge at hn
        split at hn
        · simp at hn; subst hn; rfl
        split at hn
        · simp at hn; subst hn; rfl
        split at hn
        · simp at hn
        dsimp only at hn
        split at hn
        · simp at hn; subst hn; rfl
        · simp only [Option.some.injEq] at hn; rw [← hn]
      have e1 : c3.adjVal = c2.adjVal := by rw [h3]
      have e2 : c3.adjRem = c2.adjRem := by rw [h3]
      have e3 : c3.time = c2.time := by rw [h3]
      have e4 : c3.frac = c2.frac := by rw [h3]
      have e5 : c3.denom = c2.denom := by rw [h3]
      have e6 : c3.acc = c2.acc := by rw [h3]
      rw [← h]
      dsimp only
      rw [e1, e2, e3, e4, e5, e6, ← ha]
      dsimp only
      refine ⟨?_, ?_, rfl, rfl, rfl, rfl⟩
      · split
        · exact s32_of_lt (by omega) (by omega)
        · rfl
      · rw [u64_nat (by omega)]
        congr 1

/-- C96: a measured error of the clock is corrected: over the following ticks the clock is slowed down (if it is ahead) or sped up by a tenth of the
tick's length until the correction differs from the error by less than a tenth of a tick; then the correction ends. Partial: the length
of the ticks must have stayed reasonable (see the violations), and the error must be below 2^32 such steps (20 days). -/
theorem drift_corrected_partial (c c1 : Clk) (sec drift : Int) (k : Nat) (hw : WF c) (hdrift : drift = c.time - sec * 1000000000) (hne : drift ≠ 0)
    (hd : 20 ≤ c.dur ∧ c.dur < 2147483648) (hnew : c.dur / 2 ≤ c1.dur ∧ c1.dur < 2147483648)
    (hready : c.wake ≤ c.ticks) (hedge : c.lastEdge + 500000000 ≤ c.time)
    (h : c.resync sec = some c1) (hk : k = drift.natAbs / (c.dur / 10)) (hk32 : k < 4294967296) (hb : drift.natAbs < 9223372036854775808)
    (hroom : c.time + k * (2 * (c1.dur : Int) + 1) < 18446744073709551616) :
    ((((({ c1 with adjRem := 0 } : Clk).irqs k).time : Int) - (c1.irqs k).time) - drift).natAbs < c.dur / 10 ∧ (c1.irqs k).adjRem = 0 := by
  have hp : 0 ≤ (k : Int) * (2 * (c1.dur : Int) + 1) := Int.mul_nonneg (by omega) (by omega)
  obtain ⟨f1, f2, f3, f4, f5, f6⟩ := resync_fields c c1 sec drift hdrift (by omega) hd hne hready ⟨hedge, by omega⟩ h
  rw [← hk, Nat.mod_eq_of_lt hk32] at f2
  have hw1 : WF c1 := ⟨by omega, by rw [f4, f5]; exact hw.frac, by rw [f5, f6]; exact hw.acc, by rw [f5]; exact hw.denom⟩
  have hm : c.dur / 10 ≤ c1.dur := by omega
  have hadj : -(c1.dur : Int) ≤ c1.adjVal ∧ c1.adjVal ≤ c1.dur := by rw [f1]; split <;> omega
  have q1 : (k : Int) * (c1.dur + c1.adjVal + 1) ≤ k * (2 * (c1.dur : Int) + 1) := Int.mul_le_mul_of_nonneg_left (by omega) (by omega)
  have q2 : (k : Int) * ((c1.dur : Int) + 1) ≤ k * (2 * (c1.dur : Int) + 1) := Int.mul_le_mul_of_nonneg_left (by omega) (by omega)
  have hdelta : ((u32 (s32 c1.dur + c1.adjVal) : Nat) : Int) = c1.dur + c1.adjVal := by
    rw [s32_of_lt (by omega) (by omega)]
    unfold u32
    omega
  obtain ⟨r1, r2⟩ := irqs_slew k c1 { c1 with adjRem := 0 } k c1.adjVal hw1 rfl f2 (by omega) (by omega) hdelta
    ⟨rfl, rfl, rfl, rfl, rfl⟩ (by omega) (by omega) (by show (c1.time : Int) + _ < _; omega)
  have r1' : ((c1.irqs k).time : Int) - (({ c1 with adjRem := 0 } : Clk).irqs k).time = k * c1.adjVal := by
    rw [r1]
    show (c1.time : Int) - c1.time + _ = _
    omega
  have r2' : (c1.irqs k).adjRem = 0 := by
    rw [r2, Int.sub_self]
    rfl
  refine ⟨?_, r2'⟩
  have hmod := Nat.div_add_mod' drift.natAbs (c.dur / 10)
  have hlt := Nat.mod_lt drift.natAbs (show c.dur / 10 > 0 by omega)
  rw [← hk] at hmod
  have hcast : ((k * (c.dur / 10) : Nat) : Int) = (k : Int) * ((c.dur / 10 : Nat) : Int) := by rw [Int.natCast_mul]
  generalize ({ c1 with adjRem := 0 } : Clk).irqs k = plain at *
  rw [f1] at r1'
  clear hk h f1 f2 q1 q2 hdelta r1 r2 r2' hadj hp hroom
  generalize c.dur / 10 = ms at *
  split at r1'
  · rw [Int.mul_neg, ← hcast] at r1'
    omega
  · rw [← hcast] at r1'
    omega

/-- C96: while a correction is under way, each tick still moves the clock forward, by nine to eleven tenths of the tick's length. -/
theorem slew_rate_partial (c c1 : Clk) (sec drift : Int) (hdrift : drift = c.time - sec * 1000000000) (hne : drift ≠ 0) (hb : drift.natAbs < 9223372036854775808)
    (hd : 20 ≤ c.dur ∧ c.dur < 2147483648) (hsame : c1.dur = c.dur) (hready : c.wake ≤ c.ticks) (hedge : c.lastEdge + 500000000 ≤ c.time)
    (hroom : c.time + 4294967296 < 18446744073709551616) (h : c.resync sec = some c1) :
    c.dur * 9 ≤ c1.delta * 10 ∧ c1.delta * 10 ≤ c.dur * 11 ∧ c1.time < c1.irq.time := by
  obtain ⟨f1, f2, f3, f4, f5, f6⟩ := resync_fields c c1 sec drift hdrift (by omega) hd hne hready ⟨hedge, by omega⟩ h
  have hdel : c.dur * 9 ≤ c1.delta * 10 ∧ c1.delta * 10 ≤ c.dur * 11 := by
    unfold Clk.delta
    split
    · rw [hsame, s32_of_lt (by omega) (by omega), f1]
      split
      · have := u32_of_lt (x := (c.dur : Int) + -((c.dur / 10 : Nat) : Int)) (by omega) (by omega)
        omega
      · have := u32_of_lt (x := (c.dur : Int) + ((c.dur / 10 : Nat) : Int)) (by omega) (by omega)
        omega
    · rw [hsame]; omega
  refine ⟨hdel.1, hdel.2, ?_⟩
  unfold Clk.irq
  dsimp only
  split
  · have := u64_of_lt (x := (c1.time : Int) + c1.delta + 1) (by omega) (by omega)
    omega
  · have := u64_of_lt (x := (c1.time : Int) + c1.delta + 0) (by omega) (by omega)
    omega

/-- The clock after `n` ticks without correction. -/
def Clk.jump (c : Clk) (n : Nat) : Clk :=
  { c with ticks := c.ticks + n, time := (c.time * c.denom + c.acc + n * (c.dur * c.denom + c.frac)) / c.denom,
           acc := (c.time * c.denom + c.acc + n * (c.dur * c.denom + c.frac)) % c.denom }

theorem irqs_jump (n : Nat) (c : Clk) (h : WF c) (h0 : c.adjRem = 0) (hroom : c.time + n * (c.dur + 1) < 18446744073709551616)
    (ht : c.ticks + n < 18446744073709551616) : c.irqs n = c.jump n := by
  obtain ⟨h1, h2, h3, h4⟩ := irqs_time n c h h0 hroom
  rw [h3, Clk.jump, ← h1, h4 ht]
  have e1 : ((c.irqs n).time * c.denom + (c.irqs n).acc) / c.denom = (c.irqs n).time := by
    rw [Nat.mul_comm, Nat.mul_add_div (by omega), Nat.div_eq_of_lt h2, Nat.add_zero]
  have e2 : ((c.irqs n).time * c.denom + (c.irqs n).acc) % c.denom = (c.irqs n).acc := by
    rw [Nat.mul_comm, Nat.mul_add_mod, Nat.mod_eq_of_lt h2]
  rw [e1, e2]

/-! ### Sleeping -/

/-- C94: for a request of `sec` seconds and `nsec` nanoseconds the number of ticks slept is enough, and at most two too many. Partial: the request
must be below 2^64 nanoseconds: see `sleep_overflow_violated`. -/
theorem sleep_ticks_partial (dur : Nat) (sec nsec : Int) (hd : 0 < dur) (hs : 0 ≤ sec) (hn : 0 ≤ nsec ∧ nsec < 1000000000)
    (hfit : sec * 1000000000 + nsec + dur < 18446744073709551616) (hfit2 : sec * 1000000000 + nsec + 2 * dur < 18446744073709551616) :
    sec * 1000000000 + nsec ≤ timespecToTicks dur sec nsec * dur ∧
    (timespecToTicks dur sec nsec : Int) * dur < sec * 1000000000 + nsec + 2 * dur := by
  unfold timespecToTicks divRoundUp64 BILLION
  have a1 : u64 sec = sec.toNat := u64_toNat (by omega) (by omega)
  have a2 : u64 nsec = nsec.toNat := u64_toNat (by omega) (by omega)
  rw [a1, a2]
  obtain ⟨s, rfl⟩ := Int.eq_ofNat_of_zero_le hs
  obtain ⟨m, rfl⟩ := Int.eq_ofNat_of_zero_le hn.1
  simp only [Int.toNat_natCast]
  have a3 : u64 ((s : Int) * (1000000000 : Nat)) = s * 1000000000 := by rw [u64_toNat (by omega) (by omega)]; omega
  rw [a3]
  have a4 : u64 (((s * 1000000000 : Nat) : Int) + dur - 1) = s * 1000000000 + dur - 1 := by rw [u64_toNat (by omega) (by omega)]; omega
  have a5 : u64 ((m : Int) + dur - 1) = m + dur - 1 := by rw [u64_toNat (by omega) (by omega)]; omega
  rw [a4, a5]
  have b1 := Nat.div_add_mod' (s * 1000000000 + dur - 1) dur
  have b2 := Nat.mod_lt (s * 1000000000 + dur - 1) hd
  have b3 := Nat.div_add_mod' (m + dur - 1) dur
  have b4 := Nat.mod_lt (m + dur - 1) hd
  have b5 := Nat.div_le_self (s * 1000000000 + dur - 1) dur
  have b6 := Nat.div_le_self (m + dur - 1) dur
  generalize (s * 1000000000 + dur - 1) / dur = x at *
  generalize (m + dur - 1) / dur = y at *
  have a6 : u64 ((x : Int) + y) = x + y := by rw [u64_toNat (by omega) (by omega)]; omega
  rw [a6]
  have hxy : ((x + y : Nat) : Int) * dur = ((x * dur : Nat) : Int) + ((y * dur : Nat) : Int) := by
    rw [Int.natCast_add, Int.add_mul, Int.natCast_mul, Int.natCast_mul]
  rw [hxy]
  generalize x * dur = X at *
  generalize y * dur = Y at *
  omega

/-- C94: a sleep ends with the tick it waited for. By the system's clock it then lasted at least as long as asked for. Partial: while no correction of the
clock is under way, see `sleep_slewed_violated`. -/
theorem sleep_long_enough_partial (c : Clk) (sec nsec : Int) (hw : WF c) (h0 : c.adjRem = 0) (hd : 0 < c.dur) (hs : 0 ≤ sec) (hn : 0 ≤ nsec ∧ nsec < 1000000000)
    (hfit : sec * 1000000000 + nsec + 2 * c.dur < 18446744073709551616)
    (hroom : c.time + timespecToTicks c.dur sec nsec * (c.dur + 1) < 18446744073709551616) :
    sec * 1000000000 + nsec ≤ (c.irqs (timespecToTicks c.dur sec nsec)).time - (c.time : Int) := by
  obtain ⟨h1, h2⟩ := sleep_ticks_partial c.dur sec nsec hd hs hn (by omega) hfit
  obtain ⟨h3, h4, -⟩ := irqs_time _ c hw h0 hroom
  have ha := hw.acc
  have hf := hw.frac
  generalize timespecToTicks c.dur sec nsec = n at *
  have hge : c.time + n * c.dur ≤ (c.irqs n).time := by
    have e1 : n * (c.dur * c.denom + c.frac) = (n * c.dur) * c.denom + n * c.frac := by rw [Nat.mul_add, Nat.mul_assoc]
    rw [e1] at h3
    have e2 : (c.time + n * c.dur) * c.denom ≤ (c.irqs n).time * c.denom + (c.irqs n).acc := by
      rw [Nat.add_mul]
      omega
    have e3 : (c.time + n * c.dur) * c.denom < ((c.irqs n).time + 1) * c.denom := by
      rw [Nat.add_mul (c.irqs n).time]
      omega
    have := Nat.lt_of_mul_lt_mul_right e3
    omega
  have : ((n * c.dur : Nat) : Int) = (n : Int) * c.dur := by rw [Int.natCast_mul]
  omega

/-- C94: the remaining time given to an interrupted sleeper is well formed, and with the time already slept it makes up the request. -/
theorem remaining_time_partial (dur start now : Nat) (sec nsec : Int) (hd : 0 < dur) (hs : 0 ≤ sec) (hn : 0 ≤ nsec ∧ nsec < 1000000000)
    (hfit : sec * 1000000000 + nsec + 2 * dur < 9223372036854775808) (hstart : start < 9223372036854775808) (hnow : start ≤ now) :
    ∃ r, nanosleep dur start sec nsec now true = some r ∧ 0 ≤ r.1 ∧ r.2 < 1000000000 ∧
      sec * 1000000000 + nsec ≤ ((now : Int) - start) * dur + (r.1 * 1000000000 + r.2) ∧
      r.1 * 1000000000 + r.2 < sec * 1000000000 + nsec + 2 * dur := by
  obtain ⟨h1, h2⟩ := sleep_ticks_partial dur sec nsec hd hs hn (by omega) (by omega)
  unfold nanosleep
  rw [if_pos rfl]
  generalize timespecToTicks dur sec nsec = n at *
  have hn1 : (n : Int) ≤ n * dur := by
    have := Int.mul_le_mul_of_nonneg_left (show (1 : Int) ≤ dur by omega) (show (0 : Int) ≤ n by omega)
    omega
  have hw : u64 ((start : Int) + n) = start + n := by unfold u64; omega
  rw [hw]
  split
  · rename_i hlt
    refine ⟨_, rfl, ?_⟩
    obtain ⟨m, hm⟩ : ∃ m, start + n - now = m := ⟨_, rfl⟩
    rw [hm]
    have hmn : m ≤ n := by omega
    have hmd : (m : Int) * dur ≤ n * dur := Int.mul_le_mul_of_nonneg_right (by omega) (by omega)
    have hm0 : 0 ≤ (m : Int) * dur := Int.mul_nonneg (by omega) (by omega)
    have htot : ((u64 ((m : Int) * dur) : Nat) : Int) = m * dur := u64_of_lt hm0 (by omega)
    have hsum : ((now : Int) - start) * dur + m * dur = n * dur := by
      rw [← Int.add_mul]
      congr 1
      omega
    unfold ticksToTimespec BILLION
    dsimp only
    generalize u64 ((m : Int) * dur) = tot at *
    have e1 : s64 ((tot : Int) / (1000000000 : Nat)) = (tot : Int) / 1000000000 := s64_of_lt (by omega) (by omega)
    rw [e1]
    omega
  · refine ⟨_, rfl, ?_⟩
    have hge : (n : Int) * dur ≤ ((now : Int) - start) * dur := Int.mul_le_mul_of_nonneg_right (by omega) (by omega)
    dsimp only
    omega

/-- C94: by a real clock a sleep which starts `phase` nanoseconds after a tick is shorter: less than a tick too short. -/
theorem sleep_real_time_partial (dur phase : Nat) (sec nsec : Int) (hd : 0 < dur) (hph : phase < dur) (hs : 0 ≤ sec) (hn : 0 ≤ nsec ∧ nsec < 1000000000)
    (hfit : sec * 1000000000 + nsec + 2 * dur < 18446744073709551616) :
    sec * 1000000000 + nsec - dur < timespecToTicks dur sec nsec * dur - (phase : Int) := by
  obtain ⟨h1, h2⟩ := sleep_ticks_partial dur sec nsec hd hs hn (by omega) hfit
  omega

/-- C94: sleeping 4 ms can take a real nanosecond. -/
theorem sleep_short_violated : (timespecToTicks (clk0 250).dur 0 4000000 * (clk0 250).dur : Int) - 4000227 = 1 := by decide +kernel

/-- C94: a request of 18446744074 seconds (584 years) is 73 ticks; one of -1 nanoseconds (which is invalid) is no tick at all. -/
theorem sleep_overflow_violated : timespecToTicks (clk0 250).dur 18446744074 0 = 73 ∧ timespecToTicks (clk0 250).dur 0 (-1) = 0 := by decide +kernel

/-- C94: a sleeper for 1 ms, interrupted at once, is told to sleep 4 ms more. -/
theorem remaining_grows_violated : nanosleep (clk0 250).dur 1000 0 1000000 1000 true = some (0, 4000228) := by decide +kernel

/-- C94: `poll` with a timeout of 7 ms gives up after a tick, of 4 ms, and so does `select`. -/
theorem poll_timeout_violated : pollTicks 250 7 = 1 ∧ selectTicks 250 0 7000 = 1 ∧ (clk0 250).dur < 7000000 := by decide +kernel

/-- C94: `poll` waits at least its timeout rounded down to whole ticks of 1000/HZ ms. -/
theorem poll_timeout_partial (hz ms : Nat) (hz1 : 1 ≤ hz ∧ hz ≤ 1000) (hms : 0 < ms) :
    ms < (pollTicks hz ms + 1) * (1000 / hz) ∧ (1000 / hz ≤ ms → pollTicks hz ms * (1000 / hz) ≤ ms) := by
  have h1 : 1 ≤ 1000 / hz := by rw [Nat.le_div_iff_mul_le (by omega)]; omega
  unfold pollTicks
  generalize 1000 / hz = q at *
  have b1 := Nat.div_add_mod' ms q
  have b2 := Nat.mod_lt ms (show q > 0 by omega)
  constructor
  · rw [Nat.add_mul, Nat.one_mul]
    have : ms / q * q ≤ max (ms / q) 1 * q := Nat.mul_le_mul_right _ (Nat.le_max_left _ _)
    omega
  · intro hq
    have : 1 ≤ ms / q := by rw [Nat.le_div_iff_mul_le (by omega)]; omega
    rw [Nat.max_eq_left this]
    omega

/-- C97: `clock_getres` for 32-bit times gives the length of a tick at the nominal rate. -/
theorem getres_time32_correct (hz : Nat) (id : ClkId) : sysClockGetresTime32 hz id = (0, 1000000000 / hz) := rfl

/-- C97: `clock_getres` for 64-bit times gives the time instead. -/
theorem getres_violated (boot : Int) (c : Clk) (cpu : Nat) (id : ClkId) : sysClockGetres boot c cpu id = clockGettime boot c cpu id := rfl

/-- C97: for instance, after 1 s of a boot in 2024. -/
example : sysClockGetres 1709251199 ((clk0 250).irqs 250) 0 .realtime = (1709251200, 57143) ∧ (0, 1000000000 / 250) ≠ ((1709251200 : Int), (57143 : Nat)) := by
  decide +kernel

/-! ### What the corrections can do -/

theorem run_irqs (n : Nat) (c : Clk) (es : List Ev) : c.run (List.replicate n .irq ++ es) = (c.irqs n).run es := by
  induction n generalizing c with
  | zero => rfl
  | succ n ih =>
    rw [List.replicate_succ, List.cons_append, Clk.run]
    show (some c.irq).bind _ = _
    exact ih c.irq

theorem irqs_add (m n : Nat) (c : Clk) : c.irqs (m + n) = (c.irqs m).irqs n := by
  induction m generalizing c with
  | zero => rw [Nat.zero_add]; rfl
  | succ m ih => rw [Nat.add_right_comm]; exact ih c.irq

theorem irqs_fields (n : Nat) (c : Clk) (hd : c.dur < 4294967296) (hroom : c.time + n * 4294967296 < 18446744073709551616) (ht : c.ticks + n < 18446744073709551616) :
    (c.irqs n).dur = c.dur ∧ (c.irqs n).wake = c.wake ∧ (c.irqs n).lastEdge = c.lastEdge ∧ (c.irqs n).ticks = c.ticks + n ∧
      c.time ≤ (c.irqs n).time ∧ (c.irqs n).time ≤ c.time + n * 4294967296 := by
  induction n generalizing c with
  | zero => exact ⟨rfl, rfl, rfl, rfl, Nat.le_refl _, by simp [Clk.irqs]⟩
  | succ n ih =>
    have hroom' : c.time + 4294967296 + n * 4294967296 < 18446744073709551616 := by rw [Nat.add_mul] at hroom; omega
    obtain ⟨m1, m2⟩ := irq_mono c hd (by omega)
    have ht1 : c.irq.ticks = c.ticks + 1 := u64_nat (x := c.ticks + 1) (by omega)
    obtain ⟨i1, i2, i3, i4, i5, i6⟩ := ih c.irq hd (by omega) (by omega)
    exact ⟨i1, i2, i3, by show (c.irq.irqs n).ticks = _; omega, by show _ ≤ (c.irq.irqs n).time; omega,
      by show (c.irq.irqs n).time ≤ _; rw [Nat.add_mul]; omega⟩

/-- C96: a machine suspended for an hour, one minute after its boot (the hardware clock goes on): after the next correction every tick
counts more than 45 times its length, so that the clock runs away, 45 seconds per second. -/
theorem suspend_runaway_violated : ∃ evs c, (clk0 250).run evs = some c ∧ 45 * (clk0 250).dur ≤ c.dur ∧ 45000000000 ≤ (c.irqs 250).time - c.time := by
  let c1 := (clk0 250).jump 249
  have h1 : (clk0 250).irqs 249 = c1 := irqs_jump 249 _ (clk0_wf 250) rfl (by decide +kernel) (by decide +kernel)
  let c2 := ((c1.resync 1).getD (clk0 250)).irqs 9
  have h2 : c1.resync 1 = some ((c1.resync 1).getD (clk0 250)) := by decide +kernel
  have hw2 : WF c2 := ⟨by decide +kernel, by decide +kernel, by decide +kernel, by decide +kernel⟩
  let c3 := c2.jump 14992
  have h3 : c2.irqs 14992 = c3 := irqs_jump 14992 _ hw2 (by decide +kernel) (by decide +kernel) (by decide +kernel)
  let c4 := (c3.resync 3661).getD (clk0 250)
  have h4 : c3.resync 3661 = some c4 := by decide +kernel
  refine ⟨List.replicate 249 .irq ++ (.resync 1 :: (List.replicate (9 + 14992) .irq ++ [.resync 3661])), c4, ?_, by decide +kernel, by decide +kernel⟩
  rw [run_irqs, h1, Clk.run, Clk.step, h2]
  rw [Option.bind_some, run_irqs, irqs_add, h3]
  rw [Clk.run, Clk.step, h4]
  rfl

theorem crash_later (c4 : Clk) (n : Nat) (hn : n < 100000) (hdur : c4.dur = 3) (hw : c4.wake = c4.ticks + (1 + n))
    (htime : c4.time = c4.lastEdge ∧ c4.time < 100000000000 ∧ c4.ticks < 100000)
    (hfirst : c4.time + 500000000 ≤ c4.irq.time ∧ c4.irq.time < 1000000000000 ∧ c4.irq.ticks = c4.ticks + 1) :
    (c4.irqs (1 + n)).resync 0 = none := by
  rw [irqs_add]
  show (c4.irq.irqs n).resync 0 = none
  obtain ⟨i1, i2, i3, i4, i5, i6⟩ := irqs_fields n c4.irq (by show c4.dur < _; omega) (by omega) (by omega)
  generalize c4.irq.irqs n = c5 at *
  have e1 : c5.dur = 3 := by rw [i1]; exact hdur
  have e2 : c5.wake = c4.wake := i2
  have e3 : c5.lastEdge = c4.lastEdge := i3
  unfold Clk.resync
  rw [if_neg (by omega), if_neg (by rw [u64_toNat (by omega) (by omega)]; omega)]
  dsimp only
  rw [Int.zero_mul, Int.sub_zero, s64_of_lt (by omega) (by omega)]
  have : c5.applyDrift (c5.time : Int) = none := by
    unfold Clk.applyDrift
    rw [if_neg (by omega), e1]
    rfl
  rw [this]
  rfl

/-- C96: if the hardware clock is set back by 80 seconds, the length of a tick can become 3 ns: the next correction divides by zero, a panic. -/
theorem set_back_panics_violated : ∃ evs, (clk0 1000).run evs = none := by
  let c1 := (clk0 1000).jump 1001
  have h1 : (clk0 1000).irqs 1001 = c1 := irqs_jump 1001 _ (clk0_wf 1000) rfl (by decide +kernel) (by decide +kernel)
  let c2 := ((c1.resync 1).getD (clk0 1000)).irqs 8
  have h2 : c1.resync 1 = some ((c1.resync 1).getD (clk0 1000)) := by decide +kernel
  have hw2 : WF c2 := ⟨by decide +kernel, by decide +kernel, by decide +kernel, by decide +kernel⟩
  let c3 := c2.jump 60006
  have h3 : c2.irqs 60006 = c3 := irqs_jump 60006 _ hw2 (by decide +kernel) (by decide +kernel) (by decide +kernel)
  let c4 := (c3.resync (-19)).getD (clk0 1000)
  have h4 : c3.resync (-19) = some c4 := by decide +kernel
  have hdur : c4.dur = 3 := by decide +kernel
  have hw : c4.wake = c4.ticks + (1 + 59999) := by decide +kernel
  have htime : c4.time = c4.lastEdge ∧ c4.time < 100000000000 ∧ c4.ticks < 100000 := by decide +kernel
  have hfirst : c4.time + 500000000 ≤ c4.irq.time ∧ c4.irq.time < 1000000000000 ∧ c4.irq.ticks = c4.ticks + 1 := by decide +kernel
  refine ⟨List.replicate 1001 .irq ++ (.resync 1 :: (List.replicate (8 + 60006) .irq ++ (.resync (-19) :: (List.replicate (1 + 59999) .irq ++ [.resync 0])))), ?_⟩
  rw [run_irqs, h1, Clk.run, Clk.step, h2]
  rw [Option.bind_some, run_irqs, irqs_add, h3]
  rw [Clk.run, Clk.step, h4]
  rw [Option.bind_some, run_irqs]
  rw [Clk.run, Clk.step, crash_later c4 59999 (by decide) hdur hw htime hfirst]
  rfl

/-- C94: while the clock is being slowed down, a sleep of a second takes nine tenths of a second by the same clock. -/
theorem sleep_slewed_violated : ∃ evs c, (clk0 250).run evs = some c ∧ timespecToTicks c.dur 1 0 = 250 ∧ (c.irqs 250).time - c.time < 900100000 := by
  refine ⟨List.replicate 500 .irq ++ [.resync 1], ((((clk0 250).jump 500).resync 1).getD (clk0 250)), ?_, by decide +kernel, by decide +kernel⟩
  have h1 : (clk0 250).irqs 500 = (clk0 250).jump 500 := irqs_jump 500 _ (clk0_wf 250) rfl (by decide +kernel) (by decide +kernel)
  rw [run_irqs, h1]
  show (Clk.resync _ 1).bind _ = _
  have h2 : ((clk0 250).jump 500).resync 1 = some ((((clk0 250).jump 500).resync 1).getD (clk0 250)) := by decide +kernel
  rw [h2]
  rfl

/-- C96: the hypotheses of `drift_corrected_partial` are met by the clock one second ahead. -/
example : let c := (clk0 250).jump 500; ∃ c1, c.resync 1 = some c1 ∧ c1.dur = c.dur ∧ c1.adjRem = 2500 ∧ WF c ∧ c.lastEdge + 500000000 ≤ c.time :=
  ⟨_, rfl, by decide +kernel, by decide +kernel, ⟨by decide +kernel, by decide +kernel, by decide +kernel, by decide +kernel⟩, by decide +kernel⟩

/-- A measured error of less than a third of the time since the last measurement leaves a usable length of the ticks. -/
theorem nudge_safe_partial (c c1 : Clk) (drift : Int) (hd : 20 ≤ c.dur ∧ c.dur < 1073741824) (hsync : c.lastSync ≤ c.time ∧ c.time < 9223372036854775808)
    (hgap : 10 * c.dur ≤ c.time - c.lastSync) (hsmall : drift.natAbs * 3 ≤ c.time - c.lastSync) (h : c.nudge drift = some c1) :
    c.dur * 7 / 10 ≤ c1.dur ∧ c1.dur ≤ c.dur * 13 / 10 := by
  unfold Clk.nudge at h
  split at h
  · simp at h; subst h; omega
  split at h
  · simp at h; subst h; omega
  split at h
  · simp at h
  dsimp only at h
  split at h
  · simp at h; subst h; omega
  rw [Option.some.injEq] at h
  have hgapu : u64 ((c.time : Int) - c.lastSync) = c.time - c.lastSync := by rw [u64_toNat (by omega) (by omega)]; omega
  rw [hgapu] at h
  generalize hg : c.time - c.lastSync = gap at *
  have b1 := Nat.div_add_mod' gap c.dur
  have b2 := Nat.mod_lt gap (show c.dur > 0 by omega)
  have b3 : 10 ≤ gap / c.dur := by rw [Nat.le_div_iff_mul_le (by omega)]; exact hgap
  have b4 := Nat.div_le_self gap c.dur
  generalize gap / c.dur = tg at *
  rw [s64_of_lt (x := (tg : Int)) (by omega) (by omega)] at h
  -- |drift / tg| ≤ |drift| / tg
  have hq : (Int.tdiv drift tg).natAbs = drift.natAbs / tg := by rw [Int.natAbs_tdiv]; rfl
  have hq2 : (Int.tdiv drift tg).natAbs * 3 ≤ c.dur + c.dur / 10 + 1 := by
    rw [hq]
    have c1 := Nat.div_mul_le_self drift.natAbs tg
    generalize drift.natAbs / tg = p at *
    have c2 : p * 3 * tg ≤ (tg + 1) * c.dur := by
      have : p * 3 * tg = p * tg * 3 := by rw [Nat.mul_right_comm]
      rw [this, Nat.add_mul]
      omega
    rcases Nat.lt_or_ge (c.dur + c.dur / 10 + 1) (p * 3) with hlt | hge
    · exfalso
      have c3 : (c.dur + c.dur / 10 + 2) * tg ≤ p * 3 * tg := Nat.mul_le_mul_right _ hlt
      have c4 : (c.dur + c.dur / 10 + 2) * tg = tg * c.dur + (c.dur / 10 + 2) * tg := by
        rw [Nat.add_assoc, Nat.add_mul, Nat.mul_comm c.dur tg]
      have c5 : (c.dur / 10 + 2) * 10 ≤ (c.dur / 10 + 2) * tg := Nat.mul_le_mul_left _ b3
      rw [c4] at c3
      rw [Nat.add_mul] at c2
      omega
    · exact hge
  generalize Int.tdiv drift tg = p at *
  rw [s64_of_lt (x := p * 3) (by omega) (by omega)] at h
  have hr : (Int.tdiv (p * 3) 4).natAbs = (p * 3).natAbs / 4 := by rw [Int.natAbs_tdiv]; rfl
  have h3 : (p * 3).natAbs = p.natAbs * 3 := by rw [Int.natAbs_mul]; rfl
  rw [h3] at hr
  generalize Int.tdiv (p * 3) 4 = a at *
  have hc1 : c1.dur = u32 ((c.dur : Int) - a) := by rw [← h]
  have := u32_of_lt (x := (c.dur : Int) - a) (by omega) (by omega)
  omega

end Verif.Time
