import Verif.Vterm
import Verif.Itoa
/-!
# What is written to the console: characters and escape sequences
(modules/console/console.c, console_def_state.c.h, tables.c, video_term_int.h)

Properties C110 to C114.

Every byte written goes through a filter, a state machine, which either prints a character or
requests an action of the terminal (module `Vterm`).  Outcome `none` is a write past the array
`params` on the kernel's stack (console.c:644, 661).  `over` records that the terminating zero of the
parameter or intermediate bytes was written just after their arrays (console.c:648-649; it lands in
the array which follows in the same structure).

Simplifications.  Answers to the terminal's requests are returned as bytes; how they reach the
keyboard buffer is not here.  `ESC c` also empties the input buffer and resets `termios`; of these
only what the filter looks at is modelled.
-/
namespace Verif.Console
open Verif.Vterm

/-- The functions `tty_state_*` between which `tty_set_state` (console.c:869-874) switches. -/
inductive St
  | default | esc1 | par0 | par1 | csi | unknown
  deriving DecidableEq, Repr

/-- modules/console/console_int.h:17-43 `struct twfilter_ctx`, `struct console_data`; `color` is the
variable of `term_action_write` which the filter changes (term_actions.c.h:110), `cur` is
`t->curr_color`.  `pb` are the parameter bytes, `ib` the number of intermediate bytes. -/
structure Con where
  st : St
  pb : List Nat
  ib : Nat
  bold : Bool
  rev : Bool
  user : Nat
  cur : Nat
  color : Nat
  shifted : Bool
  g0 : Bool
  g1 : Bool
  savedR : Nat
  savedC : Nat
  vErase : Nat
  vWerase : Nat
  vKill : Nat
  onlcr : Bool
  over : Bool
  deriving DecidableEq, Repr

/-- What the filter asks the terminal about: `vterm_get_curr_row`, `vterm_get_curr_col` and the size;
`ok`: memory for the copy of the screen would be there. -/
structure Env where
  r : Nat
  c : Nat
  rows : Nat
  cols : Nat
  ok : Bool

/-- What becomes of one byte. -/
structure Out where
  k : Con
  acts : List Act
  reply : List Nat
  deriving DecidableEq, Repr

/-- modules/console/console.c:56-69 `tty_reset_filter_ctx`. -/
def Con.resetCtx (k : Con) : Con := { k with st := .default, pb := [], ib := 0 }

/-- modules/console/tables.c:39-72 `tty_default_trans_table`. -/
def tableText (b : Nat) : Option Nat := if 32 ≤ b ∧ b ≤ 126 then some b else none

/-- modules/console/tables.c:75-101 `tty_gfx_trans_table` (codes from gfx_chars.h). -/
def tableGfx (b : Nat) : Option Nat :=
  if b = 32 then some 32
  else if b = 108 then some 0xda
  else if b = 109 then some 0xc0
  else if b = 107 then some 0xbf
  else if b = 106 then some 0xd9
  else if b = 116 then some 0xc3
  else if b = 117 then some 0xb4
  else if b = 118 then some 0xc1
  else if b = 119 then some 0xc2
  else if b = 113 then some 0xc4
  else if b = 120 then some 0xb3
  else if b = 110 then some 0xc5
  else if b = 96 then some 0x04
  else if b = 97 then some 0xb1
  else if b = 102 then some 0xf8
  else if b = 103 then some 0xf1
  else if b = 126 then some 0x07
  else if b = 44 then some 0x1b
  else if b = 43 then some 0x1a
  else if b = 46 then some 0x19
  else if b = 45 then some 0x18
  else if b = 104 then some 0xb0
  else if b = 48 then some 0xdb
  else none

/-- `cd->c_sets_tables[cd->c_set][c]` (console_def_state.c.h:186). -/
def Con.table (k : Con) (b : Nat) : Option Nat :=
  if (if k.shifted then k.g1 else k.g0) then tableGfx b else tableText b

/-- modules/console/console_def_state.c.h:139-165 `tty_update_default_state_tables` and the
functions put in the table; the last assignment wins. -/
def Con.control (k : Con) (e : Env) (b : Nat) : Out :=
  if b = k.vKill then ⟨k, [], []⟩
  else if b = k.vWerase then ⟨k, [.delWord], []⟩
  else if b = k.vErase then ⟨k, [.delPrev], []⟩
  else if b = 0x9b then ⟨{ k.resetCtx with st := .csi }, [], []⟩
  else if b = 0x7f then ⟨k, [], []⟩
  else if b = 15 then ⟨{ k with shifted := false }, [], []⟩
  else if b = 14 then ⟨{ k with shifted := true }, [], []⟩
  else if b = 27 then ⟨{ k with st := .esc1 }, [], []⟩
  else if b = 8 then ⟨k, [.moveRel 0 (-1)], []⟩
  else if b = 11 ∨ b = 12 then ⟨k, [.putc 10 k.color], []⟩
  else if b = 7 then ⟨k, [], []⟩
  else if b = 9 ∨ b = 13 then ⟨k, [.putc b k.color], []⟩
  else if b = 10 then
    if k.onlcr then ⟨k, [.putc 10 k.color, .putc 13 k.color], []⟩ else ⟨k, [.putc 10 k.color], []⟩
  else ⟨k, [.putc 63 k.color], []⟩

/-- modules/console/console_def_state.c.h:180-206 `tty_state_default`. -/
def Con.stepDefault (k : Con) (e : Env) (b : Nat) : Out :=
  match k.table b with
  | some ch => ⟨k, [.putc ch k.color], []⟩
  | none => k.control e b

/-- modules/console/console_def_state.c.h:37-53 `tty_def_state_ri`. -/
def revIndex (e : Env) : Act := if e.r > 0 then .moveRel (-1) 0 else .nonBufDown 1

/-- modules/console/console.c:733-748 `tty_state_esc2_unknown` (after `tty_pre_filter`). -/
def Con.stepUnknown (k : Con) (b : Nat) : Con :=
  if 0x40 ≤ b ∧ b ≤ 0x5f then { k with st := .default } else k

/-- modules/console/console.c:750-817 `tty_state_esc1` (after `tty_pre_filter`). -/
def Con.stepEsc (k : Con) (e : Env) (b : Nat) : Out :=
  if b = 91 then ⟨{ k.resetCtx with st := .csi }, [], []⟩
  else if b = 99 then
    ⟨{ k.resetCtx with
        cur := defColor, user := defColor, shifted := false, g0 := false, g1 := true,
        vErase := 0x7f, vWerase := 0x17, vKill := 0x15, onlcr := true }, [.reset], []⟩
  else if b = 40 then ⟨{ k with st := .par0 }, [], []⟩
  else if b = 41 then ⟨{ k with st := .par1 }, [], []⟩
  else if b = 68 then ⟨{ k with st := .default }, [.putc 10 k.color], []⟩
  else if b = 77 then ⟨{ k with st := .default }, [revIndex e], []⟩
  else ⟨Con.stepUnknown { k with st := .unknown } b, [], []⟩

/-- modules/console/console.c:819-843 `tty_change_translation_table`: the chosen table. -/
def chosen (b : Nat) (old : Bool) : Bool := if b = 66 then false else if b = 48 then true else old

/-- `*endptr` (the string ends with a zero). -/
def atEnd (s : List Nat) (i : Nat) : Bool := decide (s.length ≤ i)

/-- modules/console/console.c:653-662: the loop over the parameters, from `s = endptr + 1` on; the
first argument only bounds the recursion (every round advances). -/
def params : Nat → List Nat → List Nat
  | 0, _ => []
  | f + 1, s =>
    let x := Itoa.strtol 32 10 s
    x.val.toNat :: (if atEnd s x.endOff then [] else params f (s.drop (x.endOff + 1)))

/-- Values of `params` and `pc` after console.c:651-663. -/
def parse (pb : List Nat) : List Nat :=
  match pb with
  | [] => []
  | b :: rest => if b = 63 then params (pb.length + 1) rest else params (pb.length + 1) pb

/-- `LO_BITS((u32)d, 16, u16)` given to a function of type `s16` (video_term_int.h:192-200,
term_actions.c.h:170). -/
def s16 (d : Int) : Int := (d + 32768) % 65536 - 32768

/-- Addition of `int`s (the code is compiled with `-fwrapv`). -/
def add32 (a b : Int) : Int := (a + b + 2147483648) % 4294967296 - 2147483648

/-- modules/console/tables.c:11-29 `fg_csi_to_vga` for 30..37 and 90..97. -/
def csiToVga (p : Nat) : Nat :=
  if p = 30 then 0 else if p = 31 then 4 else if p = 32 then 2 else if p = 33 then 6
  else if p = 34 then 1 else if p = 35 then 5 else if p = 36 then 3 else if p = 37 then 7
  else if p = 90 then 8 else if p = 91 then 12 else if p = 92 then 10 else if p = 93 then 14
  else if p = 94 then 9 else if p = 95 then 13 else if p = 96 then 11 else if p = 97 then 15
  else 0

/-- include/tilck/common/color_defs.h:32 `make_color`. -/
def makeColor (fg bg : Nat) : Nat := (fg ||| bg <<< 4) % 256

/-- modules/console/console.c:155-166: the label `set_color`. -/
def Con.setColor (k : Con) (fg bg : Nat) : Con :=
  let f := if k.bold ∧ fg ≤ 7 then fg + 8 else fg
  let cur := if k.rev then makeColor bg f else makeColor f bg
  { k with user := makeColor fg bg, cur := cur, color := cur }

/-- modules/console/console.c:89-167 `tty_csi_m_handler_param`. -/
def Con.sgr (k : Con) (p : Nat) : Con :=
  let fg := k.user % 16
  let bg := k.user / 16
  if p = 0 then Con.setColor { k with bold := false, rev := false } 7 0
  else if p = 39 then k.setColor 7 bg
  else if p = 49 then k.setColor fg 0
  else if p = 1 then Con.setColor { k with bold := true } fg bg
  else if p = 7 then Con.setColor { k with rev := true } fg bg
  else if p = 22 then Con.setColor { k with bold := false } fg bg
  else if p = 27 then Con.setColor { k with rev := false } fg bg
  else if (30 ≤ p ∧ p ≤ 37) ∨ (90 ≤ p ∧ p ≤ 97) then k.setColor (csiToVga p) bg
  else if (40 ≤ p ∧ p ≤ 47) ∨ (100 ≤ p ∧ p ≤ 107) then k.setColor fg (csiToVga (p - 10))
  else k

/-- modules/console/console.c:169-188 `tty_csi_m_handler`. -/
def Con.sgrs (k : Con) (ps : List Nat) : Con :=
  (if ps = [] then [0] else ps).foldl Con.sgr k

/-- Decimal text of a number (`%u` of `snprintk`). -/
def dec (n : Nat) : List Nat := (Itoa.itoaU 32 10 n).getD []

/-- modules/console/console.c:318-350 `tty_csi_n_handler`: the answer. -/
def report (e : Env) (p : Nat) : List Nat :=
  if p = 6 then [27, 91] ++ dec (e.r + 1) ++ [59] ++ dec (e.c + 1) ++ [82]
  else if p = 5 then [27, 91, 48, 110]
  else []

/-- modules/console/console.c:190-198 `tty_move_cursor_begin_nth_row`. -/
def nthRow (e : Env) (d : Int) : Act :=
  .moveCur (clampI (add32 e.r d) (e.rows - 1) % 65536) 0

/-- modules/console/console.c:71-87, 200-635: the handlers of the control sequences `ESC [`, by
their last byte; `ps` are the parameters, missing ones are 0. -/
def Con.handle (k : Con) (e : Env) (ps : List Nat) (f : Nat) : Out :=
  let p := ps.getD 0 0
  let q := ps.getD 1 0
  if f = 64 then ⟨k, [.insChars (max 1 (min p 65535))], []⟩
  else if f = 65 then ⟨k, [.moveRel (s16 (-(max 1 p : Nat))) 0], []⟩
  else if f = 66 then ⟨k, [.moveRel (s16 (max 1 p : Nat)) 0], []⟩
  else if f = 67 then ⟨k, [.moveRel 0 (s16 (max 1 p : Nat))], []⟩
  else if f = 68 then ⟨k, [.moveRel 0 (s16 (-(max 1 p : Nat)))], []⟩
  else if f = 69 then ⟨k, [nthRow e (max 1 p : Nat)], []⟩
  else if f = 70 then ⟨k, [nthRow e (-(max 1 p : Nat))], []⟩
  else if f = 71 then ⟨k, [.moveCur e.r (min (max 1 p - 1) (e.cols - 1))], []⟩
  else if f = 72 ∨ f = 102 then
    ⟨k, [.moveCur (min (max 1 p - 1) (e.rows - 1)) (min (max 1 q - 1) (e.cols - 1))], []⟩
  else if f = 74 then ⟨k, [.eraseDisplay (p % 4096)], []⟩
  else if f = 75 then ⟨k, [.eraseLine (p % 4096)], []⟩
  else if f = 76 then ⟨k, [.insLines (max 1 p % 2 ^ 24)], []⟩
  else if f = 77 then ⟨k, [.delLines (max 1 p % 2 ^ 24)], []⟩
  else if f = 80 then ⟨k, [.delChars (max 1 (min p 65535))], []⟩
  else if f = 83 then ⟨k, [.nonBufUp (max 1 p % 4096)], []⟩
  else if f = 84 then ⟨k, [.nonBufDown (max 1 p % 4096)], []⟩
  else if f = 88 then ⟨k, [.eraseChars (max 1 (min p 65535))], []⟩
  else if f = 97 then ⟨k, [.moveRel 0 (s16 (max 1 p : Nat))], []⟩
  else if f = 99 then ⟨k, [], [27, 91, 63, 54, 99]⟩
  else if f = 100 then ⟨k, [.moveCur (min (max 1 p - 1) (e.rows - 1)) e.c], []⟩
  else if f = 101 then ⟨k, [.moveRel (s16 (max 1 p : Nat)) 0], []⟩
  else if f = 109 then ⟨k.sgrs ps, [], []⟩
  else if f = 110 then ⟨k, [], report e p⟩
  else if f = 114 then
    let s := if p = 0 then 0 else p - 1
    let t := if q = 0 then e.rows - 1 else q - 1
    if s ≥ t then ⟨k, [], []⟩ else ⟨k, [.setRegion (s % 4096) (t % 4096)], []⟩
  else if f = 115 then ⟨{ k with savedR := e.r, savedC := e.c }, [], []⟩
  else if f = 117 then ⟨k, [.moveCur k.savedR k.savedC], []⟩
  else if f = 96 then ⟨k, [.moveCur e.r (min (max 1 p - 1) (e.cols - 1))], []⟩
  else ⟨k, [], []⟩

/-- modules/console/console.c:425-475 `tty_csi_pvt_ext_handler`. -/
def Con.handlePrivate (k : Con) (e : Env) (ps : List Nat) (f : Nat) : Out :=
  let p := ps.getD 0 0
  if f = 99 then ⟨k, [], []⟩
  else if p = 25 then
    if f = 104 then ⟨k, [.enableCursor true], []⟩
    else if f = 108 then ⟨k, [.enableCursor false], []⟩ else ⟨k, [], []⟩
  else if p = 1049 then
    if f = 104 then ⟨k, [.useAlt true e.ok], []⟩
    else if f = 108 then ⟨k, [.useAlt false e.ok], []⟩ else ⟨k, [], []⟩
  else ⟨k, [], []⟩

/-- modules/console/console.c:637-678 `tty_filter_end_csi_seq`: `params` has 16 elements, and the
arrays of parameter and intermediate bytes 64. -/
def Con.endCsi (k : Con) (e : Env) (f : Nat) : Option Out :=
  let ps := parse k.pb
  if 16 < ps.length then none
  else
    let k := { k with over := k.over || decide (k.pb.length = 64) || decide (k.ib = 64) }
    let o := if k.pb.head? = some 63 then k.handlePrivate e ps f else k.handle e ps f
    some { o with k := o.k.resetCtx }

/-- modules/console/console.c:680-731 `tty_state_esc2_csi` (after `tty_pre_filter`). -/
def Con.stepCsi (k : Con) (e : Env) (b : Nat) : Option Out :=
  if 0x30 ≤ b ∧ b ≤ 0x3f then
    if k.pb.length ≥ 64 then some ⟨k.resetCtx, [], []⟩
    else some ⟨{ k with pb := k.pb ++ [b] }, [], []⟩
  else if 0x20 ≤ b ∧ b ≤ 0x2f then
    if k.ib ≥ 64 then some ⟨k.resetCtx, [], []⟩
    else some ⟨{ k with ib := k.ib + 1 }, [], []⟩
  else if 0x40 ≤ b ∧ b ≤ 0x7e then k.endCsi e b
  else some ⟨k.resetCtx, [], []⟩

/-- modules/console/console.c:876-895 `tty_pre_filter` followed by the function of the state. -/
def Con.step (k : Con) (e : Env) (b : Nat) : Option Out :=
  if k.st = .default then some (k.stepDefault e b)
  else if b = 27 then some ⟨{ k.resetCtx with st := .esc1 }, [], []⟩
  else
    match k.st with
    | .default => some (k.stepDefault e b)
    | .esc1 => some (k.stepEsc e b)
    | .par0 => some ⟨{ k with g0 := chosen b k.g0, st := .default }, [], []⟩
    | .par1 => some ⟨{ k with g1 := chosen b k.g1, st := .default }, [], []⟩
    | .csi => k.stepCsi e b
    | .unknown => some ⟨k.stepUnknown b, [], []⟩

/-- The terminal as the filter sees it. -/
def envOf (t : T) (ok : Bool) : Env := ⟨t.r, t.c, t.rows, t.cols, ok⟩

/-- A text going through the filter, with the terminal executing what the filter asks for.  With
every byte comes whether memory for the copy of the screen would be there. -/
structure Res where
  k : Con
  t : T
  acts : List Act
  reply : List Nat

/-- modules/console/term_actions.c.h:117-138: the loop of `term_action_write`. -/
def scan (k : Con) (t : T) : List (Nat × Bool) → Option Res
  | [] => some ⟨k, t, [], []⟩
  | (b, ok) :: l =>
    (k.step (envOf t ok) b).bind fun o =>
      (t.execs o.acts).bind fun t1 =>
        (scan o.k t1 l).map fun x => { x with acts := o.acts ++ x.acts, reply := o.reply ++ x.reply }

/-- kernel/tty/tty.c:368-377 `tty_write_int` and term_actions.c.h:109-143: the colour is the current
one, the terminal returns to the bottom, and at the end the cursor is shown. -/
def write (k : Con) (t : T) (l : List (Nat × Bool)) : Option Res :=
  (scan { k with color := k.cur } (t.setScroll t.maxScroll) l).map fun x =>
    { x with t := if x.t.cursorOn then x.t.peek else x.t }

/-- A new console (kernel/tty/tty.c:152-163, modules/console/console.c:44-54). -/
def new : Con :=
  { st := .default, pb := [], ib := 0, bold := false, rev := false, user := defColor,
    cur := defColor, color := defColor, shifted := false, g0 := false, g1 := true, savedR := 0,
    savedC := 0, vErase := 0x7f, vWerase := 0x17, vKill := 0x15, onlcr := true, over := false }

/-! ## Specification: parameters -/

/-- Is the byte a digit? -/
def isDig (b : Nat) : Bool := decide (48 ≤ b ∧ b ≤ 57)

/-- The decimal numbers in a text, separated by anything which is not a digit; a missing number
is 0. -/
def fields (acc : Nat) : List Nat → List Nat
  | [] => [acc]
  | b :: s => if isDig b then fields (acc * 10 + (b - 48)) s else acc :: fields 0 s

/-- Number of fields: one more than the separators. -/
theorem fields_length : ∀ (s : List Nat) (acc : Nat),
    (fields acc s).length = s.countP (fun b => !isDig b) + 1
  | [], acc => rfl
  | b :: s, acc => by
    unfold fields
    by_cases h : isDig b = true
    · rw [if_pos h, fields_length s, List.countP_cons_of_neg (by simp [h])]
    · rw [if_neg h, List.length_cons, fields_length s, List.countP_cons_of_pos (by simp [h])]

/-- Value of a text of digits. -/
def value (acc : Nat) (p : List Nat) : Nat := p.foldl (fun a b => a * 10 + (b - 48)) acc

theorem fields_digits : ∀ (p : List Nat) (acc : Nat) (r : List Nat), (∀ b ∈ p, isDig b = true) →
    fields acc (p ++ r) = fields (value acc p) r
  | [], _, _, _ => rfl
  | b :: p, acc, r, h => by
    show fields acc (b :: (p ++ r)) = _
    rw [fields, if_pos (h b (List.mem_cons_self ..)),
      fields_digits p _ r (fun x hx => h x (List.mem_cons_of_mem _ hx))]
    rfl

theorem digitOf_dig {b : Nat} (h : isDig b = true) : Itoa.digitOf 10 b = some (b - 48) := by
  unfold isDig at h
  have h' := of_decide_eq_true h
  unfold Itoa.digitOf Itoa.digitToVal
  rw [if_pos h']
  dsimp only
  rw [if_pos (by omega)]

theorem digitOf_not {b : Nat} (h : isDig b = false) : Itoa.digitOf 10 b = none := by
  unfold isDig at h
  have h' := of_decide_eq_false h
  unfold Itoa.digitOf Itoa.digitToVal
  rw [if_neg h']
  split
  · rename_i d hd
    split at hd
    · cases hd; exact if_neg (by omega)
    · split at hd
      · cases hd; exact if_neg (by omega)
      · cases hd
  · rfl

theorem value_acc : ∀ (p : List Nat) (acc : Nat), value acc p = acc * 10 ^ p.length + value 0 p
  | [], acc => by simp [value]
  | b :: p, acc => by
    show value (acc * 10 + (b - 48)) p = _ + value (0 * 10 + (b - 48)) p
    rw [value_acc p, value_acc p (0 * 10 + (b - 48))]
    rw [List.length_cons, Nat.pow_succ, Nat.add_mul, Nat.add_mul, Nat.mul_assoc,
      Nat.mul_comm 10]
    omega

theorem numVal_value : ∀ {p : List Nat}, (∀ b ∈ p, isDig b = true) →
    Itoa.numVal 10 p = some (value 0 p)
  | [], _ => rfl
  | b :: p, h => by
    unfold Itoa.numVal
    rw [digitOf_dig (h b (List.mem_cons_self ..)),
      numVal_value (fun x hx => h x (List.mem_cons_of_mem _ hx))]
    dsimp only
    show _ = some (value (0 * 10 + (b - 48)) p)
    rw [value_acc p (0 * 10 + (b - 48)), Nat.zero_mul, Nat.zero_add]

/-- What `strtol` makes of a text of digits followed by something else. -/
theorem strtol_digits {p r : List Nat} (hp : ∀ b ∈ p, isDig b = true)
    (hr : ∀ c t, r = c :: t → isDig c = false ∧ c ≠ 45) (hv : value 0 p < 2 ^ 31) :
    (Itoa.strtol 32 10 (p ++ r)).val = value 0 p ∧
      (Itoa.strtol 32 10 (p ++ r)).endOff = p.length := by
  by_cases h : p = []
  · subst h
    cases r with
    | nil => exact ⟨rfl, rfl⟩
    | cons c t =>
      have hc := hr c t rfl
      have : Itoa.strtol 32 10 ([] ++ c :: t) = Itoa.loopS 32 10 0 false (c :: t) 0 0 := by
        rw [List.nil_append]
        unfold Itoa.strtol
        split
        · rename_i heq; cases heq; exact absurd rfl hc.2
        · rfl
      rw [this]
      unfold Itoa.loopS
      rw [digitOf_not hc.1]
      exact ⟨rfl, rfl⟩
  · have hst : Itoa.Stops 10 r := by
      cases r with
      | nil => trivial
      | cons c t => exact digitOf_not (hr c t rfl).1
    rw [Itoa.strtol_exact_nonneg 32 10 (by omega) (by omega) p r (value 0 p) h (numVal_value hp)
      (by simpa using hv) hst]
    exact ⟨rfl, rfl⟩

theorem split_digits : ∀ s : List Nat, ∃ p r, s = p ++ r ∧ (∀ b ∈ p, isDig b = true) ∧
    ∀ c t, r = c :: t → isDig c = false
  | [] => ⟨[], [], rfl, by simp, by simp⟩
  | b :: s => by
    by_cases h : isDig b = true
    · obtain ⟨p, r, e, h1, h2⟩ := split_digits s
      refine ⟨b :: p, r, by rw [e]; rfl, ?_, h2⟩
      intro x hx
      rcases List.mem_cons.mp hx with e | hx
      · rw [e]; exact h
      · exact h1 x hx
    · refine ⟨[], b :: s, rfl, by simp, ?_⟩
      intro c t e
      cases e
      simpa using h

/-- The loop over the parameters reads the fields, when they fit in 31 bits. -/
theorem params_fields : ∀ (f : Nat) (s : List Nat), s.length < f → (∀ b ∈ s, b ≠ 45) →
    (∀ v ∈ fields 0 s, v < 2 ^ 31) → params f s = fields 0 s
  | 0, _, h, _, _ => absurd h (by omega)
  | f + 1, s, h, hm, hv => by
    obtain ⟨p, r, e, hp, hr⟩ := split_digits s
    have hF : fields 0 s = fields (value 0 p) r := by rw [e]; exact fields_digits p 0 r hp
    have hval : value 0 p < 2 ^ 31 := by
      apply hv
      rw [hF]
      cases r with
      | nil => exact List.mem_cons_self ..
      | cons c t => rw [fields, if_neg (by rw [hr c t rfl]; simp)]; exact List.mem_cons_self ..
    have hst := strtol_digits (p := p) (r := r) hp
      (fun c t ec => ⟨hr c t ec, hm c (by rw [e, ec]; simp)⟩) hval
    rw [← e] at hst
    unfold params
    dsimp only
    rw [hst.1, hst.2, hF, Int.toNat_natCast]
    cases r with
    | nil =>
      have : s.length = p.length := by rw [e]; simp
      rw [show atEnd s p.length = true by simp [atEnd, this]]
      rfl
    | cons c t =>
      have hl : s.length = p.length + t.length + 1 := by rw [e]; simp; omega
      rw [show atEnd s p.length = false by simp [atEnd, hl]; omega]
      have hd : s.drop (p.length + 1) = t := by
        rw [e, List.drop_append, List.drop_eq_nil_of_le (by omega)]
        rw [show p.length + 1 - p.length = 1 by omega]; rfl
      have hF2 : fields (value 0 p) (c :: t) = value 0 p :: fields 0 t := by
        rw [fields, if_neg (by rw [hr c t rfl]; simp)]
      rw [hF2, hd]
      rw [hF, hF2] at hv
      have := params_fields f t (by omega) (fun b hb => hm b (by rw [e]; simp [hb]))
        (fun v hvv => hv v (List.mem_cons_of_mem _ hvv))
      rw [this]
      rfl

/-- The parameters of a control sequence, from the bytes between `ESC [` and the last one: a leading
`?` is not part of them. -/
def specParams : List Nat → List Nat
  | [] => []
  | 63 :: s => fields 0 s
  | s => fields 0 s

theorem parse_spec {pb : List Nat} (hm : ∀ b ∈ pb, b ≠ 45) (hv : ∀ v ∈ specParams pb, v < 2 ^ 31) :
    parse pb = specParams pb := by
  cases pb with
  | nil => rfl
  | cons b s =>
    unfold parse
    dsimp only
    by_cases h : b = 63
    · subst h
      rw [if_pos rfl]
      exact params_fields _ s (by simp; omega) (fun x hx => hm x (List.mem_cons_of_mem _ hx)) hv
    · have e : specParams (b :: s) = fields 0 (b :: s) := by
        unfold specParams
        split
        · rename_i heq; cases heq
        · rename_i heq; cases heq; exact absurd rfl h
        · rfl
      rw [if_neg h, e]
      rw [e] at hv
      exact params_fields _ (b :: s) (by simp) hm hv

/-! ## Memory safety -/

/-- A text going through the filter alone; the terminal's answers are arbitrary. -/
def feed (k : Con) : List (Nat × Env) → Option Out
  | [] => some ⟨k, [], []⟩
  | (b, e) :: l => (k.step e b).bind fun o =>
      (feed o.k l).map fun x => ⟨x.k, o.acts ++ x.acts, o.reply ++ x.reply⟩

/-- Parameter bytes of control sequences. -/
def isPar (b : Nat) : Bool := decide (48 ≤ b ∧ b ≤ 63)

/-- Every control sequence in the text has at most 16 parameters of at most 31 bits, and fewer than
64 bytes before its last one.  (`m` are bytes directly after `ESC [` or the byte 0x9b.) -/
def Calm (l : List Nat) : Prop :=
  ∀ a i m c, l = a ++ i ++ m ++ c → i = [27, 91] ∨ i = [0x9b] → (∀ b ∈ m, 32 ≤ b ∧ b ≤ 63) →
    m.length < 64 ∧ (specParams (m.filter isPar)).length ≤ 16 ∧
      ∀ v ∈ specParams (m.filter isPar), v < 2 ^ 31

/-- What the filter remembers of the bytes `done`. -/
structure Inv (done : List Nat) (k : Con) : Prop where
  esc : k.st = .esc1 → ∃ a, done = a ++ [27]
  csi : k.st = .csi → ∃ a i m, done = a ++ i ++ m ∧ (i = [27, 91] ∨ i = [0x9b]) ∧
    (∀ b ∈ m, 32 ≤ b ∧ b ≤ 63) ∧ k.pb = m.filter isPar ∧ k.ib ≤ m.length
  over : k.over = false

theorem inv_other {done : List Nat} {k : Con} (h1 : k.st ≠ .esc1) (h2 : k.st ≠ .csi)
    (h3 : k.over = false) : Inv done k := ⟨fun h => absurd h h1, fun h => absurd h h2, h3⟩

theorem inv_csi {done i : List Nat} {k : Con} (hd : ∃ a, done = a ++ i)
    (hi : i = [27, 91] ∨ i = [0x9b]) (h3 : k.over = false) (h1 : k.st = .csi) (h4 : k.pb = [])
    (h5 : k.ib = 0) : Inv done k := by
  obtain ⟨a, e⟩ := hd
  refine ⟨fun h => ?_, fun _ => ⟨a, i, [], by rw [e]; simp, hi, by simp, by rw [h4]; rfl, by omega⟩, h3⟩
  rw [h1] at h; cases h

theorem sgr_frame (k : Con) (p : Nat) : (k.sgr p).st = k.st ∧ (k.sgr p).over = k.over := by
  unfold Con.sgr
  dsimp only
  repeat' split
  all_goals exact ⟨rfl, rfl⟩

theorem sgrs_frame (k : Con) (ps : List Nat) : (k.sgrs ps).over = k.over := by
  unfold Con.sgrs
  generalize (if ps = [] then [0] else ps) = l
  induction l generalizing k with
  | nil => rfl
  | cons p l ih =>
    show (List.foldl Con.sgr (k.sgr p) l).over = _
    rw [ih, (sgr_frame k p).2]

theorem out_ite {P : Out → Prop} {c : Prop} [Decidable c] {x y : Out} (hx : c → P x)
    (hy : ¬ c → P y) : P (if c then x else y) := by
  by_cases h : c
  · rw [if_pos h]; exact hx h
  · rw [if_neg h]; exact hy h

theorem handle_over (k : Con) (e : Env) (ps : List Nat) (f : Nat) :
    (k.handle e ps f).k.over = k.over := by
  unfold Con.handle
  dsimp only
  repeat' (refine out_ite (P := fun o : Out => o.k.over = k.over) (fun _ => ?_) (fun _ => ?_))
  all_goals first | rfl | exact sgrs_frame k ps

theorem handlePrivate_over (k : Con) (e : Env) (ps : List Nat) (f : Nat) :
    (k.handlePrivate e ps f).k.over = k.over := by
  unfold Con.handlePrivate
  dsimp only
  repeat' split
  all_goals rfl

theorem step_inv {done : List Nat} {k : Con} (h : Inv done k) (e : Env) (b : Nat)
    (hc : Calm (done ++ [b])) : ∃ o, k.step e b = some o ∧ Inv (done ++ [b]) o.k := by
  unfold Con.step
  by_cases hd : k.st = .default
  · rw [if_pos hd]
    refine ⟨_, rfl, ?_⟩
    have keep : Inv (done ++ [b]) k :=
      inv_other (by rw [hd]; decide) (by rw [hd]; decide) h.over
    unfold Con.stepDefault
    split
    · exact keep
    · unfold Con.control
      repeat' (refine out_ite (P := fun o : Out => Inv (done ++ [b]) o.k) (fun hb => ?_) (fun _ => ?_))
      all_goals first
        | exact keep
        | exact inv_other (by show k.st ≠ _; rw [hd]; decide) (by show k.st ≠ _; rw [hd]; decide) h.over
        | skip
      · exact inv_csi (i := [0x9b]) ⟨done, by rw [hb]⟩ (Or.inr rfl) h.over rfl rfl rfl
      · exact ⟨fun _ => ⟨done, by rw [hb]⟩, (by intro h; cases h), h.over⟩
  · rw [if_neg hd]
    by_cases hb : b = 27
    · rw [if_pos hb]
      exact ⟨_, rfl, fun _ => ⟨done, by rw [hb]⟩, (by intro h; cases h), h.over⟩
    · rw [if_neg hb]
      cases hs : k.st with
      | default => exact absurd hs hd
      | esc1 =>
        dsimp only
        refine ⟨_, rfl, ?_⟩
        obtain ⟨a, ea⟩ := h.esc hs
        unfold Con.stepEsc
        by_cases h1 : b = 91
        · rw [if_pos h1]
          exact inv_csi (i := [27, 91]) ⟨a, by rw [h1, ea]; simp⟩ (Or.inl rfl) h.over rfl rfl rfl
        · rw [if_neg h1]
          have hu : ∀ k' : Con, k'.st = .unknown → k'.over = false →
              Inv (done ++ [b]) (k'.stepUnknown b) := by
            intro k' h1 h2
            unfold Con.stepUnknown
            split
            · exact inv_other (by simp) (by simp) h2
            · exact inv_other (by rw [h1]; decide) (by rw [h1]; decide) h2
          repeat' (refine out_ite (P := fun o : Out => Inv (done ++ [b]) o.k) (fun _ => ?_) (fun _ => ?_))
          all_goals first
            | exact inv_other (by simp [Con.resetCtx]) (by simp [Con.resetCtx]) h.over
            | exact hu _ rfl h.over
      | par0 => exact ⟨_, rfl, inv_other (by simp) (by simp) h.over⟩
      | par1 => exact ⟨_, rfl, inv_other (by simp) (by simp) h.over⟩
      | unknown =>
        dsimp only
        refine ⟨_, rfl, ?_⟩
        unfold Con.stepUnknown
        split
        · exact inv_other (by simp) (by simp) h.over
        · exact inv_other (by show k.st ≠ _; rw [hs]; decide) (by show k.st ≠ _; rw [hs]; decide) h.over
      | csi =>
        dsimp only
        obtain ⟨a, i, m, ed, hi, hm, hpb, hib⟩ := h.csi hs
        have hsnoc : 32 ≤ b ∧ b ≤ 63 → done ++ [b] = a ++ i ++ (m ++ [b]) ∧
            ∀ x ∈ m ++ [b], 32 ≤ x ∧ x ≤ 63 := by
          intro hbb
          refine ⟨by rw [ed]; simp, fun x hx => ?_⟩
          rcases List.mem_append.mp hx with hx | hx
          · exact hm x hx
          · rw [List.mem_singleton.mp hx]; exact hbb
        unfold Con.stepCsi
        split
        · rename_i h1
          split
          · exact ⟨_, rfl, inv_other (k := k.resetCtx) (by simp [Con.resetCtx])
              (by simp [Con.resetCtx]) h.over⟩
          · obtain ⟨e1, e2⟩ := hsnoc (by omega)
            refine ⟨_, rfl, ?_, fun _ => ⟨a, i, m ++ [b], e1, hi, e2, ?_, ?_⟩, h.over⟩
            · intro h; exact absurd (show k.st = _ from h) (by rw [hs]; decide)
            · show k.pb ++ [b] = _
              have : isPar b = true := by simp [isPar]; omega
              rw [List.filter_append, hpb, List.filter_cons_of_pos this]
              rfl
            · show k.ib ≤ _; simp; omega
        · split
          · rename_i h1 h2
            split
            · exact ⟨_, rfl, inv_other (k := k.resetCtx) (by simp [Con.resetCtx])
              (by simp [Con.resetCtx]) h.over⟩
            · obtain ⟨e1, e2⟩ := hsnoc (by omega)
              refine ⟨_, rfl, ?_, fun _ => ⟨a, i, m ++ [b], e1, hi, e2, ?_, ?_⟩, h.over⟩
              · intro h; exact absurd (show k.st = _ from h) (by rw [hs]; decide)
              · show k.pb = _
                have : ¬ isPar b = true := by simp [isPar]; omega
                rw [List.filter_append, hpb, List.filter_cons_of_neg this]
                simp
              · show k.ib + 1 ≤ _; simp; omega
          · split
            · obtain ⟨c1, c2, c3⟩ := hc a i m [b] (by rw [ed]) hi hm
              have hp := parse_spec (pb := k.pb) (fun x hx => by
                rw [hpb] at hx
                have := (List.mem_filter.mp hx).2
                simp [isPar] at this; omega) (by rw [hpb]; exact c3)
              unfold Con.endCsi
              dsimp only
              rw [hp, hpb, if_neg (by omega)]
              refine ⟨_, rfl, inv_other (by simp [Con.resetCtx]) (by simp [Con.resetCtx]) ?_⟩
              have hl : (m.filter isPar).length ≤ m.length := List.length_filter_le ..
              have ho : (k.over || decide ((m.filter isPar).length = 64) || decide (k.ib = 64)) = false := by
                rw [h.over]; simp; omega
              show Con.over (Out.k (if _ then _ else _)) = false
              split
              · rw [handlePrivate_over]; exact ho
              · rw [handle_over]; exact ho
            · exact ⟨_, rfl, inv_other (k := k.resetCtx) (by simp [Con.resetCtx])
                (by simp [Con.resetCtx]) h.over⟩

theorem Calm.prefix {l r : List Nat} (h : Calm (l ++ r)) : Calm l := by
  intro a i m c e
  refine h a i m (c ++ r) (by rw [e]; simp)

theorem feed_inv : ∀ {l : List (Nat × Env)} {done : List Nat} {k : Con}, Inv done k →
    Calm (done ++ l.map Prod.fst) → ∃ o, feed k l = some o ∧ o.k.over = false
  | [], done, k, h, _ => ⟨_, rfl, h.over⟩
  | (b, e) :: l, done, k, h, hc => by
    have e1 : done ++ ((b, e) :: l).map Prod.fst = (done ++ [b]) ++ l.map Prod.fst := by simp
    rw [e1] at hc
    obtain ⟨o, h1, i1⟩ := step_inv h e b hc.prefix
    obtain ⟨x, h2, i2⟩ := feed_inv (l := l) i1 hc
    refine ⟨⟨x.k, o.acts ++ x.acts, o.reply ++ x.reply⟩, ?_, i2⟩
    unfold feed
    rw [h1]
    show (feed o.k l).map _ = _
    rw [h2]; rfl

/-- C110: whatever is written to a new console, whatever the state of the terminal: if every control
sequence has at most 16 parameters of at most 31 bits and fewer than 64 bytes (`Calm`), the filter
stays within its arrays.  Partial: see `many_parameters_violated`, `long_number_violated` and
`long_sequence_violated`. -/
theorem filter_memory_safe_partial {l : List (Nat × Env)} (h : Calm (l.map Prod.fst)) :
    ∃ o, feed new l = some o ∧ o.k.over = false :=
  feed_inv (done := []) (inv_other (by decide) (by decide) rfl) (by simpa using h)

/-- Never more bytes are kept than the arrays have room for. -/
def Fits (k : Con) : Prop := k.pb.length ≤ 64 ∧ k.ib ≤ 64

theorem fits_reset (k : Con) : Fits k.resetCtx := ⟨by simp [Con.resetCtx], by simp [Con.resetCtx]⟩

theorem control_fits {k : Con} (h : Fits k) (e : Env) (b : Nat) : Fits (k.control e b).k := by
  have hr : Fits k.resetCtx := fits_reset k
  unfold Con.control
  repeat' (refine out_ite (P := fun o : Out => Fits o.k) (fun _ => ?_) (fun _ => ?_))
  all_goals first | exact h | exact hr

theorem step_fits {k : Con} (h : Fits k) {e : Env} {b : Nat} {o : Out} (ho : k.step e b = some o) :
    Fits o.k := by
  have hr : Fits k.resetCtx := fits_reset k
  have hd : Fits (k.stepDefault e b).k := by
    unfold Con.stepDefault
    split
    · exact h
    · exact control_fits h e b
  unfold Con.step at ho
  split at ho
  · injection ho with ho; rw [← ho]; exact hd
  split at ho
  · injection ho with ho; rw [← ho]; exact hr
  split at ho
  · injection ho with ho; rw [← ho]; exact hd
  · injection ho with ho; rw [← ho]
    unfold Con.stepEsc Con.stepUnknown
    repeat' split
    all_goals first | exact h | exact hr
  · injection ho with ho; rw [← ho]; exact h
  · injection ho with ho; rw [← ho]; exact h
  · unfold Con.stepCsi at ho
    split at ho
    · split at ho
      · injection ho with ho; rw [← ho]; exact hr
      · rename_i hl
        injection ho with ho; rw [← ho]
        refine ⟨?_, h.2⟩
        show (k.pb ++ [b]).length ≤ 64
        simp only [List.length_append, List.length_singleton]; omega
    split at ho
    · split at ho
      · injection ho with ho; rw [← ho]; exact hr
      · rename_i hl
        injection ho with ho; rw [← ho]
        refine ⟨h.1, ?_⟩
        show k.ib + 1 ≤ 64
        omega
    split at ho
    · unfold Con.endCsi at ho
      dsimp only at ho
      split at ho
      · cases ho
      · injection ho with ho; rw [← ho]; exact fits_reset _
    · injection ho with ho; rw [← ho]; exact hr
  · injection ho with ho; rw [← ho]
    show Fits (k.stepUnknown b)
    unfold Con.stepUnknown
    split <;> exact h

theorem feed_fits : ∀ {l : List (Nat × Env)} {k : Con} {o : Out}, Fits k → feed k l = some o →
    Fits o.k
  | [], k, o, h, ho => by injection ho with ho; rw [← ho]; exact h
  | (b, e) :: l, k, o, h, ho => by
    unfold feed at ho
    cases h1 : k.step e b with
    | none => rw [h1] at ho; cases ho
    | some x =>
      rw [h1] at ho
      change (feed x.k l).map _ = some o at ho
      cases h2 : feed x.k l with
      | none => rw [h2] at ho; cases ho
      | some y =>
        rw [h2] at ho
        injection ho with ho
        rw [← ho]
        exact (feed_fits (step_fits h h1) h2 : Fits y.k)

/-- C110: whatever was written, the bytes kept of a control sequence fit in their two arrays of 64
bytes each. -/
theorem bytes_kept_fit {l : List (Nat × Env)} {o : Out} (h : feed new l = some o) :
    o.k.pb.length ≤ 64 ∧ o.k.ib ≤ 64 :=
  feed_fits (show Fits new from ⟨by decide, by decide⟩) h

/-- The byte `ESC` has its meaning: a sequence is being read, or the byte is not one of the special
characters of the terminal's settings. -/
def EscOk (k : Con) : Prop := k.st = .default → 27 ≠ k.vErase ∧ 27 ≠ k.vWerase ∧ 27 ≠ k.vKill

theorem feed_append : ∀ (a b : List (Nat × Env)) (k : Con), feed k (a ++ b) =
    (feed k a).bind fun o => (feed o.k b).map fun x => ⟨x.k, o.acts ++ x.acts, o.reply ++ x.reply⟩
  | [], b, k => by
    show feed k b = (feed k b).map _
    cases feed k b <;> simp
  | (c, e) :: a, b, k => by
    show (k.step e c).bind _ = ((k.step e c).bind _).bind _
    cases k.step e c with
    | none => rfl
    | some o =>
      show (feed o.k (a ++ b)).map _ = ((feed o.k a).map _).bind _
      rw [feed_append a b o.k]
      cases feed o.k a with
      | none => rfl
      | some x =>
        show ((feed x.k b).map _).map _ = (feed x.k b).map _
        cases feed x.k b with
        | none => rfl
        | some y => simp [List.append_assoc]

theorem table_esc (k : Con) : k.table 27 = none := by
  unfold Con.table
  split <;> split <;> first | exact (by decide : tableGfx 27 = none) | exact (by decide : tableText 27 = none)

theorem step_csi {k : Con} (hs : k.st = .csi) (e : Env) {b : Nat} (hb : b ≠ 27) :
    k.step e b = k.stepCsi e b := by
  unfold Con.step
  rw [if_neg (by rw [hs]; decide), if_neg hb, hs]

theorem step_esc {k : Con} (h : EscOk k) (e : Env) :
    ∃ k', k.step e 27 = some ⟨k', [], []⟩ ∧
      ({ k' with st := .esc1, pb := [], ib := 0 } : Con) = { k with st := .esc1, pb := [], ib := 0 } ∧
      k'.st = .esc1 := by
  unfold Con.step
  by_cases hd : k.st = .default
  · obtain ⟨h1, h2, h3⟩ := h hd
    refine ⟨{ k with st := .esc1 }, ?_, rfl, rfl⟩
    rw [if_pos hd]
    unfold Con.stepDefault
    rw [table_esc]
    unfold Con.control
    dsimp only
    rw [if_neg h3, if_neg h2, if_neg h1]
    rfl
  · rw [if_neg hd, if_pos rfl]
    exact ⟨_, rfl, rfl, rfl⟩

theorem feed_intro {k : Con} (h : EscOk k) (e1 e2 : Env) :
    feed k [(27, e1), (91, e2)] = some ⟨{ k with st := .csi, pb := [], ib := 0 }, [], []⟩ := by
  obtain ⟨k', h1, h2, h3⟩ := step_esc h e1
  have h4 : k'.step e2 91 = some ⟨{ k'.resetCtx with st := .csi }, [], []⟩ := by
    unfold Con.step
    rw [if_neg (by rw [h3]; decide), if_neg (by decide), h3]
    rfl
  have e : ({ k'.resetCtx with st := .csi } : Con) = { k with st := .csi, pb := [], ib := 0 } :=
    (congrArg (fun x : Con => { x with st := .csi }) h2 :)
  unfold feed
  rw [h1]
  show (feed k' [(91, e2)]).map _ = _
  unfold feed
  rw [h4, e]
  rfl

theorem feed_params : ∀ {l : List (Nat × Env)} {k : Con}, k.st = .csi →
    (∀ x ∈ l, isPar x.1 = true) → k.pb.length + l.length ≤ 64 →
    feed k l = some ⟨{ k with pb := k.pb ++ l.map Prod.fst }, [], []⟩
  | [], k, _, _, _ => by simp [feed]
  | (b, e) :: l, k, hs, hp, hl => by
    have hb : 48 ≤ b ∧ b ≤ 63 := by
      have := hp (b, e) (List.mem_cons_self ..)
      exact of_decide_eq_true this
    rw [List.length_cons] at hl
    have h1 : k.step e b = some ⟨{ k with pb := k.pb ++ [b] }, [], []⟩ := by
      rw [step_csi hs e (by omega)]
      unfold Con.stepCsi
      rw [if_pos hb, if_neg (by omega)]
    have h2 := feed_params (l := l) (k := { k with pb := k.pb ++ [b] }) hs
      (fun x hx => hp x (List.mem_cons_of_mem _ hx)) (by simp; omega)
    unfold feed
    rw [h1]
    show (feed _ l).map _ = _
    rw [h2]
    simp

/-- A complete control sequence, from any state. -/
theorem feed_csi {k : Con} (h : EscOk k) (e1 e2 : Env) {l : List (Nat × Env)}
    (hp : ∀ x ∈ l, isPar x.1 = true) (hl : l.length ≤ 64) {f : Nat} (hf : 64 ≤ f ∧ f ≤ 126)
    (e : Env) : feed k ([(27, e1), (91, e2)] ++ l ++ [(f, e)]) =
      Con.endCsi { k with st := .csi, pb := l.map Prod.fst, ib := 0 } e f := by
  rw [feed_append, feed_append, feed_intro h]
  dsimp only [Option.bind_some]
  rw [feed_params rfl hp (by simpa using hl)]
  dsimp only [Option.map_some, Option.bind_some, List.append_nil, List.nil_append]
  have h1 : ∀ k1 : Con, k1.st = .csi → k1.step e f = k1.endCsi e f := by
    intro k1 h1
    rw [step_csi h1 e (by omega)]
    unfold Con.stepCsi
    rw [if_neg (by omega), if_neg (by omega), if_pos hf]
  unfold feed
  rw [h1 _ rfl]
  cases Con.endCsi { k with st := .csi, pb := l.map Prod.fst, ib := 0 } e f with
  | none => rfl
  | some o => simp [feed]

/-- C110, the exact limit: whatever was written before, a control sequence with parameters of at most
31 bits overruns the array of parameters exactly when it has more than 16 of them. -/
theorem parameters_overflow {k : Con} (h : EscOk k) (e1 e2 : Env) {l : List (Nat × Env)}
    (hp : ∀ x ∈ l, isPar x.1 = true) (hl : l.length ≤ 64)
    (hv : ∀ v ∈ specParams (l.map Prod.fst), v < 2 ^ 31) {f : Nat} (hf : 64 ≤ f ∧ f ≤ 126) (e : Env) :
    feed k ([(27, e1), (91, e2)] ++ l ++ [(f, e)]) = none ↔
      16 < (specParams (l.map Prod.fst)).length := by
  rw [feed_csi h e1 e2 hp hl hf e]
  have hq := parse_spec (pb := l.map Prod.fst) (fun x hx => by
    obtain ⟨y, hy, e⟩ := List.mem_map.mp hx
    have := of_decide_eq_true (hp y hy)
    omega) hv
  unfold Con.endCsi
  dsimp only
  rw [hq]
  by_cases hn : 16 < (specParams (l.map Prod.fst)).length
  · rw [if_pos hn]; simp [hn]
  · rw [if_neg hn]; simp [hn]

/-- C110 is violated: whatever was written before and whatever the terminal looks like, `ESC [`
followed by 16 semicolons and `m` writes past the end of an array on the kernel's stack. -/
theorem many_parameters_violated {k : Con} (h : EscOk k) (e : Env) :
    feed k ([(27, e), (91, e)] ++ List.replicate 16 (59, e) ++ [(109, e)]) = none := by
  refine (parameters_overflow h e e (f := 109) ?_ ?_ ?_ (by omega) e).mpr ?_
  · intro x hx; rw [List.eq_of_mem_replicate hx]; exact (by decide : isPar 59 = true)
  · simp
  · rw [List.map_replicate]; show ∀ v ∈ specParams (List.replicate 16 59), v < 2 ^ 31; decide
  · rw [List.map_replicate]; show 16 < (specParams (List.replicate 16 59)).length; decide

/-- A screen for the examples. -/
def screen : Env := ⟨0, 0, 25, 80, true⟩

/-- The bytes of a text, on `screen`. -/
def onScreen (l : List Nat) : List (Nat × Env) := l.map fun b => (b, screen)

/-- C110 is violated: so does a single number of 26 digits, because after an overflow the reading
goes on from its second digit. -/
theorem long_number_violated :
    feed new (onScreen ([27, 91] ++ List.replicate 26 51 ++ [72])) = none := by
  decide +kernel

/-- C110 is violated: with 64 parameter bytes, the terminating zero is written after the array. -/
theorem long_sequence_violated :
    (feed new (onScreen ([27, 91] ++ List.replicate 64 48 ++ [72]))).map (fun o => o.k.over) =
      some true := by
  decide +kernel

/-- `Hi ESC[1;31m! ESC[m`. -/
def sample : List Nat := [72, 105, 27, 91, 49, 59, 51, 49, 109, 33, 27, 91, 109]

/-- `Calm` is met by ordinary texts. -/
example : Calm sample := by
  intro a i m c e hi hm
  have key1 : ∀ j < 14, ∀ n < 14, (specParams (((sample.drop j).take n).filter isPar)).length ≤ 16 :=
    by decide +kernel
  have key2 : ∀ j < 14, ∀ n < 14, ∀ v ∈ specParams (((sample.drop j).take n).filter isPar),
      v < 2 ^ 31 := by decide +kernel
  have hlen := congrArg List.length e
  simp only [sample, List.length_cons, List.length_nil, List.length_append] at hlen
  have h2 : ((a ++ i ++ m ++ c).drop (a.length + i.length)).take m.length = m := by
    rw [← List.length_append, List.append_assoc, List.drop_left, List.take_left]
  have h1 := key1 (a.length + i.length) (by omega) m.length (by omega)
  have h3 := key2 (a.length + i.length) (by omega) m.length (by omega)
  rw [e, h2] at h1 h3
  exact ⟨by omega, h1, h3⟩

/-! ## Control sequences: specification -/

/-- The control functions of ECMA-48 and the VT102 (and `scp`, `rcp` of SCO) the console knows. -/
inductive Fn
  | ich | cuu | cud | cuf | cub | cnl | cpl | cha | cup | ed | el | il | dl | dch | su | sd | ech
  | hpa | hpr | vpa | vpr | hvp | stbm | scp | rcp
  deriving DecidableEq, Repr

/-- The last byte of the sequence. -/
def Fn.final : Fn → Nat
  | .ich => 64 | .cuu => 65 | .cud => 66 | .cuf => 67 | .cub => 68 | .cnl => 69 | .cpl => 70
  | .cha => 71 | .cup => 72 | .ed => 74 | .el => 75 | .il => 76 | .dl => 77 | .dch => 80
  | .su => 83 | .sd => 84 | .ech => 88 | .hpa => 96 | .hpr => 97 | .vpa => 100 | .vpr => 101
  | .hvp => 102 | .stbm => 114 | .scp => 115 | .rcp => 117

/-- Numbers of lines, columns and repetitions: 0 or nothing means 1. -/
def one (n : Nat) : Nat := if n = 0 then 1 else n

/-- Line or column `n`, counted from 1, on a screen which has `size` of them: counted from 0. -/
def pos (n size : Nat) : Nat := if one n ≤ size then one n - 1 else size - 1

/-- What the function does, with parameters `p` and `q` (0: not given), on a screen of the given size
with the cursor at line `r` and column `c`, counted from 0; `saved` is the saved position. -/
def Fn.meaning (f : Fn) (r c rows cols : Nat) (saved : Nat × Nat) (p q : Nat) : List Act :=
  match f with
  | .ich => [.insChars (one p)]
  | .dch => [.delChars (one p)]
  | .ech => [.eraseChars (one p)]
  | .cuu => [.moveRel (-(one p)) 0]
  | .cud => [.moveRel (one p) 0]
  | .vpr => [.moveRel (one p) 0]
  | .cuf => [.moveRel 0 (one p)]
  | .hpr => [.moveRel 0 (one p)]
  | .cub => [.moveRel 0 (-(one p))]
  | .cnl => [.moveCur (if r + one p < rows then r + one p else rows - 1) 0]
  | .cpl => [.moveCur (r - one p) 0]
  | .cha => [.moveCur r (pos p cols)]
  | .hpa => [.moveCur r (pos p cols)]
  | .vpa => [.moveCur (pos p rows) c]
  | .cup => [.moveCur (pos p rows) (pos q cols)]
  | .hvp => [.moveCur (pos p rows) (pos q cols)]
  | .ed => [.eraseDisplay p]
  | .el => [.eraseLine p]
  | .il => [.insLines (one p)]
  | .dl => [.delLines (one p)]
  | .su => [.nonBufUp (one p)]
  | .sd => [.nonBufDown (one p)]
  | .stbm =>
    if one p < (if q = 0 then rows else q) then
      [.setRegion (one p - 1) ((if q = 0 then rows else q) - 1)] else []
  | .scp => []
  | .rcp => [.moveCur saved.1 saved.2]

/-- The position saved afterwards. -/
def Fn.saves (f : Fn) (r c : Nat) (saved : Nat × Nat) : Nat × Nat := if f = .scp then (r, c) else saved

/-- The parameters the code does not cut. -/
def Fn.Fits (f : Fn) (rows p q : Nat) : Prop :=
  match f with
  | .ich | .dch | .ech => p < 65536
  | .cuu | .cud | .vpr | .cuf | .hpr | .cub => p < 32768
  | .cnl => p + rows < 2 ^ 31
  | .cpl => p < 2 ^ 31
  | .il | .dl => p < 2 ^ 24
  | .ed | .el | .su | .sd => p < 4096
  | .stbm => p < 4096 ∧ q < 4096 ∧ rows < 4096
  | _ => True

/-- Numbers as they are written: digits, possibly none (0). -/
def Numerals (ds : List (List Nat)) : Prop := ∀ d ∈ ds, (∀ b ∈ d, 48 ≤ b ∧ b ≤ 57)

/-- The value of a number. -/
def number : List Nat → Nat → Nat
  | [], n => n
  | b :: d, n => number d (10 * n + (b - 48))

/-- Numbers separated by semicolons. -/
def joined : List (List Nat) → List Nat
  | [] => []
  | [d] => d
  | d :: d2 :: r => d ++ [59] ++ joined (d2 :: r)

/-- Parameter `i`, 0 when it is not there. -/
def param (ds : List (List Nat)) (i : Nat) : Nat := number (ds.getD i []) 0

/-- The bytes of a control sequence. -/
def csi (ds : List (List Nat)) (f : Nat) : List Nat := [27, 91] ++ joined ds ++ [f]

/-- Few enough parameters, of few enough digits. -/
structure Short (ds : List (List Nat)) : Prop where
  digits : Numerals ds
  count : ds.length ≤ 16
  length : (joined ds).length < 64
  value : ∀ d ∈ ds, number d 0 < 2 ^ 31

/-! ## Control sequences: proofs -/

theorem number_value : ∀ (d : List Nat) (n : Nat), number d n = value n d
  | [], _ => rfl
  | b :: d, n => by
    show number d (10 * n + (b - 48)) = value (n * 10 + (b - 48)) d
    rw [number_value d, Nat.mul_comm]

theorem isDig_iff {b : Nat} : isDig b = true ↔ 48 ≤ b ∧ b ≤ 57 := by
  unfold isDig; simp

theorem joined_bytes : ∀ {ds : List (List Nat)}, Numerals ds → ∀ b ∈ joined ds, isPar b = true ∧ b ≠ 63 ∧ b ≠ 45
  | [], _, b, hb => absurd hb (List.not_mem_nil)
  | [d], h, b, hb => by
    have := h d (List.mem_singleton.mpr rfl) b hb
    unfold isPar
    simp; omega
  | d :: d2 :: r, h, b, hb => by
    have hb : b ∈ d ++ [59] ++ joined (d2 :: r) := hb
    rw [List.mem_append, List.mem_append, List.mem_singleton] at hb
    rcases hb with (hb | hb) | hb
    · have := h d (List.mem_cons_self ..) b hb
      unfold isPar
      simp; omega
    · subst hb; decide
    · exact joined_bytes (ds := d2 :: r) (fun x hx => h x (List.mem_cons_of_mem _ hx)) b hb

theorem fields_joined : ∀ {ds : List (List Nat)}, ds ≠ [] → Numerals ds →
    fields 0 (joined ds) = ds.map fun d => number d 0
  | [], h, _ => absurd rfl h
  | [d], _, h => by
    have := fields_digits d 0 [] (fun b hb => isDig_iff.mpr (h d (List.mem_singleton.mpr rfl) b hb))
    rw [List.append_nil] at this
    show fields 0 d = [number d 0]
    rw [this, number_value]; rfl
  | d :: d2 :: r, _, h => by
    have h1 := fields_digits d 0 ([59] ++ joined (d2 :: r))
      (fun b hb => isDig_iff.mpr (h d (List.mem_cons_self ..) b hb))
    have h2 := fields_joined (ds := d2 :: r) (by simp) (fun x hx => h x (List.mem_cons_of_mem _ hx))
    show fields 0 (d ++ [59] ++ joined (d2 :: r)) = number d 0 :: (d2 :: r).map _
    rw [List.append_assoc, h1, ← h2, number_value]
    rfl

theorem specParams_joined {ds : List (List Nat)} (h : Numerals ds) :
    specParams (joined ds) = if joined ds = [] then [] else ds.map fun d => number d 0 := by
  have hb := joined_bytes h
  cases hj : joined ds with
  | nil => rfl
  | cons b s =>
    have hne : ds ≠ [] := by rintro rfl; exact List.cons_ne_nil b s hj.symm
    have hf := fields_joined hne h
    rw [hj] at hf hb
    have h63 := (hb b (List.mem_cons_self ..)).2.1
    rw [if_neg (List.cons_ne_nil b s), ← hf]
    unfold specParams
    split
    · rename_i heq; cases heq
    · rename_i s' heq; injection heq with a1 a2; exact absurd a1 h63
    · rfl

theorem getD_params {ds : List (List Nat)} (i : Nat) (h : joined ds = [] → ∀ d ∈ ds, d = []) :
    (if joined ds = [] then [] else ds.map fun d => number d 0).getD i 0 = param ds i := by
  unfold param
  by_cases hj : joined ds = []
  · rw [if_pos hj]
    have : ds.getD i [] = [] := by
      rw [List.getD_eq_getElem?_getD]
      cases hg : ds[i]? with
      | none => rfl
      | some d => exact h hj d (List.mem_of_getElem? hg)
    rw [this]; rfl
  · rw [if_neg hj, List.getD_eq_getElem?_getD, List.getD_eq_getElem?_getD, List.getElem?_map]
    cases ds[i]? <;> rfl

theorem joined_nil : ∀ {ds : List (List Nat)}, joined ds = [] → ∀ d ∈ ds, d = []
  | [], _, d, hd => absurd hd (List.not_mem_nil)
  | [d], h, d', hd => by rw [List.mem_singleton.mp hd]; exact h
  | d :: d2 :: r, h, _, _ => by
    have h : d ++ [59] ++ joined (d2 :: r) = [] := h
    simp at h

/-- The state after a sequence. -/
theorem feed_joined {k : Con} (h : EscOk k) {ds : List (List Nat)} (hs : Short ds) {f : Nat}
    (hf : 64 ≤ f ∧ f ≤ 126) {l : List (Nat × Env)} {e : Env} (hl : l.map Prod.fst = csi ds f)
    (he : ∀ x, l.getLast? = some x → x.2 = e) :
    ∃ ps, (∀ i, ps.getD i 0 = param ds i) ∧
      ps = (if joined ds = [] then [] else ds.map fun d => number d 0) ∧
      feed k l = some { Con.handle { k with st := .csi, pb := joined ds, ib := 0 } e ps f with
        k := (Con.handle { k with st := .csi, pb := joined ds, ib := 0 } e ps f).k.resetCtx } := by
  obtain ⟨l3, l4, e3, h3, h4⟩ := List.map_eq_append_iff.mp hl
  obtain ⟨l1, l2, e1, h1, h2⟩ := List.map_eq_append_iff.mp h3
  have hq : ∃ x1 x2, l1 = [(27, x1), (91, x2)] := by
    match l1, h1 with
    | [(_, x1), (_, x2)], h1 =>
      injection h1 with a1 h1
      injection h1 with a2 _
      dsimp only at a1 a2
      subst a1; subst a2
      exact ⟨x1, x2, rfl⟩
  obtain ⟨x1, x2, q1⟩ := hq
  have hq4 : l4 = [(f, e)] := by
    match l4, h4 with
    | [(z, y)], h4 =>
      injection h4 with a1 _
      dsimp only at a1
      have := he (z, y) (by rw [e3]; simp)
      dsimp only at this
      rw [this, a1]
  have hp : ∀ x ∈ l2, isPar x.1 = true := fun x hx =>
    (joined_bytes hs.digits x.1 (h2 ▸ List.mem_map_of_mem hx)).1
  have hlen : l2.length < 64 := by
    have := hs.length; rw [← h2, List.length_map] at this; exact this
  have key := feed_csi h x1 x2 hp (Nat.le_of_lt hlen) hf e
  rw [e3, e1, q1, hq4, key]
  have sp := specParams_joined hs.digits
  have hv : ∀ v ∈ specParams (joined ds), v < 2 ^ 31 := by
    rw [sp]; split
    · intro v hv; exact absurd hv (List.not_mem_nil)
    · intro v hv
      obtain ⟨d, hd, rfl⟩ := List.mem_map.mp hv
      exact hs.value d hd
  have hq := parse_spec (pb := joined ds) (fun b hb => (joined_bytes hs.digits b hb).2.2) hv
  refine ⟨_, fun i => getD_params i joined_nil, rfl, ?_⟩
  rw [h2]
  unfold Con.endCsi
  dsimp only
  rw [hq, sp]
  have hc : ¬ 16 < (if joined ds = [] then [] else ds.map fun d => number d 0).length := by
    have := hs.count
    split <;> simp <;> omega
  rw [if_neg hc]
  have hh : (joined ds).head? ≠ some 63 := by
    intro hh
    exact (joined_bytes hs.digits 63 (List.mem_of_mem_head? hh)).2.1 rfl
  rw [if_neg hh]
  have ho : (k.over || decide ((joined ds).length = 64) || decide ((0 : Nat) = 64)) = k.over := by
    have := hs.length
    rw [decide_eq_false (by omega), decide_eq_false (by omega)]; simp
  rw [ho]

theorem max_one (p : Nat) : max 1 p = one p := by unfold one; split <;> omega

theorem s16_fits {x : Int} (h : -32768 ≤ x ∧ x < 32768) : s16 x = x := by unfold s16; omega

theorem pos_min (p size : Nat) : min (max 1 p - 1) (size - 1) = pos p size := by
  unfold pos one; split <;> split <;> omega

theorem add32_fits {a b : Int} (h : -2147483648 ≤ a + b ∧ a + b < 2147483648) :
    add32 a b = a + b := by unfold add32; omega

/-- The position and the size the filter sees are sensible. -/
structure Env.Ok (e : Env) : Prop where
  r : e.r < e.rows
  rows : e.rows < 32768
  c : e.c ≤ e.cols

theorem handle_meaning (k : Con) {e : Env} (he : e.Ok) (f : Fn) {ps : List Nat}
    (hf : f.Fits e.rows (ps.getD 0 0) (ps.getD 1 0)) :
    k.handle e ps f.final =
      ⟨{ k with savedR := (f.saves e.r e.c (k.savedR, k.savedC)).1,
                savedC := (f.saves e.r e.c (k.savedR, k.savedC)).2 },
       f.meaning e.r e.c e.rows e.cols (k.savedR, k.savedC) (ps.getD 0 0) (ps.getD 1 0), []⟩ := by
  have h1 := he.r
  have h2 := he.rows
  unfold Con.handle
  dsimp only
  generalize ps.getD 0 0 = p at *
  generalize ps.getD 1 0 = q at *
  have hone : p = 0 ∧ one p = 1 ∨ p ≠ 0 ∧ one p = p := by unfold one; split <;> omega
  cases f <;>
    simp (config := { decide := true }) only [Fn.final, Fn.meaning, Fn.saves, if_true, if_false, Fn.Fits] at hf ⊢
  case ich => rw [show max 1 (min p 65535) = one p by unfold one; split <;> omega]
  case dch => rw [show max 1 (min p 65535) = one p by unfold one; split <;> omega]
  case ech => rw [show max 1 (min p 65535) = one p by unfold one; split <;> omega]
  case cuu => rw [max_one, s16_fits (by omega)]
  case cud => rw [max_one, s16_fits (by omega)]
  case vpr => rw [max_one, s16_fits (by omega)]
  case cuf => rw [max_one, s16_fits (by omega)]
  case hpr => rw [max_one, s16_fits (by omega)]
  case cub => rw [max_one, s16_fits (by omega)]
  case cnl =>
    have : nthRow e (max 1 p : Nat) = .moveCur (if e.r + one p < e.rows then e.r + one p else e.rows - 1) 0 := by
      rw [max_one]
      unfold nthRow
      rw [add32_fits (by omega)]
      have : clampI ((e.r : Int) + (one p : Nat)) (e.rows - 1) % 65536 =
          if e.r + one p < e.rows then e.r + one p else e.rows - 1 := by
        unfold clampI; split <;> omega
      rw [this]
    rw [this]
  case cpl =>
    have : nthRow e (-(max 1 p : Nat)) = .moveCur (e.r - one p) 0 := by
      rw [max_one]
      unfold nthRow
      rw [add32_fits (by omega)]
      have : clampI ((e.r : Int) + -(one p : Nat)) (e.rows - 1) % 65536 = e.r - one p := by
        unfold clampI; omega
      rw [this]
    rw [this]
  case cha => rw [pos_min]
  case hpa => rw [pos_min]
  case vpa => rw [pos_min]
  case cup => rw [pos_min, pos_min]
  case hvp => rw [pos_min, pos_min]
  case ed => rw [Nat.mod_eq_of_lt hf]
  case el => rw [Nat.mod_eq_of_lt hf]
  case il => rw [max_one, Nat.mod_eq_of_lt (by unfold one; split <;> omega)]
  case dl => rw [max_one, Nat.mod_eq_of_lt (by unfold one; split <;> omega)]
  case su => rw [max_one, Nat.mod_eq_of_lt (by unfold one; split <;> omega)]
  case sd => rw [max_one, Nat.mod_eq_of_lt (by unfold one; split <;> omega)]
  case stbm =>
    have h3 : (if p = 0 then 0 else p - 1) = one p - 1 := by unfold one; split <;> omega
    have h4 : (if q = 0 then e.rows - 1 else q - 1) = (if q = 0 then e.rows else q) - 1 := by
      split <;> rfl
    rw [h3, h4]
    have h5 : (if q = 0 then e.rows else q) < 4096 := by split <;> omega
    generalize (if q = 0 then e.rows else q) = b at *
    by_cases h6 : one p < b
    · rw [if_neg (by omega), if_pos h6, Nat.mod_eq_of_lt (by omega), Nat.mod_eq_of_lt (by omega)]
    · rw [if_pos (by omega), if_neg h6]

/-- C111: whatever was written before (also in the middle of another sequence), a control sequence
whose parameters are any numerals — any number of them, with leading zeros, or left out — has the
meaning of its control function for the values of its first two parameters, does nothing else, and
leaves the filter ready for ordinary text.  Partial: at most 16 parameters, less than 64 bytes and
the values of `Fits`; see `..._cut_violated`. -/
theorem control_sequence_understood_partial {k : Con} (h : EscOk k) {ds : List (List Nat)}
    (hs : Short ds) (f : Fn) {l : List (Nat × Env)} {e : Env} (he : e.Ok)
    (hl : l.map Prod.fst = csi ds f.final) (hlast : ∀ x, l.getLast? = some x → x.2 = e)
    (hf : f.Fits e.rows (param ds 0) (param ds 1)) :
    feed k l = some
      ⟨{ k with st := .default, pb := [], ib := 0,
                savedR := (f.saves e.r e.c (k.savedR, k.savedC)).1,
                savedC := (f.saves e.r e.c (k.savedR, k.savedC)).2 },
       f.meaning e.r e.c e.rows e.cols (k.savedR, k.savedC) (param ds 0) (param ds 1), []⟩ := by
  have hff : 64 ≤ f.final ∧ f.final ≤ 126 := by cases f <;> decide
  obtain ⟨ps, h1, _, h2⟩ := feed_joined h hs hff hl hlast
  rw [h2]
  have h3 := handle_meaning { k with st := .csi, pb := joined ds, ib := 0 } he f (ps := ps)
    (by rw [h1, h1]; exact hf)
  rw [h1, h1] at h3
  rw [h3]
  rfl

/-- `ESC [ 007 ; 12 H`, after an unfinished sequence, moves the cursor to line 7, column 12. -/
example : feed { new with st := .csi, pb := [49] } (onScreen (csi [[48, 48, 55], [49, 50]] 72)) =
    some ⟨new, [.moveCur 6 11], []⟩ := by
  have hs : Short [[48, 48, 55], [49, 50]] :=
    ⟨by unfold Numerals; decide, by decide, by decide, by decide⟩
  have he : EscOk { new with st := .csi, pb := [49] } := by unfold EscOk; decide
  have := control_sequence_understood_partial he hs .cup (e := screen)
    (l := onScreen (csi [[48, 48, 55], [49, 50]] 72)) ⟨by decide, by decide, by decide⟩
    (by decide) (by intro x hx; cases hx; rfl) trivial
  rw [this]
  decide

/-- C111 is violated: large parameters are cut: to 12 bits for `J`, `K`, `S`, `T`, `r`, to 16 bits
with sign for the relative movements.  `ESC [ 4096 J` erases as `ESC [ J` does, -/
theorem erase_parameter_cut_violated :
    feed new (onScreen (csi [[52, 48, 57, 54]] 74)) = some ⟨new, [.eraseDisplay 0], []⟩ := by
  decide +kernel

/-- C111 is violated: `ESC [ 4096 S` scrolls by no line, -/
theorem scroll_parameter_cut_violated :
    feed new (onScreen (csi [[52, 48, 57, 54]] 83)) = some ⟨new, [.nonBufUp 0], []⟩ := by
  decide +kernel

/-- C111 is violated: `ESC [ 40000 B`, "down", moves the cursor up. -/
theorem down_goes_up_violated :
    feed new (onScreen (csi [[52, 48, 48, 48, 48]] 66)) = some ⟨new, [.moveRel (-25536) 0], []⟩ := by
  decide +kernel

/-- C111 is violated: `ESC [ 2147483647 E`, "to a following line", goes to the first one. -/
theorem next_line_overflow_violated :
    feed new (([27, 91, 50, 49, 52, 55, 52, 56, 51, 54, 52, 55, 69].map fun b =>
      (b, ({ r := 5, c := 0, rows := 25, cols := 80, ok := true } : Env)))) =
      some ⟨new, [.moveCur 0 0], []⟩ := by
  decide +kernel

/-! ## Reports -/

/-- The decimal text the console answers with is the number's. -/
theorem dec_number {n : Nat} (h : n < 2 ^ 32) :
    (∀ b ∈ dec n, 48 ≤ b ∧ b ≤ 57) ∧ number (dec n) 0 = n ∧ dec n ≠ [] := by
  obtain ⟨s, h1, h2, h3, h4, _⟩ := Itoa.uitoa_canonical 32 10 n (by omega) (by omega) h
  have hd : dec n = s := by unfold dec; rw [h1]; rfl
  have hdig : ∀ b ∈ s, 48 ≤ b ∧ b ≤ 57 := by
    intro b hb
    obtain ⟨d, hd, rfl⟩ := h3 b hb
    unfold Itoa.digitChar
    rw [if_pos hd]
    omega
  rw [hd]
  refine ⟨hdig, ?_, h4⟩
  have := numVal_value (p := s) (fun b hb => isDig_iff.mpr (hdig b hb))
  rw [number_value]
  rw [h2] at this
  exact (Option.some.inj this).symm

/-- C111: asked where the cursor is, the console answers with its line and column, counted from 1.
Partial: the cursor is not after a full line (see `cursor_report_violated`). -/
theorem cursor_report_partial {k : Con} (h : EscOk k) {ds : List (List Nat)} (hs : Short ds)
    {l : List (Nat × Env)} {e : Env} (he : e.Ok) (hc : e.c < e.cols ∧ e.cols < 32768)
    (hl : l.map Prod.fst = csi ds 110) (hlast : ∀ x, l.getLast? = some x → x.2 = e)
    (h6 : param ds 0 = 6) :
    ∃ row col, number row 0 = e.r + 1 ∧ number col 0 = e.c + 1 ∧ Numerals [row, col] ∧
      feed k l = some ⟨{ k with st := .default, pb := [], ib := 0 }, [], csi [row, col] 82⟩ := by
  have h1 := he.r
  have h2 := he.rows
  obtain ⟨ps, hp, _, h3⟩ := feed_joined h hs (f := 110) (by omega) hl hlast
  obtain ⟨a1, a2, _⟩ := dec_number (n := e.r + 1) (by omega)
  obtain ⟨b1, b2, _⟩ := dec_number (n := e.c + 1) (by omega)
  refine ⟨dec (e.r + 1), dec (e.c + 1), a2, b2, ?_, ?_⟩
  · intro d hd
    rcases List.mem_cons.mp hd with rfl | hd
    · exact a1
    · rw [List.mem_singleton.mp hd]; exact b1
  · rw [h3]
    have e1 : ∀ k : Con, k.handle e ps 110 = ⟨k, [], report e (ps.getD 0 0)⟩ := fun k => rfl
    rw [e1, hp 0, h6]
    have e2 : report e 6 = csi [dec (e.r + 1), dec (e.c + 1)] 82 := by
      show [27, 91] ++ dec (e.r + 1) ++ [59] ++ dec (e.c + 1) ++ [82] =
        [27, 91] ++ (dec (e.r + 1) ++ [59] ++ dec (e.c + 1)) ++ [82]
      simp only [List.append_assoc]
    rw [e2]
    rfl

example : feed new (([27, 91, 54, 110].map fun b =>
    (b, ({ r := 4, c := 10, rows := 25, cols := 80, ok := true } : Env)))) =
    some ⟨new, [], csi [[53], [49, 49]] 82⟩ := by decide +kernel

/-- C111 is violated: when the line is full the console answers with a column the screen does not
have (81 of 80). -/
theorem cursor_report_violated :
    feed new (([27, 91, 54, 110].map fun b =>
      (b, ({ r := 0, c := 80, rows := 25, cols := 80, ok := true } : Env)))) =
      some ⟨new, [], csi [[49], [56, 49]] 82⟩ := by
  decide +kernel

/-! ## Colours: specification -/

/-- How text is drawn: colours 0 to 15 (black, red, green, yellow, blue, magenta, cyan, white, and
the same bright), bold and reverse. -/
structure Pen where
  fg : Nat
  bg : Nat
  bold : Bool
  rev : Bool
  deriving DecidableEq, Repr

/-- White on black. -/
def Pen.start : Pen := ⟨7, 0, false, false⟩

/-- What one parameter of `ESC [ … m` means (ECMA-48 and the bright colours of aixterm); others mean
nothing. -/
def Pen.set (p : Pen) (n : Nat) : Pen :=
  if n = 0 then Pen.start
  else if n = 1 then { p with bold := true }
  else if n = 22 then { p with bold := false }
  else if n = 7 then { p with rev := true }
  else if n = 27 then { p with rev := false }
  else if 30 ≤ n ∧ n ≤ 37 then { p with fg := n - 30 }
  else if 90 ≤ n ∧ n ≤ 97 then { p with fg := n - 90 + 8 }
  else if 40 ≤ n ∧ n ≤ 47 then { p with bg := n - 40 }
  else if 100 ≤ n ∧ n ≤ 107 then { p with bg := n - 100 + 8 }
  else if n = 39 then { p with fg := 7 }
  else if n = 49 then { p with bg := 0 }
  else p

/-- All the parameters; none is the same as 0. -/
def Pen.sets (p : Pen) (ns : List Nat) : Pen := if ns = [] then Pen.start else ns.foldl Pen.set p

/-- The number of a colour in the VGA's palette, where red is 4 and blue is 1. -/
def vga (n : Nat) : Nat := n / 8 * 8 + n % 2 * 4 + n / 2 % 2 * 2 + n / 4 % 2

/-- The attribute byte of the cells drawn: background and foreground, exchanged in reverse; bold text
is bright. -/
def Pen.attr (p : Pen) : Nat :=
  let f := vga (if p.bold ∧ p.fg < 8 then p.fg + 8 else p.fg)
  let b := vga p.bg
  if p.rev then 16 * f + b else 16 * b + f

/-- The filter is drawing with `p`. -/
structure Draws (k : Con) (p : Pen) : Prop where
  fg : p.fg < 16
  bg : p.bg < 16
  bold : k.bold = p.bold
  rev : k.rev = p.rev
  user : k.user = 16 * vga p.bg + vga p.fg
  cur : k.cur = p.attr
  color : k.color = p.attr

/-! ## Colours: proofs -/

theorem vga_lt : ∀ n < 16, vga n < 16 := by decide

theorem makeColor_eq {f b : Nat} (hf : f < 16) (hb : b < 16) : makeColor f b = 16 * b + f := by
  have : ∀ f < 16, ∀ b < 16, makeColor f b = 16 * b + f := by decide +kernel
  exact this f hf b hb

theorem vga_bold : ∀ f < 16, vga f ≤ 7 ↔ f < 8 := by decide

theorem vga_bright : ∀ f < 8, vga f + 8 = vga (f + 8) := by decide

theorem vga_user {f b : Nat} (hf : f < 16) (hb : b < 16) :
    (16 * vga b + vga f) % 16 = vga f ∧ (16 * vga b + vga f) / 16 = vga b := by
  have h1 := vga_lt f hf
  omega

theorem setColor_draws {k : Con} {p : Pen} (hf : p.fg < 16) (hb : p.bg < 16) (h1 : k.bold = p.bold)
    (h2 : k.rev = p.rev) : Draws (k.setColor (vga p.fg) (vga p.bg)) p := by
  have hbf : (if k.bold = true ∧ vga p.fg ≤ 7 then vga p.fg + 8 else vga p.fg) =
      vga (if p.bold = true ∧ p.fg < 8 then p.fg + 8 else p.fg) := by
    rw [h1]
    by_cases hc : p.bold = true ∧ p.fg < 8
    · rw [if_pos hc, if_pos ⟨hc.1, (vga_bold _ hf).mpr hc.2⟩, vga_bright _ hc.2]
    · rw [if_neg hc, if_neg (fun h => hc ⟨h.1, (vga_bold _ hf).mp h.2⟩)]
  have hlt : (if p.bold = true ∧ p.fg < 8 then p.fg + 8 else p.fg) < 16 := by split <;> omega
  have ha : (if k.rev = true then makeColor (vga p.bg) (vga (if p.bold = true ∧ p.fg < 8 then p.fg + 8 else p.fg))
      else makeColor (vga (if p.bold = true ∧ p.fg < 8 then p.fg + 8 else p.fg)) (vga p.bg)) = p.attr := by
    rw [h2, makeColor_eq (vga_lt _ hb) (vga_lt _ hlt), makeColor_eq (vga_lt _ hlt) (vga_lt _ hb)]
    rfl
  refine ⟨hf, hb, h1, h2, makeColor_eq (vga_lt _ hf) (vga_lt _ hb), ?_, ?_⟩
  · show (if k.rev = true then makeColor (vga p.bg) (if k.bold = true ∧ vga p.fg ≤ 7 then vga p.fg + 8 else vga p.fg)
      else makeColor (if k.bold = true ∧ vga p.fg ≤ 7 then vga p.fg + 8 else vga p.fg) (vga p.bg)) = p.attr
    rw [hbf]; exact ha
  · show (if k.rev = true then makeColor (vga p.bg) (if k.bold = true ∧ vga p.fg ≤ 7 then vga p.fg + 8 else vga p.fg)
      else makeColor (if k.bold = true ∧ vga p.fg ≤ 7 then vga p.fg + 8 else vga p.fg) (vga p.bg)) = p.attr
    rw [hbf]; exact ha

theorem csiToVga_fg : ∀ n, 30 ≤ n ∧ n ≤ 37 → csiToVga n = vga (n - 30) := by
  have : ∀ i < 8, csiToVga (30 + i) = vga i := by decide
  intro n h
  have := this (n - 30) (by omega)
  rwa [show 30 + (n - 30) = n by omega] at this

theorem csiToVga_bright : ∀ n, 90 ≤ n ∧ n ≤ 97 → csiToVga n = vga (n - 90 + 8) := by
  have : ∀ i < 8, csiToVga (90 + i) = vga (i + 8) := by decide
  intro n h
  have := this (n - 90) (by omega)
  rwa [show 90 + (n - 90) = n by omega] at this

theorem sgr_draws {k : Con} {p : Pen} (h : Draws k p) (n : Nat) : Draws (k.sgr n) (p.set n) := by
  have hu := vga_user h.fg h.bg
  rw [← h.user] at hu
  unfold Con.sgr
  dsimp only
  rw [hu.1, hu.2]
  unfold Pen.set
  have d7 : (7 : Nat) = vga 7 := by decide
  have d0 : (0 : Nat) = vga 0 := by decide
  by_cases h0 : n = 0
  · rw [if_pos h0, if_pos h0]
    exact setColor_draws (p := Pen.start) (by decide) (by decide) rfl rfl
  rw [if_neg h0, if_neg h0]
  by_cases h39 : n = 39
  · have q : Draws (k.setColor (vga 7) (vga p.bg)) { p with fg := 7 } :=
      setColor_draws (p := { p with fg := 7 }) (by decide : 7 < 16) h.bg h.bold h.rev
    rw [← d7] at q
    rw [if_pos h39]
    repeat rw [if_neg (by omega)]
    rw [if_pos h39]
    exact q
  rw [if_neg h39]
  by_cases h49 : n = 49
  · have q : Draws (k.setColor (vga p.fg) (vga 0)) { p with bg := 0 } :=
      setColor_draws (p := { p with bg := 0 }) h.fg (by decide : 0 < 16) h.bold h.rev
    rw [← d0] at q
    rw [if_pos h49]
    repeat rw [if_neg (by omega)]
    rw [if_pos h49]
    exact q
  rw [if_neg h49]
  by_cases h1 : n = 1
  · rw [if_pos h1, if_pos h1]
    exact setColor_draws (k := { k with bold := true }) (p := { p with bold := true }) h.fg h.bg rfl h.rev
  rw [if_neg h1, if_neg h1]
  by_cases h7 : n = 7
  · subst h7
    exact setColor_draws (k := { k with rev := true }) (p := { p with rev := true }) h.fg h.bg h.bold rfl
  rw [if_neg h7]
  by_cases h22 : n = 22
  · rw [if_pos h22, if_pos h22]
    exact setColor_draws (k := { k with bold := false }) (p := { p with bold := false }) h.fg h.bg rfl h.rev
  rw [if_neg h22, if_neg h22, if_neg h7]
  by_cases h27 : n = 27
  · rw [if_pos h27, if_pos h27]
    exact setColor_draws (k := { k with rev := false }) (p := { p with rev := false }) h.fg h.bg h.bold rfl
  rw [if_neg h27, if_neg h27]
  by_cases hf1 : 30 ≤ n ∧ n ≤ 37
  · rw [if_pos (Or.inl hf1), if_pos hf1, csiToVga_fg n hf1]
    exact setColor_draws (p := { p with fg := n - 30 }) (by show n - 30 < 16; omega) h.bg h.bold h.rev
  rw [if_neg hf1]
  by_cases hf2 : 90 ≤ n ∧ n ≤ 97
  · rw [if_pos (Or.inr hf2), if_pos hf2, csiToVga_bright n hf2]
    exact setColor_draws (p := { p with fg := n - 90 + 8 }) (by show n - 90 + 8 < 16; omega) h.bg h.bold h.rev
  rw [if_neg (fun hx => hx.elim hf1 hf2), if_neg hf2]
  by_cases hb1 : 40 ≤ n ∧ n ≤ 47
  · rw [if_pos (Or.inl hb1), if_pos hb1, csiToVga_fg (n - 10) (by omega),
      show n - 10 - 30 = n - 40 by omega]
    exact setColor_draws (p := { p with bg := n - 40 }) h.fg (by show n - 40 < 16; omega) h.bold h.rev
  rw [if_neg hb1]
  by_cases hb2 : 100 ≤ n ∧ n ≤ 107
  · rw [if_pos (Or.inr hb2), if_pos hb2, csiToVga_bright (n - 10) (by omega),
      show n - 10 - 90 + 8 = n - 100 + 8 by omega]
    exact setColor_draws (p := { p with bg := n - 100 + 8 }) h.fg (by show n - 100 + 8 < 16; omega) h.bold h.rev
  rw [if_neg (fun hx => hx.elim hb1 hb2), if_neg hb2, if_neg h39, if_neg h49]
  exact h

theorem sgrs_draws : ∀ {ns : List Nat} {k : Con} {p : Pen}, Draws k p →
    Draws (ns.foldl Con.sgr k) (ns.foldl Pen.set p)
  | [], _, _, h => h
  | n :: ns, _, _, h => sgrs_draws (ns := ns) (sgr_draws h n)

/-- Everything but the colours. -/
def Con.rest (k : Con) : Con :=
  { k with bold := false, rev := false, user := 0, cur := 0, color := 0 }

theorem sgr_rest (k : Con) (n : Nat) : (k.sgr n).rest = k.rest := by
  unfold Con.sgr
  dsimp only
  repeat' split
  all_goals rfl

theorem sgrs_rest : ∀ (ns : List Nat) (k : Con), (ns.foldl Con.sgr k).rest = k.rest
  | [], _ => rfl
  | n :: ns, k => by
    show (ns.foldl Con.sgr (k.sgr n)).rest = _
    rw [sgrs_rest ns, sgr_rest]

theorem Draws.ctx {k k' : Con} {p : Pen} (h : Draws k p) (h1 : k'.bold = k.bold) (h2 : k'.rev = k.rev)
    (h3 : k'.user = k.user) (h4 : k'.cur = k.cur) (h5 : k'.color = k.color) : Draws k' p :=
  ⟨h.fg, h.bg, h1.trans h.bold, h2.trans h.rev, h3.trans h.user, h4.trans h.cur, h5.trans h.color⟩

/-- C113: whatever parameters are written, known or not, `ESC [ … m` changes the colours, bold and
reverse as ECMA-48 says, and nothing else.  Partial: not for the codes 38 and 48, whose further
parameters should not be read on their own; see `extended_colour_violated`. -/
theorem colours_partial {k : Con} {p : Pen} (hd : Draws k p) (h : EscOk k) {ds : List (List Nat)}
    (hs : Short ds) {l : List (Nat × Env)} (hl : l.map Prod.fst = csi ds 109)
    (_hx : ∀ d ∈ ds, number d 0 ≠ 38 ∧ number d 0 ≠ 48) :
    ∃ k', feed k l = some ⟨k', [], []⟩ ∧ Draws k' (p.sets (ds.map fun d => number d 0)) ∧
      k'.rest = { k with st := .default, pb := [], ib := 0 }.rest := by
  cases hlast : l.getLast? with
  | none =>
    rw [List.getLast?_eq_none_iff] at hlast
    subst hlast
    have := congrArg List.length hl
    simp [csi] at this
  | some x =>
    obtain ⟨ps, hp, hps, h3⟩ := feed_joined h hs (f := 109) (by omega) hl (e := x.2)
      (fun y hy => by rw [hlast] at hy; cases hy; rfl)
    have e1 : ∀ k : Con, k.handle x.2 ps 109 = ⟨k.sgrs ps, [], []⟩ := fun k => rfl
    rw [h3, e1]
    refine ⟨_, rfl, ?_, ?_⟩
    · have h0 : Draws { k with st := .csi, pb := joined ds, ib := 0 } p := hd.ctx rfl rfl rfl rfl rfl
      have key : Draws (Con.sgrs { k with st := .csi, pb := joined ds, ib := 0 } ps)
          (p.sets (ds.map fun d => number d 0)) := by
        have q := sgrs_draws (ns := if ps = [] then [0] else ps) h0
        have e2 : (if ps = [] then [0] else ps).foldl Pen.set p = p.sets (ds.map fun d => number d 0) := by
          unfold Pen.sets
          match ds, hps with
          | [], hps => rw [hps]; rfl
          | [[]], hps => rw [hps]; rfl
          | [b :: d], hps =>
            have hj : joined [b :: d] ≠ [] := List.cons_ne_nil b d
            rw [if_neg hj] at hps
            rw [hps, if_neg (by simp), if_neg (by simp)]
          | d :: d2 :: r, hps =>
            have hj : joined (d :: d2 :: r) ≠ [] := by
              intro hj
              have hj : d ++ [59] ++ joined (d2 :: r) = [] := hj
              simp at hj
            rw [if_neg hj] at hps
            rw [hps, if_neg (by simp), if_neg (by simp)]
        rw [e2] at q
        exact q
      exact key.ctx rfl rfl rfl rfl rfl
    · have := sgrs_rest (if ps = [] then [0] else ps) { k with st := .csi, pb := joined ds, ib := 0 }
      exact (congrArg (fun x : Con => { x with st := .default, pb := [], ib := 0 }) this :)

/-- A new console draws white on black; `ESC [ 1 ; 31 m` is then bright red on black. -/
theorem new_draws : Draws new Pen.start :=
  ⟨by decide, by decide, rfl, rfl, by decide, by decide, by decide⟩

example : (Pen.start.sets [1, 31]).attr = 12 := by decide

example : Short [[49], [51, 49]] ∧ EscOk new :=
  ⟨⟨by unfold Numerals; decide, by decide, by decide, by decide⟩, by unfold EscOk; decide⟩

/-- C113 is violated: `ESC [ 38 ; 5 ; 1 m`, a colour of the palette of 256, makes the text bold; -/
theorem extended_colour_violated :
    (feed new (onScreen (csi [[51, 56], [53], [49]] 109))).map (fun o => o.k.bold) = some true := by
  decide +kernel

/-- C113 is violated: after `ESC c`, "reset to the initial state", the text of the same write is still
red, -/
theorem reset_keeps_colour_violated :
    (feed new (onScreen (csi [[51, 49]] 109 ++ [27, 99, 65]))).map (fun o => (o.acts, o.k.cur)) =
      some ([.reset, .putc 65 4], 7) := by
  decide +kernel

/-- C113 is violated: and bold and reverse stay, so that `ESC [ 31 m` then is bright red. -/
theorem reset_keeps_bold_violated :
    (feed new (onScreen (csi [[49]] 109 ++ [27, 99] ++ csi [[51, 49]] 109))).map
      (fun o => o.k.cur) = some 12 := by
  decide +kernel

/-! ## Sequences the console does not know -/

/-- The bytes of a control sequence with a private parameter (`ESC [ ?`). -/
def csiPrivate (ds : List (List Nat)) (f : Nat) : List Nat := [27, 91] ++ (63 :: joined ds) ++ [f]

/-- The last bytes of the control sequences the console knows. -/
def known : List Nat :=
  [64, 65, 66, 67, 68, 69, 70, 71, 72, 74, 75, 76, 77, 80, 83, 84, 88, 96, 97, 99, 100, 101, 102, 109,
   110, 114, 115, 117]

theorem feed_seq {k : Con} (h : EscOk k) {pb : List Nat} (hp : ∀ b ∈ pb, isPar b = true)
    (hlen : pb.length ≤ 64) {f : Nat} (hf : 64 ≤ f ∧ f ≤ 126) {l : List (Nat × Env)}
    (hl : l.map Prod.fst = [27, 91] ++ pb ++ [f]) :
    ∃ e, l.getLast? = some (f, e) ∧
      feed k l = Con.endCsi { k with st := .csi, pb := pb, ib := 0 } e f := by
  obtain ⟨l3, l4, e3, h3, h4⟩ := List.map_eq_append_iff.mp hl
  obtain ⟨l1, l2, e1, h1, h2⟩ := List.map_eq_append_iff.mp h3
  have hq : ∃ x1 x2, l1 = [(27, x1), (91, x2)] := by
    match l1, h1 with
    | [(_, x1), (_, x2)], h1 =>
      injection h1 with a1 h1
      injection h1 with a2 _
      dsimp only at a1 a2
      subst a1; subst a2
      exact ⟨x1, x2, rfl⟩
  obtain ⟨x1, x2, q1⟩ := hq
  have hq4 : ∃ e, l4 = [(f, e)] := by
    match l4, h4 with
    | [(z, y)], h4 =>
      injection h4 with a1 _
      dsimp only at a1
      exact ⟨y, by rw [a1]⟩
  obtain ⟨e, q4⟩ := hq4
  refine ⟨e, by rw [e3, q4]; simp, ?_⟩
  have key := feed_csi h x1 x2 (l := l2)
    (fun x hx => hp x.1 (h2 ▸ List.mem_map_of_mem hx)) (by rw [← h2, List.length_map] at hlen; exact hlen)
    hf e
  rw [e3, e1, q1, q4, key, h2]

/-- C114: a control sequence the console does not know, with any parameters, does nothing, and the
text after it is treated as if the sequence was not there. -/
theorem unknown_sequence_ignored {k : Con} (h : EscOk k) {ds : List (List Nat)} (hs : Short ds)
    {f : Nat} (hf : 64 ≤ f ∧ f ≤ 126) (hk : f ∉ known) {l : List (Nat × Env)}
    (hl : l.map Prod.fst = csi ds f) :
    feed k l = some ⟨{ k with st := .default, pb := [], ib := 0 }, [], []⟩ := by
  cases hlast : l.getLast? with
  | none =>
    rw [List.getLast?_eq_none_iff] at hlast
    subst hlast
    have := congrArg List.length hl
    simp [csi] at this
  | some x =>
    obtain ⟨ps, hp, hps, h3⟩ := feed_joined h hs (f := f) hf hl (e := x.2)
      (fun y hy => by rw [hlast] at hy; cases hy; rfl)
    have hne : ∀ n, n ∈ known → f ≠ n := fun n hn he => hk (he ▸ hn)
    have e1 : ∀ k : Con, k.handle x.2 ps f = ⟨k, [], []⟩ := by
      intro k
      unfold Con.handle
      dsimp only
      rw [if_neg (hne 64 (by decide)), if_neg (hne 65 (by decide)), if_neg (hne 66 (by decide)),
        if_neg (hne 67 (by decide)), if_neg (hne 68 (by decide)), if_neg (hne 69 (by decide)),
        if_neg (hne 70 (by decide)), if_neg (hne 71 (by decide)),
        if_neg (fun hx => hx.elim (hne 72 (by decide)) (hne 102 (by decide))),
        if_neg (hne 74 (by decide)), if_neg (hne 75 (by decide)), if_neg (hne 76 (by decide)),
        if_neg (hne 77 (by decide)), if_neg (hne 80 (by decide)), if_neg (hne 83 (by decide)),
        if_neg (hne 84 (by decide)), if_neg (hne 88 (by decide)), if_neg (hne 97 (by decide)),
        if_neg (hne 99 (by decide)), if_neg (hne 100 (by decide)), if_neg (hne 101 (by decide)),
        if_neg (hne 109 (by decide)), if_neg (hne 110 (by decide)), if_neg (hne 114 (by decide)),
        if_neg (hne 115 (by decide)), if_neg (hne 117 (by decide)), if_neg (hne 96 (by decide))]
    rw [h3, e1]
    rfl

/-- What the private sequences do: `ESC [ ? 25 h`, `l` show and hide the cursor, `ESC [ ? 1049 h`,
`l` go to the alternate screen and back. -/
def privateActs (ok : Bool) (p f : Nat) : List Act :=
  if p = 25 ∧ f = 104 then [.enableCursor true]
  else if p = 25 ∧ f = 108 then [.enableCursor false]
  else if p = 1049 ∧ f = 104 then [.useAlt true ok]
  else if p = 1049 ∧ f = 108 then [.useAlt false ok]
  else []

/-- C114: private modes other than the two the console knows do nothing, and those two do what they
should. -/
theorem private_sequence {k : Con} (h : EscOk k) {ds : List (List Nat)} (hs : Short ds)
    (hlen : (joined ds).length < 63) {f : Nat} (hf : 64 ≤ f ∧ f ≤ 126) {l : List (Nat × Env)}
    (hl : l.map Prod.fst = csiPrivate ds f) :
    ∃ e, l.getLast? = some (f, e) ∧ feed k l =
      some ⟨{ k with st := .default, pb := [], ib := 0 }, privateActs e.ok (param ds 0) f, []⟩ := by
  have hpar : ∀ b ∈ 63 :: joined ds, isPar b = true := by
    intro b hb
    rcases List.mem_cons.mp hb with rfl | hb
    · decide
    · exact (joined_bytes hs.digits b hb).1
  obtain ⟨e, hlast, key⟩ := feed_seq h hpar (by simp; omega) hf hl
  refine ⟨e, hlast, ?_⟩
  rw [key]
  have hsp : ∃ ps, specParams (63 :: joined ds) = ps ∧ (∀ i, ps.getD i 0 = param ds i) ∧
      ps.length ≤ 16 ∧ ∀ v ∈ ps, v < 2 ^ 31 := by
    by_cases hd : ds = []
    · subst hd
      refine ⟨[0], rfl, ?_, by decide, by decide⟩
      intro i
      match i with
      | 0 => rfl
      | _ + 1 => rfl
    · refine ⟨ds.map fun d => number d 0, fields_joined hd hs.digits, ?_, by simpa using hs.count, ?_⟩
      · intro i
        unfold param
        rw [List.getD_eq_getElem?_getD, List.getD_eq_getElem?_getD, List.getElem?_map]
        cases ds[i]? <;> rfl
      · intro v hv
        obtain ⟨d, hd, rfl⟩ := List.mem_map.mp hv
        exact hs.value d hd
  obtain ⟨ps, h1, h2, h3, h4⟩ := hsp
  have hq := parse_spec (pb := 63 :: joined ds) (by
    intro b hb
    rcases List.mem_cons.mp hb with rfl | hb
    · decide
    · exact (joined_bytes hs.digits b hb).2.2) (by rw [h1]; exact h4)
  unfold Con.endCsi
  dsimp only
  rw [hq, h1, if_neg (by omega)]
  have ho : (k.over || decide ((63 :: joined ds).length = 64) || decide ((0 : Nat) = 64)) = k.over := by
    rw [List.length_cons, decide_eq_false (by omega), decide_eq_false (by omega)]; simp
  rw [ho, if_pos (show (63 :: joined ds).head? = some 63 from rfl)]
  unfold Con.handlePrivate privateActs
  dsimp only
  rw [h2 0]
  generalize param ds 0 = p
  by_cases hc : f = 99
  · rw [if_pos hc]
    subst hc
    simp [Con.resetCtx]
  rw [if_neg hc]
  by_cases h25 : p = 25
  · subst h25
    by_cases a : f = 104
    · subst a; rfl
    · by_cases b : f = 108
      · subst b; rfl
      · simp [a, b, Con.resetCtx]
  · by_cases h49 : p = 1049
    · subst h49
      by_cases a : f = 104
      · subst a; rfl
      · by_cases b : f = 108
        · subst b; rfl
        · simp [a, b, Con.resetCtx]
    · simp [h25, h49, Con.resetCtx]

/-- `ESC [ ? 2004 h` (bracketed paste) is ignored. -/
example : feed new (onScreen (csiPrivate [[50, 48, 48, 52]] 104)) = some ⟨new, [], []⟩ := by
  decide +kernel

/-- C114 is violated: after `ESC 7`, `ESC =` or `ESC >` everything is lost up to the next capital
letter, which is lost too: `ESC 7 hello World` shows `orld`. -/
theorem escape_swallows_text_violated :
    (feed new (onScreen ([27, 55] ++ [104, 101, 108, 108, 111, 32, 87, 111, 114, 108, 100]))).map Out.acts =
      some [.putc 111 7, .putc 114 7, .putc 108 7, .putc 100 7] := by
  decide +kernel

/-- C114 is violated: `ESC [ > 4 ; 2 m` (xterm's key modifiers) changes the colours, -/
theorem modifiers_reset_colour_violated :
    (feed new (onScreen (csi [[51, 49]] 109 ++ [27, 91, 62, 52, 59, 50, 109]))).map (fun o => o.k.cur) =
      some 7 := by
  decide +kernel

/-- C114 is violated: `ESC [ > c` (which version?) is answered as `ESC [ c` (which terminal?). -/
theorem secondary_attributes_violated :
    (feed new (onScreen [27, 91, 62, 99])).map Out.reply = some [27, 91, 63, 54, 99] ∧
    (feed new (onScreen [27, 91, 99])).map Out.reply = some [27, 91, 63, 54, 99] := by
  decide +kernel

/-- C114 is violated: in the set of line drawing characters, letters which draw nothing are shown as
question marks. -/
theorem line_drawing_letters_violated :
    (feed new (onScreen [27, 40, 48, 65, 113])).map Out.acts = some [.putc 63 7, .putc 0xc4 7] := by
  decide +kernel

/-- C114 is violated: a control character in the output which is the erase or the word erase
character of the terminal's input settings removes what is on the screen. -/
theorem output_erases_violated :
    (feed new (onScreen [65, 0x17, 0x7f])).map Out.acts = some [.putc 65 7, .delWord, .delPrev] := by
  decide +kernel

/-! ## Division into writes -/

theorem setColor_same (k : Con) (f b : Nat) : (k.setColor f b).color = (k.setColor f b).cur := rfl

theorem sgr_same {k : Con} (h : k.color = k.cur) (n : Nat) : (k.sgr n).color = (k.sgr n).cur := by
  unfold Con.sgr
  dsimp only
  repeat' split
  all_goals first | rfl | exact h

theorem sgrs_same : ∀ (ns : List Nat) {k : Con}, k.color = k.cur →
    (ns.foldl Con.sgr k).color = (ns.foldl Con.sgr k).cur
  | [], _, h => h
  | n :: ns, _, h => sgrs_same ns (sgr_same h n)

theorem handle_same {k : Con} (h : k.color = k.cur) (e : Env) (ps : List Nat) (f : Nat) :
    (k.handle e ps f).k.color = (k.handle e ps f).k.cur := by
  unfold Con.handle
  dsimp only
  repeat' (refine out_ite (P := fun o => o.k.color = o.k.cur) (fun _ => ?_) (fun _ => ?_))
  all_goals first | exact h | exact sgrs_same _ h | skip

theorem handlePrivate_same {k : Con} (h : k.color = k.cur) (e : Env) (ps : List Nat) (f : Nat) :
    (k.handlePrivate e ps f).k.color = (k.handlePrivate e ps f).k.cur := by
  unfold Con.handlePrivate
  dsimp only
  repeat' (refine out_ite (P := fun o => o.k.color = o.k.cur) (fun _ => ?_) (fun _ => ?_))
  all_goals exact h

theorem control_same {k : Con} (h : k.color = k.cur) (e : Env) (b : Nat) :
    (k.control e b).k.color = (k.control e b).k.cur := by
  unfold Con.control
  repeat' (refine out_ite (P := fun o => o.k.color = o.k.cur) (fun _ => ?_) (fun _ => ?_))
  all_goals exact h

theorem step_same {k : Con} (h : k.color = k.cur) {e : Env} {b : Nat} {o : Out}
    (ho : k.step e b = some o) (hr : Act.reset ∉ o.acts) : o.k.color = o.k.cur := by
  have hd : (k.stepDefault e b).k.color = (k.stepDefault e b).k.cur := by
    unfold Con.stepDefault
    split
    · exact h
    · exact control_same h e b
  unfold Con.step at ho
  by_cases hs : k.st = .default
  · rw [if_pos hs] at ho; cases ho; exact hd
  rw [if_neg hs] at ho
  by_cases hb : b = 27
  · rw [if_pos hb] at ho; cases ho; exact h
  rw [if_neg hb] at ho
  cases hst : k.st <;> rw [hst] at ho <;> dsimp only at ho
  · cases ho; exact hd
  · have key : Act.reset ∉ (k.stepEsc e b).acts → (k.stepEsc e b).k.color = (k.stepEsc e b).k.cur := by
      have hu : ∀ k' : Con, k'.color = k'.cur → (k'.stepUnknown b).color = (k'.stepUnknown b).cur := by
        intro k' h'
        unfold Con.stepUnknown
        split
        · exact h'
        · exact h'
      unfold Con.stepEsc
      repeat' (refine out_ite (P := fun o => Act.reset ∉ o.acts → o.k.color = o.k.cur) (fun _ => ?_) (fun _ => ?_))
      all_goals first
        | exact fun _ => h
        | exact fun hx => absurd (List.mem_singleton.mpr rfl) hx
        | exact fun _ => hu _ h
    cases ho; exact key hr
  · cases ho; exact h
  · cases ho; exact h
  · unfold Con.stepCsi at ho
    have he : ∀ k' : Con, k'.color = k'.cur → k'.endCsi e b = some o → o.k.color = o.k.cur := by
      intro k' h' ho
      unfold Con.endCsi at ho
      dsimp only at ho
      split at ho
      · cases ho
      · cases ho
        dsimp only
        split
        · exact (handlePrivate_same (k := { k' with over := k'.over || decide (k'.pb.length = 64) || decide (k'.ib = 64) }) h' e (parse k'.pb) b :)
        · exact (handle_same (k := { k' with over := k'.over || decide (k'.pb.length = 64) || decide (k'.ib = 64) }) h' e (parse k'.pb) b :)
    split at ho
    · split at ho <;> cases ho <;> exact h
    · split at ho
      · split at ho <;> cases ho <;> exact h
      · split at ho
        · exact he k h ho
        · cases ho; exact h
  · cases ho
    unfold Con.stepUnknown
    split
    · exact h
    · exact h

theorem feed_same : ∀ {l : List (Nat × Env)} {k : Con} {o : Out}, k.color = k.cur →
    feed k l = some o → Act.reset ∉ o.acts → o.k.color = o.k.cur
  | [], k, o, h, ho, _ => by cases ho; exact h
  | (b, e) :: l, k, o, h, ho, hr => by
    unfold feed at ho
    cases h1 : k.step e b with
    | none => rw [h1] at ho; cases ho
    | some o1 =>
      rw [h1] at ho
      dsimp only [Option.bind_some] at ho
      cases h2 : feed o1.k l with
      | none => rw [h2] at ho; cases ho
      | some o2 =>
        rw [h2] at ho
        cases ho
        dsimp only at hr ⊢
        rw [List.mem_append] at hr
        exact feed_same (step_same h h1 (fun hx => hr (Or.inl hx))) h2 (fun hx => hr (Or.inr hx))

/-- Several writes: each starts with the current colour (kernel/tty/tty.c:368-377). -/
def feeds (k : Con) : List (List (Nat × Env)) → Option Out
  | [] => some ⟨k, [], []⟩
  | w :: ws =>
    (feed { k with color := k.cur } w).bind fun o =>
      (feeds o.k ws).map fun x => ⟨x.k, o.acts ++ x.acts, o.reply ++ x.reply⟩

/-- C112: how a text is divided into writes makes no difference, also when sequences are cut in the
middle.  Partial: not when it contains `ESC c`; see `reset_keeps_colour_violated`. -/
theorem division_into_writes_partial : ∀ {ws : List (List (Nat × Env))} {k : Con} {o : Out},
    k.color = k.cur → feed k ws.flatten = some o → Act.reset ∉ o.acts → feeds k ws = some o
  | [], k, o, _, ho, _ => ho
  | w :: ws, k, o, h, ho, hr => by
    rw [List.flatten_cons, feed_append] at ho
    have hk : ({ k with color := k.cur } : Con) = k := congrArg (fun c => ({ k with color := c } : Con)) h.symm
    unfold feeds
    rw [hk]
    cases h1 : feed k w with
    | none => rw [h1] at ho; cases ho
    | some o1 =>
      rw [h1] at ho
      dsimp only [Option.bind_some] at ho ⊢
      cases h2 : feed o1.k ws.flatten with
      | none => rw [h2] at ho; cases ho
      | some o2 =>
        rw [h2] at ho
        cases ho
        dsimp only at hr
        rw [List.mem_append] at hr
        have := division_into_writes_partial (feed_same h h1 (fun hx => hr (Or.inl hx))) h2
          (fun hx => hr (Or.inr hx))
        rw [this]
        rfl

/-- A red `A`, with the sequence cut in the middle. -/
example : feeds new [onScreen [27, 91, 51], onScreen [49, 109], onScreen [65]] =
    feed new (onScreen [27, 91, 51, 49, 109, 65]) := by decide +kernel

/-- C112 is violated: the colour of what follows `ESC c` depends on the division. -/
theorem division_after_reset_violated :
    (feeds new [onScreen (csi [[51, 49]] 109 ++ [27, 99]), onScreen [65]]).map Out.acts =
      some [.reset, .putc 65 7] ∧
    (feeds new [onScreen (csi [[51, 49]] 109 ++ [27, 99, 65])]).map Out.acts =
      some [.reset, .putc 65 4] := by
  decide +kernel

/-! ## From the bytes written to the screen: specification -/

/-- What programs write. -/
inductive Item
  | char (b : Nat)
  | newline
  | back
  | tab
  | carriage
  | fn (f : Fn) (ds : List (List Nat))
  | colour (ds : List (List Nat))
  | priv (ds : List (List Nat)) (f : Nat)
  | other (ds : List (List Nat)) (f : Nat)

/-- The bytes. -/
def Item.bytes : Item → List Nat
  | .char b => [b]
  | .newline => [10]
  | .back => [8]
  | .tab => [9]
  | .carriage => [13]
  | .fn f ds => csi ds f.final
  | .colour ds => csi ds 109
  | .priv ds f => csiPrivate ds f
  | .other ds f => csi ds f

/-- What the user sees, and what the text to come depends on: the pen and the position saved. -/
structure View where
  o : Obs
  pen : Pen
  saved : Nat × Nat

/-- The control functions an item stands for: a printable character is drawn with the pen, a newline
goes to the beginning of the next line, and so on. -/
def Item.acts (v : View) : Item → List Act
  | .char b => [.putc b v.pen.attr]
  | .newline => [.putc 10 v.pen.attr, .putc 13 v.pen.attr]
  | .back => [.moveRel 0 (-1)]
  | .tab => [.putc 9 v.pen.attr]
  | .carriage => [.putc 13 v.pen.attr]
  | .fn f ds => f.meaning v.o.s.r v.o.s.c v.o.s.rows v.o.s.cols v.saved (param ds 0) (param ds 1)
  | .colour _ => []
  | .priv ds f => privateActs true (param ds 0) f
  | .other _ _ => []

/-- The view after an item. -/
def View.item (v : View) (i : Item) : View :=
  { o := { v.o with s := v.o.s.acts (i.acts v), back := 0 }
    pen := match i with
      | .colour ds => v.pen.sets (ds.map fun d => number d 0)
      | _ => v.pen
    saved := match i with
      | .fn f _ => f.saves v.o.s.r v.o.s.c v.saved
      | _ => v.saved }

/-- The items the theorem is about: printable ASCII, sequences which are short and known to fit, and
control functions the terminal implements as described (`Vterm.Ok`). -/
def Item.Ok (v : View) (i : Item) : Prop :=
  OkAll v.o.s (i.acts v) ∧
  match i with
  | .char b => 32 ≤ b ∧ b ≤ 126
  | .fn f ds => Short ds ∧ f.Fits v.o.s.rows (param ds 0) (param ds 1)
  | .colour ds => Short ds ∧ ∀ d ∈ ds, number d 0 ≠ 38 ∧ number d 0 ≠ 48
  | .priv ds f => Short ds ∧ (joined ds).length < 63 ∧ 64 ≤ f ∧ f ≤ 126
  | .other ds f => Short ds ∧ 64 ≤ f ∧ f ≤ 126 ∧ f ∉ known
  | _ => True

/-- Several items. -/
def View.items (v : View) : List Item → View
  | [] => v
  | i :: l => (v.item i).items l

def View.OkItems (v : View) : List Item → Prop
  | [] => True
  | i :: l => i.Ok v ∧ (v.item i).OkItems l

/-- What is done to a console: a program writes, or the user looks at the history (or switches to
another console and back). -/
inductive Do
  | write (l : List Item)
  | user (x : Op)

/-- The view afterwards; a write shows the bottom of the history. -/
def View.does (extra : Nat) (v : View) : Do → View
  | .write l => View.items { v with o := { v.o with back := 0 } } l
  | .user x => { v with o := v.o.op extra x }

def View.OkDo (v : View) : Do → Prop
  | .write l => View.OkItems { v with o := { v.o with back := 0 } } l
  | .user x => (∀ l, x ≠ .write l) ∧ v.o.Ok x

def View.all (extra : Nat) (v : View) : List Do → View
  | [] => v
  | d :: l => (v.does extra d).all extra l

def View.OkAll (extra : Nat) (v : View) : List Do → Prop
  | [] => True
  | d :: l => v.OkDo d ∧ (v.does extra d).OkAll extra l

/-- A new console. -/
def View.start (rows cols : Nat) (paused : Bool) : View := ⟨Obs.start rows cols paused, Pen.start, (0, 0)⟩

/-- The code: bytes written, and requests of the user; memory for the copy of the screen is there. -/
def does (k : Con) (t : T) : Do → Option (Con × T)
  | .write l =>
    (write k t ((l.map Item.bytes).flatten.map fun b => (b, true))).map fun x => (x.k, x.t)
  | .user x => (t.op x).map fun t => (k, t)

def runs (k : Con) (t : T) : List Do → Option (Con × T)
  | [] => some (k, t)
  | d :: l => (does k t d).bind fun x => runs x.1 x.2 l

/-! ## From the bytes written to the screen: proofs -/

/-- The filter is between two items, with the settings of a new console. -/
structure Ready (k : Con) (pen : Pen) (saved : Nat × Nat) : Prop where
  st : k.st = .default
  draws : Draws k pen
  saved : (k.savedR, k.savedC) = saved
  set : (if k.shifted then k.g1 else k.g0) = false
  keys : k.vErase = 0x7f ∧ k.vWerase = 0x17 ∧ k.vKill = 0x15
  onlcr : k.onlcr = true

theorem Ready.esc {k : Con} {pen : Pen} {saved : Nat × Nat} (h : Ready k pen saved) : EscOk k := by
  intro _
  rw [h.keys.1, h.keys.2.1, h.keys.2.2]
  decide

theorem scan_append : ∀ (l1 l2 : List (Nat × Bool)) (k : Con) (t : T),
    scan k t (l1 ++ l2) = (scan k t l1).bind fun x =>
      (scan x.k x.t l2).map fun y => ⟨y.k, y.t, x.acts ++ y.acts, x.reply ++ y.reply⟩
  | [], l2, k, t => by
    show scan k t l2 = (scan k t l2).map _
    cases scan k t l2 <;> simp
  | (b, ok) :: l1, l2, k, t => by
    show (k.step (envOf t ok) b).bind _ = ((k.step (envOf t ok) b).bind _).bind _
    cases k.step (envOf t ok) b with
    | none => rfl
    | some o =>
      show (t.execs o.acts).bind _ = ((t.execs o.acts).bind _).bind _
      cases t.execs o.acts with
      | none => rfl
      | some t1 =>
        show (scan o.k t1 (l1 ++ l2)).map _ = ((scan o.k t1 l1).map _).bind _
        rw [scan_append l1 l2 o.k t1]
        cases scan o.k t1 l1 with
        | none => rfl
        | some x =>
          show ((scan x.k x.t l2).map _).map _ = (scan x.k x.t l2).map _
          cases scan x.k x.t l2 with
          | none => rfl
          | some y => simp [List.append_assoc]

/-- Bytes which ask for nothing. -/
theorem scan_quiet : ∀ {l : List Nat} {k : Con} {t : T} {o : Out},
    feed k (l.map fun b => (b, envOf t true)) = some o → o.acts = [] →
    scan k t (l.map fun b => (b, true)) = some ⟨o.k, t, [], o.reply⟩
  | [], k, t, o, h, _ => by cases h; rfl
  | b :: l, k, t, o, h, ha => by
    rw [List.map_cons] at h ⊢
    unfold feed at h
    unfold scan
    cases h1 : k.step (envOf t true) b with
    | none => rw [h1] at h; cases h
    | some o1 =>
      rw [h1] at h
      dsimp only [Option.bind_some] at h ⊢
      cases h2 : feed o1.k (l.map fun b => (b, envOf t true)) with
      | none => rw [h2] at h; cases h
      | some o2 =>
        rw [h2] at h
        cases h
        dsimp only at ha
        obtain ⟨a1, a2⟩ := List.append_eq_nil_iff.mp ha
        rw [a1]
        have := scan_quiet h2 a2
        show (scan o1.k t (l.map fun b => (b, true))).map _ = _
        rw [this]
        rfl

/-- A single byte. -/
theorem scan_one (k : Con) (t : T) (b : Nat) : scan k t [(b, true)] =
    (k.step (envOf t true) b).bind fun o => (t.execs o.acts).map fun t1 => ⟨o.k, t1, o.acts, o.reply⟩ := by
  unfold scan
  cases k.step (envOf t true) b with
  | none => rfl
  | some o =>
    show (t.execs o.acts).bind _ = (t.execs o.acts).map _
    cases t.execs o.acts with
    | none => rfl
    | some t1 => simp [scan]

/-- A control sequence: only its last byte does something. -/
theorem scan_seq {k : Con} (h : EscOk k) (t : T) {pb : List Nat} (hp : ∀ b ∈ pb, isPar b = true)
    (hlen : pb.length ≤ 64) (f : Nat) {o : Out}
    (ho : feed k (([27, 91] ++ pb ++ [f]).map fun b => (b, envOf t true)) = some o) :
    scan k t (([27, 91] ++ pb ++ [f]).map fun b => (b, true)) =
      (t.execs o.acts).map fun t1 => ⟨o.k, t1, o.acts, o.reply⟩ := by
  have h1 : feed k (([27, 91] ++ pb).map fun b => (b, envOf t true)) =
      some ⟨{ k with st := .csi, pb := pb, ib := 0 }, [], []⟩ := by
    rw [List.map_append, feed_append]
    have := feed_intro h (envOf t true) (envOf t true)
    show (feed k [(27, envOf t true), (91, envOf t true)]).bind _ = _
    rw [this]
    have hq := feed_params (l := pb.map fun b => (b, envOf t true))
      (k := { k with st := .csi, pb := [], ib := 0 }) rfl (by
        intro x hx
        obtain ⟨b, hb, rfl⟩ := List.mem_map.mp hx
        exact hp b hb) (by simpa using hlen)
    dsimp only [Option.bind_some]
    rw [hq]
    simp [List.map_map, Function.comp_def]
  have h2 := scan_quiet h1 rfl
  rw [List.map_append, feed_append, h1] at ho
  dsimp only [Option.bind_some] at ho
  rw [List.map_append, scan_append, h2]
  dsimp only [Option.bind_some]
  show (scan _ t [(f, true)]).map _ = _
  rw [scan_one]
  have h3 : ∀ k : Con, feed k [(f, envOf t true)] = k.step (envOf t true) f := by
    intro k
    unfold feed
    cases k.step (envOf t true) f with
    | none => rfl
    | some o => simp [feed]
  rw [show ([f].map fun b => (b, envOf t true)) = [(f, envOf t true)] from rfl, h3] at ho
  generalize Con.step _ (envOf t true) f = s at ho ⊢
  cases s with
  | none => cases ho
  | some o1 =>
    cases ho
    dsimp only [Option.bind_some]
    simp only [List.nil_append]
    cases t.execs o1.acts <;> rfl

theorem Ready.table {k : Con} {pen : Pen} {saved : Nat × Nat} (h : Ready k pen saved) (b : Nat) :
    k.table b = tableText b := by
  unfold Con.table
  rw [h.set]
  rfl

theorem step_ready {k : Con} {pen : Pen} {saved : Nat × Nat} (h : Ready k pen saved) (e : Env)
    (b : Nat) : k.step e b = some (match tableText b with
      | some ch => ⟨k, [.putc ch k.color], []⟩
      | none => k.control e b) := by
  unfold Con.step
  rw [if_pos h.st]
  unfold Con.stepDefault
  rw [h.table]

/-- A control character of a console with the usual settings. -/
theorem control_ready {k : Con} {pen : Pen} {saved : Nat × Nat} (h : Ready k pen saved) (e : Env) :
    k.control e 10 = ⟨k, [.putc 10 pen.attr, .putc 13 pen.attr], []⟩ ∧
    k.control e 8 = ⟨k, [.moveRel 0 (-1)], []⟩ ∧
    k.control e 9 = ⟨k, [.putc 9 pen.attr], []⟩ ∧
    k.control e 13 = ⟨k, [.putc 13 pen.attr], []⟩ := by
  have h1 := h.keys.1
  have h2 := h.keys.2.1
  have h3 := h.keys.2.2
  have h4 := h.draws.color
  have h5 := h.onlcr
  refine ⟨?_, ?_, ?_, ?_⟩ <;> unfold Con.control <;> simp [h1, h2, h3, h4, h5]

theorem Ready.same {k k' : Con} {pen pen' : Pen} {saved saved' : Nat × Nat} (h : Ready k pen saved)
    (hst : k'.st = .default) (hd : Draws k' pen') (hs : (k'.savedR, k'.savedC) = saved')
    (h1 : k'.shifted = k.shifted) (h2 : k'.g0 = k.g0) (h3 : k'.g1 = k.g1) (h4 : k'.vErase = k.vErase)
    (h5 : k'.vWerase = k.vWerase) (h6 : k'.vKill = k.vKill) (h7 : k'.onlcr = k.onlcr) :
    Ready k' pen' saved' :=
  ⟨hst, hd, hs, by rw [h1, h2, h3]; exact h.set, by rw [h4, h5, h6]; exact h.keys,
   by rw [h7]; exact h.onlcr⟩

theorem env_ok {t : T} {s : Scr} (h : Rel t s) : (envOf t true).Ok :=
  ⟨h.geo.cur.1, h.geo.rows.2, h.geo.cur.2⟩

theorem item_step {k : Con} {t : T} {v : View} {i : Item} (hr : Rel t v.o.s)
    (hk : Ready k v.pen v.saved) (hi : i.Ok v) :
    ∃ x, scan k t (i.bytes.map fun b => (b, true)) = some x ∧ Rel x.t (v.item i).o.s ∧
      Ready x.k (v.item i).pen (v.item i).saved ∧ x.t.fix = t.fix := by
  have fin : ∀ {l : List (Nat × Bool)} {k' : Con} {rp : List Nat},
      scan k t l = ((t.execs (i.acts v)).map fun t1 => ⟨k', t1, i.acts v, rp⟩) →
      Ready k' (v.item i).pen (v.item i).saved →
      ∃ x, scan k t l = some x ∧ Rel x.t (v.item i).o.s ∧
        Ready x.k (v.item i).pen (v.item i).saved ∧ x.t.fix = t.fix := by
    intro l k' rp h1 h2
    obtain ⟨t', e, r, f⟩ := execs_rel_fix hr hi.1
    rw [e] at h1
    exact ⟨_, h1, r, h2, f⟩
  have he := env_ok hr
  have lastOf : ∀ (l : List Nat) (f : Nat) (x : Nat × Env),
      ((l ++ [f]).map fun b => (b, envOf t true)).getLast? = some x → x.2 = envOf t true := by
    intro l f x hx
    rw [List.map_append] at hx
    simp at hx
    rw [← hx]
  have hmap : ∀ l : List Nat, (l.map fun b => (b, envOf t true)).map Prod.fst = l := by
    intro l; simp [List.map_map, Function.comp_def]
  obtain ⟨c10, c8, c9, c13⟩ := control_ready hk (envOf t true)
  cases i with
  | char b =>
    have hb : 32 ≤ b ∧ b ≤ 126 := hi.2
    refine fin (k' := k) (rp := []) ?_ hk
    show scan k t [(b, true)] = _
    rw [scan_one, step_ready hk]
    have : tableText b = some b := if_pos hb
    rw [this, hk.draws.color]
    rfl
  | newline =>
    refine fin (k' := k) (rp := []) ?_ hk
    show scan k t [(10, true)] = _
    rw [scan_one, step_ready hk]
    rw [show tableText 10 = none from rfl]
    dsimp only
    rw [c10]
    rfl
  | back =>
    refine fin (k' := k) (rp := []) ?_ hk
    show scan k t [(8, true)] = _
    rw [scan_one, step_ready hk]
    rw [show tableText 8 = none from rfl]
    dsimp only
    rw [c8]
    rfl
  | tab =>
    refine fin (k' := k) (rp := []) ?_ hk
    show scan k t [(9, true)] = _
    rw [scan_one, step_ready hk]
    rw [show tableText 9 = none from rfl]
    dsimp only
    rw [c9]
    rfl
  | carriage =>
    refine fin (k' := k) (rp := []) ?_ hk
    show scan k t [(13, true)] = _
    rw [scan_one, step_ready hk]
    rw [show tableText 13 = none from rfl]
    dsimp only
    rw [c13]
    rfl
  | fn f ds =>
    obtain ⟨hs, hf⟩ := hi.2
    have hrows : v.o.s.rows = (envOf t true).rows := hr.rows
    rw [hrows] at hf
    have key := control_sequence_understood_partial hk.esc hs f
      (l := (csi ds f.final).map fun b => (b, envOf t true)) he (hmap _) (lastOf _ _) hf
    have := scan_seq hk.esc t (fun b hb => (joined_bytes hs.digits b hb).1) (Nat.le_of_lt hs.length)
      f.final key
    have hacts : f.meaning (envOf t true).r (envOf t true).c (envOf t true).rows (envOf t true).cols
        (k.savedR, k.savedC) (param ds 0) (param ds 1) = Item.acts v (.fn f ds) := by
      unfold Item.acts
      rw [hk.saved, hr.r, hr.c, hr.rows, hr.cols]
      rfl
    rw [hacts] at this
    refine fin this ?_
    refine hk.same rfl (hk.draws.ctx rfl rfl rfl rfl rfl) ?_ rfl rfl rfl rfl rfl rfl rfl
    show f.saves t.r t.c (k.savedR, k.savedC) = f.saves v.o.s.r v.o.s.c v.saved
    rw [hk.saved, hr.r, hr.c]
  | colour ds =>
    obtain ⟨hs, hx⟩ := hi.2
    obtain ⟨k', key, hd, hrest⟩ := colours_partial hk.draws hk.esc hs
      (l := (csi ds 109).map fun b => (b, envOf t true)) (hmap _) hx
    have := scan_seq hk.esc t (fun b hb => (joined_bytes hs.digits b hb).1) (Nat.le_of_lt hs.length)
      109 key
    refine fin this ?_
    refine hk.same (congrArg Con.st hrest :) hd ?_ (congrArg Con.shifted hrest :)
      (congrArg Con.g0 hrest :) (congrArg Con.g1 hrest :) (congrArg Con.vErase hrest :)
      (congrArg Con.vWerase hrest :) (congrArg Con.vKill hrest :) (congrArg Con.onlcr hrest :)
    show (k'.savedR, k'.savedC) = v.saved
    rw [← hk.saved]
    exact (congrArg (fun x : Con => (x.savedR, x.savedC)) hrest :)
  | priv ds f =>
    obtain ⟨hs, hlen, hf1, hf2⟩ := hi.2
    obtain ⟨e, hlast, key⟩ := private_sequence hk.esc hs hlen ⟨hf1, hf2⟩
      (l := (csiPrivate ds f).map fun b => (b, envOf t true)) (hmap _)
    have hee : e = envOf t true := lastOf _ _ _ hlast
    rw [hee] at key
    have := scan_seq hk.esc t (pb := 63 :: joined ds) (by
      intro b hb
      rcases List.mem_cons.mp hb with rfl | hb
      · decide
      · exact (joined_bytes hs.digits b hb).1) (by simp; omega) f key
    refine fin this ?_
    exact hk.same rfl (hk.draws.ctx rfl rfl rfl rfl rfl) hk.saved rfl rfl rfl rfl rfl rfl rfl
  | other ds f =>
    obtain ⟨hs, hf1, hf2, hn⟩ := hi.2
    have key := unknown_sequence_ignored hk.esc hs ⟨hf1, hf2⟩ hn
      (l := (csi ds f).map fun b => (b, envOf t true)) (hmap _)
    have := scan_seq hk.esc t (fun b hb => (joined_bytes hs.digits b hb).1) (Nat.le_of_lt hs.length)
      f key
    refine fin this ?_
    exact hk.same rfl (hk.draws.ctx rfl rfl rfl rfl rfl) hk.saved rfl rfl rfl rfl rfl rfl rfl

theorem item_back (v : View) (i : Item) : (v.item i).o.back = 0 ∧ (v.item i).o.paused = v.o.paused :=
  ⟨rfl, rfl⟩

theorem items_back : ∀ (l : List Item) (v : View), v.o.back = 0 →
    (v.items l).o.back = 0 ∧ (v.items l).o.paused = v.o.paused
  | [], _, h => ⟨h, rfl⟩
  | i :: l, v, _ => items_back l (v.item i) rfl

theorem items_step : ∀ {l : List Item} {k : Con} {t : T} {v : View}, Rel t v.o.s →
    Ready k v.pen v.saved → v.OkItems l →
    ∃ x, scan k t ((l.map Item.bytes).flatten.map fun b => (b, true)) = some x ∧
      Rel x.t (v.items l).o.s ∧ Ready x.k (v.items l).pen (v.items l).saved ∧ x.t.fix = t.fix
  | [], k, t, v, hr, hk, _ => ⟨_, rfl, hr, hk, rfl⟩
  | i :: l, k, t, v, hr, hk, ho => by
    obtain ⟨x, h1, h2, h3, h4⟩ := item_step hr hk ho.1
    obtain ⟨y, g1, g2, g3, g4⟩ := items_step (l := l) h2 h3 ho.2
    refine ⟨⟨y.k, y.t, x.acts ++ y.acts, x.reply ++ y.reply⟩, ?_, g2, g3, g4.trans h4⟩
    · rw [List.map_cons, List.flatten_cons, List.map_append, scan_append, h1]
      dsimp only [Option.bind_some]
      rw [g1]
      rfl

theorem does_step {k : Con} {t : T} {v : View} (hv : Vis t v.o) (hk : Ready k v.pen v.saved) {d : Do}
    (ho : v.OkDo d) : ∃ x, does k t d = some x ∧ Vis x.2 (v.does t.extra d).o ∧
      Ready x.1 (v.does t.extra d).pen (v.does t.extra d).saved ∧ x.2.extra = t.extra := by
  cases d with
  | user x =>
    obtain ⟨t', h1, h2, h3⟩ := op_vis hv ho.2
    refine ⟨(k, t'), ?_, h2, hk, h3⟩
    show (t.op x).map _ = _
    rw [h1]
    rfl
  | write l =>
    have e := setScroll_eq t t.maxScroll 0 (Nat.zero_le _) (by split <;> omega)
    have h0 := hv.scrollTo 0 (Nat.zero_le _) (Nat.zero_le _)
    rw [← e] at h0
    have hx := setScroll_extra t t.maxScroll
    have hc : ({ k with color := k.cur } : Con) = k :=
      congrArg (fun c => ({ k with color := c } : Con)) (hk.draws.cur.trans hk.draws.color.symm)
    show ∃ x, ((write k t _).map _) = some x ∧ _
    unfold write
    rw [hc]
    generalize t.setScroll t.maxScroll = u at *
    have hs : u.scroll = u.maxScroll := h0.scroll
    have r0 : Rel u v.o.s := by
      have := h0.rel
      rw [at_bottom hs] at this
      exact this.rel h0.mirror
    obtain ⟨x, h1, r1, k1, f1⟩ := items_step (l := l) (v := { v with o := { v.o with back := 0 } })
      r0 hk ho
    rw [h1]
    have hb := items_back l { v with o := { v.o with back := 0 } } rfl
    have hp1 : x.t.paused = u.paused := (congrArg (fun x => x.2.2.2.1) f1 :)
    have hl1 : x.t.lost = u.lost := (congrArg (fun x => x.2.2.2.2.1) f1 :)
    have he1 : x.t.extra = u.extra := (congrArg (fun x => x.2.2.1) f1 :)
    have v1 : Vis x.t (v.does t.extra (.write l)).o := by
      have := r1.vis (p := v.o.paused) (by rw [hp1]; exact h0.paused) (by rw [hl1]; exact h0.lost)
      have eo : (v.does t.extra (.write l)).o =
          ⟨(View.items { v with o := { v.o with back := 0 } } l).o.s, 0, v.o.paused⟩ := by
        show (View.items { v with o := { v.o with back := 0 } } l).o = _
        generalize View.items { v with o := { v.o with back := 0 } } l = w at *
        obtain ⟨⟨s, b, p⟩, _, _⟩ := w
        dsimp only at hb
        obtain ⟨rfl, rfl⟩ := hb
        rfl
      rw [eo]
      exact this
    refine ⟨_, rfl, ?_⟩
    show Vis (if x.t.cursorOn = true then x.t.peek else x.t) _ ∧ Ready x.k _ _ ∧
      (if x.t.cursorOn = true then x.t.peek else x.t).extra = _
    by_cases hcur : x.t.cursorOn = true
    · rw [if_pos hcur]; exact ⟨v1.peek, k1, by rw [peek_extra, he1, hx]⟩
    · rw [if_neg hcur]; exact ⟨v1, k1, by rw [he1, hx]⟩

theorem runs_step : ∀ {l : List Do} {k : Con} {t : T} {v : View}, Vis t v.o →
    Ready k v.pen v.saved → v.OkAll t.extra l →
    ∃ x, runs k t l = some x ∧ Vis x.2 (v.all t.extra l).o ∧
      Ready x.1 (v.all t.extra l).pen (v.all t.extra l).saved
  | [], k, t, v, hv, hk, _ => ⟨_, rfl, hv, hk⟩
  | d :: l, k, t, v, hv, hk, ho => by
    obtain ⟨x, h1, h2, h3, h4⟩ := does_step hv hk ho.1
    obtain ⟨y, g1, g2, g3⟩ := runs_step (l := l) h2 h3 (by rw [h4]; exact ho.2)
    rw [h4] at g2 g3
    refine ⟨y, ?_, g2, g3⟩
    show (does k t d).bind _ = _
    rw [h1]
    exact g1

theorem new_ready : Ready new Pen.start (0, 0) :=
  ⟨rfl, new_draws, rfl, rfl, ⟨rfl, rfl, rfl⟩, rfl⟩

theorem act_size (s : Scr) (a : Act) : (s.act a).rows = s.rows ∧ (s.act a).cols = s.cols := by
  have lf : ∀ s : Scr, s.lineFeed.rows = s.rows ∧ s.lineFeed.cols = s.cols := by
    intro s; unfold Scr.lineFeed
    split
    · exact ⟨rfl, rfl⟩
    · split <;> exact ⟨rfl, rfl⟩
  cases a with
  | putc ch color =>
    show (s.putc ch color).rows = _ ∧ (s.putc ch color).cols = _
    unfold Scr.putc
    split
    · exact lf s
    · split
      · exact ⟨rfl, rfl⟩
      · split
        · exact ⟨rfl, rfl⟩
        · split
          · exact lf { s with c := 0 }
          · exact ⟨rfl, rfl⟩
  | useAlt v ok => dsimp only [Scr.act]; split; exact ⟨rfl, rfl⟩; split <;> exact ⟨rfl, rfl⟩
  | insLines n => dsimp only [Scr.act]; split <;> exact ⟨rfl, rfl⟩
  | delLines n => dsimp only [Scr.act]; split <;> exact ⟨rfl, rfl⟩
  | setRegion a b => dsimp only [Scr.act]; split; split <;> exact ⟨rfl, rfl⟩; exact ⟨rfl, rfl⟩
  | _ => exact ⟨rfl, rfl⟩

theorem acts_size : ∀ (l : List Act) (s : Scr), (s.acts l).rows = s.rows ∧ (s.acts l).cols = s.cols
  | [], _ => ⟨rfl, rfl⟩
  | a :: l, s => ⟨(acts_size l (s.act a)).1.trans (act_size s a).1,
      (acts_size l (s.act a)).2.trans (act_size s a).2⟩

theorem items_size : ∀ (l : List Item) (v : View),
    (v.items l).o.s.rows = v.o.s.rows ∧ (v.items l).o.s.cols = v.o.s.cols
  | [], _ => ⟨rfl, rfl⟩
  | i :: l, v =>
    have h1 := items_size l (v.item i)
    have h2 := acts_size (i.acts v) v.o.s
    ⟨h1.1.trans h2.1, h1.2.trans h2.2⟩

theorem all_size (extra : Nat) : ∀ (l : List Do) (v : View),
    (v.all extra l).o.s.rows = v.o.s.rows ∧ (v.all extra l).o.s.cols = v.o.s.cols
  | [], _ => ⟨rfl, rfl⟩
  | d :: l, v => by
    have h1 := all_size extra l (v.does extra d)
    have h2 : (v.does extra d).o.s.rows = v.o.s.rows ∧ (v.does extra d).o.s.cols = v.o.s.cols := by
      cases d with
      | write l => exact items_size l { v with o := { v.o with back := 0 } }
      | user x =>
        cases x with
        | write l => exact acts_size l v.o.s
        | _ => exact ⟨rfl, rfl⟩
    exact ⟨h1.1.trans h2.1, h1.2.trans h2.2⟩

/-- C111, C112, C113, C114, from the bytes to the display: whatever a program writes to a new console
— text, newlines, tabs, control sequences with any parameters, known or not, divided into any
writes — and however the user looks at the history meanwhile, the cursor is where the specification
says, and the display shows the part of the specification's text the user looks at.  Partial: see
`Item.Ok` (and `Vterm.Ok`) for what is excluded. -/
theorem console_shows_text_partial {rows cols : Nat} (hr : 0 < rows ∧ rows < 32768)
    (hc : 1 < cols ∧ cols < 32768) (extra : Nat) (m : Nat → Nat → Nat) (junk : Nat)
    (hw paused : Bool) {l : List Do} (hok : (View.start rows cols paused).OkAll extra l) :
    ∃ k' t', runs new (init rows cols extra m junk hw paused) l = some (k', t') ∧
      let v := (View.start rows cols paused).all extra l
      t'.r = v.o.s.r ∧ t'.c = v.o.s.c ∧ k'.color = v.pen.attr ∧
      (v.o.paused = false → ∀ i < rows, ∀ j < cols, t'.disp i j = v.o.shown i j) := by
  have v0 := init_vis hr hc extra m junk hw paused
  obtain ⟨⟨k', t'⟩, h1, h2, h3⟩ := runs_step (v := View.start rows cols paused) v0 new_ready hok
  refine ⟨k', t', h1, ?_⟩
  have hs := all_size extra l (View.start rows cols paused)
  have hrow : t'.rows = rows := h2.rel.rows.symm.trans hs.1
  have hcol : t'.cols = cols := h2.rel.cols.symm.trans hs.2
  exact ⟨h2.rel.r.symm, h2.rel.c.symm, h3.draws.color,
    fun hp i hi j hj => h2.shown hp i (by show i < t'.rows; omega) j (by show j < t'.cols; omega)⟩

/-- A program which clears the screen, writes a bright red `A` at line 2, column 5, and goes to the
next line; then the user looks up. -/
def program : List Do :=
  [.write [.fn .ed [[50]], .fn .cup [[50], [53]], .colour [[49], [51, 49]], .char 65, .newline],
   .user (.scrollUp 3)]

theorem program_ok : (View.start 25 80 false).OkAll 100 program := by
  have s0 : Short [[50]] := ⟨by unfold Numerals; decide, by decide, by decide, by decide⟩
  have s1 : Short [[50], [53]] := ⟨by unfold Numerals; decide, by decide, by decide, by decide⟩
  have s2 : Short [[49], [51, 49]] := ⟨by unfold Numerals; decide, by decide, by decide, by decide⟩
  refine ⟨⟨⟨⟨?_, trivial⟩, s0, ?_⟩, ⟨⟨trivial, trivial⟩, s1, trivial⟩, ⟨trivial, s2, by decide⟩,
    ⟨⟨?_, trivial⟩, by decide, by decide⟩, ⟨⟨?_, ?_, trivial⟩, trivial⟩, trivial⟩, ⟨?_, ?_⟩, trivial⟩
  · show 2 ≠ 1 ∧ (2 = 3 → _); exact ⟨by decide, fun h => absurd h (by decide)⟩
  · show 2 < 4096; decide
  · intro h; exact absurd h (by decide)
  · intro h; exact absurd h (by decide)
  · intro h; exact absurd h (by decide)
  · intro l h; cases h
  · trivial

example : ((View.start 25 80 false).all 100 program).o.s.cell 1 4 = 65 + 256 * 12 ∧
    ((View.start 25 80 false).all 100 program).o.s.r = 2 := by
  decide +kernel

end Verif.Console
