import Verif.Itoa
/-!
# Formatted output into a buffer (kernel/snprintk.c)

Properties C118 and C119.

Characters are byte codes.  The format is the list of its bytes before the NUL.  The variable
arguments are the 32-bit words on the stack (i386); `strs` gives the string at an address.  Strings
are shorter than 2^31.  The bytes stored in the destination are the list `out`, first byte first: a
store beyond a buffer of `size` bytes makes it longer than `size`.
-/
namespace Verif.Snprintk
open Itoa

/-- kernel/snprintk.c:43-49 `enum printk_width`. -/
inductive Width
  | longLong | long | dflt | short | char
  deriving DecidableEq, Repr

/-- kernel/snprintk.c:51-58 `width_val`, with `sizeof(long) == 4`. -/
def Width.bits : Width → Nat
  | .longLong => 0
  | .long => 32
  | .dflt => 32
  | .short => 16
  | .char => 8

/-- kernel/snprintk.c:60-78 `struct snprintk_ctx` (without `buf_end` and `intbuf`). -/
structure Ctx where
  fmt : List Nat
  args : List Nat
  out : List Nat
  width : Width := .dflt
  lpad : Int := 0
  rpad : Int := 0
  prec : Int := -1
  zero : Bool := false
  hash : Bool := false
  deriving DecidableEq, Repr

/-- kernel/snprintk.c:80-89 `snprintk_ctx_reset_state`. -/
def Ctx.reset (c : Ctx) : Ctx := { fmt := c.fmt, args := c.args, out := c.out }

/-- kernel/snprintk.c:34-41 `write_in_buf_char`: the store comes before the test. -/
def chr (size : Nat) (ch : Nat) (o : List Nat) : List Nat × Bool :=
  (o ++ [ch], decide (o.length + 1 < size))

/-- `if (!a) goto out_of_dest_buffer; b` -/
def andThen (r : List Nat × Bool) (f : List Nat → List Nat × Bool) : List Nat × Bool :=
  if r.2 = true then f r.1 else r

/-- kernel/snprintk.c:18-28, the loops of `write_in_buf_str`. -/
def strLoop (size : Nat) : List Nat → List Nat → List Nat × Bool
  | [], o => (o, decide (o.length < size))
  | c :: s, o => if o.length < size then strLoop size s (o ++ [c]) else (o, decide (o.length < size))

/-- kernel/snprintk.c:11-32 `write_in_buf_str`. -/
def bufStr (size : Nat) (s : List Nat) (len : Int) (o : List Nat) : List Nat × Bool :=
  if 0 ≤ len then strLoop size (s.take len.toNat) o else strLoop size s o

/-- kernel/snprintk.c:156-157 and 167-168: `n` times the same character. -/
def rep (size : Nat) (ch : Nat) : Nat → List Nat → List Nat × Bool
  | 0, o => (o, true)
  | n + 1, o => andThen (chr size ch o) (rep size ch n)

/-- kernel/snprintk.c:97-112 `write_0x_prefix`. -/
def prefix0x (size : Nat) (x : Nat) (o : List Nat) : List Nat × Bool :=
  if x = 120 ∨ x = 112 ∨ x = 111 then
    andThen (chr size 48 o) fun o => if x = 120 ∨ x = 112 then chr size 120 o else (o, true)
  else (o, true)

/-- kernel/snprintk.c:134-139: room for the prefix. -/
def hashOff (x : Nat) : Nat := if x = 120 then 2 else if x = 111 then 1 else 0

/-- kernel/snprintk.c:118, 126-130, 141: the padding on the left. -/
def Ctx.padL (c : Ctx) (x sl : Nat) : Nat :=
  (if 0 ≤ c.prec ∧ x ≠ 115 then (c.prec - sl).toNat else (c.lpad - sl).toNat) -
    (if c.hash = true then hashOff x else 0)

/-- kernel/snprintk.c:119, 142: the padding on the right. -/
def Ctx.padR (c : Ctx) (x sl : Nat) : Nat :=
  (c.rpad - sl).toNat - (if c.hash = true then hashOff x else 0)

/-- kernel/snprintk.c:120, 128: padding with zeros. -/
def Ctx.zeroPad (c : Ctx) (x : Nat) : Bool := c.zero || (decide (0 ≤ c.prec) && decide (x ≠ 115))

/-- kernel/snprintk.c:121, 147-148. -/
def Ctx.padChar (c : Ctx) (x : Nat) : Nat := if c.zeroPad x = true ∧ x ≠ 99 then 48 else 32

/-- kernel/snprintk.c:114-174 `write_str`: the destination afterwards, and whether there is still
room. -/
def Ctx.writeStr (c : Ctx) (size : Nat) (x : Nat) (s : List Nat) : List Nat × Bool :=
  andThen (andThen (andThen (andThen
    (if c.zeroPad x = true ∧ c.hash = true then prefix0x size x c.out else (c.out, true))
    (rep size (c.padChar x) (c.padL x s.length)))
    (fun o => if (x = 112 ∨ c.hash = true) ∧ c.padChar x ≠ 48 then prefix0x size x o else (o, true)))
    (bufStr size s c.prec))
    (rep size (c.padChar x) (c.padR x s.length))

/-- `toupper` (string_util.h:70-72). -/
def upper (c : Nat) : Nat := if 97 ≤ c ∧ c ≤ 122 then c - 32 else c

/-- kernel/snprintk.c:176-184 `diuox_base`. -/
def base (x : Nat) : Nat := if x = 111 then 8 else if x = 120 ∨ x = 88 then 16 else 10

/-- The next argument of one word. -/
def Ctx.word (c : Ctx) : Nat := c.args.headD 0

/-- The next argument of two words. -/
def Ctx.word2 (c : Ctx) : Nat := c.args.headD 0 + 2 ^ 32 * c.args.tail.headD 0

/-- kernel/snprintk.c:221-234: the digits of a number (`sign_extend`, bithacks.h:74-79;
`make_bitmask`, utils.h:67-72). -/
def Ctx.digits (c : Ctx) (x : Nat) : List Nat :=
  (if x = 100 ∨ x = 105 then
    (if c.width = .longLong then itoaS 64 10 (wrapS 64 c.word2) else itoaS 32 10 (wrapS c.width.bits c.word))
  else
    (if c.width = .longLong then itoaU 64 (base x) c.word2
     else itoaU 32 (base x) (c.word % 2 ^ c.width.bits))).getD []

/-- The arguments after one conversion. -/
def Ctx.rest (c : Ctx) : List Nat := if c.width = .longLong then c.args.drop 2 else c.args.drop 1

/-- kernel/snprintk.c:212-245 `write_number_param`. -/
def Ctx.number (c : Ctx) (size : Nat) (x : Nat) : Ctx × Bool :=
  let r := if x = 88 then c.writeStr size 120 ((c.digits x).map upper) else c.writeStr size x (c.digits x)
  ({ c with out := r.1, args := c.rest }, r.2)

/-- kernel/snprintk.c:186-192 `write_char_param`. -/
def Ctx.character (c : Ctx) (size : Nat) : Ctx × Bool :=
  let r := c.writeStr size 99 (if c.word % 256 = 0 then [] else [c.word % 256])
  ({ c with out := r.1, args := c.args.drop 1 }, r.2)

/-- "(null)" -/
def nullText : List Nat := [40, 110, 117, 108, 108, 41]

/-- kernel/snprintk.c:194-203 `write_string_param`. -/
def Ctx.string (c : Ctx) (size : Nat) (strs : Nat → List Nat) : Ctx × Bool :=
  let r := c.writeStr size 115 (if c.word = 0 then nullText else strs c.word)
  ({ c with out := r.1, args := c.args.drop 1 }, r.2)

/-- kernel/snprintk.c:205-210 `write_pointer_param`. -/
def Ctx.pointer (c : Ctx) (size : Nat) : Ctx × Bool :=
  let r := c.writeStr size 112 (uitoaFixed 32 c.word)
  ({ c with out := r.1, args := c.args.drop 1 }, r.2)

/-- kernel/snprintk.c:427-449: an unknown sequence is written as it was.  The result of `write_str`
(line 445) is not looked at. -/
def Ctx.unknown (c : Ctx) (size : Nat) : Ctx × Bool :=
  let r := andThen (andThen (chr size 37 c.out)
    (fun o => if c.hash = true then chr size 35 o else (o, true)))
    (fun o => if c.zero = true then chr size 48 o else (o, true))
  if r.2 = true then
    let lpad := if c.rpad ≠ 0 then wrapS 32 (-c.rpad) else c.lpad
    let o := if lpad ≠ 0 then
        (Ctx.writeStr { c with out := r.1, zero := false, lpad := 0, rpad := 0 } size 100
          ((itoaS 32 10 lpad).getD [])).1
      else r.1
    let r := chr size (c.fmt.headD 0) o
    if r.2 = true then (Ctx.reset { c with out := r.1 }, true) else ({ c with out := r.1 }, false)
  else ({ c with out := r.1 }, false)

/-- The end of a conversion (lines 305-308, 313-316, 455-457). -/
def finish (r : Ctx × Bool) : Ctx × Bool := if r.2 = true then (r.1.reset, true) else r

/-- kernel/snprintk.c:300-317: a conversion character. -/
def Ctx.convert (c : Ctx) (size : Nat) (strs : Nat → List Nat) (x : Nat) : Option (Ctx × Bool) :=
  if x = 100 ∨ x = 105 ∨ x = 111 ∨ x = 117 ∨ x = 120 ∨ x = 88 then some (c.number size x)
  else if x = 99 then some (c.character size)
  else if x = 115 then some (c.string size strs)
  else if x = 112 then some (c.pointer size)
  else none

/-- kernel/snprintk.c:388-420: length modifiers (`none`: not allowed here). -/
def nextWidth (w : Width) (x : Nat) : Option Width :=
  if x = 122 ∨ x = 116 then (if w = .dflt then some .long else none)
  else if x = 106 ∨ x = 113 ∨ x = 76 then (if w = .dflt then some .longLong else none)
  else if x = 108 then
    (match w with | .dflt => some .long | .long => some .longLong | _ => none)
  else
    (match w with | .dflt => some .short | .short => some .char | _ => none)

/-- What to do after a character of a sequence that is not a conversion. -/
inductive Next
  | go (c : Ctx)
  | unknown (c : Ctx)

/-- kernel/snprintk.c:319-425, the `switch`, for the character `x` with `r` after it.  `first`: the
character before is the `%` (line 379). -/
def Ctx.next (c : Ctx) (first : Bool) (x : Nat) (r : List Nat) : Next :=
  if x = 48 then .go { c with zero := true, fmt := r }
  else if 49 ≤ x ∧ x ≤ 57 then
    .go { c with lpad := (strtol 32 10 c.fmt).val, fmt := c.fmt.drop (strtol 32 10 c.fmt).endOff }
  else if x = 42 then
    if wrapS 32 c.word < 0 then
      .go { c with rpad := wrapS 32 (-wrapS 32 c.word), lpad := 0, args := c.args.drop 1, fmt := r }
    else .go { c with lpad := wrapS 32 c.word, args := c.args.drop 1, fmt := r }
  else if x = 45 then
    if r.head? = some 42 then
      .go { c with
        rpad := if wrapS 32 c.word < 0 then wrapS 32 (-wrapS 32 c.word) else wrapS 32 c.word
        args := c.args.drop 1
        fmt := r.tail }
    else .go { c with rpad := (strtol 32 10 r).val, fmt := r.drop (strtol 32 10 r).endOff }
  else if x = 46 then
    if r.head? = some 42 then
      .go { c with prec := max 0 (wrapS 32 c.word), args := c.args.drop 1, fmt := r.tail }
    else .go { c with prec := (strtol 32 10 r).val, fmt := r.drop (strtol 32 10 r).endOff }
  else if x = 35 then
    if c.hash = true then (if r = [] then .unknown { c with fmt := r } else .go { c with fmt := r })
    else if first = false then .unknown c
    else if r = [] then .unknown c
    else .go { c with hash := true, fmt := r }
  else if x = 122 ∨ x = 116 ∨ x = 106 ∨ x = 113 ∨ x = 76 ∨ x = 108 ∨ x = 104 then
    match nextWidth c.width x with
    | some w => .go { c with width := w, fmt := r }
    | none => .unknown c
  else .unknown c

/-- kernel/snprintk.c:295-462, `process_seq` from `process_next_char_in_seq` on: the context, and
whether to go on.  `none`: not finished after so many steps. -/
def Ctx.seq (size : Nat) (strs : Nat → List Nat) : Nat → Bool → Ctx → Option (Ctx × Bool)
  | 0, _, _ => none
  | n + 1, first, c =>
    match c.fmt with
    | [] => some (c, false)
    | x :: r =>
      match c.convert size strs x with
      | some res => some (finish res)
      | none =>
        match c.next first x r with
        | .go c => Ctx.seq size strs n false c
        | .unknown c => some (c.unknown size)

/-- kernel/snprintk.c:279-290: the beginning of `process_seq`. -/
def Ctx.processSeq (c : Ctx) (size : Nat) (strs : Nat → List Nat) (fuel : Nat) : Option (Ctx × Bool) :=
  match c.fmt with
  | x :: _ =>
    if x = 37 ∨ 128 ≤ x then
      some ({ c with out := (chr size x c.out).1 }, (chr size x c.out).2)
    else Ctx.seq size strs fuel true c
  | [] => Ctx.seq size strs fuel true c

/-- How `vsnprintk` ends. -/
inductive Res
  | ok (out : List Nat)   -- what was stored, before the final NUL
  | overread              -- the format was read after its end
  deriving DecidableEq, Repr

/-- kernel/snprintk.c:477-493: the loop of `vsnprintk`. -/
def Ctx.loop (size : Nat) (strs : Nat → List Nat) : Nat → Ctx → Option Res
  | 0, _ => none
  | n + 1, c =>
    match c.fmt with
    | [] => some (.ok c.out)
    | x :: r =>
      if x ≠ 37 then
        let res := chr size x c.out
        if res.2 = true then Ctx.loop size strs n { c with out := res.1, fmt := r } else some (.ok res.1)
      else
        match Ctx.processSeq { c with fmt := r } size strs n with
        | none => none
        | some (c, false) => some (.ok c.out)
        | some (c, true) =>
          match c.fmt with
          | [] => some .overread
          | _ :: r => Ctx.loop size strs n { c with fmt := r }

/-- What a call does: the bytes stored from the start of the buffer on, whether one was stored before
the buffer, and the result. -/
inductive Call
  | done (mem : List Nat) (before : Bool) (ret : Nat)
  | overread
  deriving DecidableEq, Repr

/-- kernel/snprintk.c:497-498: the NUL at the end. -/
def terminate (size : Nat) (o : List Nat) : Call :=
  if o.length < size then .done (o ++ [0]) false o.length
  else if o = [] then .done [] true 0
  else .done (o.take (o.length - 1) ++ [0]) false o.length

/-- kernel/snprintk.c:464-499 `vsnprintk` (and 501-511 `snprintk`); `none`: not finished after `n`
steps. -/
def snprintk (n : Nat) (size : Nat) (strs : Nat → List Nat) (fmt args : List Nat) : Option Call :=
  match Ctx.loop size strs n { fmt := fmt, args := args, out := [] } with
  | none => none
  | some .overread => some .overread
  | some (.ok o) => some (terminate size o)

/-! ## Specification: `snprintf` of ISO C -/

/-- Length modifiers (`q` and `L` for integers are extensions). -/
inductive Len
  | none | hh | h | l | ll | z | t | j | q | L
  deriving DecidableEq, Repr

def Len.text : Len → List Nat
  | .none => [] | .hh => [104, 104] | .h => [104] | .l => [108] | .ll => [108, 108] | .z => [122]
  | .t => [116] | .j => [106] | .q => [113] | .L => [76]

/-- Width in bits of the argument's type on i386. -/
def Len.bits : Len → Nat
  | .hh => 8 | .h => 16 | .ll => 64 | .j => 64 | .q => 64 | .L => 64 | _ => 32

/-- Integer conversions. -/
inductive Conv
  | d | i | u | o | x | X
  deriving DecidableEq, Repr

def Conv.char : Conv → Nat
  | .d => 100 | .i => 105 | .u => 117 | .o => 111 | .x => 120 | .X => 88

def Conv.signed : Conv → Bool
  | .d => true | .i => true | _ => false

def Conv.radix : Conv → Nat
  | .o => 8 | .x => 16 | .X => 16 | _ => 10

/-- A field width or precision: absent, written in the format (as a text of digits), or taken from
the arguments (`*`). -/
inductive Num
  | none
  | lit (digits : List Nat)
  | star (v : Int)
  deriving DecidableEq, Repr

def Num.text : Num → List Nat
  | .none => [] | .lit s => s | .star _ => [42]

/-- Two's complement, 32 bits. -/
def word32 (v : Int) : Nat := (v % 2 ^ 32).toNat

def Num.args : Num → List Nat
  | .star v => [word32 v] | _ => []

def Num.val : Num → Int
  | .none => 0 | .lit s => ((numVal 10 s).getD 0 : Nat) | .star v => v

/-- A part of a format, with its argument. -/
inductive Piece
  | lit (c : Nat)
  | percent
  | num (hash zero minus : Bool) (width : Num) (prec : Num) (len : Len) (conv : Conv) (bits : Nat)
  | str (minus : Bool) (width : Num) (prec : Num) (addr : Nat)
  | chr (minus : Bool) (width : Num) (c : Nat)
  | ptr (v : Nat)
  deriving DecidableEq, Repr

def precText : Num → List Nat
  | .none => [] | p => 46 :: p.text

def flag (b : Bool) (c : Nat) : List Nat := if b = true then [c] else []

/-- The text of the format. -/
def Piece.fmt : Piece → List Nat
  | .lit c => [c]
  | .percent => [37, 37]
  | .num hash zero minus w p len conv _ =>
    37 :: (flag hash 35 ++ (flag zero 48 ++ (flag minus 45 ++ (w.text ++ (precText p ++ (len.text ++ [conv.char]))))))
  | .str minus w p _ => 37 :: (flag minus 45 ++ (w.text ++ (precText p ++ [115])))
  | .chr minus w _ => 37 :: (flag minus 45 ++ (w.text ++ [99]))
  | .ptr _ => [37, 112]

/-- The arguments passed for it. -/
def Piece.args : Piece → List Nat
  | .lit _ => []
  | .percent => []
  | .num _ _ _ w p len _ bits =>
    w.args ++ (p.args ++ (if len.bits = 64 then [bits % 2 ^ 32, bits / 2 ^ 32] else [bits]))
  | .str _ w p addr => w.args ++ (p.args ++ [addr])
  | .chr _ w c => w.args ++ [c]
  | .ptr v => [v]

/-- One digit. -/
def digit (d : Nat) : Nat := if d < 10 then 48 + d else 87 + d

def upDigit (d : Nat) : Nat := if d < 10 then 48 + d else 55 + d

/-- The digits of a number, without leading zeros. -/
def digitsOf (up : Bool) (b : Nat) (n : Nat) : List Nat :=
  if h : n < b ∨ b < 2 then [if up then upDigit n else digit n]
  else digitsOf up b (n / b) ++ [if up then upDigit (n % b) else digit (n % b)]
termination_by n
decreasing_by exact Nat.div_lt_self (by omega) (by omega)

def spaces (n : Nat) : List Nat := List.replicate n 32
def zeros (n : Nat) : List Nat := List.replicate n 48

/-- A field of at least `w` characters. -/
def field (minus : Bool) (w : Nat) (s : List Nat) : List Nat :=
  if minus then s ++ spaces (w - s.length) else spaces (w - s.length) ++ s

/-- The value of an argument of a signed or unsigned type of `bits` bits. -/
def valueOf (signed : Bool) (bits v : Nat) : Int :=
  if signed ∧ 2 ^ (bits - 1) ≤ v % 2 ^ bits then (v % 2 ^ bits : Nat) - 2 ^ bits else (v % 2 ^ bits : Nat)

/-- The digits of an integer conversion: at least as many as the precision; 0 with precision 0 has
none. -/
def shownDigits (prec : Option Nat) (conv : Conv) (v : Int) : List Nat :=
  if v = 0 ∧ prec = some 0 then []
  else
    zeros (prec.getD 0 - (digitsOf (conv = .X) conv.radix v.natAbs).length) ++
      digitsOf (conv = .X) conv.radix v.natAbs

/-- The prefix `#` asks for. -/
def altPrefix (hash : Bool) (conv : Conv) (v : Int) (ds : List Nat) : List Nat :=
  if hash = true then
    (match conv with
     | .o => if ds.head? = some 48 then [] else [48]
     | .x => if v = 0 then [] else [48, 120]
     | .X => if v = 0 then [] else [48, 88]
     | _ => [])
  else []

/-- ISO C 7.21.6.1: the text of an integer conversion. -/
def numText (hash zero minus : Bool) (w : Int) (prec : Option Nat) (conv : Conv) (v : Int) : List Nat :=
  let left := minus || decide (w < 0)
  let ds := shownDigits prec conv v
  let sign := if v < 0 then [45] else []
  let pre := altPrefix hash conv v ds
  if zero = true ∧ left = false ∧ prec = none then
    sign ++ (pre ++ (zeros (w.natAbs - (sign.length + (pre.length + ds.length))) ++ ds))
  else field left w.natAbs (sign ++ (pre ++ ds))

/-- The precision: a negative one counts as none. -/
def precOf : Num → Option Nat
  | .none => none
  | .lit s => some ((numVal 10 s).getD 0)
  | .star v => if v < 0 then none else some v.toNat

/-- The text of a string conversion. -/
def strText (minus : Bool) (w : Int) (prec : Option Nat) (s : List Nat) : List Nat :=
  field (minus || decide (w < 0)) w.natAbs
    (match prec with | none => s | some p => s.take p)

/-- What the format and its arguments ask for. -/
def Piece.text (strs : Nat → List Nat) : Piece → List Nat
  | .lit c => [c]
  | .percent => [37]
  | .num hash zero minus w p len conv bits =>
    numText hash zero minus w.val (precOf p) conv (valueOf conv.signed len.bits bits)
  | .str minus w p addr =>
    strText minus w.val (precOf p) (if addr = 0 then "(null)".toList.map Char.toNat else strs addr)
  | .chr minus w c => strText minus w.val none [c % 256]
  | .ptr v => [48, 120] ++ (zeros (8 - (digitsOf false 16 v).length) ++ digitsOf false 16 v)

/-- What a call of `snprintf` leaves in a buffer of `size` bytes: the text, cut if need be, and a
NUL. -/
def cut (size : Nat) (t : List Nat) : List Nat := t.take (size - 1) ++ [0]

/-- Written in the format: digits, the first one not 0 (that would be a flag), below 2^31. -/
def WidthOk : Num → Prop
  | .none => True
  | .lit s => (∃ c, s.head? = some c ∧ 49 ≤ c ∧ c ≤ 57) ∧ ∃ v, numVal 10 s = some v ∧ v < 2 ^ 31
  | .star v => -2 ^ 31 < v ∧ v < 2 ^ 31

def PrecOk : Num → Prop
  | .none => True
  | .lit s => ∃ v, numVal 10 s = some v ∧ v < 2 ^ 31
  | .star v => 0 ≤ v ∧ v < 2 ^ 31

/-- The conversions `snprintk` gets right: `#` only for `x` and `o` and values other than 0; zeros
only on the left, and for values that are not negative; a precision of a number only without width,
sign and `#`, and when it is at least the number of digits; a precision which cuts a string only
without width; no NUL character; no width for pointers. -/
def Piece.Ok (strs : Nat → List Nat) : Piece → Prop
  | .lit c => c ≠ 37 ∧ c ≠ 0
  | .percent => True
  | .num hash zero minus w p len conv bits =>
    WidthOk w ∧ PrecOk p ∧ bits < 2 ^ (max 32 len.bits) ∧
    (hash = true → (conv = .x ∨ conv = .o) ∧ valueOf conv.signed len.bits bits ≠ 0) ∧
    (zero = true → minus = false ∧ 0 ≤ w.val ∧ 0 ≤ valueOf conv.signed len.bits bits) ∧
    (p ≠ .none → w = .none ∧ minus = false ∧ hash = false ∧ 0 ≤ valueOf conv.signed len.bits bits ∧
      (digitsOf false conv.radix (valueOf conv.signed len.bits bits).natAbs).length ≤ (precOf p).getD 0)
  | .str _ w p addr => WidthOk w ∧ PrecOk p ∧ addr < 2 ^ 32 ∧
    (p ≠ .none → w = .none ∨
      (if addr = 0 then "(null)".toList.map Char.toNat else strs addr).length ≤ (precOf p).getD 0)
  | .chr _ w c => WidthOk w ∧ c < 2 ^ 32 ∧ c % 256 ≠ 0
  | .ptr v => v < 2 ^ 32

def fmtOf (l : List Piece) : List Nat := l.flatMap Piece.fmt
def argsOf (l : List Piece) : List Nat := l.flatMap Piece.args
def textOf (strs : Nat → List Nat) (l : List Piece) : List Nat := l.flatMap (Piece.text strs)

/-! ## Writing to the destination -/

/-- `f` appends the text `t`, as far as there is room. -/
def Emits (size : Nat) (f : List Nat → List Nat × Bool) (t : List Nat) : Prop :=
  ∀ o, o.length < size → f o = ((o ++ t).take size, decide ((o ++ t).length < size))

theorem emits_nil (size : Nat) : Emits size (fun o => (o, true)) [] := by
  intro o h
  rw [List.append_nil, List.take_of_length_le (by omega)]
  exact Prod.ext rfl (by simp [h])

theorem emits_chr (size ch : Nat) : Emits size (chr size ch) [ch] := by
  intro o h
  unfold chr
  rw [List.take_of_length_le (by simp; omega)]
  simp

theorem emits_then {size : Nat} {f g : List Nat → List Nat × Bool} {t u : List Nat}
    (hf : Emits size f t) (hg : Emits size g u) : Emits size (fun o => andThen (f o) g) (t ++ u) := by
  intro o h
  show andThen (f o) g = _
  rw [hf o h]
  unfold andThen
  by_cases hl : (o ++ t).length < size
  · rw [if_pos (by simpa using hl)]
    show g ((o ++ t).take size) = _
    rw [List.take_of_length_le (by omega), hg _ hl, List.append_assoc]
  · rw [if_neg (by simpa using hl)]
    have : ¬ (o ++ (t ++ u)).length < size := by
      simp only [List.length_append] at hl ⊢; omega
    rw [← List.append_assoc, List.take_append_of_le_length (l₁ := o ++ t) (by omega)]
    refine Prod.ext rfl ?_
    simp only [decide_eq_decide]
    rw [← List.append_assoc] at this
    exact ⟨fun x => absurd x hl, fun x => absurd x this⟩

theorem emits_rep (size ch : Nat) : ∀ n, Emits size (rep size ch n) (List.replicate n ch)
  | 0 => emits_nil size
  | n + 1 => emits_then (emits_chr size ch) (emits_rep size ch n)

theorem emits_strLoop (size : Nat) : ∀ s, Emits size (strLoop size s) s
  | [] => by
    intro o h
    show (o, decide (o.length < size)) = _
    rw [List.append_nil, List.take_of_length_le (by omega)]
  | c :: s => by
    intro o h
    show (if o.length < size then strLoop size s (o ++ [c]) else _) = _
    rw [if_pos h]
    by_cases h2 : (o ++ [c]).length < size
    · rw [emits_strLoop size s _ h2, List.append_assoc]
      rfl
    · have hl : (o ++ [c]).length = size := by simp at h2 ⊢; omega
      have hs : strLoop size s (o ++ [c]) = (o ++ [c], false) := by
        cases s with
        | nil =>
          show (o ++ [c], decide _) = _
          rw [decide_eq_false h2]
        | cons d s =>
          show (if (o ++ [c]).length < size then _ else (o ++ [c], decide ((o ++ [c]).length < size))) = _
          rw [if_neg h2, decide_eq_false h2]
      rw [hs]
      have : o ++ c :: s = (o ++ [c]) ++ s := by simp
      rw [this, List.take_append_of_le_length (by omega), List.take_of_length_le (by omega)]
      refine Prod.ext rfl ?_
      symm
      rw [decide_eq_false]
      simp only [List.length_append, List.length_cons, List.length_nil] at hl ⊢
      omega

/-- The prefix written for `x`. -/
def preText (x : Nat) : List Nat := if x = 120 ∨ x = 112 then [48, 120] else if x = 111 then [48] else []

theorem emits_prefix (size x : Nat) : Emits size (prefix0x size x) (preText x) := by
  unfold preText
  by_cases h1 : x = 120 ∨ x = 112
  · rw [if_pos h1]
    have := emits_then (emits_chr size 48) (emits_chr size 120)
    intro o h
    rw [show [48, 120] = [48] ++ [120] from rfl, ← this o h]
    unfold prefix0x
    rw [if_pos (by omega)]
    congr 1
    funext o
    exact if_pos h1
  · rw [if_neg h1]
    by_cases h2 : x = 111
    · rw [if_pos h2]
      have := emits_then (emits_chr size 48) (emits_nil size)
      intro o h
      rw [show [48] = [48] ++ [] from rfl, ← this o h]
      unfold prefix0x
      rw [if_pos (by omega)]
      congr 1
      funext o
      exact if_neg h1
    · rw [if_neg h2]
      intro o h
      rw [← emits_nil size o h]
      unfold prefix0x
      rw [if_neg (by omega)]

theorem emits_bufStr (size : Nat) (s : List Nat) (len : Int) :
    Emits size (bufStr size s len) (if 0 ≤ len then s.take len.toNat else s) := by
  by_cases h : 0 ≤ len
  · intro o ho
    unfold bufStr
    rw [if_pos h, if_pos h]
    exact emits_strLoop size _ o ho
  · intro o ho
    unfold bufStr
    rw [if_neg h, if_neg h]
    exact emits_strLoop size _ o ho

theorem emits_if {size : Nat} (p : Prop) [Decidable p] {f : List Nat → List Nat × Bool} {t : List Nat}
    (h : Emits size f t) : Emits size (fun o => if p then f o else (o, true)) (if p then t else []) := by
  by_cases hp : p
  · intro o ho
    show (if p then f o else (o, true)) = _
    rw [if_pos hp, if_pos hp]
    exact h o ho
  · intro o ho
    show (if p then f o else (o, true)) = _
    rw [if_neg hp, if_neg hp]
    exact emits_nil size o ho

/-- The text `write_str` writes. -/
def Ctx.field (c : Ctx) (x : Nat) (s : List Nat) : List Nat :=
  ((((if c.zeroPad x = true ∧ c.hash = true then preText x else []) ++
    List.replicate (c.padL x s.length) (c.padChar x)) ++
    (if (x = 112 ∨ c.hash = true) ∧ c.padChar x ≠ 48 then preText x else [])) ++
    (if 0 ≤ c.prec then s.take c.prec.toNat else s)) ++
    List.replicate (c.padR x s.length) (c.padChar x)

theorem writeStr_eq (c : Ctx) {size : Nat} (x : Nat) (s : List Nat) (h : c.out.length < size) :
    c.writeStr size x s =
      ((c.out ++ c.field x s).take size, decide ((c.out ++ c.field x s).length < size)) :=
  emits_then (emits_then (emits_then (emits_then
    (emits_if (c.zeroPad x = true ∧ c.hash = true) (emits_prefix size x))
    (emits_rep size (c.padChar x) (c.padL x s.length)))
    (emits_if ((x = 112 ∨ c.hash = true) ∧ c.padChar x ≠ 48) (emits_prefix size x)))
    (emits_bufStr size s c.prec))
    (emits_rep size (c.padChar x) (c.padR x s.length)) c.out h

/-! ## Digits -/

theorem digit_eq (d : Nat) : digitChar d = digit d := rfl

theorem digitsOf_base {up : Bool} {b n : Nat} (h : n < b) :
    digitsOf up b n = [if up then upDigit n else digit n] := by
  rw [digitsOf, dif_pos (Or.inl h)]

theorem digitsOf_step {up : Bool} {b n : Nat} (hb : 2 ≤ b) (h : b ≤ n) :
    digitsOf up b n = digitsOf up b (n / b) ++ [if up then upDigit (n % b) else digit (n % b)] := by
  rw [digitsOf, dif_neg (by omega)]

theorem emit_digits {b : Nat} (hb : 2 ≤ b) : ∀ (f v : Nat), v ≠ 0 → v < 2 ^ f →
    (emit f b v).reverse = digitsOf false b v
  | 0, v, h0, h => by
    rw [Nat.pow_zero] at h; omega
  | f + 1, v, h0, h => by
    show (if v = 0 then [] else digitChar (v % b) :: emit f b (v / b)).reverse = _
    rw [if_neg h0, List.reverse_cons]
    by_cases hv : v < b
    · rw [digitsOf_base hv, Nat.div_eq_of_lt hv, Nat.mod_eq_of_lt hv]
      cases f with
      | zero => rfl
      | succ f => rfl
    · have h1 : v / b ≠ 0 := by
        have := Nat.div_pos (show b ≤ v by omega) (by omega)
        omega
      have h2 : v / b < 2 ^ f := by
        rw [Nat.pow_succ] at h
        have h3 : v / b ≤ v / 2 := Nat.div_le_div_left hb (by omega)
        omega
      rw [emit_digits hb f (v / b) h1 h2, digitsOf_step (n := v) hb (by omega)]
      rfl

theorem itoaU_digits {w b v : Nat} (hb : 2 ≤ b) (hv : v < 2 ^ w) :
    itoaU w b v = some (digitsOf false b v) := by
  unfold itoaU
  by_cases h0 : v = 0
  · subst h0
    rw [if_pos rfl, digitsOf_base (by omega)]
    rfl
  · rw [if_neg h0, Str.str_reverse_correct, emit_digits hb w v h0 hv]

theorem itoaS_digits {w b : Nat} {v : Int} (hw : 1 ≤ w) (hb : 2 ≤ b) (h1 : -2 ^ (w - 1) ≤ v)
    (h2 : v < 2 ^ (w - 1)) :
    itoaS w b v = some ((if v < 0 then [45] else []) ++ digitsOf false b v.natAbs) := by
  have hp : (2 : Int) ^ w = 2 * 2 ^ (w - 1) := by
    obtain ⟨k, rfl⟩ : ∃ k, w = k + 1 := ⟨w - 1, by omega⟩
    simp [Int.pow_succ]; omega
  have hpos : (0 : Int) < 2 ^ (w - 1) := Int.pow_pos (by omega)
  have hpn : (2 : Int) ^ w = ((2 ^ w : Nat) : Int) := by simp
  unfold itoaS
  by_cases h0 : v = 0
  · subst h0
    rw [if_pos rfl, if_neg (by omega), show (0 : Int).natAbs = 0 from rfl, digitsOf_base (by omega)]
    rfl
  · rw [if_neg h0]
    dsimp only
    have hval : (if 0 ≤ v then v.toNat else ((wrapS w (-v)) % 2 ^ w).toNat) = v.natAbs := by
      by_cases hs : 0 ≤ v
      · rw [if_pos hs]; omega
      · rw [if_neg hs]
        have : (wrapS w (-v)) % 2 ^ w = -v := by
          unfold wrapS
          by_cases hm : v = -2 ^ (w - 1)
          · rw [hm, Int.neg_neg]
            have : ((2 : Int) ^ (w - 1) + 2 ^ (w - 1)) % 2 ^ w = 0 := by
              rw [hp]
              have : (2 : Int) ^ (w - 1) + 2 ^ (w - 1) = 2 * 2 ^ (w - 1) := by omega
              rw [this, Int.emod_self]
            rw [this, hp]
            have e : (0 : Int) - 2 ^ (w - 1) = 2 ^ (w - 1) - 2 * 2 ^ (w - 1) := by omega
            rw [e, Int.sub_emod_right]
            exact Int.emod_eq_of_lt (by omega) (by omega)
          · have e1 : (-v + 2 ^ (w - 1)) % 2 ^ w = -v + 2 ^ (w - 1) :=
              Int.emod_eq_of_lt (by omega) (by omega)
            rw [e1]
            have e : -v + 2 ^ (w - 1) - 2 ^ (w - 1) = -v := by omega
            rw [e]
            exact Int.emod_eq_of_lt (by omega) (by omega)
        rw [this]; omega
    rw [hval, Str.str_reverse_correct, List.reverse_append]
    rw [emit_digits hb w v.natAbs (by omega) (by omega)]
    by_cases hs : v < 0
    · rw [if_pos hs]; rfl
    · rw [if_neg hs]; rfl

theorem upper_digits {b : Nat} (hb : 2 ≤ b) (hb' : b ≤ 16) (n : Nat) :
    (digitsOf false b n).map upper = digitsOf true b n := by
  have one : ∀ d, d < 16 → upper (digit d) = upDigit d := by
    intro d hd
    unfold upper digit upDigit
    by_cases h : d < 10
    · rw [if_pos h, if_pos h, if_neg (by omega)]
    · rw [if_neg h, if_neg h, if_pos (by omega)]; omega
  induction n using Nat.strongRecOn with
  | _ n ih =>
    by_cases h : n < b
    · rw [digitsOf_base h, digitsOf_base h]
      show [upper (digit n)] = [upDigit n]
      rw [one n (by omega)]
    · rw [digitsOf_step (n := n) (up := false) hb (by omega),
        digitsOf_step (n := n) (up := true) hb (by omega), List.map_append,
        ih (n / b) (Nat.div_lt_self (by omega) (by omega))]
      show _ ++ [upper (digit (n % b))] = _ ++ [upDigit (n % b)]
      rw [one _ (by have := Nat.mod_lt n (show 0 < b by omega); omega)]

theorem wrapS_value {bits v : Nat} (hb : 1 ≤ bits) : wrapS bits (v : Int) = valueOf true bits v := by
  have hp : (2 : Int) ^ bits = 2 * 2 ^ (bits - 1) := by
    obtain ⟨k, rfl⟩ : ∃ k, bits = k + 1 := ⟨bits - 1, by omega⟩
    simp [Int.pow_succ]; omega
  have hpos : (0 : Int) < 2 ^ (bits - 1) := Int.pow_pos (by omega)
  have hpn : (2 : Int) ^ bits = ((2 ^ bits : Nat) : Int) := by simp
  have hpn1 : (2 : Int) ^ (bits - 1) = ((2 ^ (bits - 1) : Nat) : Int) := by simp
  have hm : ((v % 2 ^ bits : Nat) : Int) = (v : Int) % 2 ^ bits := by
    rw [hpn]; exact Int.natCast_emod v (2 ^ bits)
  have hlt : (v : Int) % 2 ^ bits < 2 ^ bits := Int.emod_lt_of_pos _ (by omega)
  have hge : 0 ≤ (v : Int) % 2 ^ bits := Int.emod_nonneg _ (by omega)
  unfold valueOf wrapS
  have hadd : ((v : Int) + 2 ^ (bits - 1)) % 2 ^ bits =
      ((v : Int) % 2 ^ bits + 2 ^ (bits - 1)) % 2 ^ bits := by rw [Int.emod_add_emod]
  rw [hadd]
  by_cases h : 2 ^ (bits - 1) ≤ v % 2 ^ bits
  · rw [if_pos ⟨rfl, h⟩, hm]
    have h' : (2 : Int) ^ (bits - 1) ≤ (v : Int) % 2 ^ bits := by rw [← hm, hpn1]; exact_mod_cast h
    have e : (v : Int) % 2 ^ bits + 2 ^ (bits - 1) =
        ((v : Int) % 2 ^ bits - 2 ^ (bits - 1)) + 2 ^ bits := by omega
    rw [e, Int.add_emod_right, Int.emod_eq_of_lt (by omega) (by omega)]
    omega
  · rw [if_neg (fun x => h x.2), hm]
    have h' : (v : Int) % 2 ^ bits < (2 : Int) ^ (bits - 1) := by
      rw [← hm, hpn1]; exact_mod_cast Nat.lt_of_not_le h
    rw [Int.emod_eq_of_lt (by omega) (by omega)]
    omega

/-! ## One sequence -/

/-- The sequence is processed, with this result. -/
def Runs (size : Nat) (strs : Nat → List Nat) (first : Bool) (c : Ctx) (res : Ctx × Bool) : Prop :=
  ∃ N, ∀ n, N ≤ n → Ctx.seq size strs n first c = some res

theorem runs_go {size : Nat} {strs : Nat → List Nat} {first : Bool} {c c' : Ctx} {x : Nat}
    {r : List Nat} {res : Ctx × Bool} (hf : c.fmt = x :: r) (hc : c.convert size strs x = none)
    (hn : c.next first x r = .go c') (h : Runs size strs false c' res) : Runs size strs first c res := by
  obtain ⟨N, hN⟩ := h
  refine ⟨N + 1, fun n hn' => ?_⟩
  obtain ⟨m, rfl⟩ : ∃ m, n = m + 1 := ⟨n - 1, by omega⟩
  simp only [Ctx.seq, hf, hc, hn]
  exact hN m (by omega)

theorem runs_conv {size : Nat} {strs : Nat → List Nat} {first : Bool} {c : Ctx} {x : Nat}
    {r : List Nat} {res : Ctx × Bool} (hf : c.fmt = x :: r) (hc : c.convert size strs x = some res) :
    Runs size strs first c (finish res) := by
  refine ⟨1, fun n hn' => ?_⟩
  obtain ⟨m, rfl⟩ : ∃ m, n = m + 1 := ⟨n - 1, by omega⟩
  simp only [Ctx.seq, hf, hc]

variable {size : Nat} {strs : Nat → List Nat} {res : Ctx × Bool}

/-- A number in the format, maybe empty, and what comes after it. -/
theorem strtol_text {s r : List Nat} {v : Nat} (hs : numVal 10 s = some v) (hv : v < 2 ^ 31)
    (hr : Stops 10 r) (hm : r.head? ≠ some 45) :
    (strtol 32 10 (s ++ r)).val = v ∧ (s ++ r).drop (strtol 32 10 (s ++ r)).endOff = r := by
  cases s with
  | nil =>
    have hv0 : v = 0 := by simp [numVal] at hs; omega
    subst hv0
    have : strtol 32 10 r = ⟨0, some .einval, 0⟩ := by
      cases r with
      | nil => rfl
      | cons c r =>
        have hc : c ≠ 45 := fun h => hm (by rw [h]; rfl)
        unfold strtol
        split
        · rename_i t h; cases h; exact absurd rfl hc
        · simp only [Stops] at hr
          simp [loopS, hr]
    rw [List.nil_append, this]
    exact ⟨rfl, rfl⟩
  | cons c s =>
    rw [strtol_exact_nonneg 32 10 (by omega) (by omega) (c :: s) r v (by simp) hs hv hr]
    refine ⟨rfl, ?_⟩
    simp

/-- The character ends a number of a format. -/
def Ends (r : List Nat) : Prop := Stops 10 r ∧ r.head? ≠ some 45 ∧ r.head? ≠ some 42 ∧ r ≠ []

theorem digit_char {c : Nat} {s : List Nat} {v : Nat} (h : numVal 10 (c :: s) = some v) :
    48 ≤ c ∧ c ≤ 57 := by
  cases hd : digitOf 10 c with
  | none => simp [numVal, hd] at h
  | some d =>
    unfold digitOf digitToVal at hd
    by_cases h1 : 48 ≤ c ∧ c ≤ 57
    · exact h1
    · rw [if_neg h1] at hd
      by_cases h2 : 65 ≤ c ∧ c ≤ 70
      · rw [if_pos h2] at hd
        dsimp only at hd
        rw [if_neg (by omega)] at hd
        cases hd
      · rw [if_neg h2] at hd
        by_cases h3 : 97 ≤ c ∧ c ≤ 102
        · rw [if_pos h3] at hd
          dsimp only at hd
          rw [if_neg (by omega)] at hd
          cases hd
        · rw [if_neg h3] at hd
          cases hd

theorem wrap_word {v : Int} (h1 : -2 ^ 31 ≤ v) (h2 : v < 2 ^ 31) : wrapS 32 (word32 v : Int) = v := by
  unfold wrapS word32
  have h3 : ((v % 2 ^ 32).toNat : Int) = v % 2 ^ 32 := Int.toNat_of_nonneg (Int.emod_nonneg _ (by omega))
  rw [h3]
  omega

theorem wrap_neg {v : Int} (h1 : -2 ^ 31 < v) (h2 : v < 2 ^ 31) : wrapS 32 (-v) = -v := by
  unfold wrapS
  omega

/-- The flags `#` and `0`. -/
theorem runs_hash {c : Ctx} {r : List Nat} (b : Bool) (hf : c.fmt = flag b 35 ++ r) (hr : r ≠ [])
    (hh : c.hash = false) (h : ∀ first, Runs size strs first { c with hash := b, fmt := r } res) :
    Runs size strs true c res := by
  cases b with
  | false =>
    have : c = { c with hash := false, fmt := r } := by
      cases c
      simp only [flag, List.nil_append, Bool.false_eq_true, if_false] at hf hh
      subst hf hh
      rfl
    rw [this]
    exact h true
  | true =>
    refine runs_go (x := 35) (r := r) hf rfl ?_ (h false)
    unfold Ctx.next
    rw [if_neg (by decide), if_neg (by decide), if_neg (by decide), if_neg (by decide),
      if_neg (by decide), if_pos rfl, if_neg (by rw [hh]; decide), if_neg (by decide), if_neg hr]

theorem runs_zero {c : Ctx} {r : List Nat} (first : Bool) (b : Bool) (hf : c.fmt = flag b 48 ++ r)
    (hz : c.zero = false) (h : ∀ first, Runs size strs first { c with zero := b, fmt := r } res) :
    Runs size strs first c res := by
  cases b with
  | false =>
    have : c = { c with zero := false, fmt := r } := by
      cases c
      simp only [flag, List.nil_append, Bool.false_eq_true, if_false] at hf hz
      subst hf hz
      rfl
    rw [this]
    exact h first
  | true =>
    refine runs_go (x := 48) (r := r) hf rfl ?_ (h false)
    unfold Ctx.next
    rw [if_pos rfl]

/-- The padding a width stands for: left and right. -/
def padOf (minus : Bool) (v : Int) : Int × Int :=
  if minus then (0, v.natAbs) else if v < 0 then (0, v.natAbs) else (v, 0)

/-- The flag `-` and the width. -/
theorem runs_width {c : Ctx} {r : List Nat} (first minus : Bool) {w : Num} (hw : WidthOk w)
    (hf : c.fmt = flag minus 45 ++ (w.text ++ r)) (hr : Ends r) (hl : c.lpad = 0) (hrp : c.rpad = 0)
    {a : List Nat} (ha : c.args = w.args ++ a)
    (h : ∀ first, Runs size strs first
      { c with lpad := (padOf minus w.val).1, rpad := (padOf minus w.val).2, args := a, fmt := r } res) :
    Runs size strs first c res := by
  obtain ⟨h1, h2, h3, h4⟩ := hr
  cases minus with
  | false =>
    simp only [flag, List.nil_append, Bool.false_eq_true, if_false] at hf
    cases w with
    | none =>
      have : c = { c with lpad := 0, rpad := 0, args := a, fmt := r } := by
        cases c
        simp only [Num.text, Num.args, List.nil_append] at hf ha hl hrp
        subst hf ha hl hrp
        rfl
      rw [this]
      exact h first
    | lit s =>
      obtain ⟨⟨d, hd, hd1, hd2⟩, v, hv, hv2⟩ := hw
      cases s with
      | nil => cases hd
      | cons e s =>
        cases hd
        obtain ⟨t1, t2⟩ := strtol_text hv hv2 h1 h2
        have hval : (Num.lit (d :: s)).val = (v : Int) := by
          show ((numVal 10 (d :: s)).getD 0 : Nat) = (v : Int)
          rw [hv]; rfl
        have hf' : c.fmt = d :: (s ++ r) := hf
        refine runs_go (x := d) (r := s ++ r) hf' ?_ ?_ (h false)
        · unfold Ctx.convert
          rw [if_neg (by omega), if_neg (by omega), if_neg (by omega), if_neg (by omega)]
        · unfold Ctx.next
          rw [if_neg (by omega), if_pos (by omega), hf']
          have e1 : (d :: (s ++ r)) = (d :: s) ++ r := rfl
          rw [e1, t1, t2]
          have e2 : padOf false (Num.lit (d :: s)).val = ((v : Int), 0) := by
            rw [hval]; unfold padOf
            rw [if_neg (by decide), if_neg (by omega)]
          rw [e2]
          congr 1
          cases c
          simp only [Num.args, List.nil_append] at ha hrp
          subst ha hrp
          rfl
    | star v =>
      obtain ⟨hv1, hv2⟩ := hw
      have hword : wrapS 32 (c.word : Int) = v := by
        unfold Ctx.word
        rw [ha]
        exact wrap_word (by omega) hv2
      have hdrop : c.args.drop 1 = a := by rw [ha]; rfl
      refine runs_go (x := 42) (r := r) hf rfl ?_ (h false)
      unfold Ctx.next
      rw [if_neg (by decide), if_neg (by decide), if_pos rfl, hword, hdrop]
      by_cases hneg : v < 0
      · have e2 : padOf false (Num.star v).val = (0, (v.natAbs : Int)) := by
          unfold padOf
          rw [if_neg (by decide)]
          exact if_pos hneg
        have : -v = (v.natAbs : Int) := by omega
        rw [if_pos hneg, wrap_neg hv1 hv2, e2, this]
      · have e2 : padOf false (Num.star v).val = (v, 0) := by
          unfold padOf
          rw [if_neg (by decide)]
          exact if_neg hneg
        rw [if_neg hneg, e2]
        cases c
        subst hrp
        rfl
  | true =>
    have e2 : padOf true w.val = (0, (w.val.natAbs : Int)) := rfl
    rw [e2] at h
    cases w with
    | none =>
      have hf' : c.fmt = 45 :: r := hf
      refine runs_go (x := 45) (r := r) hf' rfl ?_ (h false)
      unfold Ctx.next
      rw [if_neg (by decide), if_neg (by decide), if_neg (by decide), if_pos rfl, if_neg h3]
      obtain ⟨t1, t2⟩ := strtol_text (s := []) (v := 0) rfl (by omega) h1 h2
      rw [List.nil_append] at t1 t2
      rw [t1, t2]
      congr 1
      cases c
      simp only [Num.args, List.nil_append] at ha hl
      subst ha hl
      rfl
    | lit s =>
      obtain ⟨⟨d, hd, hd1, hd2⟩, v, hv, hv2⟩ := hw
      have hval : (Num.lit s).val = (v : Int) := by
        show ((numVal 10 s).getD 0 : Nat) = (v : Int)
        rw [hv]; rfl
      have hf' : c.fmt = 45 :: (s ++ r) := hf
      refine runs_go (x := 45) (r := s ++ r) hf' rfl ?_ (h false)
      unfold Ctx.next
      have h42 : (s ++ r).head? ≠ some 42 := by
        cases s with
        | nil => cases hd
        | cons e s => cases hd; intro h; cases h; omega
      rw [if_neg (by decide), if_neg (by decide), if_neg (by decide), if_pos rfl, if_neg h42]
      obtain ⟨t1, t2⟩ := strtol_text hv hv2 h1 h2
      rw [t1, t2, hval]
      congr 1
      cases c
      simp only [Num.args, List.nil_append] at ha hl
      subst ha hl
      rfl
    | star v =>
      obtain ⟨hv1, hv2⟩ := hw
      have hword : wrapS 32 (c.word : Int) = v := by
        unfold Ctx.word
        rw [ha]
        exact wrap_word (by omega) hv2
      have hdrop : c.args.drop 1 = a := by rw [ha]; rfl
      have hf' : c.fmt = 45 :: (42 :: r) := hf
      refine runs_go (x := 45) (r := 42 :: r) hf' rfl ?_ (h false)
      unfold Ctx.next
      rw [if_neg (by decide), if_neg (by decide), if_neg (by decide), if_pos rfl,
        if_pos (show (42 :: r).head? = some 42 from rfl), hword, hdrop, wrap_neg hv1 hv2]
      have : (if v < 0 then -v else v) = ((Num.star v).val.natAbs : Int) := by
        show _ = (v.natAbs : Int)
        by_cases hn : v < 0
        · rw [if_pos hn]; omega
        · rw [if_neg hn]; omega
      rw [this]
      cases c
      subst hl
      rfl

/-- The precision a context keeps. -/
def precVal : Num → Int
  | .none => -1
  | p => p.val

theorem runs_prec {c : Ctx} {r : List Nat} (first : Bool) {p : Num} (hp : PrecOk p)
    (hf : c.fmt = precText p ++ r) (hr : Ends r) (hcp : c.prec = -1) {a : List Nat}
    (ha : c.args = p.args ++ a)
    (h : ∀ first, Runs size strs first { c with prec := precVal p, args := a, fmt := r } res) :
    Runs size strs first c res := by
  obtain ⟨h1, h2, h3, h4⟩ := hr
  cases p with
  | none =>
    have : c = { c with prec := -1, args := a, fmt := r } := by
      cases c
      simp only [precText, Num.args, List.nil_append] at hf ha hcp
      subst hf ha hcp
      rfl
    rw [this]
    exact h first
  | lit s =>
    obtain ⟨v, hv, hv2⟩ := hp
    have hval : precVal (Num.lit s) = (v : Int) := by
      show ((numVal 10 s).getD 0 : Nat) = (v : Int)
      rw [hv]; rfl
    have hf' : c.fmt = 46 :: (s ++ r) := hf
    refine runs_go (x := 46) (r := s ++ r) hf' rfl ?_ (h false)
    have h42 : (s ++ r).head? ≠ some 42 := by
      cases s with
      | nil => exact h3
      | cons e s => intro h; cases h; exact absurd (digit_char hv).1 (by decide)
    unfold Ctx.next
    rw [if_neg (by decide), if_neg (by decide), if_neg (by decide), if_neg (by decide), if_pos rfl,
      if_neg h42]
    obtain ⟨t1, t2⟩ := strtol_text hv hv2 h1 h2
    rw [t1, t2, hval]
    congr 1
    cases c
    simp only [Num.args, List.nil_append] at ha
    subst ha
    rfl
  | star v =>
    obtain ⟨hv1, hv2⟩ := hp
    have hword : wrapS 32 (c.word : Int) = v := by
      unfold Ctx.word
      rw [ha]
      exact wrap_word (by omega) hv2
    have hdrop : c.args.drop 1 = a := by rw [ha]; rfl
    have hf' : c.fmt = 46 :: (42 :: r) := hf
    refine runs_go (x := 46) (r := 42 :: r) hf' rfl ?_ (h false)
    unfold Ctx.next
    rw [if_neg (by decide), if_neg (by decide), if_neg (by decide), if_neg (by decide), if_pos rfl,
      if_pos (show (42 :: r).head? = some 42 from rfl), hword, hdrop]
    have : max 0 v = precVal (Num.star v) := by
      show max 0 v = v
      omega
    rw [this]
    rfl

/-- The width of the code for a length modifier. -/
def widthOf : Len → Width
  | .none => .dflt | .hh => .char | .h => .short | .l => .long | .z => .long | .t => .long | _ => .longLong

theorem runs_len {c : Ctx} {r : List Nat} (first : Bool) (len : Len) (hf : c.fmt = len.text ++ r)
    (hw : c.width = .dflt)
    (h : ∀ first, Runs size strs first { c with width := widthOf len, fmt := r } res) :
    Runs size strs first c res := by
  have one : ∀ (c : Ctx) (first : Bool) (x : Nat) (r : List Nat) (w : Width), c.fmt = x :: r →
      (x = 122 ∨ x = 116 ∨ x = 106 ∨ x = 113 ∨ x = 76 ∨ x = 108 ∨ x = 104) →
      nextWidth c.width x = some w → (∀ first, Runs size strs first { c with width := w, fmt := r } res) →
      Runs size strs first c res := by
    intro c first x r w hf hx hn h
    refine runs_go hf ?_ ?_ (h false)
    · unfold Ctx.convert
      rw [if_neg (by omega), if_neg (by omega), if_neg (by omega), if_neg (by omega)]
    · unfold Ctx.next
      rw [if_neg (by omega), if_neg (by omega), if_neg (by omega), if_neg (by omega),
        if_neg (by omega), if_neg (by omega), if_pos hx, hn]
  cases len with
  | none =>
    have : c = { c with width := .dflt, fmt := r } := by
      cases c
      simp only [Len.text, List.nil_append] at hf hw
      subst hf hw
      rfl
    rw [this]
    exact h first
  | hh =>
    exact one c first 104 (104 :: r) .short hf (by decide) (by rw [hw]; rfl) fun first =>
      one _ first 104 r .char rfl (by decide) rfl h
  | h => exact one c first 104 r .short hf (by decide) (by rw [hw]; rfl) h
  | l => exact one c first 108 r .long hf (by decide) (by rw [hw]; rfl) h
  | ll =>
    exact one c first 108 (108 :: r) .long hf (by decide) (by rw [hw]; rfl) fun first =>
      one _ first 108 r .longLong rfl (by decide) rfl h
  | z => exact one c first 122 r .long hf (by decide) (by rw [hw]; rfl) h
  | t => exact one c first 116 r .long hf (by decide) (by rw [hw]; rfl) h
  | j => exact one c first 106 r .longLong hf (by decide) (by rw [hw]; rfl) h
  | q => exact one c first 113 r .longLong hf (by decide) (by rw [hw]; rfl) h
  | L => exact one c first 76 r .longLong hf (by decide) (by rw [hw]; rfl) h

/-! ## The text of one conversion -/

theorem digitsOf_ne_nil (up : Bool) (b n : Nat) : digitsOf up b n ≠ [] := by
  rw [digitsOf]
  split <;> simp

theorem digitsOf_head {b : Nat} (hb : 2 ≤ b) (n : Nat) (h0 : n ≠ 0) (hb2 : b ≤ 16) :
    (digitsOf false b n).head? ≠ some 48 := by
  induction n using Nat.strongRecOn with
  | _ n ih =>
    by_cases h : n < b
    · rw [digitsOf_base h]
      show some (digit n) ≠ some 48
      intro h2
      have h3 : digit n = 48 := Option.some.inj h2
      unfold digit at h3
      split at h3 <;> omega
    · rw [digitsOf_step hb (by omega)]
      have hlt : n / b < n := Nat.div_lt_self (by omega) (by omega)
      have hpos : n / b ≠ 0 := by
        have := Nat.div_pos (show b ≤ n by omega) (by omega)
        omega
      have := ih (n / b) hlt hpos
      cases hd : digitsOf false b (n / b) with
      | nil => exact absurd hd (digitsOf_ne_nil _ _ _)
      | cons c s => rw [hd] at this; exact this

theorem digits_length {b : Nat} (hb : 2 ≤ b) (hb' : b ≤ 16) (up : Bool) (n : Nat) :
    (digitsOf up b n).length = (digitsOf false b n).length := by
  cases up with
  | false => rfl
  | true => rw [← upper_digits hb hb', List.length_map]

theorem radix_ok (conv : Conv) : 2 ≤ conv.radix ∧ conv.radix ≤ 16 := by
  cases conv <;> decide

theorem valueOf_range (s : Bool) {bits v : Nat} (hb : 1 ≤ bits) :
    -2 ^ (bits - 1) ≤ valueOf s bits v ∧ valueOf s bits v < 2 ^ bits ∧
    (s = true → valueOf s bits v < 2 ^ (bits - 1)) ∧ (s = false → 0 ≤ valueOf s bits v) := by
  have hp : (2 : Int) ^ bits = 2 * 2 ^ (bits - 1) := by
    obtain ⟨k, rfl⟩ : ∃ k, bits = k + 1 := ⟨bits - 1, by omega⟩
    simp [Int.pow_succ]; omega
  have hpos : (0 : Int) < 2 ^ (bits - 1) := Int.pow_pos (by omega)
  have hpn : (2 : Int) ^ bits = ((2 ^ bits : Nat) : Int) := by simp
  have hpn1 : (2 : Int) ^ (bits - 1) = ((2 ^ (bits - 1) : Nat) : Int) := by simp
  have hlt : v % 2 ^ bits < 2 ^ bits := Nat.mod_lt _ (Nat.pow_pos (by omega))
  have hlt' : ((v % 2 ^ bits : Nat) : Int) < 2 ^ bits := by rw [hpn]; exact_mod_cast hlt
  unfold valueOf
  by_cases h : s = true ∧ 2 ^ (bits - 1) ≤ v % 2 ^ bits
  · rw [if_pos h]
    have h' : (2 : Int) ^ (bits - 1) ≤ ((v % 2 ^ bits : Nat) : Int) := by rw [hpn1]; exact_mod_cast h.2
    refine ⟨by omega, by omega, fun _ => by omega, fun x => ?_⟩
    rw [h.1] at x; cases x
  · rw [if_neg h]
    refine ⟨by omega, hlt', fun hs => ?_, fun _ => by omega⟩
    have h2 : v % 2 ^ bits < 2 ^ (bits - 1) := Nat.lt_of_not_le fun x => h ⟨hs, x⟩
    rw [hpn1]; exact_mod_cast h2

/-- The sign of a number. -/
def signText (v : Int) : List Nat := if v < 0 then [45] else []

/-- The digits of the argument, in the code. -/
theorem digits_eq {c : Ctx} {len : Len} {conv : Conv} {bits : Nat} {a : List Nat}
    (hb : bits < 2 ^ (max 32 len.bits)) (hw : c.width = widthOf len)
    (ha : c.args = (if len.bits = 64 then [bits % 2 ^ 32, bits / 2 ^ 32] else [bits]) ++ a) :
    c.digits conv.char = signText (valueOf conv.signed len.bits bits) ++
      digitsOf false conv.radix (valueOf conv.signed len.bits bits).natAbs ∧ c.rest = a := by
  by_cases h64 : len.bits = 64
  · have hll : widthOf len = .longLong := by cases len <;> first | rfl | exact absurd h64 (by decide)
    rw [h64] at hb ⊢
    rw [if_pos h64] at ha
    have hw2 : c.word2 = bits := by
      unfold Ctx.word2
      rw [ha]
      show bits % 2 ^ 32 + 2 ^ 32 * (bits / 2 ^ 32) = bits
      exact Nat.mod_add_div bits (2 ^ 32)
    have hb' : bits < 2 ^ 64 := hb
    refine ⟨?_, by unfold Ctx.rest; rw [hw, hll, if_pos rfl, ha]; rfl⟩
    unfold Ctx.digits
    rw [hw, hll, if_pos rfl, if_pos rfl, hw2]
    by_cases hs : conv.signed = true
    · have hx : conv.char = 100 ∨ conv.char = 105 := by cases conv <;> first | decide | exact absurd hs (by decide)
      have hr : conv.radix = 10 := by cases conv <;> first | rfl | exact absurd hs (by decide)
      rw [if_pos hx, hs, hr, wrapS_value (by omega)]
      obtain ⟨r1, _, r3, _⟩ := valueOf_range true (bits := 64) (v := bits) (by omega)
      rw [itoaS_digits (by omega) (by omega) r1 (r3 rfl)]
      rfl
    · have hx : ¬ (conv.char = 100 ∨ conv.char = 105) := by cases conv <;> first | decide | exact absurd rfl hs
      have hr : base conv.char = conv.radix := by cases conv <;> first | rfl | exact absurd rfl hs
      have hsf : conv.signed = false := by cases h : conv.signed <;> first | rfl | exact absurd h hs
      have hv : valueOf false 64 bits = (bits : Int) := by
        unfold valueOf
        rw [if_neg (by intro h; exact absurd h.1 (by decide)), Nat.mod_eq_of_lt hb']
      rw [if_neg hx, hsf, hr, hv, itoaU_digits (radix_ok conv).1 hb']
      show digitsOf _ _ _ = signText (bits : Int) ++ digitsOf false conv.radix (bits : Int).natAbs
      rw [show signText (bits : Int) = [] from if_neg (by omega)]
      rfl
  · have hb32 : bits < 2 ^ 32 := by
      have : max 32 len.bits = 32 := by cases len <;> first | decide | exact absurd rfl h64
      rw [this] at hb
      exact hb
    have hnl : widthOf len ≠ .longLong := by cases len <;> first | decide | exact absurd rfl h64
    have hbits : (widthOf len).bits = len.bits := by cases len <;> first | rfl | exact absurd rfl h64
    rw [if_neg h64] at ha
    have hw2 : c.word = bits := by unfold Ctx.word; rw [ha]; rfl
    refine ⟨?_, by unfold Ctx.rest; rw [hw, if_neg hnl, ha]; rfl⟩
    have hl1 : 1 ≤ len.bits := by cases len <;> decide
    have hl32 : len.bits ≤ 32 := by cases len <;> first | decide | exact absurd rfl h64
    unfold Ctx.digits
    rw [hw, if_neg hnl, if_neg hnl, hw2, hbits]
    by_cases hs : conv.signed = true
    · have hx : conv.char = 100 ∨ conv.char = 105 := by cases conv <;> first | decide | exact absurd hs (by decide)
      have hr : conv.radix = 10 := by cases conv <;> first | rfl | exact absurd hs (by decide)
      rw [if_pos hx, hs, hr, wrapS_value hl1]
      obtain ⟨r1, _, r3, _⟩ := valueOf_range true (bits := len.bits) (v := bits) hl1
      have hle : (2 : Int) ^ (len.bits - 1) ≤ 2 ^ 31 := by
        cases len <;> first | decide | exact absurd rfl h64
      rw [itoaS_digits (w := 32) (by omega) (by omega) (by omega) (by have := r3 rfl; omega)]
      rfl
    · have hx : ¬ (conv.char = 100 ∨ conv.char = 105) := by cases conv <;> first | decide | exact absurd rfl hs
      have hr : base conv.char = conv.radix := by cases conv <;> first | rfl | exact absurd rfl hs
      have hsf : conv.signed = false := by cases h : conv.signed <;> first | rfl | exact absurd h hs
      have hv : valueOf false len.bits bits = ((bits % 2 ^ len.bits : Nat) : Int) := by
        unfold valueOf
        rw [if_neg (by intro h; exact absurd h.1 (by decide))]
      have hle : bits % 2 ^ len.bits < 2 ^ 32 := by
        have := Nat.mod_le bits (2 ^ len.bits)
        omega
      rw [if_neg hx, hsf, hr, hv, itoaU_digits (radix_ok conv).1 hle]
      show digitsOf _ _ _ = signText ((bits % 2 ^ len.bits : Nat) : Int) ++
        digitsOf false conv.radix ((bits % 2 ^ len.bits : Nat) : Int).natAbs
      rw [show signText ((bits % 2 ^ len.bits : Nat) : Int) = [] from if_neg (by omega)]
      rfl

/-- The character `write_str` gets for a conversion. -/
def fmtX (conv : Conv) : Nat := if conv = .X then 120 else conv.char

theorem fmtX_ne (conv : Conv) : fmtX conv ≠ 115 ∧ fmtX conv ≠ 99 ∧ fmtX conv ≠ 112 := by
  cases conv <;> decide

/-- The field of a number. -/
theorem num_field {c : Ctx} {hash zero minus : Bool} {w p : Num} {conv : Conv} {v : Int}
    (hl : c.lpad = (padOf minus w.val).1) (hr : c.rpad = (padOf minus w.val).2)
    (hp : c.prec = precVal p) (hz : c.zero = zero) (hh : c.hash = hash)
    (hsv : conv.signed = false → 0 ≤ v) (hpo : PrecOk p)
    (k1 : hash = true → (conv = .x ∨ conv = .o) ∧ v ≠ 0)
    (k2 : zero = true → minus = false ∧ 0 ≤ w.val ∧ 0 ≤ v)
    (k3 : p ≠ .none → w = .none ∧ minus = false ∧ hash = false ∧ 0 ≤ v ∧
      (digitsOf false conv.radix v.natAbs).length ≤ (precOf p).getD 0) :
    c.field (fmtX conv) (signText v ++ digitsOf (conv = .X) conv.radix v.natAbs) =
      numText hash zero minus w.val (precOf p) conv v := by
  obtain ⟨x1, x2, x3⟩ := fmtX_ne conv
  obtain ⟨b1, b2⟩ := radix_ok conv
  have hdl := digits_length b1 b2 (decide (conv = .X)) v.natAbs
  generalize hD : digitsOf (decide (conv = .X)) conv.radix v.natAbs = D at hdl
  have hDn : D ≠ [] := by rw [← hD]; exact digitsOf_ne_nil _ _ _
  have hD1 : 1 ≤ D.length := by
    cases D with
    | nil => exact absurd rfl hDn
    | cons _ _ => simp
  by_cases hpn : p = .none
  · subst hpn
    have hprec : c.prec = -1 := hp
    have hzp : c.zeroPad (fmtX conv) = zero := by
      unfold Ctx.zeroPad
      rw [hz, hprec]
      cases zero <;> rfl
    -- the prefix
    have hpre : altPrefix hash conv v D = (if hash = true then preText (fmtX conv) else []) ∧
        (hash = true → signText v = [] ∧ (preText (fmtX conv)).length = hashOff (fmtX conv)) := by
      unfold altPrefix
      by_cases hht : hash = true
      · rw [if_pos hht, if_pos hht]
        obtain ⟨q1, q2⟩ := k1 hht
        rcases q1 with rfl | rfl
        · refine ⟨by dsimp only; rw [if_neg q2]; rfl, fun _ => ⟨if_neg (by have := hsv rfl; omega), rfl⟩⟩
        · have : D.head? ≠ some 48 := by
            rw [← hD]
            exact digitsOf_head (by decide) _ (by omega) (by decide)
          exact ⟨by dsimp only; rw [if_neg this]; rfl, fun _ => ⟨if_neg (by have := hsv rfl; omega), rfl⟩⟩
      · rw [if_neg hht, if_neg hht]
        exact ⟨rfl, fun h => absurd h hht⟩
    have hsd : shownDigits none conv v = D := by
      unfold shownDigits
      rw [if_neg (show ¬ (v = 0 ∧ (none : Option Nat) = some 0) from fun h => by cases h.2), hD]
      simp [zeros]
    have hnt : numText hash zero minus w.val (precOf .none) conv v =
        (if zero = true ∧ (minus || decide (w.val < 0)) = false ∧ (none : Option Nat) = none then
          signText v ++ ((if hash = true then preText (fmtX conv) else []) ++
            (zeros (w.val.natAbs - ((signText v).length +
              ((if hash = true then preText (fmtX conv) else []).length + D.length))) ++ D))
        else field (minus || decide (w.val < 0)) w.val.natAbs
          (signText v ++ ((if hash = true then preText (fmtX conv) else []) ++ D))) := by
      rw [← hpre.1, ← hsd]
      rfl
    rw [hnt]
    have hplen : (if hash = true then preText (fmtX conv) else []).length =
        (if hash = true then hashOff (fmtX conv) else 0) := by
      by_cases hht : hash = true
      · rw [if_pos hht, if_pos hht]; exact (hpre.2 hht).2
      · rw [if_neg hht, if_neg hht]; rfl
    unfold Ctx.field
    rw [hzp, hh, hprec, if_neg (show ¬ (0 : Int) ≤ -1 by decide)]
    generalize hP : (if hash = true then preText (fmtX conv) else []) = P at hplen
    unfold Ctx.padL Ctx.padR
    rw [hprec, if_neg (show ¬ ((0 : Int) ≤ -1 ∧ fmtX conv ≠ 115) from fun h => absurd h.1 (by decide)),
      hl, hr, hh, ← hplen]
    have hsl : (signText v ++ D).length = (signText v).length + D.length := List.length_append
    by_cases hzt : zero = true
    · obtain ⟨m1, m2, m3⟩ := k2 hzt
      have hpad : padOf minus w.val = (w.val, 0) := by
        unfold padOf
        rw [m1, if_neg (by decide), if_neg (by omega)]
      have hs0 : signText v = [] := if_neg (by omega)
      have hpc : c.padChar (fmtX conv) = 48 := by
        unfold Ctx.padChar
        exact if_pos ⟨by rw [hzp]; exact hzt, x2⟩
      rw [hpc, hpad, hs0, hzt]
      rw [if_pos (show true = true ∧ (minus || decide (w.val < 0)) = false ∧ (none : Option Nat) = none from
        ⟨rfl, by rw [m1, decide_eq_false (by omega)]; rfl, rfl⟩)]
      have e1 : (if true = true ∧ hash = true then preText (fmtX conv) else []) = P := by
        rw [← hP]
        by_cases hht : hash = true
        · rw [if_pos hht, if_pos ⟨rfl, hht⟩]
        · rw [if_neg hht, if_neg (fun h => hht h.2)]
      have e2 : ¬ ((fmtX conv = 112 ∨ hash = true) ∧ 48 ≠ 48) := fun h => h.2 rfl
      rw [e1, if_neg e2]
      simp only [List.nil_append, List.length_nil, Nat.zero_add, List.append_nil, List.append_assoc]
      have e3 : (w.val - (D.length : Int)).toNat - P.length = w.val.natAbs - (P.length + D.length) := by
        omega
      have e4 : ((0 : Int) - (D.length : Int)).toNat - P.length = 0 := by omega
      rw [e3, e4]
      simp [zeros]
    · have hzf : zero = false := by cases zero <;> first | rfl | exact absurd rfl hzt
      have hpc : c.padChar (fmtX conv) = 32 := by
        unfold Ctx.padChar
        exact if_neg (by rw [hzp, hzf]; exact fun h => absurd h.1 (by decide))
      rw [hpc, hzf]
      rw [if_neg (show ¬ (false = true ∧ (minus || decide (w.val < 0)) = false ∧ (none : Option Nat) = none) from
        fun h => absurd h.1 (by decide))]
      rw [if_neg (show ¬ (false = true ∧ hash = true) from fun h => absurd h.1 (by decide))]
      have e1 : (if (fmtX conv = 112 ∨ hash = true) ∧ (32 : Nat) ≠ 48 then preText (fmtX conv) else []) = P := by
        rw [← hP]
        by_cases hht : hash = true
        · rw [if_pos hht, if_pos ⟨.inr hht, by decide⟩]
        · rw [if_neg hht, if_neg (fun h => h.1.elim x3 hht)]
      rw [e1]
      have hPs : P ++ (signText v ++ D) = signText v ++ (P ++ D) := by
        by_cases hht : hash = true
        · rw [(hpre.2 hht).1]; rfl
        · rw [← hP, if_neg hht]; rfl
      unfold field
      by_cases hm : (minus || decide (w.val < 0)) = true
      · rw [if_pos hm]
        have hpad : padOf minus w.val = (0, (w.val.natAbs : Int)) := by
          unfold padOf
          by_cases hm1 : minus = true
          · rw [if_pos hm1]
          · rw [if_neg hm1, if_pos]
            cases minus with
            | true => exact absurd rfl hm1
            | false => simpa using hm
        rw [hpad]
        dsimp only
        have e3 : ((0 : Int) - ((signText v ++ D).length : Int)).toNat - P.length = 0 := by omega
        have e4 : ((w.val.natAbs : Int) - ((signText v ++ D).length : Int)).toNat - P.length =
            w.val.natAbs - (signText v ++ (P ++ D)).length := by
          simp only [List.length_append]; omega
        rw [e3, e4, ← hPs]
        simp [spaces]
      · rw [if_neg hm]
        have hm1 : minus = false := by cases minus <;> first | rfl | exact absurd rfl hm
        have hw0 : ¬ w.val < 0 := by rw [hm1] at hm; simpa using hm
        have hpad : padOf minus w.val = (w.val, 0) := by
          unfold padOf
          rw [hm1, if_neg (by decide), if_neg hw0]
        rw [hpad]
        dsimp only
        have e3 : ((0 : Int) - ((signText v ++ D).length : Int)).toNat - P.length = 0 := by omega
        have e4 : (w.val - ((signText v ++ D).length : Int)).toNat - P.length =
            w.val.natAbs - (signText v ++ (P ++ D)).length := by
          simp only [List.length_append]; omega
        rw [e3, e4, ← hPs]
        simp [spaces]
  · obtain ⟨j1, j2, j3, j4, j5⟩ := k3 hpn
    have hpv : ∃ m : Nat, precOf p = some m ∧ precVal p = (m : Int) := by
      cases p with
      | none => exact absurd rfl hpn
      | lit s => exact ⟨(numVal 10 s).getD 0, rfl, rfl⟩
      | star v =>
        obtain ⟨g1, _⟩ := hpo
        refine ⟨v.toNat, if_neg (by omega), ?_⟩
        show v = (v.toNat : Int)
        omega
    obtain ⟨m, hm1, hm2⟩ := hpv
    rw [hm1] at j5 ⊢
    have j5 : D.length ≤ m := by rw [hdl]; exact j5
    have hprec : c.prec = (m : Int) := by rw [hp, hm2]
    have hs0 : signText v = [] := if_neg (by omega)
    have hzp : c.zeroPad (fmtX conv) = true := by
      unfold Ctx.zeroPad
      rw [hprec, decide_eq_true (show (0 : Int) ≤ (m : Int) by omega), decide_eq_true x1]
      cases c.zero <;> rfl
    have hpc : c.padChar (fmtX conv) = 48 := by
      unfold Ctx.padChar
      exact if_pos ⟨hzp, x2⟩
    have hpad : padOf minus w.val = (0, 0) := by rw [j1, j2]; rfl
    rw [hs0, List.nil_append]
    unfold Ctx.field
    rw [hzp, hh, j3, hpc, if_neg (show ¬ (true = true ∧ false = true) from fun h => absurd h.2 (by decide)),
      if_neg (show ¬ ((fmtX conv = 112 ∨ false = true) ∧ 48 ≠ 48) from fun h => h.2 rfl), hprec,
      if_pos (show (0 : Int) ≤ (m : Int) by omega), show ((m : Int)).toNat = m from rfl,
      List.take_of_length_le j5]
    unfold Ctx.padL Ctx.padR
    rw [hprec, if_pos (show (0 : Int) ≤ (m : Int) ∧ fmtX conv ≠ 115 from ⟨by omega, x1⟩), hr, hpad, hh, j3,
      if_neg (show ¬ (false = true) by decide)]
    have hsd : shownDigits (some m) conv v = zeros (m - D.length) ++ D := by
      unfold shownDigits
      rw [if_neg (show ¬ (v = 0 ∧ some m = some 0) from fun h => by
        have : m = 0 := Option.some.inj h.2
        omega), hD]
      rfl
    unfold numText altPrefix
    rw [hsd]
    dsimp only
    rw [if_neg (show ¬ (v < 0) by omega), if_neg (show ¬ (false = true) by decide),
      if_neg (show ¬ (zero = true ∧ (minus || decide (w.val < 0)) = false ∧ (some m : Option Nat) = none) from
        fun h => by cases h.2.2)]
    have hw0 : w.val = 0 := by rw [j1]; rfl
    rw [hw0, j2]
    unfold field
    rw [if_neg (show ¬ ((false || decide ((0 : Int) < 0)) = true) by decide)]
    have e1 : ((m : Int) - (D.length : Int)).toNat - 0 = m - D.length := by omega
    have e2 : ((0 : Int) - (D.length : Int)).toNat - 0 = 0 := by omega
    rw [e1, e2]
    simp [spaces, zeros]

/-- The field of a string or a character. -/
theorem str_field {c : Ctx} {minus : Bool} {w p : Num} {x : Nat} {s : List Nat}
    (hl : c.lpad = (padOf minus w.val).1) (hr : c.rpad = (padOf minus w.val).2)
    (hp : c.prec = precVal p) (hz : c.zero = false) (hh : c.hash = false)
    (hx : x = 115 ∨ (x = 99 ∧ p = .none)) (hpo : PrecOk p)
    (k : p ≠ .none → w = .none ∨ s.length ≤ (precOf p).getD 0) :
    c.field x s = strText minus w.val (precOf p) s := by
  have x3 : ¬ x = 112 := by omega
  have hpn : (p = .none ∧ c.prec = -1) ∨ ∃ m : Nat, precOf p = some m ∧ c.prec = (m : Int) ∧ x = 115 ∧
      (w = .none ∨ s.length ≤ m) := by
    cases p with
    | none => exact .inl ⟨rfl, hp⟩
    | lit t =>
      refine .inr ⟨(numVal 10 t).getD 0, rfl, hp, ?_, ?_⟩
      · rcases hx with h | h
        · exact h
        · cases h.2
      · exact k (fun h => by cases h)
    | star v =>
      obtain ⟨g1, _⟩ := hpo
      have e : precOf (Num.star v) = some v.toNat := if_neg (by omega)
      refine .inr ⟨v.toNat, e, ?_, ?_, ?_⟩
      · rw [hp]; show v = (v.toNat : Int); omega
      · rcases hx with h | h
        · exact h
        · cases h.2
      · have := k (fun h => by cases h)
        rw [e] at this
        exact this
  have hzp : c.zeroPad x = false := by
    unfold Ctx.zeroPad
    rw [hz]
    rcases hpn with ⟨_, h⟩ | ⟨m, _, _, h, _⟩
    · rw [h]; rfl
    · rw [h]; simp
  have hpc : c.padChar x = 32 := by
    unfold Ctx.padChar
    exact if_neg (by rw [hzp]; exact fun h => absurd h.1 (by decide))
  have hnp : ¬ (0 ≤ c.prec ∧ x ≠ 115) := by
    rcases hpn with ⟨_, h⟩ | ⟨m, _, _, h, _⟩
    · rw [h]; exact fun h => absurd h.1 (by decide)
    · exact fun h' => h'.2 h
  unfold Ctx.field Ctx.padL Ctx.padR
  rw [hzp, hpc, hh, if_neg (show ¬ (false = true ∧ false = true) from fun h => absurd h.1 (by decide)),
    if_neg (show ¬ ((x = 112 ∨ false = true) ∧ (32 : Nat) ≠ 48) from fun h => h.1.elim x3 (by decide)),
    if_neg hnp, if_neg (show ¬ (false = true) by decide)]
  unfold strText
  -- the text that is shown
  have hT : (if 0 ≤ c.prec then s.take c.prec.toNat else s) =
      (match precOf p with | none => s | some p => s.take p) ∧
      (w = .none ∨ (if 0 ≤ c.prec then s.take c.prec.toNat else s) = s) := by
    rcases hpn with ⟨h1, h2⟩ | ⟨m, h1, h2, _, h4⟩
    · rw [h1, h2]; exact ⟨rfl, .inr rfl⟩
    · rw [h1, h2, if_pos (by omega)]
      refine ⟨rfl, ?_⟩
      rcases h4 with h | h
      · exact .inl h
      · exact .inr (List.take_of_length_le h)
  rw [← hT.1]
  generalize hG : (if 0 ≤ c.prec then s.take c.prec.toNat else s) = T at hT
  have hwid : w.val = 0 ∨ T = s := by
    rcases hT.2 with h | h
    · left; rw [h]; rfl
    · right; exact h
  unfold field
  rw [hl, hr]
  by_cases hm : (minus || decide (w.val < 0)) = true
  · rw [if_pos hm]
    have hpad : padOf minus w.val = (0, (w.val.natAbs : Int)) := by
      unfold padOf
      by_cases hm1 : minus = true
      · rw [if_pos hm1]
      · rw [if_neg hm1, if_pos]
        cases minus with
        | true => exact absurd rfl hm1
        | false => simpa using hm
    rw [hpad]
    dsimp only
    have e3 : ((0 : Int) - (s.length : Int)).toNat - 0 = 0 := by omega
    have e4 : ((w.val.natAbs : Int) - (s.length : Int)).toNat - 0 = w.val.natAbs - T.length := by
      rcases hwid with h | h
      · rw [h]; simp
      · rw [h]; omega
    rw [e3, e4]
    simp [spaces]
  · rw [if_neg hm]
    have hm1 : minus = false := by cases minus <;> first | rfl | exact absurd rfl hm
    have hw0 : ¬ w.val < 0 := by rw [hm1] at hm; simpa using hm
    have hpad : padOf minus w.val = (w.val, 0) := by
      unfold padOf
      rw [hm1, if_neg (by decide), if_neg hw0]
    rw [hpad]
    dsimp only
    have e3 : ((0 : Int) - (s.length : Int)).toNat - 0 = 0 := by omega
    have e4 : (w.val - (s.length : Int)).toNat - 0 = w.val.natAbs - T.length := by
      rcases hwid with h | h
      · rw [h]; omega
      · rw [h]; omega
    rw [e3, e4]
    simp [spaces]

/-! ## The whole format -/

/-- After a conversion which writes `t`: either everything fitted, and the context is as after `%` +
one conversion; or the buffer is full. -/
def Done (size : Nat) (o t r a : List Nat) (res : Ctx × Bool) : Prop :=
  (res.2 = true ∧ (o ++ t).length < size ∧ ∃ x, res.1 = { fmt := x :: r, args := a, out := o ++ t }) ∨
  (res.2 = false ∧ size ≤ (o ++ t).length ∧ res.1.out = (o ++ t).take size)

theorem done_write {c : Ctx} {x x' : Nat} {r a s t o : List Nat} (hf : c.fmt = x' :: r)
    (ho : c.out = o) (hs : o.length < size) (ht : c.field x s = t) :
    Done size o t r a (finish ({ c with out := (c.writeStr size x s).1, args := a },
      (c.writeStr size x s).2)) := by
  rw [writeStr_eq c x s (by rw [ho]; exact hs), ho, ht]
  dsimp only
  unfold finish
  by_cases hl : (o ++ t).length < size
  · rw [if_pos (by simpa using hl)]
    refine .inl ⟨rfl, hl, x', ?_⟩
    rw [List.take_of_length_le (by omega)]
    unfold Ctx.reset
    dsimp only
    rw [hf]
  · rw [if_neg (by simpa using hl)]
    exact .inr ⟨decide_eq_false hl, by omega, rfl⟩

theorem ends_of {c : Nat} (r : List Nat) (h : ¬ (48 ≤ c ∧ c ≤ 57)) (h2 : c ≠ 45) (h3 : c ≠ 42) :
    Ends (c :: r) := by
  refine ⟨?_, fun e => h2 (Option.some.inj e), fun e => h3 (Option.some.inj e), by simp⟩
  show digitOf 10 c = none
  cases hd : digitOf 10 c with
  | none => rfl
  | some d =>
    exact absurd (digit_char (c := c) (s := []) (v := d * 10 ^ 0 + 0) (by simp [numVal, hd])) h

theorem ends_len (len : Len) (conv : Conv) (r : List Nat) : Ends (len.text ++ (conv.char :: r)) := by
  cases len with
  | none => cases conv <;> exact ends_of _ (by decide) (by decide) (by decide)
  | hh => exact ends_of _ (by decide) (by decide) (by decide)
  | h => exact ends_of _ (by decide) (by decide) (by decide)
  | l => exact ends_of _ (by decide) (by decide) (by decide)
  | ll => exact ends_of _ (by decide) (by decide) (by decide)
  | z => exact ends_of _ (by decide) (by decide) (by decide)
  | t => exact ends_of _ (by decide) (by decide) (by decide)
  | j => exact ends_of _ (by decide) (by decide) (by decide)
  | q => exact ends_of _ (by decide) (by decide) (by decide)
  | L => exact ends_of _ (by decide) (by decide) (by decide)

theorem ends_prec {r : List Nat} (p : Num) (h : Ends r) : Ends (precText p ++ r) := by
  cases p with
  | none => exact h
  | lit s => exact ends_of _ (by decide) (by decide) (by decide)
  | star v => exact ends_of _ (by decide) (by decide) (by decide)

/-- The sequence is processed and writes `t`. -/
def Writes (size : Nat) (strs : Nat → List Nat) (first : Bool) (c : Ctx) (t r a : List Nat) : Prop :=
  ∃ res, Runs size strs first c res ∧ Done size c.out t r a res

theorem writes_num {hash zero minus : Bool} {w p : Num} {len : Len} {conv : Conv} {bits : Nat}
    {o r a : List Nat} (ho : o.length < size)
    (hok : (Piece.num hash zero minus w p len conv bits).Ok strs) :
    ∃ res, Runs size strs true
      { fmt := (flag hash 35 ++ (flag zero 48 ++ (flag minus 45 ++ (w.text ++ (precText p ++ (len.text ++ (conv.char :: r)))))))
        args := w.args ++ (p.args ++ ((if len.bits = 64 then [bits % 2 ^ 32, bits / 2 ^ 32] else [bits]) ++ a))
        out := o } res ∧
      Done size o ((Piece.num hash zero minus w p len conv bits).text strs) r a res := by
  obtain ⟨hw, hp, hb, k1, k2, k3⟩ := hok
  have he := ends_len len conv r
  have hep := ends_prec p he
  -- the context at the conversion character
  let c : Ctx :=
    { fmt := conv.char :: r
      args := (if len.bits = 64 then [bits % 2 ^ 32, bits / 2 ^ 32] else [bits]) ++ a
      out := o, width := widthOf len, lpad := (padOf minus w.val).1, rpad := (padOf minus w.val).2
      prec := precVal p, zero := zero, hash := hash }
  have hconv : c.convert size strs conv.char = some (c.number size conv.char) := by
    unfold Ctx.convert
    rw [if_pos (by cases conv <;> decide)]
  refine ⟨finish (c.number size conv.char), ?_, ?_⟩
  · apply runs_hash hash rfl ?_ rfl
    · intro first
      refine runs_zero first zero rfl rfl fun first => ?_
      refine runs_width first minus hw rfl hep rfl rfl rfl fun first => ?_
      refine runs_prec first hp rfl he rfl rfl fun first => ?_
      refine runs_len first len rfl rfl fun first => ?_
      exact runs_conv (c := c) rfl hconv
    · intro h
      have : (flag zero 48 ++ (flag minus 45 ++ (w.text ++ (precText p ++ (len.text ++ (conv.char :: r)))))).length = 0 := by
        rw [h]; rfl
      simp at this
  · have hbits1 : 1 ≤ len.bits := by cases len <;> decide
    obtain ⟨hd, hrest⟩ := digits_eq (c := c) (conv := conv) hb rfl rfl
    have hf := num_field (c := c) (conv := conv) (v := valueOf conv.signed len.bits bits) rfl rfl rfl rfl rfl
      (fun h => (valueOf_range conv.signed (bits := len.bits) (v := bits) hbits1).2.2.2 h) hp k1 k2 k3
    unfold Ctx.number
    dsimp only
    rw [hrest, hd]
    by_cases hX : conv = .X
    · have hXc : conv.char = 88 := by rw [hX]; rfl
      rw [if_pos hXc]
      have hup : (signText (valueOf conv.signed len.bits bits) ++
          digitsOf false conv.radix (valueOf conv.signed len.bits bits).natAbs).map upper =
          signText (valueOf conv.signed len.bits bits) ++
            digitsOf (conv = .X) conv.radix (valueOf conv.signed len.bits bits).natAbs := by
        rw [List.map_append, upper_digits (radix_ok conv).1 (radix_ok conv).2, decide_eq_true hX]
        congr 1
        unfold signText
        split <;> rfl
      rw [hup]
      have hx : fmtX conv = 120 := by rw [hX]; rfl
      rw [hx] at hf
      exact done_write (c := c) (x' := conv.char) rfl rfl ho hf
    · have hXc : conv.char ≠ 88 := by cases conv <;> first | decide | exact absurd rfl hX
      rw [if_neg hXc]
      have hx : fmtX conv = conv.char := by unfold fmtX; exact if_neg hX
      rw [hx, decide_eq_false hX] at hf
      exact done_write (c := c) (x' := conv.char) rfl rfl ho hf

theorem runs_str {minus : Bool} {w p : Num} {o r a : List Nat} {x : Nat} (hw : WidthOk w) (hp : PrecOk p)
    (hx : x = 115 ∨ x = 99) {rs : Ctx × Bool}
    (hc : Ctx.convert { fmt := x :: r, args := a, out := o, lpad := (padOf minus w.val).1
                        rpad := (padOf minus w.val).2, prec := precVal p } size strs x = some rs) :
    Runs size strs true
      { fmt := (flag minus 45 ++ (w.text ++ (precText p ++ (x :: r)))), args := w.args ++ (p.args ++ a)
        out := o } (finish rs) := by
  have he : Ends (x :: r) := ends_of r (by omega) (by omega) (by omega)
  refine runs_width true minus hw rfl (ends_prec p he) rfl rfl rfl fun first => ?_
  refine runs_prec first hp rfl he rfl rfl fun first => ?_
  exact runs_conv rfl hc

theorem fixed_digits (v : Nat) : ∀ k, v < 16 ^ k → 1 ≤ k →
    fixedLoop v k = zeros (k - (digitsOf false 16 v).length) ++ digitsOf false 16 v := by
  have shift : ∀ (v k : Nat), 1 ≤ k → fixedLoop v k = fixedLoop (v / 16) (k - 1) ++ [digit (v % 16)] := by
    intro v k hk
    obtain ⟨k, rfl⟩ : ∃ m, k = m + 1 := ⟨k - 1, by omega⟩
    rw [Nat.add_sub_cancel]
    clear hk
    induction k with
    | zero =>
      show [digitChar ((v >>> 0) % 16)] = [digit (v % 16)]
      rw [Nat.shiftRight_zero]
      rfl
    | succ k ih =>
      show digitChar ((v >>> (4 * (k + 1))) % 16) :: fixedLoop v (k + 1) =
        (digitChar (((v / 16) >>> (4 * k)) % 16) :: fixedLoop (v / 16) k) ++ [digit (v % 16)]
      rw [ih]
      have : v >>> (4 * (k + 1)) = (v / 16) >>> (4 * k) := by
        rw [show 4 * (k + 1) = 4 + 4 * k by omega, Nat.shiftRight_add, Nat.shiftRight_eq_div_pow v 4]
      rw [this]
      rfl
  induction v using Nat.strongRecOn with
  | _ v ih =>
    intro k hk hk1
    rw [shift v k hk1]
    by_cases h : v < 16
    · rw [digitsOf_base h, Nat.div_eq_of_lt h, Nat.mod_eq_of_lt h]
      have hz : ∀ k, fixedLoop 0 k = zeros k := by
        intro k
        induction k with
        | zero => rfl
        | succ k ih =>
          show digitChar ((0 >>> (4 * k)) % 16) :: fixedLoop 0 k = _
          rw [ih, Nat.zero_shiftRight]
          rfl
      rw [hz]
      rfl
    · rw [digitsOf_step (n := v) (by decide) (by omega)]
      have hk2 : 2 ≤ k := by
        rcases Nat.lt_or_ge k 2 with h2 | h2
        · have : k = 1 := by omega
          rw [this] at hk
          omega
        · exact h2
      have hlt : v / 16 < 16 ^ (k - 1) := by
        rw [Nat.div_lt_iff_lt_mul (by omega)]
        obtain ⟨m, rfl⟩ : ∃ m, k = m + 1 := ⟨k - 1, by omega⟩
        rw [Nat.pow_succ] at hk
        exact hk
      rw [ih (v / 16) (Nat.div_lt_self (by omega) (by omega)) (k - 1) hlt (by omega), List.append_assoc,
        List.length_append]
      have : k - 1 - (digitsOf false 16 (v / 16)).length =
          k - ((digitsOf false 16 (v / 16)).length + [digit (v % 16)].length) := by
        simp only [List.length_cons, List.length_nil]
        omega
      rw [this]
      rfl

/-- Each part of a format writes its text. -/
theorem piece_writes {pc : Piece} {o r a : List Nat} (ho : o.length < size) (hok : pc.Ok strs)
    {f : List Nat} (hf : pc.fmt = 37 :: f) :
    ∃ N, ∀ n, N ≤ n → ∃ res, Ctx.processSeq { fmt := f ++ r, args := pc.args ++ a, out := o } size strs n = some res ∧
      Done size o (pc.text strs) r a res := by
  -- a sequence which does not begin with `%` or a character above 127
  have go : ∀ (c : Ctx) (res : Ctx × Bool), (∃ x t, c.fmt = x :: t ∧ ¬ (x = 37 ∨ 128 ≤ x)) →
      Runs size strs true c res → ∃ N, ∀ n, N ≤ n → Ctx.processSeq c size strs n = some res := by
    intro c res ⟨x, t, hx, hx2⟩ ⟨N, hN⟩
    refine ⟨N, fun n hn => ?_⟩
    unfold Ctx.processSeq
    rw [hx]
    dsimp only
    rw [if_neg hx2]
    exact hN n hn
  have widthHead : ∀ (w : Num) (s : List Nat), WidthOk w → (∃ x t, s = x :: t ∧ ¬ (x = 37 ∨ 128 ≤ x)) →
      ∃ x t, w.text ++ s = x :: t ∧ ¬ (x = 37 ∨ 128 ≤ x) := by
    intro w s hw hs
    cases w with
    | none => exact hs
    | lit d =>
      obtain ⟨⟨c, hc, h1, h2⟩, _⟩ := hw
      cases d with
      | nil => cases hc
      | cons e d => cases hc; exact ⟨c, d ++ s, rfl, by omega⟩
    | star v => exact ⟨42, s, rfl, by decide⟩
  have precHead : ∀ (p : Num) (s : List Nat), (∃ x t, s = x :: t ∧ ¬ (x = 37 ∨ 128 ≤ x)) →
      ∃ x t, precText p ++ s = x :: t ∧ ¬ (x = 37 ∨ 128 ≤ x) := by
    intro p s hs
    cases p with
    | none => exact hs
    | lit d => exact ⟨46, _, rfl, by decide⟩
    | star v => exact ⟨46, _, rfl, by decide⟩
  have flagHead : ∀ (b : Bool) (ch : Nat) (s : List Nat), ¬ (ch = 37 ∨ 128 ≤ ch) →
      (∃ x t, s = x :: t ∧ ¬ (x = 37 ∨ 128 ≤ x)) → ∃ x t, flag b ch ++ s = x :: t ∧ ¬ (x = 37 ∨ 128 ≤ x) := by
    intro b ch s hch hs
    cases b with
    | false => exact hs
    | true => exact ⟨ch, s, rfl, hch⟩
  cases pc with
  | lit c => cases hf; exact absurd rfl hok.1
  | percent =>
    cases hf
    refine ⟨0, fun n _ => ⟨({ fmt := 37 :: r, args := a, out := (chr size 37 o).1 }, (chr size 37 o).2), rfl, ?_⟩⟩
    show Done size o [37] r a _
    rw [emits_chr size 37 o ho]
    by_cases hl : (o ++ [37]).length < size
    · refine .inl ⟨decide_eq_true hl, hl, 37, ?_⟩
      rw [List.take_of_length_le (by omega)]
    · exact .inr ⟨decide_eq_false hl, by omega, rfl⟩
  | num hash zero minus w p len conv bits =>
    cases hf
    obtain ⟨res, h1, h2⟩ := writes_num (r := r) (a := a) ho hok
    have hhead : ∃ x t, (flag hash 35 ++ (flag zero 48 ++ (flag minus 45 ++ (w.text ++ (precText p ++ (len.text ++ (conv.char :: r))))))) = x :: t ∧ ¬ (x = 37 ∨ 128 ≤ x) := by
      apply flagHead _ _ _ (by decide)
      apply flagHead _ _ _ (by decide)
      apply flagHead _ _ _ (by decide)
      apply widthHead _ _ hok.1
      apply precHead
      cases len <;> cases conv <;> exact ⟨_, _, rfl, by decide⟩
    obtain ⟨N, hN⟩ := go _ _ hhead h1
    refine ⟨N, fun n hn => ⟨res, ?_, h2⟩⟩
    rw [← hN n hn]
    have e1 : (flag hash 35 ++ (flag zero 48 ++ (flag minus 45 ++ (w.text ++ (precText p ++ (len.text ++ [conv.char])))))) ++ r =
        (flag hash 35 ++ (flag zero 48 ++ (flag minus 45 ++ (w.text ++ (precText p ++ (len.text ++ (conv.char :: r))))))) := by
      simp only [List.append_assoc, List.cons_append, List.nil_append]
    have e2 : (Piece.num hash zero minus w p len conv bits).args ++ a = w.args ++ (p.args ++
        ((if len.bits = 64 then [bits % 2 ^ 32, bits / 2 ^ 32] else [bits]) ++ a)) := by
      show (w.args ++ (p.args ++ _)) ++ a = _
      simp only [List.append_assoc]
    rw [e1, e2]
  | str minus w p addr =>
    cases hf
    obtain ⟨hw, hp, hadr, k⟩ := hok
    let c : Ctx := { fmt := 115 :: r, args := addr :: a, out := o, lpad := (padOf minus w.val).1
                     rpad := (padOf minus w.val).2, prec := precVal p }
    have hrun := runs_str (size := size) (strs := strs) (minus := minus) (o := o) (r := r) (a := addr :: a) (x := 115)
      hw hp (.inl rfl) (rs := c.string size strs) rfl
    have hdone : Done size o ((Piece.str minus w p addr).text strs) r a (finish (c.string size strs)) := by
      refine done_write (c := c) (x' := 115) rfl rfl ho ?_
      exact str_field (c := c) rfl rfl rfl rfl rfl (.inl rfl) hp k
    have hhead : ∃ x t, (flag minus 45 ++ (w.text ++ (precText p ++ (115 :: r)))) = x :: t ∧ ¬ (x = 37 ∨ 128 ≤ x) := by
      apply flagHead _ _ _ (by decide)
      apply widthHead _ _ hw
      apply precHead
      exact ⟨_, _, rfl, by decide⟩
    obtain ⟨N, hN⟩ := go _ _ hhead hrun
    refine ⟨N, fun n hn => ⟨_, ?_, hdone⟩⟩
    rw [← hN n hn]
    have e1 : (flag minus 45 ++ (w.text ++ (precText p ++ [115]))) ++ r =
        flag minus 45 ++ (w.text ++ (precText p ++ (115 :: r))) := by
      simp only [List.append_assoc, List.cons_append, List.nil_append]
    have e2 : (Piece.str minus w p addr).args ++ a = w.args ++ (p.args ++ (addr :: a)) := by
      show (w.args ++ (p.args ++ [addr])) ++ a = _
      simp only [List.append_assoc, List.cons_append, List.nil_append]
    rw [e1, e2]
  | chr minus w ch =>
    cases hf
    obtain ⟨hw, hch, hne⟩ := hok
    let c : Ctx := { fmt := 99 :: r, args := ch :: a, out := o, lpad := (padOf minus w.val).1
                     rpad := (padOf minus w.val).2, prec := precVal .none }
    have hrun := runs_str (size := size) (strs := strs) (minus := minus) (p := .none) (o := o) (r := r) (a := ch :: a)
      (x := 99) hw trivial (.inr rfl) (rs := c.character size) rfl
    have hdone : Done size o ((Piece.chr minus w ch).text strs) r a (finish (c.character size)) := by
      have hs : (if c.word % 256 = 0 then [] else [c.word % 256]) = [ch % 256] := if_neg hne
      unfold Ctx.character
      rw [hs]
      refine done_write (c := c) (x' := 99) rfl rfl ho ?_
      exact str_field (c := c) (p := .none) rfl rfl rfl rfl rfl (.inr ⟨rfl, rfl⟩) trivial (fun h => absurd rfl h)
    have hhead : ∃ x t, (flag minus 45 ++ (w.text ++ (99 :: r))) = x :: t ∧ ¬ (x = 37 ∨ 128 ≤ x) := by
      apply flagHead _ _ _ (by decide)
      apply widthHead _ _ hw
      exact ⟨_, _, rfl, by decide⟩
    obtain ⟨N, hN⟩ := go _ _ hhead hrun
    refine ⟨N, fun n hn => ⟨_, ?_, hdone⟩⟩
    rw [← hN n hn]
    have e1 : (flag minus 45 ++ (w.text ++ [99])) ++ r = flag minus 45 ++ (w.text ++ (99 :: r)) := by
      simp only [List.append_assoc, List.cons_append, List.nil_append]
    have e2 : (Piece.chr minus w ch).args ++ a = w.args ++ (ch :: a) := by
      show (w.args ++ [ch]) ++ a = _
      simp only [List.append_assoc, List.cons_append, List.nil_append]
    rw [e1, e2]
    rfl
  | ptr v =>
    cases hf
    let c : Ctx := { fmt := 112 :: r, args := v :: a, out := o }
    have hrun : Runs size strs true c (finish (c.pointer size)) := runs_conv (x := 112) (r := r) rfl rfl
    have hdone : Done size o ((Piece.ptr v).text strs) r a (finish (c.pointer size)) := by
      refine done_write (c := c) (x' := 112) rfl rfl ho ?_
      have hv : v < 16 ^ 8 := hok
      have hu : uitoaFixed 32 c.word = zeros (8 - (digitsOf false 16 v).length) ++ digitsOf false 16 v :=
        fixed_digits v 8 hv (by decide)
      rw [hu]
      have hh : c.hash = false := rfl
      have hp : c.prec = -1 := rfl
      have hpc : c.padChar 112 = 32 := rfl
      unfold Ctx.field Ctx.padL Ctx.padR
      rw [hpc, hh, hp, if_neg (show ¬ (c.zeroPad 112 = true ∧ false = true) from fun h => absurd h.2 (by decide)),
        if_pos (show (112 = 112 ∨ false = true) ∧ (32 : Nat) ≠ 48 from ⟨.inl rfl, by decide⟩),
        if_neg (show ¬ ((0 : Int) ≤ -1) by decide),
        if_neg (show ¬ ((0 : Int) ≤ -1 ∧ 112 ≠ 115) from fun h => absurd h.1 (by decide)),
        if_neg (show ¬ (false = true) by decide)]
      have e (n : Nat) : ((0 : Int) - (n : Int)).toNat - 0 = 0 := by omega
      show (([] ++ List.replicate (((0 : Int) - _).toNat - 0) _) ++ _ ++ _) ++ List.replicate (((0 : Int) - _).toNat - 0) _ = _
      rw [e]
      simp [Piece.text, preText]
    obtain ⟨N, hN⟩ := go _ _ ⟨112, r, rfl, by decide⟩ hrun
    exact ⟨N, fun n hn => ⟨_, hN n hn, hdone⟩⟩

theorem piece_fmt (pc : Piece) : (∃ c, pc = .lit c) ∨ ∃ f, pc.fmt = 37 :: f := by
  cases pc with
  | lit c => exact .inl ⟨c, rfl⟩
  | percent => exact .inr ⟨_, rfl⟩
  | num => exact .inr ⟨_, rfl⟩
  | str => exact .inr ⟨_, rfl⟩
  | chr => exact .inr ⟨_, rfl⟩
  | ptr => exact .inr ⟨_, rfl⟩

theorem loop_percent (size : Nat) (strs : Nat → List Nat) (m : Nat) (c : Ctx) (r : List Nat) (h : c.fmt = 37 :: r) :
    Ctx.loop size strs (m + 1) c =
      match Ctx.processSeq { c with fmt := r } size strs m with
      | none => none
      | some (c, false) => some (.ok c.out)
      | some (c, true) =>
        match c.fmt with
        | [] => some .overread
        | _ :: r => Ctx.loop size strs m { c with fmt := r } := by
  cases c
  dsimp only at h
  subst h
  rfl

theorem loop_pieces (l : List Piece) : ∀ {o : List Nat}, o.length < size → (∀ pc ∈ l, pc.Ok strs) →
    ∃ N, ∀ n, N ≤ n → Ctx.loop size strs n { fmt := fmtOf l, args := argsOf l, out := o } =
      some (.ok ((o ++ textOf strs l).take size)) := by
  induction l with
  | nil =>
    intro o ho _
    refine ⟨1, fun n hn => ?_⟩
    obtain ⟨m, rfl⟩ : ∃ m, n = m + 1 := ⟨n - 1, by omega⟩
    show some (Res.ok o) = _
    rw [show textOf strs [] = [] from rfl, List.append_nil, List.take_of_length_le (by omega)]
  | cons pc l ih =>
    intro o ho hok
    have hpc := hok pc List.mem_cons_self
    have hl : ∀ p ∈ l, p.Ok strs := fun p hp => hok p (List.mem_cons_of_mem _ hp)
    have e1 : fmtOf (pc :: l) = pc.fmt ++ fmtOf l := rfl
    have e2 : argsOf (pc :: l) = pc.args ++ argsOf l := rfl
    have e3 : textOf strs (pc :: l) = pc.text strs ++ textOf strs l := rfl
    rw [e1, e2, e3]
    have full : ∀ t u : List Nat, size ≤ (o ++ t).length → (o ++ t).take size = (o ++ (t ++ u)).take size := by
      intro t u h
      rw [← List.append_assoc, List.take_append_of_le_length (l₁ := o ++ t) h]
    rcases piece_fmt pc with ⟨c, rfl⟩ | ⟨f, hf⟩
    · by_cases hfit : (o ++ [c]).length < size
      · obtain ⟨N, hN⟩ := ih hfit hl
        refine ⟨N + 1, fun n hn => ?_⟩
        obtain ⟨m, rfl⟩ : ∃ m, n = m + 1 := ⟨n - 1, by omega⟩
        show (if c ≠ 37 then _ else _) = _
        rw [if_pos hpc.1]
        dsimp only
        rw [emits_chr size c o ho, if_pos (by simpa using hfit), List.take_of_length_le (by omega)]
        have := hN m (by omega)
        rw [List.append_assoc] at this
        exact this
      · refine ⟨1, fun n hn => ?_⟩
        obtain ⟨m, rfl⟩ : ∃ m, n = m + 1 := ⟨n - 1, by omega⟩
        show (if c ≠ 37 then _ else _) = _
        rw [if_pos hpc.1]
        dsimp only
        rw [emits_chr size c o ho, if_neg (by simpa using hfit)]
        exact congrArg (fun x => some (Res.ok x)) (full [c] (textOf strs l) (by omega))
    · obtain ⟨N, hN⟩ := piece_writes (r := fmtOf l) (a := argsOf l) ho hpc hf
      by_cases hfit : (o ++ pc.text strs).length < size
      · obtain ⟨N2, hN2⟩ := ih hfit hl
        refine ⟨max N N2 + 1, fun n hn => ?_⟩
        obtain ⟨m, rfl⟩ : ∃ m, n = m + 1 := ⟨n - 1, by omega⟩
        obtain ⟨res, h1, h2⟩ := hN m (by omega)
        rw [hf]
        rw [loop_percent (r := f ++ fmtOf l) (h := rfl)]
        dsimp only
        rw [h1]
        rcases h2 with ⟨b1, _, x, b3⟩ | ⟨b1, b2, _⟩
        · obtain ⟨c, b⟩ := res
          dsimp only at b1 b3
          subst b1 b3
          have := hN2 m (by omega)
          rw [List.append_assoc] at this
          exact this
        · omega
      · refine ⟨N + 1, fun n hn => ?_⟩
        obtain ⟨m, rfl⟩ : ∃ m, n = m + 1 := ⟨n - 1, by omega⟩
        obtain ⟨res, h1, h2⟩ := hN m (by omega)
        rw [hf]
        rw [loop_percent (r := f ++ fmtOf l) (h := rfl)]
        dsimp only
        rw [h1]
        rcases h2 with ⟨_, b2, _⟩ | ⟨b1, _, b3⟩
        · omega
        · obtain ⟨c, b⟩ := res
          dsimp only at b1 b3
          subst b1
          show some (Res.ok c.out) = _
          rw [b3]
          exact congrArg (fun x => some (Res.ok x)) (full (pc.text strs) (textOf strs l) (by omega))

/-- C118, C119: for every list of texts and conversions (those `Ok` admits), every value of the
arguments and every size of the buffer except 0, `snprintk` ends, leaves the text ISO C prescribes in
the buffer, cut to its size and with a NUL, writes nothing elsewhere, and returns the length of the
text or, if it does not fit, the size of the buffer. -/
theorem formatted_partial (l : List Piece) (hok : ∀ pc ∈ l, pc.Ok strs) (hs : 1 ≤ size) :
    ∃ N, ∀ n, N ≤ n → snprintk n size strs (fmtOf l) (argsOf l) =
      some (.done (cut size (textOf strs l)) false (min (textOf strs l).length size)) := by
  obtain ⟨N, hN⟩ := loop_pieces (size := size) (strs := strs) l (o := []) (show 0 < size by omega) hok
  refine ⟨N, fun n hn => ?_⟩
  unfold snprintk
  rw [hN n hn, List.nil_append]
  show some (terminate size _) = _
  generalize textOf strs l = t
  unfold terminate cut
  by_cases hl : t.length < size
  · rw [List.take_of_length_le (show t.length ≤ size by omega), if_pos hl,
      List.take_of_length_le (show t.length ≤ size - 1 by omega), Nat.min_eq_left (by omega)]
  · have hlen : (t.take size).length = size := by rw [List.length_take]; omega
    rw [if_neg (by omega), if_neg (by intro h; rw [h] at hlen; simp at hlen; omega), hlen,
      Nat.min_eq_right (by omega), List.take_take, Nat.min_eq_left (by omega)]

/-! ## Any format -/

theorem emits_bound {f : List Nat → List Nat × Bool} {t o : List Nat} (h : Emits size f t)
    (ho : o.length < size) : (f o).1.length ≤ size ∧ ((f o).2 = true → (f o).1.length < size) := by
  rw [h o ho]
  refine ⟨by simp; omega, fun hl => ?_⟩
  have hl : (o ++ t).length < size := by simpa using hl
  show ((o ++ t).take size).length < size
  rw [List.length_take]
  omega

theorem writeStr_bound (c : Ctx) (x : Nat) (s : List Nat) (ho : c.out.length < size) :
    (c.writeStr size x s).1.length ≤ size ∧
      ((c.writeStr size x s).2 = true → (c.writeStr size x s).1.length < size) := by
  rw [writeStr_eq c x s ho]
  refine ⟨by simp; omega, fun hl => ?_⟩
  have hl : (c.out ++ c.field x s).length < size := by simpa using hl
  show ((c.out ++ c.field x s).take size).length < size
  rw [List.length_take]
  omega

/-- How far a step may go: within the buffer, or one byte beyond it; within it when no width was
given. -/
def Fine (size : Nat) (c : Ctx) (r : Ctx × Bool) : Prop :=
  (r.2 = true → r.1.out.length < size ∧ r.1.lpad = 0 ∧ r.1.rpad = 0) ∧ r.1.out.length ≤ size + 1 ∧
  (c.lpad = 0 → c.rpad = 0 → r.1.out.length ≤ size) ∧ (∀ x ∈ r.1.fmt, x ∈ c.fmt)

theorem fine_finish {c c' : Ctx} {r : List Nat × Bool} {a : List Nat} (hf : c'.fmt = c.fmt)
    (h : r.1.length ≤ size ∧ (r.2 = true → r.1.length < size)) :
    Fine size c (finish ({ c' with out := r.1, args := a }, r.2)) := by
  unfold finish
  by_cases hr : r.2 = true
  · rw [if_pos hr]
    have h1 := h.1
    refine ⟨fun _ => ⟨h.2 hr, rfl, rfl⟩, ?_, fun _ _ => h.1, fun x hx => ?_⟩
    · show r.1.length ≤ _; omega
    · rw [← hf]; exact hx
  · rw [if_neg hr]
    have h1 := h.1
    refine ⟨fun h => absurd h hr, ?_, fun _ _ => h.1, fun x hx => ?_⟩
    · show r.1.length ≤ _; omega
    · rw [← hf]; exact hx

theorem fine_unknown (c : Ctx) (ho : c.out.length < size) : Fine size c (c.unknown size) := by
  unfold Ctx.unknown
  have h1 := emits_bound (emits_then (emits_then (emits_chr size 37)
    (emits_if (c.hash = true) (emits_chr size 35))) (emits_if (c.zero = true) (emits_chr size 48))) ho
  dsimp only at h1 ⊢
  generalize andThen (andThen (chr size 37 c.out) (fun o => if c.hash = true then chr size 35 o else (o, true)))
    (fun o => if c.zero = true then chr size 48 o else (o, true)) = r at h1 ⊢
  by_cases hr : r.2 = true
  · rw [if_pos hr]
    generalize hlp : (if c.rpad ≠ 0 then wrapS 32 (-c.rpad) else c.lpad) = lpad
    generalize hO : (if lpad ≠ 0 then (Ctx.writeStr { c with out := r.1, zero := false, lpad := 0, rpad := 0 } size 100
          ((itoaS 32 10 lpad).getD [])).1 else r.1) = o
    have hb : o.length ≤ size ∧ (c.lpad = 0 → c.rpad = 0 → o.length < size) := by
      by_cases hl : lpad ≠ 0
      · rw [if_pos hl] at hO
        rw [← hO]
        refine ⟨(writeStr_bound { c with out := r.1, zero := false, lpad := 0, rpad := 0 } 100 _ (h1.2 hr)).1, ?_⟩
        intro q1 q2
        rw [q2, if_neg (fun h => h rfl), q1] at hlp
        exact absurd hlp.symm hl
      · rw [if_neg hl] at hO
        rw [← hO]
        exact ⟨h1.1, fun _ _ => h1.2 hr⟩
    by_cases hc : (chr size (c.fmt.headD 0) o).2 = true
    · rw [if_pos hc]
      have hlt : o.length + 1 < size := by simpa [chr] using hc
      refine ⟨fun _ => ⟨?_, rfl, rfl⟩, ?_, fun _ _ => ?_, fun x hx => hx⟩
      · show (o ++ [_]).length < size
        simp; omega
      · show (o ++ [_]).length ≤ size + 1
        simp; omega
      · show (o ++ [_]).length ≤ size
        simp; omega
    · rw [if_neg hc]
      refine ⟨(fun h => by cases h), ?_, fun q1 q2 => ?_, fun x hx => hx⟩
      · show (o ++ [_]).length ≤ size + 1
        simp; omega
      · show (o ++ [_]).length ≤ size
        have := hb.2 q1 q2
        simp; omega
  · rw [if_neg hr]
    have h2 := h1.1
    refine ⟨(fun h => by cases h), ?_, fun _ _ => h1.1, fun x hx => hx⟩
    show r.1.length ≤ _
    omega

theorem fine_convert {c : Ctx} {x : Nat} {r : Ctx × Bool} (ho : c.out.length < size)
    (h : c.convert size strs x = some r) : Fine size c (finish r) := by
  unfold Ctx.convert at h
  split at h
  · cases h
    unfold Ctx.number
    dsimp only
    split
    · exact fine_finish rfl (writeStr_bound c _ _ ho)
    · exact fine_finish rfl (writeStr_bound c _ _ ho)
  · split at h
    · cases h; exact fine_finish rfl (writeStr_bound c _ _ ho)
    · split at h
      · cases h; exact fine_finish rfl (writeStr_bound c _ _ ho)
      · split at h
        · cases h; exact fine_finish rfl (writeStr_bound c _ _ ho)
        · cases h

/-- The characters a width is made of. -/
def NoWidth (fmt : List Nat) : Prop := ∀ x ∈ fmt, ¬ (49 ≤ x ∧ x ≤ 57) ∧ x ≠ 42 ∧ x ≠ 45

theorem next_fine {c : Ctx} {first : Bool} {x : Nat} {r : List Nat} (hf : c.fmt = x :: r) :
    (∀ c', c.next first x r = .go c' → c'.out = c.out ∧ (∀ y ∈ c'.fmt, y ∈ c.fmt) ∧
      (NoWidth c.fmt → c'.lpad = c.lpad ∧ c'.rpad = c.rpad)) ∧
    (∀ c', c.next first x r = .unknown c' → c'.out = c.out ∧ (∀ y ∈ c'.fmt, y ∈ c.fmt) ∧
      c'.lpad = c.lpad ∧ c'.rpad = c.rpad) := by
  have hr : ∀ y ∈ r, y ∈ c.fmt := by intro y hy; rw [hf]; exact List.mem_cons_of_mem _ hy
  have hw : NoWidth c.fmt → ¬ (49 ≤ x ∧ x ≤ 57) ∧ x ≠ 42 ∧ x ≠ 45 := fun h => h x (by rw [hf]; exact List.mem_cons_self)
  have ht : ∀ y ∈ r.tail, y ∈ c.fmt := fun y hy => hr y (List.mem_of_mem_tail hy)
  have hd : ∀ n, ∀ y ∈ r.drop n, y ∈ c.fmt := fun n y hy => hr y (List.mem_of_mem_drop hy)
  have hd2 : ∀ n, ∀ y ∈ c.fmt.drop n, y ∈ c.fmt := fun n y hy => List.mem_of_mem_drop hy
  unfold Ctx.next
  by_cases h0 : x = 48
  · simp only [if_pos h0]
    exact ⟨fun c' h => by cases h; exact ⟨rfl, hr, fun _ => ⟨rfl, rfl⟩⟩, fun c' h => by cases h⟩
  simp only [if_neg h0]
  by_cases h1 : 49 ≤ x ∧ x ≤ 57
  · simp only [if_pos h1]
    exact ⟨fun c' h => by cases h; exact ⟨rfl, hd2 _, fun q => absurd h1 (hw q).1⟩, fun c' h => by cases h⟩
  simp only [if_neg h1]
  by_cases h2 : x = 42
  · simp only [if_pos h2]
    refine ⟨fun c' h => ?_, fun c' h => ?_⟩
    · split at h <;> (cases h; exact ⟨rfl, hr, fun q => absurd h2 (hw q).2.1⟩)
    · split at h <;> cases h
  simp only [if_neg h2]
  by_cases h3 : x = 45
  · simp only [if_pos h3]
    refine ⟨fun c' h => ?_, fun c' h => ?_⟩
    · split at h
      · cases h; exact ⟨rfl, ht, fun q => absurd h3 (hw q).2.2⟩
      · cases h; exact ⟨rfl, hd _, fun q => absurd h3 (hw q).2.2⟩
    · split at h <;> cases h
  simp only [if_neg h3]
  by_cases h4 : x = 46
  · simp only [if_pos h4]
    refine ⟨fun c' h => ?_, fun c' h => ?_⟩
    · split at h
      · cases h; exact ⟨rfl, ht, fun _ => ⟨rfl, rfl⟩⟩
      · cases h; exact ⟨rfl, hd _, fun _ => ⟨rfl, rfl⟩⟩
    · split at h <;> cases h
  simp only [if_neg h4]
  by_cases h5 : x = 35
  · simp only [if_pos h5]
    refine ⟨fun c' h => ?_, fun c' h => ?_⟩
    · split at h
      · split at h
        · cases h
        · cases h; exact ⟨rfl, hr, fun _ => ⟨rfl, rfl⟩⟩
      · split at h
        · cases h
        · split at h
          · cases h
          · cases h; exact ⟨rfl, hr, fun _ => ⟨rfl, rfl⟩⟩
    · split at h
      · split at h
        · cases h; exact ⟨rfl, hr, rfl, rfl⟩
        · cases h
      · split at h
        · cases h; exact ⟨rfl, fun _ h => h, rfl, rfl⟩
        · split at h
          · cases h; exact ⟨rfl, fun _ h => h, rfl, rfl⟩
          · cases h
  simp only [if_neg h5]
  refine ⟨fun c' h => ?_, fun c' h => ?_⟩
  · split at h
    · split at h
      · cases h; exact ⟨rfl, hr, fun _ => ⟨rfl, rfl⟩⟩
      · cases h
    · cases h
  · split at h
    · split at h
      · cases h
      · cases h; exact ⟨rfl, fun _ h => h, rfl, rfl⟩
    · cases h; exact ⟨rfl, fun _ h => h, rfl, rfl⟩

/-- What a sequence may do to the buffer. -/
def SeqFine (size : Nat) (c : Ctx) (r : Ctx × Bool) : Prop :=
  (r.2 = true → r.1.out.length < size ∧ r.1.lpad = 0 ∧ r.1.rpad = 0) ∧ r.1.out.length ≤ size + 1 ∧
  (NoWidth c.fmt → c.lpad = 0 → c.rpad = 0 → r.1.out.length ≤ size) ∧ (∀ x ∈ r.1.fmt, x ∈ c.fmt)

theorem seq_fine (n : Nat) : ∀ (first : Bool) (c : Ctx) (r : Ctx × Bool), c.out.length < size →
    Ctx.seq size strs n first c = some r → SeqFine size c r := by
  induction n with
  | zero => intro _ _ _ _ h; cases h
  | succ n ih =>
    intro first c r ho h
    unfold Ctx.seq at h
    split at h
    · cases h
      exact ⟨(fun h => by cases h), (show c.out.length ≤ size + 1 by omega),
        (fun _ _ _ => show c.out.length ≤ size by omega), fun _ h => h⟩
    · rename_i x t hf
      split at h
      · rename_i res hc
        cases h
        obtain ⟨a, b, d, e⟩ := fine_convert ho hc
        exact ⟨a, b, fun _ => d, e⟩
      · obtain ⟨n1, n2⟩ := next_fine (first := first) hf
        split at h
        · rename_i c' hn
          obtain ⟨a1, a2, a3⟩ := n1 c' hn
          obtain ⟨b1, b2, b3, b4⟩ := ih false c' r (by rw [a1]; exact ho) h
          refine ⟨b1, b2, fun hw q1 q2 => ?_, fun y hy => a2 y (b4 y hy)⟩
          obtain ⟨a4, a5⟩ := a3 hw
          exact b3 (fun y hy => hw y (a2 y hy)) (by rw [a4, q1]) (by rw [a5, q2])
        · rename_i c' hn
          obtain ⟨a1, a2, a3, a4⟩ := n2 c' hn
          cases h
          obtain ⟨b1, b2, b3, b4⟩ := fine_unknown c' (size := size) (by rw [a1]; exact ho)
          exact ⟨b1, b2, fun _ q1 q2 => b3 (by rw [a3, q1]) (by rw [a4, q2]), fun y hy => a2 y (b4 y hy)⟩

theorem processSeq_fine {c : Ctx} {r : Ctx × Bool} {n : Nat} (ho : c.out.length < size)
    (hl : c.lpad = 0) (hr : c.rpad = 0)
    (h : Ctx.processSeq c size strs n = some r) : SeqFine size c r := by
  unfold Ctx.processSeq at h
  split at h
  · split at h
    · cases h
      rename_i x _ _ _
      obtain ⟨b1, b2⟩ := emits_bound (emits_chr size x) ho
      exact ⟨fun q => ⟨b2 q, hl, hr⟩, Nat.le_succ_of_le b1, fun _ _ _ => b1, fun _ h => h⟩
    · exact seq_fine n _ _ _ ho h
  · exact seq_fine n _ _ _ ho h

theorem loop_fine (n : Nat) : ∀ (c : Ctx) (o : List Nat), c.out.length < size → c.lpad = 0 → c.rpad = 0 →
    Ctx.loop size strs n c = some (.ok o) →
    o.length ≤ size + 1 ∧ (NoWidth c.fmt → o.length ≤ size) := by
  induction n with
  | zero => intro _ _ _ _ _ h; cases h
  | succ n ih =>
    intro c o ho hl hrp h
    unfold Ctx.loop at h
    split at h
    · cases h
      exact ⟨by omega, fun _ => by omega⟩
    · rename_i x r hf
      have hsub : NoWidth c.fmt → NoWidth r := fun h y hy => h y (by rw [hf]; exact List.mem_cons_of_mem _ hy)
      split at h
      · obtain ⟨b1, b2⟩ := emits_bound (emits_chr size x) ho
        dsimp only at h
        split at h
        · rename_i hb
          obtain ⟨d1, d2⟩ := ih { c with out := (chr size x c.out).1, fmt := r } o (b2 hb) hl hrp h
          exact ⟨d1, fun q => d2 (hsub q)⟩
        · cases h
          exact ⟨Nat.le_succ_of_le b1, fun _ => b1⟩
      · split at h
        · cases h
        · rename_i c' hp
          cases h
          obtain ⟨b1, b2, b3, b4⟩ := processSeq_fine (c := { c with fmt := r }) ho hl hrp hp
          exact ⟨b2, fun q => b3 (hsub q) hl hrp⟩
        · rename_i c' hp
          obtain ⟨b1, b2, b3, b4⟩ := processSeq_fine (c := { c with fmt := r }) ho hl hrp hp
          obtain ⟨g1, g2, g3⟩ := b1 rfl
          split at h
          · cases h
          · rename_i y r' hf'
            obtain ⟨d1, d2⟩ := ih { c' with fmt := r' } o g1 g2 g3 h
            refine ⟨d1, fun q => d2 fun z hz => hsub q z (b4 z ?_)⟩
            show z ∈ c'.fmt
            rw [hf']
            exact List.mem_cons_of_mem _ hz

/-- C118: whatever the format, the arguments and the size of the buffer (except 0): at most one byte
beyond the buffer is written, and none when the format has no width; what is written ends with a
NUL. -/
theorem buffer_partial {n : Nat} {fmt args mem : List Nat} {before : Bool} {ret : Nat} (hs : 1 ≤ size)
    (h : snprintk n size strs fmt args = some (.done mem before ret)) :
    before = false ∧ mem.length ≤ size + 1 ∧ (NoWidth fmt → mem.length ≤ size) ∧ mem.getLast? = some 0 := by
  unfold snprintk at h
  split at h
  · cases h
  · cases h
  · rename_i o hl
    obtain ⟨b1, b2⟩ := loop_fine n { fmt := fmt, args := args, out := [] } o (show 0 < size by omega) rfl rfl hl
    have h := Option.some.inj h
    unfold terminate at h
    split at h
    · cases h
      refine ⟨rfl, by simp; omega, fun _ => by simp; omega, by simp⟩
    · split at h
      · rename_i _ h0
        subst h0
        rename_i h1
        exact absurd (show (0 : Nat) < size by omega) h1
      · rename_i h0
        have hpos : 1 ≤ o.length := by
          cases o with
          | nil => exact absurd rfl h0
          | cons _ _ => simp
        cases h
        refine ⟨rfl, ?_, fun q => ?_, by simp⟩
        · simp; omega
        · have := b2 q
          simp; omega

/-! ## What goes wrong -/

/-- The bytes of a text. -/
def bytes (s : String) : List Nat := s.toList.map Char.toNat

/-- No strings. -/
def noStr : Nat → List Nat := fun _ => []

/-- One string, "abcdef". -/
def oneStr : Nat → List Nat := fun _ => bytes "abcdef"

/-- C118 fails for a buffer of 0 bytes: a byte before the buffer is changed, or one after it. -/
theorem empty_buffer_violated :
    snprintk 10 0 noStr [] [] = some (.done [] true 0) ∧
    snprintk 10 0 noStr (bytes "a") [] = some (.done [0] false 1) := by decide +kernel

/-- C118 fails: an unknown conversion with a width writes one byte beyond the buffer, the NUL
included: 4 bytes in a buffer of 3, which itself has no NUL. -/
theorem unknown_conversion_violated :
    snprintk 20 3 noStr (bytes "%12y") [] = some (.done (bytes "%12" ++ [0]) false 4) := by decide +kernel

/-- C118 fails: the format is read after its end. -/
theorem overread_violated : snprintk 20 100 noStr (bytes "%##") [] = some .overread := by decide +kernel

/-- One step with a width too large for 31 bits leads to the same place. -/
theorem huge_step (first : Bool) (c : Ctx) (hf : c.fmt = bytes "3000000000d") :
    c.next first 51 (bytes "000000000d") = .go { c with lpad := 0 } := by
  have h1 : (strtol 32 10 (bytes "3000000000d")).val = 0 := by decide +kernel
  have h2 : (strtol 32 10 (bytes "3000000000d")).endOff = 0 := by decide +kernel
  unfold Ctx.next
  rw [if_neg (by decide), if_pos (by decide), hf, h1, h2]
  show Next.go { c with lpad := 0, fmt := bytes "3000000000d" } = _
  cases c
  subst hf
  rfl

theorem huge_loops (n : Nat) : ∀ (first : Bool) (c : Ctx), c.fmt = bytes "3000000000d" →
    Ctx.seq size strs n first c = none := by
  induction n with
  | zero => intro _ _ _; rfl
  | succ n ih =>
    intro first c hf
    have hf' : c.fmt = 51 :: bytes "000000000d" := hf
    unfold Ctx.seq
    simp only [hf']
    have hc : c.convert size strs 51 = none := rfl
    rw [hc]
    simp only [huge_step first c hf]
    exact ih false { c with lpad := 0 } hf

/-- C119 fails: with a width above 2^31-1 the call never ends. -/
theorem huge_width_violated (n size : Nat) (strs : Nat → List Nat) (args : List Nat) :
    snprintk n size strs (bytes "%3000000000d") args = none := by
  have : Ctx.loop size strs n { fmt := bytes "%3000000000d", args := args, out := [] } = none := by
    cases n with
    | zero => rfl
    | succ n =>
      show (match Ctx.processSeq { fmt := bytes "3000000000d", args := args, out := [] } size strs n with
        | none => none
        | some (c, false) => some (.ok c.out)
        | some (c, true) =>
          match c.fmt with
          | [] => some .overread
          | _ :: r => Ctx.loop size strs n { c with fmt := r }) = none
      have hp : Ctx.processSeq { fmt := bytes "3000000000d", args := args, out := [] } size strs n = none := by
        exact huge_loops n true _ rfl
      rw [hp]
  unfold snprintk
  rw [this]

/-- What a call leaves in a large buffer. -/
def shows (strs : Nat → List Nat) (fmt : String) (args : List Nat) (text : String) : Prop :=
  snprintk 100 100 strs (bytes fmt) args = some (.done (bytes text ++ [0]) false (bytes text).length)

instance (strs : Nat → List Nat) (fmt : String) (args : List Nat) (text : String) :
    Decidable (shows strs fmt args text) := inferInstanceAs (Decidable (_ = _))

/-- C119 fails: a precision cuts numbers: 12345 with at least 3 digits is shown as 123. -/
theorem precision_cuts_number_violated : shows noStr "%.3d" [12345] "123" ∧
    numText false false false 0 (some 3) .d 12345 = bytes "12345" := by decide +kernel

/-- C119 fails: zeros before the sign. -/
theorem zeros_before_sign_violated : shows noStr "%05d" [2 ^ 32 - 42] "00-42" ∧
    numText false true false 5 none .d (-42) = bytes "-0042" := by decide +kernel

/-- C119 fails: zeros after the number, which then reads as another one. -/
theorem zeros_after_violated : shows noStr "%0-5d" [42] "42000" ∧
    numText false true true 5 none .d 42 = bytes "42   " := by decide +kernel

/-- C119 fails: with a precision the width is forgotten. -/
theorem width_with_precision_violated : shows noStr "%8.5d" [42] "00042" ∧
    numText false false false 8 (some 5) .d 42 = bytes "   00042" := by decide +kernel

/-- C119 fails: a string cut by its precision does not fill its field. -/
theorem cut_string_field_violated : shows oneStr "%8.3s" [1] "  abc" ∧
    strText false 8 (some 3) (bytes "abcdef") = bytes "     abc" := by decide +kernel

/-- C119 fails: `#` with 0, with capitals, and with a precision. -/
theorem alternate_form_violated : shows noStr "%#x" [0] "0x0" ∧ shows noStr "%#X" [255] "0xFF" ∧
    shows noStr "%#.4x" [255] "0xff" ∧
    numText true false false 0 none .x 0 = bytes "0" ∧ numText true false false 0 none .X 255 = bytes "0XFF" ∧
    numText true false false 0 (some 4) .x 255 = bytes "0x00ff" := by decide +kernel

/-- C119 fails: a negative precision from the arguments hides the string. -/
theorem negative_precision_violated : shows oneStr "%.*s" [2 ^ 32 - 1, 1] "" ∧
    strText false 0 none (bytes "abcdef") = bytes "abcdef" := by decide +kernel

/-- C119 fails: a field with a pointer is two characters too wide. -/
theorem pointer_field_violated : shows noStr "%12p" [255] "    0x000000ff" := by decide +kernel

/-- The hypotheses of `formatted_partial` are met. -/
example : ∀ pc ∈ [Piece.num true true false (.lit (bytes "10")) .none .none .x 255, .lit 32,
    .str true (.star 8) .none 1, .num false false false .none (.lit (bytes "15")) .ll .u (2 ^ 40 + 5), .percent,
    .chr false (.star (-3)) 65, .ptr 4096, .num false false true (.lit (bytes "6")) .none .hh .d 200],
    pc.Ok oneStr := by
  intro pc hpc
  simp only [List.mem_cons, List.not_mem_nil, or_false] at hpc
  rcases hpc with rfl | rfl | rfl | rfl | rfl | rfl | rfl | rfl
  · refine ⟨⟨⟨49, rfl, by decide⟩, 10, by decide +kernel, by decide⟩, trivial, by decide, fun _ => ⟨.inl rfl, by decide +kernel⟩,
      fun _ => ⟨rfl, by decide +kernel, by decide +kernel⟩, fun h => absurd rfl h⟩
  · exact ⟨by decide, by decide⟩
  · exact ⟨⟨by decide, by decide⟩, trivial, by decide, fun h => absurd rfl h⟩
  · refine ⟨trivial, ⟨15, by decide +kernel, by decide⟩, by decide, fun h => absurd h (by decide), fun h => absurd h (by decide),
      fun _ => ⟨rfl, rfl, rfl, by decide +kernel, by decide +kernel⟩⟩
  · trivial
  · exact ⟨⟨by decide, by decide⟩, by decide, by decide⟩
  · show 4096 < 2 ^ 32
    decide
  · refine ⟨⟨⟨54, rfl, by decide⟩, 6, by decide +kernel, by decide⟩, trivial, by decide, fun h => absurd h (by decide),
      fun h => absurd h (by decide), fun h => absurd rfl h⟩

end Verif.Snprintk
