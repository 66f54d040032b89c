/-
The PS/2 keyboard: from the bytes the hardware sends to the bytes a program reads.

Modelled code (vvaltchev/tilck):
  modules/kb8042/generic_x86/kb.c 26-250, 327-335   scan code decoding, pressed keys, locks, ring buffer
  modules/kb8042/generic_x86/kb_layouts.c.h          the tables
  modules/kb8042/generic_x86/kb_ansi_seq.c.h         escape sequences of non-printable keys
  kernel/kb_input.c 24-66                            modifiers, function keys
  kernel/tty/tty_input.c 236-262, 321-417            what a key does to the current terminal

Not modelled: programming of the i8042 controller, LEDs, the panic-time path, other keypress handlers
(kernel/tty/tty.c:426 registers the only one), the worker thread (a bottom half is a step here),
and what the terminal does with a character it has received (module TtyIn).
-/
import Mathlib.Data.List.Nodup
import Mathlib.Tactic.Common

namespace Verif.Kbd

/-! ## Model -/

/-- kb.c:26-32, `enum kb_state`. -/
inductive Pre | dflt | e0 | e1 | afterE1
  deriving DecidableEq

/-- kb.c:34-38: the driver's state. `down e0 code` is `key_pressed_state[e0][code]`. `off` records that
`reboot()` was called (it does not return). -/
structure St where
  pre : Pre
  down : Bool → Nat → Bool
  num : Bool
  caps : Bool
  off : Bool

/-- What a key does: the machine is rebooted; a byte is put into the input buffer of the terminal as it is
(`tty_inbuf_write_elem`); a character is handed to the terminal (`tty_send_keyevent`); the terminal is
scrolled; another terminal becomes the current one (`set_curr_tty`). -/
inductive Out | reboot | ins (b : Nat) | chr (c : Nat) | scrollUp | scrollDown | switch (n : Nat)
  deriving DecidableEq

/-- What the handler reads of the terminals when a key event is delivered: whether the current one is in
medium raw mode, whether it is in graphics mode, which one it is, how many there are (`kopt_ttys`). -/
structure Env where
  mr : Bool
  gfx : Bool
  cur : Nat
  ntty : Nat

/-- kb_scancode_set1_keys.h -/
def KEY_L_SHIFT := 0x2A
def KEY_R_SHIFT := 0x36
def KEY_NUM_LOCK := 0x45
def KEY_CAPS_LOCK := 0x3A
def KEY_LEFT_CTRL := 0x1d
def KEY_RIGHT_CTRL := 0xE01d
def KEY_LEFT_ALT := 0x38
def KEY_RIGHT_ALT := 0xE038
def KEY_DEL := 0xE053
def KEY_PAGE_UP := 0xE049
def KEY_PAGE_DOWN := 0xE051
def KEY_NUMPAD_ENTER := 0xE01c
def KEY_NUMPAD_SLASH := 0xE035

/-- kb.c:43-47, `kb_is_pressed`. -/
def isPressed (s : St) (key : Nat) : Bool := s.down (decide (key / 256 = 0xE0)) (key % 256)

/-- kb_layouts.c.h:8-13, `numkey`. -/
def numkey (key : Nat) : Nat :=
  if 71 ≤ key ∧ key ≤ 73 then 55 + (key - 71)
  else if 75 ≤ key ∧ key ≤ 77 then 52 + (key - 75)
  else if 79 ≤ key ∧ key ≤ 81 then 49 + (key - 79)
  else if key = 82 then 48
  else if key = 83 then 46
  else 0

/-- kb_layouts.c.h:15-54, `kbd_us`; the entries that are not given are 0. -/
def kbdUs : List Nat :=
  [0, 27, 49, 50, 51, 52, 53, 54, 55, 56,
   57, 48, 45, 61, 127, 9,
   113, 119, 101, 114, 116, 121, 117, 105, 111, 112, 91, 93, 13, 0,
   97, 115, 100, 102, 103, 104, 106, 107, 108, 59,
   39, 96, 0, 92, 122, 120, 99, 118, 98, 110,
   109, 44, 46, 47, 0, 42, 0, 32, 0,
   0, 0, 0, 0, 0, 0, 0, 0, 0, 0,
   0, 0, 0, 0, 0, 45, 0, 0, 0, 43,
   0, 0, 0, 0, 0, 0, 0, 92, 0, 0]

/-- kb_layouts.c.h:56-95, `kbd_us_up`. -/
def kbdUsUp : List Nat :=
  [0, 27, 33, 64, 35, 36, 37, 94, 38, 42,
   40, 41, 95, 43, 8, 9,
   81, 87, 69, 82, 84, 89, 85, 73, 79, 80, 123, 125, 10, 0,
   65, 83, 68, 70, 71, 72, 74, 75, 76, 58,
   34, 126, 0, 124, 90, 88, 67, 86, 66, 78,
   77, 60, 62, 63, 0, 42, 0, 32, 0,
   0, 0, 0, 0, 0, 0, 0, 0, 0, 0,
   0, 0, 0, 0, 0, 45, 0, 0, 0, 43,
   0, 0, 0, 0, 0, 0, 0, 124, 0, 0]

/-- common/string_util.h:54-76 -/
def isLower (c : Nat) : Bool := decide (97 ≤ c) && decide (c ≤ 122)
def isUpper (c : Nat) : Bool := decide (65 ≤ c) && decide (c ≤ 90)
def toUpper (c : Nat) : Nat := if isLower c then c - 32 else c
def isDigit (c : Nat) : Bool := decide (48 ≤ c) && decide (c ≤ 57)

/-- kb.c:54-86, `translate_printable_key`, after the state of the shift keys and the locks has been read. -/
def translate (shift num caps : Bool) (key : Nat) : Nat :=
  if 256 ≤ key then
    if key = KEY_NUMPAD_ENTER then 13 else if key = KEY_NUMPAD_SLASH then 47 else 0
  else
    let c0 := ((if shift then kbdUsUp else kbdUs)[key]?).getD 0
    let c1 := if num then c0 ||| numkey key else c0
    if caps then toUpper c1 else c1

/-- kb.h:62-75 -/
def isCtrl (s : St) : Bool := isPressed s KEY_LEFT_CTRL || isPressed s KEY_RIGHT_CTRL
def isAlt (s : St) : Bool := isPressed s KEY_LEFT_ALT || isPressed s KEY_RIGHT_ALT
def isShift (s : St) : Bool := isPressed s KEY_L_SHIFT || isPressed s KEY_R_SHIFT

/-- kb_input.c:24-43, `kb_get_current_modifiers`. -/
def modifiers (shift alt ctrl : Bool) : Nat := 1 * shift.toNat + 2 * alt.toNat + 4 * ctrl.toNat

/-- kb_input.c:46-70, `kb_get_fn_key_pressed`. -/
def fnKey (key : Nat) : Nat :=
  if 256 ≤ key then 0
  else if 0x3B ≤ key ∧ key ≤ 0x44 then key - 0x3B + 1
  else if key = 0x57 then 11 else if key = 0x58 then 12 else 0

/-- kb_ansi_seq.c.h:8-52, `ansi_sequences`. -/
def ansiSeqs : List (Nat × List Nat) :=
  [(0xE048, [27, 91, 65]), (0xE050, [27, 91, 66]), (0xE04d, [27, 91, 67]), (0xE04b, [27, 91, 68]),
   (0x48, [27, 91, 65]), (0x50, [27, 91, 66]), (0x4d, [27, 91, 67]), (0x4b, [27, 91, 68]),
   (0xE049, [27, 91, 53, 126]), (0x49, [27, 91, 53, 126]),
   (0xE051, [27, 91, 54, 126]), (0x51, [27, 91, 54, 126]),
   (0xE052, [27, 91, 50, 126]), (0x52, [27, 91, 50, 126]),
   (0xE053, [27, 91, 51, 126]), (0x53, [27, 91, 51, 126]),
   (0xE047, [27, 91, 49, 126]), (0x47, [27, 91, 49, 126]),
   (0xE04f, [27, 91, 52, 126]), (0x4f, [27, 91, 52, 126]),
   (0x3B, [27, 91, 91, 65]), (0x3C, [27, 91, 91, 66]), (0x3D, [27, 91, 91, 67]),
   (0x3E, [27, 91, 91, 68]), (0x3F, [27, 91, 91, 69]),
   (0x40, [27, 91, 49, 55, 126]), (0x41, [27, 91, 49, 56, 126]), (0x42, [27, 91, 49, 57, 126]),
   (0x43, [27, 91, 50, 48, 126]), (0x44, [27, 91, 50, 49, 126]),
   (0x57, [27, 91, 50, 51, 126]), (0x58, [27, 91, 50, 52, 126])]

/-- kb_ansi_seq.c.h:132-146: insert `; <modifiers+1>` before the last character. -/
def addMod (seq : List Nat) (m : Nat) : List Nat :=
  seq.take (seq.length - 1) ++ [59, 49 + m] ++ seq.drop (seq.length - 1)

/-- kb_ansi_seq.c.h:54-147, `kb_scancode_to_ansi_seq`; `none` for the result `false`. The buffer of the caller
is a list here, without the final NUL (`seq_fits` bounds its length). The branch for `\033O` sequences (95-112)
is kept. -/
def ansiSeq (key m : Nat) : Option (List Nat) :=
  match ansiSeqs.find? (fun p => p.1 == key) with
  | none => none
  | some (_, base) =>
    if m = 0 then some base
    else if base[1]? ≠ some 91 then
      if base[1]? = some 79 then some (addMod ([27, 91, 49] ++ (base.drop 2).take 1) m) else none
    else if isDigit ((base[2]?).getD 0) = false then
      if base.length ≠ 3 then none
      else some (addMod (base.take 2 ++ [49] ++ base.drop 2) m)
    else some (addMod base m)

/-- kb_layouts.c.h:103-124, `mediumraw_e0_keys`. -/
def mrE0 (code : Nat) : Nat :=
  match [(0x48, 0x67), (0x50, 0x6c), (0x4d, 0x6a), (0x4b, 0x69), (0x1d, 0x61), (0x38, 0x64), (0x52, 0x6e),
         (0x47, 0x66), (0x53, 0x6f), (0x4f, 0x6b), (0x49, 0x68), (0x51, 0x6d), (0x1c, 0x60), (0x35, 0x62)].lookup code with
  | some c => c
  | none => 0

/-- kb.c:327-335, `kb_translate_to_mediumraw`. -/
def mediumraw (key : Nat) (pressed : Bool) : Nat :=
  (if key < 256 then key else mrE0 (key % 256)) ||| (if pressed then 0 else 0x80)

/-- tty_input.c:334-341: what Ctrl does to a character. -/
def ctrlChar (ctrl : Bool) (c : Nat) : Nat :=
  if ctrl then
    if isLower c || isUpper c || c == 92 || c == 91 then (toUpper c + 256 - 65 + 1) % 256 else c
  else c

/-- tty_input.c:236-262 and 321-347, `tty_keypress_handler_int`. -/
def keyInt (shift alt ctrl : Bool) (key c : Nat) : List Out :=
  if c = 0 then
    match ansiSeq key (modifiers shift alt ctrl) with
    | none => []
    | some bs => bs.map .ins
  else (if alt then [.ins 27] else []) ++ [.chr (ctrlChar ctrl c)]

/-- tty_input.c:388-414: Alt + Fn. `none` when the key is not handled here. -/
def altFn (e : Env) (alt : Bool) (key : Nat) : Option (List Out) :=
  if alt = true ∧ 0 < fnKey key ∧ e.gfx = false then
    if e.ntty < fnKey key then some []
    else if fnKey key = e.cur then some []
    else some [.switch (fnKey key)]
  else none

/-- tty_input.c:366-417, `tty_keypress_handler`. -/
def ttyKey (e : Env) (shift alt ctrl : Bool) (key c : Nat) (pressed : Bool) : List Out :=
  if e.mr then
    if mediumraw key pressed = 0 then [] else [.ins (mediumraw key pressed)]
  else if pressed = false then []
  else if key = KEY_PAGE_UP ∧ shift = true then [.scrollUp]
  else if key = KEY_PAGE_DOWN ∧ shift = true then [.scrollDown]
  else match altFn e alt key with
    | some r => r
    | none => keyInt shift alt ctrl key c

/-- kb.c:152-161, the part of `handle_key_pressed` that calls the handlers. -/
def callHandlers (s : St) (e : Env) (key : Nat) (pressed : Bool) : List Out :=
  ttyKey e (isShift s) (isAlt s) (isCtrl s) key (translate (isShift s) s.num s.caps key) pressed

/-- kb.c:122-161, `handle_special_keys_pressed` and `handle_key_pressed`. -/
def handleKey (s : St) (e : Env) (key : Nat) (pressed : Bool) : St × List Out :=
  if pressed = true ∧ key = KEY_DEL ∧ isPressed s KEY_LEFT_CTRL = true ∧ isPressed s KEY_LEFT_ALT = true then
    ({ s with off := true }, [.reboot])
  else if pressed = true ∧ key = KEY_NUM_LOCK then ({ s with num := !s.num }, [])
  else if pressed = true ∧ key = KEY_CAPS_LOCK then ({ s with caps := !s.caps }, [])
  else (s, callHandlers s e key pressed)

/-- kb.c:163-168, `key_int_handler`, the update of `key_pressed_state`. -/
def setKey (s : St) (key : Nat) (pressed : Bool) : St :=
  { s with down := fun e c => if e = decide (key / 256 = 0xE0) ∧ c = key % 256 then pressed else s.down e c }

/-- kb.c:163-168, `key_int_handler`. -/
def keyIntHandler (s : St) (e : Env) (key : Nat) (pressed : Bool) : St × List Out :=
  handleKey (setKey s key pressed) e key pressed

/-- kb.c:170-220, `kb_handle_default_state` and `kb_process_scancode`. A scan code is a byte: `sc % 128` is
`sc & ~0x80`, `sc < 128` is `!(sc & 0x80)`. -/
def process (s : St) (e : Env) (sc : Nat) : St × List Out :=
  if s.off then (s, [])
  else match s.pre with
    | .afterE1 => ({ s with pre := .dflt }, [])
    | .e1 => ({ s with pre := .afterE1 }, [])
    | .e0 =>
      if sc = 0x2A ∨ sc = 0xAA then ({ s with pre := .dflt }, [])
      else keyIntHandler { s with pre := .dflt } e (sc % 128 + 0xE000) (decide (sc < 128))
    | .dflt =>
      if sc = 0xE0 then ({ s with pre := .e0 }, [])
      else if sc = 0xE1 then ({ s with pre := .e1 }, [])
      else keyIntHandler s e (sc % 128) (decide (sc < 128))

/-- A run of `kb_process_scancode` over consecutive scan codes, with the same terminal state. -/
def processAll (s : St) (e : Env) : List Nat → St × List Out
  | [] => (s, [])
  | sc :: r => ((processAll (process s e sc).1 e r).1, (process s e sc).2 ++ (processAll (process s e sc).1 e r).2)

/-- kb.c:34-38, 457-470: at boot no key is pressed; `numLock` is set when running in a virtual machine. -/
def init (vm : Bool) : St := ⟨.dflt, fun _ _ => false, vm, false, false⟩

/-! ## Specification -/

/-- The keys of a US keyboard (104 keys and the extra key of 102-key layouts), without Pause. -/
inductive Key
  | esc | d1 | d2 | d3 | d4 | d5 | d6 | d7 | d8 | d9 | d0 | minus | equal | backspace | tab
  | q | w | e | r | t | y | u | i | o | p | lbracket | rbracket | enter | lctrl
  | a | s | d | f | g | h | j | k | l | semicolon | quote | grave | lshift | backslash
  | z | x | c | v | b | n | m | comma | dot | slash | rshift | kpStar | lalt | space | caps
  | f1 | f2 | f3 | f4 | f5 | f6 | f7 | f8 | f9 | f10 | num | scroll
  | kp7 | kp8 | kp9 | kpMinus | kp4 | kp5 | kp6 | kpPlus | kp1 | kp2 | kp3 | kp0 | kpDot
  | iso | f11 | f12
  | kpEnter | rctrl | kpSlash | prtsc | ralt | home | up | pgup | left | right | end_ | down | pgdn | ins | del
  | lmeta | rmeta | menu
  deriving DecidableEq

/-- All of them. -/
def keys : List Key :=
  [.esc, .d1, .d2, .d3, .d4, .d5, .d6, .d7, .d8, .d9, .d0, .minus, .equal, .backspace, .tab,
   .q, .w, .e, .r, .t, .y, .u, .i, .o, .p, .lbracket, .rbracket, .enter, .lctrl,
   .a, .s, .d, .f, .g, .h, .j, .k, .l, .semicolon, .quote, .grave, .lshift, .backslash,
   .z, .x, .c, .v, .b, .n, .m, .comma, .dot, .slash, .rshift, .kpStar, .lalt, .space, .caps,
   .f1, .f2, .f3, .f4, .f5, .f6, .f7, .f8, .f9, .f10, .num, .scroll,
   .kp7, .kp8, .kp9, .kpMinus, .kp4, .kp5, .kp6, .kpPlus, .kp1, .kp2, .kp3, .kp0, .kpDot,
   .iso, .f11, .f12,
   .kpEnter, .rctrl, .kpSlash, .prtsc, .ralt, .home, .up, .pgup, .left, .right, .end_, .down, .pgdn, .ins, .del,
   .lmeta, .rmeta, .menu]

/-- The scan code set 1 (IBM): the code a key sends, and whether it is preceded by the byte E0. -/
def wire : Key → Bool × Nat
  | .esc => (false, 1) | .d1 => (false, 2) | .d2 => (false, 3) | .d3 => (false, 4) | .d4 => (false, 5)
  | .d5 => (false, 6) | .d6 => (false, 7) | .d7 => (false, 8) | .d8 => (false, 9) | .d9 => (false, 10)
  | .d0 => (false, 11) | .minus => (false, 12) | .equal => (false, 13) | .backspace => (false, 14)
  | .tab => (false, 15) | .q => (false, 16) | .w => (false, 17) | .e => (false, 18) | .r => (false, 19)
  | .t => (false, 20) | .y => (false, 21) | .u => (false, 22) | .i => (false, 23) | .o => (false, 24)
  | .p => (false, 25) | .lbracket => (false, 26) | .rbracket => (false, 27) | .enter => (false, 28)
  | .lctrl => (false, 29) | .a => (false, 30) | .s => (false, 31) | .d => (false, 32) | .f => (false, 33)
  | .g => (false, 34) | .h => (false, 35) | .j => (false, 36) | .k => (false, 37) | .l => (false, 38)
  | .semicolon => (false, 39) | .quote => (false, 40) | .grave => (false, 41) | .lshift => (false, 42)
  | .backslash => (false, 43) | .z => (false, 44) | .x => (false, 45) | .c => (false, 46) | .v => (false, 47)
  | .b => (false, 48) | .n => (false, 49) | .m => (false, 50) | .comma => (false, 51) | .dot => (false, 52)
  | .slash => (false, 53) | .rshift => (false, 54) | .kpStar => (false, 55) | .lalt => (false, 56)
  | .space => (false, 57) | .caps => (false, 58) | .f1 => (false, 59) | .f2 => (false, 60) | .f3 => (false, 61)
  | .f4 => (false, 62) | .f5 => (false, 63) | .f6 => (false, 64) | .f7 => (false, 65) | .f8 => (false, 66)
  | .f9 => (false, 67) | .f10 => (false, 68) | .num => (false, 69) | .scroll => (false, 70) | .kp7 => (false, 71)
  | .kp8 => (false, 72) | .kp9 => (false, 73) | .kpMinus => (false, 74) | .kp4 => (false, 75) | .kp5 => (false, 76)
  | .kp6 => (false, 77) | .kpPlus => (false, 78) | .kp1 => (false, 79) | .kp2 => (false, 80) | .kp3 => (false, 81)
  | .kp0 => (false, 82) | .kpDot => (false, 83) | .iso => (false, 86) | .f11 => (false, 87) | .f12 => (false, 88)
  | .kpEnter => (true, 28) | .rctrl => (true, 29) | .kpSlash => (true, 53) | .prtsc => (true, 55)
  | .ralt => (true, 56) | .home => (true, 71) | .up => (true, 72) | .pgup => (true, 73) | .left => (true, 75)
  | .right => (true, 77) | .end_ => (true, 79) | .down => (true, 80) | .pgdn => (true, 81) | .ins => (true, 82)
  | .del => (true, 83) | .lmeta => (true, 91) | .rmeta => (true, 92) | .menu => (true, 93)

/-- What is done to the keyboard. Around some keys a keyboard also sends "fake" presses and releases of a
shift key, E0 2A / E0 AA and E0 36 / E0 B6. Pause is a single sequence of six bytes. -/
inductive Act
  | press (k : Key) | release (k : Key) | fakeL (b : Bool) | fakeR (b : Bool) | pause
  deriving DecidableEq

/-- The bytes the keyboard sends: bit 7 of the code is set on a release. -/
def Act.bytes : Act → List Nat
  | .press k => (if (wire k).1 then [0xE0] else []) ++ [(wire k).2]
  | .release k => (if (wire k).1 then [0xE0] else []) ++ [(wire k).2 + 0x80]
  | .fakeL b => [0xE0, if b then 0x2A else 0xAA]
  | .fakeR b => [0xE0, if b then 0x36 else 0xB6]
  | .pause => [0xE1, 0x1D, 0x45, 0xE1, 0x9D, 0xC5]

/-- What is on the key caps: the character alone, the character with Shift. -/
def caption : Key → Option (Char × Char)
  | .d1 => some ('1', '!') | .d2 => some ('2', '@') | .d3 => some ('3', '#') | .d4 => some ('4', '$')
  | .d5 => some ('5', '%') | .d6 => some ('6', '^') | .d7 => some ('7', '&') | .d8 => some ('8', '*')
  | .d9 => some ('9', '(') | .d0 => some ('0', ')') | .minus => some ('-', '_') | .equal => some ('=', '+')
  | .lbracket => some ('[', '{') | .rbracket => some (']', '}') | .semicolon => some (';', ':')
  | .quote => some ('\'', '"') | .grave => some ('`', '~') | .backslash => some ('\\', '|')
  | .comma => some (',', '<') | .dot => some ('.', '>') | .slash => some ('/', '?') | .iso => some ('\\', '|')
  | .space => some (' ', ' ') | .kpStar => some ('*', '*') | .kpMinus => some ('-', '-')
  | .kpPlus => some ('+', '+') | .kpSlash => some ('/', '/')
  | .esc => some ('\x1b', '\x1b') | .tab => some ('\t', '\t') | .backspace => some ('\x7f', '\x7f')
  | .enter => some ('\r', '\r') | .kpEnter => some ('\r', '\r')
  | _ => none

/-- The letter keys. -/
def letter : Key → Option (Char × Char)
  | .a => some ('a', 'A') | .b => some ('b', 'B') | .c => some ('c', 'C') | .d => some ('d', 'D')
  | .e => some ('e', 'E') | .f => some ('f', 'F') | .g => some ('g', 'G') | .h => some ('h', 'H')
  | .i => some ('i', 'I') | .j => some ('j', 'J') | .k => some ('k', 'K') | .l => some ('l', 'L')
  | .m => some ('m', 'M') | .n => some ('n', 'N') | .o => some ('o', 'O') | .p => some ('p', 'P')
  | .q => some ('q', 'Q') | .r => some ('r', 'R') | .s => some ('s', 'S') | .t => some ('t', 'T')
  | .u => some ('u', 'U') | .v => some ('v', 'V') | .w => some ('w', 'W') | .x => some ('x', 'X')
  | .y => some ('y', 'Y') | .z => some ('z', 'Z') | _ => none

/-- The keypad with Num Lock. -/
def keypad : Key → Option Char
  | .kp0 => some '0' | .kp1 => some '1' | .kp2 => some '2' | .kp3 => some '3' | .kp4 => some '4'
  | .kp5 => some '5' | .kp6 => some '6' | .kp7 => some '7' | .kp8 => some '8' | .kp9 => some '9'
  | .kpDot => some '.' | _ => none

/-- The character of a key. Caps Lock exchanges the two characters of a letter; Num Lock gives the digits
of the keypad. -/
def charOf (shift caps num : Bool) (k : Key) : Option Char :=
  match letter k with
  | some (lo, up) => some (if shift = caps then lo else up)
  | none =>
    match caption k with
    | some (lo, up) => some (if shift then up else lo)
    | none => if num then keypad k else none

/-- The control characters (ECMA-48 C0): Ctrl with a letter or with one of `[ \ ] ^ _`. -/
def control (c : Char) : Nat :=
  match (['a', 'b', 'c', 'd', 'e', 'f', 'g', 'h', 'i', 'j', 'k', 'l', 'm', 'n', 'o', 'p', 'q', 'r', 's', 't',
          'u', 'v', 'w', 'x', 'y', 'z'].findIdx? (· == c)) with
  | some i => i + 1
  | none =>
    match (['A', 'B', 'C', 'D', 'E', 'F', 'G', 'H', 'I', 'J', 'K', 'L', 'M', 'N', 'O', 'P', 'Q', 'R', 'S', 'T',
            'U', 'V', 'W', 'X', 'Y', 'Z', '[', '\\', ']', '^', '_'].findIdx? (· == c)) with
    | some i => i + 1
    | none => c.toNat

/-- Cursor keys: the final character of their sequence. -/
def cursor : Key → Option Char
  | .up => some 'A' | .down => some 'B' | .right => some 'C' | .left => some 'D'
  | .kp8 => some 'A' | .kp2 => some 'B' | .kp6 => some 'C' | .kp4 => some 'D' | _ => none

/-- The other editing keys and F6 .. F12: the parameter of their sequence. -/
def editing : Key → Option (List Char)
  | .home => some ['1'] | .kp7 => some ['1'] | .ins => some ['2'] | .kp0 => some ['2']
  | .del => some ['3'] | .kpDot => some ['3'] | .end_ => some ['4'] | .kp1 => some ['4']
  | .pgup => some ['5'] | .kp9 => some ['5'] | .pgdn => some ['6'] | .kp3 => some ['6']
  | .f6 => some ['1', '7'] | .f7 => some ['1', '8'] | .f8 => some ['1', '9'] | .f9 => some ['2', '0']
  | .f10 => some ['2', '1'] | .f11 => some ['2', '3'] | .f12 => some ['2', '4'] | _ => none

/-- F1 .. F5 have the sequences of the Linux console. -/
def fkey : Key → Option Char
  | .f1 => some 'A' | .f2 => some 'B' | .f3 => some 'C' | .f4 => some 'D' | .f5 => some 'E' | _ => none

/-- The digit that tells the modifiers in a sequence (xterm): one more than 1 for Shift, 2 for Alt, 4 for Ctrl. -/
def modDigit (shift alt ctrl : Bool) : Char :=
  match shift, alt, ctrl with
  | false, false, false => '1' | true, false, false => '2' | false, true, false => '3' | true, true, false => '4'
  | false, false, true => '5' | true, false, true => '6' | false, true, true => '7' | true, true, true => '8'

/-- The escape sequence of a key that has no character; no modifier, no modifier digit. For F1 .. F5 with a
modifier any sequence would do, this one continues the pattern. -/
def sequence (shift alt ctrl : Bool) (k : Key) : List Char :=
  let any := shift || alt || ctrl
  match cursor k with
  | some f => if any then ['\x1b', '[', '1', ';', modDigit shift alt ctrl, f] else ['\x1b', '[', f]
  | none =>
    match editing k with
    | some ps => ['\x1b', '['] ++ ps ++ (if any then [';', modDigit shift alt ctrl] else []) ++ ['~']
    | none =>
      match fkey k with
      | some f => ['\x1b', '[', '['] ++ (if any then ['1', ';', modDigit shift alt ctrl] else []) ++ [f]
      | none => []

/-- The number of a function key. -/
def fnum : Key → Option Nat
  | .f1 => some 1 | .f2 => some 2 | .f3 => some 3 | .f4 => some 4 | .f5 => some 5 | .f6 => some 6
  | .f7 => some 7 | .f8 => some 8 | .f9 => some 9 | .f10 => some 10 | .f11 => some 11 | .f12 => some 12
  | _ => none

/-- The key codes of Linux (linux/input-event-codes.h), for medium raw mode. Those of the keys without E0 are their
scan codes. `none`: not supported. -/
def keycode (k : Key) : Option Nat :=
  match k with
  | .kpEnter => some 96 | .rctrl => some 97 | .kpSlash => some 98 | .ralt => some 100 | .home => some 102
  | .up => some 103 | .pgup => some 104 | .left => some 105 | .right => some 106 | .end_ => some 107
  | .down => some 108 | .pgdn => some 109 | .ins => some 110 | .del => some 111
  | .prtsc => none | .lmeta => none | .rmeta => none | .menu => none
  | _ => some (wire k).2

/-- What the user knows: which keys are held, which locks are on, whether the machine was rebooted. -/
structure Sp where
  held : Key → Bool
  caps : Bool
  num : Bool
  off : Bool

def Sp.shift (s : Sp) : Bool := s.held .lshift || s.held .rshift
def Sp.alt (s : Sp) : Bool := s.held .lalt || s.held .ralt
def Sp.ctrl (s : Sp) : Bool := s.held .lctrl || s.held .rctrl

/-- A lock changes when its key goes down; holding the key does not change it again. -/
def Sp.next (s : Sp) : Act → Sp
  | .press k =>
    { held := fun x => if x = k then true else s.held x
      caps := if k = .caps ∧ s.held k = false then !s.caps else s.caps
      num := if k = .num ∧ s.held k = false then !s.num else s.num
      off := s.off || (decide (k = .del) && s.held .lctrl && s.held .lalt) }
  | .release k => { s with held := fun x => if x = k then false else s.held x }
  | _ => s

/-- What a key that is not a lock key does when it is pressed, in the normal (not medium raw) mode. -/
def Sp.typed (s : Sp) (e : Env) (k : Key) : List Out :=
  if k = .pgup ∧ s.shift then [.scrollUp]
  else if k = .pgdn ∧ s.shift then [.scrollDown]
  else match (if s.alt ∧ e.gfx = false then fnum k else none) with
    | some n => if n ≤ e.ntty ∧ n ≠ e.cur then [.switch n] else []
    | none =>
      match charOf s.shift s.caps s.num k with
      | some c => (if s.alt then [.ins 27] else []) ++ [.chr (if s.ctrl then control c else c.toNat)]
      | none => (sequence s.shift s.alt s.ctrl k).map fun c => .ins c.toNat

/-- What an action does; `s` is the knowledge before it. -/
def Sp.out (s : Sp) (e : Env) (a : Act) : List Out :=
  if s.off then []
  else match a with
    | .press k =>
      if k = .del ∧ s.held .lctrl ∧ s.held .lalt then [.reboot]
      else if e.mr then (keycode k).toList.map .ins
      else if k = .caps ∨ k = .num then []
      else Sp.typed s e k
    | .release k => if e.mr then (keycode k).toList.map fun c => .ins (c + 128) else []
    | _ => []

/-- The knowledge after, and the effects of, a list of actions. -/
def Sp.run (s : Sp) : List (Env × Act) → Sp × List (List Out)
  | [] => (s, [])
  | (e, a) :: r => (((s.next a).run r).1, s.out e a :: ((s.next a).run r).2)

def sp0 (vm : Bool) : Sp := ⟨fun _ => false, false, vm, false⟩

/-- The same for the driver: the bytes of each action, one after the other. -/
def run (s : St) : List (Env × Act) → St × List (List Out)
  | [] => (s, [])
  | (e, a) :: r => ((run (processAll s e a.bytes).1 r).1,
      (processAll s e a.bytes).2 :: (run (processAll s e a.bytes).1 r).2)

/-! ## Proofs -/

theorem mem_keys (k : Key) : k ∈ keys := by cases k <;> decide

instance (p : Key → Prop) [DecidablePred p] : Decidable (∀ k, p k) :=
  decidable_of_iff (∀ k ∈ keys, p k) ⟨fun h k => h k (mem_keys k), fun h k _ => h k⟩

theorem wire_nodup : (keys.map wire).Nodup := by decide +kernel

theorem wire_inj {k k' : Key} (h : wire k = wire k') : k = k' :=
  List.inj_on_of_nodup_map wire_nodup (mem_keys k) (mem_keys k') h

/-- The number the driver uses for a key. -/
def num (k : Key) : Nat := (wire k).2 + (if (wire k).1 then 0xE000 else 0)

theorem num_hi : ∀ k, decide (num k / 256 = 0xE0) = (wire k).1 := by decide +kernel
theorem num_lo : ∀ k, num k % 256 = (wire k).2 := by decide +kernel
theorem wire_lt : ∀ k, (wire k).2 < 128 ∧ (wire k).2 ≠ 0 := by decide +kernel
theorem wire_fake : ∀ k, wire k ≠ (true, 0x2A) ∧ wire k ≠ (true, 0x36) := by decide +kernel

/-- The keys the driver considers pressed are the ones that are held. -/
structure RD (sp : Sp) (s : St) : Prop where
  pre : s.pre = .dflt
  down : ∀ k, s.down (wire k).1 (wire k).2 = sp.held k

theorem process_code (s : St) (e : Env) (k : Key) (p : Bool) (h : s.off = false) (hp : s.pre = .dflt) :
    processAll s e ((if (wire k).1 then [0xE0] else []) ++ [(wire k).2 + (if p then 0 else 0x80)])
      = keyIntHandler s e (num k) p := by
  obtain ⟨hl, h0⟩ := wire_lt k
  have hf := wire_fake k
  have hs : (⟨.dflt, s.down, s.num, s.caps, false⟩ : St) = s := by cases s; simp_all
  have m1 : ((wire k).2 + (if p then 0 else 0x80)) % 128 = (wire k).2 := by cases p <;> simp <;> omega
  have m2 : decide ((wire k).2 + (if p then 0 else 0x80) < 128) = p := by cases p <;> simp <;> omega
  cases hw : (wire k).1 with
  | false =>
    have e1 : (wire k).2 + (if p then 0 else 0x80) ≠ 0xE0 := by
      have : ∀ k, (wire k).1 = false → (wire k).2 ≠ 0x60 ∧ (wire k).2 ≠ 0x61 := by decide +kernel
      have := this k hw
      cases p <;> simp <;> omega
    have e2 : (wire k).2 + (if p then 0 else 0x80) ≠ 0xE1 := by
      have : ∀ k, (wire k).1 = false → (wire k).2 ≠ 0x60 ∧ (wire k).2 ≠ 0x61 := by decide +kernel
      have := this k hw
      cases p <;> simp <;> omega
    have hn : num k = (wire k).2 := by simp [num, hw]
    simp only [Bool.false_eq_true, if_false, List.nil_append, processAll, process, h, hp, if_neg e1, if_neg e2, m1, m2,
      List.append_nil, hn]
  | true =>
    have e1 : ¬ ((wire k).2 + (if p then 0 else 0x80) = 0x2A ∨ (wire k).2 + (if p then 0 else 0x80) = 0xAA) := by
      have : (wire k).2 ≠ 0x2A := fun hh => hf.1 (Prod.ext hw hh)
      cases p <;> simp <;> omega
    have hn : num k = (wire k).2 + 0xE000 := by simp [num, hw]
    have e0 : process s e 0xE0 = ({ s with pre := .e0 }, []) := by simp [process, h, hp]
    have e2 : process { s with pre := .e0 } e ((wire k).2 + (if p then 0 else 0x80)) = keyIntHandler s e (num k) p := by
      simp only [process, h, Bool.false_eq_true, if_false, if_neg e1, m1, m2, hn]
      rw [hs]
    show processAll s e [0xE0, (wire k).2 + (if p then 0 else 0x80)] = _
    simp only [processAll, e0, e2, List.append_nil, List.nil_append]

theorem handleKey_down (s : St) (e : Env) (n : Nat) (p : Bool) :
    (handleKey s e n p).1.down = s.down ∧ (handleKey s e n p).1.pre = s.pre := by
  unfold handleKey
  split
  · exact ⟨rfl, rfl⟩
  split
  · exact ⟨rfl, rfl⟩
  split <;> exact ⟨rfl, rfl⟩

theorem setKey_down (s : St) (k k' : Key) (p : Bool) :
    (setKey s (num k) p).down (wire k').1 (wire k').2 = if k' = k then p else s.down (wire k').1 (wire k').2 := by
  simp only [setKey, num_hi, num_lo]
  by_cases h : k' = k
  · rw [if_pos h, if_pos (by rw [h]; exact ⟨rfl, rfl⟩)]
  · rw [if_neg h, if_neg (fun hh => h (wire_inj (Prod.ext hh.1 hh.2)))]

theorem pressed_of_down (s : St) (k : Key) : isPressed s (num k) = s.down (wire k).1 (wire k).2 := by
  rw [isPressed, num_hi, num_lo]

theorem processAll_off (s : St) (e : Env) (h : s.off = true) : ∀ bs, processAll s e bs = (s, [])
  | [] => rfl
  | b :: r => by
    have : process s e b = (s, []) := by simp [process, h]
    simp only [processAll, this, processAll_off s e h r, List.append_nil]

theorem fakeL_eq (s : St) (e : Env) (b : Bool) (h : s.off = false) (hp : s.pre = .dflt) :
    processAll s e (Act.fakeL b).bytes = (s, []) := by
  have e0 : process s e 0xE0 = ({ s with pre := .e0 }, []) := by simp [process, h, hp]
  have hs : (⟨.dflt, s.down, s.num, s.caps, false⟩ : St) = s := by cases s; simp_all
  cases b <;> simp [Act.bytes, processAll, e0, process, h, hs, hp]

theorem fakeR_eq (s : St) (e : Env) (b : Bool) (h : s.off = false) (hp : s.pre = .dflt) :
    processAll s e (Act.fakeR b).bytes = keyIntHandler s e 0xE036 b := by
  have e0 : process s e 0xE0 = ({ s with pre := .e0 }, []) := by simp [process, h, hp]
  have hs : (⟨.dflt, s.down, s.num, s.caps, false⟩ : St) = s := by cases s; simp_all
  cases b <;> simp [Act.bytes, processAll, e0, process, h, hs, hp]

theorem pause_eq (s : St) (e : Env) (h : s.off = false) (hp : s.pre = .dflt) :
    processAll s e Act.pause.bytes = (s, []) := by
  have hs : (⟨.dflt, s.down, s.num, s.caps, false⟩ : St) = s := by cases s; simp_all
  simp [Act.bytes, processAll, process, h, hp, hs]

theorem press_bytes (k : Key) : (Act.press k).bytes = (if (wire k).1 then [0xE0] else []) ++ [(wire k).2 + (if true then 0 else 0x80)] := rfl
theorem release_bytes (k : Key) : (Act.release k).bytes = (if (wire k).1 then [0xE0] else []) ++ [(wire k).2 + (if false then 0 else 0x80)] := rfl

theorem RD.step {sp : Sp} {s : St} (h : RD sp s) (hoff : s.off = false) (e : Env) (a : Act) :
    RD (sp.next a) (processAll s e a.bytes).1 := by
  cases a with
  | press k =>
    rw [press_bytes, process_code s e k true hoff h.pre]
    have hd := handleKey_down (setKey s (num k) true) e (num k) true
    refine ⟨by rw [keyIntHandler, hd.2]; exact h.pre, fun k' => ?_⟩
    rw [keyIntHandler, hd.1, setKey_down, h.down]; rfl
  | release k =>
    rw [release_bytes, process_code s e k false hoff h.pre]
    have hd := handleKey_down (setKey s (num k) false) e (num k) false
    refine ⟨by rw [keyIntHandler, hd.2]; exact h.pre, fun k' => ?_⟩
    rw [keyIntHandler, hd.1, setKey_down, h.down]; rfl
  | fakeL b => rw [fakeL_eq s e b hoff h.pre]; exact ⟨h.pre, h.down⟩
  | fakeR b =>
    rw [fakeR_eq s e b hoff h.pre]
    have hd := handleKey_down (setKey s 0xE036 b) e 0xE036 b
    refine ⟨by rw [keyIntHandler, hd.2]; exact h.pre, fun k' => ?_⟩
    rw [keyIntHandler, hd.1]
    simp only [setKey]
    rw [if_neg, h.down]; rfl
    intro hh
    exact (wire_fake k').2 (Prod.ext (by simpa using hh.1) (by simpa using hh.2))
  | pause => rw [pause_eq s e hoff h.pre]; exact ⟨h.pre, h.down⟩

/-- Whether the machine is switched off by an action, as the driver sees it. -/
theorem off_step {sp : Sp} {s : St} (h : RD sp s) (hoff : s.off = false) (e : Env) (a : Act) :
    (processAll s e a.bytes).1.off = match a with
      | .press k => decide (k = .del) && sp.held .lctrl && sp.held .lalt
      | _ => false := by
  have hk : ∀ n p, n ≠ KEY_DEL → (handleKey (setKey s n p) e n p).1.off = s.off := by
    intro n p hn
    unfold handleKey
    rw [if_neg (fun hh => hn hh.2.1)]
    split
    · rfl
    split <;> rfl
  have hdel : ∀ k, num k = KEY_DEL ↔ k = .del := by decide +kernel
  cases a with
  | press k =>
    rw [press_bytes, process_code s e k true hoff h.pre, keyIntHandler]
    by_cases hd : k = .del
    · subst hd
      have c : isPressed (setKey s (num .del) true) KEY_LEFT_CTRL = sp.held .lctrl := by
        rw [show KEY_LEFT_CTRL = num .lctrl from rfl, pressed_of_down, setKey_down, h.down]; rfl
      have al : isPressed (setKey s (num .del) true) KEY_LEFT_ALT = sp.held .lalt := by
        rw [show KEY_LEFT_ALT = num .lalt from rfl, pressed_of_down, setKey_down, h.down]; rfl
      unfold handleKey
      rw [c, al]
      have hn : ¬ (true = true ∧ num .del = KEY_NUM_LOCK) := by decide
      have hc : ¬ (true = true ∧ num .del = KEY_CAPS_LOCK) := by decide
      rw [if_neg hn, if_neg hc]
      have : num .del = KEY_DEL := rfl
      cases h1 : sp.held .lctrl <;> cases h2 : sp.held .lalt <;> simp [this, setKey, hoff]
    · rw [hk _ _ (fun hh => hd ((hdel k).1 hh)), hoff]
      simp [hd]
  | release k =>
    rw [release_bytes, process_code s e k false hoff h.pre, keyIntHandler]
    have : (handleKey (setKey s (num k) false) e (num k) false).1 = setKey s (num k) false := by
      simp [handleKey]
    rw [this]; exact hoff
  | fakeL b => rw [fakeL_eq s e b hoff h.pre]; exact hoff
  | fakeR b => rw [fakeR_eq s e b hoff h.pre, keyIntHandler, hk _ _ (by decide), hoff]
  | pause => rw [pause_eq s e hoff h.pre]; exact hoff

/-- As long as the machine was not rebooted, decoding is exact. -/
structure RP (sp : Sp) (s : St) : Prop where
  off : s.off = sp.off
  rd : s.off = false → RD sp s

theorem RP.step {sp : Sp} {s : St} (h : RP sp s) (e : Env) (a : Act) :
    RP (sp.next a) (processAll s e a.bytes).1 := by
  cases ho : s.off with
  | true =>
    rw [processAll_off s e ho]
    have : (sp.next a).off = true := by
      have := h.off; rw [ho] at this
      cases a <;> simp [Sp.next, ← this]
    exact ⟨by rw [this]; exact ho, fun hh => by rw [ho] at hh; cases hh⟩
  | false =>
    refine ⟨?_, fun _ => (h.rd ho).step ho e a⟩
    rw [off_step (h.rd ho) ho]
    have := h.off; rw [ho] at this
    cases a <;> simp [Sp.next, ← this]

theorem RP.run {sp : Sp} {s : St} (h : RP sp s) : ∀ as, RP (sp.run as).1 (run s as).1
  | [] => h
  | (e, a) :: r => RP.run (h.step e a) r

theorem RP.init (vm : Bool) : RP (sp0 vm) (init vm) := ⟨rfl, fun _ => ⟨rfl, fun _ => rfl⟩⟩

/-- What must not be the case for an action to have its proper effect (each exclusion is a defect, shown below):
* Caps Lock and Num Lock must not repeat, and must not be pressed in medium raw mode;
* in medium raw mode, keys without a key code must not be released (nor the fake right shift);
* Shift must not be used with Backspace or Enter, nor together with Caps Lock on a letter;
* F1 .. F5 must be used without modifiers (except Alt to change terminal);
* Ctrl must not be used with `]`, `^`, `_`. -/
def Ok (s : Sp) (e : Env) : Act → Prop
  | .press k =>
    if e.mr then k ≠ .caps ∧ k ≠ .num
    else
      ((k = .caps ∨ k = .num) → s.held k = false) ∧
      ((letter k).isSome → ¬ (s.shift = true ∧ s.caps = true ∧ s.ctrl = false)) ∧
      ((k = .backspace ∨ k = .enter) → s.shift = false) ∧
      ((fkey k).isSome → (s.alt = true ∧ e.gfx = false) ∨ (s.shift = false ∧ s.alt = false ∧ s.ctrl = false)) ∧
      (s.ctrl = true → ∀ c, charOf s.shift s.caps s.num k = some c → c ≠ ']' ∧ c ≠ '^' ∧ c ≠ '_')
  | .release k => e.mr = true → (keycode k).isSome
  | .fakeR b => e.mr = true → b = true
  | _ => True

/-- `Ok` all along a history. -/
def AllOk (s : Sp) : List (Env × Act) → Prop
  | [] => True
  | (e, a) :: r => Ok s e a ∧ AllOk (s.next a) r

/-! ### The tables, compared for every key -/

def isMod (k : Key) : Bool := k = .lshift || k = .rshift || k = .lalt || k = .ralt || k = .lctrl || k = .rctrl

theorem tab_char : ∀ k, ∀ shift num caps : Bool,
    ¬ ((letter k).isSome ∧ shift = true ∧ caps = true) → ¬ ((k = .backspace ∨ k = .enter) ∧ shift = true) →
    translate shift num caps (Kbd.num k) = match charOf shift caps num k with | some c => c.toNat | none => 0 := by
  decide +kernel

theorem tab_char0 : ∀ k, ∀ shift num caps : Bool, ∀ c, charOf shift caps num k = some c → c.toNat ≠ 0 := by
  have h : ∀ k, ∀ shift num caps : Bool, (match charOf shift caps num k with | some c => c.toNat | none => 1) ≠ 0 := by
    decide +kernel
  intro k a b c x hx
  have := h k a b c
  rw [hx] at this
  exact this

theorem tab_ctrl : ∀ k, ∀ shift num caps : Bool,
    ¬ ((k = .backspace ∨ k = .enter) ∧ shift = true) →
    ∀ c ∈ charOf shift caps num k, c ≠ ']' ∧ c ≠ '^' ∧ c ≠ '_' →
      ctrlChar true (translate shift num caps (Kbd.num k)) = control c := by
  decide +kernel

theorem tab_char_ne : ∀ k, ∀ shift num caps : Bool,
    (translate shift num caps (Kbd.num k) = 0 ↔ charOf shift caps num k = none) := by
  decide +kernel

theorem tab_seq : ∀ k, ∀ shift alt ctrl : Bool, isMod k = false →
    ((fkey k).isSome → shift = false ∧ alt = false ∧ ctrl = false) →
    (match ansiSeq (Kbd.num k) (modifiers shift alt ctrl) with | none => [] | some bs => bs)
      = (sequence shift alt ctrl k).map Char.toNat := by
  decide +kernel

theorem tab_fn : ∀ k, fnKey (Kbd.num k) = (match fnum k with | some n => n | none => 0) := by decide +kernel
theorem tab_fn0 : ∀ k, fnum k ≠ some 0 := by decide +kernel

theorem tab_mr : ∀ k, ∀ p : Bool, (p = false → (keycode k).isSome) →
    (if mediumraw (Kbd.num k) p = 0 then [] else [Out.ins (mediumraw (Kbd.num k) p)])
      = (keycode k).toList.map (fun c => Out.ins (if p then c else c + 128)) := by decide +kernel

theorem tab_mod : ∀ k, isMod k = true → ∀ shift alt ctrl num caps : Bool,
    translate shift num caps (Kbd.num k) = 0 ∧ charOf shift caps num k = none ∧ sequence shift alt ctrl k = [] ∧
    ansiSeq (Kbd.num k) (modifiers shift alt ctrl) = none ∧ fnum k = none ∧ k ≠ .pgup ∧ k ≠ .pgdn := by decide +kernel

theorem num_pgup : ∀ k, Kbd.num k = KEY_PAGE_UP ↔ k = .pgup := by decide +kernel
theorem num_pgdn : ∀ k, Kbd.num k = KEY_PAGE_DOWN ↔ k = .pgdn := by decide +kernel
theorem num_del : ∀ k, Kbd.num k = KEY_DEL ↔ k = .del := by decide +kernel
theorem num_caps : ∀ k, Kbd.num k = KEY_CAPS_LOCK ↔ k = .caps := by decide +kernel
theorem num_num : ∀ k, Kbd.num k = KEY_NUM_LOCK ↔ k = .num := by decide +kernel

theorem letter_mod : ∀ k, isMod k = false → k ≠ .lshift ∧ k ≠ .rshift ∧ k ≠ .lalt ∧ k ≠ .ralt ∧ k ≠ .lctrl ∧ k ≠ .rctrl := by
  decide +kernel

/-- A key press that is not one of the special ones, in the normal mode. -/
theorem typed_ok (sp : Sp) (e : Env) (k : Key) (hm : isMod k = false) (hmr : e.mr = false)
    (h1 : (letter k).isSome → ¬ (sp.shift = true ∧ sp.caps = true ∧ sp.ctrl = false))
    (h2 : (k = .backspace ∨ k = .enter) → sp.shift = false)
    (h3 : (fkey k).isSome → (sp.alt = true ∧ e.gfx = false) ∨ (sp.shift = false ∧ sp.alt = false ∧ sp.ctrl = false))
    (h4 : sp.ctrl = true → ∀ c, charOf sp.shift sp.caps sp.num k = some c → c ≠ ']' ∧ c ≠ '^' ∧ c ≠ '_') :
    ttyKey e sp.shift sp.alt sp.ctrl (num k) (translate sp.shift sp.num sp.caps (num k)) true = sp.typed e k := by
  have h2' : ¬ ((k = .backspace ∨ k = .enter) ∧ sp.shift = true) := fun hh => by
    have := h2 hh.1; rw [hh.2] at this; cases this
  unfold ttyKey Sp.typed
  rw [if_neg (by rw [hmr]; decide), if_neg (by decide)]
  by_cases c1 : k = .pgup ∧ sp.shift = true
  · rw [if_pos c1, if_pos ⟨(num_pgup k).2 c1.1, c1.2⟩]
  rw [if_neg c1, if_neg (fun hh => c1 ⟨(num_pgup k).1 hh.1, hh.2⟩)]
  by_cases c2 : k = .pgdn ∧ sp.shift = true
  · rw [if_pos c2, if_pos ⟨(num_pgdn k).2 c2.1, c2.2⟩]
  rw [if_neg c2, if_neg (fun hh => c2 ⟨(num_pgdn k).1 hh.1, hh.2⟩)]
  by_cases c3 : sp.alt = true ∧ e.gfx = false ∧ (fnum k).isSome
  · obtain ⟨ha, hg, hf⟩ := c3
    obtain ⟨n, hn⟩ := Option.isSome_iff_exists.1 hf
    have hn0 : n ≠ 0 := fun h => tab_fn0 k (by rw [hn, h])
    have hfn : fnKey (num k) = n := by rw [tab_fn, hn]
    have : altFn e sp.alt (num k) = some (if n ≤ e.ntty ∧ n ≠ e.cur then [.switch n] else []) := by
      unfold altFn
      rw [hfn, if_pos ⟨ha, by omega, hg⟩]
      by_cases q1 : e.ntty < n
      · rw [if_pos q1, if_neg (by omega)]
      · rw [if_neg q1]
        by_cases q2 : n = e.cur
        · rw [if_pos q2, if_neg (by omega)]
        · rw [if_neg q2, if_pos ⟨by omega, q2⟩]
    rw [this, if_pos (show sp.alt = true ∧ e.gfx = false from ⟨ha, hg⟩), hn]
  · have e1 : altFn e sp.alt (num k) = none := by
      unfold altFn
      rw [if_neg]
      rintro ⟨a, b, c⟩
      apply c3
      refine ⟨a, c, ?_⟩
      rw [tab_fn] at b
      cases hq : fnum k with
      | none => rw [hq] at b; exact absurd b (by decide)
      | some n => rfl
    have e2 : (if sp.alt = true ∧ e.gfx = false then fnum k else none) = none := by
      split
      · rename_i hh
        cases hq : fnum k with
        | none => rfl
        | some n => exact absurd ⟨hh.1, hh.2, by rw [hq]; rfl⟩ c3
      · rfl
    rw [e1, e2]
    dsimp only
    unfold keyInt
    cases hc : charOf sp.shift sp.caps sp.num k with
    | none =>
      rw [if_pos ((tab_char_ne k _ _ _).2 hc)]
      dsimp only
      have hs := tab_seq k sp.shift sp.alt sp.ctrl hm (by
        intro hf
        rcases h3 hf with ⟨a, b⟩ | hh
        · exfalso
          apply c3
          refine ⟨a, b, ?_⟩
          have : ∀ k, (fkey k).isSome → (fnum k).isSome := by decide +kernel
          exact this k hf
        · exact hh)
      cases hq : ansiSeq (num k) (modifiers sp.shift sp.alt sp.ctrl) with
      | none =>
        rw [hq] at hs
        have : sequence sp.shift sp.alt sp.ctrl k = [] := by simpa using hs.symm
        rw [this]; rfl
      | some bs =>
        rw [hq] at hs
        dsimp only at hs ⊢
        rw [hs, List.map_map]; rfl
    | some c =>
      have hne : translate sp.shift sp.num sp.caps (num k) ≠ 0 := fun hh => by
        rw [(tab_char_ne k _ _ _).1 hh] at hc; cases hc
      rw [if_neg hne]
      dsimp only
      congr 2
      cases hct : sp.ctrl with
      | false =>
        rw [if_neg (by decide)]
        have := tab_char k sp.shift sp.num sp.caps (fun hh => h1 hh.1 ⟨hh.2.1, hh.2.2, hct⟩) h2'
        rw [hc] at this
        simp only [ctrlChar, Bool.false_eq_true, if_false, this]
      | true =>
        rw [if_pos rfl, tab_ctrl k sp.shift sp.num sp.caps h2' c hc (h4 hct c hc)]

/-- The keys that are held and the locks are the driver's. -/
structure R (sp : Sp) (s : St) : Prop where
  p : RP sp s
  locks : s.off = false → s.num = sp.num ∧ s.caps = sp.caps

theorem held_eq {sp : Sp} {s : St} (h : RD sp s) (k k' : Key) (p : Bool) (hne : k' ≠ k) :
    isPressed (setKey s (num k) p) (num k') = sp.held k' := by
  rw [pressed_of_down, setKey_down, if_neg hne, h.down]

theorem mods_eq {sp : Sp} {s : St} (h : RD sp s) (k : Key) (p : Bool) (hm : isMod k = false) :
    isShift (setKey s (num k) p) = sp.shift ∧ isAlt (setKey s (num k) p) = sp.alt ∧
    isCtrl (setKey s (num k) p) = sp.ctrl := by
  obtain ⟨a, b, c, d, e, f⟩ := letter_mod k hm
  unfold isShift isAlt isCtrl Sp.shift Sp.alt Sp.ctrl
  rw [show KEY_L_SHIFT = num .lshift from rfl, show KEY_R_SHIFT = num .rshift from rfl,
    show KEY_LEFT_ALT = num .lalt from rfl, show KEY_RIGHT_ALT = num .ralt from rfl,
    show KEY_LEFT_CTRL = num .lctrl from rfl, show KEY_RIGHT_CTRL = num .rctrl from rfl,
    held_eq h k _ p a.symm, held_eq h k _ p b.symm, held_eq h k _ p c.symm, held_eq h k _ p d.symm,
    held_eq h k _ p e.symm, held_eq h k _ p f.symm]
  exact ⟨rfl, rfl, rfl⟩

/-- The keys that only modify others do nothing by themselves. -/
theorem mod_nothing (e : Env) (k : Key) (hm : isMod k = true) (hmr : e.mr = false) (a b c d f : Bool) :
    ttyKey e a b c (num k) (translate a d f (num k)) true = [] := by
  obtain ⟨h1, _, _, h4, h5, h6, h7⟩ := tab_mod k hm a b c d f
  unfold ttyKey
  rw [if_neg (by rw [hmr]; decide), if_neg (by decide), if_neg (fun hh => h6 ((num_pgup k).1 hh.1)),
    if_neg (fun hh => h7 ((num_pgdn k).1 hh.1))]
  have : altFn e b (num k) = none := by
    unfold altFn
    rw [tab_fn, h5, if_neg (fun hh => absurd hh.2.1 (by decide))]
  rw [this]
  dsimp only
  unfold keyInt
  rw [if_pos h1, h4]

theorem mod_nothing_spec (sp : Sp) (e : Env) (k : Key) (hm : isMod k = true) : sp.typed e k = [] := by
  obtain ⟨_, h2, h3, _, h5, h6, h7⟩ := tab_mod k hm sp.shift sp.alt sp.ctrl sp.num sp.caps
  unfold Sp.typed
  rw [if_neg (fun hh => h6 hh.1), if_neg (fun hh => h7 hh.1), h5, h2, h3]
  simp

theorem setKey_fields (s : St) (n : Nat) (p : Bool) :
    (setKey s n p).num = s.num ∧ (setKey s n p).caps = s.caps ∧ (setKey s n p).off = s.off := ⟨rfl, rfl, rfl⟩

theorem out_press (sp : Sp) (e : Env) (k : Key) (ho : sp.off = false) : sp.out e (.press k) =
    if k = .del ∧ sp.held .lctrl = true ∧ sp.held .lalt = true then [.reboot]
    else if e.mr then (keycode k).toList.map .ins
    else if k = .caps ∨ k = .num then []
    else Sp.typed sp e k := by
  unfold Sp.out
  rw [if_neg (by rw [ho]; decide)]

theorem out_release (sp : Sp) (e : Env) (k : Key) (ho : sp.off = false) : sp.out e (.release k) =
    if e.mr then (keycode k).toList.map fun c => .ins (c + 128) else [] := by
  unfold Sp.out
  rw [if_neg (by rw [ho]; decide)]

/-- Pressing a key. -/
theorem press_ok {sp : Sp} {s : St} (h : RD sp s) (hl : s.num = sp.num ∧ s.caps = sp.caps) (hoff : s.off = false)
    (ho : sp.off = false) (e : Env) (k : Key) (hok : Ok sp e (.press k)) :
    (keyIntHandler s e (num k) true).2 = sp.out e (.press k) ∧
    ((keyIntHandler s e (num k) true).1.off = false →
      (keyIntHandler s e (num k) true).1.num = (sp.next (.press k)).num ∧
      (keyIntHandler s e (num k) true).1.caps = (sp.next (.press k)).caps) := by
  rw [out_press sp e k ho]
  unfold keyIntHandler handleKey
  by_cases hd : k = .del ∧ sp.held .lctrl = true ∧ sp.held .lalt = true
  · have hd' := hd
    obtain ⟨rfl, h1, h2⟩ := hd
    rw [if_pos hd', if_pos ⟨rfl, rfl, by
      rw [show KEY_LEFT_CTRL = num .lctrl from rfl, held_eq h _ _ _ (by decide), h1], by
      rw [show KEY_LEFT_ALT = num .lalt from rfl, held_eq h _ _ _ (by decide), h2]⟩]
    exact ⟨rfl, fun hh => by cases hh⟩
  rw [if_neg hd, if_neg (by
    rintro ⟨_, q1, q2, q3⟩
    have := (num_del k).1 q1
    subst this
    rw [show KEY_LEFT_CTRL = num .lctrl from rfl, held_eq h _ _ _ (by decide)] at q2
    rw [show KEY_LEFT_ALT = num .lalt from rfl, held_eq h _ _ _ (by decide)] at q3
    exact hd ⟨rfl, q2, q3⟩)]
  simp only [Ok] at hok
  cases hmr : e.mr with
  | true =>
    rw [if_pos hmr] at hok
    rw [if_pos (show true = true from rfl), if_neg (fun hh => hok.2 ((num_num k).1 hh.2)), if_neg (fun hh => hok.1 ((num_caps k).1 hh.2))]
    refine ⟨?_, fun _ => ?_⟩
    · show callHandlers _ _ _ _ = _
      unfold callHandlers ttyKey
      rw [if_pos hmr, tab_mr k true (fun h => by cases h)]
      rfl
    · simp only [Sp.next, setKey]
      rw [if_neg (fun hh => hok.2 hh.1), if_neg (fun hh => hok.1 hh.1)]
      exact hl
  | false =>
    rw [if_neg (by rw [hmr]; decide)] at hok
    obtain ⟨o1, o2, o3, o4, o5⟩ := hok
    rw [if_neg (show ¬ (false = true) by decide)]
    by_cases hn : k = .num
    · subst hn
      rw [if_pos ⟨rfl, rfl⟩, if_pos (Or.inr rfl)]
      refine ⟨rfl, fun _ => ?_⟩
      have := o1 (Or.inr rfl)
      simp [Sp.next, setKey, this, hl.1, hl.2]
    rw [if_neg (fun hh => hn ((num_num k).1 hh.2))]
    by_cases hc : k = .caps
    · subst hc
      rw [if_pos ⟨rfl, rfl⟩, if_pos (Or.inl rfl)]
      refine ⟨rfl, fun _ => ?_⟩
      have := o1 (Or.inl rfl)
      simp [Sp.next, setKey, this, hl.1, hl.2]
    rw [if_neg (fun hh => hc ((num_caps k).1 hh.2)), if_neg (fun hh => hh.elim hc hn)]
    refine ⟨?_, fun _ => ?_⟩
    · show callHandlers _ _ _ _ = _
      unfold callHandlers
      cases hm : isMod k with
      | true => rw [mod_nothing e k hm hmr, mod_nothing_spec sp e k hm]
      | false =>
        obtain ⟨m1, m2, m3⟩ := mods_eq h k true hm
        obtain ⟨f1, f2, _⟩ := setKey_fields s (num k) true
        rw [m1, m2, m3, f1, f2, hl.1, hl.2]
        exact typed_ok sp e k hm hmr o2 o3 o4 o5
    · simp only [Sp.next, setKey]
      rw [if_neg (fun hh => hn hh.1), if_neg (fun hh => hc hh.1)]
      exact hl

theorem R.step {sp : Sp} {s : St} (h : R sp s) (e : Env) (a : Act) (hok : Ok sp e a) :
    R (sp.next a) (processAll s e a.bytes).1 ∧ (processAll s e a.bytes).2 = sp.out e a := by
  cases ho : s.off with
  | true =>
    have h1 := h.p.step e a
    have hso : sp.off = true := by rw [← h.p.off]; exact ho
    rw [processAll_off s e ho] at h1 ⊢
    refine ⟨⟨h1, fun hh => by rw [ho] at hh; cases hh⟩, ?_⟩
    simp [Sp.out, hso]
  | false =>
    have h1 := h.p.step e a
    have hso : sp.off = false := by rw [← h.p.off]; exact ho
    have hrd := h.p.rd ho
    have hl := h.locks ho
    cases a with
    | press k =>
      rw [press_bytes, process_code s e k true ho hrd.pre] at h1 ⊢
      obtain ⟨q1, q2⟩ := press_ok hrd hl ho hso e k hok
      exact ⟨⟨h1, q2⟩, q1⟩
    | release k =>
      rw [release_bytes, process_code s e k false ho hrd.pre] at h1 ⊢
      have e1 : keyIntHandler s e (num k) false = (setKey s (num k) false, callHandlers (setKey s (num k) false) e (num k) false) := by
        simp [keyIntHandler, handleKey]
      rw [e1] at h1 ⊢
      refine ⟨⟨h1, fun _ => hl⟩, ?_⟩
      show callHandlers _ _ _ _ = _
      rw [out_release sp e k hso]
      unfold callHandlers ttyKey
      cases hmr : e.mr with
      | true =>
        rw [if_pos rfl, if_pos rfl, tab_mr k false (fun _ => hok hmr)]
        rfl
      | false => simp
    | fakeL b =>
      rw [fakeL_eq s e b ho hrd.pre] at h1 ⊢
      exact ⟨⟨h1, fun _ => hl⟩, by simp [Sp.out]⟩
    | pause =>
      rw [pause_eq s e ho hrd.pre] at h1 ⊢
      exact ⟨⟨h1, fun _ => hl⟩, by simp [Sp.out]⟩
    | fakeR b =>
      rw [fakeR_eq s e b ho hrd.pre] at h1 ⊢
      have e1 : keyIntHandler s e 0xE036 b = (setKey s 0xE036 b, callHandlers (setKey s 0xE036 b) e 0xE036 b) := by
        simp [keyIntHandler, handleKey, KEY_DEL, KEY_NUM_LOCK, KEY_CAPS_LOCK]
      rw [e1] at h1 ⊢
      refine ⟨⟨h1, fun _ => hl⟩, ?_⟩
      have : sp.out e (.fakeR b) = [] := by simp [Sp.out]
      rw [this]
      show callHandlers _ _ _ _ = _
      unfold callHandlers ttyKey
      cases hmr : e.mr with
      | true =>
        have hb : b = true := hok hmr
        rw [hb, if_pos rfl]; decide
      | false =>
        rw [if_neg (by decide)]
        cases b with
        | false => rfl
        | true =>
          rw [if_neg (by decide), if_neg (fun hh => absurd hh.1 (by decide)), if_neg (fun hh => absurd hh.1 (by decide))]
          have : altFn e (isAlt (setKey s 0xE036 true)) 0xE036 = none := by
            unfold altFn
            rw [if_neg (fun hh => absurd hh.2.1 (by decide))]
          rw [this]
          dsimp only
          unfold keyInt
          have t0 : ∀ a b c : Bool, translate a b c 0xE036 = 0 := by decide
          have t1 : ∀ a b c : Bool, ansiSeq 0xE036 (modifiers a b c) = none := by decide +kernel
          rw [if_pos (t0 _ _ _), t1]

/-! ## The claims -/

theorem R.run {sp : Sp} {s : St} (h : R sp s) : ∀ as, AllOk sp as → R (sp.run as).1 (run s as).1 ∧ (run s as).2 = (sp.run as).2
  | [], _ => ⟨h, rfl⟩
  | (e, a) :: r, hok => by
    obtain ⟨h1, h2⟩ := h.step e a hok.1
    obtain ⟨h3, h4⟩ := R.run h1 r hok.2
    refine ⟨h3, ?_⟩
    show _ :: _ = _ :: _
    rw [h2, h4]

/-- The number by which the rest of the kernel asks the driver about a key. -/
def keyNumber (k : Key) : Nat := (if (wire k).1 then 0xE000 else 0) + (wire k).2

/-- **Claim.** After any history of key presses and releases (repeated or not, in any order, with Pause and the
fake shifts anywhere), until the machine is rebooted, the driver reports exactly the keys that are held as pressed,
and is ready for the next key. The machine was rebooted exactly if Del was pressed with the left Ctrl and Alt held. -/
theorem pressed_exact (vm : Bool) (as : List (Env × Act)) :
    (run (init vm) as).1.off = ((sp0 vm).run as).1.off ∧
    ((run (init vm) as).1.off = false →
      (run (init vm) as).1.pre = .dflt ∧
      ∀ k, isPressed (run (init vm) as).1 (keyNumber k) = ((sp0 vm).run as).1.held k) := by
  have h := RP.run (RP.init vm) as
  refine ⟨h.off, fun ho => ⟨(h.rd ho).pre, fun k => ?_⟩⟩
  rw [show keyNumber k = num k by rw [keyNumber, num, Nat.add_comm], pressed_of_down, (h.rd ho).down]

/-- **Claim (partial).** For every history that avoids the defects listed in `Ok`, each action has exactly the effect a
user expects: the characters on the key caps, with Shift, Caps Lock and Num Lock; control characters; ESC before the
character with Alt; escape sequences with their modifiers; scrolling; changing the terminal; reboot; key codes in
medium raw mode. The terminal may be in a different mode at each action. -/
theorem typed_correct_partial (vm : Bool) (as : List (Env × Act)) (hok : AllOk (sp0 vm) as) :
    (run (init vm) as).2 = ((sp0 vm).run as).2 :=
  (R.run (s := init vm) ⟨RP.init vm, fun _ => ⟨rfl, rfl⟩⟩ as hok).2

/-- In medium raw mode nothing but the key codes is delivered, under the two conditions that concern this mode. -/
theorem mediumraw_partial (vm : Bool) (as : List (Env × Act)) (hmr : ∀ p ∈ as, p.1.mr = true)
    (h1 : ∀ p ∈ as, p.2 ≠ .press .caps ∧ p.2 ≠ .press .num ∧ p.2 ≠ .fakeR false)
    (h2 : ∀ p ∈ as, ∀ k, p.2 = .release k → (keycode k).isSome) :
    (run (init vm) as).2 = ((sp0 vm).run as).2 := by
  apply typed_correct_partial
  generalize sp0 vm = sp
  induction as generalizing sp with
  | nil => trivial
  | cons p r ih =>
    obtain ⟨e, a⟩ := p
    refine ⟨?_, ih (fun q hq => hmr q (List.mem_cons_of_mem _ hq)) (fun q hq => h1 q (List.mem_cons_of_mem _ hq))
      (fun q hq => h2 q (List.mem_cons_of_mem _ hq)) _⟩
    have m : e.mr = true := hmr _ List.mem_cons_self
    have n := h1 _ List.mem_cons_self
    cases a with
    | press k =>
      simp only [Ok, m, if_true]
      exact ⟨fun hk => n.1 (by rw [hk]), fun hk => n.2.1 (by rw [hk])⟩
    | release k => exact fun _ => h2 _ List.mem_cons_self k rfl
    | fakeL b => trivial
    | fakeR b =>
      cases b with
      | true => exact fun _ => rfl
      | false => exact absurd rfl n.2.2
    | pause => trivial

/-- An escape sequence and its final NUL fit into the buffer of 16 bytes of the terminal (tty_input.c:242),
for every key number and all modifiers. -/
theorem seq_fits (key : Nat) (shift alt ctrl : Bool) (bs : List Nat)
    (h : ansiSeq key (modifiers shift alt ctrl) = some bs) : bs.length + 1 ≤ 16 ∧ ∀ b ∈ bs, b ≠ 0 ∧ b < 128 := by
  have hall : ∀ p ∈ ansiSeqs, ∀ shift alt ctrl : Bool, ∀ bs ∈ ansiSeq p.1 (modifiers shift alt ctrl),
      bs.length + 1 ≤ 16 ∧ ∀ b ∈ bs, b ≠ 0 ∧ b < 128 := by decide +kernel
  cases hf : ansiSeqs.find? (fun p => p.1 == key) with
  | none => rw [ansiSeq, hf] at h; cases h
  | some p =>
    have hk : p.1 = key := by simpa using List.find?_some hf
    have hm := List.mem_of_find?_eq_some hf
    exact hall p hm shift alt ctrl bs (by rw [hk]; exact h)

/-! ### The ring buffer between the interrupt and the bottom half -/

/-- kb.c:40, 337-346: the capacity of the ring buffer. -/
def CAP : Nat := 512

/-- The ring buffer (module SafeRingbuf proves it is a FIFO queue), and what was taken out of it so far, in order. -/
structure Irq where
  rb : List Nat
  done : List Nat

/-- kb.c:244-263, `kb_irq_handler_read_scancodes`: `pending` are the bytes the controller has to offer. When the ring buffer
is full the byte is lost, and so are all the others that are pending. -/
def readScancodes (q : Irq) : List Nat → Irq
  | [] => q
  | b :: r => if q.rb.length < CAP then readScancodes { q with rb := q.rb ++ [b] } r else q

/-- kb.c:232-242: one iteration of `kb_irq_bottom_half`; interrupts may come in between. -/
def bottom (q : Irq) : Irq :=
  match q.rb with
  | [] => q
  | b :: r => ⟨r, q.done ++ [b]⟩

inductive IEv | irq (bs : List Nat) | bottom

def irqStep (q : Irq) : IEv → Irq
  | .irq bs => readScancodes q bs
  | .bottom => bottom q

/-- The bytes the keyboard sent. -/
def sent : List IEv → List Nat
  | [] => []
  | .irq bs :: r => bs ++ sent r
  | .bottom :: r => sent r

def irqRun (q : Irq) : List IEv → Irq
  | [] => q
  | x :: r => irqRun (irqStep q x) r

/-- The most bytes that wait at any time, were none of them lost. -/
def fits (n : Nat) : List IEv → Prop
  | [] => True
  | .irq bs :: r => n + bs.length ≤ 512 ∧ fits (n + bs.length) r
  | .bottom :: r => fits (n - 1) r

theorem read_fits (bs : List Nat) : ∀ q : Irq, q.rb.length + bs.length ≤ 512 →
    readScancodes q bs = { q with rb := q.rb ++ bs } := by
  induction bs with
  | nil => intro q _; simp [readScancodes]
  | cons b r ih =>
    intro q h
    simp only [List.length_cons] at h
    rw [readScancodes, if_pos (show q.rb.length < CAP by unfold CAP; omega), ih _ (by simp; omega)]
    simp

theorem irq_inv : ∀ (evs : List IEv) (q : Irq), fits q.rb.length evs →
    (irqRun q evs).done ++ (irqRun q evs).rb = q.done ++ q.rb ++ sent evs
  | [], q, _ => by simp [irqRun, sent]
  | .irq bs :: r, q, h => by
    obtain ⟨h1, h2⟩ := h
    have e := read_fits bs q h1
    rw [irqRun, irqStep, e, irq_inv r _ (by simpa using h2), sent]
    simp
  | .bottom :: r, q, h => by
    have h' : fits (q.rb.length - 1) r := h
    rw [irqRun, irqStep, sent]
    cases hq : q.rb with
    | nil =>
      have : bottom q = q := by simp [bottom, hq]
      rw [this, irq_inv r q (by simpa [hq] using h'), hq]
    | cons b l =>
      have : bottom q = ⟨l, q.done ++ [b]⟩ := by simp [bottom, hq]
      rw [this, irq_inv r _ (by simpa [hq] using h')]
      simp

/-- **Claim (partial).** For every interleaving of interrupts and bottom halves in which at most 512 bytes wait at a time,
every byte is processed exactly once, in order: what has been processed, then what waits, is what the keyboard sent. -/
theorem nothing_lost_partial (evs : List IEv) (h : fits 0 evs) :
    (irqRun ⟨[], []⟩ evs).done ++ (irqRun ⟨[], []⟩ evs).rb = sent evs := by
  have := irq_inv evs ⟨[], []⟩ h
  simpa using this

theorem read_bound (bs : List Nat) : ∀ q : Irq, q.rb.length ≤ 512 → (readScancodes q bs).rb.length ≤ 512 := by
  induction bs with
  | nil => intro q h; exact h
  | cons b r ih =>
    intro q h
    rw [readScancodes]
    split
    · rename_i hlt
      refine ih _ ?_
      unfold CAP at hlt
      simp; omega
    · exact h

/-- The ring buffer is never overrun, whatever is sent. -/
theorem ring_bounded (evs : List IEv) : ∀ q : Irq, q.rb.length ≤ 512 → (irqRun q evs).rb.length ≤ 512 := by
  induction evs with
  | nil => intro q h; exact h
  | cons x r ih =>
    intro q h
    refine ih _ ?_
    cases x with
    | irq bs => exact read_bound bs q h
    | bottom =>
      show (bottom q).rb.length ≤ 512
      unfold bottom
      split
      · exact h
      · rename_i b l hb; rw [hb] at h; simp at h ⊢; omega

/-! ### Violations -/

/-- A terminal in the normal mode. -/
def plain : Env := ⟨false, false, 1, 4⟩
/-- A terminal in medium raw mode. -/
def raw : Env := ⟨true, false, 1, 4⟩

/-- With Caps Lock on, Shift and a letter give the capital, not the small letter. -/
theorem caps_shift_violated :
    (run (init false) [(plain, .press .caps), (plain, .release .caps), (plain, .press .lshift), (plain, .press .a)]).2
      = [[], [], [], [.chr 65]] ∧
    ((sp0 false).run [(plain, .press .caps), (plain, .release .caps), (plain, .press .lshift), (plain, .press .a)]).2
      = [[], [], [], [.chr 97]] := by decide +kernel

/-- Shift with Backspace gives BS (not DEL, the erase character), and with Enter gives LF (not CR). -/
theorem shift_erase_violated :
    (run (init false) [(plain, .press .lshift), (plain, .press .backspace), (plain, .press .enter)]).2
      = [[], [.chr 8], [.chr 10]] ∧
    ((sp0 false).run [(plain, .press .lshift), (plain, .press .backspace), (plain, .press .enter)]).2
      = [[], [.chr 127], [.chr 13]] := by decide +kernel

/-- Holding Caps Lock (the keyboard repeats the press) switches it off again. -/
theorem lock_repeat_violated :
    (run (init false) [(plain, .press .caps), (plain, .press .caps), (plain, .release .caps), (plain, .press .a)]).2
      = [[], [], [], [.chr 97]] ∧
    ((sp0 false).run [(plain, .press .caps), (plain, .press .caps), (plain, .release .caps), (plain, .press .a)]).2
      = [[], [], [], [.chr 65]] := by decide +kernel

/-- F1 with Ctrl gives nothing, while F6 with Ctrl gives its sequence. -/
theorem fkey_modifier_violated :
    (run (init false) [(plain, .press .lctrl), (plain, .press .f1), (plain, .press .f6)]).2
      = [[], [], [27, 91, 49, 55, 59, 53, 126].map .ins] ∧
    (((sp0 false).run [(plain, .press .lctrl), (plain, .press .f1)]).2)[1]? ≠ some [] := by decide +kernel

/-- Ctrl and `]` give `]`, not the control character 1D. -/
theorem ctrl_violated :
    (run (init false) [(plain, .press .lctrl), (plain, .press .rbracket)]).2 = [[], [.chr 93]] ∧
    ((sp0 false).run [(plain, .press .lctrl), (plain, .press .rbracket)]).2 = [[], [.chr 29]] := by decide +kernel

/-- In medium raw mode the release of a key that has no key code delivers a byte although its press did not,
and Caps Lock delivers its release but not its press. -/
theorem mediumraw_violated :
    (run (init false) [(raw, .press .lmeta), (raw, .release .lmeta), (raw, .press .caps), (raw, .release .caps)]).2
      = [[], [.ins 0x80], [], [.ins 0xBA]] ∧
    ((sp0 false).run [(raw, .press .lmeta), (raw, .release .lmeta), (raw, .press .caps), (raw, .release .caps)]).2
      = [[], [], [.ins 0x3A], [.ins 0xBA]] := by decide +kernel

/-- When 512 bytes wait, the next one is lost. If it is the release of a shift key, the driver goes on as if the key were
held: the letter typed afterwards, with no key held, is a capital. -/
theorem overflow_violated :
    ∃ evs, sent evs = [0x2A] ++ List.replicate 511 0x9E ++ [0xAA] ++ [0x1E] ∧
      (irqRun ⟨[], []⟩ evs).rb = [] ∧
      (processAll (init false) plain (irqRun ⟨[], []⟩ evs).done).2 = [.chr 65] ∧
      (processAll (init false) plain (sent evs)).2 = [.chr 97] := by
  refine ⟨[.irq ([0x2A] ++ List.replicate 511 0x9E ++ [0xAA])] ++ List.replicate 512 .bottom ++ [.irq [0x1E], .bottom], ?_⟩
  decide +kernel

/-! ### Non-vacuity -/

/-- A history that meets the conditions: `a`, Shift+`b`, Ctrl+`c`, Alt+F2, Up, Ctrl+Right, Caps Lock, `x`, keypad 7. -/
def sample : List (Env × Act) :=
  [(plain, .press .a), (plain, .release .a), (plain, .press .rshift), (plain, .press .b), (plain, .release .b),
   (plain, .release .rshift), (plain, .press .rctrl), (plain, .press .c), (plain, .release .c), (plain, .fakeL true),
   (plain, .press .right), (plain, .release .right), (plain, .fakeL false), (plain, .release .rctrl), (plain, .press .lalt),
   (plain, .press .f2), (plain, .release .f2), (plain, .release .lalt), (plain, .pause), (plain, .press .up),
   (plain, .press .caps), (plain, .release .caps), (plain, .press .x), (plain, .press .kp7), (raw, .press .del)]

example : (run (init true) sample).2 =
    [[.chr 97], [], [], [.chr 66], [], [], [], [.chr 3], [], [],
     [27, 91, 49, 59, 53, 67].map .ins, [], [], [], [],
     [.switch 2], [], [], [], [27, 91, 65].map .ins, [], [], [.chr 88], [.chr 55], [.ins 111]] := by decide +kernel

instance (s : Sp) (e : Env) : (a : Act) → Decidable (Ok s e a)
  | .press k => by
    unfold Ok
    haveI : Decidable (∀ c, charOf s.shift s.caps s.num k = some c → c ≠ ']' ∧ c ≠ '^' ∧ c ≠ '_') :=
      inferInstanceAs (Decidable (∀ c ∈ charOf s.shift s.caps s.num k, c ≠ ']' ∧ c ≠ '^' ∧ c ≠ '_'))
    infer_instance
  | .release k => by unfold Ok; infer_instance
  | .fakeL _ => .isTrue trivial
  | .fakeR b => by unfold Ok; infer_instance
  | .pause => .isTrue trivial

instance : (s : Sp) → (as : List (Env × Act)) → Decidable (AllOk s as)
  | _, [] => .isTrue trivial
  | s, (e, a) :: r => by
    unfold AllOk
    haveI : Decidable (AllOk (s.next a) r) := instDecidableAllOk (s.next a) r
    infer_instance

example : AllOk (sp0 true) sample := by decide +kernel

/-- Ctrl+Alt+Del. -/
example : (run (init false) [(plain, .press .lctrl), (plain, .press .lalt), (plain, .press .del), (plain, .press .a)]).2
    = [[], [], [.reboot], []] := by decide +kernel

example : fits 0 [.irq [0xE0], .irq [0x48], .bottom, .irq [0xE0, 0xC8], .bottom, .bottom] := by
  simp [fits]

end Verif.Kbd
