/-!
# Terminal input (kernel/tty/tty_input.c, tty_ctrl_handlers.c.h, part of tty_ioctl.c)

Properties C88 to C92.

One terminal, any number of open handles for it. Keys arrive at any moment, also between any two steps of a read. The handling of a key is
one step: it is done by a worker thread, which tasks do not preempt (C61), unless it has to wait for room in the input buffer (`block`, for
serial ports). Ring buffers are lists (C01). Echo and output, the medium raw mode, the check of the foreground process group, and waiting
itself (C82, C83) are left out: a read that waits may check again at any moment, or find a signal.
-/
namespace Verif.TtyIn

abbrev Byte := Nat
abbrev Hid := Nat

/-- TTY_INPUT_BS (config/kernel/mod_console.h:35). -/
def CAP : Nat := 1024
/-- TTY_READ_BS (tty_int.h:14). -/
def RBS : Nat := 4096

def NL : Byte := 10
def CR : Byte := 13

/-- The flags and characters of `struct termios` that are used here. 0 means that a character is disabled. -/
structure Tio where
  canon : Bool
  isig : Bool
  ixon : Bool
  iexten : Bool
  igncr : Bool
  icrnl : Bool
  inlcr : Bool
  vintr : Byte
  vquit : Byte
  verase : Byte
  veof : Byte
  vmin : Nat
  vstart : Byte
  vstop : Byte
  vsusp : Byte
  veol : Byte
  vreprint : Byte
  vdiscard : Byte
  vlnext : Byte
  veol2 : Byte
deriving DecidableEq, Repr

/-- `default_termios` (tty_ioctl.c:18-50). -/
def tio0 : Tio :=
  { canon := true, isig := true, ixon := true, iexten := true, igncr := false, icrnl := true, inlcr := false, vintr := 3, vquit := 0x1c,
    verase := 0x7f, veof := 4, vmin := 1, vstart := 0x11, vstop := 0x13, vsusp := 0x1a, veol := 0, vreprint := 0x12, vdiscard := 0xf,
    vlnext := 0x16, veol2 := 0 }

/-- The handlers of control characters (tty_ctrl_handlers.c.h). -/
inductive Hnd | stop | start | intr | susp | quit | eof | eol | eol2 | reprint | discard | lnext
deriving DecidableEq, Repr

/-- `tty_set_ctrl_handler` (tty_ctrl_handlers.c.h:145-161). -/
def setHandler (tab : Byte → Option Hnd) (p : Byte × Hnd) : Byte → Option Hnd :=
  if p.1 = 0 then tab else fun c => if c = p.1 then some p.2 else tab c

/-- `tty_update_ctrl_handlers` (tty_input.c:655-669), called whenever the settings change (tty_ioctl.c:109). -/
def handlers (t : Tio) : Byte → Option Hnd :=
  [(t.vstop, Hnd.stop), (t.vstart, .start), (t.vintr, .intr), (t.vsusp, .susp), (t.vquit, .quit), (t.veof, .eof), (t.veol, .eol),
   (t.veol2, .eol2), (t.vreprint, .reprint), (t.vdiscard, .discard), (t.vlnext, .lnext)].foldl setHandler fun _ => none

/-- Where a read is: not called; at the beginning of the loop (tty_input.c:582); at the loop that waits (596); at the check of the buffer (628);
before taking a byte (630); after taking `c` (446); after the loop (632). -/
inductive RPc | idle | top | wait | fill | pop | got (c : Byte) | flush
deriving DecidableEq, Repr

/-- A handle (`struct tty_handle_extra`, tty_int.h:16-21): `buf` are the first `read_buf_used` bytes of `read_buf`. And the call of read that is
going on: its size, what it has written to the caller's buffer (`out`), `delim_break`. -/
structure Rd where
  nonblock : Bool
  pc : RPc
  buf : List Byte
  pos : Nat
  allowed : Bool
  size : Nat
  out : List Byte
  delim : Bool
deriving DecidableEq, Repr

/-- The terminal: settings, input buffer, `end_line_delim_count`, handles, whether the worker waits for room for a byte (and whether it
then increments the counter), signals sent to the foreground group, whether an ASSERT has failed. -/
structure St where
  tio : Tio
  ring : List Byte
  count : Int
  rd : Hid → Rd
  blk : Option (Byte × Bool)
  sent : List Nat
  panic : Bool

def St.setR (s : St) (h : Hid) (f : Rd → Rd) : St := { s with rd := fun x => if x = h then f (s.rd x) else s.rd x }

/-- `tty_is_line_delim_char` (tty_input.c:262-268). -/
def isDelim (t : Tio) (c : Byte) : Bool := c = NL || c = t.veof || c = t.veol || c = t.veol2

/-- `tty_inbuf_write_elem` (tty_input.c:196-236), after which the counter is incremented if `cnt`. -/
def put (s : St) (c : Byte) (block cnt : Bool) : St :=
  if s.ring.length < CAP then { s with ring := s.ring ++ [c], count := s.count + cnt.toNat }
  else if block then { s with blk := some (c, cnt) }
  else { s with count := s.count + cnt.toNat }

/-- `tty_inbuf_reset` (tty_input.c:140-148) and `send_signal_to_group`. -/
def interrupt (s : St) (sig : Nat) : St := { s with ring := [], count := 0, sent := s.sent ++ [sig] }

/-- `tty_handle_special_controls` and the handlers (tty_ctrl_handlers.c.h). SIGINT is 2, SIGQUIT is 3. -/
def special (s : St) (c : Byte) (block : Bool) : Option St :=
  match handlers s.tio c with
  | none => none
  | some .stop => if s.tio.ixon then some s else none
  | some .start => if s.tio.ixon then some s else none
  | some .intr => if s.tio.isig then some (interrupt s 2) else none
  | some .susp => if s.tio.isig then some s else none
  | some .quit => if s.tio.isig then some (interrupt s 3) else none
  | some .eof => if s.tio.canon then some (put { s with count := s.count + 1 } s.tio.veof block false) else none
  | some .eol => if s.tio.canon then some (put { s with count := s.count + 1 } s.tio.veol block false) else none
  | some .eol2 => if s.tio.canon then some (put { s with count := s.count + 1 } s.tio.veol2 block false) else none
  | some .reprint => if s.tio.canon || s.tio.iexten then some s else none
  | some .discard => none
  | some .lnext => if s.tio.iexten then some s else none

/-- `tty_keypress_handle_canon_mode` (tty_input.c:270-286). -/
def canonKey (s : St) (c : Byte) (block : Bool) : St :=
  if c = s.tio.verase then { s with ring := s.ring.dropLast } else put s c block (isDelim s.tio c)

/-- The translation of CR and NL (tty_input.c:290-305); `none`: ignored. -/
def translate (t : Tio) (c : Byte) : Option Byte :=
  if c = CR then (if t.igncr then none else if t.icrnl then some NL else some c)
  else if c = NL then (if t.inlcr then some CR else some c)
  else some c

/-- The rest of `tty_send_keyevent` (tty_input.c:307-319). -/
def key1 (s : St) (c : Byte) (block : Bool) : St :=
  match special s c block with
  | some s' => s'
  | none => if s.tio.canon then canonKey s c block else put s c block false

/-- `tty_send_keyevent` (tty_input.c:288-320). Ctrl with a letter is the corresponding control character (333-338). -/
def key (s : St) (c : Byte) (block : Bool) : St :=
  match translate s.tio c with
  | none => s
  | some c => key1 s c block

/-- `tty_handle_non_printable_key` (tty_input.c:238-260) for a key that sends the bytes `bs`; also ESC, sent first if Alt is pressed (330-331). -/
def keySeq (s : St) (bs : List Byte) : St := bs.foldl (fun s c => put s c false false) s

/-- `tty_read_ready_int` (tty_input.c:503-513). -/
def ready (s : St) (r : Rd) : Bool :=
  if s.tio.canon then r.allowed || decide (s.count > 0) else decide (s.ring.length ≥ s.tio.vmin)

/-- `tty_flush_read_buf` (tty_input.c:416-433), into what is left of the caller's buffer. -/
def flush (r : Rd) : Rd :=
  let m := min (r.buf.length - r.pos) (r.size - r.out.length)
  let out := r.out ++ (r.buf.drop r.pos).take m
  if r.pos + m = r.buf.length then { r with out := out, buf := [], pos := 0 } else { r with out := out, pos := r.pos + m }

/-- The result of a read. -/
inductive Res | data (d : List Byte) | eagain | eintr
deriving DecidableEq, Repr

/-- What a step shows to the outside: a read of the given size on the handle has returned. -/
abbrev Out := Option (Hid × Nat × Res)

/-- The read on `h` is over. -/
def finish (s : St) (h : Hid) (r : Res) : St × Out := (s.setR h fun x => { x with pc := .idle }, some (h, (s.rd h).size, r))

/-- A failing ASSERT. -/
def fail (s : St) : St × Out := ({ s with panic := true }, none)

/-- The beginning of `tty_read_int` (tty_input.c:543-580), without the check of the process group. -/
def begin (s : St) (h : Hid) (n : Nat) : St × Out :=
  let r := { s.rd h with size := n, out := [] }
  if n = 0 then (s, some (h, 0, .data []))
  else if r.buf ≠ [] ∧ r.nonblock = false then
    (s.setR h fun _ => flush r, some (h, n, .data (flush r).out))
  else if r.buf ≠ [] ∧ r.allowed then
    (s.setR h fun _ => { flush r with allowed := decide ((flush r).buf ≠ []) }, some (h, n, .data (flush r).out))
  else (s.setR h fun _ => { r with allowed := false, pc := .top }, none)

/-- `tty_internal_should_read_return` (tty_input.c:483-501). -/
def shouldReturn (s : St) (r : Rd) : Bool :=
  if s.tio.canon then
    r.delim || (decide (s.count > 0) && (decide (r.buf.length = RBS) || decide (r.out.length = CAP)))
  else decide (r.out.length ≥ s.tio.vmin)

/-- `tty_internal_read_single_char_from_kb` (tty_input.c:440-477) after the byte has been taken. -/
def account (s : St) (h : Hid) (c : Byte) : St × Out :=
  if s.tio.canon then
    if isDelim s.tio c then
      if s.count > 0 then
        ({ s with count := s.count - 1 }.setR h fun r =>
          { r with delim := true, pc := .flush, buf := if c = s.tio.veof then r.buf.dropLast else r.buf }, none)
      else fail s
    else (s.setR h fun r => { r with pc := .fill }, none)
  else if (s.rd h).buf.length ≥ s.tio.vmin then (s.setR h fun r => { r with pc := .flush }, none)
  else (s.setR h fun r => { r with pc := .fill }, none)

/-- The flush inside of the loop (tty_input.c:632-633). -/
def flush1 (s : St) (r : Rd) : Rd := if r.nonblock = false ∨ s.tio.canon = false then flush r else r

/-- After the loop (tty_input.c:639-650). -/
def flush2 (r : Rd) : Rd := if r.nonblock then { flush r with allowed := if (flush r).buf ≠ [] then true else (flush r).allowed } else r

/-- The end of an iteration of the main loop (tty_input.c:632-652). -/
def endLoop (s : St) (h : Hid) : St × Out :=
  let r := flush1 s (s.rd h)
  if s.count < 0 then fail s
  else if shouldReturn s r then finish (s.setR h fun _ => flush2 r) h (.data (flush2 r).out)
  else (s.setR h fun _ => { r with pc := .top }, none)

/-- A step of the read on `h` (tty_input.c:582-652); `sig`: a signal is pending. -/
def rdStep (s : St) (h : Hid) (sig : Bool) : Option (St × Out) :=
  match (s.rd h).pc with
  | .idle => none
  | .top =>
    if (s.rd h).nonblock ∧ ready s (s.rd h) = false then some (finish s h .eagain)
    else some (s.setR h fun r => { r with pc := .wait }, none)
  | .wait =>
    if ready s (s.rd h) then
      if (s.rd h).nonblock = false ∧ ((s.rd h).buf ≠ [] ∨ (s.rd h).pos ≠ 0) then some (fail s)
      else some (s.setR h fun r => { r with pc := .fill, delim := false }, none)
    else if sig then some (finish s h .eintr)
    else some (s, none)
  | .fill =>
    if s.ring ≠ [] ∧ (s.rd h).buf.length < RBS then some (s.setR h fun r => { r with pc := .pop }, none)
    else some (s.setR h fun r => { r with pc := .flush }, none)
  | .pop => match s.ring with
    | [] => some (fail s)
    | c :: rest => some ({ s with ring := rest }.setR h fun r => { r with pc := .got c, buf := r.buf ++ [c] }, none)
  | .got c => some (account s h c)
  | .flush => some (endLoop s h)

/-- `tty_ioctl_tcsets` (tty_ioctl.c:92-112), TCSETSF if `f` (349-351). -/
def setTio (s : St) (t : Tio) (f : Bool) : St :=
  let s1 := if f then { s with ring := [], count := 0 } else s
  { s1 with tio := t, count := if t.canon ≠ s.tio.canon then 0 else s1.count }

/-- A handle is duplicated, by dup or fork (`tty_on_dup_extra`, tty.c:103-117). -/
def dup (s : St) (h h' : Hid) : St :=
  { s with rd := fun x => if x = h' then { s.rd h with pc := .idle } else s.rd x }

/-- A new handle (`tty_create_extra`, tty.c:90-101). -/
def rd0 (nonblock : Bool) : Rd :=
  { nonblock := nonblock, pc := .idle, buf := [], pos := 0, allowed := false, size := 0, out := [], delim := false }

/-- What can happen: a key, a key that sends several bytes, the waiting worker goes on, a read begins, a step of a read, the settings are
changed, a handle is duplicated or newly opened. -/
inductive Ev
  | key (c : Byte) (block : Bool) | seq (bs : List Byte) | retry
  | begin (h : Hid) (n : Nat) | rd (h : Hid) (sig : Bool)
  | set (t : Tio) (f : Bool) | dup (h h' : Hid) | opn (h : Hid) (nonblock : Bool)

/-- One step, without the check for a failed ASSERT. -/
def step1 (s : St) : Ev → Option (St × Out)
  | .key c b => if s.blk = none then some (key s c b, none) else none
  | .seq bs => if s.blk = none then some (keySeq s bs, none) else none
  | .retry => match s.blk with
    | some (c, cnt) => if s.ring.length < CAP then some (put { s with blk := none } c true cnt, none) else none
    | none => none
  | .begin h n => if (s.rd h).pc = .idle then some (begin s h n) else none
  | .rd h sig => rdStep s h sig
  | .set t f => some (setTio s t f, none)
  | .dup h h' => if (s.rd h).pc = .idle ∧ (s.rd h').pc = .idle ∧ h ≠ h' then some (dup s h h', none) else none
  | .opn h nb => if (s.rd h).pc = .idle then some (s.setR h fun _ => rd0 nb, none) else none

/-- One step; nothing happens after a panic. -/
def step (s : St) (e : Ev) : Option (St × Out) := if s.panic then none else step1 s e

/-- The terminal after boot, with settings `t`; `nb` tells which handles are non-blocking. -/
def init (t : Tio) (nb : Hid → Bool) : St :=
  { tio := t, ring := [], count := 0, rd := fun h => rd0 (nb h), blk := none, sent := [], panic := false }

/-! ## Specification

What POSIX says about terminal input, as far as it is supported: a queue of complete lines that are not read yet, and what has been typed
since. In raw mode, `cur` are all bytes not read yet. `rest h` is what is left of a line of which a read on `h` has returned a part. -/

structure Spec where
  tio : Tio
  lines : List (List Byte)
  cur : List Byte
  rest : Hid → List Byte
  sent : List Nat

/-- A line is complete, and contains the character that ended it. -/
def Spec.endLine (sp : Spec) (c : List Byte) : Spec := { sp with lines := sp.lines ++ [sp.cur ++ c], cur := [] }

/-- Unread input is discarded. -/
def Spec.discard (sp : Spec) : Spec := { sp with lines := [], cur := [] }

/-- A character `c ≠ 0` is typed. -/
def Spec.char (sp : Spec) (c : Byte) : Spec :=
  if (c = sp.tio.vstart ∨ c = sp.tio.vstop) ∧ sp.tio.ixon then sp
  else if c = sp.tio.vintr ∧ sp.tio.isig then { sp.discard with sent := sp.sent ++ [2] }
  else if c = sp.tio.vquit ∧ sp.tio.isig then { sp.discard with sent := sp.sent ++ [3] }
  else if c = sp.tio.vsusp ∧ sp.tio.isig then sp
  else if c = sp.tio.vreprint ∧ (sp.tio.canon ∨ sp.tio.iexten) then sp
  else if c = sp.tio.vlnext ∧ sp.tio.iexten then sp
  else if sp.tio.canon = false then { sp with cur := sp.cur ++ [c] }
  else if c = sp.tio.verase then { sp with cur := sp.cur.dropLast }
  else if c = sp.tio.veof then sp.endLine []
  else if c = 10 ∨ c = sp.tio.veol ∨ c = sp.tio.veol2 then sp.endLine [c]
  else { sp with cur := sp.cur ++ [c] }

/-- A key is pressed: carriage returns and newlines are translated first. -/
def Spec.key (sp : Spec) (c : Byte) : Spec :=
  if c = 13 ∧ sp.tio.igncr then sp
  else if c = 13 ∧ sp.tio.icrnl then sp.char 10
  else if c = 10 ∧ sp.tio.inlcr then sp.char 13
  else sp.char c

/-- What a read of at most `n ≥ 1` bytes on `h` may return: what is left of a line; or the next line, or its beginning; in raw mode, the next
bytes, at least VMIN. -/
def Spec.Allows (sp : Spec) (h : Hid) (n : Nat) (d : List Byte) : Prop :=
  if sp.rest h ≠ [] then d = (sp.rest h).take n
  else if sp.tio.canon then ∃ l ls, sp.lines = l :: ls ∧ d = l.take n
  else d <+: sp.cur ∧ sp.tio.vmin ≤ d.length ∧ d.length ≤ n

/-- There is nothing to be read on `h`. -/
def Spec.Nothing (sp : Spec) (h : Hid) : Prop :=
  sp.rest h = [] ∧ if sp.tio.canon then sp.lines = [] else sp.cur.length < sp.tio.vmin

/-- `d` has been returned by a read of at most `n` bytes on `h`. -/
def Spec.read (sp : Spec) (h : Hid) (n : Nat) (d : List Byte) : Spec :=
  if n = 0 then sp
  else if sp.rest h ≠ [] then { sp with rest := fun x => if x = h then (sp.rest h).drop n else sp.rest x }
  else if sp.tio.canon then
    { sp with lines := sp.lines.tail, rest := fun x => if x = h then (sp.lines.headD []).drop n else sp.rest x }
  else { sp with cur := sp.cur.drop d.length }

/-- The specification follows what happens and what reads return. -/
def Spec.next (sp : Spec) : Ev → Out → Spec
  | .key c _, _ => sp.key c
  | .seq bs, _ => { sp with cur := sp.cur ++ bs }
  | .set t f, _ => { (if f then sp.discard else sp) with tio := t }
  | .dup _ h, _ => { sp with rest := fun x => if x = h then [] else sp.rest x }
  | .opn h _, _ => { sp with rest := fun x => if x = h then [] else sp.rest x }
  | _, some (h, n, .data d) => sp.read h n d
  | _, _ => sp

/-- Nothing has been typed yet. -/
def spec0 (t : Tio) : Spec := { tio := t, lines := [], cur := [], rest := fun _ => [], sent := [] }

/-- What can be reached with events that `ok` allows. -/
inductive ReachP (ok : St → Spec → Ev → Prop) (t0 : Tio) (nb : Hid → Bool) : St → Spec → Prop
  | init : ReachP ok t0 nb (init t0 nb) (spec0 t0)
  | step {s s' : St} {sp : Spec} {o : Out} (e : Ev) : ReachP ok t0 nb s sp → ok s sp e → step s e = some (s', o) →
      ReachP ok t0 nb s' (sp.next e o)

/-- What can be reached. -/
def Reach := ReachP fun _ _ _ => True

/-- Different control characters are different, unless disabled, and none is a newline. -/
def Good (t : Tio) : Prop :=
  ([t.vstart, t.vstop, t.vintr, t.vquit, t.vsusp, t.vreprint, t.vlnext, t.vdiscard, t.verase, t.veof, t.veol, t.veol2].Pairwise
    fun x y => x = y → x = 0) ∧
  NL ∉ [t.vstart, t.vstop, t.vintr, t.vquit, t.vsusp, t.vreprint, t.vlnext, t.vdiscard, t.verase, t.veof, t.veol, t.veol2] ∧ t.vmin < 256

/-- A read is past its waiting. -/
def RPc.busy : RPc → Bool
  | .idle | .top | .wait => false
  | _ => true

/-- The character discards the input. -/
def discards (t : Tio) (c : Byte) : Prop := t.isig ∧ (c = t.vintr ∨ c = t.vquit)

/-- The conditions under which the specification is met: keys come while there is room and are not NUL; nothing is erased when nothing has
been typed after a line that is still unread; input is not discarded while a read is past its waiting; one read at a time, and in raw mode not
for less than VMIN; the settings are changed while nothing is unread (or with TCSETSF) and nobody reads; handles are not
duplicated with a part of a line left. (A newline may be translated to CR.) -/
def Ok (s : St) (sp : Spec) : Ev → Prop
  | .key c _ => s.ring.length < CAP ∧ c ≠ 0 ∧ ∀ x, x = c ∨ c = NL ∧ x = CR →
      (s.tio.canon → x = s.tio.verase → sp.cur = [] → sp.lines = []) ∧ (discards s.tio x → ∀ h, (s.rd h).pc.busy = false)
  | .seq bs => s.ring.length + bs.length ≤ CAP ∧ (s.tio.canon → ∀ c ∈ bs, c ≠ NL ∧ c ≠ s.tio.veof ∧ c ≠ s.tio.veol ∧ c ≠ s.tio.veol2)
  | .begin h n => (∀ x, x ≠ h → (s.rd x).pc = .idle) ∧ (s.tio.canon = false → n = 0 ∨ s.tio.vmin ≤ n)
  | .set t f => (∀ h, (s.rd h).pc = .idle) ∧ (f = true ∨ sp.lines = [] ∧ sp.cur = []) ∧ Good t
  | .dup h _ => sp.rest h = []
  | _ => True

theorem setHandler_eq {c : Byte} (hc : c ≠ 0) (tab : Byte → Option Hnd) (p : Byte × Hnd) :
    setHandler tab p c = if c = p.1 then some p.2 else tab c := by
  unfold setHandler
  by_cases h : p.1 = 0
  · rw [if_pos h, if_neg (fun e => hc (e.trans h))]
  · rw [if_neg h]

theorem handlers_eq (t : Tio) {c : Byte} (hc : c ≠ 0) : handlers t c =
    if c = t.vlnext then some .lnext else if c = t.vdiscard then some .discard else if c = t.vreprint then some .reprint else
    if c = t.veol2 then some .eol2 else if c = t.veol then some .eol else if c = t.veof then some .eof else
    if c = t.vquit then some .quit else if c = t.vsusp then some .susp else if c = t.vintr then some .intr else
    if c = t.vstart then some .start else if c = t.vstop then some .stop else none := by
  simp only [handlers, List.foldl_cons, List.foldl_nil, setHandler_eq hc]

/-- What a character does in canonical mode. -/
inductive CanonCase (s : St) (sp : Spec) (c : Byte) (s' : St) (sp' : Spec) : Prop
  | same : s' = s → sp' = sp → CanonCase s sp c s' sp'
  | flush (sig : Nat) : discards s.tio c → s' = interrupt s sig → sp' = { sp.discard with sent := sp.sent ++ [sig] } → CanonCase s sp c s' sp'
  | erase : c = s.tio.verase → s' = { s with ring := s.ring.dropLast } → sp' = { sp with cur := sp.cur.dropLast } → CanonCase s sp c s' sp'
  | delim : isDelim s.tio c = true → s' = { s with ring := s.ring ++ [c], count := s.count + 1 } →
      sp' = sp.endLine (if c = s.tio.veof then [] else [c]) → CanonCase s sp c s' sp'
  | char : isDelim s.tio c = false → s' = { s with ring := s.ring ++ [c] } → sp' = { sp with cur := sp.cur ++ [c] } → CanonCase s sp c s' sp'

theorem put_room {s : St} (hr : s.ring.length < CAP) (c : Byte) (b cnt : Bool) :
    put s c b cnt = { s with ring := s.ring ++ [c], count := s.count + cnt.toNat } := by
  rw [put, if_pos hr]

theorem canon_case {s : St} {sp : Spec} {c : Byte} (b : Bool) (hg : Good s.tio) (ht : sp.tio = s.tio) (hcan : s.tio.canon = true) (hc : c ≠ 0)
    (hr : s.ring.length < CAP) : CanonCase s sp c (key1 s c b) (sp.char c) := by
  obtain ⟨hp, hnl, _⟩ := hg
  simp only [List.pairwise_cons, List.mem_cons, List.not_mem_nil, or_false, forall_eq_or_imp, forall_eq, not_or] at hp hnl
  obtain ⟨⟨p0_1, p0_2, p0_3, p0_4, p0_5, p0_6, p0_7, p0_8, p0_9, p0_10, p0_11⟩, ⟨p1_2, p1_3, p1_4, p1_5, p1_6, p1_7, p1_8, p1_9, p1_10, p1_11⟩, ⟨p2_3, p2_4, p2_5, p2_6, p2_7, p2_8, p2_9, p2_10, p2_11⟩, ⟨p3_4, p3_5, p3_6, p3_7, p3_8, p3_9, p3_10, p3_11⟩, ⟨p4_5, p4_6, p4_7, p4_8, p4_9, p4_10, p4_11⟩, ⟨p5_6, p5_7, p5_8, p5_9, p5_10, p5_11⟩, ⟨p6_7, p6_8, p6_9, p6_10, p6_11⟩, ⟨p7_8, p7_9, p7_10, p7_11⟩, ⟨p8_9, p8_10, p8_11⟩, ⟨p9_10, p9_11⟩, p10_11, _⟩ := hp
  obtain ⟨n0, n1, n2, n3, n4, n5, n6, n7, n8, n9, n10, n11⟩ := hnl
  obtain ⟨_, lines, cur, rest, sent⟩ := sp
  dsimp only at ht
  subst ht
  unfold key1 special canonKey Spec.char
  rw [handlers_eq _ hc]
  simp only [put_room hr, put_room (s := { s with count := s.count + 1 }) hr]
  by_cases h : c = s.tio.vstart
  · have e1 : (c = s.tio.vstop) = False := eq_false fun e => hc (h.trans (p0_1 (h.symm.trans e)))
    have e2 : (c = s.tio.vintr) = False := eq_false fun e => hc (h.trans (p0_2 (h.symm.trans e)))
    have e3 : (c = s.tio.vquit) = False := eq_false fun e => hc (h.trans (p0_3 (h.symm.trans e)))
    have e4 : (c = s.tio.vsusp) = False := eq_false fun e => hc (h.trans (p0_4 (h.symm.trans e)))
    have e5 : (c = s.tio.vreprint) = False := eq_false fun e => hc (h.trans (p0_5 (h.symm.trans e)))
    have e6 : (c = s.tio.vlnext) = False := eq_false fun e => hc (h.trans (p0_6 (h.symm.trans e)))
    have e7 : (c = s.tio.vdiscard) = False := eq_false fun e => hc (h.trans (p0_7 (h.symm.trans e)))
    have e8 : (c = s.tio.verase) = False := eq_false fun e => hc (h.trans (p0_8 (h.symm.trans e)))
    have e9 : (c = s.tio.veof) = False := eq_false fun e => hc (h.trans (p0_9 (h.symm.trans e)))
    have e10 : (c = s.tio.veol) = False := eq_false fun e => hc (h.trans (p0_10 (h.symm.trans e)))
    have e11 : (c = s.tio.veol2) = False := eq_false fun e => hc (h.trans (p0_11 (h.symm.trans e)))
    have en : (c = 10) = False := eq_false fun e => n0 (e.symm.trans h)
    have ek : (c = s.tio.vstart) = True := eq_true h
    clear p0_1 p0_2 p0_3 p0_4 p0_5 p0_6 p0_7 p0_8 p0_9 p0_10 p0_11 p1_2 p1_3 p1_4 p1_5 p1_6 p1_7 p1_8 p1_9 p1_10 p1_11 p2_3 p2_4 p2_5 p2_6 p2_7 p2_8 p2_9 p2_10 p2_11 p3_4 p3_5 p3_6 p3_7 p3_8 p3_9 p3_10 p3_11 p4_5 p4_6 p4_7 p4_8 p4_9 p4_10 p4_11 p5_6 p5_7 p5_8 p5_9 p5_10 p5_11 p6_7 p6_8 p6_9 p6_10 p6_11 p7_8 p7_9 p7_10 p7_11 p8_9 p8_10 p8_11 p9_10 p9_11 p10_11 n0 n1 n2 n3 n4 n5 n6 n7 n8 n9 n10 n11
    simp only [e1, e2, e3, e4, e5, e6, e7, e8, e9, e10, e11, ek, en, if_true, if_false, false_or, or_false, true_or, or_true, true_and, false_and, Bool.false_eq_true]
    cases hx : s.tio.ixon
    · simp only [hx, hcan, if_true, if_false, and_false, Bool.false_eq_true, Bool.true_eq_false]
      exact .char (by simp [isDelim, NL, e9, e10, e11, en]) (by simp [isDelim, NL, e9, e10, e11, en]) rfl
    · simp only [hx, hcan, if_true, if_false, and_true]
      exact .same rfl rfl
  have e0 := eq_false h
  clear h
  by_cases h : c = s.tio.vstop
  · have e0 : (c = s.tio.vstart) = False := eq_false fun e => hc (e.trans (p0_1 (e.symm.trans h)))
    have e2 : (c = s.tio.vintr) = False := eq_false fun e => hc (h.trans (p1_2 (h.symm.trans e)))
    have e3 : (c = s.tio.vquit) = False := eq_false fun e => hc (h.trans (p1_3 (h.symm.trans e)))
    have e4 : (c = s.tio.vsusp) = False := eq_false fun e => hc (h.trans (p1_4 (h.symm.trans e)))
    have e5 : (c = s.tio.vreprint) = False := eq_false fun e => hc (h.trans (p1_5 (h.symm.trans e)))
    have e6 : (c = s.tio.vlnext) = False := eq_false fun e => hc (h.trans (p1_6 (h.symm.trans e)))
    have e7 : (c = s.tio.vdiscard) = False := eq_false fun e => hc (h.trans (p1_7 (h.symm.trans e)))
    have e8 : (c = s.tio.verase) = False := eq_false fun e => hc (h.trans (p1_8 (h.symm.trans e)))
    have e9 : (c = s.tio.veof) = False := eq_false fun e => hc (h.trans (p1_9 (h.symm.trans e)))
    have e10 : (c = s.tio.veol) = False := eq_false fun e => hc (h.trans (p1_10 (h.symm.trans e)))
    have e11 : (c = s.tio.veol2) = False := eq_false fun e => hc (h.trans (p1_11 (h.symm.trans e)))
    have en : (c = 10) = False := eq_false fun e => n1 (e.symm.trans h)
    have ek : (c = s.tio.vstop) = True := eq_true h
    clear p0_1 p0_2 p0_3 p0_4 p0_5 p0_6 p0_7 p0_8 p0_9 p0_10 p0_11 p1_2 p1_3 p1_4 p1_5 p1_6 p1_7 p1_8 p1_9 p1_10 p1_11 p2_3 p2_4 p2_5 p2_6 p2_7 p2_8 p2_9 p2_10 p2_11 p3_4 p3_5 p3_6 p3_7 p3_8 p3_9 p3_10 p3_11 p4_5 p4_6 p4_7 p4_8 p4_9 p4_10 p4_11 p5_6 p5_7 p5_8 p5_9 p5_10 p5_11 p6_7 p6_8 p6_9 p6_10 p6_11 p7_8 p7_9 p7_10 p7_11 p8_9 p8_10 p8_11 p9_10 p9_11 p10_11 n0 n1 n2 n3 n4 n5 n6 n7 n8 n9 n10 n11
    simp only [e0, e2, e3, e4, e5, e6, e7, e8, e9, e10, e11, ek, en, if_true, if_false, false_or, or_false, true_or, or_true, true_and, false_and, Bool.false_eq_true]
    cases hx : s.tio.ixon
    · simp only [hx, hcan, if_true, if_false, and_false, Bool.false_eq_true, Bool.true_eq_false]
      exact .char (by simp [isDelim, NL, e9, e10, e11, en]) (by simp [isDelim, NL, e9, e10, e11, en]) rfl
    · simp only [hx, hcan, if_true, if_false, and_true]
      exact .same rfl rfl
  have e1 := eq_false h
  clear h
  by_cases h : c = s.tio.vintr
  · have e0 : (c = s.tio.vstart) = False := eq_false fun e => hc (e.trans (p0_2 (e.symm.trans h)))
    have e1 : (c = s.tio.vstop) = False := eq_false fun e => hc (e.trans (p1_2 (e.symm.trans h)))
    have e3 : (c = s.tio.vquit) = False := eq_false fun e => hc (h.trans (p2_3 (h.symm.trans e)))
    have e4 : (c = s.tio.vsusp) = False := eq_false fun e => hc (h.trans (p2_4 (h.symm.trans e)))
    have e5 : (c = s.tio.vreprint) = False := eq_false fun e => hc (h.trans (p2_5 (h.symm.trans e)))
    have e6 : (c = s.tio.vlnext) = False := eq_false fun e => hc (h.trans (p2_6 (h.symm.trans e)))
    have e7 : (c = s.tio.vdiscard) = False := eq_false fun e => hc (h.trans (p2_7 (h.symm.trans e)))
    have e8 : (c = s.tio.verase) = False := eq_false fun e => hc (h.trans (p2_8 (h.symm.trans e)))
    have e9 : (c = s.tio.veof) = False := eq_false fun e => hc (h.trans (p2_9 (h.symm.trans e)))
    have e10 : (c = s.tio.veol) = False := eq_false fun e => hc (h.trans (p2_10 (h.symm.trans e)))
    have e11 : (c = s.tio.veol2) = False := eq_false fun e => hc (h.trans (p2_11 (h.symm.trans e)))
    have en : (c = 10) = False := eq_false fun e => n2 (e.symm.trans h)
    have ek : (c = s.tio.vintr) = True := eq_true h
    clear p0_1 p0_2 p0_3 p0_4 p0_5 p0_6 p0_7 p0_8 p0_9 p0_10 p0_11 p1_2 p1_3 p1_4 p1_5 p1_6 p1_7 p1_8 p1_9 p1_10 p1_11 p2_3 p2_4 p2_5 p2_6 p2_7 p2_8 p2_9 p2_10 p2_11 p3_4 p3_5 p3_6 p3_7 p3_8 p3_9 p3_10 p3_11 p4_5 p4_6 p4_7 p4_8 p4_9 p4_10 p4_11 p5_6 p5_7 p5_8 p5_9 p5_10 p5_11 p6_7 p6_8 p6_9 p6_10 p6_11 p7_8 p7_9 p7_10 p7_11 p8_9 p8_10 p8_11 p9_10 p9_11 p10_11 n0 n1 n2 n3 n4 n5 n6 n7 n8 n9 n10 n11
    simp only [e0, e1, e3, e4, e5, e6, e7, e8, e9, e10, e11, ek, en, if_true, if_false, false_or, or_false, true_or, or_true, true_and, false_and, Bool.false_eq_true]
    cases hx : s.tio.isig
    · simp only [hx, hcan, if_true, if_false, and_false, Bool.false_eq_true, Bool.true_eq_false]
      exact .char (by simp [isDelim, NL, e9, e10, e11, en]) (by simp [isDelim, NL, e9, e10, e11, en]) rfl
    · simp only [hx, hcan, if_true, if_false, and_true]
      exact .flush 2 ⟨hx, .inl h⟩ rfl rfl
  have e2 := eq_false h
  clear h
  by_cases h : c = s.tio.vquit
  · have e0 : (c = s.tio.vstart) = False := eq_false fun e => hc (e.trans (p0_3 (e.symm.trans h)))
    have e1 : (c = s.tio.vstop) = False := eq_false fun e => hc (e.trans (p1_3 (e.symm.trans h)))
    have e2 : (c = s.tio.vintr) = False := eq_false fun e => hc (e.trans (p2_3 (e.symm.trans h)))
    have e4 : (c = s.tio.vsusp) = False := eq_false fun e => hc (h.trans (p3_4 (h.symm.trans e)))
    have e5 : (c = s.tio.vreprint) = False := eq_false fun e => hc (h.trans (p3_5 (h.symm.trans e)))
    have e6 : (c = s.tio.vlnext) = False := eq_false fun e => hc (h.trans (p3_6 (h.symm.trans e)))
    have e7 : (c = s.tio.vdiscard) = False := eq_false fun e => hc (h.trans (p3_7 (h.symm.trans e)))
    have e8 : (c = s.tio.verase) = False := eq_false fun e => hc (h.trans (p3_8 (h.symm.trans e)))
    have e9 : (c = s.tio.veof) = False := eq_false fun e => hc (h.trans (p3_9 (h.symm.trans e)))
    have e10 : (c = s.tio.veol) = False := eq_false fun e => hc (h.trans (p3_10 (h.symm.trans e)))
    have e11 : (c = s.tio.veol2) = False := eq_false fun e => hc (h.trans (p3_11 (h.symm.trans e)))
    have en : (c = 10) = False := eq_false fun e => n3 (e.symm.trans h)
    have ek : (c = s.tio.vquit) = True := eq_true h
    clear p0_1 p0_2 p0_3 p0_4 p0_5 p0_6 p0_7 p0_8 p0_9 p0_10 p0_11 p1_2 p1_3 p1_4 p1_5 p1_6 p1_7 p1_8 p1_9 p1_10 p1_11 p2_3 p2_4 p2_5 p2_6 p2_7 p2_8 p2_9 p2_10 p2_11 p3_4 p3_5 p3_6 p3_7 p3_8 p3_9 p3_10 p3_11 p4_5 p4_6 p4_7 p4_8 p4_9 p4_10 p4_11 p5_6 p5_7 p5_8 p5_9 p5_10 p5_11 p6_7 p6_8 p6_9 p6_10 p6_11 p7_8 p7_9 p7_10 p7_11 p8_9 p8_10 p8_11 p9_10 p9_11 p10_11 n0 n1 n2 n3 n4 n5 n6 n7 n8 n9 n10 n11
    simp only [e0, e1, e2, e4, e5, e6, e7, e8, e9, e10, e11, ek, en, if_true, if_false, false_or, or_false, true_or, or_true, true_and, false_and, Bool.false_eq_true]
    cases hx : s.tio.isig
    · simp only [hx, hcan, if_true, if_false, and_false, Bool.false_eq_true, Bool.true_eq_false]
      exact .char (by simp [isDelim, NL, e9, e10, e11, en]) (by simp [isDelim, NL, e9, e10, e11, en]) rfl
    · simp only [hx, hcan, if_true, if_false, and_true]
      exact .flush 3 ⟨hx, .inr h⟩ rfl rfl
  have e3 := eq_false h
  clear h
  by_cases h : c = s.tio.vsusp
  · have e0 : (c = s.tio.vstart) = False := eq_false fun e => hc (e.trans (p0_4 (e.symm.trans h)))
    have e1 : (c = s.tio.vstop) = False := eq_false fun e => hc (e.trans (p1_4 (e.symm.trans h)))
    have e2 : (c = s.tio.vintr) = False := eq_false fun e => hc (e.trans (p2_4 (e.symm.trans h)))
    have e3 : (c = s.tio.vquit) = False := eq_false fun e => hc (e.trans (p3_4 (e.symm.trans h)))
    have e5 : (c = s.tio.vreprint) = False := eq_false fun e => hc (h.trans (p4_5 (h.symm.trans e)))
    have e6 : (c = s.tio.vlnext) = False := eq_false fun e => hc (h.trans (p4_6 (h.symm.trans e)))
    have e7 : (c = s.tio.vdiscard) = False := eq_false fun e => hc (h.trans (p4_7 (h.symm.trans e)))
    have e8 : (c = s.tio.verase) = False := eq_false fun e => hc (h.trans (p4_8 (h.symm.trans e)))
    have e9 : (c = s.tio.veof) = False := eq_false fun e => hc (h.trans (p4_9 (h.symm.trans e)))
    have e10 : (c = s.tio.veol) = False := eq_false fun e => hc (h.trans (p4_10 (h.symm.trans e)))
    have e11 : (c = s.tio.veol2) = False := eq_false fun e => hc (h.trans (p4_11 (h.symm.trans e)))
    have en : (c = 10) = False := eq_false fun e => n4 (e.symm.trans h)
    have ek : (c = s.tio.vsusp) = True := eq_true h
    clear p0_1 p0_2 p0_3 p0_4 p0_5 p0_6 p0_7 p0_8 p0_9 p0_10 p0_11 p1_2 p1_3 p1_4 p1_5 p1_6 p1_7 p1_8 p1_9 p1_10 p1_11 p2_3 p2_4 p2_5 p2_6 p2_7 p2_8 p2_9 p2_10 p2_11 p3_4 p3_5 p3_6 p3_7 p3_8 p3_9 p3_10 p3_11 p4_5 p4_6 p4_7 p4_8 p4_9 p4_10 p4_11 p5_6 p5_7 p5_8 p5_9 p5_10 p5_11 p6_7 p6_8 p6_9 p6_10 p6_11 p7_8 p7_9 p7_10 p7_11 p8_9 p8_10 p8_11 p9_10 p9_11 p10_11 n0 n1 n2 n3 n4 n5 n6 n7 n8 n9 n10 n11
    simp only [e0, e1, e2, e3, e5, e6, e7, e8, e9, e10, e11, ek, en, if_true, if_false, false_or, or_false, true_or, or_true, true_and, false_and, Bool.false_eq_true]
    cases hx : s.tio.isig
    · simp only [hx, hcan, if_true, if_false, and_false, Bool.false_eq_true, Bool.true_eq_false]
      exact .char (by simp [isDelim, NL, e9, e10, e11, en]) (by simp [isDelim, NL, e9, e10, e11, en]) rfl
    · simp only [hx, hcan, if_true, if_false, and_true]
      exact .same rfl rfl
  have e4 := eq_false h
  clear h
  by_cases h : c = s.tio.vreprint
  · have e0 : (c = s.tio.vstart) = False := eq_false fun e => hc (e.trans (p0_5 (e.symm.trans h)))
    have e1 : (c = s.tio.vstop) = False := eq_false fun e => hc (e.trans (p1_5 (e.symm.trans h)))
    have e2 : (c = s.tio.vintr) = False := eq_false fun e => hc (e.trans (p2_5 (e.symm.trans h)))
    have e3 : (c = s.tio.vquit) = False := eq_false fun e => hc (e.trans (p3_5 (e.symm.trans h)))
    have e4 : (c = s.tio.vsusp) = False := eq_false fun e => hc (e.trans (p4_5 (e.symm.trans h)))
    have e6 : (c = s.tio.vlnext) = False := eq_false fun e => hc (h.trans (p5_6 (h.symm.trans e)))
    have e7 : (c = s.tio.vdiscard) = False := eq_false fun e => hc (h.trans (p5_7 (h.symm.trans e)))
    have e8 : (c = s.tio.verase) = False := eq_false fun e => hc (h.trans (p5_8 (h.symm.trans e)))
    have e9 : (c = s.tio.veof) = False := eq_false fun e => hc (h.trans (p5_9 (h.symm.trans e)))
    have e10 : (c = s.tio.veol) = False := eq_false fun e => hc (h.trans (p5_10 (h.symm.trans e)))
    have e11 : (c = s.tio.veol2) = False := eq_false fun e => hc (h.trans (p5_11 (h.symm.trans e)))
    have en : (c = 10) = False := eq_false fun e => n5 (e.symm.trans h)
    have ek : (c = s.tio.vreprint) = True := eq_true h
    clear p0_1 p0_2 p0_3 p0_4 p0_5 p0_6 p0_7 p0_8 p0_9 p0_10 p0_11 p1_2 p1_3 p1_4 p1_5 p1_6 p1_7 p1_8 p1_9 p1_10 p1_11 p2_3 p2_4 p2_5 p2_6 p2_7 p2_8 p2_9 p2_10 p2_11 p3_4 p3_5 p3_6 p3_7 p3_8 p3_9 p3_10 p3_11 p4_5 p4_6 p4_7 p4_8 p4_9 p4_10 p4_11 p5_6 p5_7 p5_8 p5_9 p5_10 p5_11 p6_7 p6_8 p6_9 p6_10 p6_11 p7_8 p7_9 p7_10 p7_11 p8_9 p8_10 p8_11 p9_10 p9_11 p10_11 n0 n1 n2 n3 n4 n5 n6 n7 n8 n9 n10 n11
    simp only [e0, e1, e2, e3, e4, e6, e7, e8, e9, e10, e11, ek, en, if_true, if_false, false_or, or_false, true_or, or_true, true_and, false_and, Bool.false_eq_true]
    simp only [hcan, Bool.true_or, if_true, true_or]
    exact .same rfl rfl
  have e5 := eq_false h
  clear h
  by_cases h : c = s.tio.vlnext
  · have e0 : (c = s.tio.vstart) = False := eq_false fun e => hc (e.trans (p0_6 (e.symm.trans h)))
    have e1 : (c = s.tio.vstop) = False := eq_false fun e => hc (e.trans (p1_6 (e.symm.trans h)))
    have e2 : (c = s.tio.vintr) = False := eq_false fun e => hc (e.trans (p2_6 (e.symm.trans h)))
    have e3 : (c = s.tio.vquit) = False := eq_false fun e => hc (e.trans (p3_6 (e.symm.trans h)))
    have e4 : (c = s.tio.vsusp) = False := eq_false fun e => hc (e.trans (p4_6 (e.symm.trans h)))
    have e5 : (c = s.tio.vreprint) = False := eq_false fun e => hc (e.trans (p5_6 (e.symm.trans h)))
    have e7 : (c = s.tio.vdiscard) = False := eq_false fun e => hc (h.trans (p6_7 (h.symm.trans e)))
    have e8 : (c = s.tio.verase) = False := eq_false fun e => hc (h.trans (p6_8 (h.symm.trans e)))
    have e9 : (c = s.tio.veof) = False := eq_false fun e => hc (h.trans (p6_9 (h.symm.trans e)))
    have e10 : (c = s.tio.veol) = False := eq_false fun e => hc (h.trans (p6_10 (h.symm.trans e)))
    have e11 : (c = s.tio.veol2) = False := eq_false fun e => hc (h.trans (p6_11 (h.symm.trans e)))
    have en : (c = 10) = False := eq_false fun e => n6 (e.symm.trans h)
    have ek : (c = s.tio.vlnext) = True := eq_true h
    clear p0_1 p0_2 p0_3 p0_4 p0_5 p0_6 p0_7 p0_8 p0_9 p0_10 p0_11 p1_2 p1_3 p1_4 p1_5 p1_6 p1_7 p1_8 p1_9 p1_10 p1_11 p2_3 p2_4 p2_5 p2_6 p2_7 p2_8 p2_9 p2_10 p2_11 p3_4 p3_5 p3_6 p3_7 p3_8 p3_9 p3_10 p3_11 p4_5 p4_6 p4_7 p4_8 p4_9 p4_10 p4_11 p5_6 p5_7 p5_8 p5_9 p5_10 p5_11 p6_7 p6_8 p6_9 p6_10 p6_11 p7_8 p7_9 p7_10 p7_11 p8_9 p8_10 p8_11 p9_10 p9_11 p10_11 n0 n1 n2 n3 n4 n5 n6 n7 n8 n9 n10 n11
    simp only [e0, e1, e2, e3, e4, e5, e7, e8, e9, e10, e11, ek, en, if_true, if_false, false_or, or_false, true_or, or_true, true_and, false_and, Bool.false_eq_true]
    cases hx : s.tio.iexten
    · simp only [hx, hcan, if_true, if_false, and_false, Bool.false_eq_true, Bool.true_eq_false]
      exact .char (by simp [isDelim, NL, e9, e10, e11, en]) (by simp [isDelim, NL, e9, e10, e11, en]) rfl
    · simp only [hx, hcan, if_true, if_false, and_true]
      exact .same rfl rfl
  have e6 := eq_false h
  clear h
  by_cases h : c = s.tio.vdiscard
  · have e0 : (c = s.tio.vstart) = False := eq_false fun e => hc (e.trans (p0_7 (e.symm.trans h)))
    have e1 : (c = s.tio.vstop) = False := eq_false fun e => hc (e.trans (p1_7 (e.symm.trans h)))
    have e2 : (c = s.tio.vintr) = False := eq_false fun e => hc (e.trans (p2_7 (e.symm.trans h)))
    have e3 : (c = s.tio.vquit) = False := eq_false fun e => hc (e.trans (p3_7 (e.symm.trans h)))
    have e4 : (c = s.tio.vsusp) = False := eq_false fun e => hc (e.trans (p4_7 (e.symm.trans h)))
    have e5 : (c = s.tio.vreprint) = False := eq_false fun e => hc (e.trans (p5_7 (e.symm.trans h)))
    have e6 : (c = s.tio.vlnext) = False := eq_false fun e => hc (e.trans (p6_7 (e.symm.trans h)))
    have e8 : (c = s.tio.verase) = False := eq_false fun e => hc (h.trans (p7_8 (h.symm.trans e)))
    have e9 : (c = s.tio.veof) = False := eq_false fun e => hc (h.trans (p7_9 (h.symm.trans e)))
    have e10 : (c = s.tio.veol) = False := eq_false fun e => hc (h.trans (p7_10 (h.symm.trans e)))
    have e11 : (c = s.tio.veol2) = False := eq_false fun e => hc (h.trans (p7_11 (h.symm.trans e)))
    have en : (c = 10) = False := eq_false fun e => n7 (e.symm.trans h)
    have ek : (c = s.tio.vdiscard) = True := eq_true h
    clear p0_1 p0_2 p0_3 p0_4 p0_5 p0_6 p0_7 p0_8 p0_9 p0_10 p0_11 p1_2 p1_3 p1_4 p1_5 p1_6 p1_7 p1_8 p1_9 p1_10 p1_11 p2_3 p2_4 p2_5 p2_6 p2_7 p2_8 p2_9 p2_10 p2_11 p3_4 p3_5 p3_6 p3_7 p3_8 p3_9 p3_10 p3_11 p4_5 p4_6 p4_7 p4_8 p4_9 p4_10 p4_11 p5_6 p5_7 p5_8 p5_9 p5_10 p5_11 p6_7 p6_8 p6_9 p6_10 p6_11 p7_8 p7_9 p7_10 p7_11 p8_9 p8_10 p8_11 p9_10 p9_11 p10_11 n0 n1 n2 n3 n4 n5 n6 n7 n8 n9 n10 n11
    simp only [e0, e1, e2, e3, e4, e5, e6, e8, e9, e10, e11, ek, en, if_true, if_false, false_or, or_false, true_or, or_true, true_and, false_and, Bool.false_eq_true]
    simp only [hcan, if_true, if_false, Bool.true_eq_false]
    exact .char (by simp [isDelim, NL, e9, e10, e11, en]) (by simp [isDelim, NL, e9, e10, e11, en]) rfl
  have e7 := eq_false h
  clear h
  by_cases h : c = s.tio.verase
  · have e0 : (c = s.tio.vstart) = False := eq_false fun e => hc (e.trans (p0_8 (e.symm.trans h)))
    have e1 : (c = s.tio.vstop) = False := eq_false fun e => hc (e.trans (p1_8 (e.symm.trans h)))
    have e2 : (c = s.tio.vintr) = False := eq_false fun e => hc (e.trans (p2_8 (e.symm.trans h)))
    have e3 : (c = s.tio.vquit) = False := eq_false fun e => hc (e.trans (p3_8 (e.symm.trans h)))
    have e4 : (c = s.tio.vsusp) = False := eq_false fun e => hc (e.trans (p4_8 (e.symm.trans h)))
    have e5 : (c = s.tio.vreprint) = False := eq_false fun e => hc (e.trans (p5_8 (e.symm.trans h)))
    have e6 : (c = s.tio.vlnext) = False := eq_false fun e => hc (e.trans (p6_8 (e.symm.trans h)))
    have e7 : (c = s.tio.vdiscard) = False := eq_false fun e => hc (e.trans (p7_8 (e.symm.trans h)))
    have e9 : (c = s.tio.veof) = False := eq_false fun e => hc (h.trans (p8_9 (h.symm.trans e)))
    have e10 : (c = s.tio.veol) = False := eq_false fun e => hc (h.trans (p8_10 (h.symm.trans e)))
    have e11 : (c = s.tio.veol2) = False := eq_false fun e => hc (h.trans (p8_11 (h.symm.trans e)))
    have en : (c = 10) = False := eq_false fun e => n8 (e.symm.trans h)
    have ek : (c = s.tio.verase) = True := eq_true h
    clear p0_1 p0_2 p0_3 p0_4 p0_5 p0_6 p0_7 p0_8 p0_9 p0_10 p0_11 p1_2 p1_3 p1_4 p1_5 p1_6 p1_7 p1_8 p1_9 p1_10 p1_11 p2_3 p2_4 p2_5 p2_6 p2_7 p2_8 p2_9 p2_10 p2_11 p3_4 p3_5 p3_6 p3_7 p3_8 p3_9 p3_10 p3_11 p4_5 p4_6 p4_7 p4_8 p4_9 p4_10 p4_11 p5_6 p5_7 p5_8 p5_9 p5_10 p5_11 p6_7 p6_8 p6_9 p6_10 p6_11 p7_8 p7_9 p7_10 p7_11 p8_9 p8_10 p8_11 p9_10 p9_11 p10_11 n0 n1 n2 n3 n4 n5 n6 n7 n8 n9 n10 n11
    simp only [e0, e1, e2, e3, e4, e5, e6, e7, e9, e10, e11, ek, en, if_true, if_false, false_or, or_false, true_or, or_true, true_and, false_and, Bool.false_eq_true]
    simp only [hcan, if_true, if_false, Bool.true_eq_false]
    exact .erase h rfl rfl
  have e8 := eq_false h
  clear h
  by_cases h : c = s.tio.veof
  · have e0 : (c = s.tio.vstart) = False := eq_false fun e => hc (e.trans (p0_9 (e.symm.trans h)))
    have e1 : (c = s.tio.vstop) = False := eq_false fun e => hc (e.trans (p1_9 (e.symm.trans h)))
    have e2 : (c = s.tio.vintr) = False := eq_false fun e => hc (e.trans (p2_9 (e.symm.trans h)))
    have e3 : (c = s.tio.vquit) = False := eq_false fun e => hc (e.trans (p3_9 (e.symm.trans h)))
    have e4 : (c = s.tio.vsusp) = False := eq_false fun e => hc (e.trans (p4_9 (e.symm.trans h)))
    have e5 : (c = s.tio.vreprint) = False := eq_false fun e => hc (e.trans (p5_9 (e.symm.trans h)))
    have e6 : (c = s.tio.vlnext) = False := eq_false fun e => hc (e.trans (p6_9 (e.symm.trans h)))
    have e7 : (c = s.tio.vdiscard) = False := eq_false fun e => hc (e.trans (p7_9 (e.symm.trans h)))
    have e8 : (c = s.tio.verase) = False := eq_false fun e => hc (e.trans (p8_9 (e.symm.trans h)))
    have e10 : (c = s.tio.veol) = False := eq_false fun e => hc (h.trans (p9_10 (h.symm.trans e)))
    have e11 : (c = s.tio.veol2) = False := eq_false fun e => hc (h.trans (p9_11 (h.symm.trans e)))
    have en : (c = 10) = False := eq_false fun e => n9 (e.symm.trans h)
    have ek : (c = s.tio.veof) = True := eq_true h
    clear p0_1 p0_2 p0_3 p0_4 p0_5 p0_6 p0_7 p0_8 p0_9 p0_10 p0_11 p1_2 p1_3 p1_4 p1_5 p1_6 p1_7 p1_8 p1_9 p1_10 p1_11 p2_3 p2_4 p2_5 p2_6 p2_7 p2_8 p2_9 p2_10 p2_11 p3_4 p3_5 p3_6 p3_7 p3_8 p3_9 p3_10 p3_11 p4_5 p4_6 p4_7 p4_8 p4_9 p4_10 p4_11 p5_6 p5_7 p5_8 p5_9 p5_10 p5_11 p6_7 p6_8 p6_9 p6_10 p6_11 p7_8 p7_9 p7_10 p7_11 p8_9 p8_10 p8_11 p9_10 p9_11 p10_11 n0 n1 n2 n3 n4 n5 n6 n7 n8 n9 n10 n11
    simp only [e0, e1, e2, e3, e4, e5, e6, e7, e8, e10, e11, ek, en, if_true, if_false, false_or, or_false, true_or, or_true, true_and, false_and, Bool.false_eq_true]
    simp only [hcan, if_true, if_false, Bool.true_eq_false]
    exact .delim (by simp [isDelim, ek]) (by simp [ek, h]) (by simp [ek, e10, e11, if_true])
  have e9 := eq_false h
  clear h
  by_cases h : c = s.tio.veol
  · have e0 : (c = s.tio.vstart) = False := eq_false fun e => hc (e.trans (p0_10 (e.symm.trans h)))
    have e1 : (c = s.tio.vstop) = False := eq_false fun e => hc (e.trans (p1_10 (e.symm.trans h)))
    have e2 : (c = s.tio.vintr) = False := eq_false fun e => hc (e.trans (p2_10 (e.symm.trans h)))
    have e3 : (c = s.tio.vquit) = False := eq_false fun e => hc (e.trans (p3_10 (e.symm.trans h)))
    have e4 : (c = s.tio.vsusp) = False := eq_false fun e => hc (e.trans (p4_10 (e.symm.trans h)))
    have e5 : (c = s.tio.vreprint) = False := eq_false fun e => hc (e.trans (p5_10 (e.symm.trans h)))
    have e6 : (c = s.tio.vlnext) = False := eq_false fun e => hc (e.trans (p6_10 (e.symm.trans h)))
    have e7 : (c = s.tio.vdiscard) = False := eq_false fun e => hc (e.trans (p7_10 (e.symm.trans h)))
    have e8 : (c = s.tio.verase) = False := eq_false fun e => hc (e.trans (p8_10 (e.symm.trans h)))
    have e9 : (c = s.tio.veof) = False := eq_false fun e => hc (e.trans (p9_10 (e.symm.trans h)))
    have e11 : (c = s.tio.veol2) = False := eq_false fun e => hc (h.trans (p10_11 (h.symm.trans e)))
    have en : (c = 10) = False := eq_false fun e => n10 (e.symm.trans h)
    have ek : (c = s.tio.veol) = True := eq_true h
    clear p0_1 p0_2 p0_3 p0_4 p0_5 p0_6 p0_7 p0_8 p0_9 p0_10 p0_11 p1_2 p1_3 p1_4 p1_5 p1_6 p1_7 p1_8 p1_9 p1_10 p1_11 p2_3 p2_4 p2_5 p2_6 p2_7 p2_8 p2_9 p2_10 p2_11 p3_4 p3_5 p3_6 p3_7 p3_8 p3_9 p3_10 p3_11 p4_5 p4_6 p4_7 p4_8 p4_9 p4_10 p4_11 p5_6 p5_7 p5_8 p5_9 p5_10 p5_11 p6_7 p6_8 p6_9 p6_10 p6_11 p7_8 p7_9 p7_10 p7_11 p8_9 p8_10 p8_11 p9_10 p9_11 p10_11 n0 n1 n2 n3 n4 n5 n6 n7 n8 n9 n10 n11
    simp only [e0, e1, e2, e3, e4, e5, e6, e7, e8, e9, e11, ek, en, if_true, if_false, false_or, or_false, true_or, or_true, true_and, false_and, Bool.false_eq_true]
    simp only [hcan, if_true, if_false, Bool.true_eq_false]
    exact .delim (by simp [isDelim, ek]) (by simp [ek, h]) (by simp [ek, e9, e11, if_true])
  have e10 := eq_false h
  clear h
  by_cases h : c = s.tio.veol2
  · have e0 : (c = s.tio.vstart) = False := eq_false fun e => hc (e.trans (p0_11 (e.symm.trans h)))
    have e1 : (c = s.tio.vstop) = False := eq_false fun e => hc (e.trans (p1_11 (e.symm.trans h)))
    have e2 : (c = s.tio.vintr) = False := eq_false fun e => hc (e.trans (p2_11 (e.symm.trans h)))
    have e3 : (c = s.tio.vquit) = False := eq_false fun e => hc (e.trans (p3_11 (e.symm.trans h)))
    have e4 : (c = s.tio.vsusp) = False := eq_false fun e => hc (e.trans (p4_11 (e.symm.trans h)))
    have e5 : (c = s.tio.vreprint) = False := eq_false fun e => hc (e.trans (p5_11 (e.symm.trans h)))
    have e6 : (c = s.tio.vlnext) = False := eq_false fun e => hc (e.trans (p6_11 (e.symm.trans h)))
    have e7 : (c = s.tio.vdiscard) = False := eq_false fun e => hc (e.trans (p7_11 (e.symm.trans h)))
    have e8 : (c = s.tio.verase) = False := eq_false fun e => hc (e.trans (p8_11 (e.symm.trans h)))
    have e9 : (c = s.tio.veof) = False := eq_false fun e => hc (e.trans (p9_11 (e.symm.trans h)))
    have e10 : (c = s.tio.veol) = False := eq_false fun e => hc (e.trans (p10_11 (e.symm.trans h)))
    have en : (c = 10) = False := eq_false fun e => n11 (e.symm.trans h)
    have ek : (c = s.tio.veol2) = True := eq_true h
    clear p0_1 p0_2 p0_3 p0_4 p0_5 p0_6 p0_7 p0_8 p0_9 p0_10 p0_11 p1_2 p1_3 p1_4 p1_5 p1_6 p1_7 p1_8 p1_9 p1_10 p1_11 p2_3 p2_4 p2_5 p2_6 p2_7 p2_8 p2_9 p2_10 p2_11 p3_4 p3_5 p3_6 p3_7 p3_8 p3_9 p3_10 p3_11 p4_5 p4_6 p4_7 p4_8 p4_9 p4_10 p4_11 p5_6 p5_7 p5_8 p5_9 p5_10 p5_11 p6_7 p6_8 p6_9 p6_10 p6_11 p7_8 p7_9 p7_10 p7_11 p8_9 p8_10 p8_11 p9_10 p9_11 p10_11 n0 n1 n2 n3 n4 n5 n6 n7 n8 n9 n10 n11
    simp only [e0, e1, e2, e3, e4, e5, e6, e7, e8, e9, e10, ek, en, if_true, if_false, false_or, or_false, true_or, or_true, true_and, false_and, Bool.false_eq_true]
    simp only [hcan, if_true, if_false, Bool.true_eq_false]
    exact .delim (by simp [isDelim, ek]) (by simp [ek, h]) (by simp [ek, e9, e10, if_true])
  have e11 := eq_false h
  clear h
  simp only [e0, e1, e2, e3, e4, e5, e6, e7, e8, e9, e10, e11, if_true, if_false, false_or, or_false, true_or, or_true, true_and, false_and, Bool.false_eq_true]
  clear p0_1 p0_2 p0_3 p0_4 p0_5 p0_6 p0_7 p0_8 p0_9 p0_10 p0_11 p1_2 p1_3 p1_4 p1_5 p1_6 p1_7 p1_8 p1_9 p1_10 p1_11 p2_3 p2_4 p2_5 p2_6 p2_7 p2_8 p2_9 p2_10 p2_11 p3_4 p3_5 p3_6 p3_7 p3_8 p3_9 p3_10 p3_11 p4_5 p4_6 p4_7 p4_8 p4_9 p4_10 p4_11 p5_6 p5_7 p5_8 p5_9 p5_10 p5_11 p6_7 p6_8 p6_9 p6_10 p6_11 p7_8 p7_9 p7_10 p7_11 p8_9 p8_10 p8_11 p9_10 p9_11 p10_11 n0 n1 n2 n3 n4 n5 n6 n7 n8 n9 n10 n11
  by_cases hn : c = 10
  · have hn' := eq_true hn
    simp only [hcan, hn', if_true, if_false, Bool.true_eq_false]
    exact .delim (by simp [isDelim, NL, hn]) (by simp [isDelim, NL, hn]) (by simp [e9])
  · have hn' := eq_false hn
    simp only [hcan, hn', if_true, if_false, Bool.true_eq_false]
    exact .char (by simp [isDelim, NL, hn, e9, e10, e11]) (by simp [isDelim, NL, hn, e9, e10, e11]) rfl

/-- What a character does in raw mode. -/
inductive RawCase (s : St) (sp : Spec) (c : Byte) (s' : St) (sp' : Spec) : Prop
  | same : s' = s → sp' = sp → RawCase s sp c s' sp'
  | flush (sig : Nat) : discards s.tio c → s' = interrupt s sig → sp' = { sp.discard with sent := sp.sent ++ [sig] } → RawCase s sp c s' sp'
  | char : s' = { s with ring := s.ring ++ [c] } → sp' = { sp with cur := sp.cur ++ [c] } → RawCase s sp c s' sp'

theorem raw_case {s : St} {sp : Spec} {c : Byte} (b : Bool) (hg : Good s.tio) (ht : sp.tio = s.tio) (hcan : s.tio.canon = false) (hc : c ≠ 0)
    (hr : s.ring.length < CAP) : RawCase s sp c (key1 s c b) (sp.char c) := by
  obtain ⟨hp, hnl, _⟩ := hg
  simp only [List.pairwise_cons, List.mem_cons, List.not_mem_nil, or_false, forall_eq_or_imp, forall_eq, not_or] at hp hnl
  obtain ⟨⟨p0_1, p0_2, p0_3, p0_4, p0_5, p0_6, p0_7, p0_8, p0_9, p0_10, p0_11⟩, ⟨p1_2, p1_3, p1_4, p1_5, p1_6, p1_7, p1_8, p1_9, p1_10, p1_11⟩, ⟨p2_3, p2_4, p2_5, p2_6, p2_7, p2_8, p2_9, p2_10, p2_11⟩, ⟨p3_4, p3_5, p3_6, p3_7, p3_8, p3_9, p3_10, p3_11⟩, ⟨p4_5, p4_6, p4_7, p4_8, p4_9, p4_10, p4_11⟩, ⟨p5_6, p5_7, p5_8, p5_9, p5_10, p5_11⟩, ⟨p6_7, p6_8, p6_9, p6_10, p6_11⟩, ⟨p7_8, p7_9, p7_10, p7_11⟩, ⟨p8_9, p8_10, p8_11⟩, ⟨p9_10, p9_11⟩, p10_11, _⟩ := hp
  obtain ⟨n0, n1, n2, n3, n4, n5, n6, n7, n8, n9, n10, n11⟩ := hnl
  obtain ⟨_, lines, cur, rest, sent⟩ := sp
  dsimp only at ht
  subst ht
  unfold key1 special Spec.char
  rw [handlers_eq _ hc]
  simp only [put_room hr, put_room (s := { s with count := s.count + 1 }) hr]
  by_cases h : c = s.tio.vstart
  · have e1 : (c = s.tio.vstop) = False := eq_false fun e => hc (h.trans (p0_1 (h.symm.trans e)))
    have e2 : (c = s.tio.vintr) = False := eq_false fun e => hc (h.trans (p0_2 (h.symm.trans e)))
    have e3 : (c = s.tio.vquit) = False := eq_false fun e => hc (h.trans (p0_3 (h.symm.trans e)))
    have e4 : (c = s.tio.vsusp) = False := eq_false fun e => hc (h.trans (p0_4 (h.symm.trans e)))
    have e5 : (c = s.tio.vreprint) = False := eq_false fun e => hc (h.trans (p0_5 (h.symm.trans e)))
    have e6 : (c = s.tio.vlnext) = False := eq_false fun e => hc (h.trans (p0_6 (h.symm.trans e)))
    have e7 : (c = s.tio.vdiscard) = False := eq_false fun e => hc (h.trans (p0_7 (h.symm.trans e)))
    have e8 : (c = s.tio.verase) = False := eq_false fun e => hc (h.trans (p0_8 (h.symm.trans e)))
    have e9 : (c = s.tio.veof) = False := eq_false fun e => hc (h.trans (p0_9 (h.symm.trans e)))
    have e10 : (c = s.tio.veol) = False := eq_false fun e => hc (h.trans (p0_10 (h.symm.trans e)))
    have e11 : (c = s.tio.veol2) = False := eq_false fun e => hc (h.trans (p0_11 (h.symm.trans e)))
    have en : (c = 10) = False := eq_false fun e => n0 (e.symm.trans h)
    have ek : (c = s.tio.vstart) = True := eq_true h
    clear p0_1 p0_2 p0_3 p0_4 p0_5 p0_6 p0_7 p0_8 p0_9 p0_10 p0_11 p1_2 p1_3 p1_4 p1_5 p1_6 p1_7 p1_8 p1_9 p1_10 p1_11 p2_3 p2_4 p2_5 p2_6 p2_7 p2_8 p2_9 p2_10 p2_11 p3_4 p3_5 p3_6 p3_7 p3_8 p3_9 p3_10 p3_11 p4_5 p4_6 p4_7 p4_8 p4_9 p4_10 p4_11 p5_6 p5_7 p5_8 p5_9 p5_10 p5_11 p6_7 p6_8 p6_9 p6_10 p6_11 p7_8 p7_9 p7_10 p7_11 p8_9 p8_10 p8_11 p9_10 p9_11 p10_11 n0 n1 n2 n3 n4 n5 n6 n7 n8 n9 n10 n11
    simp only [e1, e2, e3, e4, e5, e6, e7, e8, e9, e10, e11, ek, en, if_true, if_false, false_or, or_false, true_or, or_true, true_and, false_and, Bool.false_eq_true]
    cases hx : s.tio.ixon
    · simp only [hx, hcan, if_true, if_false, and_false, Bool.false_eq_true, Bool.or_false, Bool.false_or, Bool.or_true, Bool.true_or, Int.natCast_zero, Bool.toNat_false, Int.add_zero, Int.ofNat_zero, false_or, or_false, or_true]
      exact .char rfl rfl
    · simp only [hx, hcan, if_true, if_false, and_true, Bool.or_false, Bool.false_or, Bool.or_true, Bool.true_or, Int.natCast_zero, Bool.toNat_false, Int.add_zero, Int.ofNat_zero, false_or, or_false, or_true]
      exact .same rfl rfl
  have e0 := eq_false h
  clear h
  by_cases h : c = s.tio.vstop
  · have e0 : (c = s.tio.vstart) = False := eq_false fun e => hc (e.trans (p0_1 (e.symm.trans h)))
    have e2 : (c = s.tio.vintr) = False := eq_false fun e => hc (h.trans (p1_2 (h.symm.trans e)))
    have e3 : (c = s.tio.vquit) = False := eq_false fun e => hc (h.trans (p1_3 (h.symm.trans e)))
    have e4 : (c = s.tio.vsusp) = False := eq_false fun e => hc (h.trans (p1_4 (h.symm.trans e)))
    have e5 : (c = s.tio.vreprint) = False := eq_false fun e => hc (h.trans (p1_5 (h.symm.trans e)))
    have e6 : (c = s.tio.vlnext) = False := eq_false fun e => hc (h.trans (p1_6 (h.symm.trans e)))
    have e7 : (c = s.tio.vdiscard) = False := eq_false fun e => hc (h.trans (p1_7 (h.symm.trans e)))
    have e8 : (c = s.tio.verase) = False := eq_false fun e => hc (h.trans (p1_8 (h.symm.trans e)))
    have e9 : (c = s.tio.veof) = False := eq_false fun e => hc (h.trans (p1_9 (h.symm.trans e)))
    have e10 : (c = s.tio.veol) = False := eq_false fun e => hc (h.trans (p1_10 (h.symm.trans e)))
    have e11 : (c = s.tio.veol2) = False := eq_false fun e => hc (h.trans (p1_11 (h.symm.trans e)))
    have en : (c = 10) = False := eq_false fun e => n1 (e.symm.trans h)
    have ek : (c = s.tio.vstop) = True := eq_true h
    clear p0_1 p0_2 p0_3 p0_4 p0_5 p0_6 p0_7 p0_8 p0_9 p0_10 p0_11 p1_2 p1_3 p1_4 p1_5 p1_6 p1_7 p1_8 p1_9 p1_10 p1_11 p2_3 p2_4 p2_5 p2_6 p2_7 p2_8 p2_9 p2_10 p2_11 p3_4 p3_5 p3_6 p3_7 p3_8 p3_9 p3_10 p3_11 p4_5 p4_6 p4_7 p4_8 p4_9 p4_10 p4_11 p5_6 p5_7 p5_8 p5_9 p5_10 p5_11 p6_7 p6_8 p6_9 p6_10 p6_11 p7_8 p7_9 p7_10 p7_11 p8_9 p8_10 p8_11 p9_10 p9_11 p10_11 n0 n1 n2 n3 n4 n5 n6 n7 n8 n9 n10 n11
    simp only [e0, e2, e3, e4, e5, e6, e7, e8, e9, e10, e11, ek, en, if_true, if_false, false_or, or_false, true_or, or_true, true_and, false_and, Bool.false_eq_true]
    cases hx : s.tio.ixon
    · simp only [hx, hcan, if_true, if_false, and_false, Bool.false_eq_true, Bool.or_false, Bool.false_or, Bool.or_true, Bool.true_or, Int.natCast_zero, Bool.toNat_false, Int.add_zero, Int.ofNat_zero, false_or, or_false, or_true]
      exact .char rfl rfl
    · simp only [hx, hcan, if_true, if_false, and_true, Bool.or_false, Bool.false_or, Bool.or_true, Bool.true_or, Int.natCast_zero, Bool.toNat_false, Int.add_zero, Int.ofNat_zero, false_or, or_false, or_true]
      exact .same rfl rfl
  have e1 := eq_false h
  clear h
  by_cases h : c = s.tio.vintr
  · have e0 : (c = s.tio.vstart) = False := eq_false fun e => hc (e.trans (p0_2 (e.symm.trans h)))
    have e1 : (c = s.tio.vstop) = False := eq_false fun e => hc (e.trans (p1_2 (e.symm.trans h)))
    have e3 : (c = s.tio.vquit) = False := eq_false fun e => hc (h.trans (p2_3 (h.symm.trans e)))
    have e4 : (c = s.tio.vsusp) = False := eq_false fun e => hc (h.trans (p2_4 (h.symm.trans e)))
    have e5 : (c = s.tio.vreprint) = False := eq_false fun e => hc (h.trans (p2_5 (h.symm.trans e)))
    have e6 : (c = s.tio.vlnext) = False := eq_false fun e => hc (h.trans (p2_6 (h.symm.trans e)))
    have e7 : (c = s.tio.vdiscard) = False := eq_false fun e => hc (h.trans (p2_7 (h.symm.trans e)))
    have e8 : (c = s.tio.verase) = False := eq_false fun e => hc (h.trans (p2_8 (h.symm.trans e)))
    have e9 : (c = s.tio.veof) = False := eq_false fun e => hc (h.trans (p2_9 (h.symm.trans e)))
    have e10 : (c = s.tio.veol) = False := eq_false fun e => hc (h.trans (p2_10 (h.symm.trans e)))
    have e11 : (c = s.tio.veol2) = False := eq_false fun e => hc (h.trans (p2_11 (h.symm.trans e)))
    have en : (c = 10) = False := eq_false fun e => n2 (e.symm.trans h)
    have ek : (c = s.tio.vintr) = True := eq_true h
    clear p0_1 p0_2 p0_3 p0_4 p0_5 p0_6 p0_7 p0_8 p0_9 p0_10 p0_11 p1_2 p1_3 p1_4 p1_5 p1_6 p1_7 p1_8 p1_9 p1_10 p1_11 p2_3 p2_4 p2_5 p2_6 p2_7 p2_8 p2_9 p2_10 p2_11 p3_4 p3_5 p3_6 p3_7 p3_8 p3_9 p3_10 p3_11 p4_5 p4_6 p4_7 p4_8 p4_9 p4_10 p4_11 p5_6 p5_7 p5_8 p5_9 p5_10 p5_11 p6_7 p6_8 p6_9 p6_10 p6_11 p7_8 p7_9 p7_10 p7_11 p8_9 p8_10 p8_11 p9_10 p9_11 p10_11 n0 n1 n2 n3 n4 n5 n6 n7 n8 n9 n10 n11
    simp only [e0, e1, e3, e4, e5, e6, e7, e8, e9, e10, e11, ek, en, if_true, if_false, false_or, or_false, true_or, or_true, true_and, false_and, Bool.false_eq_true]
    cases hx : s.tio.isig
    · simp only [hx, hcan, if_true, if_false, and_false, Bool.false_eq_true, Bool.or_false, Bool.false_or, Bool.or_true, Bool.true_or, Int.natCast_zero, Bool.toNat_false, Int.add_zero, Int.ofNat_zero, false_or, or_false, or_true]
      exact .char rfl rfl
    · simp only [hx, hcan, if_true, if_false, and_true, Bool.or_false, Bool.false_or, Bool.or_true, Bool.true_or, Int.natCast_zero, Bool.toNat_false, Int.add_zero, Int.ofNat_zero, false_or, or_false, or_true]
      exact .flush 2 ⟨hx, .inl h⟩ rfl rfl
  have e2 := eq_false h
  clear h
  by_cases h : c = s.tio.vquit
  · have e0 : (c = s.tio.vstart) = False := eq_false fun e => hc (e.trans (p0_3 (e.symm.trans h)))
    have e1 : (c = s.tio.vstop) = False := eq_false fun e => hc (e.trans (p1_3 (e.symm.trans h)))
    have e2 : (c = s.tio.vintr) = False := eq_false fun e => hc (e.trans (p2_3 (e.symm.trans h)))
    have e4 : (c = s.tio.vsusp) = False := eq_false fun e => hc (h.trans (p3_4 (h.symm.trans e)))
    have e5 : (c = s.tio.vreprint) = False := eq_false fun e => hc (h.trans (p3_5 (h.symm.trans e)))
    have e6 : (c = s.tio.vlnext) = False := eq_false fun e => hc (h.trans (p3_6 (h.symm.trans e)))
    have e7 : (c = s.tio.vdiscard) = False := eq_false fun e => hc (h.trans (p3_7 (h.symm.trans e)))
    have e8 : (c = s.tio.verase) = False := eq_false fun e => hc (h.trans (p3_8 (h.symm.trans e)))
    have e9 : (c = s.tio.veof) = False := eq_false fun e => hc (h.trans (p3_9 (h.symm.trans e)))
    have e10 : (c = s.tio.veol) = False := eq_false fun e => hc (h.trans (p3_10 (h.symm.trans e)))
    have e11 : (c = s.tio.veol2) = False := eq_false fun e => hc (h.trans (p3_11 (h.symm.trans e)))
    have en : (c = 10) = False := eq_false fun e => n3 (e.symm.trans h)
    have ek : (c = s.tio.vquit) = True := eq_true h
    clear p0_1 p0_2 p0_3 p0_4 p0_5 p0_6 p0_7 p0_8 p0_9 p0_10 p0_11 p1_2 p1_3 p1_4 p1_5 p1_6 p1_7 p1_8 p1_9 p1_10 p1_11 p2_3 p2_4 p2_5 p2_6 p2_7 p2_8 p2_9 p2_10 p2_11 p3_4 p3_5 p3_6 p3_7 p3_8 p3_9 p3_10 p3_11 p4_5 p4_6 p4_7 p4_8 p4_9 p4_10 p4_11 p5_6 p5_7 p5_8 p5_9 p5_10 p5_11 p6_7 p6_8 p6_9 p6_10 p6_11 p7_8 p7_9 p7_10 p7_11 p8_9 p8_10 p8_11 p9_10 p9_11 p10_11 n0 n1 n2 n3 n4 n5 n6 n7 n8 n9 n10 n11
    simp only [e0, e1, e2, e4, e5, e6, e7, e8, e9, e10, e11, ek, en, if_true, if_false, false_or, or_false, true_or, or_true, true_and, false_and, Bool.false_eq_true]
    cases hx : s.tio.isig
    · simp only [hx, hcan, if_true, if_false, and_false, Bool.false_eq_true, Bool.or_false, Bool.false_or, Bool.or_true, Bool.true_or, Int.natCast_zero, Bool.toNat_false, Int.add_zero, Int.ofNat_zero, false_or, or_false, or_true]
      exact .char rfl rfl
    · simp only [hx, hcan, if_true, if_false, and_true, Bool.or_false, Bool.false_or, Bool.or_true, Bool.true_or, Int.natCast_zero, Bool.toNat_false, Int.add_zero, Int.ofNat_zero, false_or, or_false, or_true]
      exact .flush 3 ⟨hx, .inr h⟩ rfl rfl
  have e3 := eq_false h
  clear h
  by_cases h : c = s.tio.vsusp
  · have e0 : (c = s.tio.vstart) = False := eq_false fun e => hc (e.trans (p0_4 (e.symm.trans h)))
    have e1 : (c = s.tio.vstop) = False := eq_false fun e => hc (e.trans (p1_4 (e.symm.trans h)))
    have e2 : (c = s.tio.vintr) = False := eq_false fun e => hc (e.trans (p2_4 (e.symm.trans h)))
    have e3 : (c = s.tio.vquit) = False := eq_false fun e => hc (e.trans (p3_4 (e.symm.trans h)))
    have e5 : (c = s.tio.vreprint) = False := eq_false fun e => hc (h.trans (p4_5 (h.symm.trans e)))
    have e6 : (c = s.tio.vlnext) = False := eq_false fun e => hc (h.trans (p4_6 (h.symm.trans e)))
    have e7 : (c = s.tio.vdiscard) = False := eq_false fun e => hc (h.trans (p4_7 (h.symm.trans e)))
    have e8 : (c = s.tio.verase) = False := eq_false fun e => hc (h.trans (p4_8 (h.symm.trans e)))
    have e9 : (c = s.tio.veof) = False := eq_false fun e => hc (h.trans (p4_9 (h.symm.trans e)))
    have e10 : (c = s.tio.veol) = False := eq_false fun e => hc (h.trans (p4_10 (h.symm.trans e)))
    have e11 : (c = s.tio.veol2) = False := eq_false fun e => hc (h.trans (p4_11 (h.symm.trans e)))
    have en : (c = 10) = False := eq_false fun e => n4 (e.symm.trans h)
    have ek : (c = s.tio.vsusp) = True := eq_true h
    clear p0_1 p0_2 p0_3 p0_4 p0_5 p0_6 p0_7 p0_8 p0_9 p0_10 p0_11 p1_2 p1_3 p1_4 p1_5 p1_6 p1_7 p1_8 p1_9 p1_10 p1_11 p2_3 p2_4 p2_5 p2_6 p2_7 p2_8 p2_9 p2_10 p2_11 p3_4 p3_5 p3_6 p3_7 p3_8 p3_9 p3_10 p3_11 p4_5 p4_6 p4_7 p4_8 p4_9 p4_10 p4_11 p5_6 p5_7 p5_8 p5_9 p5_10 p5_11 p6_7 p6_8 p6_9 p6_10 p6_11 p7_8 p7_9 p7_10 p7_11 p8_9 p8_10 p8_11 p9_10 p9_11 p10_11 n0 n1 n2 n3 n4 n5 n6 n7 n8 n9 n10 n11
    simp only [e0, e1, e2, e3, e5, e6, e7, e8, e9, e10, e11, ek, en, if_true, if_false, false_or, or_false, true_or, or_true, true_and, false_and, Bool.false_eq_true]
    cases hx : s.tio.isig
    · simp only [hx, hcan, if_true, if_false, and_false, Bool.false_eq_true, Bool.or_false, Bool.false_or, Bool.or_true, Bool.true_or, Int.natCast_zero, Bool.toNat_false, Int.add_zero, Int.ofNat_zero, false_or, or_false, or_true]
      exact .char rfl rfl
    · simp only [hx, hcan, if_true, if_false, and_true, Bool.or_false, Bool.false_or, Bool.or_true, Bool.true_or, Int.natCast_zero, Bool.toNat_false, Int.add_zero, Int.ofNat_zero, false_or, or_false, or_true]
      exact .same rfl rfl
  have e4 := eq_false h
  clear h
  by_cases h : c = s.tio.vreprint
  · have e0 : (c = s.tio.vstart) = False := eq_false fun e => hc (e.trans (p0_5 (e.symm.trans h)))
    have e1 : (c = s.tio.vstop) = False := eq_false fun e => hc (e.trans (p1_5 (e.symm.trans h)))
    have e2 : (c = s.tio.vintr) = False := eq_false fun e => hc (e.trans (p2_5 (e.symm.trans h)))
    have e3 : (c = s.tio.vquit) = False := eq_false fun e => hc (e.trans (p3_5 (e.symm.trans h)))
    have e4 : (c = s.tio.vsusp) = False := eq_false fun e => hc (e.trans (p4_5 (e.symm.trans h)))
    have e6 : (c = s.tio.vlnext) = False := eq_false fun e => hc (h.trans (p5_6 (h.symm.trans e)))
    have e7 : (c = s.tio.vdiscard) = False := eq_false fun e => hc (h.trans (p5_7 (h.symm.trans e)))
    have e8 : (c = s.tio.verase) = False := eq_false fun e => hc (h.trans (p5_8 (h.symm.trans e)))
    have e9 : (c = s.tio.veof) = False := eq_false fun e => hc (h.trans (p5_9 (h.symm.trans e)))
    have e10 : (c = s.tio.veol) = False := eq_false fun e => hc (h.trans (p5_10 (h.symm.trans e)))
    have e11 : (c = s.tio.veol2) = False := eq_false fun e => hc (h.trans (p5_11 (h.symm.trans e)))
    have en : (c = 10) = False := eq_false fun e => n5 (e.symm.trans h)
    have ek : (c = s.tio.vreprint) = True := eq_true h
    clear p0_1 p0_2 p0_3 p0_4 p0_5 p0_6 p0_7 p0_8 p0_9 p0_10 p0_11 p1_2 p1_3 p1_4 p1_5 p1_6 p1_7 p1_8 p1_9 p1_10 p1_11 p2_3 p2_4 p2_5 p2_6 p2_7 p2_8 p2_9 p2_10 p2_11 p3_4 p3_5 p3_6 p3_7 p3_8 p3_9 p3_10 p3_11 p4_5 p4_6 p4_7 p4_8 p4_9 p4_10 p4_11 p5_6 p5_7 p5_8 p5_9 p5_10 p5_11 p6_7 p6_8 p6_9 p6_10 p6_11 p7_8 p7_9 p7_10 p7_11 p8_9 p8_10 p8_11 p9_10 p9_11 p10_11 n0 n1 n2 n3 n4 n5 n6 n7 n8 n9 n10 n11
    simp only [e0, e1, e2, e3, e4, e6, e7, e8, e9, e10, e11, ek, en, if_true, if_false, false_or, or_false, true_or, or_true, true_and, false_and, Bool.false_eq_true]
    cases hx : s.tio.iexten
    · simp only [hx, hcan, if_true, if_false, Bool.false_eq_true, Bool.or_false, Bool.false_or, Bool.or_true, Bool.true_or, Int.natCast_zero, Bool.toNat_false, Int.add_zero, Int.ofNat_zero, false_or, or_false, or_true]
      exact .char rfl rfl
    · simp only [hx, hcan, if_true, if_false, Bool.false_eq_true, Bool.or_false, Bool.false_or, Bool.or_true, Bool.true_or, Int.natCast_zero, Bool.toNat_false, Int.add_zero, Int.ofNat_zero, false_or, or_false, or_true]
      exact .same rfl rfl
  have e5 := eq_false h
  clear h
  by_cases h : c = s.tio.vlnext
  · have e0 : (c = s.tio.vstart) = False := eq_false fun e => hc (e.trans (p0_6 (e.symm.trans h)))
    have e1 : (c = s.tio.vstop) = False := eq_false fun e => hc (e.trans (p1_6 (e.symm.trans h)))
    have e2 : (c = s.tio.vintr) = False := eq_false fun e => hc (e.trans (p2_6 (e.symm.trans h)))
    have e3 : (c = s.tio.vquit) = False := eq_false fun e => hc (e.trans (p3_6 (e.symm.trans h)))
    have e4 : (c = s.tio.vsusp) = False := eq_false fun e => hc (e.trans (p4_6 (e.symm.trans h)))
    have e5 : (c = s.tio.vreprint) = False := eq_false fun e => hc (e.trans (p5_6 (e.symm.trans h)))
    have e7 : (c = s.tio.vdiscard) = False := eq_false fun e => hc (h.trans (p6_7 (h.symm.trans e)))
    have e8 : (c = s.tio.verase) = False := eq_false fun e => hc (h.trans (p6_8 (h.symm.trans e)))
    have e9 : (c = s.tio.veof) = False := eq_false fun e => hc (h.trans (p6_9 (h.symm.trans e)))
    have e10 : (c = s.tio.veol) = False := eq_false fun e => hc (h.trans (p6_10 (h.symm.trans e)))
    have e11 : (c = s.tio.veol2) = False := eq_false fun e => hc (h.trans (p6_11 (h.symm.trans e)))
    have en : (c = 10) = False := eq_false fun e => n6 (e.symm.trans h)
    have ek : (c = s.tio.vlnext) = True := eq_true h
    clear p0_1 p0_2 p0_3 p0_4 p0_5 p0_6 p0_7 p0_8 p0_9 p0_10 p0_11 p1_2 p1_3 p1_4 p1_5 p1_6 p1_7 p1_8 p1_9 p1_10 p1_11 p2_3 p2_4 p2_5 p2_6 p2_7 p2_8 p2_9 p2_10 p2_11 p3_4 p3_5 p3_6 p3_7 p3_8 p3_9 p3_10 p3_11 p4_5 p4_6 p4_7 p4_8 p4_9 p4_10 p4_11 p5_6 p5_7 p5_8 p5_9 p5_10 p5_11 p6_7 p6_8 p6_9 p6_10 p6_11 p7_8 p7_9 p7_10 p7_11 p8_9 p8_10 p8_11 p9_10 p9_11 p10_11 n0 n1 n2 n3 n4 n5 n6 n7 n8 n9 n10 n11
    simp only [e0, e1, e2, e3, e4, e5, e7, e8, e9, e10, e11, ek, en, if_true, if_false, false_or, or_false, true_or, or_true, true_and, false_and, Bool.false_eq_true]
    cases hx : s.tio.iexten
    · simp only [hx, hcan, if_true, if_false, and_false, Bool.false_eq_true, Bool.or_false, Bool.false_or, Bool.or_true, Bool.true_or, Int.natCast_zero, Bool.toNat_false, Int.add_zero, Int.ofNat_zero, false_or, or_false, or_true]
      exact .char rfl rfl
    · simp only [hx, hcan, if_true, if_false, and_true, Bool.or_false, Bool.false_or, Bool.or_true, Bool.true_or, Int.natCast_zero, Bool.toNat_false, Int.add_zero, Int.ofNat_zero, false_or, or_false, or_true]
      exact .same rfl rfl
  have e6 := eq_false h
  clear h
  by_cases h : c = s.tio.vdiscard
  · have e0 : (c = s.tio.vstart) = False := eq_false fun e => hc (e.trans (p0_7 (e.symm.trans h)))
    have e1 : (c = s.tio.vstop) = False := eq_false fun e => hc (e.trans (p1_7 (e.symm.trans h)))
    have e2 : (c = s.tio.vintr) = False := eq_false fun e => hc (e.trans (p2_7 (e.symm.trans h)))
    have e3 : (c = s.tio.vquit) = False := eq_false fun e => hc (e.trans (p3_7 (e.symm.trans h)))
    have e4 : (c = s.tio.vsusp) = False := eq_false fun e => hc (e.trans (p4_7 (e.symm.trans h)))
    have e5 : (c = s.tio.vreprint) = False := eq_false fun e => hc (e.trans (p5_7 (e.symm.trans h)))
    have e6 : (c = s.tio.vlnext) = False := eq_false fun e => hc (e.trans (p6_7 (e.symm.trans h)))
    have e8 : (c = s.tio.verase) = False := eq_false fun e => hc (h.trans (p7_8 (h.symm.trans e)))
    have e9 : (c = s.tio.veof) = False := eq_false fun e => hc (h.trans (p7_9 (h.symm.trans e)))
    have e10 : (c = s.tio.veol) = False := eq_false fun e => hc (h.trans (p7_10 (h.symm.trans e)))
    have e11 : (c = s.tio.veol2) = False := eq_false fun e => hc (h.trans (p7_11 (h.symm.trans e)))
    have en : (c = 10) = False := eq_false fun e => n7 (e.symm.trans h)
    have ek : (c = s.tio.vdiscard) = True := eq_true h
    clear p0_1 p0_2 p0_3 p0_4 p0_5 p0_6 p0_7 p0_8 p0_9 p0_10 p0_11 p1_2 p1_3 p1_4 p1_5 p1_6 p1_7 p1_8 p1_9 p1_10 p1_11 p2_3 p2_4 p2_5 p2_6 p2_7 p2_8 p2_9 p2_10 p2_11 p3_4 p3_5 p3_6 p3_7 p3_8 p3_9 p3_10 p3_11 p4_5 p4_6 p4_7 p4_8 p4_9 p4_10 p4_11 p5_6 p5_7 p5_8 p5_9 p5_10 p5_11 p6_7 p6_8 p6_9 p6_10 p6_11 p7_8 p7_9 p7_10 p7_11 p8_9 p8_10 p8_11 p9_10 p9_11 p10_11 n0 n1 n2 n3 n4 n5 n6 n7 n8 n9 n10 n11
    simp only [e0, e1, e2, e3, e4, e5, e6, e8, e9, e10, e11, ek, en, if_true, if_false, false_or, or_false, true_or, or_true, true_and, false_and, Bool.false_eq_true]
    simp only [hcan, if_true, if_false, Bool.false_eq_true, Bool.or_false, Bool.false_or, Bool.or_true, Bool.true_or, Int.natCast_zero, Bool.toNat_false, Int.add_zero, Int.ofNat_zero, false_or, or_false, or_true]
    exact .char rfl rfl
  have e7 := eq_false h
  clear h
  by_cases h : c = s.tio.verase
  · have e0 : (c = s.tio.vstart) = False := eq_false fun e => hc (e.trans (p0_8 (e.symm.trans h)))
    have e1 : (c = s.tio.vstop) = False := eq_false fun e => hc (e.trans (p1_8 (e.symm.trans h)))
    have e2 : (c = s.tio.vintr) = False := eq_false fun e => hc (e.trans (p2_8 (e.symm.trans h)))
    have e3 : (c = s.tio.vquit) = False := eq_false fun e => hc (e.trans (p3_8 (e.symm.trans h)))
    have e4 : (c = s.tio.vsusp) = False := eq_false fun e => hc (e.trans (p4_8 (e.symm.trans h)))
    have e5 : (c = s.tio.vreprint) = False := eq_false fun e => hc (e.trans (p5_8 (e.symm.trans h)))
    have e6 : (c = s.tio.vlnext) = False := eq_false fun e => hc (e.trans (p6_8 (e.symm.trans h)))
    have e7 : (c = s.tio.vdiscard) = False := eq_false fun e => hc (e.trans (p7_8 (e.symm.trans h)))
    have e9 : (c = s.tio.veof) = False := eq_false fun e => hc (h.trans (p8_9 (h.symm.trans e)))
    have e10 : (c = s.tio.veol) = False := eq_false fun e => hc (h.trans (p8_10 (h.symm.trans e)))
    have e11 : (c = s.tio.veol2) = False := eq_false fun e => hc (h.trans (p8_11 (h.symm.trans e)))
    have en : (c = 10) = False := eq_false fun e => n8 (e.symm.trans h)
    have ek : (c = s.tio.verase) = True := eq_true h
    clear p0_1 p0_2 p0_3 p0_4 p0_5 p0_6 p0_7 p0_8 p0_9 p0_10 p0_11 p1_2 p1_3 p1_4 p1_5 p1_6 p1_7 p1_8 p1_9 p1_10 p1_11 p2_3 p2_4 p2_5 p2_6 p2_7 p2_8 p2_9 p2_10 p2_11 p3_4 p3_5 p3_6 p3_7 p3_8 p3_9 p3_10 p3_11 p4_5 p4_6 p4_7 p4_8 p4_9 p4_10 p4_11 p5_6 p5_7 p5_8 p5_9 p5_10 p5_11 p6_7 p6_8 p6_9 p6_10 p6_11 p7_8 p7_9 p7_10 p7_11 p8_9 p8_10 p8_11 p9_10 p9_11 p10_11 n0 n1 n2 n3 n4 n5 n6 n7 n8 n9 n10 n11
    simp only [e0, e1, e2, e3, e4, e5, e6, e7, e9, e10, e11, ek, en, if_true, if_false, false_or, or_false, true_or, or_true, true_and, false_and, Bool.false_eq_true]
    simp only [hcan, if_true, if_false, Bool.false_eq_true, Bool.or_false, Bool.false_or, Bool.or_true, Bool.true_or, Int.natCast_zero, Bool.toNat_false, Int.add_zero, Int.ofNat_zero, false_or, or_false, or_true]
    exact .char rfl rfl
  have e8 := eq_false h
  clear h
  by_cases h : c = s.tio.veof
  · have e0 : (c = s.tio.vstart) = False := eq_false fun e => hc (e.trans (p0_9 (e.symm.trans h)))
    have e1 : (c = s.tio.vstop) = False := eq_false fun e => hc (e.trans (p1_9 (e.symm.trans h)))
    have e2 : (c = s.tio.vintr) = False := eq_false fun e => hc (e.trans (p2_9 (e.symm.trans h)))
    have e3 : (c = s.tio.vquit) = False := eq_false fun e => hc (e.trans (p3_9 (e.symm.trans h)))
    have e4 : (c = s.tio.vsusp) = False := eq_false fun e => hc (e.trans (p4_9 (e.symm.trans h)))
    have e5 : (c = s.tio.vreprint) = False := eq_false fun e => hc (e.trans (p5_9 (e.symm.trans h)))
    have e6 : (c = s.tio.vlnext) = False := eq_false fun e => hc (e.trans (p6_9 (e.symm.trans h)))
    have e7 : (c = s.tio.vdiscard) = False := eq_false fun e => hc (e.trans (p7_9 (e.symm.trans h)))
    have e8 : (c = s.tio.verase) = False := eq_false fun e => hc (e.trans (p8_9 (e.symm.trans h)))
    have e10 : (c = s.tio.veol) = False := eq_false fun e => hc (h.trans (p9_10 (h.symm.trans e)))
    have e11 : (c = s.tio.veol2) = False := eq_false fun e => hc (h.trans (p9_11 (h.symm.trans e)))
    have en : (c = 10) = False := eq_false fun e => n9 (e.symm.trans h)
    have ek : (c = s.tio.veof) = True := eq_true h
    clear p0_1 p0_2 p0_3 p0_4 p0_5 p0_6 p0_7 p0_8 p0_9 p0_10 p0_11 p1_2 p1_3 p1_4 p1_5 p1_6 p1_7 p1_8 p1_9 p1_10 p1_11 p2_3 p2_4 p2_5 p2_6 p2_7 p2_8 p2_9 p2_10 p2_11 p3_4 p3_5 p3_6 p3_7 p3_8 p3_9 p3_10 p3_11 p4_5 p4_6 p4_7 p4_8 p4_9 p4_10 p4_11 p5_6 p5_7 p5_8 p5_9 p5_10 p5_11 p6_7 p6_8 p6_9 p6_10 p6_11 p7_8 p7_9 p7_10 p7_11 p8_9 p8_10 p8_11 p9_10 p9_11 p10_11 n0 n1 n2 n3 n4 n5 n6 n7 n8 n9 n10 n11
    simp only [e0, e1, e2, e3, e4, e5, e6, e7, e8, e10, e11, ek, en, if_true, if_false, false_or, or_false, true_or, or_true, true_and, false_and, Bool.false_eq_true]
    simp only [hcan, if_true, if_false, Bool.false_eq_true, Bool.or_false, Bool.false_or, Bool.or_true, Bool.true_or, Int.natCast_zero, Bool.toNat_false, Int.add_zero, Int.ofNat_zero, false_or, or_false, or_true]
    exact .char rfl rfl
  have e9 := eq_false h
  clear h
  by_cases h : c = s.tio.veol
  · have e0 : (c = s.tio.vstart) = False := eq_false fun e => hc (e.trans (p0_10 (e.symm.trans h)))
    have e1 : (c = s.tio.vstop) = False := eq_false fun e => hc (e.trans (p1_10 (e.symm.trans h)))
    have e2 : (c = s.tio.vintr) = False := eq_false fun e => hc (e.trans (p2_10 (e.symm.trans h)))
    have e3 : (c = s.tio.vquit) = False := eq_false fun e => hc (e.trans (p3_10 (e.symm.trans h)))
    have e4 : (c = s.tio.vsusp) = False := eq_false fun e => hc (e.trans (p4_10 (e.symm.trans h)))
    have e5 : (c = s.tio.vreprint) = False := eq_false fun e => hc (e.trans (p5_10 (e.symm.trans h)))
    have e6 : (c = s.tio.vlnext) = False := eq_false fun e => hc (e.trans (p6_10 (e.symm.trans h)))
    have e7 : (c = s.tio.vdiscard) = False := eq_false fun e => hc (e.trans (p7_10 (e.symm.trans h)))
    have e8 : (c = s.tio.verase) = False := eq_false fun e => hc (e.trans (p8_10 (e.symm.trans h)))
    have e9 : (c = s.tio.veof) = False := eq_false fun e => hc (e.trans (p9_10 (e.symm.trans h)))
    have e11 : (c = s.tio.veol2) = False := eq_false fun e => hc (h.trans (p10_11 (h.symm.trans e)))
    have en : (c = 10) = False := eq_false fun e => n10 (e.symm.trans h)
    have ek : (c = s.tio.veol) = True := eq_true h
    clear p0_1 p0_2 p0_3 p0_4 p0_5 p0_6 p0_7 p0_8 p0_9 p0_10 p0_11 p1_2 p1_3 p1_4 p1_5 p1_6 p1_7 p1_8 p1_9 p1_10 p1_11 p2_3 p2_4 p2_5 p2_6 p2_7 p2_8 p2_9 p2_10 p2_11 p3_4 p3_5 p3_6 p3_7 p3_8 p3_9 p3_10 p3_11 p4_5 p4_6 p4_7 p4_8 p4_9 p4_10 p4_11 p5_6 p5_7 p5_8 p5_9 p5_10 p5_11 p6_7 p6_8 p6_9 p6_10 p6_11 p7_8 p7_9 p7_10 p7_11 p8_9 p8_10 p8_11 p9_10 p9_11 p10_11 n0 n1 n2 n3 n4 n5 n6 n7 n8 n9 n10 n11
    simp only [e0, e1, e2, e3, e4, e5, e6, e7, e8, e9, e11, ek, en, if_true, if_false, false_or, or_false, true_or, or_true, true_and, false_and, Bool.false_eq_true]
    simp only [hcan, if_true, if_false, Bool.false_eq_true, Bool.or_false, Bool.false_or, Bool.or_true, Bool.true_or, Int.natCast_zero, Bool.toNat_false, Int.add_zero, Int.ofNat_zero, false_or, or_false, or_true]
    exact .char rfl rfl
  have e10 := eq_false h
  clear h
  by_cases h : c = s.tio.veol2
  · have e0 : (c = s.tio.vstart) = False := eq_false fun e => hc (e.trans (p0_11 (e.symm.trans h)))
    have e1 : (c = s.tio.vstop) = False := eq_false fun e => hc (e.trans (p1_11 (e.symm.trans h)))
    have e2 : (c = s.tio.vintr) = False := eq_false fun e => hc (e.trans (p2_11 (e.symm.trans h)))
    have e3 : (c = s.tio.vquit) = False := eq_false fun e => hc (e.trans (p3_11 (e.symm.trans h)))
    have e4 : (c = s.tio.vsusp) = False := eq_false fun e => hc (e.trans (p4_11 (e.symm.trans h)))
    have e5 : (c = s.tio.vreprint) = False := eq_false fun e => hc (e.trans (p5_11 (e.symm.trans h)))
    have e6 : (c = s.tio.vlnext) = False := eq_false fun e => hc (e.trans (p6_11 (e.symm.trans h)))
    have e7 : (c = s.tio.vdiscard) = False := eq_false fun e => hc (e.trans (p7_11 (e.symm.trans h)))
    have e8 : (c = s.tio.verase) = False := eq_false fun e => hc (e.trans (p8_11 (e.symm.trans h)))
    have e9 : (c = s.tio.veof) = False := eq_false fun e => hc (e.trans (p9_11 (e.symm.trans h)))
    have e10 : (c = s.tio.veol) = False := eq_false fun e => hc (e.trans (p10_11 (e.symm.trans h)))
    have en : (c = 10) = False := eq_false fun e => n11 (e.symm.trans h)
    have ek : (c = s.tio.veol2) = True := eq_true h
    clear p0_1 p0_2 p0_3 p0_4 p0_5 p0_6 p0_7 p0_8 p0_9 p0_10 p0_11 p1_2 p1_3 p1_4 p1_5 p1_6 p1_7 p1_8 p1_9 p1_10 p1_11 p2_3 p2_4 p2_5 p2_6 p2_7 p2_8 p2_9 p2_10 p2_11 p3_4 p3_5 p3_6 p3_7 p3_8 p3_9 p3_10 p3_11 p4_5 p4_6 p4_7 p4_8 p4_9 p4_10 p4_11 p5_6 p5_7 p5_8 p5_9 p5_10 p5_11 p6_7 p6_8 p6_9 p6_10 p6_11 p7_8 p7_9 p7_10 p7_11 p8_9 p8_10 p8_11 p9_10 p9_11 p10_11 n0 n1 n2 n3 n4 n5 n6 n7 n8 n9 n10 n11
    simp only [e0, e1, e2, e3, e4, e5, e6, e7, e8, e9, e10, ek, en, if_true, if_false, false_or, or_false, true_or, or_true, true_and, false_and, Bool.false_eq_true]
    simp only [hcan, if_true, if_false, Bool.false_eq_true, Bool.or_false, Bool.false_or, Bool.or_true, Bool.true_or, Int.natCast_zero, Bool.toNat_false, Int.add_zero, Int.ofNat_zero, false_or, or_false, or_true]
    exact .char rfl rfl
  have e11 := eq_false h
  clear h
  clear p0_1 p0_2 p0_3 p0_4 p0_5 p0_6 p0_7 p0_8 p0_9 p0_10 p0_11 p1_2 p1_3 p1_4 p1_5 p1_6 p1_7 p1_8 p1_9 p1_10 p1_11 p2_3 p2_4 p2_5 p2_6 p2_7 p2_8 p2_9 p2_10 p2_11 p3_4 p3_5 p3_6 p3_7 p3_8 p3_9 p3_10 p3_11 p4_5 p4_6 p4_7 p4_8 p4_9 p4_10 p4_11 p5_6 p5_7 p5_8 p5_9 p5_10 p5_11 p6_7 p6_8 p6_9 p6_10 p6_11 p7_8 p7_9 p7_10 p7_11 p8_9 p8_10 p8_11 p9_10 p9_11 p10_11 n0 n1 n2 n3 n4 n5 n6 n7 n8 n9 n10 n11
  simp only [e0, e1, e2, e3, e4, e5, e6, e7, e8, e9, e10, e11, hcan, if_true, if_false, false_or, or_false, true_or, or_true, true_and, false_and, Bool.false_eq_true, Bool.toNat_false, Int.ofNat_zero, Int.add_zero]
  exact .char rfl rfl

/-- A complete line in the buffer: its bytes and the character that ended it. What a read returns of it. -/
def outLine (t : Tio) (p : List Byte × Byte) : List Byte := if p.2 = t.veof then p.1 else p.1 ++ [p.2]

/-- Lines as they are in the buffer. -/
def enc (L : List (List Byte × Byte)) : List Byte := L.flatMap fun p => p.1 ++ [p.2]

theorem enc_cons (p : List Byte × Byte) (L : List (List Byte × Byte)) : enc (p :: L) = p.1 ++ [p.2] ++ enc L := by
  simp [enc]

theorem enc_append (L M : List (List Byte × Byte)) : enc (L ++ M) = enc L ++ enc M := by simp [enc]

def LineOK (t : Tio) (p : List Byte × Byte) : Prop :=
  (∀ c ∈ p.1, isDelim t c = false) ∧ isDelim t p.2 = true ∧ p.1.length < CAP

/-- The buffer contains `A`, complete lines and an incomplete one; the specification has the lines `heads` before those. -/
structure CI (t : Tio) (ring : List Byte) (count : Int) (lines : List (List Byte)) (cur A : List Byte) (k : Nat)
    (heads : List (List Byte)) (L : List (List Byte × Byte)) : Prop where
  ring : ring = A ++ enc L ++ cur
  count : count = L.length + k
  lines : lines = heads ++ L.map (outLine t)
  ok : ∀ p ∈ L, LineOK t p
  cur : ∀ c ∈ cur, isDelim t c = false

/-- What a read that is past its waiting has done, in canonical mode. -/
def Head (t : Tio) (r : Rd) (A : List Byte) (k : Nat) (heads : List (List Byte)) : Prop :=
  r.pos = 0 ∧ r.out = [] ∧ match r.pc with
  | .fill | .pop => ∃ b d, A = b ++ [d] ∧ k = 1 ∧ heads = [outLine t (r.buf ++ b, d)] ∧ LineOK t (r.buf ++ b, d) ∧ r.delim = false
  | .got c => (∃ b, A = [] ∧ k = 1 ∧ r.buf = b ++ [c] ∧ heads = [outLine t (b, c)] ∧ LineOK t (b, c) ∧ r.delim = false) ∨
      isDelim t c = false ∧ ∃ b d, A = b ++ [d] ∧ k = 1 ∧ heads = [outLine t (r.buf ++ b, d)] ∧ LineOK t (r.buf ++ b, d) ∧ r.delim = false
  | .flush => A = [] ∧ k = 0 ∧ heads = [r.buf] ∧ r.delim = true
  | _ => True

def CMain (s : St) (sp : Spec) : Prop :=
  ∃ A k heads L, CI s.tio s.ring s.count sp.lines sp.cur A k heads L ∧
    (∀ h, (s.rd h).pc.busy = true → Head s.tio (s.rd h) A k heads) ∧
    ((∀ h, (s.rd h).pc.busy = false) → A = [] ∧ k = 0 ∧ heads = [])

/-- The same in raw mode: `T` has been taken out of the buffer. -/
def HeadR (vmin : Nat) (r : Rd) (T ring : List Byte) : Prop :=
  r.pos = 0 ∧ r.out = [] ∧ r.buf = T ∧ vmin ≤ T.length + ring.length ∧ match r.pc with
  | .fill => T = [] ∨ T.length < vmin
  | .pop => (T = [] ∨ T.length < vmin) ∧ ring ≠ []
  | .got _ => T ≠ [] ∧ (T.length ≤ vmin ∨ T.length ≤ 1)
  | .flush => vmin ≤ T.length ∧ (T.length ≤ vmin ∨ T.length ≤ 1)
  | _ => True

def RMain (s : St) (sp : Spec) : Prop :=
  ∃ T, sp.cur = T ++ s.ring ∧ s.count = 0 ∧ sp.lines = [] ∧
    (∀ h, (s.rd h).pc.busy = true → HeadR s.tio.vmin (s.rd h) T s.ring) ∧ ((∀ h, (s.rd h).pc.busy = false) → T = [])

def Main (s : St) (sp : Spec) : Prop := if s.tio.canon then CMain s sp else RMain s sp

/-- A handle without a read, which has `rest` left. -/
structure IdleOK (r : Rd) (rest : List Byte) : Prop where
  rest : r.buf.drop r.pos = rest
  pos : r.buf = [] ∧ r.pos = 0 ∨ r.pos < r.buf.length
  allowed : r.allowed = true ↔ r.nonblock = true ∧ r.buf ≠ []

/-- A read that is going on. -/
structure ActOK (t : Tio) (r : Rd) (rest : List Byte) : Prop where
  rest : rest = []
  allowed : r.allowed = false
  size : 0 < r.size
  raw : t.canon = false → t.vmin ≤ r.size
  fresh : r.pc.busy = false → r.buf = [] ∧ r.pos = 0 ∧ r.out = []

structure Inv (s : St) (sp : Spec) : Prop where
  tio : sp.tio = s.tio
  good : Good s.tio
  panic : s.panic = false
  blk : s.blk = none
  sent : s.sent = sp.sent
  idle : ∀ h, (s.rd h).pc = .idle → IdleOK (s.rd h) (sp.rest h)
  act : ∀ h, (s.rd h).pc ≠ .idle → ActOK s.tio (s.rd h) (sp.rest h)
  one : ∀ h, (s.rd h).pc ≠ .idle → ∀ x, x ≠ h → (s.rd x).pc = .idle
  main : Main s sp

theorem Inv.init {t : Tio} (hg : Good t) (nb : Hid → Bool) : Inv (init t nb) (spec0 t) := by
  refine ⟨rfl, hg, rfl, rfl, rfl, fun h _ => ⟨rfl, .inl ⟨rfl, rfl⟩, ?_⟩, fun h hc => absurd rfl hc, fun h hc => absurd rfl hc, ?_⟩
  · simp [TtyIn.init, rd0]
  · unfold Main
    split
    · exact ⟨[], 0, [], [], ⟨rfl, rfl, rfl, by simp, by simp [spec0]⟩, fun h hb => by simp [TtyIn.init, rd0, RPc.busy] at hb, fun _ => ⟨rfl, rfl, rfl⟩⟩
    · exact ⟨[], rfl, rfl, rfl, fun h hb => by simp [TtyIn.init, rd0, RPc.busy] at hb, fun _ => rfl⟩

theorem busy_ne_idle {p : RPc} (h : p.busy = true) : p ≠ .idle := by rintro rfl; simp [RPc.busy] at h

/-- A change of the buffer only. -/
theorem Inv.buffer {s s' : St} {sp sp' : Spec} (h : Inv s sp) (ht : s'.tio = s.tio) (hst : sp'.tio = sp.tio) (hp : s'.panic = s.panic)
    (hb : s'.blk = s.blk) (hse : s'.sent = sp'.sent) (hrd : s'.rd = s.rd) (hre : sp'.rest = sp.rest) (hm : Main s' sp') : Inv s' sp' :=
  ⟨by rw [hst, ht, h.tio], by rw [ht]; exact h.good, by rw [hp, h.panic], by rw [hb, h.blk], hse,
   fun x hx => by rw [hrd, hre] at *; exact h.idle x hx, fun x hx => by rw [hrd, hre, ht] at *; exact h.act x hx,
   fun x hx => by rw [hrd] at *; exact h.one x hx, hm⟩

theorem CI.char {t : Tio} {ring : List Byte} {count : Int} {lines : List (List Byte)} {cur A : List Byte} {k : Nat} {heads : List (List Byte)}
    {L : List (List Byte × Byte)} (h : CI t ring count lines cur A k heads L) {c : Byte} (hc : isDelim t c = false) :
    CI t (ring ++ [c]) count lines (cur ++ [c]) A k heads L :=
  ⟨by rw [h.ring]; simp, h.count, h.lines, h.ok, fun x hx => by
    rcases List.mem_append.mp hx with hx | hx
    · exact h.cur x hx
    · rw [List.mem_singleton.mp hx]; exact hc⟩

theorem CI.delim {t : Tio} {ring : List Byte} {count : Int} {lines : List (List Byte)} {cur A : List Byte} {k : Nat} {heads : List (List Byte)}
    {L : List (List Byte × Byte)} (h : CI t ring count lines cur A k heads L) {c : Byte} (hc : isDelim t c = true) (hr : ring.length < CAP) :
    CI t (ring ++ [c]) (count + 1) (lines ++ [cur ++ if c = t.veof then [] else [c]]) [] A k heads (L ++ [(cur, c)]) := by
  refine ⟨?_, ?_, ?_, ?_, by simp⟩
  · rw [h.ring, enc_append]; simp [enc]
  · rw [h.count]; simp; omega
  · rw [h.lines]
    simp only [List.map_append, List.map_cons, List.map_nil, outLine, List.append_assoc]
    split <;> simp
  · intro p hp
    rcases List.mem_append.mp hp with hp | hp
    · exact h.ok p hp
    · rw [List.mem_singleton.mp hp]
      refine ⟨h.cur, hc, ?_⟩
      have := congrArg List.length h.ring
      simp at this
      show cur.length < CAP
      omega

theorem CI.erase {t : Tio} {ring : List Byte} {count : Int} {lines : List (List Byte)} {cur A : List Byte} {k : Nat} {heads : List (List Byte)}
    {L : List (List Byte × Byte)} (h : CI t ring count lines cur A k heads L) (hc : cur = [] → ring = []) :
    CI t ring.dropLast count lines cur.dropLast A k heads L := by
  by_cases hcur : cur = []
  · subst hcur
    have hr := h.ring
    rw [hc rfl] at hr ⊢
    exact ⟨hr, h.count, h.lines, h.ok, h.cur⟩
  · refine ⟨?_, h.count, h.lines, h.ok, fun c hx => h.cur c (List.dropLast_subset _ hx)⟩
    rw [h.ring, List.dropLast_append_of_ne_nil hcur]

theorem Inv.key1 {s : St} {sp : Spec} (h : Inv s sp) {c : Byte} (b : Bool) (hc : c ≠ 0) (hr : s.ring.length < CAP)
    (he : s.tio.canon = true → c = s.tio.verase → sp.cur = [] → sp.lines = [])
    (hd : discards s.tio c → ∀ h, (s.rd h).pc.busy = false) : Inv (TtyIn.key1 s c b) (sp.char c) := by
  cases hcan : s.tio.canon
  · have hm : RMain s sp := by have := h.main; rw [Main, hcan] at this; exact this
    obtain ⟨T, hcur, hcnt, hl, hbusy, hno⟩ := hm
    rcases raw_case b h.good h.tio hcan hc hr with ⟨e1, e2⟩ | ⟨sig, hx, e1, e2⟩ | ⟨e1, e2⟩
    · rw [e1, e2]; exact h
    · rw [e1, e2]
      refine h.buffer rfl rfl rfl rfl (by rw [← h.sent]; rfl) rfl rfl ?_
      rw [Main]
      rw [if_neg (by show ¬ s.tio.canon = true; rw [hcan]; decide)]
      exact ⟨[], rfl, rfl, rfl, fun x hb => absurd (hd hx x) (by rw [show (s.rd x).pc.busy = true from hb]; decide), fun _ => rfl⟩
    · rw [e1, e2]
      refine h.buffer rfl rfl rfl rfl h.sent rfl rfl ?_
      rw [Main]
      rw [if_neg (by show ¬ s.tio.canon = true; rw [hcan]; decide)]
      refine ⟨T, by show sp.cur ++ [c] = T ++ (s.ring ++ [c]); rw [hcur]; simp, hcnt, hl, fun x hb => ?_, hno⟩
      obtain ⟨p1, p2, p3, p4, p5⟩ := hbusy x hb
      refine ⟨p1, p2, p3, by show _ ≤ T.length + (s.ring ++ [c]).length; simp; omega, ?_⟩
      show match (s.rd x).pc with
        | .fill => _
        | .pop => _
        | .got _ => _
        | .flush => _
        | _ => _
      cases hpc : (s.rd x).pc <;> rw [hpc] at p5 <;> first | exact p5 | exact ⟨p5.1, by simp⟩
  · have hm : CMain s sp := by have := h.main; rw [Main, hcan] at this; exact this
    obtain ⟨A, k, heads, L, hci, hbusy, hno⟩ := hm
    rcases canon_case b h.good h.tio hcan hc hr with ⟨e1, e2⟩ | ⟨sig, hx, e1, e2⟩ | ⟨hx, e1, e2⟩ | ⟨hx, e1, e2⟩ | ⟨hx, e1, e2⟩
    · rw [e1, e2]; exact h
    · rw [e1, e2]
      refine h.buffer rfl rfl rfl rfl (by rw [← h.sent]; rfl) rfl rfl ?_
      rw [Main]
      rw [if_pos (by exact hcan)]
      exact ⟨[], 0, [], [], ⟨rfl, rfl, rfl, by simp, by simp [Spec.discard]⟩,
        fun x hb => absurd (hd hx x) (by rw [show (s.rd x).pc.busy = true from hb]; decide), fun _ => ⟨rfl, rfl, rfl⟩⟩
    · rw [e1, e2]
      refine h.buffer rfl rfl rfl rfl h.sent rfl rfl ?_
      rw [Main]
      rw [if_pos (by exact hcan)]
      refine ⟨A, k, heads, L, hci.erase fun hcur => ?_, hbusy, hno⟩
      have hl := he hcan hx hcur
      have h1 := hci.lines
      rw [hl] at h1
      have h2 := List.append_eq_nil_iff.mp h1.symm
      have h3 : L = [] := List.map_eq_nil_iff.mp h2.2
      have h4 : ∀ x, (s.rd x).pc.busy = false := by
        intro x
        cases hb : (s.rd x).pc.busy
        · rfl
        · have := hbusy x hb
          obtain ⟨_, _, h5⟩ := this
          rw [h2.1] at h5
          cases hpc : (s.rd x).pc <;> rw [hpc] at h5 hb <;> simp [RPc.busy] at hb
          · obtain ⟨_, _, _, _, h6, _⟩ := h5; cases h6
          · obtain ⟨_, _, _, _, h6, _⟩ := h5; cases h6
          · rcases h5 with ⟨_, _, _, _, h6, _⟩ | ⟨_, _, _, _, _, h6, _⟩ <;> cases h6
          · obtain ⟨_, _, h6, _⟩ := h5; cases h6
      rw [hci.ring, h3, hcur, (hno h4).1]; rfl
    · rw [e1, e2]
      refine h.buffer rfl rfl rfl rfl h.sent rfl rfl ?_
      rw [Main]
      rw [if_pos (by exact hcan)]
      exact ⟨A, k, heads, _, hci.delim hx hr, hbusy, hno⟩
    · rw [e1, e2]
      refine h.buffer rfl rfl rfl rfl h.sent rfl rfl ?_
      rw [Main]
      rw [if_pos (by exact hcan)]
      exact ⟨A, k, heads, L, hci.char hx, hbusy, hno⟩

theorem Inv.key {s : St} {sp : Spec} (h : Inv s sp) {c : Byte} (b : Bool) (hok : Ok s sp (.key c b)) : Inv (TtyIn.key s c b) (sp.key c) := by
  obtain ⟨hr, hc, hx⟩ := hok
  obtain ⟨hx1, hx2⟩ := hx c (.inl rfl)
  have hnl : ∀ x ∈ [s.tio.vintr, s.tio.vquit, s.tio.verase], (NL : Byte) ≠ x := by
    have := h.good.2.1
    simp only [List.mem_cons, List.not_mem_nil, or_false, not_or] at this
    intro x hx
    simp only [List.mem_cons, List.not_mem_nil, or_false] at hx
    rcases hx with rfl | rfl | rfl
    · exact this.2.2.1
    · exact this.2.2.2.1
    · exact this.2.2.2.2.2.2.2.2.1
  unfold TtyIn.key translate Spec.key
  rw [h.tio]
  by_cases h13 : c = 13
  · rw [if_pos (show c = CR from h13)]
    by_cases h1 : s.tio.igncr = true
    · rw [if_pos h1, if_pos ⟨h13, h1⟩]; exact h
    rw [if_neg h1, if_neg (show ¬ (c = 13 ∧ s.tio.igncr = true) from fun e => h1 e.2)]
    by_cases h2 : s.tio.icrnl = true
    · rw [if_pos h2, if_pos ⟨h13, h2⟩]
      refine h.key1 b (by decide) hr (fun _ e => absurd e (hnl _ (by simp))) fun e => ?_
      rcases e.2 with e | e
      · exact absurd e (hnl _ (by simp))
      · exact absurd e (hnl _ (by simp))
    · rw [if_neg h2, if_neg (show ¬ (c = 13 ∧ s.tio.icrnl = true) from fun e => h2 e.2), if_neg (show ¬ (c = 10 ∧ s.tio.inlcr = true) from fun e => absurd e.1 (by rw [h13]; decide))]
      exact h.key1 b hc hr hx1 hx2
  · rw [if_neg (show ¬ c = CR from h13), if_neg (show ¬ (c = 13 ∧ s.tio.igncr = true) from fun e => h13 e.1), if_neg (show ¬ (c = 13 ∧ s.tio.icrnl = true) from fun e => h13 e.1)]
    by_cases h10 : c = 10
    · rw [if_pos (show c = NL from h10)]
      by_cases h1 : s.tio.inlcr = true
      · rw [if_pos h1, if_pos ⟨h10, h1⟩]
        obtain ⟨hy1, hy2⟩ := hx CR (.inr ⟨h10, rfl⟩)
        exact h.key1 b (by decide) hr hy1 hy2
      · rw [if_neg h1, if_neg (show ¬ (c = 10 ∧ s.tio.inlcr = true) from fun e => h1 e.2)]
        exact h.key1 b hc hr hx1 hx2
    · rw [if_neg (show ¬ c = NL from h10), if_neg (show ¬ (c = 10 ∧ s.tio.inlcr = true) from fun e => h10 e.1)]
      exact h.key1 b hc hr hx1 hx2

/-- Several ordinary bytes. -/
theorem Inv.seq (bs : List Byte) : ∀ {s : St} {sp : Spec}, Inv s sp → Ok s sp (.seq bs) → Inv (keySeq s bs) { sp with cur := sp.cur ++ bs } := by
  induction bs with
  | nil => intro s sp h _; simpa [keySeq] using h
  | cons c bs ih =>
    intro s sp h hok
    obtain ⟨hr, hd⟩ := hok
    simp only [List.length_cons] at hr
    have hlt : s.ring.length < CAP := by omega
    have e1 : keySeq s (c :: bs) = keySeq { s with ring := s.ring ++ [c] } bs := by
      simp only [keySeq, List.foldl_cons]
      rw [put_room hlt]
      simp
    have e2 : { sp with cur := sp.cur ++ c :: bs } = { { sp with cur := sp.cur ++ [c] } with cur := (sp.cur ++ [c]) ++ bs } := by simp
    rw [e1, e2]
    refine ih ?_ ⟨by show (s.ring ++ [c]).length + _ ≤ _; simp; omega, fun hc x hx => hd hc x (List.mem_cons_of_mem _ hx)⟩
    refine h.buffer rfl rfl rfl rfl h.sent rfl rfl ?_
    have hmain := h.main
    rw [Main] at hmain ⊢
    cases hcan : s.tio.canon
    · rw [hcan] at hmain
      rw [if_neg (by decide)]
      obtain ⟨T, hcur, hcnt, hl, hbusy, hno⟩ := (hmain : RMain s sp)
      refine ⟨T, by show sp.cur ++ [c] = T ++ (s.ring ++ [c]); rw [hcur]; simp, hcnt, hl, fun x hb => ?_, hno⟩
      obtain ⟨p1, p2, p3, p4, p5⟩ := hbusy x hb
      refine ⟨p1, p2, p3, by show _ ≤ T.length + (s.ring ++ [c]).length; simp; omega, ?_⟩
      show match (s.rd x).pc with
        | .fill => _
        | .pop => _
        | .got _ => _
        | .flush => _
        | _ => _
      cases hpc : (s.rd x).pc <;> rw [hpc] at p5 <;> first | exact p5 | exact ⟨p5.1, by simp⟩
    · rw [hcan] at hmain
      rw [if_pos rfl]
      obtain ⟨A, k, heads, L, hci, hbusy, hno⟩ := (hmain : CMain s sp)
      refine ⟨A, k, heads, L, hci.char ?_, hbusy, hno⟩
      have := hd hcan c List.mem_cons_self
      simp [isDelim, this]

/-- Nothing is unread, and nobody is past waiting: the buffer is empty. -/
theorem Inv.empty {s : St} {sp : Spec} (h : Inv s sp) (hl : sp.lines = []) (hc : sp.cur = []) (hb : ∀ x, (s.rd x).pc.busy = false) :
    s.ring = [] ∧ s.count = 0 := by
  have hmain := h.main
  rw [Main] at hmain
  cases hcan : s.tio.canon <;> rw [hcan] at hmain
  · obtain ⟨T, hcur, hcnt, _, _, hno⟩ := (hmain : RMain s sp)
    rw [hc] at hcur
    exact ⟨(List.append_eq_nil_iff.mp hcur.symm).2, hcnt⟩
  · obtain ⟨A, k, heads, L, hci, _, hno⟩ := (hmain : CMain s sp)
    obtain ⟨hA, hk, hh⟩ := hno hb
    have h1 := hci.lines
    rw [hl] at h1
    have h3 : L = [] := List.map_eq_nil_iff.mp (List.append_eq_nil_iff.mp h1.symm).2
    refine ⟨by rw [hci.ring, hA, h3, hc]; rfl, by rw [hci.count, h3, hk]; rfl⟩

theorem main_empty {s : St} {sp : Spec} (hr : s.ring = []) (hc : s.count = 0) (hl : sp.lines = []) (hcur : sp.cur = [])
    (hb : ∀ x, (s.rd x).pc.busy = false) : Main s sp := by
  unfold Main
  split
  · exact ⟨[], 0, [], [], ⟨by rw [hr, hcur]; rfl, by rw [hc]; rfl, by rw [hl]; rfl, by simp, by simp [hcur]⟩,
      fun x hx => absurd (hb x) (by rw [hx]; decide), fun _ => ⟨rfl, rfl, rfl⟩⟩
  · exact ⟨[], by rw [hr, hcur]; rfl, hc, hl, fun x hx => absurd (hb x) (by rw [hx]; decide), fun _ => rfl⟩

theorem Inv.set {s : St} {sp : Spec} (h : Inv s sp) {t : Tio} {f : Bool} (hok : Ok s sp (.set t f)) :
    Inv (setTio s t f) { (if f then sp.discard else sp) with tio := t } := by
  obtain ⟨hi, hx, hg⟩ := hok
  have hb : ∀ x, (s.rd x).pc.busy = false := fun x => by rw [hi x]; rfl
  have hrd : (setTio s t f).rd = s.rd := by unfold setTio; cases f <;> rfl
  have hre : (if f then sp.discard else sp).rest = sp.rest := by cases f <;> rfl
  have hse : (if f then sp.discard else sp).sent = sp.sent := by cases f <;> rfl
  refine ⟨rfl, hg, ?_, ?_, ?_, fun x hx => ?_, fun x hx => ?_, fun x hx => ?_, ?_⟩
  · unfold setTio; cases f <;> exact h.panic
  · unfold setTio; cases f <;> exact h.blk
  · show _ = (if f then sp.discard else sp).sent
    rw [hse, ← h.sent]; unfold setTio; cases f <;> rfl
  · rw [hrd] at *
    show IdleOK _ ((if f then sp.discard else sp).rest x)
    rw [hre]; exact h.idle x hx
  · rw [hrd] at hx; exact absurd (hi x) hx
  · rw [hrd] at hx; exact absurd (hi x) hx
  · refine main_empty ?_ ?_ ?_ ?_ (by rw [hrd]; exact hb)
    all_goals cases f
    all_goals first
      | rfl
      | (show (if _ then (0 : Int) else 0) = 0; split <;> rfl)
      | (have hx := hx.resolve_left (by decide))
    · exact (h.empty hx.1 hx.2 hb).1
    · show (if _ then (0 : Int) else s.count) = 0
      split
      · rfl
      · exact (h.empty hx.1 hx.2 hb).2
    · exact hx.1
    · exact hx.2

/-- A change of a handle without a read into one without a read. -/
theorem Inv.handle {s s' : St} {sp sp' : Spec} (h : Inv s sp) (x : Hid) (hx : (s.rd x).pc = .idle) (hx' : (s'.rd x).pc = .idle)
    (hi : IdleOK (s'.rd x) (sp'.rest x)) (ht : s'.tio = s.tio) (hst : sp'.tio = sp.tio) (hp : s'.panic = s.panic) (hb : s'.blk = s.blk)
    (hse : s'.sent = s.sent) (hss : sp'.sent = sp.sent) (hrd : ∀ y, y ≠ x → s'.rd y = s.rd y) (hre : ∀ y, y ≠ x → sp'.rest y = sp.rest y)
    (hr : s'.ring = s.ring) (hc : s'.count = s.count) (hl : sp'.lines = sp.lines) (hcu : sp'.cur = sp.cur) : Inv s' sp' := by
  have hpc : ∀ y, (s'.rd y).pc = (s.rd y).pc := by
    intro y
    by_cases hy : y = x
    · subst hy; rw [hx, hx']
    · rw [hrd y hy]
  have hne : ∀ y, (s.rd y).pc ≠ .idle → y ≠ x := fun y hy e => hy (by rw [e]; exact hx)
  refine ⟨by rw [hst, ht, h.tio], by rw [ht]; exact h.good, by rw [hp, h.panic], by rw [hb, h.blk], by rw [hse, hss, h.sent], fun y hy => ?_,
    fun y hy => ?_, fun y hy z hz => ?_, ?_⟩
  · by_cases e : y = x
    · subst e; exact hi
    · rw [hrd y e, hre y e]; exact h.idle y (by rw [← hpc y]; exact hy)
  · rw [hpc y] at hy
    rw [hrd y (hne y hy), hre y (hne y hy), ht]; exact h.act y hy
  · rw [hpc] at *; exact h.one y hy z hz
  · have hmain := h.main
    rw [Main] at hmain ⊢
    rw [ht]
    split
    · rename_i hcan
      rw [if_pos hcan] at hmain
      obtain ⟨A, k, heads, L, hci, hbusy, hno⟩ := (hmain : CMain s sp)
      refine ⟨A, k, heads, L, by rw [ht, hr, hc, hl, hcu]; exact hci, fun y hy => ?_, fun hall => hno fun y => by rw [← hpc y]; exact hall y⟩
      rw [hpc y] at hy
      rw [hrd y (hne y (busy_ne_idle hy)), ht]; exact hbusy y hy
    · rename_i hcan
      rw [if_neg hcan] at hmain
      obtain ⟨T, h1, h2, h3, hbusy, hno⟩ := (hmain : RMain s sp)
      refine ⟨T, by rw [hcu, hr, h1], by rw [hc, h2], by rw [hl, h3], fun y hy => ?_, fun hall => hno fun y => by rw [← hpc y]; exact hall y⟩
      rw [hpc y] at hy
      rw [hrd y (hne y (busy_ne_idle hy)), ht, hr]; exact hbusy y hy

theorem flush_ok {r : Rd} (hp : r.pos ≤ r.buf.length) (ho : r.out = []) :
    (flush r).out = (r.buf.drop r.pos).take r.size ∧ (flush r).buf.drop (flush r).pos = (r.buf.drop r.pos).drop r.size ∧
    ((flush r).buf = [] ∧ (flush r).pos = 0 ∨ (flush r).pos < (flush r).buf.length) ∧ (flush r).nonblock = r.nonblock ∧
    (flush r).allowed = r.allowed ∧ (flush r).size = r.size ∧ (flush r).pc = r.pc ∧ (flush r).delim = r.delim := by
  have ht : (r.buf.drop r.pos).take (min (r.buf.length - r.pos) r.size) = (r.buf.drop r.pos).take r.size := by
    by_cases h : r.buf.length - r.pos ≤ r.size
    · rw [Nat.min_eq_left h, List.take_of_length_le (by simp), List.take_of_length_le (by simp; omega)]
    · rw [Nat.min_eq_right (by omega)]
  unfold flush
  rw [ho]
  simp only [List.length_nil, Nat.sub_zero, List.nil_append]
  split
  · rename_i h
    refine ⟨ht, ?_, .inl ⟨rfl, rfl⟩, rfl, rfl, rfl, rfl, rfl⟩
    simp only [List.drop_nil, List.drop_drop]
    rw [List.drop_eq_nil_of_le (by omega)]
  · rename_i h
    have hm : min (r.buf.length - r.pos) r.size = r.size := by omega
    refine ⟨ht, ?_, .inr ?_, rfl, rfl, rfl, rfl, rfl⟩
    · simp only [List.drop_drop, hm]
    · show r.pos + _ < r.buf.length
      omega

theorem setR_same (s : St) (h : Hid) (f : Rd → Rd) : (s.setR h f).rd h = f (s.rd h) := by simp [St.setR]

theorem setR_other (s : St) {h x : Hid} (hx : x ≠ h) (f : Rd → Rd) : (s.setR h f).rd x = s.rd x := by simp [St.setR, hx]

/-- What a result must be. -/
def Answer (sp : Spec) : Out → Prop
  | some (h, n, .data d) => n = 0 ∧ d = [] ∨ 0 < n ∧ sp.Allows h n d
  | some (h, _, .eagain) => sp.Nothing h
  | _ => True

/-- Of the main part: only handles past waiting matter. -/
theorem Main.same {s s' : St} {sp sp' : Spec} (hm : Main s sp) (ht : s'.tio = s.tio) (hr : s'.ring = s.ring) (hc : s'.count = s.count)
    (hl : sp'.lines = sp.lines) (hcu : sp'.cur = sp.cur) (hb : ∀ x, (s'.rd x).pc.busy = (s.rd x).pc.busy)
    (hrd : ∀ x, (s.rd x).pc.busy = true → s'.rd x = s.rd x) : Main s' sp' := by
  rw [Main] at hm ⊢
  rw [ht]
  split
  · rename_i hcan
    rw [if_pos hcan] at hm
    obtain ⟨A, k, heads, L, hci, hbusy, hno⟩ := (hm : CMain s sp)
    refine ⟨A, k, heads, L, by rw [ht, hr, hc, hl, hcu]; exact hci, fun y hy => ?_, fun hall => hno fun y => by rw [← hb y]; exact hall y⟩
    rw [hb y] at hy
    rw [hrd y hy, ht]; exact hbusy y hy
  · rename_i hcan
    rw [if_neg hcan] at hm
    obtain ⟨T, h1, h2, h3, hbusy, hno⟩ := (hm : RMain s sp)
    refine ⟨T, by rw [hcu, hr, h1], by rw [hc, h2], by rw [hl, h3], fun y hy => ?_, fun hall => hno fun y => by rw [← hb y]; exact hall y⟩
    rw [hb y] at hy
    rw [hrd y hy, ht, hr]; exact hbusy y hy

/-- A change of the handle whose read goes on. -/
theorem Inv.active {s s' : St} {sp sp' : Spec} (h : Inv s sp) (x : Hid) (hoth : ∀ y, y ≠ x → (s.rd y).pc = .idle) (ht : s'.tio = s.tio)
    (hst : sp'.tio = sp.tio) (hp : s'.panic = s.panic) (hb : s'.blk = s.blk) (hse : s'.sent = s.sent) (hss : sp'.sent = sp.sent)
    (hrd : ∀ y, y ≠ x → s'.rd y = s.rd y) (hre : ∀ y, y ≠ x → sp'.rest y = sp.rest y)
    (hi : (s'.rd x).pc = .idle → IdleOK (s'.rd x) (sp'.rest x)) (ha : (s'.rd x).pc ≠ .idle → ActOK s.tio (s'.rd x) (sp'.rest x))
    (hm : Main s' sp') : Inv s' sp' := by
  refine ⟨by rw [hst, ht, h.tio], by rw [ht]; exact h.good, by rw [hp, h.panic], by rw [hb, h.blk], by rw [hse, hss, h.sent], fun y hy => ?_,
    fun y hy => ?_, fun y hy z hz => ?_, hm⟩
  · by_cases e : y = x
    · subst e; exact hi hy
    · rw [hrd y e, hre y e]; exact h.idle y (hoth y e)
  · by_cases e : y = x
    · subst e; rw [ht]; exact ha hy
    · rw [hrd y e] at hy; exact absurd (hoth y e) hy
  · by_cases e : y = x
    · subst e; rw [hrd z hz]; exact hoth z hz
    · rw [hrd y e] at hy; exact absurd (hoth y e) hy

theorem Inv.begin {s s' : St} {sp : Spec} (h : Inv s sp) {x : Hid} {n : Nat} {o : Out} (hpc : (s.rd x).pc = .idle) (hok : Ok s sp (.begin x n))
    (hs : TtyIn.begin s x n = (s', o)) : Inv s' (sp.next (.begin x n) o) ∧ Answer sp o := by
  obtain ⟨hoth, hraw⟩ := hok
  have hi := h.idle x hpc
  unfold TtyIn.begin at hs
  by_cases hn : n = 0
  · rw [if_pos hn] at hs
    obtain ⟨rfl, rfl⟩ := Prod.mk.inj hs
    refine ⟨?_, .inl ⟨rfl, rfl⟩⟩
    show Inv s (sp.read x 0 [])
    rw [Spec.read, if_pos rfl]; exact h
  rw [if_neg hn] at hs
  obtain ⟨r, hr⟩ : ∃ r : Rd, { s.rd x with size := n, out := [] } = r := ⟨_, rfl⟩
  have hrb : r.buf = (s.rd x).buf := by rw [← hr]
  have hrp : r.pos = (s.rd x).pos := by rw [← hr]
  have hrn : r.nonblock = (s.rd x).nonblock := by rw [← hr]
  have hra : r.allowed = (s.rd x).allowed := by rw [← hr]
  have hrs : r.size = n := by rw [← hr]
  have hro : r.out = [] := by rw [← hr]
  have hrpc : r.pc = .idle := by rw [← hr]; exact hpc
  rw [hr] at hs
  have hfl := flush_ok (r := r) (by rw [hrb, hrp]; rcases hi.pos with ⟨e1, e2⟩ | e <;> omega) hro
  obtain ⟨f1, f2, f3, f4, f5, f6, f7, f8⟩ := hfl
  -- Returns what is left.
  have flushed : (s.rd x).buf ≠ [] → ∀ a : Bool, (a = true ↔ r.nonblock = true ∧ (flush r).buf ≠ []) →
      Inv (s.setR x fun _ => { flush r with allowed := a }) (sp.read x n (flush r).out) ∧ sp.Allows x n (flush r).out := by
    intro hbuf a ha
    have hrest : sp.rest x ≠ [] := by
      rw [← hi.rest]
      have := hi.pos.resolve_left fun e => hbuf e.1
      intro e
      have := congrArg List.length e
      simp at this
      omega
    constructor
    · have esp : sp.read x n (flush r).out = { sp with rest := fun y => if y = x then (sp.rest x).drop n else sp.rest y } := by
        rw [Spec.read, if_neg hn, if_pos hrest]
      rw [esp]
      refine h.handle x hpc (by rw [setR_same]; show (flush r).pc = _; rw [f7, hrpc]) ?_ rfl rfl rfl rfl rfl rfl (fun y hy => setR_other s hy _)
        (fun y hy => if_neg hy) rfl rfl rfl rfl
      rw [setR_same]
      refine ⟨?_, f3, ?_⟩
      · show (flush r).buf.drop (flush r).pos = if x = x then (sp.rest x).drop n else _
        rw [f2, if_pos rfl, hrs, hrb, hrp, hi.rest]
      · show a = true ↔ (flush r).nonblock = true ∧ (flush r).buf ≠ []
        rw [f4]; exact ha
    · rw [Spec.Allows, if_pos hrest, f1, hrs, hrb, hrp, hi.rest]
  by_cases h1 : r.buf ≠ [] ∧ r.nonblock = false
  · rw [if_pos h1] at hs
    obtain ⟨rfl, rfl⟩ := Prod.mk.inj hs
    have hal : r.allowed = false := by
      cases e : r.allowed
      · rfl
      · rw [hra] at e
        have := (hi.allowed.mp e).1
        rw [← hrn, h1.2] at this; exact absurd this (by decide)
    have := flushed (by rw [← hrb]; exact h1.1) false (by rw [h1.2]; simp)
    rw [show ({ flush r with allowed := false } : Rd) = flush r by rw [← hal, ← f5]] at this
    exact ⟨this.1, .inr ⟨by omega, this.2⟩⟩
  rw [if_neg h1] at hs
  by_cases h2 : r.buf ≠ [] ∧ r.allowed = true
  · rw [if_pos h2] at hs
    obtain ⟨rfl, rfl⟩ := Prod.mk.inj hs
    have hnb : r.nonblock = true := by
      cases e : r.nonblock
      · exact absurd ⟨h2.1, e⟩ h1
      · rfl
    have := flushed (by rw [← hrb]; exact h2.1) (decide ((flush r).buf ≠ [])) (by simp [hnb])
    exact ⟨this.1, .inr ⟨by omega, this.2⟩⟩
  rw [if_neg h2] at hs
  obtain ⟨rfl, rfl⟩ := Prod.mk.inj hs
  have hbuf : r.buf = [] := by
    by_cases e : r.buf = []
    · exact e
    · have hnb : r.nonblock = true := by
        cases e' : r.nonblock
        · exact absurd ⟨e, e'⟩ h1
        · rfl
      exact absurd ⟨e, by rw [hra]; exact hi.allowed.mpr ⟨by rw [← hrn]; exact hnb, by rw [← hrb]; exact e⟩⟩ h2
  refine ⟨?_, trivial⟩
  show Inv _ sp
  have hpos : r.pos = 0 := by
    rcases hi.pos with e | e
    · rw [hrp, e.2]
    · rw [hrb] at hbuf; rw [hbuf] at e; simp at e
  refine h.active x hoth rfl rfl rfl rfl rfl rfl (fun y hy => setR_other s hy _) (fun _ _ => rfl) (fun e => ?_) (fun _ => ?_) ?_
  · rw [setR_same] at e; cases e
  · rw [setR_same]
    refine ⟨?_, rfl, ?_, fun hc => ?_, fun _ => ⟨hbuf, hpos, hro⟩⟩
    · rw [← hi.rest, ← hrb, hbuf]; simp
    · show 0 < r.size; omega
    · show _ ≤ r.size
      rw [hrs]; rcases hraw hc with e | e <;> omega
  · refine h.main.same rfl rfl rfl rfl rfl (fun y => ?_) fun y hy => ?_
    · by_cases e : y = x
      · subst e; rw [setR_same, hpc]; rfl
      · rw [setR_other s e]
    · by_cases e : y = x
      · subst e; rw [hpc] at hy; cases hy
      · rw [setR_other s e]

theorem flush_empty {r : Rd} (hb : r.buf = []) (hp : r.pos = 0) : flush r = r := by
  unfold flush
  rw [hb, hp]
  simp only [List.length_nil, Nat.sub_zero, Nat.zero_min, List.drop_nil, List.take_nil, List.append_nil, Nat.add_zero, if_true]
  cases r
  simp_all

theorem Main.canon {s : St} {sp : Spec} (hc : s.tio.canon = true) : Main s sp ↔ CMain s sp := by rw [Main, if_pos hc]

theorem Main.raw {s : St} {sp : Spec} (hc : s.tio.canon = false) : Main s sp ↔ RMain s sp := by rw [Main, if_neg (by rw [hc]; decide)]

/-- The facts about a read that is going on, used for every step of it. -/
structure Going (s : St) (sp : Spec) (x : Hid) : Prop where
  inv : Inv s sp
  act : ActOK s.tio (s.rd x) (sp.rest x)
  oth : ∀ y, y ≠ x → (s.rd y).pc = .idle

theorem Going.none_busy {s : St} {sp : Spec} {x : Hid} (h : Going s sp x) (hb : (s.rd x).pc.busy = false) (y : Hid) : (s.rd y).pc.busy = false := by
  by_cases e : y = x
  · rw [e]; exact hb
  · rw [h.oth y e]; rfl

theorem Going.other {s : St} {sp : Spec} {x y : Hid} (h : Going s sp x) (hb : (s.rd y).pc.busy = true) : y = x := by
  by_cases e : y = x
  · exact e
  · rw [h.oth y e] at hb; cases hb

/-- The read ends without a change of the buffer. -/
theorem Going.stop {s : St} {sp : Spec} {x : Hid} (h : Going s sp x) (hb : (s.rd x).pc.busy = false) (hpc : (s.rd x).pc ≠ .idle) (r : Res) :
    Inv (finish s x r).1 sp := by
  obtain ⟨hbuf, hpos, hout⟩ := h.act.fresh hb
  show Inv (s.setR x fun r => { r with pc := .idle }) sp
  refine h.inv.active x h.oth rfl rfl rfl rfl rfl rfl (fun y hy => setR_other s hy _) (fun _ _ => rfl) (fun _ => ?_) (fun e => ?_) ?_
  · rw [setR_same]
    refine ⟨?_, .inl ⟨hbuf, hpos⟩, ?_⟩
    · show (s.rd x).buf.drop _ = _; rw [hbuf, h.act.rest]; simp
    · show (s.rd x).allowed = true ↔ _ ∧ (s.rd x).buf ≠ []
      rw [h.act.allowed, hbuf]; simp
  · refine absurd ?_ e
    rw [setR_same]
  · refine h.inv.main.same rfl rfl rfl rfl rfl (fun y => ?_) fun y hy => ?_
    · by_cases e : y = x
      · subst e; rw [setR_same]; exact hb.symm
      · rw [setR_other s e]
    · rw [h.none_busy hb y] at hy; cases hy

/-- The read goes on. -/
theorem Going.next {s s' : St} {sp : Spec} {x : Hid} (h : Going s sp x) (ht : s'.tio = s.tio) (hp : s'.panic = s.panic) (hb : s'.blk = s.blk)
    (hse : s'.sent = s.sent) (hrd : ∀ y, y ≠ x → s'.rd y = s.rd y) (hpc : (s'.rd x).pc ≠ .idle) (ha : (s'.rd x).allowed = false)
    (hsz : (s'.rd x).size = (s.rd x).size) (hf : (s'.rd x).pc.busy = false → (s'.rd x).buf = [] ∧ (s'.rd x).pos = 0 ∧ (s'.rd x).out = [])
    (hm : Main s' sp) : Inv s' sp :=
  h.inv.active x h.oth ht rfl hp hb hse rfl hrd (fun _ _ => rfl) (fun e => absurd e hpc)
    (fun _ => ⟨h.act.rest, ha, by rw [hsz]; exact h.act.size, fun hc => by rw [hsz]; exact h.act.raw hc, hf⟩) hm

theorem Going.ready {s : St} {sp : Spec} {x : Hid} (h : Going s sp x) (hb : (s.rd x).pc.busy = false) :
    (TtyIn.ready s (s.rd x) = true ↔ ¬ sp.Nothing x) := by
  have hm := h.inv.main
  rw [TtyIn.ready, Spec.Nothing, h.inv.tio, h.act.allowed, h.act.rest]
  cases hc : s.tio.canon
  · obtain ⟨T, h1, _, _, _, h5⟩ := (Main.raw hc).mp hm
    rw [h5 (h.none_busy hb)] at h1
    rw [if_neg (by decide), if_neg (by decide), h1]
    simp
  · obtain ⟨A, k, heads, L, hci, _, hno⟩ := (Main.canon hc).mp hm
    obtain ⟨rfl, rfl, rfl⟩ := hno (h.none_busy hb)
    rw [if_pos rfl, if_pos rfl, hci.count, hci.lines]
    cases L <;> simp <;> omega

theorem Going.step_top {s s' : St} {sp : Spec} {x : Hid} {sig : Bool} {o : Out} (h : Going s sp x) (hpc : (s.rd x).pc = .top)
    (hs : rdStep s x sig = some (s', o)) : Inv s' (sp.next (.rd x sig) o) ∧ Answer sp o := by
  have hb : (s.rd x).pc.busy = false := by rw [hpc]; rfl
  unfold rdStep at hs
  rw [hpc] at hs
  dsimp only at hs
  split at hs
  · rename_i hc
    obtain ⟨rfl, rfl⟩ := Prod.mk.inj (Option.some.inj hs)
    refine ⟨h.stop hb (by rw [hpc]; decide) .eagain, ?_⟩
    show sp.Nothing x
    exact Classical.byContradiction fun e => by
      have := (h.ready hb).mpr e
      rw [hc.2] at this; cases this
  · obtain ⟨rfl, rfl⟩ := Prod.mk.inj (Option.some.inj hs)
    refine ⟨?_, trivial⟩
    show Inv _ sp
    refine h.next rfl rfl rfl rfl (fun y hy => setR_other s hy _) (by rw [setR_same]; intro e; cases e) (by rw [setR_same]; exact h.act.allowed)
      (by rw [setR_same]) (fun _ => by rw [setR_same]; exact h.act.fresh hb) ?_
    refine h.inv.main.same rfl rfl rfl rfl rfl (fun y => ?_) fun y hy => ?_
    · by_cases e : y = x
      · subst e; rw [setR_same, hpc]; rfl
      · rw [setR_other s e]
    · rw [h.none_busy hb y] at hy; cases hy

theorem Going.step_wait {s s' : St} {sp : Spec} {x : Hid} {sig : Bool} {o : Out} (h : Going s sp x) (hpc : (s.rd x).pc = .wait)
    (hs : rdStep s x sig = some (s', o)) : Inv s' (sp.next (.rd x sig) o) ∧ Answer sp o := by
  have hb : (s.rd x).pc.busy = false := by rw [hpc]; rfl
  obtain ⟨hbuf, hpos, hout⟩ := h.act.fresh hb
  unfold rdStep at hs
  rw [hpc] at hs
  dsimp only at hs
  split at hs
  · rename_i hready
    rw [if_neg (by rw [hbuf, hpos]; simp)] at hs
    obtain ⟨rfl, rfl⟩ := Prod.mk.inj (Option.some.inj hs)
    refine ⟨?_, trivial⟩
    show Inv _ sp
    refine h.next rfl rfl rfl rfl (fun y hy => setR_other s hy _) (by rw [setR_same]; intro e; cases e) (by rw [setR_same]; exact h.act.allowed)
      (by rw [setR_same]) (fun e => by rw [setR_same] at e; cases e) ?_
    cases hc : s.tio.canon
    · obtain ⟨T, h1, h2, h3, _, h5⟩ := (Main.raw hc).mp h.inv.main
      have hT := h5 (h.none_busy hb)
      subst hT
      refine (Main.raw (s := s.setR x _) hc).mpr ⟨[], h1, h2, h3, fun y hy => ?_, fun _ => rfl⟩
      by_cases e : y = x
      · subst e
        rw [setR_same]
        refine ⟨hpos, hout, hbuf, ?_, .inl rfl⟩
        rw [TtyIn.ready, if_neg (by rw [hc]; decide)] at hready
        have := of_decide_eq_true hready
        show s.tio.vmin ≤ 0 + s.ring.length
        omega
      · rw [setR_other s e, h.oth y e] at hy; cases hy
    · obtain ⟨A, k, heads, L, hci, _, hno⟩ := (Main.canon hc).mp h.inv.main
      obtain ⟨rfl, rfl, rfl⟩ := hno (h.none_busy hb)
      have hcount : s.count > 0 := by
        rw [TtyIn.ready, if_pos hc, h.act.allowed] at hready
        simpa using hready
      obtain ⟨p, L', rfl⟩ : ∃ p L', L = p :: L' := by
        cases L with
        | nil => rw [hci.count] at hcount; simp at hcount
        | cons p L' => exact ⟨p, L', rfl⟩
      refine (Main.canon (s := s.setR x _) hc).mpr ⟨p.1 ++ [p.2], 1, [outLine s.tio p], L', ⟨?_, ?_, ?_, fun q hq => hci.ok q (List.mem_cons_of_mem _ hq), hci.cur⟩, fun y hy => ?_, fun e => ?_⟩
      · show s.ring = _; rw [hci.ring, enc_cons]; simp
      · show s.count = _; rw [hci.count]; simp
      · rw [hci.lines]; rfl
      · by_cases e : y = x
        · subst e
          rw [setR_same]
          refine ⟨hpos, hout, p.1, p.2, rfl, rfl, ?_, ?_, rfl⟩
          · show _ = [outLine s.tio ((s.rd y).buf ++ p.1, p.2)]; rw [hbuf]; rfl
          · show LineOK _ ((s.rd y).buf ++ p.1, p.2); rw [hbuf]; exact hci.ok p List.mem_cons_self
        · rw [setR_other s e, h.oth y e] at hy; cases hy
      · have := e x
        rw [setR_same] at this; cases this
  · split at hs
    · obtain ⟨rfl, rfl⟩ := Prod.mk.inj (Option.some.inj hs)
      exact ⟨h.stop hb (by rw [hpc]; decide) .eintr, trivial⟩
    · obtain ⟨rfl, rfl⟩ := Prod.mk.inj (Option.some.inj hs)
      exact ⟨h.inv, trivial⟩

/-- A step of a read past its waiting after which it goes on: in canonical mode. -/
theorem Going.step_canon {s s' : St} {sp : Spec} {x : Hid} {A' : List Byte} {k' : Nat} {heads' : List (List Byte)} {L : List (List Byte × Byte)}
    (h : Going s sp x) (hc : s.tio.canon = true) (ht : s'.tio = s.tio) (hp : s'.panic = s.panic) (hb : s'.blk = s.blk) (hse : s'.sent = s.sent)
    (hrd : ∀ y, y ≠ x → s'.rd y = s.rd y) (hpc : (s'.rd x).pc.busy = true) (ha : (s'.rd x).allowed = (s.rd x).allowed)
    (hsz : (s'.rd x).size = (s.rd x).size) (hci : CI s.tio s'.ring s'.count sp.lines sp.cur A' k' heads' L)
    (hh : Head s.tio (s'.rd x) A' k' heads') : Inv s' sp := by
  refine h.next ht hp hb hse hrd (busy_ne_idle hpc) (by rw [ha]; exact h.act.allowed) hsz (fun e => by rw [hpc] at e; cases e) ?_
  refine (Main.canon (by rw [ht]; exact hc)).mpr ⟨A', k', heads', L, by rw [ht]; exact hci, fun y hy => ?_, fun e => ?_⟩
  · by_cases e : y = x
    · subst e; rw [ht]; exact hh
    · rw [hrd y e, h.oth y e] at hy; cases hy
  · rw [e x] at hpc; cases hpc

/-- The same in raw mode. -/
theorem Going.step_raw {s s' : St} {sp : Spec} {x : Hid} {T : List Byte}
    (h : Going s sp x) (hc : s.tio.canon = false) (ht : s'.tio = s.tio) (hp : s'.panic = s.panic) (hb : s'.blk = s.blk) (hse : s'.sent = s.sent)
    (hrd : ∀ y, y ≠ x → s'.rd y = s.rd y) (hpc : (s'.rd x).pc.busy = true) (ha : (s'.rd x).allowed = (s.rd x).allowed)
    (hsz : (s'.rd x).size = (s.rd x).size) (hcur : sp.cur = T ++ s'.ring) (hcount : s'.count = 0) (hl : sp.lines = [])
    (hh : HeadR s.tio.vmin (s'.rd x) T s'.ring) : Inv s' sp := by
  refine h.next ht hp hb hse hrd (busy_ne_idle hpc) (by rw [ha]; exact h.act.allowed) hsz (fun e => by rw [hpc] at e; cases e) ?_
  refine (Main.raw (by rw [ht]; exact hc)).mpr ⟨T, hcur, hcount, hl, fun y hy => ?_, fun e => ?_⟩
  · by_cases e : y = x
    · subst e; rw [ht]; exact hh
    · rw [hrd y e, h.oth y e] at hy; cases hy
  · rw [e x] at hpc; cases hpc

theorem Going.step_fill {s s' : St} {sp : Spec} {x : Hid} {sig : Bool} {o : Out} (h : Going s sp x) (hpc : (s.rd x).pc = .fill)
    (hs : rdStep s x sig = some (s', o)) : Inv s' (sp.next (.rd x sig) o) ∧ Answer sp o := by
  have hb : (s.rd x).pc.busy = true := by rw [hpc]; rfl
  unfold rdStep at hs
  rw [hpc] at hs
  dsimp only at hs
  cases hc : s.tio.canon
  · obtain ⟨T, h1, h2, h3, h4, _⟩ := (Main.raw hc).mp h.inv.main
    obtain ⟨k1, k2, k3, k4, k5⟩ := h4 x hb
    rw [hpc] at k5
    dsimp only at k5
    have hv := h.inv.good.2.2
    split at hs
    · rename_i hcond
      obtain ⟨rfl, rfl⟩ := Prod.mk.inj (Option.some.inj hs)
      exact ⟨h.step_raw (s' := s.setR x _) (T := T) hc rfl rfl rfl rfl (fun y hy => setR_other s hy _) (by rw [setR_same]; rfl) (by rw [setR_same]) (by rw [setR_same])
        h1 h2 h3 (by rw [setR_same]; exact ⟨k1, k2, k3, k4, k5, hcond.1⟩), trivial⟩
    · rename_i hcond
      have hring : s.ring = [] := by
        refine Classical.byContradiction fun e => hcond ⟨e, ?_⟩
        rw [k3]
        show T.length < 4096
        rcases k5 with e | e
        · rw [e]; decide
        · omega
      obtain ⟨rfl, rfl⟩ := Prod.mk.inj (Option.some.inj hs)
      refine ⟨h.step_raw (s' := s.setR x _) (T := T) hc rfl rfl rfl rfl (fun y hy => setR_other s hy _) (by rw [setR_same]; rfl) (by rw [setR_same]) (by rw [setR_same])
        h1 h2 h3 ?_, trivial⟩
      rw [setR_same]
      refine ⟨k1, k2, k3, k4, ?_⟩
      rw [hring] at k4
      simp only [List.length_nil, Nat.add_zero] at k4
      refine ⟨k4, ?_⟩
      rcases k5 with e | e
      · right; rw [e]; decide
      · left; omega
  · obtain ⟨A, k, heads, L, hci, hh, _⟩ := (Main.canon hc).mp h.inv.main
    obtain ⟨k1, k2, k3⟩ := hh x hb
    rw [hpc] at k3
    obtain ⟨b, d, rfl, rfl, rfl, hl, hd⟩ := k3
    rw [if_pos ?_] at hs
    · obtain ⟨rfl, rfl⟩ := Prod.mk.inj (Option.some.inj hs)
      exact ⟨h.step_canon (s' := s.setR x _) hc rfl rfl rfl rfl (fun y hy => setR_other s hy _) (by rw [setR_same]; rfl) (by rw [setR_same]) (by rw [setR_same])
        hci (by rw [setR_same]; exact ⟨k1, k2, b, d, rfl, rfl, rfl, hl, hd⟩), trivial⟩
    · refine ⟨by rw [hci.ring]; simp, ?_⟩
      have := hl.2.2
      simp only [List.length_append] at this
      show (s.rd x).buf.length < 4096
      have hcap : CAP = 1024 := rfl
      omega

theorem Going.step_pop {s s' : St} {sp : Spec} {x : Hid} {sig : Bool} {o : Out} (h : Going s sp x) (hpc : (s.rd x).pc = .pop)
    (hs : rdStep s x sig = some (s', o)) : Inv s' (sp.next (.rd x sig) o) ∧ Answer sp o := by
  have hb : (s.rd x).pc.busy = true := by rw [hpc]; rfl
  unfold rdStep at hs
  rw [hpc] at hs
  dsimp only at hs
  cases hc : s.tio.canon
  · obtain ⟨T, h1, h2, h3, h4, _⟩ := (Main.raw hc).mp h.inv.main
    obtain ⟨k1, k2, k3, k4, k5⟩ := h4 x hb
    rw [hpc] at k5
    obtain ⟨k5, k6⟩ := k5
    cases hring : s.ring with
    | nil => exact absurd hring k6
    | cons c rs =>
      rw [hring] at hs
      obtain ⟨rfl, rfl⟩ := Prod.mk.inj (Option.some.inj hs)
      refine ⟨h.step_raw (s' := St.setR { s with ring := rs } x _) (T := T ++ [c]) hc rfl rfl rfl rfl (fun y hy => setR_other _ hy _) (by rw [setR_same]; rfl)
        (by rw [setR_same]) (by rw [setR_same]) ?_ h2 h3 ?_, trivial⟩
      · show sp.cur = T ++ [c] ++ rs; rw [h1, hring]; simp
      rw [setR_same]
      refine ⟨k1, k2, ?_, ?_, ?_, ?_⟩
      · show (s.rd x).buf ++ [c] = _; rw [k3]
      · rw [hring] at k4
        simp only [List.length_append, List.length_cons, List.length_nil] at k4 ⊢
        show s.tio.vmin ≤ T.length + (0 + 1) + rs.length
        omega
      · simp
      · simp only [List.length_append, List.length_cons, List.length_nil]
        rcases k5 with e | e
        · right; rw [e]; decide
        · left; show T.length + (0 + 1) ≤ s.tio.vmin; omega
  · obtain ⟨A, k, heads, L, hci, hh, _⟩ := (Main.canon hc).mp h.inv.main
    obtain ⟨k1, k2, k3⟩ := hh x hb
    rw [hpc] at k3
    obtain ⟨b, d, rfl, rfl, rfl, hl, hd⟩ := k3
    cases b with
    | nil =>
      have hring : s.ring = d :: (enc L ++ sp.cur) := by rw [hci.ring]; simp
      rw [hring] at hs
      obtain ⟨rfl, rfl⟩ := Prod.mk.inj (Option.some.inj hs)
      refine ⟨h.step_canon (s' := St.setR { s with ring := enc L ++ sp.cur } x _) (A' := []) hc rfl rfl rfl rfl (fun y hy => setR_other _ hy _) (by rw [setR_same]; rfl) (by rw [setR_same]) (by rw [setR_same])
        ⟨by simp [St.setR]; rfl, hci.count, hci.lines, hci.ok, hci.cur⟩ ?_, trivial⟩
      rw [setR_same]
      refine ⟨k1, k2, .inl ⟨(s.rd x).buf, rfl, rfl, rfl, ?_, ?_, hd⟩⟩
      · simp
      · simpa using hl
    | cons c b =>
      have hring : s.ring = c :: (b ++ [d] ++ enc L ++ sp.cur) := by rw [hci.ring]; simp
      rw [hring] at hs
      obtain ⟨rfl, rfl⟩ := Prod.mk.inj (Option.some.inj hs)
      refine ⟨h.step_canon (s' := St.setR { s with ring := b ++ [d] ++ enc L ++ sp.cur } x _) (A' := b ++ [d]) hc rfl rfl rfl rfl (fun y hy => setR_other _ hy _) (by rw [setR_same]; rfl) (by rw [setR_same]) (by rw [setR_same])
        ⟨by simp [St.setR]; rfl, hci.count, hci.lines, hci.ok, hci.cur⟩ ?_, trivial⟩
      rw [setR_same]
      refine ⟨k1, k2, .inr ⟨?_, b, d, rfl, rfl, ?_, ?_, hd⟩⟩
      · exact hl.1 c (by simp)
      · simp
      · simpa using hl

theorem Going.step_got {s s' : St} {sp : Spec} {x : Hid} {sig : Bool} {o : Out} {c : Byte} (h : Going s sp x) (hpc : (s.rd x).pc = .got c)
    (hs : rdStep s x sig = some (s', o)) : Inv s' (sp.next (.rd x sig) o) ∧ Answer sp o := by
  have hb : (s.rd x).pc.busy = true := by rw [hpc]; rfl
  unfold rdStep at hs
  rw [hpc] at hs
  dsimp only at hs
  have hs := Option.some.inj hs
  unfold account at hs
  cases hc : s.tio.canon
  · obtain ⟨T, h1, h2, h3, h4, _⟩ := (Main.raw hc).mp h.inv.main
    obtain ⟨k1, k2, k3, k4, k5⟩ := h4 x hb
    rw [hpc] at k5
    obtain ⟨k5, k6⟩ := k5
    rw [if_neg (by rw [hc]; decide)] at hs
    split at hs
    · rename_i hv
      rw [k3] at hv
      obtain ⟨rfl, rfl⟩ := Prod.mk.inj hs
      exact ⟨h.step_raw (s' := s.setR x _) (T := T) hc rfl rfl rfl rfl (fun y hy => setR_other _ hy _) (by rw [setR_same]; rfl)
        (by rw [setR_same]) (by rw [setR_same]) h1 h2 h3 (by rw [setR_same]; exact ⟨k1, k2, k3, k4, hv, k6⟩), trivial⟩
    · rename_i hv
      rw [k3] at hv
      obtain ⟨rfl, rfl⟩ := Prod.mk.inj hs
      exact ⟨h.step_raw (s' := s.setR x _) (T := T) hc rfl rfl rfl rfl (fun y hy => setR_other _ hy _) (by rw [setR_same]; rfl)
        (by rw [setR_same]) (by rw [setR_same]) h1 h2 h3 (by rw [setR_same]; exact ⟨k1, k2, k3, k4, .inr (by omega)⟩), trivial⟩
  · obtain ⟨A, k, heads, L, hci, hh, _⟩ := (Main.canon hc).mp h.inv.main
    obtain ⟨k1, k2, k3⟩ := hh x hb
    rw [hpc] at k3
    rw [if_pos hc] at hs
    rcases k3 with ⟨b, rfl, rfl, hbuf, rfl, hl, hd⟩ | ⟨hnd, b, d, rfl, rfl, rfl, hl, hd⟩
    · rw [if_pos hl.2.1, if_pos (by rw [hci.count]; omega)] at hs
      obtain ⟨rfl, rfl⟩ := Prod.mk.inj hs
      refine ⟨h.step_canon (s' := St.setR { s with count := s.count - 1 } x _) (A' := []) (k' := 0) (heads' := [outLine s.tio (b, c)]) (L := L) hc rfl rfl rfl rfl (fun y hy => setR_other _ hy _) (by rw [setR_same]; rfl) (by rw [setR_same]) (by rw [setR_same])
        ⟨hci.ring, ?_, hci.lines, hci.ok, hci.cur⟩ ?_, trivial⟩
      · show s.count - 1 = _; rw [hci.count]; simp
      rw [setR_same]
      refine ⟨k1, k2, rfl, rfl, ?_, rfl⟩
      · show [outLine s.tio (b, c)] = [if c = s.tio.veof then (s.rd x).buf.dropLast else (s.rd x).buf]
        rw [hbuf, outLine]; simp
    · rw [if_neg (by rw [hnd]; decide)] at hs
      obtain ⟨rfl, rfl⟩ := Prod.mk.inj hs
      exact ⟨h.step_canon (s' := s.setR x _) hc rfl rfl rfl rfl (fun y hy => setR_other _ hy _) (by rw [setR_same]; rfl) (by rw [setR_same]) (by rw [setR_same])
        hci (by rw [setR_same]; exact ⟨k1, k2, b, d, rfl, rfl, rfl, hl, hd⟩), trivial⟩

/-- A read ends with data. -/
theorem Going.done {s s' : St} {sp sp' : Spec} {x : Hid} (h : Going s sp x) (ht : s'.tio = s.tio) (hst : sp'.tio = sp.tio) (hp : s'.panic = s.panic)
    (hb : s'.blk = s.blk) (hse : s'.sent = s.sent) (hss : sp'.sent = sp.sent) (hrd : ∀ y, y ≠ x → s'.rd y = s.rd y) (hpc : (s'.rd x).pc = .idle)
    (hre : ∀ y, y ≠ x → sp'.rest y = sp.rest y) (hi : IdleOK (s'.rd x) (sp'.rest x))
    (hc : s.tio.canon = true → ∃ L, CI s.tio s'.ring s'.count sp'.lines sp'.cur [] 0 [] L)
    (hr : s.tio.canon = false → sp'.cur = s'.ring ∧ s'.count = 0 ∧ sp'.lines = []) : Inv s' sp' := by
  have hno : ∀ y, (s'.rd y).pc.busy = false := by
    intro y
    by_cases e : y = x
    · rw [e, hpc]; rfl
    · rw [hrd y e, h.oth y e]; rfl
  refine h.inv.active x h.oth ht hst hp hb hse hss hrd hre (fun _ => hi) (fun e => absurd hpc e) ?_
  cases hcan : s.tio.canon
  · obtain ⟨h1, h2, h3⟩ := hr hcan
    exact (Main.raw (by rw [ht]; exact hcan)).mpr ⟨[], h1, h2, h3, fun y hy => by (rw [hno y] at hy; cases hy), fun _ => rfl⟩
  · obtain ⟨L, hci⟩ := hc hcan
    exact (Main.canon (by rw [ht]; exact hcan)).mpr ⟨[], 0, [], L, by rw [ht]; exact hci, fun y hy => by (rw [hno y] at hy; cases hy), fun _ => ⟨rfl, rfl, rfl⟩⟩

theorem flush2_flush {r : Rd} (hp : r.pos = 0) (ho : r.out = []) (ha : r.allowed = false) {r' : Rd}
    (hr : r' = flush2 (if r.nonblock = false then flush r else r)) :
    r'.out = r.buf.take r.size ∧ IdleOK { r' with pc := .idle } (r.buf.drop r.size) := by
  obtain ⟨f1, f2, f3, f4, f5, _⟩ := flush_ok (r := r) (by omega) ho
  rw [hp] at f1 f2
  cases hnb : r.nonblock
  · rw [hnb, if_pos rfl, flush2, f4, hnb, if_neg (by decide)] at hr
    subst hr
    refine ⟨f1, f2, f3, ?_⟩
    show (flush r).allowed = true ↔ (flush r).nonblock = true ∧ _
    rw [f5, ha, f4, hnb]; simp
  · rw [hnb, if_neg (by decide), flush2, hnb, if_pos rfl] at hr
    subst hr
    refine ⟨f1, f2, f3, ?_⟩
    show (if (flush r).buf ≠ [] then true else (flush r).allowed) = true ↔ (flush r).nonblock = true ∧ (flush r).buf ≠ []
    rw [f5, ha, f4, hnb]
    split <;> simp_all

theorem Going.step_flush {s s' : St} {sp : Spec} {x : Hid} {sig : Bool} {o : Out} (h : Going s sp x) (hpc : (s.rd x).pc = .flush)
    (hs : rdStep s x sig = some (s', o)) : (Inv s' (sp.next (.rd x sig) o) ∧ Answer sp o) ∧ o = some (x, (s.rd x).size, .data ((s.rd x).buf.take (s.rd x).size)) := by
  have hb : (s.rd x).pc.busy = true := by rw [hpc]; rfl
  have hsz := h.act.size
  have hrest := h.act.rest
  unfold rdStep at hs
  rw [hpc] at hs
  dsimp only at hs
  have hs := Option.some.inj hs
  unfold endLoop at hs
  dsimp only at hs
  cases hc : s.tio.canon
  · obtain ⟨T, h1, h2, h3, h4, _⟩ := (Main.raw hc).mp h.inv.main
    obtain ⟨k1, k2, k3, k4, k5⟩ := h4 x hb
    rw [hpc] at k5
    obtain ⟨k5, k6⟩ := k5
    have hTs : T.length ≤ (s.rd x).size := by
      have := h.act.raw hc
      omega
    obtain ⟨f1, f2, f3, f4, f5, f6, _⟩ := flush_ok (r := s.rd x) (by omega) k2
    rw [k1, k3] at f1 f2
    simp only [List.drop_zero] at f1 f2
    rw [List.take_of_length_le hTs] at f1
    rw [List.drop_of_length_le hTs] at f2
    have f7 : (flush (s.rd x)).buf = [] ∧ (flush (s.rd x)).pos = 0 := by
      rcases f3 with e | e
      · exact e
      · have := congrArg List.length f2
        simp only [List.length_drop, List.length_nil] at this
        omega
    have hf1 : flush1 s (s.rd x) = flush (s.rd x) := by rw [flush1, if_pos (.inr hc)]
    have hf2 : flush2 (flush (s.rd x)) = flush (s.rd x) := by
      rw [flush2]
      split
      · rw [flush_empty f7.1 f7.2, f7.1]
        rw [if_neg (by simp)]
      · rfl
    rw [hf1, if_neg (by rw [h2]; decide), if_pos (by rw [shouldReturn, if_neg (by rw [hc]; decide), f1]; exact decide_eq_true k5), hf2, f1] at hs
    obtain ⟨rfl, rfl⟩ := Prod.mk.inj hs
    have hsp : sp.next (.rd x sig) (some (x, ((s.setR x fun _ => flush (s.rd x)).rd x).size, .data T)) = { sp with cur := sp.cur.drop T.length } := by
      show sp.read x _ T = _
      rw [setR_same, f6, Spec.read, if_neg (by omega), if_neg (by rw [hrest]; simp), h.inv.tio, if_neg (by rw [hc]; decide)]
    refine ⟨⟨?_, ?_⟩, by rw [setR_same, f6, k3, List.take_of_length_le hTs]⟩
    · rw [hsp]
      refine h.done (s' := St.setR (s.setR x _) x _) rfl rfl rfl rfl rfl rfl (fun y hy => by rw [setR_other _ hy, setR_other _ hy]) (by rw [setR_same]) (fun _ _ => rfl) ?_
        (fun e => by rw [hc] at e; cases e) fun _ => ⟨?_, h2, h3⟩
      · rw [setR_same, setR_same]
        show IdleOK _ (sp.rest x)
        rw [hrest]
        refine ⟨?_, .inl f7, ?_⟩
        · show (flush (s.rd x)).buf.drop _ = []; rw [f7.1]; simp
        · show (flush (s.rd x)).allowed = true ↔ _ ∧ (flush (s.rd x)).buf ≠ []
          rw [f5, f7.1, h.act.allowed]; simp
      · show sp.cur.drop T.length = s.ring
        rw [h1]; simp
    · refine .inr ⟨by rw [setR_same, f6]; exact hsz, ?_⟩
      rw [Spec.Allows, if_neg (by rw [hrest]; simp), h.inv.tio, if_neg (by rw [hc]; decide)]
      exact ⟨⟨s.ring, h1.symm⟩, k5, by rw [setR_same, f6]; exact hTs⟩
  · obtain ⟨A, k, heads, L, hci, hh, _⟩ := (Main.canon hc).mp h.inv.main
    obtain ⟨k1, k2, k3⟩ := hh x hb
    rw [hpc] at k3
    obtain ⟨rfl, rfl, rfl, hd⟩ := k3
    obtain ⟨_, _, _, f4, f5, f6, _, f8⟩ := flush_ok (r := s.rd x) (by omega) k2
    have hf1 : flush1 s (s.rd x) = if (s.rd x).nonblock = false then flush (s.rd x) else s.rd x := by
      rw [flush1, hc]; simp
    obtain ⟨g1, g2⟩ := flush2_flush k1 k2 h.act.allowed rfl
    rw [hf1, if_neg (by rw [hci.count]; omega), if_pos (by
      rw [shouldReturn, if_pos hc]
      have : (if (s.rd x).nonblock = false then flush (s.rd x) else s.rd x).delim = true := by split <;> simp_all
      rw [this]; rfl), g1] at hs
    have g3 : (flush2 (if (s.rd x).nonblock = false then flush (s.rd x) else s.rd x)).size = (s.rd x).size := by
      rw [flush2]
      split
      · split
        · obtain ⟨_, _, _, q4, _⟩ := flush_ok (r := s.rd x) (by omega) k2
          simp_all
        · exact f6
      · split
        · exact f6
        · rfl
    generalize flush2 (if (s.rd x).nonblock = false then flush (s.rd x) else s.rd x) = r' at hs g1 g2 g3
    obtain ⟨rfl, rfl⟩ := Prod.mk.inj hs
    have hlines : sp.lines = (s.rd x).buf :: L.map (outLine s.tio) := hci.lines
    have hsp : sp.next (.rd x sig) (some (x, ((s.setR x fun _ => r').rd x).size, .data ((s.rd x).buf.take (s.rd x).size))) =
        { sp with lines := L.map (outLine s.tio), rest := fun y => if y = x then (s.rd x).buf.drop (s.rd x).size else sp.rest y } := by
      show sp.read x _ _ = _
      rw [setR_same, g3, Spec.read, if_neg (by omega), if_neg (by rw [hrest]; simp), h.inv.tio, if_pos hc, hlines]
      rfl
    refine ⟨⟨?_, ?_⟩, by rw [setR_same, g3]⟩
    · rw [hsp]
      refine h.done (s' := St.setR (s.setR x _) x _) rfl rfl rfl rfl rfl rfl (fun y hy => by rw [setR_other _ hy, setR_other _ hy]) (by rw [setR_same])
        (fun y hy => by simp [hy]) ?_ (fun _ => ⟨L, hci.ring, hci.count, rfl, hci.ok, hci.cur⟩) (fun e => by rw [hc] at e; cases e)
      rw [setR_same, setR_same]
      show IdleOK _ (if x = x then _ else _)
      rw [if_pos rfl]
      exact g2
    · refine .inr ⟨by rw [setR_same, g3]; exact hsz, ?_⟩
      rw [Spec.Allows, if_neg (by rw [hrest]; simp), h.inv.tio, if_pos hc]
      exact ⟨_, _, hlines, by rw [setR_same, g3]⟩

theorem Inv.rd {s s' : St} {sp : Spec} {x : Hid} {sig : Bool} {o : Out} (h : Inv s sp) (hs : rdStep s x sig = some (s', o)) :
    Inv s' (sp.next (.rd x sig) o) ∧ Answer sp o := by
  have hpc : (s.rd x).pc ≠ .idle := fun e => by
    unfold rdStep at hs
    rw [e] at hs
    cases hs
  have hg : Going s sp x := ⟨h, h.act x hpc, h.one x hpc⟩
  cases hp : (s.rd x).pc with
  | idle => exact absurd hp hpc
  | top => exact hg.step_top hp hs
  | wait => exact hg.step_wait hp hs
  | fill => exact hg.step_fill hp hs
  | pop => exact hg.step_pop hp hs
  | got c => exact hg.step_got hp hs
  | flush => exact (hg.step_flush hp hs).1

theorem Inv.dup {s : St} {sp : Spec} (h : Inv s sp) {x y : Hid} (hx : (s.rd x).pc = .idle) (hy : (s.rd y).pc = .idle) (hne : x ≠ y) (hok : sp.rest x = []) :
    Inv (TtyIn.dup s x y) { sp with rest := fun z => if z = y then [] else sp.rest z } := by
  have hi := h.idle x hx
  refine h.handle y hy (by simp [TtyIn.dup]) ?_ rfl rfl rfl rfl rfl rfl (fun z hz => by simp [TtyIn.dup, hz]) (fun z hz => by simp [hz]) rfl rfl rfl rfl
  have : (TtyIn.dup s x y).rd y = { s.rd x with pc := .idle } := by simp [TtyIn.dup]
  rw [this]
  show IdleOK _ (if y = y then [] else sp.rest y)
  rw [if_pos rfl]
  have h1 := hi.rest
  rw [hok] at h1
  exact ⟨h1, hi.pos, hi.allowed⟩

theorem Inv.opn {s : St} {sp : Spec} (h : Inv s sp) {x : Hid} (nb : Bool) (hx : (s.rd x).pc = .idle) :
    Inv (s.setR x fun _ => rd0 nb) { sp with rest := fun z => if z = x then [] else sp.rest z } := by
  refine h.handle x hx (by rw [setR_same]; rfl) ?_ rfl rfl rfl rfl rfl rfl (fun z hz => setR_other s hz _) (fun z hz => by simp [hz]) rfl rfl rfl rfl
  rw [setR_same]
  show IdleOK _ (if x = x then [] else sp.rest x)
  rw [if_pos rfl]
  exact ⟨rfl, .inl ⟨rfl, rfl⟩, by simp [rd0]⟩

theorem Inv.step {s s' : St} {sp : Spec} {e : Ev} {o : Out} (h : Inv s sp) (hok : Ok s sp e) (hs : TtyIn.step s e = some (s', o)) :
    Inv s' (sp.next e o) ∧ Answer sp o := by
  rw [TtyIn.step, if_neg (by rw [h.panic]; decide)] at hs
  cases e with
  | key c b =>
    simp only [step1] at hs
    rw [if_pos h.blk] at hs
    obtain ⟨rfl, rfl⟩ := Prod.mk.inj (Option.some.inj hs)
    exact ⟨h.key b hok, trivial⟩
  | seq bs =>
    simp only [step1] at hs
    rw [if_pos h.blk] at hs
    obtain ⟨rfl, rfl⟩ := Prod.mk.inj (Option.some.inj hs)
    exact ⟨Inv.seq bs h hok, trivial⟩
  | retry =>
    simp only [step1] at hs
    rw [h.blk] at hs
    cases hs
  | begin x n =>
    simp only [step1] at hs
    split at hs
    · rename_i hpc
      exact h.begin hpc hok (Option.some.inj hs)
    · cases hs
  | rd x sig => exact h.rd hs
  | set t f =>
    obtain ⟨rfl, rfl⟩ := Prod.mk.inj (Option.some.inj hs)
    exact ⟨h.set hok, trivial⟩
  | dup x y =>
    simp only [step1] at hs
    split at hs
    · rename_i hc
      obtain ⟨rfl, rfl⟩ := Prod.mk.inj (Option.some.inj hs)
      exact ⟨h.dup hc.1 hc.2.1 hc.2.2 hok, trivial⟩
    · cases hs
  | opn x nb =>
    simp only [step1] at hs
    split at hs
    · rename_i hc
      obtain ⟨rfl, rfl⟩ := Prod.mk.inj (Option.some.inj hs)
      exact ⟨h.opn nb hc, trivial⟩
    · cases hs

theorem ReachP.inv {t0 : Tio} {nb : Hid → Bool} {s : St} {sp : Spec} (hg : Good t0) (h : ReachP Ok t0 nb s sp) : Inv s sp := by
  induction h with
  | init => exact Inv.init hg nb
  | step e _ hok hs ih => exact (ih.step hok hs).1

/-- How far the read is from its end. -/
def left (s : St) (x : Hid) : Nat := 3 * s.ring.length + match (s.rd x).pc with
  | .idle => 0
  | .top => 6
  | .wait => 5
  | .fill => 3
  | .pop => 2
  | .got _ => 4
  | .flush => 1

/-- The read is going to have something, in raw mode. -/
def Full (s : St) (x : Hid) : Prop := s.tio.canon = false ∧ match (s.rd x).pc with
  | .got _ | .flush => (s.rd x).buf ≠ []
  | _ => s.ring ≠ [] ∨ (s.rd x).buf ≠ []

theorem Inv.advance {s s' : St} {sp : Spec} {x : Hid} {sig : Bool} {o : Out} (h : Inv s sp) (hpc : (s.rd x).pc ≠ .idle)
    (hr : (s.rd x).pc.busy = true ∨ ¬ sp.Nothing x) (hs : rdStep s x sig = some (s', o)) :
    (∃ d, o = some (x, (s.rd x).size, .data d) ∧ (Full s x → d ≠ [])) ∨
    o = none ∧ left s' x < left s x ∧ (s'.rd x).pc ≠ .idle ∧ ((s'.rd x).pc.busy = true ∨ ¬ sp.Nothing x) ∧ (Full s x → Full s' x) ∧
      (s'.rd x).size = (s.rd x).size := by
  have hg : Going s sp x := ⟨h, h.act x hpc, h.one x hpc⟩
  have hnp := (h.rd hs).1.panic
  cases hp : (s.rd x).pc with
  | idle => exact absurd hp hpc
  | top =>
    have hb : (s.rd x).pc.busy = false := by rw [hp]; rfl
    have hn : ¬ sp.Nothing x := hr.resolve_left (by rw [hb]; decide)
    have hready := (hg.ready hb).mpr hn
    unfold rdStep at hs
    rw [hp] at hs
    dsimp only at hs
    rw [if_neg (by rw [hready]; simp)] at hs
    obtain ⟨rfl, rfl⟩ := Prod.mk.inj (Option.some.inj hs)
    refine .inr ⟨rfl, ?_, by (rw [setR_same]; intro e; cases e), .inr hn, fun hf => ⟨hf.1, ?_⟩, by rw [setR_same]⟩
    · rw [left, left, setR_same, hp]; simp [St.setR]
    · have := hf.2
      rw [hp] at this
      rw [setR_same]; exact this
  | wait =>
    have hb : (s.rd x).pc.busy = false := by rw [hp]; rfl
    have hn : ¬ sp.Nothing x := hr.resolve_left (by rw [hb]; decide)
    have hready := (hg.ready hb).mpr hn
    obtain ⟨hbuf, hpos, _⟩ := hg.act.fresh hb
    unfold rdStep at hs
    rw [hp] at hs
    dsimp only at hs
    rw [if_pos hready, if_neg (by rw [hbuf, hpos]; simp)] at hs
    obtain ⟨rfl, rfl⟩ := Prod.mk.inj (Option.some.inj hs)
    refine .inr ⟨rfl, ?_, by (rw [setR_same]; intro e; cases e), .inr hn, fun hf => ⟨hf.1, ?_⟩, by rw [setR_same]⟩
    · rw [left, left, setR_same, hp]; simp [St.setR]
    · have := hf.2
      rw [hp] at this
      rw [setR_same]; exact this
  | fill =>
    unfold rdStep at hs
    rw [hp] at hs
    dsimp only at hs
    split at hs
    · rename_i hc
      obtain ⟨rfl, rfl⟩ := Prod.mk.inj (Option.some.inj hs)
      refine .inr ⟨rfl, ?_, by (rw [setR_same]; intro e; cases e), .inl (by rw [setR_same]; rfl), fun hf => ⟨hf.1, ?_⟩, by rw [setR_same]⟩
      · rw [left, left, setR_same, hp]; simp [St.setR]
      · have := hf.2
        rw [hp] at this
        rw [setR_same]; exact this
    · rename_i hc
      obtain ⟨rfl, rfl⟩ := Prod.mk.inj (Option.some.inj hs)
      refine .inr ⟨rfl, ?_, by (rw [setR_same]; intro e; cases e), .inl (by rw [setR_same]; rfl), fun hf => ⟨hf.1, ?_⟩, by rw [setR_same]⟩
      · rw [left, left, setR_same, hp]; simp [St.setR]
      · have := hf.2
        rw [hp] at this
        rw [setR_same]
        show (s.rd x).buf ≠ []
        rcases this with e | e
        · intro hb
          exact hc ⟨e, by rw [hb]; decide⟩
        · exact e
  | pop =>
    unfold rdStep at hs
    rw [hp] at hs
    dsimp only at hs
    cases hring : s.ring with
    | nil =>
      rw [hring] at hs
      obtain ⟨rfl, rfl⟩ := Prod.mk.inj (Option.some.inj hs)
      cases hnp
    | cons c rs =>
      rw [hring] at hs
      obtain ⟨rfl, rfl⟩ := Prod.mk.inj (Option.some.inj hs)
      refine .inr ⟨rfl, ?_, by (rw [setR_same]; intro e; cases e), .inl (by rw [setR_same]; rfl), fun hf => ⟨hf.1, ?_⟩, by rw [setR_same]⟩
      · rw [left, left, setR_same, hp, hring]; simp [St.setR]; omega
      · rw [setR_same]; show (s.rd x).buf ++ [c] ≠ []; simp
  | got c =>
    unfold rdStep at hs
    rw [hp] at hs
    have hs := Option.some.inj hs
    unfold account at hs
    cases hc : s.tio.canon
    · rw [if_neg (by rw [hc]; decide)] at hs
      split at hs
      · obtain ⟨rfl, rfl⟩ := Prod.mk.inj hs
        refine .inr ⟨rfl, ?_, by (rw [setR_same]; intro e; cases e), .inl (by rw [setR_same]; rfl), fun hf => ⟨hf.1, ?_⟩, by rw [setR_same]⟩
        · rw [left, left, setR_same, hp]; simp [St.setR]
        · have := hf.2
          rw [hp] at this
          rw [setR_same]; exact this
      · obtain ⟨rfl, rfl⟩ := Prod.mk.inj hs
        refine .inr ⟨rfl, ?_, by (rw [setR_same]; intro e; cases e), .inl (by rw [setR_same]; rfl), fun hf => ⟨hf.1, ?_⟩, by rw [setR_same]⟩
        · rw [left, left, setR_same, hp]; simp [St.setR]
        · have := hf.2
          rw [hp] at this
          rw [setR_same]; exact .inr this
    · rw [if_pos hc] at hs
      split at hs
      · split at hs
        · obtain ⟨rfl, rfl⟩ := Prod.mk.inj hs
          refine .inr ⟨rfl, ?_, by (rw [setR_same]; intro e; cases e), .inl (by rw [setR_same]; rfl), fun hf => ?_, by rw [setR_same]⟩
          · rw [left, left, setR_same, hp]; simp [St.setR]
          · have := hf.1
            rw [hc] at this; cases this
        · obtain ⟨rfl, rfl⟩ := Prod.mk.inj hs
          cases hnp
      · obtain ⟨rfl, rfl⟩ := Prod.mk.inj hs
        refine .inr ⟨rfl, ?_, by (rw [setR_same]; intro e; cases e), .inl (by rw [setR_same]; rfl), fun hf => ?_, by rw [setR_same]⟩
        · rw [left, left, setR_same, hp]; simp [St.setR]
        · have := hf.1
          rw [hc] at this; cases this
  | flush =>
    refine .inl ⟨_, (hg.step_flush hp hs).2, fun hf => ?_⟩
    have h1 := hf.2
    rw [hp] at h1
    have h2 := hg.act.size
    intro e
    have h3 := congrArg List.length e
    have h4 := List.length_pos_iff.mpr h1
    simp only [List.length_take, List.length_nil] at h3
    omega

/-! ## The properties -/

/-- C88: a read of at most `n` bytes in canonical mode returns what is left of the line the last read on this handle began; else the first line
that has not been read, or its first `n` bytes. (The specification then has the line no longer, only its rest: so lines are returned once, in
the order in which they were typed, and erased characters are not in them.) -/
theorem line_read_partial {t0 : Tio} {nb : Hid → Bool} {s s' : St} {sp : Spec} {e : Ev} {h : Hid} {n : Nat} {d : List Byte} (hg : Good t0)
    (hr : ReachP Ok t0 nb s sp) (hok : Ok s sp e) (hs : step s e = some (s', some (h, n, .data d))) (hn : 0 < n) (hc : sp.tio.canon = true) :
    sp.rest h ≠ [] ∧ d = (sp.rest h).take n ∨ sp.rest h = [] ∧ ∃ l ls, sp.lines = l :: ls ∧ d = l.take n := by
  rcases (show n = 0 ∧ d = [] ∨ 0 < n ∧ sp.Allows h n d from ((hr.inv hg).step hok hs).2) with h1 | ⟨_, h1⟩
  · omega
  · rw [Spec.Allows, hc] at h1
    split at h1
    · exact .inl ⟨‹_›, h1⟩
    · rename_i h2
      exact .inr ⟨Classical.byContradiction h2, by simpa using h1⟩

/-- C89: in raw mode it returns the first bytes that have not been read (or what is left of a line), at most `n`, at least VMIN. -/
theorem raw_read_partial {t0 : Tio} {nb : Hid → Bool} {s s' : St} {sp : Spec} {e : Ev} {h : Hid} {n : Nat} {d : List Byte} (hg : Good t0)
    (hr : ReachP Ok t0 nb s sp) (hok : Ok s sp e) (hs : step s e = some (s', some (h, n, .data d))) (hn : 0 < n) (hc : sp.tio.canon = false) :
    sp.rest h ≠ [] ∧ d = (sp.rest h).take n ∨ sp.rest h = [] ∧ d = sp.cur.take d.length ∧ sp.tio.vmin ≤ d.length ∧ d.length ≤ n := by
  rcases (show n = 0 ∧ d = [] ∨ 0 < n ∧ sp.Allows h n d from ((hr.inv hg).step hok hs).2) with h1 | ⟨_, h1⟩
  · omega
  · rw [Spec.Allows, hc] at h1
    split at h1
    · exact .inl ⟨‹_›, h1⟩
    · rename_i h2
      rw [if_neg (by decide)] at h1
      exact .inr ⟨Classical.byContradiction h2, List.prefix_iff_eq_take.mp h1.1, h1.2⟩

/-- C91: EAGAIN only if there is nothing to read. -/
theorem eagain_partial {t0 : Tio} {nb : Hid → Bool} {s s' : St} {sp : Spec} {e : Ev} {h : Hid} {n : Nat} (hg : Good t0)
    (hr : ReachP Ok t0 nb s sp) (hok : Ok s sp e) (hs : step s e = some (s', some (h, n, .eagain))) :
    sp.rest h = [] ∧ (sp.tio.canon = true → sp.lines = []) ∧ (sp.tio.canon = false → sp.cur.length < sp.tio.vmin) := by
  have h1 : sp.Nothing h := ((hr.inv hg).step hok hs).2
  obtain ⟨h1, h2⟩ := h1
  refine ⟨h1, fun hc => ?_, fun hc => ?_⟩
  · rw [if_pos hc] at h2; exact h2
  · rw [if_neg (by rw [hc]; decide)] at h2; exact h2

/-- No ASSERT fails. -/
theorem no_panic_partial {t0 : Tio} {nb : Hid → Bool} {s : St} {sp : Spec} (hg : Good t0) (hr : ReachP Ok t0 nb s sp) : s.panic = false := (hr.inv hg).panic

/-- C91: poll on a handle (`tty_read_ready`, between reads) tells that there is input iff there is a complete line, or on a non-blocking handle the rest
of one; in raw mode, VMIN bytes. -/
theorem poll_ready_partial {t0 : Tio} {nb : Hid → Bool} {s : St} {sp : Spec} (hg : Good t0) (hr : ReachP Ok t0 nb s sp) (h : Hid)
    (hi : ∀ x, (s.rd x).pc = .idle) :
    ready s (s.rd h) = true ↔ if sp.tio.canon then sp.lines ≠ [] ∨ (s.rd h).nonblock = true ∧ sp.rest h ≠ [] else sp.tio.vmin ≤ sp.cur.length := by
  have hv := hr.inv hg
  have hb : ∀ x, (s.rd x).pc.busy = false := fun x => by rw [hi x]; rfl
  have hid := hv.idle h (hi h)
  rw [TtyIn.ready, hv.tio]
  cases hc : s.tio.canon
  · obtain ⟨T, h1, _, _, _, h5⟩ := (Main.raw hc).mp hv.main
    rw [h5 hb] at h1
    rw [if_neg (by decide), if_neg (by decide), h1]
    simp
  · obtain ⟨A, k, heads, L, hci, _, hno⟩ := (Main.canon hc).mp hv.main
    obtain ⟨rfl, rfl, rfl⟩ := hno hb
    rw [if_pos rfl, if_pos rfl, hci.count, hci.lines]
    have hrest : sp.rest h ≠ [] ↔ (s.rd h).buf ≠ [] := by
      rw [← hid.rest]
      rcases hid.pos with ⟨e, e'⟩ | e
      · rw [e]; simp
      · constructor
        · intro h1 h2; rw [h2] at h1; simp at h1
        · intro _ h2
          have := congrArg List.length h2
          simp only [List.length_drop, List.length_nil] at this
          omega
    rw [hrest, Bool.or_eq_true, hid.allowed, decide_eq_true_iff]
    have : ((L.length : Int) + (0 : Nat) > 0) ↔ ([] ++ L.map (outLine s.tio) ≠ []) := by
      cases L <;> simp <;> omega
    rw [this]
    exact Or.comm

/-- C92: SIGINT and SIGQUIT have been sent for the characters typed that ask for it, in that order, and no other signal. -/
theorem signals_partial {t0 : Tio} {nb : Hid → Bool} {s : St} {sp : Spec} (hg : Good t0) (hr : ReachP Ok t0 nb s sp) : s.sent = sp.sent := (hr.inv hg).sent

/-- Only the read on `x` runs, for at most `n` steps. -/
def solo (x : Hid) (sig : Bool) : Nat → St → Option (St × Out)
  | 0, s => some (s, none)
  | n + 1, s => match step s (.rd x sig) with
    | some (s', none) => solo x sig n s'
    | r => r

theorem Inv.solo {sp : Spec} {x : Hid} {sig : Bool} : ∀ (m : Nat) {s : St}, Inv s sp → (s.rd x).pc ≠ .idle → ((s.rd x).pc.busy = true ∨ ¬ sp.Nothing x) →
    left s x ≤ m → ∃ n s' d, TtyIn.solo x sig n s = some (s', some (x, (s.rd x).size, .data d)) ∧ sp.Allows x (s.rd x).size d ∧ (Full s x → d ≠ []) := by
  intro m
  induction m with
  | zero =>
    intro s h hpc hr hm
    exfalso
    rw [left] at hm
    cases hp : (s.rd x).pc <;> rw [hp] at hm hpc <;> simp at hm hpc
  | succ m ih =>
    intro s h hpc hr hm
    obtain ⟨s1, o, hs⟩ : ∃ s1 o, rdStep s x sig = some (s1, o) := by
      cases hq : rdStep s x sig with
      | some p => exact ⟨p.1, p.2, rfl⟩
      | none =>
        exfalso
        unfold rdStep at hq
        cases hp : (s.rd x).pc <;> rw [hp] at hq <;> dsimp only at hq
        · exact hpc hp
        · split at hq <;> cases hq
        · split at hq
          · split at hq <;> cases hq
          · split at hq <;> cases hq
        · split at hq <;> cases hq
        · split at hq <;> cases hq
        · cases hq
        · cases hq
    have hst : TtyIn.step s (.rd x sig) = some (s1, o) := by rw [TtyIn.step, if_neg (by rw [h.panic]; decide)]; exact hs
    obtain ⟨h1, h2⟩ := h.rd hs
    rcases h.advance hpc hr hs with ⟨d, rfl, hd⟩ | ⟨rfl, hl, hpc', hr', hf, hsz⟩
    · refine ⟨1, s1, d, by rw [TtyIn.solo, hst], ?_, hd⟩
      rcases (show (s.rd x).size = 0 ∧ d = [] ∨ 0 < (s.rd x).size ∧ sp.Allows x (s.rd x).size d from h2) with e | e
      · have := (h.act x hpc).size
        omega
      · exact e.2
    · obtain ⟨n, s', d, k1, k2, k3⟩ := ih (show Inv s1 sp from h1) hpc' hr' (by omega)
      rw [hsz] at k1 k2
      exact ⟨n + 1, s', d, by rw [TtyIn.solo, hst]; exact k1, k2, fun e => k3 (hf e)⟩

/-- C90: a read for which there is something ends with it, without waiting for anything else, whether a signal is pending or not. In raw mode it
is not empty if there was any input. -/
theorem read_returns_partial {t0 : Tio} {nb : Hid → Bool} {s : St} {sp : Spec} (hg : Good t0) (hr : ReachP Ok t0 nb s sp) (h : Hid) (sig : Bool)
    (hb : (s.rd h).pc = .top ∨ (s.rd h).pc = .wait) (hl : if sp.tio.canon then sp.lines ≠ [] else sp.tio.vmin ≤ sp.cur.length) :
    ∃ n s' d, solo h sig n s = some (s', some (h, (s.rd h).size, .data d)) ∧ sp.Allows h (s.rd h).size d ∧
      (sp.tio.canon = false → sp.cur ≠ [] → d ≠ []) := by
  have hv := hr.inv hg
  have hpc : (s.rd h).pc ≠ .idle := by rcases hb with e | e <;> rw [e] <;> (intro e; cases e)
  have hbusy : (s.rd h).pc.busy = false := by rcases hb with e | e <;> rw [e] <;> rfl
  have hn : ¬ sp.Nothing h := by
    intro ⟨_, h2⟩
    cases hc : sp.tio.canon
    · rw [hc, if_neg (by decide)] at hl h2; omega
    · rw [hc, if_pos rfl] at hl h2; exact hl h2
  obtain ⟨n, s', d, h1, h2, h3⟩ := Inv.solo (sig := sig) (left s h) hv hpc (.inr hn) (Nat.le_refl _)
  refine ⟨n, s', d, h1, h2, fun hc hcur => h3 ?_⟩
  have hc' : s.tio.canon = false := by rw [← hv.tio]; exact hc
  obtain ⟨T, k1, _, _, _, k5⟩ := (Main.raw hc').mp hv.main
  have hgo : Going s sp h := ⟨hv, hv.act h hpc, hv.one h hpc⟩
  rw [k5 (hgo.none_busy hbusy)] at k1
  refine ⟨hc', ?_⟩
  have : s.ring ≠ [] ∨ (s.rd h).buf ≠ [] := .inl (by rw [← show sp.cur = s.ring from k1]; exact hcur)
  rcases hb with e | e <;> rw [e] <;> exact this

/-- C90: the buffer is never fuller than by the unread input (and a character per line, for EOF): a key finds room while less than 1024
characters are unread. -/
theorem room_partial {t0 : Tio} {nb : Hid → Bool} {s : St} {sp : Spec} (hg : Good t0) (hr : ReachP Ok t0 nb s sp) :
    s.ring.length ≤ (sp.lines.map fun l => l.length + 1).sum + sp.cur.length := by
  have hv := hr.inv hg
  have hout : ∀ (t : Tio) (p : List Byte × Byte), p.1.length ≤ (outLine t p).length := by
    intro t p; rw [outLine]; split <;> simp
  have henc : ∀ (t : Tio) (L : List (List Byte × Byte)), (enc L).length ≤ ((L.map (outLine t)).map fun l => l.length + 1).sum := by
    intro t L
    induction L with
    | nil => simp [enc]
    | cons p L ih =>
      have := hout t p
      rw [enc_cons]
      simp only [List.length_append, List.map_cons, List.sum_cons, List.length_cons, List.length_nil] at ih ⊢
      omega
  cases hc : s.tio.canon
  · obtain ⟨T, h1, _⟩ := (Main.raw hc).mp hv.main
    rw [h1]; simp; omega
  · obtain ⟨A, k, heads, L, hci, hh, hno⟩ := (Main.canon hc).mp hv.main
    have hA : A.length ≤ (heads.map fun l => l.length + 1).sum := by
      by_cases hb : ∃ x, (s.rd x).pc.busy = true
      · obtain ⟨x, hb⟩ := hb
        obtain ⟨_, _, h3⟩ := hh x hb
        cases hp : (s.rd x).pc <;> rw [hp] at h3 hb
        · cases hb
        · cases hb
        · cases hb
        · obtain ⟨b, d, rfl, _, rfl, _⟩ := h3
          have := hout s.tio ((s.rd x).buf ++ b, d)
          simp at this ⊢; omega
        · obtain ⟨b, d, rfl, _, rfl, _⟩ := h3
          have := hout s.tio ((s.rd x).buf ++ b, d)
          simp at this ⊢; omega
        · rcases h3 with ⟨b, rfl, _⟩ | ⟨_, b, d, rfl, _, rfl, _⟩
          · simp
          · have := hout s.tio ((s.rd x).buf ++ b, d)
            simp at this ⊢; omega
        · obtain ⟨rfl, _⟩ := h3; simp
      · obtain ⟨rfl, _, _⟩ := hno fun x => by
          cases hq : (s.rd x).pc.busy
          · rfl
          · exact absurd ⟨x, hq⟩ hb
        simp
    have := henc s.tio L
    rw [hci.ring, hci.lines]
    simp only [List.length_append, List.map_append, List.sum_append] at this ⊢
    omega

/-! The hypotheses are met: "a", newline is typed; a read of 5 bytes waits at first and returns the line. -/

example : ∃ s sp, ReachP Ok tio0 (fun _ => false) s sp ∧ sp.lines = [[97, 10]] ∧ (s.rd 0).pc = .wait ∧ Good tio0 := by
  have hg : Good tio0 := by unfold Good; decide
  have h1 : ∀ {s : St} {sp : Spec} {c : Byte}, s.ring.length < 2 → c = 97 ∨ c = 10 → s.tio = tio0 → Ok s sp (.key c false) := by
    intro s sp c h1 h2 h3
    refine ⟨by show s.ring.length < 1024; omega, by rcases h2 with rfl | rfl <;> decide, fun x hx => ⟨fun _ hx' => ?_, fun hd => ?_⟩⟩
    · rw [h3] at hx'
      have : x = 127 := hx'
      subst this
      rcases h2 with rfl | rfl <;> simp [NL, CR] at hx
    · obtain ⟨_, hd⟩ := hd
      rw [h3] at hd
      have : x = 3 ∨ x = 28 := hd
      rcases h2 with rfl | rfl <;> rcases this with rfl | rfl <;> simp [NL, CR] at hx
  have r0 : ReachP Ok tio0 (fun _ => false) _ _ := .init
  have r1 := ReachP.step (.begin 0 5) r0 ⟨fun x hx => rfl, fun e => nomatch e⟩ rfl
  have r2 := ReachP.step (.rd 0 false) r1 trivial rfl
  have r3 := ReachP.step (.key 97 false) r2 (h1 (by decide) (.inl rfl) rfl) rfl
  have r4 := ReachP.step (.key 10 false) r3 (h1 (by decide) (.inr rfl) rfl) rfl
  exact ⟨_, _, r4, by decide, by decide, hg⟩

/-! ## Where the code does something else -/

/-- Several events, and the results of reads on the way. -/
def run (s : St) (sp : Spec) : List Ev → Option (St × Spec × List (Hid × Res))
  | [] => some (s, sp, [])
  | e :: es => match step s e with
    | none => none
    | some (s', o) => (run s' (sp.next e o) es).map fun r => (r.1, r.2.1, (o.toList.map fun x => (x.1, x.2.2)) ++ r.2.2)

theorem Reach.run {t0 : Tio} {nb : Hid → Bool} (es : List Ev) : ∀ {s : St} {sp : Spec} {r : St × Spec × List (Hid × Res)}, Reach t0 nb s sp →
    TtyIn.run s sp es = some r → Reach t0 nb r.1 r.2.1 := by
  induction es with
  | nil => intro s sp r h hr; cases hr; exact h
  | cons e es ih =>
    intro s sp r h hr
    rw [TtyIn.run] at hr
    cases hs : TtyIn.step s e with
    | none => rw [hs] at hr; cases hr
    | some p =>
      rw [hs] at hr
      dsimp only at hr
      cases hq : TtyIn.run p.1 (sp.next e p.2) es with
      | none => rw [hq] at hr; cases hr
      | some q =>
        rw [hq] at hr
        cases hr
        exact ih (r := q) (ReachP.step (s' := p.1) (o := p.2) e h trivial hs) hq

/-- From the start, with the default settings and blocking handles except number 9. -/
def go (es : List Ev) : Option (St × Spec × List (Hid × Res)) := run (init tio0 (· = 9)) (spec0 tio0) es

/-- A read of at most `n` bytes on `h`, `k` steps of it. -/
def rdk (h n k : Nat) : List Ev := .begin h n :: List.replicate k (.rd h false)

/-- Typing. -/
def keys (l : List Byte) : List Ev := l.map fun c => .key c false

/-- What `go` gives, about the reached state, specification and results. -/
theorem go_spec {es : List Ev} {P : St × Spec × List (Hid × Res) → Bool} (h : (go es).any P = true) :
    ∃ s sp os, go es = some (s, sp, os) ∧ Reach tio0 (· = 9) s sp ∧ P (s, sp, os) = true := by
  cases hq : go es with
  | none => rw [hq] at h; cases h
  | some r =>
    rw [hq] at h
    exact ⟨r.1, r.2.1, r.2.2, rfl, Reach.run es .init hq, h⟩

/-- A read that has returned nothing yet finds a count of lines, but no newline. -/
structure Spin (s : St) (pc : RPc) : Prop where
  ring : s.ring = []
  count : s.count = 1
  tio : s.tio = tio0
  panic : s.panic = false
  rd : s.rd 0 = { rd0 false with pc := pc, size := 5, out := [97] }

theorem Spin.setR {s : St} {pc : RPc} (h : Spin s pc) {f : Rd → Rd} (pc' : RPc)
    (hf : f { rd0 false with pc := pc, size := 5, out := [97] } = { rd0 false with pc := pc', size := 5, out := [97] }) : Spin (s.setR 0 f) pc' :=
  ⟨h.ring, h.count, h.tio, h.panic, by rw [setR_same, h.rd, hf]⟩

theorem Spin.forever (n : Nat) (sig : Bool) : ∀ {s : St} {pc : RPc}, pc = .top ∨ pc = .wait ∨ pc = .fill ∨ pc = .flush → Spin s pc →
    ∃ s', solo 0 sig n s = some (s', none) ∧ s'.panic = false := by
  induction n with
  | zero => intro s pc _ h; exact ⟨s, rfl, h.panic⟩
  | succ n ih =>
    intro s pc hpc h
    have hready : ready s (s.rd 0) = true := by rw [ready, h.tio, h.count]; simp [tio0]
    have hcont : ∀ s' pc', (pc' = .top ∨ pc' = .wait ∨ pc' = .fill ∨ pc' = .flush) → Spin s' pc' → rdStep s 0 sig = some (s', none) →
        ∃ s', solo 0 sig (n + 1) s = some (s', none) ∧ s'.panic = false := by
      intro s' pc' hp hs hst
      have : step s (.rd 0 sig) = some (s', none) := by rw [step, if_neg (by rw [h.panic]; decide)]; exact hst
      rw [solo, this]
      exact ih hp hs
    have hp : (s.rd 0).pc = pc := by rw [h.rd]
    rcases hpc with rfl | rfl | rfl | rfl
    · refine hcont (s.setR 0 fun r => { r with pc := .wait }) .wait (by simp) (h.setR .wait rfl) ?_
      unfold rdStep; rw [hp]; dsimp only; rw [if_neg (by rw [hready]; simp)]
    · refine hcont (s.setR 0 fun r => { r with pc := .fill, delim := false }) .fill (by simp) (h.setR .fill rfl) ?_
      unfold rdStep; rw [hp]; dsimp only; rw [if_pos hready, if_neg (by rw [h.rd]; simp [rd0])]
    · refine hcont (s.setR 0 fun r => { r with pc := .flush }) .flush (by simp) (h.setR .flush rfl) ?_
      unfold rdStep; rw [hp]; dsimp only; rw [if_neg (by rw [h.ring]; simp)]
    · refine hcont (s.setR 0 fun _ => { rd0 false with pc := .top, size := 5, out := [97] }) .top (by simp) (h.setR .top rfl) ?_
      · unfold rdStep; rw [hp]; dsimp only
        rw [endLoop]
        have h1 : flush1 s (s.rd 0) = { rd0 false with pc := .flush, size := 5, out := [97] } := by rw [flush1, h.rd]; rfl
        rw [h1]
        dsimp only
        rw [if_neg (by rw [h.count]; decide), if_neg (by rw [shouldReturn, h.tio, h.count]; decide)]

/-- C88, C90: the erase character removes the newline of a line that has been finished but not read. "a", newline, erase: the next read spins for
ever, signals or not. -/
theorem erase_finished_line_violated : ∃ s sp, Reach tio0 (· = 9) s sp ∧ sp.lines = [[97, 10]] ∧ (s.rd 0).pc ≠ .idle ∧
    ∀ n sig, ∃ s', solo 0 sig n s = some (s', none) ∧ s'.panic = false := by
  obtain ⟨s, sp, os, _, hr, hP⟩ := go_spec (es := keys [97, 10, 127] ++ rdk 0 5 7)
    (P := fun r => decide (r.2.1.lines = [[97, 10]] ∧ r.1.ring = [] ∧ r.1.count = 1 ∧ r.1.tio = tio0 ∧ r.1.panic = false ∧
      r.1.rd 0 = { rd0 false with pc := .top, size := 5, out := [97] })) (by decide +kernel)
  have hP := of_decide_eq_true hP
  dsimp only at hP
  obtain ⟨h1, h2, h3, h4, h5, h6⟩ := hP
  exact ⟨s, sp, hr, h1, by (rw [h6]; intro e; cases e), fun n sig => Spin.forever n sig (.inl rfl) ⟨h2, h3, h4, h5, h6⟩⟩

/-- C89: raw mode with VMIN = 2 and reads of one byte: both bytes are taken out of the buffer, and when the next two come, an ASSERT fails. -/
theorem raw_small_read_violated : ∃ s sp os, go (.set { tio0 with canon := false, vmin := 2 } false :: keys [97, 98] ++ rdk 0 1 10 ++ keys [99, 100] ++
    [.rd 0 false]) = some (s, sp, os) ∧ os = [] ∧ s.panic = true := by
  obtain ⟨s, sp, os, h1, _, hP⟩ := go_spec (es := .set { tio0 with canon := false, vmin := 2 } false :: keys [97, 98] ++ rdk 0 1 10 ++ keys [99, 100] ++
    [.rd 0 false]) (P := fun r => decide (r.2.2 = [] ∧ r.1.panic = true)) (by decide +kernel)
  exact ⟨s, sp, os, h1, of_decide_eq_true hP⟩

/-- C89: and on a non-blocking handle the read answers EAGAIN, and the bytes are gone: nothing is left in the buffer, though the read has returned no data. -/
theorem raw_eagain_loses_violated : ∃ s sp os, go (.set { tio0 with canon := false, vmin := 2 } false :: keys [97, 98] ++ rdk 9 1 10) = some (s, sp, os) ∧
    os = [(9, .eagain)] ∧ s.ring = [] ∧ sp.cur = [97, 98] := by
  obtain ⟨s, sp, os, h1, _, hP⟩ := go_spec (es := .set { tio0 with canon := false, vmin := 2 } false :: keys [97, 98] ++ rdk 9 1 10)
    (P := fun r => decide (r.2.2 = [(9, .eagain)] ∧ r.1.ring = [] ∧ r.2.1.cur = [97, 98])) (by decide +kernel)
  exact ⟨s, sp, os, h1, of_decide_eq_true hP⟩

/-- C88: the line delimiters are not counted in raw mode. A newline typed in raw mode and still unread, then canonical mode, then "b", newline: a read
returns the newline, and the line that follows can no longer be read (until another one is typed). -/
theorem mode_switch_violated : ∃ s sp os, go ((.set { tio0 with canon := false } false :: keys [97, 13]) ++ (.set tio0 false :: keys [98, 13]) ++ rdk 0 5 9) = some (s, sp, os) ∧
    os = [(0, .data [97, 10])] ∧ s.ring = [98, 10] ∧ ready s (s.rd 0) = false := by
  obtain ⟨s, sp, os, h1, _, hP⟩ := go_spec (es := (.set { tio0 with canon := false } false :: keys [97, 13]) ++ (.set tio0 false :: keys [98, 13]) ++ rdk 0 5 9)
    (P := fun r => decide (r.2.2 = [(0, .data [97, 10])] ∧ r.1.ring = [98, 10] ∧ ready r.1 (r.1.rd 0) = false)) (by decide +kernel)
  exact ⟨s, sp, os, h1, of_decide_eq_true hP⟩

/-- C92: Ctrl+C comes after a read has taken the newline out of the buffer, before it decrements the counter: an ASSERT fails. -/
theorem interrupt_race_violated : ∃ s sp os, go (keys [10] ++ rdk 0 5 4 ++ keys [3] ++ [.rd 0 false]) = some (s, sp, os) ∧ s.panic = true := by
  obtain ⟨s, sp, os, h1, _, hP⟩ := go_spec (es := keys [10] ++ rdk 0 5 4 ++ keys [3] ++ [.rd 0 false]) (P := fun r => r.1.panic) (by decide +kernel)
  exact ⟨s, sp, os, h1, hP⟩

/-- C92: Ctrl+C comes while a read is taking a line: the part taken is not discarded, and becomes a part of the next line typed. -/
theorem interrupt_mixes_lines_violated : ∃ s sp os, go (keys [97, 98, 10] ++ rdk 0 5 5 ++ keys [3] ++ keys [99, 10] ++ List.replicate 7 (.rd 0 false)) = some (s, sp, os) ∧
    os = [(0, .data [97, 99, 10])] := by
  obtain ⟨s, sp, os, h1, _, hP⟩ := go_spec (es := keys [97, 98, 10] ++ rdk 0 5 5 ++ keys [3] ++ keys [99, 10] ++ List.replicate 7 (.rd 0 false))
    (P := fun r => decide (r.2.2 = [(0, .data [97, 99, 10])])) (by decide +kernel)
  exact ⟨s, sp, os, h1, of_decide_eq_true hP⟩

/-- C89: two reads at the same time, on two handles, with one byte in the buffer: both see it, both take it: an ASSERT fails. -/
theorem two_readers_violated : ∃ s sp os, go (keys [10] ++ rdk 0 5 3 ++ rdk 1 5 3 ++ [.rd 0 false, .rd 1 false]) = some (s, sp, os) ∧ s.panic = true := by
  obtain ⟨s, sp, os, h1, _, hP⟩ := go_spec (es := keys [10] ++ rdk 0 5 3 ++ rdk 1 5 3 ++ [.rd 0 false, .rd 1 false]) (P := fun r => r.1.panic) (by decide +kernel)
  exact ⟨s, sp, os, h1, hP⟩

/-- C88: a NUL ends the line, as the characters EOL and EOL2, which are disabled, are 0. -/
theorem nul_ends_line_violated : ∃ s sp os, go (keys [97, 0, 98] ++ rdk 0 5 9) = some (s, sp, os) ∧ os = [(0, .data [97, 0])] := by
  obtain ⟨s, sp, os, h1, _, hP⟩ := go_spec (es := keys [97, 0, 98] ++ rdk 0 5 9) (P := fun r => decide (r.2.2 = [(0, .data [97, 0])])) (by decide +kernel)
  exact ⟨s, sp, os, h1, of_decide_eq_true hP⟩

/-- C91: the rest of a line can be read at once from a blocking handle, but poll does not say so. -/
theorem poll_misses_rest_violated : ∃ s sp os, go (keys [97, 98, 10] ++ rdk 0 1 12) = some (s, sp, os) ∧ os = [(0, .data [97])] ∧ ready s (s.rd 0) = false ∧
    (begin s 0 5).2 = some (0, 5, .data [98, 10]) := by
  obtain ⟨s, sp, os, h1, _, hP⟩ := go_spec (es := keys [97, 98, 10] ++ rdk 0 1 12)
    (P := fun r => decide (r.2.2 = [(0, .data [97])] ∧ ready r.1 (r.1.rd 0) = false ∧ (begin r.1 0 5).2 = some (0, 5, .data [98, 10]))) (by decide +kernel)
  exact ⟨s, sp, os, h1, of_decide_eq_true hP⟩

/-- C91: after dup or fork both handles have the rest of the line: it is delivered twice. -/
theorem dup_delivers_twice_violated : ∃ s sp os, go (keys [97, 98, 10] ++ rdk 0 1 12 ++ [.dup 0 1, .begin 0 5, .begin 1 5]) = some (s, sp, os) ∧
    os = [(0, .data [97]), (0, .data [98, 10]), (1, .data [98, 10])] := by
  obtain ⟨s, sp, os, h1, _, hP⟩ := go_spec (es := keys [97, 98, 10] ++ rdk 0 1 12 ++ [.dup 0 1, .begin 0 5, .begin 1 5])
    (P := fun r => decide (r.2.2 = [(0, .data [97]), (0, .data [98, 10]), (1, .data [98, 10])])) (by decide +kernel)
  exact ⟨s, sp, os, h1, of_decide_eq_true hP⟩

/-- C92: the character KILL (Ctrl+U) is not supported: it does not erase the line but becomes a part of it. -/
theorem kill_char_violated : ∃ s sp os, go (keys [97, 0x15, 98, 10] ++ rdk 0 9 15) = some (s, sp, os) ∧ os = [(0, .data [97, 0x15, 98, 10])] := by
  obtain ⟨s, sp, os, h1, _, hP⟩ := go_spec (es := keys [97, 0x15, 98, 10] ++ rdk 0 9 15) (P := fun r => decide (r.2.2 = [(0, .data [97, 0x15, 98, 10])])) (by decide +kernel)
  exact ⟨s, sp, os, h1, of_decide_eq_true hP⟩

/-- Typing an ordinary letter. -/
theorem key_a {s : St} (ht : s.tio = tio0) (b : Bool) : key s 97 b = put s 97 b false := by
  have h1 : handlers tio0 97 = none := by decide
  unfold key
  rw [ht]
  show key1 s 97 b = _
  unfold key1 special canonKey
  rw [ht, h1]
  rfl

theorem spec_a {sp : Spec} (ht : sp.tio = tio0) : sp.key 97 = { sp with cur := sp.cur ++ [97] } := by
  unfold Spec.key Spec.char
  rw [ht]
  simp [tio0]

/-- `k` letters are typed, after a read has begun. -/
theorem typed (b : Bool) (k : Nat) (hk : k ≤ 1024) : ∃ s sp, Reach tio0 (· = 9) s sp ∧ s.ring = List.replicate k 97 ∧ s.count = 0 ∧ s.tio = tio0 ∧ sp.tio = tio0 ∧
    s.blk = none ∧ s.panic = false ∧ (s.rd 0).pc = .wait ∧ (s.rd 0).allowed = false ∧ sp.cur = List.replicate k 97 ∧ sp.lines = [] := by
  induction k with
  | zero =>
    obtain ⟨s, sp, os, _, hr, hP⟩ := go_spec (es := rdk 0 5 1) (P := fun r => decide (r.1.ring = [] ∧ r.1.count = 0 ∧ r.1.tio = tio0 ∧ r.2.1.tio = tio0 ∧
      r.1.blk = none ∧ r.1.panic = false ∧ (r.1.rd 0).pc = .wait ∧ (r.1.rd 0).allowed = false ∧ r.2.1.cur = [] ∧ r.2.1.lines = [])) (by decide +kernel)
    exact ⟨s, sp, hr, of_decide_eq_true hP⟩
  | succ k ih =>
    obtain ⟨s, sp, hr, h1, h2, h3, h4, h5, h6, h7, h8, h9, h10⟩ := ih (by omega)
    have hroom : s.ring.length < CAP := by rw [h1, List.length_replicate]; show k < 1024; omega
    have hs : step s (.key 97 b) = some ({ s with ring := s.ring ++ [97], count := s.count + 0 }, none) := by
      rw [step, if_neg (by rw [h6]; decide)]
      simp only [step1]
      rw [if_pos h5, key_a h3, put, if_pos hroom]
      rfl
    refine ⟨_, _, ReachP.step _ hr trivial hs, ?_, ?_, h3, ?_, h5, h6, h7, h8, ?_, ?_⟩
    · show s.ring ++ [97] = _; rw [h1, List.replicate_succ']
    · show s.count + 0 = 0; omega
    · show (sp.key 97).tio = _; rw [spec_a h4]; exact h4
    · show (sp.key 97).cur = _; rw [spec_a h4, List.replicate_succ', ← h9]
    · show (sp.key 97).lines = _; rw [spec_a h4]; exact h10

/-- C90: a line of 1024 letters is typed, then newline. There is no room for the newline: it is dropped, but counted. -/
theorem newline_lost_violated : ∃ s sp, Reach tio0 (· = 9) s sp ∧ sp.lines = [List.replicate 1024 97 ++ [10]] ∧ 10 ∉ s.ring ∧ s.count = 1 ∧ s.blk = none := by
  obtain ⟨s, sp, hr, h1, h2, h3, h4, h5, h6, h7, h8, h9, h10⟩ := typed false 1024 (by omega)
  have hfull : ¬ s.ring.length < CAP := by rw [h1, List.length_replicate]; decide
  have hs : step s (.key 10 false) = some ({ s with count := s.count + 1 }, none) := by
    rw [step, if_neg (by rw [h6]; decide)]
    simp only [step1]
    have h11 : handlers tio0 10 = none := by decide
    have h12 : key s 10 false = put s 10 false true := by
      unfold key
      rw [h3]
      show key1 s 10 false = _
      unfold key1 special canonKey
      rw [h3, h11]
      rfl
    rw [if_pos h5, h12, put, if_neg hfull]
    rfl
  refine ⟨_, _, ReachP.step _ hr trivial hs, ?_, ?_, ?_, h5⟩
  · show (sp.key 10).lines = _
    unfold Spec.key Spec.char Spec.endLine
    rw [h4, h9, h10]
    generalize List.replicate 1024 97 = l
    simp [tio0]
  · show 10 ∉ s.ring; rw [h1]; intro h; have := List.eq_of_mem_replicate h; cases this
  · show s.count + 1 = 1; omega

/-- C90: on a serial port, a line of 1025 letters: the worker waits for room, and so the newline is never taken; the read waits for the newline. -/
theorem serial_deadlock_violated : ∃ s sp, Reach tio0 (· = 9) s sp ∧ (s.rd 0).pc = .wait ∧ (∀ c b, step s (.key c b) = none) ∧ step s .retry = none ∧
    ∀ n, solo 0 false n s = some (s, none) := by
  obtain ⟨s, sp, hr, h1, h2, h3, h4, h5, h6, h7, h8, h9, h10⟩ := typed true 1024 (by omega)
  have hfull : ¬ s.ring.length < CAP := by rw [h1, List.length_replicate]; decide
  have hs : step s (.key 97 true) = some ({ s with blk := some (97, false) }, none) := by
    rw [step, if_neg (by rw [h6]; decide)]
    simp only [step1]
    rw [if_pos h5, key_a h3, put, if_neg hfull, if_pos rfl]
  refine ⟨_, _, ReachP.step _ hr trivial hs, h7, fun c b => ?_, ?_, fun n => ?_⟩
  · rw [step, if_neg (by show ¬ s.panic = true; rw [h6]; decide)]; rfl
  · rw [step, if_neg (by show ¬ s.panic = true; rw [h6]; decide)]
    simp only [step1]
    rw [if_neg hfull]
  · have hst : step { s with blk := some (97, false) } (.rd 0 false) = some ({ s with blk := some (97, false) }, none) := by
      rw [step, if_neg (by show ¬ s.panic = true; rw [h6]; decide)]
      simp only [step1, rdStep]
      rw [h7]
      dsimp only
      rw [if_neg (by rw [ready, h3, h2, h8]; simp [tio0]), if_neg (by decide)]
    induction n with
    | zero => rfl
    | succ n ih => rw [solo, hst]; exact ih

/-! The hypotheses of the theorems about raw mode are met too. -/
example : ∃ s sp, ReachP Ok tio0 (fun _ => false) s sp ∧ sp.tio.canon = false ∧ sp.cur = [97] ∧ (s.rd 0).pc = .top ∧
    sp.tio.vmin ≤ sp.cur.length := by
  have r1 := ReachP.step (.set { tio0 with canon := false } false) (ReachP.init (ok := Ok) (t0 := tio0) (nb := fun _ => false))
    ⟨fun _ => rfl, .inr ⟨rfl, rfl⟩, by unfold Good; decide⟩ rfl
  have r2 := ReachP.step (.seq [97]) r1 ⟨by decide, fun e => nomatch e⟩ rfl
  have r3 := ReachP.step (.begin 0 1) r2 ⟨fun _ _ => rfl, fun _ => .inr (by decide)⟩ rfl
  exact ⟨_, _, r3, rfl, rfl, by decide, by decide⟩

/-- Ctrl+C sends a signal and discards the input. -/
example : ∃ s sp, ReachP Ok tio0 (fun _ => false) s sp ∧ s.sent = [2] ∧ sp.lines = [] ∧ sp.cur = [] := by
  have r1 := ReachP.step (.seq [97]) (ReachP.init (ok := Ok) (t0 := tio0) (nb := fun _ => false)) ⟨by decide, by decide⟩ rfl
  have r2 := ReachP.step (.key 3 false) r1
    ⟨by decide, by decide, fun x hx => ⟨fun _ hx' hc => (nomatch hc), fun _ _ => rfl⟩⟩ rfl
  exact ⟨_, _, r2, by decide, by decide, by decide⟩

end Verif.TtyIn
