/-!
# The echo of the terminal (kernel/tty/tty_input.c, tty_ctrl_handlers.c.h)

Property C181 (what is shown is the line being typed) and C182 (without ECHO nothing is shown).

What the line discipline does with the input is in `TtyIn`; here is what it writes to the terminal
meanwhile.  Keys are bytes as the keyboard gives them (below 128).  The line is not read meanwhile.
-/
namespace Verif.TtyEcho

/-- The flags and characters of `struct termios` that are used here, and whether the terminal is in
graphics mode (`kd_gfx_mode`). -/
structure Cfg where
  gfx : Bool := false
  canon : Bool := true
  echo : Bool := true
  echoe : Bool := true
  echok : Bool := true
  echoctl : Bool := true
  echonl : Bool := false
  isig : Bool := true
  ixon : Bool := true
  iexten : Bool := true
  igncr : Bool := false
  icrnl : Bool := true
  inlcr : Bool := false
  vintr : Nat := 0x03
  vquit : Nat := 0x1c
  verase : Nat := 0x7f
  vkill : Nat := 0x15
  veof : Nat := 0x04
  vstart : Nat := 0x11
  vstop : Nat := 0x13
  vsusp : Nat := 0x1a
  veol : Nat := 0
  vreprint : Nat := 0x12
  vdiscard : Nat := 0x0f
  vwerase : Nat := 0x17
  vlnext : Nat := 0x16
  veol2 : Nat := 0
  deriving DecidableEq, Repr

/-- The input buffer, and every byte written to the terminal by the echo. -/
structure St where
  ring : List Nat := []
  out : List Nat := []
  deriving DecidableEq, Repr

/-- TTY_INPUT_BS (config/kernel/mod_console.h:35). -/
def CAP : Nat := 1024

/-- kernel/tty/tty_input.c:34-43 `tty_char_echoed_as_caret`. -/
def caret (t : Cfg) (c : Nat) : Bool :=
  (c < 32 || c == 0x7f) && t.echoctl && c != 9 && c != 10 && c != t.vstart && c != t.vstop

/-- kernel/tty/tty_input.c:50-53 `tty_echo_width`. -/
def width (t : Cfg) (c : Nat) : Nat := if caret t c then 2 else 1

/-- kernel/tty/tty_input.c:55-131 `tty_keypress_echo`: the bytes written. -/
def echo (t : Cfg) (c : Nat) : List Nat :=
  if t.gfx then []
  else if c == 10 && t.echonl then [c]
  else if !t.echo then []
  else if t.canon && c == t.veof then []
  else if t.canon && t.echok && c == t.vkill then [c]
  else if t.canon && t.echoe && (c == t.vwerase || c == t.verase) then [c]
  else if caret t c then [94, (c + 0x40) % 256]
  else [c]

/-- kernel/tty/tty_input.c:196-233 `tty_inbuf_write_elem`, which does not wait here (`block` is for
serial ports). -/
def put (t : Cfg) (c : Nat) (s : St) : St :=
  if s.ring.length < CAP then { ring := s.ring ++ [c], out := s.out ++ echo t c } else s

/-- kernel/tty/tty_input.c:168-194 `tty_inbuf_drop_last_written_elem`. -/
def drop (t : Cfg) (s : St) : St :=
  match s.ring.getLast? with
  | none => s
  | some c => { ring := s.ring.dropLast,
                out := s.out ++ (List.replicate (width t c) (echo t t.verase)).flatten }

/-- The handlers of control characters (tty_ctrl_handlers.c.h). -/
inductive Hnd | stop | start | intr | susp | quit | eof | eol | eol2 | reprint | discard | lnext
  deriving DecidableEq, Repr

/-- `tty_update_ctrl_handlers` (tty_input.c:656-670) and `tty_set_ctrl_handler`
(tty_ctrl_handlers.c.h:145-161): the last one set for a character stays, 0 means none. -/
def handler (t : Cfg) (c : Nat) : Option Hnd :=
  if c = 0 then none
  else if c = t.vlnext then some .lnext
  else if c = t.vdiscard then some .discard
  else if c = t.vreprint then some .reprint
  else if c = t.veol2 then some .eol2
  else if c = t.veol then some .eol
  else if c = t.veof then some .eof
  else if c = t.vquit then some .quit
  else if c = t.vsusp then some .susp
  else if c = t.vintr then some .intr
  else if c = t.vstart then some .start
  else if c = t.vstop then some .stop
  else none

/-- tty_ctrl_handlers.c.h:9-143: the new state if the handler takes the character (signals and messages
of the kernel left out). -/
def special (t : Cfg) (s : St) : Hnd → Option St
  | .stop => if t.ixon then some s else none
  | .start => if t.ixon then some s else none
  | .intr => if t.isig then some { ring := [], out := s.out ++ echo t t.vintr } else none
  | .susp => if t.isig then some { s with out := s.out ++ echo t t.vsusp } else none
  | .quit => if t.isig then some { ring := [], out := s.out ++ echo t t.vquit } else none
  | .eof => if t.canon then some (put t t.veof s) else none
  | .eol => if t.canon then some (put t t.veol s) else none
  | .eol2 => if t.canon then some (put t t.veol2 s) else none
  | .reprint => if t.canon || t.iexten then some { s with out := s.out ++ echo t t.vreprint } else none
  | .discard => none
  | .lnext => if t.iexten then some s else none

/-- kernel/tty/tty_input.c:288-319 `tty_send_keyevent`, after the mapping of CR and NL, with 270-286
`tty_keypress_handle_canon_mode`. -/
def key2 (t : Cfg) (c : Nat) (s : St) : St :=
  match (handler t c).bind (special t s) with
  | some s1 => s1
  | none =>
    if t.canon then if c = t.verase then drop t s else put t c s
    else put t c s

/-- kernel/tty/tty_input.c:288-319 `tty_send_keyevent`. -/
def key (t : Cfg) (c : Nat) (s : St) : St :=
  if c = 13 then if t.igncr then s else if t.icrnl then key2 t 10 s else key2 t c s
  else if c = 10 then if t.inlcr then key2 t 13 s else key2 t c s
  else key2 t c s

def keys (t : Cfg) : List Nat → St → St
  | [], s => s
  | c :: l, s => keys t l (key t c s)

/-! ## Specification -/

/-- Deletes the last word of a row: the blanks at the end, then what is before them up to a blank
(modules/console/video_term.c `term_action_del_prev_word`). -/
def delWord (row : List Nat) : List Nat :=
  ((row.reverse.dropWhile (· == 32)).dropWhile (· != 32)).reverse

/-- A terminal: what is in its current row after it receives a byte
(modules/console/console_def_state.c.h:139-165 and 180-206).  Simplified: the row is as long as needed,
a tab is one character, and the control characters that only move the cursor show as `?`. -/
def recv (t : Cfg) (row : List Nat) (b : Nat) : List Nat :=
  if 32 ≤ b ∧ b < 127 then row ++ [b]
  else if b = t.vkill then row
  else if b = t.vwerase then delWord row
  else if b = t.verase then row.dropLast
  else if b = 10 then []
  else if b = 9 then row ++ [9]
  else row ++ [63]

/-- The row after a sequence of bytes. -/
def recvAll (t : Cfg) (row : List Nat) (bs : List Nat) : List Nat := bs.foldl (recv t) row

/-- How a character of the line is to be shown: control characters other than the tab as `^X`. -/
def shown (c : Nat) : List Nat :=
  if c = 9 then [9]
  else if c < 32 then [94, c + 64]
  else if c = 127 then [94, 63]
  else [c]

/-- The line editor, as the user understands it: what is on the screen before the line, and the line. -/
structure Ed where
  before : List Nat
  line : List Nat := []
  deriving DecidableEq, Repr

/-- A key: the erase character takes back the last character of the line, the interrupt and quit
characters are shown and give up the line, others are added to it unless it is too long. -/
def Ed.key (t : Cfg) (e : Ed) (c : Nat) : Ed :=
  if c = t.verase then { e with line := e.line.dropLast }
  else if c = t.vintr ∨ c = t.vquit then { before := e.before ++ e.line.flatMap shown ++ shown c }
  else if e.line.length < 1024 then { e with line := e.line ++ [c] }
  else e

/-- What the user is to see. -/
def Ed.view (e : Ed) : List Nat := e.before ++ e.line.flatMap shown

/-- The settings: canonical mode with echo, erasing, control characters shown and signals; the erase,
interrupt and quit characters are control characters that mean nothing else. -/
structure Good (t : Cfg) : Prop where
  gfx : t.gfx = false
  canon : t.canon = true
  echo : t.echo = true
  echoe : t.echoe = true
  echoctl : t.echoctl = true
  isig : t.isig = true
  erase : t.verase = 127 ∨ (t.verase < 32 ∧ t.verase ∉ [0, 9, 10, 13])
  intr : t.vintr < 32 ∧ t.vintr ∉ [0, 9, 10, 13]
  quit : t.vquit < 32 ∧ t.vquit ∉ [0, 9, 10, 13]
  eraseOnly : t.verase ∉ [t.vintr, t.vquit, t.vkill, t.vwerase, t.veof, t.vstart, t.vstop, t.vsusp, t.veol,
    t.vreprint, t.vlnext, t.veol2]
  intrOnly : t.vintr ∉ [t.vquit, t.vkill, t.vwerase, t.veof, t.vstart, t.vstop, t.vsusp, t.veol,
    t.vreprint, t.vdiscard, t.vlnext, t.veol2]
  quitOnly : t.vquit ∉ [t.vkill, t.vwerase, t.veof, t.vstart, t.vstop, t.vsusp, t.veol,
    t.vreprint, t.vdiscard, t.vlnext, t.veol2]

/-- A key that is no other special character: printable ones, tabs, and control characters without a
meaning; or erase, interrupt, quit. -/
def Plain (t : Cfg) (c : Nat) : Prop :=
  c = t.verase ∨ c = t.vintr ∨ c = t.vquit ∨
  (c ≠ 0 ∧ c < 127 ∧ c ≠ 10 ∧ c ≠ 13 ∧
    c ∉ [t.vkill, t.vwerase, t.veof, t.vstart, t.vstop, t.vsusp, t.veol, t.vreprint, t.vlnext, t.veol2])

/-! ## Proofs -/

/-- An ordinary character of the line. -/
def Ord (t : Cfg) (c : Nat) : Prop :=
  c ≠ 0 ∧ c < 127 ∧ c ≠ 10 ∧ c ≠ 13 ∧ c ≠ t.verase ∧ c ≠ t.vintr ∧ c ≠ t.vquit ∧
    c ∉ [t.vkill, t.vwerase, t.veof, t.vstart, t.vstop, t.vsusp, t.veol, t.vreprint, t.vlnext, t.veol2]

theorem echo_erase {t : Cfg} (hg : Good t) : echo t t.verase = [t.verase] := by
  have h1 := hg.eraseOnly
  simp only [List.mem_cons, not_or, List.not_mem_nil, not_false_iff, and_true] at h1
  have h2 := hg.erase
  have h3 : t.verase ≠ 10 := by
    rcases h2 with h | h
    · omega
    · simp at h; omega
  unfold echo
  simp [hg.gfx, hg.canon, hg.echo, hg.echoe, h1, h3]

theorem recv_erase {t : Cfg} (hg : Good t) (row : List Nat) : recv t row t.verase = row.dropLast := by
  have h1 := hg.eraseOnly
  simp only [List.mem_cons, not_or, List.not_mem_nil, not_false_iff, and_true] at h1
  have h2 := hg.erase
  unfold recv
  rw [if_neg (by omega), if_neg h1.2.2.1, if_neg h1.2.2.2.1, if_pos rfl]

theorem recv_print {t : Cfg} (row : List Nat) {b : Nat} (h : 32 ≤ b ∧ b < 127) : recv t row b = row ++ [b] := by
  unfold recv; rw [if_pos h]

theorem recvAll_append (t : Cfg) (row a b : List Nat) :
    recvAll t row (a ++ b) = recvAll t (recvAll t row a) b := by
  unfold recvAll; rw [List.foldl_append]

/-- Characters echoed as `^X`. -/
theorem echo_ctl {t : Cfg} (hg : Good t) {c : Nat} (hc : c < 32) (h9 : c ≠ 9) (h10 : c ≠ 10)
    (hn : c ≠ t.veof ∧ c ≠ t.vkill ∧ c ≠ t.vwerase ∧ c ≠ t.verase ∧ c ≠ t.vstart ∧ c ≠ t.vstop) :
    echo t c = [94, c + 64] ∧ caret t c = true := by
  have hcar : caret t c = true := by
    unfold caret
    simp [hg.echoctl, hc, h9, h10, hn]
  refine ⟨?_, hcar⟩
  have : (c + 64) % 256 = c + 64 := by omega
  unfold echo
  simp [hg.gfx, hg.canon, hg.echo, hg.echoe, hn, h10, hcar, this]

theorem recv_ctl {t : Cfg} (row : List Nat) {c : Nat} (hc : c < 32) :
    recvAll t row [94, c + 64] = row ++ [94, c + 64] := by
  unfold recvAll
  simp only [List.foldl_cons, List.foldl_nil]
  rw [recv_print _ (by omega), recv_print _ (by omega)]
  simp

/-- An ordinary character appears as it should, and as many characters as `width` says. -/
theorem echo_ord {t : Cfg} (hg : Good t) {c : Nat} (ho : Ord t c) (row : List Nat) :
    recvAll t row (echo t c) = row ++ shown c ∧ (shown c).length = width t c := by
  obtain ⟨h0, h1, h10, h13, he, hi, hq, hs⟩ := ho
  simp only [List.mem_cons, not_or, List.not_mem_nil, not_false_iff, and_true] at hs
  obtain ⟨s1, s2, s3, s4, s5, s6, s7, s8, s9, s10⟩ := hs
  by_cases hc : c < 32 ∧ c ≠ 9
  · obtain ⟨e1, e2⟩ := echo_ctl hg hc.1 hc.2 h10 ⟨s3, s1, s2, he, s4, s5⟩
    have hsh : shown c = [94, c + 64] := by unfold shown; rw [if_neg hc.2, if_pos hc.1]
    rw [e1, recv_ctl _ hc.1, hsh]
    refine ⟨rfl, ?_⟩
    unfold width; rw [if_pos e2]; rfl
  · have hcar : caret t c = false := by
      unfold caret
      by_cases h9 : c = 9
      · simp [h9]
      · have : ¬ c < 32 := fun h => hc ⟨h, h9⟩
        simp [this]; omega
    have e1 : echo t c = [c] := by
      unfold echo
      simp [hg.gfx, hg.canon, hg.echo, hg.echoe, s1, s2, s3, he, h10, hcar]
    have hsh : shown c = [c] := by
      unfold shown
      by_cases h9 : c = 9
      · rw [if_pos h9, h9]
      · rw [if_neg h9, if_neg (fun h => hc ⟨h, h9⟩), if_neg (by omega)]
    rw [e1, hsh]
    constructor
    · unfold recvAll
      simp only [List.foldl_cons, List.foldl_nil]
      by_cases h9 : c = 9
      · unfold recv
        rw [if_neg (by omega), if_neg s1, if_neg s2, if_neg he, if_neg h10, if_pos h9, h9]
      · exact recv_print _ ⟨by have : ¬ c < 32 := fun h => hc ⟨h, h9⟩
                               omega, h1⟩
    · unfold width; rw [if_neg (by simp [hcar])]; rfl

theorem handler_ord {t : Cfg} {c : Nat} (ho : Ord t c) (s : St) : (handler t c).bind (special t s) = none := by
  obtain ⟨h0, h1, h10, h13, he, hi, hq, hs⟩ := ho
  simp only [List.mem_cons, not_or, List.not_mem_nil, not_false_iff, and_true] at hs
  obtain ⟨s1, s2, s3, s4, s5, s6, s7, s8, s9, s10⟩ := hs
  unfold handler
  simp only [h0, s3, s4, s5, s6, s7, s8, s9, s10, hi, hq, if_false]
  split <;> rfl

theorem handler_erase {t : Cfg} (hg : Good t) (s : St) : (handler t t.verase).bind (special t s) = none := by
  have h1 := hg.eraseOnly
  simp only [List.mem_cons, not_or, List.not_mem_nil, not_false_iff, and_true] at h1
  obtain ⟨r1, r2, r3, r4, r5, r6, r7, r8, r9, r10, r11, r12⟩ := h1
  unfold handler
  simp only [r1, r2, r3, r4, r5, r6, r7, r8, r9, r10, r11, r12, if_false]
  split
  · rfl
  · split <;> rfl

theorem handler_intr {t : Cfg} (hg : Good t) : handler t t.vintr = some .intr := by
  have h1 := hg.intrOnly
  have h2 := hg.intr.2
  simp only [List.mem_cons, not_or, List.not_mem_nil, not_false_iff, and_true] at h1 h2
  unfold handler
  simp [h1, h2]

theorem handler_quit {t : Cfg} (hg : Good t) : handler t t.vquit = some .quit := by
  have h1 := hg.quitOnly
  have h2 := hg.quit.2
  simp only [List.mem_cons, not_or, List.not_mem_nil, not_false_iff, and_true] at h1 h2
  unfold handler
  simp [h1, h2]

/-- A sequence of erase characters removes characters at the end of the row. -/
theorem recv_erases {t : Cfg} (hg : Good t) (row : List Nat) : ∀ (n : Nat) (x : List Nat), x.length = n →
    recvAll t (row ++ x) (List.replicate n (echo t t.verase)).flatten = row := by
  intro n
  induction n with
  | zero => intro x hx; rw [List.length_eq_zero_iff.1 hx]; simp [recvAll]
  | succ n ih =>
    intro x hx
    rcases List.eq_nil_or_concat x with h | ⟨y, b, h⟩
    · rw [h] at hx; cases hx
    · rw [List.concat_eq_append] at h
      rw [h, List.replicate_succ, List.flatten_cons, recvAll_append]
      have h2 : recvAll t (row ++ (y ++ [b])) (echo t t.verase) = row ++ y := by
        rw [echo_erase hg]
        unfold recvAll
        simp only [List.foldl_cons, List.foldl_nil]
        rw [recv_erase hg, ← List.append_assoc, List.dropLast_concat]
      rw [h2]
      refine ih y ?_
      rw [h, List.length_append] at hx
      simpa using hx

theorem plain_ne {t : Cfg} (hg : Good t) {c : Nat} (hp : Plain t c) : c ≠ 10 ∧ c ≠ 13 := by
  rcases hp with h | h | h | h
  · have := hg.erase
    rw [h]
    rcases this with h1 | h1
    · rw [h1]; decide
    · have := h1.2
      simp only [List.mem_cons, not_or, List.not_mem_nil, not_false_iff, and_true] at this
      exact ⟨this.2.2.1, this.2.2.2⟩
  · have := hg.intr.2
    simp only [List.mem_cons, not_or, List.not_mem_nil, not_false_iff, and_true] at this
    rw [h]; exact ⟨this.2.2.1, this.2.2.2⟩
  · have := hg.quit.2
    simp only [List.mem_cons, not_or, List.not_mem_nil, not_false_iff, and_true] at this
    rw [h]; exact ⟨this.2.2.1, this.2.2.2⟩
  · exact ⟨h.2.2.1, h.2.2.2.1⟩

theorem sig_ne {t : Cfg} (hg : Good t) {c : Nat} (hci : c = t.vintr ∨ c = t.vquit) :
    (c < 32 ∧ c ≠ 9 ∧ c ≠ 10) ∧
    (c ≠ t.veof ∧ c ≠ t.vkill ∧ c ≠ t.vwerase ∧ c ≠ t.verase ∧ c ≠ t.vstart ∧ c ≠ t.vstop) := by
  have he := hg.eraseOnly
  simp only [List.mem_cons, not_or, List.not_mem_nil, not_false_iff, and_true] at he
  rcases hci with h | h
  · have h1 := hg.intr
    have h2 := hg.intrOnly
    simp only [List.mem_cons, not_or, List.not_mem_nil, not_false_iff, and_true] at h1 h2
    rw [h]
    exact ⟨⟨h1.1, h1.2.2.1, h1.2.2.2.1⟩, h2.2.2.2.1, h2.2.1, h2.2.2.1, fun x => he.1 x.symm, h2.2.2.2.2.1,
      h2.2.2.2.2.2.1⟩
  · have h1 := hg.quit
    have h2 := hg.quitOnly
    simp only [List.mem_cons, not_or, List.not_mem_nil, not_false_iff, and_true] at h1 h2
    rw [h]
    exact ⟨⟨h1.1, h1.2.2.1, h1.2.2.2.1⟩, h2.2.2.1, h2.1, h2.2.1, fun x => he.2.1 x.symm, h2.2.2.2.1,
      h2.2.2.2.2.1⟩

/-- What is kept: the screen shows what the user is to see. -/
structure Inv (t : Cfg) (row : List Nat) (s : St) (e : Ed) : Prop where
  line : s.ring = e.line
  view : recvAll t row s.out = e.view
  ord : ∀ c ∈ s.ring, Ord t c

theorem key_step {t : Cfg} (hg : Good t) {row : List Nat} {s : St} {e : Ed} (hi : Inv t row s e) {c : Nat}
    (hp : Plain t c) : Inv t row (key t c s) (e.key t c) := by
  have hsimp := plain_ne hg hp
  have hkey : key t c s = key2 t c s := by
    unfold key; rw [if_neg hsimp.2, if_neg hsimp.1]
  rw [hkey]
  by_cases hce : c = t.verase
  · subst hce
    have h1 : e.key t t.verase = { e with line := e.line.dropLast } := by unfold Ed.key; rw [if_pos rfl]
    have h2 : key2 t t.verase s = drop t s := by
      unfold key2; rw [handler_erase hg]; dsimp only; rw [hg.canon]; simp
    rw [h1, h2]
    unfold drop
    rcases List.eq_nil_or_concat s.ring with h | ⟨l, b, h⟩
    · rw [h]
      have h3 : e.line = [] := by rw [← hi.line, h]
      refine ⟨?_, ?_, hi.ord⟩
      · show s.ring = e.line.dropLast
        rw [h, h3]; rfl
      · show recvAll t row s.out = Ed.view { e with line := e.line.dropLast }
        rw [hi.view]
        unfold Ed.view
        rw [h3]; rfl
    · rw [List.concat_eq_append] at h
      have hb : Ord t b := hi.ord b (by rw [h]; simp)
      have h3 : e.line = l ++ [b] := by rw [← hi.line, h]
      rw [h, List.getLast?_concat]
      dsimp only
      refine ⟨?_, ?_, ?_⟩
      · show (l ++ [b]).dropLast = e.line.dropLast
        rw [h3]
      · show recvAll t row (s.out ++ _) = _
        rw [recvAll_append, hi.view]
        unfold Ed.view
        dsimp only
        rw [h3, List.dropLast_concat, List.flatMap_append]
        have h4 : List.flatMap shown [b] = shown b := by simp
        rw [h4, ← (echo_ord hg hb row).2, ← List.append_assoc]
        exact recv_erases hg _ _ (shown b) rfl
      · intro x hx
        refine hi.ord x ?_
        rw [h]
        rw [List.dropLast_concat] at hx
        exact List.mem_append_left _ hx
  · by_cases hci : c = t.vintr ∨ c = t.vquit
    · have h1 : e.key t c = { before := e.before ++ e.line.flatMap shown ++ shown c } := by
        unfold Ed.key; rw [if_neg hce, if_pos hci]
      obtain ⟨hlt, hne⟩ := sig_ne hg hci
      have h2 : key2 t c s = { ring := [], out := s.out ++ echo t c } := by
        unfold key2
        rcases hci with h | h
        · rw [h, handler_intr hg]; simp [special, hg.isig]
        · rw [h, handler_quit hg]; simp [special, hg.isig]
      rw [h1, h2]
      refine ⟨rfl, ?_, by simp⟩
      show recvAll t row (s.out ++ echo t c) = _
      rw [recvAll_append, hi.view, (echo_ctl hg hlt.1 hlt.2.1 hlt.2.2 hne).1, recv_ctl _ hlt.1]
      unfold Ed.view shown
      simp [hlt]
    · have ho : Ord t c := by
        simp only [not_or] at hci
        rcases hp with h | h | h | h
        · exact absurd h hce
        · exact absurd h hci.1
        · exact absurd h hci.2
        · exact ⟨h.1, h.2.1, h.2.2.1, h.2.2.2.1, hce, hci.1, hci.2, h.2.2.2.2⟩
      have h2 : key2 t c s = put t c s := by
        unfold key2; rw [handler_ord ho]; dsimp only; rw [hg.canon]; simp [hce]
      rw [h2]
      unfold put Ed.key
      rw [if_neg hce, if_neg hci, ← hi.line]
      show Inv t row (if s.ring.length < 1024 then _ else _) _
      by_cases hl : s.ring.length < 1024
      · rw [if_pos hl, if_pos hl]
        refine ⟨rfl, ?_, ?_⟩
        · show recvAll t row (s.out ++ echo t c) = _
          rw [recvAll_append, hi.view, (echo_ord hg ho _).1]
          unfold Ed.view
          dsimp only
          rw [hi.line]
          simp [List.flatMap_append]
        · intro x hx
          simp only [List.mem_append, List.mem_cons, List.not_mem_nil, or_false] at hx
          rcases hx with h | h
          · exact hi.ord x h
          · rw [h]; exact ho
      · rw [if_neg hl, if_neg hl]
        exact hi

/-- **C181.** In canonical mode with echo, whatever is typed of ordinary characters, erase, interrupt
and quit: the screen shows what was there before, and after it exactly the line as it will be read.
Partial: for the other special characters it is false (theorems below). -/
theorem line_shown_partial (t : Cfg) (hg : Good t) (row ks : List Nat) (hp : ∀ c ∈ ks, Plain t c) :
    recvAll t row (keys t ks {}).out = (ks.foldl (Ed.key t) { before := row }).view ∧
    (keys t ks {}).ring = (ks.foldl (Ed.key t) { before := row }).line := by
  have h : ∀ (ks : List Nat) (s : St) (e : Ed), (∀ c ∈ ks, Plain t c) → Inv t row s e →
      Inv t row (keys t ks s) (ks.foldl (Ed.key t) e) := by
    intro ks
    induction ks with
    | nil => intro s e _ hi; exact hi
    | cons c l ih =>
      intro s e hp hi
      exact ih _ _ (fun x hx => hp x (List.mem_cons_of_mem _ hx)) (key_step hg hi (hp c (List.mem_cons_self ..)))
  have := h ks {} { before := row } hp ⟨rfl, by simp [recvAll, Ed.view], by simp⟩
  exact ⟨this.view, this.line⟩

theorem good_default : Good {} := by
  constructor <;> decide

/-- "ls" ESC, erase, " x", erase, erase, with a prompt "$ ". -/
example : recvAll {} [36, 32] (keys {} [108, 115, 27, 127, 32, 120, 127, 127] {}).out = [36, 32, 108, 115] ∧
    (keys {} [108, 115, 27, 127, 32, 120, 127, 127] {}).ring = [108, 115] := by decide +kernel

example : ∀ c ∈ [108, 115, 27, 127, 32, 120, 3, 97], Plain {} c := by
  simp [Plain]

/-- **C181 violated.** The character that erases a word (Ctrl+W) erases it on the screen only: the line
"rm x" still has the word, and the character itself. -/
theorem werase_violated :
    recvAll {} [36, 32] (keys {} [114, 109, 32, 120, 0x17] {}).out = [36, 32, 114, 109, 32] ∧
    (keys {} [114, 109, 32, 120, 0x17] {}).ring = [114, 109, 32, 120, 0x17] := by decide +kernel

/-- **C181 violated.** Ctrl+U shows nothing but is taken for two characters when it is erased: the
screen is empty, the line is "ab". -/
theorem kill_violated :
    recvAll {} [36, 32] (keys {} [97, 98, 0x15, 127] {}).out = [36, 32] ∧
    (keys {} [97, 98, 0x15, 127] {}).ring = [97, 98] := by decide +kernel

/-- **C181 violated.** After Ctrl+Z, which does nothing but show "^Z", erasing takes that away instead
of the character of the line: the screen shows "ab^", the line is "a". -/
theorem susp_violated :
    recvAll {} [36, 32] (keys {} [97, 98, 0x1a, 127] {}).out = [36, 32, 97, 98, 94] ∧
    (keys {} [97, 98, 0x1a, 127] {}).ring = [97] := by decide +kernel

/-- **C181 violated.** The end-of-file character is not shown, but erasing it takes away two characters
of the prompt or of what was typed before. -/
theorem eof_violated :
    recvAll {} [36, 32] (keys {} [4, 127] {}).out = [] ∧ (keys {} [4, 127] {}).ring = [] ∧
    recvAll {} [36, 32] (keys {} [97, 98, 4, 127] {}).out = [36, 32] ∧
    (keys {} [97, 98, 4, 127] {}).ring = [97, 98] := by decide +kernel

/-- **C181 violated.** If another character erases, the DEL character is shown as "^" and byte 191,
for "^?". -/
theorem del_shown_violated :
    (keys { verase := 8 } [127] {}).ring = [127] ∧ (keys { verase := 8 } [127] {}).out = [94, 191] ∧
    shown 127 = [94, 63] := by decide +kernel

theorem echo_off_one (t : Cfg) (he : t.echo = false) (c : Nat) : echo t c = [] ∨ (t.echonl = true ∧ echo t c = [10]) := by
  unfold echo
  simp only [he]
  cases t.gfx <;> simp
  by_cases h : c = 10 ∧ t.echonl = true
  · right; simp [h.1, h.2]
  · left; intro h1; simpa using fun h2 => h ⟨h1, h2⟩

/-- Bytes that may be written although ECHO is off. -/
def Quiet (t : Cfg) (l : List Nat) : Prop := ∀ b ∈ l, b = 10 ∧ t.echonl = true

theorem quiet_echo {t : Cfg} (he : t.echo = false) (c : Nat) : Quiet t (echo t c) := by
  intro b hb
  rcases echo_off_one t he c with h | ⟨h1, h2⟩
  · rw [h] at hb; simp at hb
  · rw [h2] at hb; simp at hb; exact ⟨hb, h1⟩

theorem quiet_append {t : Cfg} {a b : List Nat} (h1 : Quiet t a) (h2 : Quiet t b) : Quiet t (a ++ b) := by
  intro x hx
  rcases List.mem_append.1 hx with h | h
  · exact h1 x h
  · exact h2 x h

/-- The new output of a step. -/
def Grows (t : Cfg) (s s' : St) : Prop := ∃ l, s'.out = s.out ++ l ∧ Quiet t l

theorem grows_refl {t : Cfg} {s s' : St} (h : s'.out = s.out) : Grows t s s' :=
  ⟨[], by rw [h]; simp, fun _ h => (List.not_mem_nil h).elim⟩

theorem grows_trans {t : Cfg} {a b c : St} (h1 : Grows t a b) (h2 : Grows t b c) : Grows t a c := by
  obtain ⟨l1, e1, q1⟩ := h1
  obtain ⟨l2, e2, q2⟩ := h2
  exact ⟨l1 ++ l2, by rw [e2, e1, List.append_assoc], quiet_append q1 q2⟩

theorem put_quiet {t : Cfg} (he : t.echo = false) (c : Nat) (s : St) : Grows t s (put t c s) := by
  unfold put
  split
  · exact ⟨_, rfl, quiet_echo he c⟩
  · exact grows_refl rfl

theorem drop_quiet {t : Cfg} (he : t.echo = false) (s : St) : Grows t s (drop t s) := by
  unfold drop
  split
  · exact grows_refl rfl
  · refine ⟨_, rfl, ?_⟩
    intro b hb
    obtain ⟨l, hl, hb⟩ := List.mem_flatten.1 hb
    rw [(List.mem_replicate.1 hl).2] at hb
    exact quiet_echo he _ b hb

theorem special_quiet {t : Cfg} (he : t.echo = false) {s s1 : St} {h : Hnd} (h1 : special t s h = some s1) :
    Grows t s s1 := by
  cases h <;> simp only [special] at h1 <;> first
    | cases h1
    | (split at h1
       · cases h1
         first
         | exact grows_refl rfl
         | exact put_quiet he _ _
         | exact ⟨_, rfl, quiet_echo he _⟩
       · cases h1)

theorem key2_quiet {t : Cfg} (he : t.echo = false) (c : Nat) (s : St) : Grows t s (key2 t c s) := by
  unfold key2
  split
  · rename_i s1 h
    cases hh : handler t c with
    | none => rw [hh] at h; cases h
    | some x => rw [hh] at h; exact special_quiet he h
  · split
    · split
      · exact drop_quiet he s
      · exact put_quiet he c s
    · exact put_quiet he c s

theorem key_quiet {t : Cfg} (he : t.echo = false) (c : Nat) (s : St) : Grows t s (key t c s) := by
  unfold key
  (repeat' split) <;> first | exact grows_refl rfl | exact key2_quiet he _ s

/-- **C182.** Without ECHO nothing of what is typed is written to the terminal, whatever the other
settings, the mode and the keys: no byte at all, or with ECHONL only line ends. -/
theorem no_echo (t : Cfg) (he : t.echo = false) (ks : List Nat) (s : St) :
    (t.echonl = false → (keys t ks s).out = s.out) ∧
    ∃ l, (keys t ks s).out = s.out ++ l ∧ ∀ b ∈ l, b = 10 := by
  have h : ∀ (ks : List Nat) (s : St), Grows t s (keys t ks s) := by
    intro ks
    induction ks with
    | nil => intro s; exact grows_refl rfl
    | cons c l ih => intro s; exact grows_trans (key_quiet he c s) (ih _)
  obtain ⟨l, e, q⟩ := h ks s
  refine ⟨?_, l, e, fun b hb => (q b hb).1⟩
  intro hn
  cases l with
  | nil => rw [e]; simp
  | cons b l =>
    have := (q b (List.mem_cons_self ..)).2
    rw [hn] at this; cases this

/-- A password, with an erased character and a line end. -/
example : (keys { echo := false } [115, 51, 99, 127, 120, 13] {}).out = [] ∧
    (keys { echo := false } [115, 51, 99, 127, 120, 13] {}).ring = [115, 51, 120, 10] ∧
    (keys { echo := false, echonl := true } [115, 51, 13] {}).out = [10] := by decide +kernel

/-- Nothing is written in graphics mode, whatever the settings. -/
theorem no_echo_graphics (t : Cfg) (hg : t.gfx = true) (c : Nat) : echo t c = [] := by
  unfold echo; rw [if_pos hg]

/-- **C182 violated.** ECHONL is for canonical mode only (termios(3)), but the line end is also written
in raw mode. -/
theorem echonl_raw_violated :
    (keys { echo := false, echonl := true, canon := false, icrnl := false } [97, 10] {}).out = [10] := by
  decide +kernel

end Verif.TtyEcho
