/-!
# The video terminal (modules/console/video_term.c, term_actions.c.h)

Properties C104 to C109.

The terminal keeps its text in a ring of `total` lines of `cols` cells: the visible line `i` is the
ring line `(i + scroll) % total`.  A cell is a `u16` (character in the low byte, colour in the high
byte).  `tabs` remembers, for the last cell of a tab, how many cells the tab spans.

Outcome `none` is a memory fault: an access outside the tab map, or to a column past the end of a
line.  Accesses to the text ring itself use a line number reduced modulo `total`
(video_term_int.h:402-403), so the line is always inside the ring.  The colour of the cursor's cell
is read even when the cursor stands after the last column: `overread` records that such a read went
past the end of the ring, and `junk` is the value found there.

Simplifications.  `scroll` and `max_scroll` do not wrap (that takes `2^32` lines of output).  The
text and tab buffers exist (they are missing only while the kernel starts or panics).  `disp` is
what the video driver was told to show; pausing the output replaces the driver by one which does
nothing.  The hardware cursor is not modelled.
-/
namespace Verif.Vterm

/-- include/tilck/common/color_defs.h:44 `make_vgaentry`. -/
def mkEntry (ch color : Nat) : Nat := ch + 256 * color

/-- include/tilck/common/color_defs.h:48 `vgaentry_get_color`. -/
def colorOf (e : Nat) : Nat := e / 256

/-- include/tilck/common/color_defs.h:47 `vgaentry_get_char`. -/
def charOf (e : Nat) : Nat := e % 256

/-- include/tilck/common/color_defs.h:33-38 `DEFAULT_COLOR16`: white on black. -/
def defColor : Nat := 7

/-- modules/console/vterm_struct.h:10-62 `struct vterm`.  `mainTabs`/`altTabs` are the two tab maps
(`tabs_buf` points to one of them), `mainS`… the two scroll regions, `alt` is `using_alt_buffer`,
`copy` is `screen_buf_copy` and `hasCopy` says that it was allocated.  `hw` says that the video
driver has `scroll_one_line_up`. -/
structure T where
  rows : Nat
  cols : Nat
  extra : Nat
  scroll : Nat
  maxScroll : Nat
  r : Nat
  c : Nat
  buf : Nat → Nat → Nat
  mainTabs : Nat → Nat → Nat
  altTabs : Nat → Nat → Nat
  alt : Bool
  mainS : Nat
  mainE : Nat
  altS : Nat
  altE : Nat
  savedR : Nat
  savedC : Nat
  copy : Nat → Nat → Nat
  hasCopy : Bool
  cursorOn : Bool
  paused : Bool
  lost : Bool
  hw : Bool
  disp : Nat → Nat → Nat
  junk : Nat
  overread : Bool

/-- modules/console/video_term.c:635 `total_buffer_rows`. -/
def T.total (t : T) : Nat := t.rows + t.extra

/-- modules/console/video_term_int.h:402 `calc_buf_row`. -/
def T.ring (t : T) (i : Nat) : Nat := (i + t.scroll) % t.total

/-- modules/console/video_term_int.h:405 `buf_get_entry`, for a column inside the line. -/
def T.cell (t : T) (i j : Nat) : Nat := t.buf (t.ring i) j

/-- `*t->start_scroll_region`. -/
def T.sR (t : T) : Nat := if t.alt then t.altS else t.mainS

/-- `*t->end_scroll_region + 1`. -/
def T.eR (t : T) : Nat := (if t.alt then t.altE else t.mainE) + 1

/-- `t->tabs_buf`. -/
def T.tabs (t : T) : Nat → Nat → Nat := if t.alt then t.altTabs else t.mainTabs

/-- A write to the tab map in use. -/
def T.setTabs (t : T) (f : Nat → Nat → Nat) : T :=
  if t.alt then { t with altTabs := f } else { t with mainTabs := f }

/-- `memcpy`/`memset16` of a whole visible line `d` of the text buffer. -/
def T.setLine (t : T) (d : Nat) (f : Nat → Nat) : T :=
  { t with buf := fun k => if k = t.ring d then f else t.buf k }

/-- modules/console/video_term_int.h:404 `buf_set_entry`; a column past the end of the line is a
fault. -/
def T.setEntry (t : T) (i j e : Nat) : Option T :=
  if j < t.cols then some (t.setLine i fun k => if k = j then e else t.cell i k) else none

/-- `t->vi->set_char_at`, to be called for cells of the screen only. -/
def T.show1 (t : T) (i j e : Nat) : Option T :=
  if i < t.rows ∧ j < t.cols then
    some (if t.paused then t
      else { t with disp := fun a b => if a = i ∧ b = j then e else t.disp a b })
  else none

/-- `buf_set_entry` followed by `set_char_at`. -/
def T.put (t : T) (i j e : Nat) : Option T := (t.setEntry i j e).bind fun t => t.show1 i j e

/-- The colour of the cursor's cell is read: modules/console/video_term.c:48-62.  With the cursor
after the last column of the last line of the ring the read is past the end of the buffer. -/
def T.peek (t : T) : T :=
  if t.c = t.cols ∧ t.ring t.r + 1 = t.total then { t with overread := true } else t

/-- modules/console/video_term.c:48-54 `get_curr_cell_color`: after the last column this is the
colour of the first cell of the next line of the ring. -/
def T.curColor (t : T) : Nat :=
  if t.c < t.cols then colorOf (t.cell t.r t.c)
  else if t.ring t.r + 1 = t.total then colorOf t.junk
  else colorOf (t.buf (t.ring t.r + 1) 0)

/-- A loop `for (i = a; i < b; i++)`: `k` iterations from `a`. -/
def forN (f : T → Nat → Option T) : Nat → Nat → T → Option T
  | _, 0, t => some t
  | a, k + 1, t => (f t a).bind fun t => forN f (a + 1) k t

/-- modules/console/video_term.c:28-41 `buf_copy_row`. -/
def T.copyRow (t : T) (dest src : Nat) : Option T :=
  if dest = src then some t
  else if dest < t.rows ∧ src < t.rows then
    some ((t.setLine dest (t.cell src)).setTabs fun a => if a = dest then t.tabs src else t.tabs a)
  else none

/-- modules/console/video_term.c:152-163 `ts_buf_clear_row`. -/
def T.clearBuf (t : T) (row color : Nat) : Option T :=
  if row < t.rows then
    some ((t.setLine row fun _ => mkEntry 32 color).setTabs
      fun a => if a = row then fun _ => 0 else t.tabs a)
  else none

/-- `vi->clear_row`. -/
def T.showBlank (t : T) (row color : Nat) : T :=
  if t.paused then t
  else { t with disp := fun a => if a = row then fun _ => mkEntry 32 color else t.disp a }

/-- modules/console/video_term.c:165-169 `ts_clear_row`. -/
def T.clearRow (t : T) (row color : Nat) : Option T :=
  (t.clearBuf row color).map fun t => t.showBlank row color

/-- modules/console/video_term.c:80-105 `term_redraw2` for the lines `s` to `e`. -/
def T.redraw2 (t : T) (s e : Nat) : T :=
  if t.paused then t
  else { t with disp := fun a => if s ≤ a ∧ a < e then t.cell a else t.disp a }

/-- modules/console/video_term.c:97-100 `term_redraw`. -/
def T.redraw (t : T) : T := t.redraw2 0 t.rows

/-- modules/console/video_term.c:107-130 `ts_set_scroll`. -/
def T.setScroll (t : T) (req : Nat) : T :=
  let minS := if t.maxScroll > t.extra then t.maxScroll - t.extra else 0
  let req := min (max req minS) t.maxScroll
  if req = t.scroll then t else T.redraw { t with scroll := req }

/-- modules/console/video_term.c:171-187 `term_int_scroll_up`. -/
def T.scrollUp (t : T) (lines : Nat) : T :=
  let t := t.setScroll (if lines > t.scroll then 0 else t.scroll - lines)
  if t.cursorOn ∧ t.scroll = t.maxScroll then t.peek else t

/-- modules/console/video_term.c:189-199 `term_int_scroll_down`. -/
def T.scrollDown (t : T) (lines : Nat) : T :=
  let t := t.setScroll (t.scroll + lines)
  if t.cursorOn ∧ t.scroll = t.maxScroll then t.peek else t

/-- modules/console/video_term.c:201-218 `term_internal_non_buf_scroll_up`. -/
def T.nonBufUp (t : T) (n : Nat) : Option T :=
  if n = 0 then some t
  else
    let s := t.sR
    let e := t.eR
    let n := min n (e - s)
    (forN (fun t row => t.copyRow row (row + n)) s (e - n - s) t).bind fun t =>
    (forN (fun t row => t.clearBuf row defColor) (e - n) n t).map fun t =>
    t.redraw2 s e

/-- The downward loop of video_term.c:230-231 and term_actions.c.h:471-472:
`for (u32 row = …; row > lo; row--) buf_copy_row(t, row - 1 + n, row - 1)`. -/
def downLoop (n lo : Nat) : Nat → T → Option T
  | 0, t => some t
  | row + 1, t =>
    if row + 1 > lo then (t.copyRow ((row + n) % 2 ^ 32) row).bind fun t => downLoop n lo row t
    else some t

/-- modules/console/video_term.c:220-237 `term_internal_non_buf_scroll_down`: the number of lines is
limited by the height of the screen and not of the region; `eR - n` is converted to `u32`. -/
def T.nonBufDown (t : T) (n : Nat) : Option T :=
  if n = 0 then some t
  else
    let s := t.sR
    let e := t.eR
    let n := min n t.rows
    (downLoop n s ((e + 2 ^ 32 - n) % 2 ^ 32) t).bind fun t =>
    (forN (fun t row => t.clearBuf row defColor) s (n - s) t).map fun t =>
    t.redraw2 s e

/-- modules/console/video_term.c:239-249 `term_int_move_cur`. -/
def T.moveCur (t : T) (row col : Nat) : T :=
  { t with r := min row (t.rows - 1), c := min col (t.cols - 1) }

/-- The signed clamp of term_actions.c.h:163-164. -/
def clampI (x : Int) (hi : Nat) : Nat := min x.toNat hi

/-- modules/console/term_actions.c.h:157-168 `term_action_move_cur_rel`. -/
def T.moveRel (t : T) (dr dc : Int) : T :=
  { t with r := clampI (t.r + dr) (t.rows - 1), c := clampI (t.c + dc) (t.cols - 1) }

/-- modules/console/video_term.c:273-286: the tab map follows the text one line up. -/
def T.tabsUp (t : T) : T :=
  t.setTabs fun a => if a + 1 < t.rows then t.tabs (a + 1) else t.tabs a

/-- `vi->scroll_one_line_up`. -/
def T.showUp (t : T) : T :=
  if t.paused then t
  else { t with disp := fun a => if a + 1 < t.rows then t.disp (a + 1) else t.disp a }

/-- modules/console/video_term.c:271-299: the whole screen goes one line up in the ring.  The driver
which does nothing has a `scroll_one_line_up` too. -/
def T.ringUp (t : T) : Option T :=
  let t := T.tabsUp { t with maxScroll := t.maxScroll + 1 }
  if t.hw ∨ t.paused then
    T.clearRow (T.showUp { t with scroll := t.scroll + 1 }) (t.rows - 1) defColor
  else
    (T.clearBuf { t with scroll := t.maxScroll } (t.rows - 1) defColor).map fun t => t.redraw

/-- modules/console/video_term.c:251-300 `term_internal_incr_row`. -/
def T.incrRow (t : T) : Option T :=
  if t.r + 1 < t.eR then some { t with r := t.r + 1 }
  else if t.sR ≠ 0 ∨ t.eR < t.rows then
    if t.r + 1 = t.eR then t.nonBufUp 1
    else if t.r + 1 < t.rows then some { t with r := t.r + 1 } else some t
  else t.ringUp

/-- modules/console/video_term.c:302-308 `term_internal_write_printable_char`. -/
def T.printable (t : T) (ch color : Nat) : Option T :=
  (t.put t.r t.c (mkEntry ch color)).map fun t => { t with c := (t.c + 1) % 65536 }

/-- modules/console/video_term.c:323 `tab_col` (`tabsize` is 8, `u32` arithmetic). -/
def T.tabCol (t : T) : Nat :=
  (min ((t.c + 1 + 7) / 8 * 8) (t.cols - 1) + (2 ^ 32 - 1)) % 2 ^ 32

/-- modules/console/video_term.c:310-333 `term_internal_write_tab`. -/
def T.tab (t : T) : Option T :=
  let k := t.tabCol
  if t.r < t.rows ∧ k < t.cols then
    let w := (k + 1 + 2 ^ 32 - t.c) % 2 ^ 32 % 256
    let t' := t.setTabs fun a b => if a = t.r ∧ b = k then w else t.tabs a b
    some { t' with c := (k + 1) % 65536 }
  else none

/-- modules/console/video_term.c:352-371: the erasing part of `term_internal_write_backspace`, with
the cursor after the first column.  All is `u16` arithmetic. -/
def T.eraseBack (t : T) (color : Nat) : Option T :=
  let c := t.c - 1
  if t.r < t.rows ∧ c < t.cols then
    let w := t.tabs t.r c
    if w = 0 then T.put { t with c := c } t.r c (mkEntry 32 color)
    else
      let t' := t.setTabs fun a b => if a = t.r ∧ b = c then 0 else t.tabs a b
      some { t' with c := (c + 65536 + 1 - w) % 65536 }
  else none

/-- modules/console/video_term.c:335-371 `term_internal_write_backspace`. -/
def T.backspace (t : T) (color : Nat) : Option T :=
  if t.c = 0 then
    if t.r = 0 then some t
    else T.eraseBack { t with r := t.r - 1, c := t.cols } color
  else t.eraseBack color

/-- The loops of modules/console/video_term.c:377-395: erase backwards while the character before
the cursor is (`sp = true`) or is not (`sp = false`) a space.  The first argument bounds the
number of iterations; each iteration moves the cursor left as long as the widths of the tabs are
right, and running out of it counts as a fault. -/
def wordLoop (sp : Bool) (color : Nat) : Nat → T → Option T
  | 0, t => if t.c = 0 then some t else none
  | k + 1, t =>
    if t.c = 0 then some t
    else if t.c - 1 < t.cols then
      if (charOf (t.cell t.r (t.c - 1)) = 32) = (sp = true) then
        (t.backspace color).bind fun t => wordLoop sp color k t
      else some t
    else none

/-- modules/console/video_term.c:373-396 `term_internal_delete_last_word`. -/
def T.delWord (t : T) (color : Nat) : Option T :=
  (wordLoop true color t.c t).bind fun t => wordLoop false color t.c t

/-- modules/console/video_term.c:398-424 `term_internal_write_char2`. -/
def T.putc (t : T) (ch color : Nat) : Option T :=
  if ch = 10 then t.incrRow
  else if ch = 13 then some { t with c := 0 }
  else if ch = 9 then t.tab
  else if t.c = t.cols then (T.incrRow { t with c := 0 }).bind fun t => t.printable ch color
  else t.printable ch color

/-- modules/console/term_actions.c.h:172-183 `term_action_reset`. -/
def T.reset (t : T) : Option T :=
  let t := t.moveCur 0 0
  let t := { t with scroll := 0, maxScroll := 0 }
  (forN (fun t row => t.clearRow row defColor) 0 t.rows t).map fun t => t.setTabs fun _ _ => 0

/-- Blank the cells `a` to `b` of the cursor's line (the loops of term_actions.c.h:198-201, 215-218,
258-261, 265-268). -/
def T.blankCells (t : T) (a b : Nat) : Option T :=
  forN (fun t col => t.put t.r col (mkEntry 32 defColor)) a (b - a) t

/-- modules/console/term_actions.c.h:187-246 `term_action_erase_in_display`. -/
def T.eraseDisplay (t : T) (mode : Nat) : Option T :=
  if mode = 0 then
    (t.blankCells t.c t.cols).bind fun t =>
    forN (fun t row => t.clearRow row defColor) (t.r + 1) (t.rows - (t.r + 1)) t
  else if mode = 1 then
    (forN (fun t row => t.clearRow row defColor) 0 t.r t).bind fun t => t.blankCells 0 t.c
  else if mode = 2 then forN (fun t row => t.clearRow row defColor) 0 t.rows t
  else if mode = 3 then t.reset
  else some t

/-- modules/console/term_actions.c.h:250-278 `term_action_erase_in_line`. -/
def T.eraseLine (t : T) (mode : Nat) : Option T :=
  if mode = 0 then t.blankCells t.c t.cols
  else if mode = 1 then t.blankCells 0 t.c
  else if mode = 2 then t.clearRow t.r defColor
  else some t

/-- The loops `for (c = t->c; c < t->cols; c++) set_char_at(row, c, buf_row[c])` of
term_actions.c.h:324-325, 343-344, 358-359. -/
def T.showRest (t : T) : Option T :=
  forN (fun t col => t.show1 t.r col (t.cell t.r col)) t.c (t.cols - t.c) t

/-- `make_vgaentry(' ', vgaentry_get_color(e))`. -/
def blanked (e : Nat) : Nat := mkEntry 32 (colorOf e)

/-- modules/console/term_actions.c.h:312-326 `term_action_ins_blank_chars`. -/
def T.insChars (t : T) (n : Nat) : Option T :=
  let n := min n (t.cols - t.c)
  T.showRest (t.setLine t.r fun k =>
    if k < t.c then t.cell t.r k
    else if k < t.c + n then blanked (t.cell t.r k)
    else t.cell t.r (k - n))

/-- modules/console/term_actions.c.h:330-345 `term_action_del_chars_in_line`. -/
def T.delChars (t : T) (n : Nat) : Option T :=
  let n := min n (t.cols - t.c)
  T.showRest (t.setLine t.r fun k =>
    if k < t.c then t.cell t.r k
    else if k + n < t.cols then t.cell t.r (k + n)
    else blanked (t.cell t.r k))

/-- modules/console/term_actions.c.h:349-360 `term_action_erase_chars_in_line`. -/
def T.eraseChars (t : T) (n : Nat) : Option T :=
  T.showRest (t.setLine t.r fun k =>
    if k < t.c then t.cell t.r k
    else if k < t.c + n then blanked (t.cell t.r k)
    else t.cell t.r k)

/-- modules/console/term_actions.c.h:364-373 `term_action_pause_output`: `lost` says that
the driver put aside is the one which does nothing. -/
def T.pause (t : T) : T := { t with lost := t.paused, paused := true }

/-- modules/console/video_term.c:64-78 `term_int_enable_cursor`. -/
def T.enableCursor (t : T) (v : Bool) : T :=
  if v then { t.peek with cursorOn := true } else { t with cursorOn := false }

/-- modules/console/term_actions.c.h:377-393 `term_action_restart_output`. -/
def T.restart (t : T) : T :=
  let t := T.redraw { t with paused := t.lost }
  if t.scroll = t.maxScroll then t.enableCursor t.cursorOn else t

/-- modules/console/term_actions.c.h:435-440: the saved lines `0` to `n - 1` are put back. -/
def T.restore (t : T) : Nat → T
  | 0 => t
  | n + 1 => (t.restore n).setLine n (t.copy n)

/-- modules/console/term_actions.c.h:397-453 `term_action_use_alt_buffer`; `ok` says whether the
allocation of video_term.c:426-446 succeeds, when one is needed.  The new tab map is zeroed. -/
def T.useAlt (t : T) (v ok : Bool) : T :=
  if t.alt = v then t
  else if v then
    if t.hasCopy = false ∧ ok = false then t
    else
      let t := if t.hasCopy then t else { t with hasCopy := true, altTabs := fun _ _ => 0 }
      let t := { t with savedR := t.r, savedC := t.c, copy := fun i => t.cell i, alt := true }
      t.redraw.enableCursor t.cursorOn
  else
    let t := { t.restore t.rows with r := t.savedR, c := t.savedC, alt := false }
    t.redraw.enableCursor t.cursorOn

/-- modules/console/term_actions.c.h:457-478 `term_action_ins_blank_lines`. -/
def T.insLines (t : T) (n : Nat) : Option T :=
  if n = 0 then some t
  else if t.r ≥ t.eR then some t
  else
    let s := t.sR
    let e := t.eR
    let t := { t with c := 0 }
    let n := min n (e - t.r)
    (downLoop n t.r (e - n) t).bind fun t =>
    (forN (fun t row => t.clearBuf row defColor) t.r n t).map fun t =>
    t.redraw2 s e

/-- modules/console/term_actions.c.h:482-502 `term_action_del_lines`. -/
def T.delLines (t : T) (n : Nat) : Option T :=
  if n = 0 then some t
  else if t.r ≥ t.eR then some t
  else
    let s := t.sR
    let e := t.eR
    let n := min n (e - t.r)
    (forN (fun t row => t.copyRow row (row + n)) t.r (n + 1) t).bind fun t =>
    (forN (fun t row => t.clearBuf row defColor) (e - n) n t).map fun t =>
    t.redraw2 s e

/-- modules/console/term_actions.c.h:506-518 `term_action_set_scroll_region`. -/
def T.setRegion (t : T) (s e : Nat) : T :=
  let s := min s (t.rows - 1)
  let e := min e (t.rows - 1)
  if s ≥ e then t
  else
    let t := if t.alt then { t with altS := s, altE := e } else { t with mainS := s, mainE := e }
    t.moveCur 0 0

/-- What happens to the screen while a text is written: characters, and the actions of
modules/console/video_term_int.h:14-35 with their arguments. -/
inductive Act
  | putc (ch color : Nat)
  | delPrev
  | delWord
  | eraseDisplay (mode : Nat)
  | eraseLine (mode : Nat)
  | nonBufUp (n : Nat)
  | nonBufDown (n : Nat)
  | moveCur (row col : Nat)
  | moveRel (dr dc : Int)
  | reset
  | enableCursor (v : Bool)
  | useAlt (v ok : Bool)
  | insLines (n : Nat)
  | delLines (n : Nat)
  | setRegion (s e : Nat)
  | insChars (n : Nat)
  | delChars (n : Nat)
  | eraseChars (n : Nat)
  deriving DecidableEq, Repr

/-- modules/console/term_action_wrappers.c.h:27-76 `term_execute_action` (the colour of the erased
cells for `a_del_generic`: term_actions.c.h:289-295). -/
def T.exec (t : T) : Act → Option T
  | .putc ch color => t.putc ch color
  | .delPrev => t.peek.backspace t.curColor
  | .delWord => t.peek.delWord t.curColor
  | .eraseDisplay m => t.eraseDisplay m
  | .eraseLine m => t.eraseLine m
  | .nonBufUp n => t.nonBufUp n
  | .nonBufDown n => t.nonBufDown n
  | .moveCur row col => some (t.moveCur row col)
  | .moveRel dr dc => some (t.moveRel dr dc)
  | .reset => t.reset
  | .enableCursor v => some (t.enableCursor v)
  | .useAlt v ok => some (t.useAlt v ok)
  | .insLines n => t.insLines n
  | .delLines n => t.delLines n
  | .setRegion s e => some (t.setRegion s e)
  | .insChars n => t.insChars n
  | .delChars n => t.delChars n
  | .eraseChars n => t.eraseChars n

/-- What the terminal is asked to do from outside. -/
inductive Op
  | write (acts : List Act)
  | scrollUp (n : Nat)
  | scrollDown (n : Nat)
  | pause
  | restart
  deriving DecidableEq, Repr

/-- A list of actions, one after the other. -/
def T.execs (t : T) : List Act → Option T
  | [] => some t
  | a :: l => (t.exec a).bind fun t => t.execs l

/-- modules/console/term_actions.c.h:109-143 `term_action_write`: back to the bottom, the text, and
the cursor is shown. -/
def T.write (t : T) (acts : List Act) : Option T :=
  ((t.setScroll t.maxScroll).execs acts).map fun t => if t.cursorOn then t.peek else t

def T.op (t : T) : Op → Option T
  | .write acts => t.write acts
  | .scrollUp n => some (t.scrollUp n)
  | .scrollDown n => some (t.scrollDown n)
  | .pause => some t.pause
  | .restart => some t.restart

/-- Any sequence of requests. -/
def T.run (t : T) : List Op → Option T
  | [] => some t
  | o :: l => (t.op o).bind fun t => t.run l

/-- modules/console/video_term.c:579-687 `init_vterm` for a terminal whose buffers could be
allocated; `m` is what the memory of the buffers contained before.  Terminals other than the first
one start with their output paused (video_term.c:607). -/
def init (rows cols extra : Nat) (m : Nat → Nat → Nat) (junk : Nat) (hw paused : Bool) : T :=
  { rows, cols, extra, scroll := 0, maxScroll := 0, r := 0, c := 0,
    buf := fun k => if k < rows then fun _ => mkEntry 32 defColor else m k,
    mainTabs := fun _ _ => 0, altTabs := fun _ _ => 0, alt := false,
    mainS := 0, mainE := rows - 1, altS := 0, altE := rows - 1, savedR := 0, savedC := 0,
    copy := m, hasCopy := false, cursorOn := true, paused, lost := false, hw,
    disp := fun _ _ => mkEntry 32 defColor, junk, overread := false }

/-! ## Shape of the state -/

/-- Everything but the text, the tab maps and what is shown. -/
def T.core (t : T) : T :=
  { t with buf := fun _ _ => 0, mainTabs := fun _ _ => 0, altTabs := fun _ _ => 0,
           disp := fun _ _ => 0, overread := false }

/-- The widths in the tab maps do not reach before the beginning of the line. -/
def TabsOk (t : T) : Prop := ∀ a b, t.mainTabs a b ≤ b + 1 ∧ t.altTabs a b ≤ b + 1

/-- Sizes, cursor, scrolling and regions are consistent. -/
structure Geo (t : T) : Prop where
  rows : 0 < t.rows ∧ t.rows < 32768
  cols : 1 < t.cols ∧ t.cols < 32768
  cur : t.r < t.rows ∧ t.c ≤ t.cols
  scroll : t.scroll ≤ t.maxScroll ∧ t.maxScroll ≤ t.scroll + t.extra
  main : t.mainS ≤ t.mainE ∧ t.mainE < t.rows
  alt : t.altS ≤ t.altE ∧ t.altE < t.rows
  saved : t.savedR < t.rows ∧ t.savedC ≤ t.cols

/-- What is shown is the visible part of the text. -/
def Mirror (t : T) : Prop :=
  t.paused = false → ∀ i < t.rows, ∀ j < t.cols, t.disp i j = t.cell i j

theorem core_rows {t t' : T} (h : t'.core = t.core) : t'.rows = t.rows :=
  (congrArg T.rows h : t'.core.rows = t.core.rows)
theorem core_cols {t t' : T} (h : t'.core = t.core) : t'.cols = t.cols :=
  (congrArg T.cols h : t'.core.cols = t.core.cols)
theorem core_extra {t t' : T} (h : t'.core = t.core) : t'.extra = t.extra :=
  (congrArg T.extra h : t'.core.extra = t.core.extra)
theorem core_scroll {t t' : T} (h : t'.core = t.core) : t'.scroll = t.scroll :=
  (congrArg T.scroll h : t'.core.scroll = t.core.scroll)
theorem core_maxScroll {t t' : T} (h : t'.core = t.core) : t'.maxScroll = t.maxScroll :=
  (congrArg T.maxScroll h : t'.core.maxScroll = t.core.maxScroll)
theorem core_r {t t' : T} (h : t'.core = t.core) : t'.r = t.r :=
  (congrArg T.r h : t'.core.r = t.core.r)
theorem core_c {t t' : T} (h : t'.core = t.core) : t'.c = t.c :=
  (congrArg T.c h : t'.core.c = t.core.c)
theorem core_alt {t t' : T} (h : t'.core = t.core) : t'.alt = t.alt :=
  (congrArg T.alt h : t'.core.alt = t.core.alt)
theorem core_mainS {t t' : T} (h : t'.core = t.core) : t'.mainS = t.mainS :=
  (congrArg T.mainS h : t'.core.mainS = t.core.mainS)
theorem core_mainE {t t' : T} (h : t'.core = t.core) : t'.mainE = t.mainE :=
  (congrArg T.mainE h : t'.core.mainE = t.core.mainE)
theorem core_altS {t t' : T} (h : t'.core = t.core) : t'.altS = t.altS :=
  (congrArg T.altS h : t'.core.altS = t.core.altS)
theorem core_altE {t t' : T} (h : t'.core = t.core) : t'.altE = t.altE :=
  (congrArg T.altE h : t'.core.altE = t.core.altE)
theorem core_savedR {t t' : T} (h : t'.core = t.core) : t'.savedR = t.savedR :=
  (congrArg T.savedR h : t'.core.savedR = t.core.savedR)
theorem core_savedC {t t' : T} (h : t'.core = t.core) : t'.savedC = t.savedC :=
  (congrArg T.savedC h : t'.core.savedC = t.core.savedC)
theorem core_copy {t t' : T} (h : t'.core = t.core) : t'.copy = t.copy :=
  (congrArg T.copy h : t'.core.copy = t.core.copy)
theorem core_hasCopy {t t' : T} (h : t'.core = t.core) : t'.hasCopy = t.hasCopy :=
  (congrArg T.hasCopy h : t'.core.hasCopy = t.core.hasCopy)
theorem core_cursorOn {t t' : T} (h : t'.core = t.core) : t'.cursorOn = t.cursorOn :=
  (congrArg T.cursorOn h : t'.core.cursorOn = t.core.cursorOn)
theorem core_paused {t t' : T} (h : t'.core = t.core) : t'.paused = t.paused :=
  (congrArg T.paused h : t'.core.paused = t.core.paused)
theorem core_hw {t t' : T} (h : t'.core = t.core) : t'.hw = t.hw :=
  (congrArg T.hw h : t'.core.hw = t.core.hw)
theorem core_junk {t t' : T} (h : t'.core = t.core) : t'.junk = t.junk :=
  (congrArg T.junk h : t'.core.junk = t.core.junk)

theorem Geo.of_core {t t' : T} (h : t'.core = t.core) (g : Geo t) : Geo t' := by
  have h1 : t'.rows = t.rows := core_rows h
  have h2 : t'.cols = t.cols := core_cols h
  have h3 : t'.r = t.r := core_r h
  have h4 : t'.c = t.c := core_c h
  have h5 : t'.scroll = t.scroll := core_scroll h
  have h6 : t'.maxScroll = t.maxScroll := core_maxScroll h
  have h7 : t'.extra = t.extra := core_extra h
  have h8 : t'.mainS = t.mainS := core_mainS h
  have h9 : t'.mainE = t.mainE := core_mainE h
  have h10 : t'.altS = t.altS := core_altS h
  have h11 : t'.altE = t.altE := core_altE h
  have h12 : t'.savedR = t.savedR := core_savedR h
  have h13 : t'.savedC = t.savedC := core_savedC h
  constructor
  · rw [h1]; exact g.rows
  · rw [h2]; exact g.cols
  · rw [h1, h2, h3, h4]; exact g.cur
  · rw [h5, h6, h7]; exact g.scroll
  · rw [h1, h8, h9]; exact g.main
  · rw [h1, h10, h11]; exact g.alt
  · rw [h1, h2, h12, h13]; exact g.saved

/-- The region in use. -/
theorem Geo.region {t : T} (g : Geo t) : t.sR < t.eR ∧ t.eR ≤ t.rows := by
  unfold T.sR T.eR
  have := g.main
  have := g.alt
  cases t.alt <;> simp <;> omega

theorem total_pos {t : T} (g : Geo t) : 0 < t.total := by
  unfold T.total; have := g.rows; omega

/-- Two visible lines are different lines of the ring. -/
theorem ring_inj {t : T} (g : Geo t) {i k : Nat} (hi : i < t.rows) (hk : k < t.rows)
    (h : t.ring i = t.ring k) : i = k := by
  unfold T.ring at h
  have hp := total_pos g
  have ht : t.rows ≤ t.total := by unfold T.total; omega
  generalize hN : t.total = N at *
  have e1 := Nat.div_add_mod (i + t.scroll) N
  have e2 := Nat.div_add_mod (k + t.scroll) N
  rw [h] at e1
  generalize (i + t.scroll) / N = q1 at *
  generalize (k + t.scroll) / N = q2 at *
  rcases Nat.lt_trichotomy q1 q2 with hq | hq | hq
  · have := Nat.mul_le_mul_left N (show q1 + 1 ≤ q2 from hq)
    rw [Nat.mul_add] at this
    omega
  · subst hq; omega
  · have := Nat.mul_le_mul_left N (show q2 + 1 ≤ q1 from hq)
    rw [Nat.mul_add] at this
    omega

/-! ## Effects -/

/-- From `t` to `t'` only the text, the tab maps and the picture changed: the visible text is `f`,
and the picture (unless paused) is `g`. -/
structure Eff (t t' : T) (f g : Nat → Nat → Nat) : Prop where
  core : t'.core = t.core
  tabs : TabsOk t → TabsOk t'
  cell : ∀ i < t.rows, ∀ j, t'.cell i j = f i j
  rest : ∀ k, (∀ i < t.rows, t.ring i ≠ k) → t'.buf k = t.buf k
  disp : t.paused = false → ∀ i < t.rows, ∀ j, t'.disp i j = g i j

theorem core_ring {t t' : T} (h : t'.core = t.core) (i : Nat) : t'.ring i = t.ring i := by
  have h1 : t'.rows = t.rows := core_rows h
  have h5 : t'.scroll = t.scroll := core_scroll h
  have h7 : t'.extra = t.extra := core_extra h
  simp [T.ring, T.total, h1, h5, h7]

theorem core_region {t t' : T} (h : t'.core = t.core) : t'.sR = t.sR ∧ t'.eR = t.eR := by
  have h0 : t'.alt = t.alt := core_alt h
  have h8 : t'.mainS = t.mainS := core_mainS h
  have h9 : t'.mainE = t.mainE := core_mainE h
  have h10 : t'.altS = t.altS := core_altS h
  have h11 : t'.altE = t.altE := core_altE h
  simp [T.sR, T.eR, h0, h8, h9, h10, h11]

theorem Eff.refl (t : T) : Eff t t t.cell t.disp :=
  ⟨rfl, id, fun _ _ _ => rfl, fun _ _ => rfl, fun _ _ _ _ => rfl⟩

theorem Eff.trans {t t1 t2 : T} {f1 g1 f2 g2 : Nat → Nat → Nat} (h1 : Eff t t1 f1 g1)
    (h2 : Eff t1 t2 f2 g2) : Eff t t2 f2 g2 := by
  have hr : t1.rows = t.rows := core_rows h1.core
  have hp : t1.paused = t.paused := core_paused h1.core
  refine ⟨h2.core.trans h1.core, fun h => h2.tabs (h1.tabs h), ?_, ?_, ?_⟩
  · intro i hi j; exact h2.cell i (by rw [hr]; exact hi) j
  · intro k hk
    rw [h2.rest k (fun i hi => by rw [core_ring h1.core]; exact hk i (by rw [← hr]; exact hi)), h1.rest k hk]
  · intro p i hi j; exact h2.disp (by rw [hp]; exact p) i (by rw [hr]; exact hi) j

theorem Eff.congr {t t' : T} {f g f' g' : Nat → Nat → Nat} (h : Eff t t' f g)
    (hf : ∀ i < t.rows, ∀ j, f i j = f' i j) (hg : ∀ i < t.rows, ∀ j, g i j = g' i j) :
    Eff t t' f' g' :=
  ⟨h.core, h.tabs, fun i hi j => (h.cell i hi j).trans (hf i hi j), h.rest,
   fun p i hi j => (h.disp p i hi j).trans (hg i hi j)⟩

theorem setTabs_core (t : T) (f : Nat → Nat → Nat) : (t.setTabs f).core = t.core := by
  unfold T.setTabs; split <;> rfl
theorem setTabs_buf (t : T) (f : Nat → Nat → Nat) : (t.setTabs f).buf = t.buf := by
  unfold T.setTabs; split <;> rfl
theorem setTabs_disp (t : T) (f : Nat → Nat → Nat) : (t.setTabs f).disp = t.disp := by
  unfold T.setTabs; split <;> rfl
theorem setTabs_cell (t : T) (f : Nat → Nat → Nat) : (t.setTabs f).cell = t.cell := by
  unfold T.setTabs; split <;> rfl
theorem setTabs_over (t : T) (f : Nat → Nat → Nat) : (t.setTabs f).overread = t.overread := by
  unfold T.setTabs; split <;> rfl
theorem setTabs_tabs (t : T) (f : Nat → Nat → Nat) : (t.setTabs f).tabs = f := by
  unfold T.setTabs T.tabs
  cases h : t.alt <;> simp [h]
theorem setTabs_ok {t : T} {f : Nat → Nat → Nat} (h : TabsOk t) (hf : ∀ a b, f a b ≤ b + 1) :
    TabsOk (t.setTabs f) := by
  unfold T.setTabs
  split
  · exact fun a b => ⟨(h a b).1, hf a b⟩
  · exact fun a b => ⟨hf a b, (h a b).2⟩
theorem TabsOk.tabs {t : T} (h : TabsOk t) (a b : Nat) : t.tabs a b ≤ b + 1 := by
  unfold T.tabs; split
  · exact (h a b).2
  · exact (h a b).1

theorem setLine_cell {t : T} (g : Geo t) {d : Nat} (hd : d < t.rows) (f : Nat → Nat) {i : Nat}
    (hi : i < t.rows) (j : Nat) :
    (t.setLine d f).cell i j = if i = d then f j else t.cell i j := by
  show (if t.ring i = t.ring d then f else t.buf (t.ring i)) j = _
  by_cases h : i = d
  · subst h; simp
  · rw [if_neg h, if_neg (fun e => h (ring_inj g hi hd e))]; rfl

theorem setLine_eff {t : T} (g : Geo t) {d : Nat} (hd : d < t.rows) (f : Nat → Nat) :
    Eff t (t.setLine d f) (fun i j => if i = d then f j else t.cell i j) t.disp := by
  refine ⟨rfl, fun h => h, fun i hi j => setLine_cell g hd f hi j, ?_, fun _ _ _ _ => rfl⟩
  intro k hk
  show (if k = t.ring d then f else t.buf k) = _
  rw [if_neg (fun e => hk d hd e.symm)]

theorem Eff.geo {t t' : T} {f k : Nat → Nat → Nat} (h : Eff t t' f k) (g : Geo t) : Geo t' :=
  Geo.of_core h.core g

theorem Eff.setTabs {t t' : T} {f g : Nat → Nat → Nat} (h : Eff t t' f g)
    {m : Nat → Nat → Nat} (hm : TabsOk t → ∀ a b, m a b ≤ b + 1) : Eff t (t'.setTabs m) f g := by
  refine ⟨by rw [setTabs_core, h.core], fun ht => setTabs_ok (h.tabs ht) (hm ht), ?_, ?_, ?_⟩
  · intro i hi j; rw [setTabs_cell]; exact h.cell i hi j
  · intro k hk; rw [setTabs_buf]; exact h.rest k hk
  · intro p i hi j; rw [setTabs_disp]; exact h.disp p i hi j

theorem copyRow_eff {t : T} (g : Geo t) {d s : Nat} (hd : d < t.rows) (hs : s < t.rows) :
    ∃ t', t.copyRow d s = some t' ∧
      Eff t t' (fun i j => if i = d then t.cell s j else t.cell i j) t.disp := by
  unfold T.copyRow
  by_cases h : d = s
  · subst h
    exact ⟨t, if_pos rfl, (Eff.refl t).congr (fun i _ j => by split <;> simp_all)
      fun _ _ _ => rfl⟩
  · rw [if_neg h, if_pos ⟨hd, hs⟩]
    refine ⟨_, rfl, (setLine_eff g hd _).setTabs ?_⟩
    intro ht a b
    show (if a = d then t.tabs s else t.tabs a) b ≤ _
    split
    · exact ht.tabs s b
    · exact ht.tabs a b

theorem clearBuf_eff {t : T} (g : Geo t) {d : Nat} (hd : d < t.rows) (color : Nat) :
    ∃ t', t.clearBuf d color = some t' ∧
      Eff t t' (fun i j => if i = d then mkEntry 32 color else t.cell i j) t.disp := by
  unfold T.clearBuf
  rw [if_pos hd]
  refine ⟨_, rfl, (setLine_eff g hd _).setTabs ?_⟩
  intro ht a b
  show (if a = d then fun _ => 0 else t.tabs a) b ≤ _
  split
  · exact Nat.zero_le _
  · exact ht.tabs a b

theorem showBlank_eff (t : T) (d color : Nat) :
    Eff t (t.showBlank d color) t.cell
      (fun i j => if i = d then mkEntry 32 color else t.disp i j) := by
  unfold T.showBlank
  by_cases hp : t.paused = true
  · rw [if_pos hp]
    exact ⟨rfl, id, fun _ _ _ => rfl, fun _ _ => rfl, fun h => by simp [hp] at h⟩
  · rw [if_neg hp]
    refine ⟨rfl, id, fun _ _ _ => rfl, fun _ _ => rfl, fun _ i _ j => ?_⟩
    show (if i = d then fun _ => _ else t.disp i) j = _
    split <;> rfl

theorem clearRow_eff {t : T} (g : Geo t) {d : Nat} (hd : d < t.rows) (color : Nat) :
    ∃ t', t.clearRow d color = some t' ∧
      Eff t t' (fun i j => if i = d then mkEntry 32 color else t.cell i j)
        (fun i j => if i = d then mkEntry 32 color else t.disp i j) := by
  obtain ⟨t1, h1, e1⟩ := clearBuf_eff g hd color
  unfold T.clearRow
  rw [h1]
  refine ⟨_, rfl, ?_⟩
  have e2 := showBlank_eff t1 d color
  have hp : t1.paused = t.paused := core_paused e1.core
  have e3 := e1.trans e2
  refine ⟨e3.core, e3.tabs, ?_, e3.rest, ?_⟩
  · intro i hi j; rw [e3.cell i hi j]; exact e1.cell i hi j
  · intro p i hi j
    rw [e3.disp p i hi j]
    split
    · rfl
    · exact e1.disp p i hi j

theorem redraw2_eff (t : T) (s e : Nat) :
    Eff t (t.redraw2 s e) t.cell (fun i j => if s ≤ i ∧ i < e then t.cell i j else t.disp i j) := by
  unfold T.redraw2
  by_cases hp : t.paused = true
  · rw [if_pos hp]
    exact ⟨rfl, id, fun _ _ _ => rfl, fun _ _ => rfl, fun h => by simp [hp] at h⟩
  · rw [if_neg hp]
    refine ⟨rfl, id, fun _ _ _ => rfl, fun _ _ => rfl, fun _ i _ j => ?_⟩
    show (if s ≤ i ∧ i < e then t.cell i else t.disp i) j = _
    split <;> rfl

theorem put_eff {t : T} (g : Geo t) {i0 j0 : Nat} (hi : i0 < t.rows) (hj : j0 < t.cols) (e : Nat) :
    ∃ t', t.put i0 j0 e = some t' ∧
      Eff t t' (fun i j => if i = i0 ∧ j = j0 then e else t.cell i j)
        (fun i j => if i = i0 ∧ j = j0 then e else t.disp i j) := by
  unfold T.put T.setEntry
  rw [if_pos hj]
  have e1 := setLine_eff g hi (fun k => if k = j0 then e else t.cell i0 k)
  generalize hz : t.setLine i0 (fun k => if k = j0 then e else t.cell i0 k) = t1 at *
  have hr : t1.rows = t.rows := core_rows e1.core
  have hc : t1.cols = t.cols := core_cols e1.core
  have hp : t1.paused = t.paused := core_paused e1.core
  show ∃ t', t1.show1 i0 j0 e = some t' ∧ _
  unfold T.show1
  rw [if_pos ⟨by rw [hr]; exact hi, by rw [hc]; exact hj⟩]
  refine ⟨_, rfl, ?_⟩
  have e2 : Eff t1 (if t1.paused then t1
      else { t1 with disp := fun a b => if a = i0 ∧ b = j0 then e else t1.disp a b }) t1.cell
      (fun i j => if i = i0 ∧ j = j0 then e else t1.disp i j) := by
    by_cases hp : t1.paused = true
    · rw [if_pos hp]
      exact ⟨rfl, id, fun _ _ _ => rfl, fun _ _ => rfl, fun h => by simp [hp] at h⟩
    · rw [if_neg hp]
      exact ⟨rfl, id, fun _ _ _ => rfl, fun _ _ => rfl, fun _ i _ j => rfl⟩
  have e3 := e1.trans e2
  refine ⟨e3.core, e3.tabs, ?_, e3.rest, ?_⟩
  · intro i hi' j
    rw [e3.cell i hi' j, e1.cell i hi' j]
    by_cases h1 : i = i0
    · subst h1; simp
    · simp [h1]
  · intro p i hi' j
    rw [e3.disp p i hi' j]
    split
    · rfl
    · exact e1.disp p i hi' j

/-! ## Loops -/

/-- A loop over the lines (or columns) `a` to `a + k - 1`, each step of which changes `f`, `d` as
described by `step`. -/
theorem forN_eff {body : T → Nat → Option T} {t0 : T} (g : Geo t0)
    (F D : Nat → Nat → Nat → Nat) (a : Nat) (k : Nat)
    (hstep : ∀ m, a ≤ m → m < a + k → ∀ t, Eff t0 t (F m) (D m) →
      ∃ t', body t m = some t' ∧ Eff t t' (F (m + 1)) (D (m + 1)))
    (t : T) (ht : Eff t0 t (F a) (D a)) :
    ∃ t', forN body a k t = some t' ∧ Eff t0 t' (F (a + k)) (D (a + k)) := by
  induction k generalizing a t with
  | zero => exact ⟨t, rfl, ht⟩
  | succ k ih =>
    obtain ⟨t1, h1, e1⟩ := hstep a (Nat.le_refl _) (by omega) t ht
    obtain ⟨t2, h2, e2⟩ := ih (a + 1) (fun m hm1 hm2 t h => hstep m (by omega) (by omega) t h) t1
      (ht.trans e1)
    refine ⟨t2, ?_, ?_⟩
    · show (body t a).bind _ = _
      rw [h1]; exact h2
    · rw [show a + (k + 1) = a + 1 + k by omega]; exact e2

/-- Lines `a` to `a + k - 1` are replaced by the ones `n` further down. -/
theorem copyUp_eff {t : T} (g : Geo t) {a k n : Nat} (hk : a + k + n ≤ t.rows) (hn : 0 < n) :
    ∃ t', forN (fun t row => t.copyRow row (row + n)) a k t = some t' ∧
      Eff t t' (fun i j => if a ≤ i ∧ i < a + k then t.cell (i + n) j else t.cell i j) t.disp := by
  refine forN_eff g (fun m i j => if a ≤ i ∧ i < m then t.cell (i + n) j else t.cell i j)
    (fun _ => t.disp) a k ?_ t ?_
  · intro m hm1 hm2 t1 e1
    have hr : t1.rows = t.rows := core_rows e1.core
    obtain ⟨t2, h2, e2⟩ := copyRow_eff (e1.geo g) (d := m) (s := m + n) (by omega) (by omega)
    refine ⟨t2, h2, e2.core, e2.tabs, ?_, e2.rest, ?_⟩
    · intro i hi j
      rw [e2.cell i hi j]
      rw [hr] at hi
      by_cases h : i = m
      · subst h
        rw [if_pos rfl, if_pos ⟨hm1, by omega⟩, e1.cell _ (by omega), if_neg (by omega)]
      · rw [if_neg h, e1.cell i hi]
        by_cases h2 : a ≤ i ∧ i < m
        · rw [if_pos h2, if_pos ⟨h2.1, by omega⟩]
        · rw [if_neg h2, if_neg (by omega)]
    · intro p i hi j
      have hp : t1.paused = t.paused := core_paused e1.core
      rw [e2.disp p i hi j]
      exact e1.disp (by rw [← hp]; exact p) i (by omega) j
  · exact (Eff.refl t).congr (fun i _ j => by rw [if_neg (by omega)]) (fun _ _ _ => rfl)

/-- Lines `a` to `a + k - 1` are blanked in the text. -/
theorem clearBufs_eff {t : T} (g : Geo t) {a k : Nat} (hk : a + k ≤ t.rows) :
    ∃ t', forN (fun t row => t.clearBuf row defColor) a k t = some t' ∧
      Eff t t' (fun i j => if a ≤ i ∧ i < a + k then mkEntry 32 defColor else t.cell i j)
        t.disp := by
  refine forN_eff g (fun m i j => if a ≤ i ∧ i < m then mkEntry 32 defColor else t.cell i j)
    (fun _ => t.disp) a k ?_ t ?_
  · intro m hm1 hm2 t1 e1
    have hr : t1.rows = t.rows := core_rows e1.core
    obtain ⟨t2, h2, e2⟩ := clearBuf_eff (e1.geo g) (d := m) (by omega) defColor
    refine ⟨t2, h2, e2.core, e2.tabs, ?_, e2.rest, ?_⟩
    · intro i hi j
      rw [e2.cell i hi j]
      rw [hr] at hi
      by_cases h : i = m
      · subst h
        rw [if_pos rfl, if_pos ⟨hm1, by omega⟩]
      · rw [if_neg h, e1.cell i hi]
        by_cases h2 : a ≤ i ∧ i < m
        · rw [if_pos h2, if_pos ⟨h2.1, by omega⟩]
        · rw [if_neg h2, if_neg (by omega)]
    · intro p i hi j
      have hp : t1.paused = t.paused := core_paused e1.core
      rw [e2.disp p i hi j]
      exact e1.disp (by rw [← hp]; exact p) i (by omega) j
  · exact (Eff.refl t).congr (fun i _ j => by rw [if_neg (by omega)]) (fun _ _ _ => rfl)

/-- Lines `a` to `a + k - 1` are blanked in the text and on the screen. -/
theorem clearRows_eff {t : T} (g : Geo t) {a k : Nat} (hk : a + k ≤ t.rows) :
    ∃ t', forN (fun t row => t.clearRow row defColor) a k t = some t' ∧
      Eff t t' (fun i j => if a ≤ i ∧ i < a + k then mkEntry 32 defColor else t.cell i j)
        (fun i j => if a ≤ i ∧ i < a + k then mkEntry 32 defColor else t.disp i j) := by
  refine forN_eff g (fun m i j => if a ≤ i ∧ i < m then mkEntry 32 defColor else t.cell i j)
    (fun m i j => if a ≤ i ∧ i < m then mkEntry 32 defColor else t.disp i j) a k ?_ t ?_
  · intro m hm1 hm2 t1 e1
    have hr : t1.rows = t.rows := core_rows e1.core
    obtain ⟨t2, h2, e2⟩ := clearRow_eff (e1.geo g) (d := m) (by omega) defColor
    refine ⟨t2, h2, e2.core, e2.tabs, ?_, e2.rest, ?_⟩
    · intro i hi j
      rw [e2.cell i hi j]
      rw [hr] at hi
      by_cases h : i = m
      · subst h
        rw [if_pos rfl, if_pos ⟨hm1, by omega⟩]
      · rw [if_neg h, e1.cell i hi]
        by_cases h2 : a ≤ i ∧ i < m
        · rw [if_pos h2, if_pos ⟨h2.1, by omega⟩]
        · rw [if_neg h2, if_neg (by omega)]
    · intro p i hi j
      have hp : t1.paused = t.paused := core_paused e1.core
      rw [e2.disp p i hi j]
      rw [hr] at hi
      by_cases h : i = m
      · subst h
        rw [if_pos rfl, if_pos ⟨hm1, by omega⟩]
      · rw [if_neg h, e1.disp (by rw [← hp]; exact p) i hi]
        by_cases h2 : a ≤ i ∧ i < m
        · rw [if_pos h2, if_pos ⟨h2.1, by omega⟩]
        · rw [if_neg h2, if_neg (by omega)]
  · exact (Eff.refl t).congr (fun i _ j => by rw [if_neg (by omega)])
      (fun i _ j => by rw [if_neg (by omega)])

/-- Cells `a` to `b - 1` of line `r` are blanked in the text and on the screen. -/
theorem blankCells_eff {t : T} (g : Geo t) {a b : Nat} (hb : b ≤ t.cols) :
    ∃ t', t.blankCells a b = some t' ∧
      Eff t t'
        (fun i j => if i = t.r ∧ a ≤ j ∧ j < b then mkEntry 32 defColor else t.cell i j)
        (fun i j => if i = t.r ∧ a ≤ j ∧ j < b then mkEntry 32 defColor else t.disp i j) := by
  unfold T.blankCells
  have hcur := g.cur.1
  obtain ⟨t', h, e⟩ := forN_eff (body := fun t col => t.put t.r col (mkEntry 32 defColor)) g
    (fun m i j => if i = t.r ∧ a ≤ j ∧ j < m then mkEntry 32 defColor else t.cell i j)
    (fun m i j => if i = t.r ∧ a ≤ j ∧ j < m then mkEntry 32 defColor else t.disp i j) a (b - a)
    (by
      intro m hm1 hm2 t1 e1
      have hr : t1.rows = t.rows := core_rows e1.core
      have hc : t1.cols = t.cols := core_cols e1.core
      have hrr : t1.r = t.r := core_r e1.core
      have hp : t1.paused = t.paused := core_paused e1.core
      obtain ⟨t2, h2, e2⟩ := put_eff (e1.geo g) (i0 := t1.r) (j0 := m) (by omega) (by omega)
        (mkEntry 32 defColor)
      refine ⟨t2, h2, e2.core, e2.tabs, ?_, e2.rest, ?_⟩
      · intro i hi j
        rw [e2.cell i hi j, hrr]
        rw [hr] at hi
        by_cases h : i = t.r ∧ j = m
        · rw [if_pos h, if_pos ⟨h.1, by omega, by omega⟩]
        · rw [if_neg h, e1.cell i hi]
          by_cases h2 : i = t.r ∧ a ≤ j ∧ j < m
          · rw [if_pos h2, if_pos ⟨h2.1, by omega, by omega⟩]
          · rw [if_neg h2, if_neg (by omega)]
      · intro p i hi j
        rw [e2.disp p i hi j, hrr]
        rw [hr] at hi
        by_cases h : i = t.r ∧ j = m
        · rw [if_pos h, if_pos ⟨h.1, by omega, by omega⟩]
        · rw [if_neg h, e1.disp (by rw [← hp]; exact p) i hi]
          by_cases h2 : i = t.r ∧ a ≤ j ∧ j < m
          · rw [if_pos h2, if_pos ⟨h2.1, by omega, by omega⟩]
          · rw [if_neg h2, if_neg (by omega)])
    t ((Eff.refl t).congr (fun i _ j => by rw [if_neg (by omega)])
      (fun i _ j => by rw [if_neg (by omega)]))
  refine ⟨t', h, e.congr ?_ ?_⟩
  · intro i _ j
    by_cases h2 : i = t.r ∧ a ≤ j ∧ j < a + (b - a)
    · rw [if_pos h2, if_pos ⟨h2.1, by omega, by omega⟩]
    · rw [if_neg h2, if_neg (by omega)]
  · intro i _ j
    by_cases h2 : i = t.r ∧ a ≤ j ∧ j < a + (b - a)
    · rw [if_pos h2, if_pos ⟨h2.1, by omega, by omega⟩]
    · rw [if_neg h2, if_neg (by omega)]

/-- The downward copy loop. -/
theorem downLoop_eff {n lo : Nat} (hn : 0 < n) (row : Nat) {t : T} (g : Geo t)
    (hk : row ≤ lo ∨ row + n ≤ t.rows) :
    ∃ t', downLoop n lo row t = some t' ∧
      Eff t t' (fun i j => if lo + n ≤ i ∧ i < row + n then t.cell (i - n) j else t.cell i j)
        t.disp := by
  induction row generalizing t with
  | zero =>
    exact ⟨t, rfl, (Eff.refl t).congr (fun i _ j => by rw [if_neg (by omega)]) (fun _ _ _ => rfl)⟩
  | succ row ih =>
    by_cases hlo : row + 1 > lo
    · have hr := g.rows
      have hk' : row + 1 + n ≤ t.rows := by omega
      obtain ⟨t1, h1, e1⟩ := copyRow_eff g (d := row + n) (s := row) (by omega) (by omega)
      have hr1 : t1.rows = t.rows := core_rows e1.core
      obtain ⟨t2, h2, e2⟩ := ih (e1.geo g) (by right; omega)
      refine ⟨t2, ?_, (e1.trans e2).core, (e1.trans e2).tabs, ?_, (e1.trans e2).rest, ?_⟩
      · show (if row + 1 > lo then (t.copyRow ((row + n) % 2 ^ 32) row).bind _ else _) = _
        rw [if_pos hlo, Nat.mod_eq_of_lt (by omega), h1]; exact h2
      · intro i hi j
        rw [(e1.trans e2).cell i hi j]
        by_cases h : lo + n ≤ i ∧ i < row + n
        · rw [if_pos h, if_pos ⟨h.1, by omega⟩, e1.cell _ (by omega), if_neg (by omega)]
        · rw [if_neg h, e1.cell i hi]
          by_cases h2 : i = row + n
          · rw [if_pos h2, if_pos ⟨by omega, by omega⟩, h2, Nat.add_sub_cancel]
          · rw [if_neg h2, if_neg (by omega)]
      · intro p i hi j
        rw [(e1.trans e2).disp p i hi j]
        exact e1.disp p i hi j
    · refine ⟨t, ?_, (Eff.refl t).congr (fun i _ j => by rw [if_neg (by omega)]) (fun _ _ _ => rfl)⟩
      show (if row + 1 > lo then _ else some t) = _
      rw [if_neg hlo]

/-! ## Effects of the actions -/

/-- The visible text after the region `s … e - 1` went up by `n` lines. -/
theorem nonBufUp_eff {t : T} (g : Geo t) {n : Nat} (hn : 0 < n) :
    ∃ t', t.nonBufUp n = some t' ∧
      Eff t t'
        (fun i j => if t.sR ≤ i ∧ i < t.eR then
          (if i + n < t.eR then t.cell (i + n) j else mkEntry 32 defColor) else t.cell i j)
        (fun i j => if t.sR ≤ i ∧ i < t.eR then
          (if i + n < t.eR then t.cell (i + n) j else mkEntry 32 defColor) else t.disp i j) := by
  have hreg := g.region
  unfold T.nonBufUp
  rw [if_neg (by omega)]
  dsimp only
  generalize hs : t.sR = s at *
  generalize he : t.eR = e at *
  generalize hm : min n (e - s) = m
  have hm0 : 0 < m := by omega
  obtain ⟨t1, h1, e1⟩ := copyUp_eff g (a := s) (k := e - m - s) (n := m) (by omega) hm0
  have hr1 : t1.rows = t.rows := core_rows e1.core
  obtain ⟨t2, h2, e2⟩ := clearBufs_eff (e1.geo g) (a := e - m) (k := m) (by omega)
  rw [h1]
  show ∃ t', (forN _ (e - m) m t1).map _ = some t' ∧ _
  rw [h2]
  refine ⟨_, rfl, ?_⟩
  have e3 := redraw2_eff t2 s e
  have e13 := (e1.trans e2).trans e3
  have key : ∀ i < t.rows, ∀ j, t2.cell i j = (if s ≤ i ∧ i < e then
      (if i + n < e then t.cell (i + n) j else mkEntry 32 defColor) else t.cell i j) := by
    intro i hi j
    rw [e2.cell i (by omega) j]
    by_cases h : e - m ≤ i ∧ i < e - m + m
    · rw [if_pos h, if_pos ⟨by omega, by omega⟩, if_neg (by omega)]
    · rw [if_neg h, e1.cell i hi j]
      by_cases h3 : s ≤ i ∧ i < s + (e - m - s)
      · rw [if_pos h3, if_pos ⟨h3.1, by omega⟩, if_pos (by omega)]
        rw [show m = n by omega]
      · rw [if_neg h3, if_neg (by omega)]
  refine ⟨e13.core, e13.tabs, ?_, e13.rest, ?_⟩
  · intro i hi j
    rw [e13.cell i hi j, key i hi j]
  · intro p i hi j
    rw [e13.disp p i hi j]
    by_cases h : s ≤ i ∧ i < e
    · rw [if_pos h, if_pos h, key i hi j, if_pos h]
    · rw [if_neg h, if_neg h]
      have hp1 : t1.paused = false := by rw [core_paused e1.core]; exact p
      rw [e2.disp hp1 i (by omega) j]
      exact e1.disp p i hi j

/-- The number of lines fits above the end of the region. -/
theorem nonBufDown_eff {t : T} (g : Geo t) {n : Nat} (hn : 0 < n) (hfit : min n t.rows ≤ t.eR) :
    ∃ t', t.nonBufDown n = some t' ∧
      Eff t t'
        (fun i j => if t.sR ≤ i ∧ i < min n t.rows then mkEntry 32 defColor
          else if t.sR + min n t.rows ≤ i ∧ i < t.eR then t.cell (i - min n t.rows) j
          else t.cell i j)
        (fun i j => if t.sR ≤ i ∧ i < t.eR then
            (if i < min n t.rows then mkEntry 32 defColor
             else if t.sR + min n t.rows ≤ i then t.cell (i - min n t.rows) j
             else t.cell i j)
          else t.disp i j) := by
  have hreg := g.region
  have hrows := g.rows
  unfold T.nonBufDown
  rw [if_neg (by omega)]
  dsimp only
  generalize hs : t.sR = s at *
  generalize he : t.eR = e at *
  generalize hm : min n t.rows = m at *
  have hm0 : 0 < m := by omega
  have hmod : (e + 2 ^ 32 - m) % 2 ^ 32 = e - m := by
    rw [show e + 2 ^ 32 - m = (e - m) + 2 ^ 32 by omega, Nat.add_mod_right,
      Nat.mod_eq_of_lt (by omega)]
  rw [hmod]
  obtain ⟨t1, h1, e1⟩ := downLoop_eff hm0 (lo := s) (e - m) g (by right; omega)
  have hr1 : t1.rows = t.rows := core_rows e1.core
  obtain ⟨t2, h2, e2⟩ := clearBufs_eff (e1.geo g) (a := s) (k := m - s)
    (by have := (e1.geo g).rows; omega)
  rw [h1]
  show ∃ t', (forN _ s (m - s) t1).map _ = some t' ∧ _
  rw [h2]
  refine ⟨_, rfl, ?_⟩
  have e3 := redraw2_eff t2 s e
  have e13 := (e1.trans e2).trans e3
  have key : ∀ i < t.rows, ∀ j, t2.cell i j = (if s ≤ i ∧ i < m then mkEntry 32 defColor
      else if s + m ≤ i ∧ i < e then t.cell (i - m) j else t.cell i j) := by
    intro i hi j
    rw [e2.cell i (by omega) j]
    by_cases h : s ≤ i ∧ i < m
    · rw [if_pos h, if_pos ⟨h.1, by omega⟩]
    · rw [if_neg h, if_neg (by omega), e1.cell i hi j]
      by_cases h3 : s + m ≤ i ∧ i < e
      · rw [if_pos h3, if_pos ⟨h3.1, by omega⟩]
      · rw [if_neg h3, if_neg (by omega)]
  refine ⟨e13.core, e13.tabs, ?_, e13.rest, ?_⟩
  · intro i hi j
    rw [e13.cell i hi j, key i hi j]
  · intro p i hi j
    rw [e13.disp p i hi j]
    by_cases h : s ≤ i ∧ i < e
    · rw [if_pos h, if_pos h, key i hi j]
      by_cases h4 : i < m
      · rw [if_pos h4, if_pos ⟨h.1, h4⟩]
      · rw [if_neg h4, if_neg (by omega)]
        by_cases h5 : s + m ≤ i
        · rw [if_pos h5, if_pos ⟨h5, h.2⟩]
        · rw [if_neg h5, if_neg (by omega)]
    · rw [if_neg h, if_neg h]
      have hp1 : t1.paused = false := by rw [core_paused e1.core]; exact p
      rw [e2.disp hp1 i (by omega) j]
      exact e1.disp p i hi j

/-- More lines than there are above the end of the region: memory outside the tab map is read. -/
theorem nonBufDown_fault {t : T} (g : Geo t) {n : Nat} (hfit : t.eR < min n t.rows) :
    t.nonBufDown n = none := by
  have hreg := g.region
  have hrows := g.rows
  unfold T.nonBufDown
  rw [if_neg (by omega)]
  dsimp only
  generalize hm : min n t.rows = m at *
  have hmod : (t.eR + 2 ^ 32 - m) % 2 ^ 32 = (2 ^ 32 - 1 - (m - t.eR)) + 1 := by
    rw [Nat.mod_eq_of_lt (by omega)]; omega
  rw [hmod]
  generalize hk : 2 ^ 32 - 1 - (m - t.eR) = k
  have : downLoop m t.sR (k + 1) t = none := by
    show (if k + 1 > t.sR then (t.copyRow ((k + m) % 2 ^ 32) k).bind _ else _) = none
    rw [if_pos (by omega)]
    have : t.copyRow ((k + m) % 2 ^ 32) k = none := by
      unfold T.copyRow
      have hk2 : (k + m) % 2 ^ 32 = t.eR - 1 := by
        rw [show k + m = (t.eR - 1) + 2 ^ 32 by omega, Nat.add_mod_right,
          Nat.mod_eq_of_lt (by omega)]
      rw [hk2, if_neg (by omega), if_neg (by omega)]
    rw [this]; rfl
  rw [this]; rfl

theorem showRest_eff {t : T} (g : Geo t) :
    ∃ t', t.showRest = some t' ∧
      Eff t t' t.cell
        (fun i j => if i = t.r ∧ t.c ≤ j ∧ j < t.cols then t.cell i j else t.disp i j) := by
  unfold T.showRest
  have hcur := g.cur
  obtain ⟨t', h, e⟩ := forN_eff (body := fun t col => t.show1 t.r col (t.cell t.r col)) g
    (fun _ => t.cell)
    (fun m i j => if i = t.r ∧ t.c ≤ j ∧ j < m then t.cell i j else t.disp i j) t.c (t.cols - t.c)
    (by
      intro m hm1 hm2 t1 e1
      have hr : t1.rows = t.rows := core_rows e1.core
      have hc : t1.cols = t.cols := core_cols e1.core
      have hrr : t1.r = t.r := core_r e1.core
      have hp : t1.paused = t.paused := core_paused e1.core
      have hcell : t1.cell t1.r m = t.cell t.r m := by rw [hrr]; exact e1.cell _ hcur.1 _
      show ∃ t', t1.show1 t1.r m (t1.cell t1.r m) = some t' ∧ _
      unfold T.show1
      rw [if_pos ⟨by omega, by omega⟩, hcell]
      refine ⟨_, rfl, ?_⟩
      by_cases hpp : t1.paused = true
      · rw [if_pos hpp]
        refine ⟨rfl, id, ?_, fun _ _ => rfl, fun h => by simp [hpp] at h⟩
        intro i hi j; exact e1.cell i (by omega) j
      · rw [if_neg hpp]
        refine ⟨rfl, id, ?_, fun _ _ => rfl, ?_⟩
        · intro i hi j
          exact e1.cell i (by omega) j
        · intro p i hi j
          show (if i = t1.r ∧ j = m then t.cell t.r m else t1.disp i j) = _
          rw [hrr]
          by_cases h : i = t.r ∧ j = m
          · rw [if_pos h, if_pos ⟨h.1, by omega, by omega⟩, h.1, h.2]
          · rw [if_neg h, e1.disp (by rw [← hp]; exact p) i (by omega)]
            by_cases h2 : i = t.r ∧ t.c ≤ j ∧ j < m
            · rw [if_pos h2, if_pos ⟨h2.1, by omega, by omega⟩]
            · rw [if_neg h2, if_neg (by omega)])
    t ((Eff.refl t).congr (fun i _ j => rfl) (fun i _ j => by rw [if_neg (by omega)]))
  refine ⟨t', h, e.congr (fun _ _ _ => rfl) ?_⟩
  intro i _ j
  by_cases h2 : i = t.r ∧ t.c ≤ j ∧ j < t.c + (t.cols - t.c)
  · rw [if_pos h2, if_pos ⟨h2.1, by omega, by omega⟩]
  · rw [if_neg h2, if_neg (by omega)]

/-- Replacing the cursor's line by `f` and showing it from the cursor on. -/
theorem lineEdit_eff {t : T} (g : Geo t) (f : Nat → Nat) :
    ∃ t', (t.setLine t.r f).showRest = some t' ∧
      Eff t t' (fun i j => if i = t.r then f j else t.cell i j)
        (fun i j => if i = t.r ∧ t.c ≤ j ∧ j < t.cols then f j else t.disp i j) := by
  have e1 := setLine_eff g g.cur.1 f
  obtain ⟨t2, h2, e2⟩ := showRest_eff (e1.geo g)
  refine ⟨t2, h2, (e1.trans e2).core, (e1.trans e2).tabs, ?_, (e1.trans e2).rest, ?_⟩
  · intro i hi j
    rw [(e1.trans e2).cell i hi j]; exact e1.cell i hi j
  · intro p i hi j
    rw [(e1.trans e2).disp p i hi j]
    show (if i = t.r ∧ t.c ≤ j ∧ j < t.cols then _ else t.disp i j) = _
    by_cases h : i = t.r ∧ t.c ≤ j ∧ j < t.cols
    · rw [if_pos h, if_pos h, e1.cell i hi, if_pos h.1]
    · rw [if_neg h, if_neg h]

theorem insLines_eff {t : T} (g : Geo t) {n : Nat} (hn : 0 < n) (hin : t.r < t.eR) :
    ∃ t', t.insLines n = some t' ∧
      Eff { t with c := 0 } t'
        (fun i j => if t.r ≤ i ∧ i < t.eR then
            (if i < t.r + n then mkEntry 32 defColor else t.cell (i - n) j)
          else t.cell i j)
        (fun i j => if t.sR ≤ i ∧ i < t.eR then
            (if t.r ≤ i ∧ i < t.eR then
              (if i < t.r + n then mkEntry 32 defColor else t.cell (i - n) j)
             else t.cell i j)
          else t.disp i j) := by
  have hreg := g.region
  have hrows := g.rows
  unfold T.insLines
  rw [if_neg (by omega), if_neg (by omega)]
  dsimp only
  generalize hz : ({ t with c := 0 } : T) = t0
  have g0 : Geo t0 := by
    subst hz
    exact ⟨g.rows, g.cols, ⟨g.cur.1, Nat.zero_le _⟩, g.scroll, g.main, g.alt, g.saved⟩
  have hcell : t0.cell = t.cell := by subst hz; rfl
  have hdisp : t0.disp = t.disp := by subst hz; rfl
  have hr0 : t0.r = t.r := by subst hz; rfl
  have hrows0 : t0.rows = t.rows := by subst hz; rfl
  generalize hs : t.sR = s at *
  generalize he : t.eR = e at *
  generalize hrr : t.r = r at *
  generalize hm : min n (e - r) = m
  have hm0 : 0 < m := by omega
  obtain ⟨t1, h1, e1⟩ := downLoop_eff hm0 (lo := r) (e - m) g0 (by right; omega)
  have hr1 : t1.rows = t0.rows := core_rows e1.core
  have hrr1 : t1.r = t0.r := core_r e1.core
  obtain ⟨t2, h2, e2⟩ := clearBufs_eff (e1.geo g0) (a := r) (k := m) (by omega)
  rw [h1]
  show ∃ t', (forN _ t1.r m t1).map _ = some t' ∧ _
  rw [hrr1, hr0, h2]
  refine ⟨_, rfl, ?_⟩
  have e3 := redraw2_eff t2 s e
  have e13 := (e1.trans e2).trans e3
  have key : ∀ i < t0.rows, ∀ j, t2.cell i j = (if r ≤ i ∧ i < e then
      (if i < r + n then mkEntry 32 defColor else t.cell (i - n) j) else t.cell i j) := by
    intro i hi j
    rw [e2.cell i (by omega) j]
    by_cases h : r ≤ i ∧ i < r + m
    · rw [if_pos h, if_pos ⟨h.1, by omega⟩, if_pos (by omega)]
    · rw [if_neg h, e1.cell i hi j, hcell]
      by_cases h3 : r + m ≤ i ∧ i < e - m + m
      · rw [if_pos h3, if_pos ⟨by omega, by omega⟩, if_neg (by omega), show m = n by omega]
      · rw [if_neg h3, if_neg (by omega)]
  refine ⟨e13.core, e13.tabs, ?_, e13.rest, ?_⟩
  · intro i hi j
    rw [e13.cell i hi j, key i hi j]
  · intro p i hi j
    rw [e13.disp p i hi j]
    by_cases h : s ≤ i ∧ i < e
    · rw [if_pos h, if_pos h, key i hi j]
    · rw [if_neg h, if_neg h]
      have hp1 : t1.paused = false := by rw [core_paused e1.core]; exact p
      rw [e2.disp hp1 i (by omega) j, ← hdisp]
      exact e1.disp p i hi j

/-- `del_lines` when every line it touches is on the screen. -/
theorem delLines_eff {t : T} (g : Geo t) {n : Nat} (hn : 0 < n) (hin : t.r < t.eR)
    (hfit : t.r + 2 * min n (t.eR - t.r) < t.rows) :
    ∃ t', t.delLines n = some t' ∧
      Eff t t'
        (fun i j => if t.eR - min n (t.eR - t.r) ≤ i ∧ i < t.eR then mkEntry 32 defColor
          else if t.r ≤ i ∧ i ≤ t.r + min n (t.eR - t.r) then t.cell (i + min n (t.eR - t.r)) j
          else t.cell i j)
        (fun i j => if t.sR ≤ i ∧ i < t.eR then
            (if t.eR - min n (t.eR - t.r) ≤ i ∧ i < t.eR then mkEntry 32 defColor
             else if t.r ≤ i ∧ i ≤ t.r + min n (t.eR - t.r) then t.cell (i + min n (t.eR - t.r)) j
             else t.cell i j)
          else t.disp i j) := by
  have hreg := g.region
  have hrows := g.rows
  unfold T.delLines
  rw [if_neg (by omega), if_neg (by omega)]
  dsimp only
  generalize hs : t.sR = s at *
  generalize he : t.eR = e at *
  generalize hrr : t.r = r at *
  generalize hm : min n (e - r) = m at *
  have hm0 : 0 < m := by omega
  obtain ⟨t1, h1, e1⟩ := copyUp_eff g (a := r) (k := m + 1) (n := m) (by omega) hm0
  have hr1 : t1.rows = t.rows := core_rows e1.core
  obtain ⟨t2, h2, e2⟩ := clearBufs_eff (e1.geo g) (a := e - m) (k := m) (by omega)
  rw [h1]
  show ∃ t', (forN _ (e - m) m t1).map _ = some t' ∧ _
  rw [h2]
  refine ⟨_, rfl, ?_⟩
  have e3 := redraw2_eff t2 s e
  have e13 := (e1.trans e2).trans e3
  have key : ∀ i < t.rows, ∀ j, t2.cell i j = (if e - m ≤ i ∧ i < e then mkEntry 32 defColor
      else if r ≤ i ∧ i ≤ r + m then t.cell (i + m) j else t.cell i j) := by
    intro i hi j
    rw [e2.cell i (by omega) j]
    by_cases h : e - m ≤ i ∧ i < e - m + m
    · rw [if_pos h, if_pos ⟨by omega, by omega⟩]
    · rw [if_neg h, if_neg (by omega), e1.cell i hi j]
      by_cases h3 : r ≤ i ∧ i < r + (m + 1)
      · rw [if_pos h3, if_pos ⟨h3.1, by omega⟩]
      · rw [if_neg h3, if_neg (by omega)]
  refine ⟨e13.core, e13.tabs, ?_, e13.rest, ?_⟩
  · intro i hi j
    rw [e13.cell i hi j, key i hi j]
  · intro p i hi j
    rw [e13.disp p i hi j]
    by_cases h : s ≤ i ∧ i < e
    · rw [if_pos h, if_pos h, key i hi j]
    · rw [if_neg h, if_neg h]
      have hp1 : t1.paused = false := by rw [core_paused e1.core]; exact p
      rw [e2.disp hp1 i (by omega) j]
      exact e1.disp p i hi j

/-- A loop some step of which faults, after steps which keep the size of the screen. -/
theorem forN_fault {n a k : Nat} (t : T) (hn : 0 < n) (hk : t.rows < a + k + n) (h0 : 0 < k) :
    forN (fun t row => t.copyRow row (row + n)) a k t = none := by
  induction k generalizing a t with
  | zero => omega
  | succ k ih =>
    show (t.copyRow a (a + n)).bind _ = none
    unfold T.copyRow
    rw [if_neg (by omega)]
    by_cases h : a < t.rows ∧ a + n < t.rows
    · rw [if_pos h]
      refine ih _ (a := a + 1) ?_ (by omega)
      rw [core_rows (setTabs_core _ _)]
      show t.rows < _
      omega
    · rw [if_neg h]; rfl

theorem delLines_fault {t : T} {n : Nat} (hn : 0 < n) (hin : t.r < t.eR)
    (hfit : t.rows ≤ t.r + 2 * min n (t.eR - t.r)) : t.delLines n = none := by
  unfold T.delLines
  rw [if_neg (by omega), if_neg (by omega)]
  dsimp only
  rw [forN_fault t (by omega) (by omega) (by omega)]
  rfl

theorem eraseDisplay0_eff {t : T} (g : Geo t) :
    ∃ t', t.eraseDisplay 0 = some t' ∧
      Eff t t' (fun i j => if t.r < i ∨ i = t.r ∧ t.c ≤ j ∧ j < t.cols then mkEntry 32 defColor
          else t.cell i j)
        (fun i j => if t.r < i ∨ i = t.r ∧ t.c ≤ j ∧ j < t.cols then mkEntry 32 defColor
          else t.disp i j) := by
  have hcur := g.cur
  unfold T.eraseDisplay
  rw [if_pos rfl]
  obtain ⟨t1, h1, e1⟩ := blankCells_eff g (a := t.c) (b := t.cols) (Nat.le_refl _)
  have hr1 : t1.rows = t.rows := core_rows e1.core
  have hrr : t1.r = t.r := core_r e1.core
  obtain ⟨t2, h2, e2⟩ := clearRows_eff (e1.geo g) (a := t1.r + 1) (k := t1.rows - (t1.r + 1))
    (by omega)
  rw [h1]
  refine ⟨t2, h2, (e1.trans e2).core, (e1.trans e2).tabs, ?_, (e1.trans e2).rest, ?_⟩
  · intro i hi j
    rw [(e1.trans e2).cell i hi j]
    by_cases h : t1.r + 1 ≤ i ∧ i < t1.r + 1 + (t1.rows - (t1.r + 1))
    · rw [if_pos h, if_pos (by left; omega)]
    · rw [if_neg h, e1.cell i hi j]
      by_cases h3 : i = t.r ∧ t.c ≤ j ∧ j < t.cols
      · rw [if_pos h3, if_pos (Or.inr h3)]
      · rw [if_neg h3, if_neg (by omega)]
  · intro p i hi j
    rw [(e1.trans e2).disp p i hi j]
    by_cases h : t1.r + 1 ≤ i ∧ i < t1.r + 1 + (t1.rows - (t1.r + 1))
    · rw [if_pos h, if_pos (by left; omega)]
    · rw [if_neg h, e1.disp p i hi j]
      by_cases h3 : i = t.r ∧ t.c ≤ j ∧ j < t.cols
      · rw [if_pos h3, if_pos (Or.inr h3)]
      · rw [if_neg h3, if_neg (by omega)]

theorem eraseDisplay1_eff {t : T} (g : Geo t) :
    ∃ t', t.eraseDisplay 1 = some t' ∧
      Eff t t' (fun i j => if i < t.r ∨ i = t.r ∧ j < t.c then mkEntry 32 defColor
          else t.cell i j)
        (fun i j => if i < t.r ∨ i = t.r ∧ j < t.c then mkEntry 32 defColor else t.disp i j) := by
  have hcur := g.cur
  unfold T.eraseDisplay
  rw [if_neg (by decide), if_pos rfl]
  obtain ⟨t1, h1, e1⟩ := clearRows_eff g (a := 0) (k := t.r) (by omega)
  have hc1 : t1.cols = t.cols := core_cols e1.core
  have hrr : t1.r = t.r := core_r e1.core
  have hcc : t1.c = t.c := core_c e1.core
  obtain ⟨t2, h2, e2⟩ := blankCells_eff (e1.geo g) (a := 0) (b := t1.c) (by omega)
  rw [h1]
  refine ⟨t2, h2, (e1.trans e2).core, (e1.trans e2).tabs, ?_, (e1.trans e2).rest, ?_⟩
  · intro i hi j
    rw [(e1.trans e2).cell i hi j]
    by_cases h : i = t1.r ∧ 0 ≤ j ∧ j < t1.c
    · rw [if_pos h, if_pos (by right; omega)]
    · rw [if_neg h, e1.cell i hi j]
      by_cases h3 : 0 ≤ i ∧ i < 0 + t.r
      · rw [if_pos h3, if_pos (by left; omega)]
      · rw [if_neg h3, if_neg (by omega)]
  · intro p i hi j
    rw [(e1.trans e2).disp p i hi j]
    by_cases h : i = t1.r ∧ 0 ≤ j ∧ j < t1.c
    · rw [if_pos h, if_pos (by right; omega)]
    · rw [if_neg h, e1.disp p i hi j]
      by_cases h3 : 0 ≤ i ∧ i < 0 + t.r
      · rw [if_pos h3, if_pos (by left; omega)]
      · rw [if_neg h3, if_neg (by omega)]

theorem clearAll_eff {t : T} (g : Geo t) :
    ∃ t', forN (fun t row => t.clearRow row defColor) 0 t.rows t = some t' ∧
      Eff t t' (fun _ _ => mkEntry 32 defColor) (fun _ _ => mkEntry 32 defColor) := by
  obtain ⟨t1, h1, e1⟩ := clearRows_eff g (a := 0) (k := t.rows) (by omega)
  refine ⟨t1, h1, e1.congr ?_ ?_⟩
  · intro i hi j; rw [if_pos ⟨Nat.zero_le _, by omega⟩]
  · intro i hi j; rw [if_pos ⟨Nat.zero_le _, by omega⟩]

/-! ## Specification: a screen -/

/-- A screen of `rows` × `cols` cells with a cursor (the column `cols` is the place after the last
character of a full line), a scrolling region (lines `s` to `e`) for the main and for the alternate
screen, the main screen's picture and cursor while the alternate one is used, and the lines which
have left the screen at the top, latest first. -/
structure Scr where
  rows : Nat
  cols : Nat
  cell : Nat → Nat → Nat
  r : Nat
  c : Nat
  alt : Bool
  mainS : Nat
  mainE : Nat
  altS : Nat
  altE : Nat
  saved : Nat → Nat → Nat
  savedR : Nat
  savedC : Nat
  hist : List (Nat → Nat)

namespace Scr

/-- A blank cell: a space, white on black. -/
def blank : Nat := 32 + 256 * 7

/-- A blank cell with the colour of `e`. -/
def wipe (e : Nat) : Nat := 32 + 256 * (e / 256)

/-- First line of the scrolling region. -/
def top (s : Scr) : Nat := if s.alt then s.altS else s.mainS

/-- Last line of the scrolling region. -/
def bot (s : Scr) : Nat := if s.alt then s.altE else s.mainE

/-- The lines `a` to `b` go up by `n`; blank lines enter at the bottom. -/
def up (s : Scr) (a b n : Nat) : Nat → Nat → Nat := fun i j =>
  if a ≤ i ∧ i ≤ b then (if i + n ≤ b then s.cell (i + n) j else blank) else s.cell i j

/-- The lines `a` to `b` go down by `n`; blank lines enter at the top. -/
def down (s : Scr) (a b n : Nat) : Nat → Nat → Nat := fun i j =>
  if a ≤ i ∧ i ≤ b then (if a + n ≤ i then s.cell (i - n) j else blank) else s.cell i j

/-- Line feed: at the last line of the region the region scrolls; when the region is the whole
screen the first line goes to the history. -/
def lineFeed (s : Scr) : Scr :=
  if s.r = s.bot then
    { s with cell := s.up s.top s.bot 1,
             hist := if s.top = 0 ∧ s.bot + 1 = s.rows then s.cell 0 :: s.hist else s.hist }
  else if s.r + 1 < s.rows then { s with r := s.r + 1 } else s

/-- A printable character at the cursor. -/
def print (s : Scr) (ch color : Nat) : Scr :=
  { s with cell := fun i j => if i = s.r ∧ j = s.c then ch + 256 * color else s.cell i j,
           c := s.c + 1 }

/-- A character: line feed, carriage return, tab (the next multiple of 8, at most the last column),
or a printable character, which goes to the next line when the line is full. -/
def putc (s : Scr) (ch color : Nat) : Scr :=
  if ch = 10 then s.lineFeed
  else if ch = 13 then { s with c := 0 }
  else if ch = 9 then { s with c := min ((s.c / 8 + 1) * 8) (s.cols - 1) }
  else if s.c = s.cols then (lineFeed { s with c := 0 }).print ch color
  else s.print ch color

/-- Position `x`, brought into `0 … hi - 1`. -/
def into (x : Int) (hi : Nat) : Nat := if x < 0 then 0 else if x < hi then x.toNat else hi - 1

/-- What each control function does. -/
def act (s : Scr) : Act → Scr
  | .putc ch color => s.putc ch color
  | .delPrev => s
  | .delWord => s
  | .eraseDisplay m =>
    { s with
      cell := fun i j =>
        if (m = 0 ∧ (s.r < i ∨ i = s.r ∧ s.c ≤ j)) ∨ (m = 1 ∧ (i < s.r ∨ i = s.r ∧ j ≤ s.c)) ∨
           m = 2 ∨ m = 3 then blank
        else s.cell i j
      hist := if m = 3 then [] else s.hist }
  | .eraseLine m =>
    { s with
      cell := fun i j =>
        if i = s.r ∧ ((m = 0 ∧ s.c ≤ j) ∨ (m = 1 ∧ j ≤ s.c) ∨ m = 2) then blank
        else s.cell i j }
  | .nonBufUp n => { s with cell := s.up s.top s.bot n }
  | .nonBufDown n => { s with cell := s.down s.top s.bot n }
  | .moveCur row col => { s with r := into row s.rows, c := into col s.cols }
  | .moveRel dr dc => { s with r := into (s.r + dr) s.rows, c := into (s.c + dc) s.cols }
  | .reset => { s with cell := fun _ _ => blank, r := 0, c := 0, hist := [] }
  | .enableCursor _ => s
  | .useAlt v _ =>
    if s.alt = v then s
    else if v then { s with alt := true, saved := s.cell, savedR := s.r, savedC := s.c }
    else { s with alt := false, cell := s.saved, r := s.savedR, c := s.savedC }
  | .insLines n =>
    if s.top ≤ s.r ∧ s.r ≤ s.bot ∧ n ≠ 0 then { s with cell := s.down s.r s.bot n, c := 0 } else s
  | .delLines n =>
    if s.top ≤ s.r ∧ s.r ≤ s.bot ∧ n ≠ 0 then { s with cell := s.up s.r s.bot n } else s
  | .setRegion a b =>
    let a := into a s.rows
    let b := into b s.rows
    if a < b then
      if s.alt then { s with altS := a, altE := b, r := 0, c := 0 }
      else { s with mainS := a, mainE := b, r := 0, c := 0 }
    else s
  | .insChars n =>
    { s with cell := fun i j =>
        if i = s.r ∧ s.c ≤ j then
          (if j < s.c + n then wipe (s.cell i j) else s.cell i (j - n))
        else s.cell i j }
  | .delChars n =>
    { s with cell := fun i j =>
        if i = s.r ∧ s.c ≤ j then
          (if j + n < s.cols then s.cell i (j + n) else wipe (s.cell i j))
        else s.cell i j }
  | .eraseChars n =>
    { s with cell := fun i j =>
        if i = s.r ∧ s.c ≤ j ∧ j < s.c + n then wipe (s.cell i j) else s.cell i j }

end Scr

/-- The control functions the code implements as described: not the erase key (separate theorems),
not "up to the cursor" (`1`), not `3` away from the home position, scrolling down only in a region
which begins at the first line and has room, inserting lines only from inside the region, deleting
lines only when they are about half of what remains; a tab not after a full line; and the memory
for the alternate screen is there. -/
def Ok (s : Scr) : Act → Prop
  | .putc ch _ => ch = 9 → s.c < s.cols
  | .delPrev => False
  | .delWord => False
  | .eraseDisplay m => m ≠ 1 ∧ (m = 3 → s.r = 0 ∧ s.c = 0)
  | .eraseLine m => m ≠ 1
  | .nonBufDown n => n = 0 ∨ s.top = 0 ∧ min n s.rows ≤ s.bot + 1
  | .useAlt _ ok => ok = true
  | .insLines n => n = 0 ∨ s.top ≤ s.r ∨ s.bot < s.r
  | .delLines n => n = 0 ∨ s.bot < s.r ∨
      s.top ≤ s.r ∧ n ≤ s.bot - s.r ∧ s.bot - s.r ≤ 2 * n ∧ s.r + 2 * n < s.rows
  | _ => True

/-- The terminal's state represents the screen `s`: same cursor and regions, the visible lines are
the screen's, the display shows them, and the ring holds the latest lines of the history. -/
structure Rel (t : T) (s : Scr) : Prop where
  geo : Geo t
  tabs : TabsOk t
  mirror : Mirror t
  bottom : t.scroll = t.maxScroll
  rows : s.rows = t.rows
  cols : s.cols = t.cols
  r : s.r = t.r
  c : s.c = t.c
  alt : s.alt = t.alt
  main : s.mainS = t.mainS ∧ s.mainE = t.mainE
  altR : s.altS = t.altS ∧ s.altE = t.altE
  cell : ∀ i < t.rows, ∀ j < t.cols, t.cell i j = s.cell i j
  saved : t.alt = true → (∀ i < t.rows, ∀ j < t.cols, t.copy i j = s.saved i j) ∧
    s.savedR = t.savedR ∧ s.savedC = t.savedC
  histLen : t.maxScroll = s.hist.length
  hist : ∀ k < t.extra, ∀ l, s.hist[k]? = some l → ∀ j < t.cols,
    t.buf ((t.maxScroll - 1 - k) % t.total) j = l j

theorem Rel.top {t : T} {s : Scr} (h : Rel t s) : s.top = t.sR := by
  unfold Scr.top T.sR; rw [h.alt, h.main.1, h.altR.1]

theorem Rel.bot {t : T} {s : Scr} (h : Rel t s) : s.bot + 1 = t.eR := by
  unfold Scr.bot T.eR; rw [h.alt, h.main.2, h.altR.2]

/-- The lines of the history in the ring are not visible ones. -/
theorem hist_not_visible {t : T} (g : Geo t) (hb : t.scroll = t.maxScroll) {k : Nat}
    (hk : k < t.extra) (hk2 : k < t.maxScroll) :
    ∀ i < t.rows, t.ring i ≠ (t.maxScroll - 1 - k) % t.total := by
  intro i hi h
  unfold T.ring at h
  rw [hb] at h
  have hp := total_pos g
  have ht : t.total = t.rows + t.extra := rfl
  generalize t.total = N at *
  have e1 := Nat.div_add_mod (i + t.maxScroll) N
  have e2 := Nat.div_add_mod (t.maxScroll - 1 - k) N
  rw [h] at e1
  generalize (i + t.maxScroll) / N = q1 at *
  generalize (t.maxScroll - 1 - k) / N = q2 at *
  rcases Nat.lt_trichotomy q1 q2 with hq | hq | hq
  · have := Nat.mul_le_mul_left N (show q1 + 1 ≤ q2 from hq)
    rw [Nat.mul_add] at this
    omega
  · subst hq; omega
  · have := Nat.mul_le_mul_left N (show q2 + 1 ≤ q1 from hq)
    rw [Nat.mul_add] at this
    omega

/-- A step which changes only the picture. -/
theorem Rel.eff {t t' : T} {s : Scr} (h : Rel t s) {f d : Nat → Nat → Nat} (e : Eff t t' f d)
    {f' : Nat → Nat → Nat} (hf : ∀ i < t.rows, ∀ j < t.cols, f i j = f' i j)
    (hd : t.paused = false → ∀ i < t.rows, ∀ j < t.cols, d i j = f' i j) :
    Rel t' { s with cell := f' } := by
  have hrows := core_rows e.core
  have hcols := core_cols e.core
  have halt := core_alt e.core
  refine ⟨e.geo h.geo, e.tabs h.tabs, ?_, ?_, ?_, ?_, ?_, ?_, ?_, ?_, ?_, ?_, ?_, ?_, ?_⟩
  · intro p i hi j hj
    rw [core_paused e.core] at p
    rw [hrows] at hi
    rw [hcols] at hj
    rw [e.disp p i hi j, e.cell i hi j, hd p i hi j hj, hf i hi j hj]
  · rw [core_scroll e.core, core_maxScroll e.core]; exact h.bottom
  · rw [hrows]; exact h.rows
  · rw [hcols]; exact h.cols
  · rw [core_r e.core]; exact h.r
  · rw [core_c e.core]; exact h.c
  · rw [halt]; exact h.alt
  · rw [core_mainS e.core, core_mainE e.core]; exact h.main
  · rw [core_altS e.core, core_altE e.core]; exact h.altR
  · intro i hi j hj
    rw [hrows] at hi
    rw [hcols] at hj
    rw [e.cell i hi j]; exact hf i hi j hj
  · rw [halt, core_copy e.core, core_savedR e.core, core_savedC e.core, hrows, hcols]
    exact h.saved
  · rw [core_maxScroll e.core]; exact h.histLen
  · intro k hk l hl j hj
    rw [core_extra e.core] at hk
    rw [hcols] at hj
    have htot : t'.total = t.total := by unfold T.total; rw [hrows, core_extra e.core]
    have hlen : k < t.maxScroll := by
      rw [h.histLen]; exact (List.getElem?_eq_some_iff.mp hl).1
    rw [core_maxScroll e.core, htot, e.rest _ (hist_not_visible h.geo h.bottom hk hlen)]
    exact h.hist k hk l hl j hj

/-- Moving the cursor. -/
theorem Rel.cursor {t : T} {s : Scr} (h : Rel t s) {r c : Nat} (hr : r < t.rows) (hc : c ≤ t.cols) :
    Rel { t with r := r, c := c } { s with r := r, c := c } :=
  ⟨⟨h.geo.rows, h.geo.cols, ⟨hr, hc⟩, h.geo.scroll, h.geo.main, h.geo.alt, h.geo.saved⟩,
   h.tabs, h.mirror, h.bottom, h.rows, h.cols, rfl, rfl, h.alt, h.main, h.altR, h.cell, h.saved,
   h.histLen, h.hist⟩

theorem peek_eq (t : T) : t.peek = t ∨ t.peek = { t with overread := true } := by
  unfold T.peek; split
  · exact Or.inr rfl
  · exact Or.inl rfl

theorem Rel.over {t : T} {s : Scr} (h : Rel t s) (b : Bool) : Rel { t with overread := b } s :=
  ⟨⟨h.geo.rows, h.geo.cols, h.geo.cur, h.geo.scroll, h.geo.main, h.geo.alt, h.geo.saved⟩,
   h.tabs, h.mirror, h.bottom, h.rows, h.cols, h.r, h.c, h.alt, h.main, h.altR, h.cell, h.saved,
   h.histLen, h.hist⟩

theorem Rel.peek {t : T} {s : Scr} (h : Rel t s) : Rel t.peek s := by
  rcases peek_eq t with e | e
  · rw [e]; exact h
  · rw [e]; exact h.over true

theorem Rel.cursorOn {t : T} {s : Scr} (h : Rel t s) (b : Bool) : Rel { t with cursorOn := b } s :=
  ⟨⟨h.geo.rows, h.geo.cols, h.geo.cur, h.geo.scroll, h.geo.main, h.geo.alt, h.geo.saved⟩,
   h.tabs, h.mirror, h.bottom, h.rows, h.cols, h.r, h.c, h.alt, h.main, h.altR, h.cell, h.saved,
   h.histLen, h.hist⟩

theorem Rel.enableCursor {t : T} {s : Scr} (h : Rel t s) (v : Bool) : Rel (t.enableCursor v) s := by
  unfold T.enableCursor
  cases v
  · exact h.cursorOn false
  · exact h.peek.cursorOn true

/-- The whole screen goes one line up. -/
theorem ringUp_rel {t : T} {s : Scr} (h : Rel t s) :
    ∃ t', t.ringUp = some t' ∧
      Rel t' { s with cell := s.up 0 (t.rows - 1) 1, hist := s.cell 0 :: s.hist } := by
  have g := h.geo
  have hrows := g.rows
  have hp := total_pos g
  unfold T.ringUp
  dsimp only
  -- the state after the shift
  generalize ht1 : T.tabsUp { t with maxScroll := t.maxScroll + 1 } = u
  have hu : u.core = { t with maxScroll := t.maxScroll + 1 }.core := by
    rw [← ht1]; exact setTabs_core _ _
  have ub : u.buf = t.buf := by rw [← ht1]; exact setTabs_buf _ _
  have ud : u.disp = t.disp := by rw [← ht1]; exact setTabs_disp _ _
  have ur : u.rows = t.rows := (core_rows hu :)
  have uc : u.cols = t.cols := (core_cols hu :)
  have up : u.paused = t.paused := (core_paused hu :)
  have uh : u.hw = t.hw := (core_hw hu :)
  have us : u.scroll = t.scroll := (core_scroll hu :)
  have um : u.maxScroll = t.maxScroll + 1 := (core_maxScroll hu :)
  have ue : u.extra = t.extra := (core_extra hu :)
  have ut : TabsOk u := by
    rw [← ht1]
    refine setTabs_ok h.tabs ?_
    intro a b
    show (if a + 1 < t.rows then t.tabs (a + 1) else t.tabs a) b ≤ _
    split
    · exact h.tabs.tabs _ b
    · exact h.tabs.tabs _ b
  generalize hv : ({ u with scroll := t.scroll + 1 } : T) = v
  have hv1 : ({ u with scroll := u.scroll + 1 } : T) = v := by
    rw [← hv]; exact congrArg (fun x => ({ u with scroll := x } : T)) (by rw [us])
  have hv2 : ({ u with scroll := u.maxScroll } : T) = v := by
    rw [← hv]; exact congrArg (fun x => ({ u with scroll := x } : T)) (by rw [um, h.bottom])
  have vcore : v.core = { t with maxScroll := t.maxScroll + 1, scroll := t.scroll + 1 }.core := by
    subst hv
    exact congrArg (fun x : T => { x with scroll := t.scroll + 1 }) hu
  have gv : Geo v := by
    refine Geo.of_core vcore ⟨g.rows, g.cols, g.cur, ?_, g.main, g.alt, g.saved⟩
    have := g.scroll
    dsimp only
    omega
  have vr : v.rows = t.rows := (core_rows vcore :)
  have vtot : v.total = t.total := by
    unfold T.total; rw [vr, core_extra vcore]
  have vcell : ∀ i, v.cell i = t.cell (i + 1) := by
    intro i
    show v.buf (v.ring i) = t.buf (t.ring (i + 1))
    have : v.ring i = t.ring (i + 1) := by
      unfold T.ring
      rw [vtot, core_scroll vcore]
      congr 1
      show i + (t.scroll + 1) = _
      omega
    rw [this, ← hv]
    show u.buf _ = _
    rw [ub]
  have vtabs : TabsOk v := by subst hv; exact ut
  have vd : v.disp = t.disp := by subst hv; exact ud
  have vp : v.paused = t.paused := (core_paused vcore :)
  have vb : v.buf = t.buf := by subst hv; exact ub
  -- both ways of updating the display
  have main : ∃ t', (if u.hw ∨ u.paused then
        T.clearRow (T.showUp { u with scroll := u.scroll + 1 }) (u.rows - 1) defColor
      else (T.clearBuf { u with scroll := u.maxScroll } (u.rows - 1) defColor).map
        fun t => t.redraw) = some t' ∧
      Eff v t' (fun i j => if i = t.rows - 1 then mkEntry 32 defColor else v.cell i j)
        (fun i j => if i = t.rows - 1 then mkEntry 32 defColor
          else if u.hw ∨ u.paused then t.disp (i + 1) j else v.cell i j) := by
    rw [hv1, hv2, ur]
    by_cases hc : u.hw ∨ u.paused
    · rw [if_pos hc]
      have esu : Eff v v.showUp v.cell
          (fun i j => if i + 1 < v.rows then v.disp (i + 1) j else v.disp i j) := by
        unfold T.showUp
        by_cases hpp : v.paused = true
        · rw [if_pos hpp]
          exact ⟨rfl, id, fun _ _ _ => rfl, fun _ _ => rfl, fun h => by simp [hpp] at h⟩
        · rw [if_neg hpp]
          refine ⟨rfl, id, fun _ _ _ => rfl, fun _ _ => rfl, fun _ i _ j => ?_⟩
          show (if i + 1 < v.rows then v.disp (i + 1) else v.disp i) j = _
          split <;> rfl
      have hr2 : v.showUp.rows = t.rows := by rw [core_rows esu.core, vr]
      obtain ⟨t2, h2, e2⟩ := clearRow_eff (esu.geo gv) (d := t.rows - 1) (by omega) defColor
      refine ⟨t2, h2, (esu.trans e2).core, (esu.trans e2).tabs, ?_, (esu.trans e2).rest, ?_⟩
      · intro i hi j
        rw [(esu.trans e2).cell i hi j]
        split
        · rfl
        · exact esu.cell i hi j
      · intro p i hi j
        rw [(esu.trans e2).disp p i hi j]
        by_cases hl : i = t.rows - 1
        · rw [if_pos hl, if_pos hl]
        · rw [if_neg hl, if_neg hl, if_pos hc, esu.disp p i hi j, if_pos (by omega), vd]
    · rw [if_neg hc]
      obtain ⟨t2, h2, e2⟩ := clearBuf_eff gv (d := t.rows - 1) (by omega) defColor
      rw [h2]
      have e3 := redraw2_eff t2 0 t2.rows
      have e23 := e2.trans e3
      have hr2 : t2.rows = t.rows := by rw [core_rows e2.core, vr]
      refine ⟨_, rfl, e23.core, e23.tabs, ?_, e23.rest, ?_⟩
      · intro i hi j
        show (t2.redraw2 0 t2.rows).cell i j = _
        rw [e23.cell i hi j]; exact e2.cell i hi j
      · intro p i hi j
        show (t2.redraw2 0 t2.rows).disp i j = _
        rw [e23.disp p i hi j, if_pos ⟨Nat.zero_le _, by omega⟩, e2.cell i hi j, if_neg hc]
  obtain ⟨t', h', e⟩ := main
  refine ⟨t', h', ?_⟩
  have er : t'.rows = t.rows := by rw [core_rows e.core, vr]
  have ec : t'.cols = t.cols := by rw [core_cols e.core, core_cols vcore]
  have hblank : Scr.blank = mkEntry 32 defColor := rfl
  have cellEq : ∀ i < t.rows, ∀ j < t.cols, t'.cell i j = s.up 0 (t.rows - 1) 1 i j := by
    intro i hi j hj
    rw [e.cell i (by omega) j]
    unfold Scr.up
    by_cases hl : i = t.rows - 1
    · rw [if_pos hl, if_pos ⟨Nat.zero_le _, by omega⟩, if_neg (by omega)]; rfl
    · rw [if_neg hl, if_pos ⟨Nat.zero_le _, by omega⟩, if_pos (by omega), vcell i]
      exact h.cell (i + 1) (by omega) j hj
  have etot : t'.total = t.total := by
    unfold T.total; rw [er, core_extra e.core, core_extra vcore]
  have emax : t'.maxScroll = t.maxScroll + 1 := by rw [core_maxScroll e.core, core_maxScroll vcore]
  refine ⟨e.geo gv, e.tabs vtabs, ?_, ?_, ?_, ?_, ?_, ?_, ?_, ?_, ?_, ?_, ?_, ?_, ?_⟩
  · intro p i hi j hj
    rw [er] at hi
    rw [ec] at hj
    have p' : v.paused = false := by rw [← core_paused e.core]; exact p
    rw [e.disp p' i (by omega) j, e.cell i (by omega) j]
    by_cases hl : i = t.rows - 1
    · rw [if_pos hl, if_pos hl]
    · rw [if_neg hl, if_neg hl]
      split
      · rw [vcell i]
        exact h.mirror (by rw [← vp]; exact p') (i + 1) (by omega) j hj
      · rfl
  · rw [emax, core_scroll e.core, core_scroll vcore]
    show t.scroll + 1 = _
    rw [h.bottom]
  · rw [er]; exact h.rows
  · rw [ec]; exact h.cols
  · rw [core_r e.core, core_r vcore]; exact h.r
  · rw [core_c e.core, core_c vcore]; exact h.c
  · rw [core_alt e.core, core_alt vcore]; exact h.alt
  · rw [core_mainS e.core, core_mainS vcore, core_mainE e.core, core_mainE vcore]; exact h.main
  · rw [core_altS e.core, core_altS vcore, core_altE e.core, core_altE vcore]; exact h.altR
  · intro i hi j hj
    rw [er] at hi
    rw [ec] at hj
    exact cellEq i hi j hj
  · rw [core_alt e.core, core_alt vcore, core_copy e.core, core_copy vcore, core_savedR e.core,
      core_savedR vcore, core_savedC e.core, core_savedC vcore, er, ec]
    exact h.saved
  · rw [emax]
    show _ = s.hist.length + 1
    rw [h.histLen]
  · intro k hk l hl j hj
    rw [core_extra e.core, core_extra vcore] at hk
    rw [ec] at hj
    rw [emax, etot]
    have hext : k < t.extra := hk
    cases k with
    | zero =>
      have hl0 : l = s.cell 0 := by
        have : (s.cell 0 :: s.hist)[0]? = some l := hl
        simpa using this.symm
      rw [hl0, ← h.cell 0 (by omega) j hj]
      show t'.buf ((t.maxScroll + 1 - 1 - 0) % t.total) j = t.buf (t.ring 0) j
      have hring : (t.maxScroll + 1 - 1 - 0) % t.total = t.ring 0 := by
        unfold T.ring; rw [h.bottom]; congr 1; omega
      rw [hring, e.rest _ ?_, vb]
      intro i hi hcon
      have : v.ring i = t.ring (i + 1) := by
        unfold T.ring
        rw [vtot, core_scroll vcore]
        congr 1
        show i + (t.scroll + 1) = _
        omega
      rw [this] at hcon
      -- i + 1 < rows + 1 ≤ total
      rw [vr] at hi
      unfold T.ring at hcon
      have htt : t.total = t.rows + t.extra := rfl
      generalize t.total = N at *
      have e1 := Nat.div_add_mod (i + 1 + t.scroll) N
      have e2 := Nat.div_add_mod (0 + t.scroll) N
      rw [hcon] at e1
      generalize (i + 1 + t.scroll) / N = q1 at *
      generalize (0 + t.scroll) / N = q2 at *
      rcases Nat.lt_trichotomy q1 q2 with hq | hq | hq
      · have := Nat.mul_le_mul_left N (show q1 + 1 ≤ q2 from hq)
        rw [Nat.mul_add] at this
        omega
      · subst hq; omega
      · have := Nat.mul_le_mul_left N (show q2 + 1 ≤ q1 from hq)
        rw [Nat.mul_add] at this
        omega
    | succ k =>
      have hl1 : s.hist[k]? = some l := by
        have : (s.cell 0 :: s.hist)[k + 1]? = some l := hl
        simpa using this
      have hlen : k < t.maxScroll := by
        rw [h.histLen]; exact (List.getElem?_eq_some_iff.mp hl1).1
      have hnum : t.maxScroll + 1 - 1 - (k + 1) = t.maxScroll - 1 - k := by omega
      rw [hnum, ← h.hist k (by omega) l hl1 j hj]
      have hnv : ∀ i < v.rows, v.ring i ≠ (t.maxScroll - 1 - k) % t.total := by
        have := hist_not_visible gv (by
          rw [core_scroll vcore, core_maxScroll vcore]
          show t.scroll + 1 = _
          rw [h.bottom]) (k := k + 1) (by rw [core_extra vcore]; exact hk)
          (by rw [core_maxScroll vcore]; show k + 1 < t.maxScroll + 1; omega)
        intro i hi
        have h2 := this i hi
        rw [vtot, core_maxScroll vcore] at h2
        have hnum2 : ({ t with maxScroll := t.maxScroll + 1, scroll := t.scroll + 1 } : T).maxScroll
            - 1 - (k + 1) = t.maxScroll - 1 - k := by
          show t.maxScroll + 1 - 1 - (k + 1) = _
          omega
        rw [hnum2] at h2
        exact h2
      rw [e.rest _ hnv, vb]

/-! ## The terminal implements the screen -/

/-- Closes the comparisons of cells. -/
macro "cells" h:ident p:ident : tactic => `(tactic|
  (repeat' split) <;> first
    | rfl
    | (exfalso; omega)
    | exact ($h).cell _ (by omega) _ (by omega)
    | exact (($h).mirror $p _ (by omega) _ (by omega)).trans (($h).cell _ (by omega) _ (by omega))
    | (rw [($h).cell _ (by omega) _ (by omega)]; rfl))

theorem into_eq (x : Int) {n : Nat} (hn : 0 < n) : clampI x (n - 1) = Scr.into x n := by
  unfold clampI Scr.into
  split
  · omega
  · split <;> omega

theorem into_nat (x : Nat) {n : Nat} (hn : 0 < n) : min x (n - 1) = Scr.into x n := by
  unfold Scr.into
  split
  · omega
  · split <;> omega

theorem into_lt (x : Int) {n : Nat} (hn : 0 < n) : Scr.into x n < n := by
  unfold Scr.into
  split
  · omega
  · split <;> omega

/-- The same picture. -/
theorem Rel.congr {t : T} {s : Scr} (h : Rel t s) {f : Nat → Nat → Nat}
    (hf : ∀ i < t.rows, ∀ j < t.cols, f i j = s.cell i j) : Rel t { s with cell := f } :=
  ⟨h.geo, h.tabs, h.mirror, h.bottom, h.rows, h.cols, h.r, h.c, h.alt, h.main, h.altR,
   fun i hi j hj => (h.cell i hi j hj).trans (hf i hi j hj).symm, h.saved, h.histLen, h.hist⟩

theorem nonBufUp_rel {t : T} {s : Scr} (h : Rel t s) (n : Nat) :
    ∃ t', t.nonBufUp n = some t' ∧ Rel t' { s with cell := s.up s.top s.bot n } := by
  have ht := h.top
  have hb := h.bot
  have hreg := h.geo.region
  by_cases hn : n = 0
  · refine ⟨t, by unfold T.nonBufUp; exact if_pos hn, h.congr fun i hi j hj => ?_⟩
    unfold Scr.up
    subst hn
    split
    · rw [if_pos (by omega)]; rfl
    · rfl
  · obtain ⟨t', h', e⟩ := nonBufUp_eff h.geo (n := n) (by omega)
    refine ⟨t', h', h.eff e (fun i hi j hj => ?_) (fun p i hi j hj => ?_)⟩
    · (try dsimp only); unfold Scr.up
      cells h hn
    · (try dsimp only); unfold Scr.up
      cells h p

theorem incrRow_rel {t : T} {s : Scr} (h : Rel t s) :
    ∃ t', t.incrRow = some t' ∧ Rel t' s.lineFeed := by
  have ht := h.top
  have hb := h.bot
  have hr := h.r
  have hrows := h.rows
  have hreg := h.geo.region
  have hcur := h.geo.cur
  unfold T.incrRow Scr.lineFeed
  by_cases h1 : t.r + 1 < t.eR
  · rw [if_pos h1, if_neg (by omega), if_pos (by omega)]
    refine ⟨_, rfl, ?_⟩
    have := h.cursor (r := t.r + 1) (c := t.c) (by omega) hcur.2
    rw [hr]
    rw [show ({ s with r := t.r + 1 } : Scr) = { s with r := t.r + 1, c := t.c } by rw [← h.c]]
    exact this
  · rw [if_neg h1]
    by_cases h2 : t.sR ≠ 0 ∨ t.eR < t.rows
    · rw [if_pos h2]
      by_cases h3 : t.r + 1 = t.eR
      · rw [if_pos h3, if_pos (by omega), if_neg (by omega)]
        exact nonBufUp_rel h 1
      · rw [if_neg h3, if_neg (show ¬ s.r = s.bot by omega)]
        by_cases h4 : t.r + 1 < t.rows
        · rw [if_pos h4, if_pos (by omega)]
          refine ⟨_, rfl, ?_⟩
          have := h.cursor (r := t.r + 1) (c := t.c) (by omega) hcur.2
          rw [hr]
          rw [show ({ s with r := t.r + 1 } : Scr) = { s with r := t.r + 1, c := t.c } by rw [← h.c]]
          exact this
        · rw [if_neg h4, if_neg (by omega)]
          exact ⟨_, rfl, h⟩
    · rw [if_neg h2, if_pos (by omega), if_pos (by omega)]
      have e1 : s.top = 0 := by omega
      have e2 : s.bot = t.rows - 1 := by omega
      rw [e1, e2]
      exact ringUp_rel h

theorem printable_rel {t : T} {s : Scr} (h : Rel t s) (hc : t.c < t.cols) (ch color : Nat) :
    ∃ t', t.printable ch color = some t' ∧ Rel t' (s.print ch color) := by
  unfold T.printable Scr.print
  obtain ⟨t1, h1, e⟩ := put_eff h.geo h.geo.cur.1 hc (mkEntry ch color)
  rw [h1]
  have hr := h.r
  have hcc := h.c
  have hcols := h.geo.cols
  have r1 : Rel t1 { s with
      cell := fun i j => if i = s.r ∧ j = s.c then ch + 256 * color else s.cell i j } := by
    refine h.eff e (fun i hi j hj => ?_) (fun p i hi j hj => ?_)
    · (try dsimp only); cells h hc
    · (try dsimp only); cells h p
  refine ⟨_, rfl, ?_⟩
  have ec : t1.c = t.c := core_c e.core
  have er : t1.r = t.r := core_r e.core
  have h2 := r1.cursor (r := t1.r) (c := t1.c + 1) r1.geo.cur.1 (by rw [core_cols e.core]; omega)
  have hm : (t1.c + 1) % 65536 = t1.c + 1 := by omega
  have e2 : ({ t1 with c := (t1.c + 1) % 65536 } : T) = { t1 with r := t1.r, c := t1.c + 1 } :=
    congrArg (fun x => ({ t1 with c := x } : T)) hm
  show Rel ({ t1 with c := (t1.c + 1) % 65536 } : T) _
  rw [e2]
  have e3 : s.c + 1 = t1.c + 1 := by omega
  have e4 : s.r = t1.r := by omega
  rw [e3]
  rw [← e4] at h2
  rw [← e4]
  exact h2

theorem setTabs_rel {t : T} {s : Scr} (h : Rel t s) (f : Nat → Nat → Nat)
    (hf : ∀ a b, f a b ≤ b + 1) : Rel (t.setTabs f) s := by
  have e : Eff t (t.setTabs f) t.cell t.disp :=
    ⟨setTabs_core t f, fun h => setTabs_ok h hf, fun i _ j => by rw [setTabs_cell],
     fun k _ => by rw [setTabs_buf], fun _ i _ j => by rw [setTabs_disp]⟩
  have := h.eff e (f' := s.cell) h.cell
    (fun p i hi j hj => (h.mirror p i hi j hj).trans (h.cell i hi j hj))
  exact this

theorem tabCol_eq {t : T} (g : Geo t) (hc : t.c < t.cols) :
    t.tabCol + 1 = min ((t.c / 8 + 1) * 8) (t.cols - 1) := by
  unfold T.tabCol
  have := g.cols
  have e : (t.c + 1 + 7) / 8 = t.c / 8 + 1 := by omega
  rw [e]
  have h1 : 1 ≤ min ((t.c / 8 + 1) * 8) (t.cols - 1) := by omega
  have h2 : min ((t.c / 8 + 1) * 8) (t.cols - 1) < 32768 := by omega
  generalize min ((t.c / 8 + 1) * 8) (t.cols - 1) = m at *
  omega

theorem tab_rel {t : T} {s : Scr} (h : Rel t s) (hc : t.c < t.cols) :
    ∃ t', t.tab = some t' ∧ Rel t' { s with c := min ((s.c / 8 + 1) * 8) (s.cols - 1) } := by
  have hk := tabCol_eq h.geo hc
  have hcols := h.geo.cols
  unfold T.tab
  dsimp only
  rw [if_pos ⟨h.geo.cur.1, by omega⟩]
  refine ⟨_, rfl, ?_⟩
  have h1 := setTabs_rel h (fun a b => if a = t.r ∧ b = t.tabCol
    then (t.tabCol + 1 + 2 ^ 32 - t.c) % 2 ^ 32 % 256 else t.tabs a b) ?_
  · generalize t.setTabs _ = u at *
    have h2 := h1.cursor (r := u.r) (c := t.tabCol + 1) h1.geo.cur.1 (by
      have : u.cols = t.cols := by rw [← h1.cols, h.cols]
      omega)
    have hm : (t.tabCol + 1) % 65536 = t.tabCol + 1 := by omega
    have e2 : ({ u with c := (t.tabCol + 1) % 65536 } : T) = { u with r := u.r, c := t.tabCol + 1 } :=
      congrArg (fun x => ({ u with c := x } : T)) hm
    have e5 : min ((s.c / 8 + 1) * 8) (s.cols - 1) = t.tabCol + 1 := by rw [hk, h.c, h.cols]
    rw [e2, e5]
    rw [← h1.r] at h2
    rw [← h1.r]
    exact h2
  · intro a b
    split
    · rename_i hab
      have h3 : t.c ≤ t.tabCol + 1 := by rw [hk]; omega
      rw [hab.2]
      have : (t.tabCol + 1 + 2 ^ 32 - t.c) % 2 ^ 32 % 256 ≤ (t.tabCol + 1 + 2 ^ 32 - t.c) % 2 ^ 32 :=
        Nat.mod_le _ _
      omega
    · exact h.tabs.tabs a b

theorem cursor_col {t : T} {s : Scr} (h : Rel t s) {c : Nat} (hc : c ≤ t.cols) :
    Rel { t with c := c } { s with c := c } := by
  have := h.cursor (r := t.r) (c := c) h.geo.cur.1 hc
  have e : ({ s with c := c } : Scr) = { s with r := t.r, c := c } := by rw [← h.r]
  rw [e]
  exact this

theorem putc_rel {t : T} {s : Scr} (h : Rel t s) (ch color : Nat) (hok : ch = 9 → s.c < s.cols) :
    ∃ t', t.putc ch color = some t' ∧ Rel t' (s.putc ch color) := by
  have hcc := h.c
  have hcs := h.cols
  have hcur := h.geo.cur
  have hcols := h.geo.cols
  unfold T.putc Scr.putc
  by_cases h10 : ch = 10
  · rw [if_pos h10, if_pos h10]; exact incrRow_rel h
  rw [if_neg h10, if_neg h10]
  by_cases h13 : ch = 13
  · rw [if_pos h13, if_pos h13]
    exact ⟨_, rfl, cursor_col h (Nat.zero_le _)⟩
  rw [if_neg h13, if_neg h13]
  by_cases h9 : ch = 9
  · rw [if_pos h9, if_pos h9]; exact tab_rel h (by have := hok h9; omega)
  rw [if_neg h9, if_neg h9]
  by_cases hw : t.c = t.cols
  · rw [if_pos hw, if_pos (by omega)]
    obtain ⟨t1, h1, r1⟩ := incrRow_rel (cursor_col h (Nat.zero_le t.cols))
    rw [h1]
    have hc0 : t1.c = 0 := by
      rw [← r1.c]
      unfold Scr.lineFeed
      split
      · rfl
      · split <;> rfl
    exact printable_rel r1 (by rw [hc0]; have := r1.geo.cols; omega) ch color
  · rw [if_neg hw, if_neg (by omega)]
    exact printable_rel h (by omega) ch color

theorem showUpTo_rel {t : T} {s : Scr} (h : Rel t s) :
    Rel t.redraw s := by
  have := h.eff (redraw2_eff t 0 t.rows) (f' := s.cell) h.cell (fun p i hi j hj => by
    rw [if_pos ⟨Nat.zero_le _, hi⟩]; exact h.cell i hi j hj)
  exact this

theorem reset_rel {t : T} {s : Scr} (h : Rel t s) :
    ∃ t', t.reset = some t' ∧
      Rel t' { s with cell := fun _ _ => Scr.blank, r := 0, c := 0, hist := [] } := by
  have g := h.geo
  unfold T.reset
  dsimp only
  have e0 : t.moveCur 0 0 = { t with r := 0, c := 0 } := by
    unfold T.moveCur; rw [Nat.zero_min, Nat.zero_min]
  rw [e0]
  generalize hu : ({ t with r := 0, c := 0, scroll := 0, maxScroll := 0 } : T) = u
  have vr : u.rows = t.rows := by rw [← hu]
  have gu : Geo u := by
    subst hu
    exact ⟨g.rows, g.cols, ⟨g.rows.1, Nat.zero_le _⟩, ⟨Nat.zero_le _, Nat.zero_le _⟩, g.main, g.alt,
      g.saved⟩
  obtain ⟨t1, h1, e⟩ := clearAll_eff gu
  rw [vr] at h1
  rw [h1]
  refine ⟨_, rfl, setTabs_rel ?_ _ (fun _ _ => Nat.zero_le _)⟩
  have vc : u.cols = t.cols := by rw [← hu]
  refine ⟨e.geo gu, e.tabs (by subst hu; exact h.tabs), ?_, ?_, ?_, ?_, ?_, ?_, ?_, ?_, ?_, ?_, ?_,
    ?_, ?_⟩
  · intro p i hi j hj
    rw [core_rows e.core] at hi
    rw [e.disp (by rw [← core_paused e.core]; exact p) i hi j, e.cell i hi j]
  · rw [core_scroll e.core, core_maxScroll e.core, ← hu]
  · rw [core_rows e.core, ← hu]; exact h.rows
  · rw [core_cols e.core, ← hu]; exact h.cols
  · rw [core_r e.core, ← hu]
  · rw [core_c e.core, ← hu]
  · rw [core_alt e.core, ← hu]; exact h.alt
  · rw [core_mainS e.core, core_mainE e.core, ← hu]; exact h.main
  · rw [core_altS e.core, core_altE e.core, ← hu]; exact h.altR
  · intro i hi j hj
    rw [core_rows e.core] at hi
    rw [e.cell i hi j]; rfl
  · rw [core_alt e.core, core_copy e.core, core_savedR e.core, core_savedC e.core,
      core_rows e.core, core_cols e.core, ← hu]
    exact h.saved
  · rw [core_maxScroll e.core, ← hu]; rfl
  · intro k hk l hl
    exact absurd hl (by simp)

theorem eraseDisplay_rel {t : T} {s : Scr} (h : Rel t s) {m : Nat} (hm : m ≠ 1)
    (h3 : m = 3 → s.r = 0 ∧ s.c = 0) :
    ∃ t', t.eraseDisplay m = some t' ∧ Rel t' (s.act (.eraseDisplay m)) := by
  have hr := h.r
  have hc := h.c
  by_cases m0 : m = 0
  · subst m0
    obtain ⟨t', h', e⟩ := eraseDisplay0_eff h.geo
    refine ⟨t', h', ?_⟩
    refine h.eff e (fun i hi j hj => ?_) (fun p i hi j hj => ?_)
    · (try dsimp only); cells h hm
    · (try dsimp only); cells h p
  by_cases m2 : m = 2
  · subst m2
    obtain ⟨t', h', e⟩ := clearAll_eff h.geo
    refine ⟨t', h', ?_⟩
    refine h.eff e (fun i hi j hj => ?_) (fun p i hi j hj => ?_)
    · (try dsimp only); cells h hm
    · (try dsimp only); cells h p
  by_cases m3 : m = 3
  · subst m3
    obtain ⟨t', h', r'⟩ := reset_rel h
    refine ⟨t', h', ?_⟩
    obtain ⟨e1, e2⟩ := h3 rfl
    have e4 : ({ s with cell := fun _ _ => Scr.blank, r := 0, c := 0, hist := [] } : Scr) =
        { s with cell := fun _ _ => Scr.blank, r := s.r, c := s.c, hist := [] } := by rw [e1, e2]
    rw [e4] at r'
    have r2 := r'.congr (f := fun i j => if (3 = 0 ∧ (s.r < i ∨ i = s.r ∧ s.c ≤ j)) ∨
      (3 = 1 ∧ (i < s.r ∨ i = s.r ∧ j ≤ s.c)) ∨ 3 = 2 ∨ 3 = 3 then Scr.blank else s.cell i j)
      (fun i _ j _ => if_pos (Or.inr (Or.inr (Or.inr rfl))))
    exact r2
  · refine ⟨t, ?_, ?_⟩
    · unfold T.eraseDisplay
      rw [if_neg m0, if_neg hm, if_neg m2, if_neg m3]
    · dsimp only [Scr.act]
      rw [if_neg m3]
      refine h.congr fun i hi j hj => ?_
      rw [if_neg]
      omega

theorem eraseLine_rel {t : T} {s : Scr} (h : Rel t s) {m : Nat} (hm : m ≠ 1) :
    ∃ t', t.eraseLine m = some t' ∧ Rel t' (s.act (.eraseLine m)) := by
  have hr := h.r
  have hc := h.c
  by_cases m0 : m = 0
  · subst m0
    obtain ⟨t', h', e⟩ := blankCells_eff h.geo (a := t.c) (b := t.cols) (Nat.le_refl _)
    refine ⟨t', h', ?_⟩
    refine h.eff e (fun i hi j hj => ?_) (fun p i hi j hj => ?_)
    · (try dsimp only); cells h hm
    · (try dsimp only); cells h p
  by_cases m2 : m = 2
  · subst m2
    obtain ⟨t', h', e⟩ := clearRow_eff h.geo h.geo.cur.1 defColor
    refine ⟨t', h', ?_⟩
    refine h.eff e (fun i hi j hj => ?_) (fun p i hi j hj => ?_)
    · (try dsimp only); cells h hm
    · (try dsimp only); cells h p
  · refine ⟨t, ?_, ?_⟩
    · unfold T.eraseLine
      rw [if_neg m0, if_neg hm, if_neg m2]
    · dsimp only [Scr.act]
      refine h.congr fun i hi j hj => ?_
      rw [if_neg]
      omega

theorem nonBufDown_rel {t : T} {s : Scr} (h : Rel t s) {n : Nat}
    (hok : n = 0 ∨ s.top = 0 ∧ min n s.rows ≤ s.bot + 1) :
    ∃ t', t.nonBufDown n = some t' ∧ Rel t' (s.act (.nonBufDown n)) := by
  have ht := h.top
  have hb := h.bot
  have hrows := h.rows
  have hreg := h.geo.region
  by_cases hn : n = 0
  · refine ⟨t, by unfold T.nonBufDown; exact if_pos hn, h.congr fun i hi j hj => ?_⟩
    unfold Scr.down
    subst hn
    split
    · rw [if_pos (by omega)]; rfl
    · rfl
  · have hok' := hok.resolve_left hn
    obtain ⟨t', h', e⟩ := nonBufDown_eff h.geo (n := n) (by omega) (by omega)
    refine ⟨t', h', ?_⟩
    have hsr : t.sR = 0 := by omega
    by_cases hbig : n ≤ t.rows
    · have hm : min n t.rows = n := Nat.min_eq_left hbig
      rw [hm] at e
      refine h.eff e (fun i hi j hj => ?_) (fun p i hi j hj => ?_)
      · (try dsimp only); unfold Scr.down; cells h hn
      · (try dsimp only); unfold Scr.down; cells h p
    · have hm : min n t.rows = t.rows := Nat.min_eq_right (by omega)
      rw [hm] at e
      refine h.eff e (fun i hi j hj => ?_) (fun p i hi j hj => ?_)
      · (try dsimp only); unfold Scr.down; cells h hn
      · (try dsimp only); unfold Scr.down; cells h p

theorem insLines_rel {t : T} {s : Scr} (h : Rel t s) {n : Nat}
    (hok : n = 0 ∨ s.top ≤ s.r ∨ s.bot < s.r) :
    ∃ t', t.insLines n = some t' ∧ Rel t' (s.act (.insLines n)) := by
  have ht := h.top
  have hb := h.bot
  have hr := h.r
  have hreg := h.geo.region
  dsimp only [Scr.act]
  by_cases hn : n = 0
  · refine ⟨t, by unfold T.insLines; exact if_pos hn, ?_⟩
    rw [if_neg (by omega)]; exact h
  by_cases hin : t.r ≥ t.eR
  · refine ⟨t, by unfold T.insLines; rw [if_neg hn, if_pos hin], ?_⟩
    rw [if_neg (by omega)]; exact h
  · obtain ⟨t', h', e⟩ := insLines_eff h.geo (n := n) (by omega) (by omega)
    refine ⟨t', h', ?_⟩
    rw [if_pos (by omega)]
    have h0 := cursor_col h (Nat.zero_le t.cols)
    refine h0.eff e (fun i hi j hj => ?_) (fun p i hi j hj => ?_)
    · (try dsimp only at hi hj ⊢); unfold Scr.down; cells h hn
    · (try dsimp only at hi hj p ⊢); unfold Scr.down; cells h p

theorem delLines_rel {t : T} {s : Scr} (h : Rel t s) {n : Nat}
    (hok : n = 0 ∨ s.bot < s.r ∨
      s.top ≤ s.r ∧ n ≤ s.bot - s.r ∧ s.bot - s.r ≤ 2 * n ∧ s.r + 2 * n < s.rows) :
    ∃ t', t.delLines n = some t' ∧ Rel t' (s.act (.delLines n)) := by
  have ht := h.top
  have hb := h.bot
  have hr := h.r
  have hrows := h.rows
  have hreg := h.geo.region
  dsimp only [Scr.act]
  by_cases hn : n = 0
  · refine ⟨t, by unfold T.delLines; exact if_pos hn, ?_⟩
    rw [if_neg (by omega)]; exact h
  by_cases hin : t.r ≥ t.eR
  · refine ⟨t, by unfold T.delLines; rw [if_neg hn, if_pos hin], ?_⟩
    rw [if_neg (by omega)]; exact h
  · have hm : min n (t.eR - t.r) = n := by omega
    obtain ⟨t', h', e⟩ := delLines_eff h.geo (n := n) (by omega) (by omega) (by omega)
    rw [hm] at e
    refine ⟨t', h', ?_⟩
    rw [if_pos (by omega)]
    refine h.eff e (fun i hi j hj => ?_) (fun p i hi j hj => ?_)
    · (try dsimp only); unfold Scr.up; cells h hn
    · (try dsimp only); unfold Scr.up; cells h p

theorem blanked_wipe (e : Nat) : blanked e = Scr.wipe e := rfl

theorem insChars_rel {t : T} {s : Scr} (h : Rel t s) (n : Nat) :
    ∃ t', t.insChars n = some t' ∧ Rel t' (s.act (.insChars n)) := by
  have hr := h.r
  have hc := h.c
  have hcur := h.geo.cur
  unfold T.insChars
  obtain ⟨t', h', e⟩ := lineEdit_eff h.geo (fun k =>
    if k < t.c then t.cell t.r k
    else if k < t.c + min n (t.cols - t.c) then blanked (t.cell t.r k)
    else t.cell t.r (k - min n (t.cols - t.c)))
  refine ⟨t', h', ?_⟩
  refine h.eff e (fun i hi j hj => ?_) (fun p i hi j hj => ?_)
  · (try dsimp only)
    by_cases hi2 : i = t.r
    · subst hi2
      by_cases hn : n ≤ t.cols - t.c
      · rw [Nat.min_eq_left hn]; cells h hr
      · rw [Nat.min_eq_right (by omega)]; cells h hr
    · rw [if_neg hi2, if_neg (by omega)]; exact h.cell i hi j hj
  · (try dsimp only)
    by_cases hi2 : i = t.r
    · subst hi2
      by_cases hn : n ≤ t.cols - t.c
      · rw [Nat.min_eq_left hn]; cells h p
      · rw [Nat.min_eq_right (by omega)]; cells h p
    · rw [if_neg (by omega), if_neg (by omega)]
      exact (h.mirror p i hi j hj).trans (h.cell i hi j hj)

theorem delChars_rel {t : T} {s : Scr} (h : Rel t s) (n : Nat) :
    ∃ t', t.delChars n = some t' ∧ Rel t' (s.act (.delChars n)) := by
  have hr := h.r
  have hc := h.c
  have hcs := h.cols
  have hcur := h.geo.cur
  unfold T.delChars
  obtain ⟨t', h', e⟩ := lineEdit_eff h.geo (fun k =>
    if k < t.c then t.cell t.r k
    else if k + min n (t.cols - t.c) < t.cols then t.cell t.r (k + min n (t.cols - t.c))
    else blanked (t.cell t.r k))
  refine ⟨t', h', ?_⟩
  refine h.eff e (fun i hi j hj => ?_) (fun p i hi j hj => ?_)
  · (try dsimp only)
    by_cases hi2 : i = t.r
    · subst hi2
      by_cases hn : n ≤ t.cols - t.c
      · rw [Nat.min_eq_left hn]; cells h hr
      · rw [Nat.min_eq_right (by omega)]; cells h hr
    · rw [if_neg hi2, if_neg (by omega)]; exact h.cell i hi j hj
  · (try dsimp only)
    by_cases hi2 : i = t.r
    · subst hi2
      by_cases hn : n ≤ t.cols - t.c
      · rw [Nat.min_eq_left hn]; cells h p
      · rw [Nat.min_eq_right (by omega)]; cells h p
    · rw [if_neg (by omega), if_neg (by omega)]
      exact (h.mirror p i hi j hj).trans (h.cell i hi j hj)

theorem eraseChars_rel {t : T} {s : Scr} (h : Rel t s) (n : Nat) :
    ∃ t', t.eraseChars n = some t' ∧ Rel t' (s.act (.eraseChars n)) := by
  have hr := h.r
  have hc := h.c
  have hcur := h.geo.cur
  unfold T.eraseChars
  obtain ⟨t', h', e⟩ := lineEdit_eff h.geo (fun k =>
    if k < t.c then t.cell t.r k
    else if k < t.c + n then blanked (t.cell t.r k)
    else t.cell t.r k)
  refine ⟨t', h', ?_⟩
  refine h.eff e (fun i hi j hj => ?_) (fun p i hi j hj => ?_)
  · (try dsimp only)
    by_cases hi2 : i = t.r
    · subst hi2; cells h hr
    · rw [if_neg hi2, if_neg (by omega)]; exact h.cell i hi j hj
  · (try dsimp only)
    by_cases hi2 : i = t.r
    · subst hi2; cells h p
    · rw [if_neg (by omega), if_neg (by omega)]
      exact (h.mirror p i hi j hj).trans (h.cell i hi j hj)

theorem moveCur_rel {t : T} {s : Scr} (h : Rel t s) (row col : Nat) :
    Rel (t.moveCur row col) (s.act (.moveCur row col)) := by
  have h1 := h.geo.rows.1
  have h2 := h.geo.cols.1
  have e1 : min row (t.rows - 1) = Scr.into row s.rows := by rw [h.rows, into_nat row h1]
  have e2 : min col (t.cols - 1) = Scr.into col s.cols := by
    rw [h.cols, into_nat col (by omega)]
  unfold T.moveCur
  rw [e1, e2]
  exact h.cursor (by rw [← e1]; omega) (by rw [← e2]; omega)

theorem moveRel_rel {t : T} {s : Scr} (h : Rel t s) (dr dc : Int) :
    Rel (t.moveRel dr dc) (s.act (.moveRel dr dc)) := by
  have h1 := h.geo.rows.1
  have h2 := h.geo.cols.1
  have e1 : clampI (t.r + dr) (t.rows - 1) = Scr.into (s.r + dr) s.rows := by
    rw [h.rows, h.r, into_eq _ h1]
  have e2 : clampI (t.c + dc) (t.cols - 1) = Scr.into (s.c + dc) s.cols := by
    rw [h.cols, h.c, into_eq _ (by omega)]
  unfold T.moveRel
  rw [e1, e2]
  refine h.cursor (by rw [h.rows]; exact into_lt _ h1) ?_
  rw [h.cols]
  exact Nat.le_of_lt (into_lt _ (by omega))

theorem setRegion_rel {t : T} {s : Scr} (h : Rel t s) (a b : Nat) :
    Rel (t.setRegion a b) (s.act (.setRegion a b)) := by
  have g := h.geo
  have h1 := g.rows.1
  have e1 : min a (t.rows - 1) = Scr.into a s.rows := by rw [h.rows, into_nat a h1]
  have e2 : min b (t.rows - 1) = Scr.into b s.rows := by rw [h.rows, into_nat b h1]
  have l2 : Scr.into b s.rows < t.rows := by rw [h.rows]; exact into_lt b h1
  unfold T.setRegion
  dsimp only [Scr.act]
  rw [e1, e2]
  generalize Scr.into a s.rows = x at *
  generalize Scr.into b s.rows = y at *
  by_cases hxy : x < y
  · rw [if_neg (by omega), if_pos hxy]
    have e0 : ∀ u : T, u.moveCur 0 0 = { u with r := 0, c := 0 } := by
      intro u; unfold T.moveCur; rw [Nat.zero_min, Nat.zero_min]
    rw [e0]
    have hsa := h.alt
    by_cases hal : t.alt = true
    case neg =>
      rw [if_neg hal, if_neg (by rw [hsa]; exact hal)]
      exact ⟨⟨g.rows, g.cols, ⟨h1, Nat.zero_le _⟩, g.scroll, ⟨Nat.le_of_lt hxy, l2⟩, g.alt, g.saved⟩,
        h.tabs, h.mirror, h.bottom, h.rows, h.cols, rfl, rfl, h.alt, ⟨rfl, rfl⟩, h.altR, h.cell,
        h.saved, h.histLen, h.hist⟩
    case pos =>
      rw [if_pos hal, if_pos (by rw [hsa]; exact hal)]
      exact ⟨⟨g.rows, g.cols, ⟨h1, Nat.zero_le _⟩, g.scroll, g.main, ⟨Nat.le_of_lt hxy, l2⟩, g.saved⟩,
        h.tabs, h.mirror, h.bottom, h.rows, h.cols, rfl, rfl, h.alt, h.main, ⟨rfl, rfl⟩, h.cell,
        h.saved, h.histLen, h.hist⟩
  · rw [if_pos (by omega), if_neg hxy]
    exact h

theorem restore_eff {t : T} (g : Geo t) (n : Nat) (hn : n ≤ t.rows) :
    Eff t (t.restore n) (fun i j => if i < n then t.copy i j else t.cell i j) t.disp := by
  induction n with
  | zero =>
    exact ⟨rfl, id, fun i hi j => (if_neg (by omega)).symm, fun _ _ => rfl, fun _ _ _ _ => rfl⟩
  | succ n ih =>
    have e1 := ih (by omega)
    have hr : (t.restore n).rows = t.rows := core_rows e1.core
    have e2 := setLine_eff (e1.geo g) (d := n) (by omega) (t.copy n)
    have e := e1.trans e2
    refine ⟨e.core, e.tabs, fun i hi j => ?_, e.rest, fun p i hi j => ?_⟩
    · show ((t.restore n).setLine n (t.copy n)).cell i j = _
      rw [e.cell i hi j]
      by_cases h : i = n
      · rw [if_pos h, if_pos (by omega), h]
      · rw [if_neg h, e1.cell i hi j]
        by_cases h2 : i < n
        · rw [if_pos h2, if_pos (by omega)]
        · rw [if_neg h2, if_neg (by omega)]
    · show ((t.restore n).setLine n (t.copy n)).disp i j = _
      rw [e.disp p i hi j]
      exact e1.disp p i hi j

/-- Rel up to what is shown. -/
structure Rel0 (t : T) (s : Scr) : Prop where
  geo : Geo t
  tabs : TabsOk t
  bottom : t.scroll = t.maxScroll
  rows : s.rows = t.rows
  cols : s.cols = t.cols
  r : s.r = t.r
  c : s.c = t.c
  alt : s.alt = t.alt
  main : s.mainS = t.mainS ∧ s.mainE = t.mainE
  altR : s.altS = t.altS ∧ s.altE = t.altE
  cell : ∀ i < t.rows, ∀ j < t.cols, t.cell i j = s.cell i j
  saved : t.alt = true → (∀ i < t.rows, ∀ j < t.cols, t.copy i j = s.saved i j) ∧
    s.savedR = t.savedR ∧ s.savedC = t.savedC
  histLen : t.maxScroll = s.hist.length
  hist : ∀ k < t.extra, ∀ l, s.hist[k]? = some l → ∀ j < t.cols,
    t.buf ((t.maxScroll - 1 - k) % t.total) j = l j

theorem redraw_core (t : T) : t.redraw.core = t.core := (redraw2_eff t 0 t.rows).core

/-- After the screen is drawn again it shows the text. -/
theorem Rel0.redraw {t : T} {s : Scr} (h : Rel0 t s) : Rel t.redraw s := by
  have e := redraw2_eff t 0 t.rows
  have ec := e.core
  have hb : (t.redraw2 0 t.rows).buf = t.buf := by unfold T.redraw2; split <;> rfl
  unfold T.redraw
  generalize t.redraw2 0 t.rows = u at *
  have hu : u.total = t.total := by unfold T.total; rw [core_rows ec, core_extra ec]
  refine ⟨e.geo h.geo, e.tabs h.tabs, ?_, ?_, ?_, ?_, ?_, ?_, ?_, ?_, ?_, ?_, ?_, ?_, ?_⟩
  · intro p i hi j hj
    rw [core_rows ec] at hi
    rw [e.disp (by rw [← core_paused ec]; exact p) i hi j, e.cell i hi j,
      if_pos ⟨Nat.zero_le _, hi⟩]
  · rw [core_scroll ec, core_maxScroll ec]; exact h.bottom
  · rw [core_rows ec]; exact h.rows
  · rw [core_cols ec]; exact h.cols
  · rw [core_r ec]; exact h.r
  · rw [core_c ec]; exact h.c
  · rw [core_alt ec]; exact h.alt
  · rw [core_mainS ec, core_mainE ec]; exact h.main
  · rw [core_altS ec, core_altE ec]; exact h.altR
  · rw [core_rows ec, core_cols ec]
    intro i hi j hj
    rw [e.cell i hi j]; exact h.cell i hi j hj
  · rw [core_alt ec, core_copy ec, core_savedR ec, core_savedC ec, core_rows ec, core_cols ec]
    exact h.saved
  · rw [core_maxScroll ec]; exact h.histLen
  · rw [core_extra ec, core_cols ec, core_maxScroll ec, hu, hb]
    exact h.hist

theorem useAlt_rel {t : T} {s : Scr} (h : Rel t s) (v : Bool) :
    Rel (t.useAlt v true) (s.act (.useAlt v true)) := by
  have g := h.geo
  unfold T.useAlt
  dsimp only [Scr.act]
  have hsa := h.alt
  by_cases hv : t.alt = v
  · rw [if_pos hv, if_pos (by rw [hsa]; exact hv)]; exact h
  rw [if_neg hv, if_neg (show ¬ s.alt = v by rw [hsa]; exact hv)]
  cases v
  · rw [if_neg (show ¬ false = true by simp), if_neg (show ¬ false = true by simp)]
    have halt : t.alt = true := by simpa using hv
    obtain ⟨hs1, hs2, hs3⟩ := h.saved halt
    have e := restore_eff g t.rows (Nat.le_refl _)
    generalize t.restore t.rows = u at *
    have ec := e.core
    have hu : u.total = t.total := by unfold T.total; rw [core_rows ec, core_extra ec]
    refine (Rel0.redraw ?_).enableCursor _
    refine ⟨?_, e.tabs h.tabs, ?_, ?_, ?_, ?_, ?_, ?_, ?_, ?_, ?_, ?_, ?_, ?_⟩
    · have gu := e.geo g
      refine ⟨gu.rows, gu.cols, ?_, gu.scroll, gu.main, gu.alt, gu.saved⟩
      show t.savedR < u.rows ∧ t.savedC ≤ u.cols
      rw [core_rows ec, core_cols ec]; exact g.saved
    · show u.scroll = u.maxScroll
      rw [core_scroll ec, core_maxScroll ec]; exact h.bottom
    · exact h.rows.trans (core_rows ec).symm
    · exact h.cols.trans (core_cols ec).symm
    · exact hs2
    · exact hs3
    · rfl
    · show s.mainS = u.mainS ∧ s.mainE = u.mainE
      rw [core_mainS ec, core_mainE ec]; exact h.main
    · show s.altS = u.altS ∧ s.altE = u.altE
      rw [core_altS ec, core_altE ec]; exact h.altR
    · show ∀ i < u.rows, ∀ j < u.cols, u.cell i j = s.saved i j
      rw [core_rows ec, core_cols ec]
      intro i hi j hj
      rw [e.cell i hi j, if_pos hi]
      exact hs1 i hi j hj
    · intro hf; exact absurd hf (by simp)
    · show u.maxScroll = s.hist.length
      rw [core_maxScroll ec]; exact h.histLen
    · show ∀ k < u.extra, ∀ l, s.hist[k]? = some l → ∀ j < u.cols,
        u.buf ((u.maxScroll - 1 - k) % u.total) j = l j
      rw [core_extra ec, core_cols ec, core_maxScroll ec, hu]
      intro k hk l hl j hj
      have hlen : k < t.maxScroll := by
        rw [h.histLen]; exact (List.getElem?_eq_some_iff.mp hl).1
      rw [e.rest _ (hist_not_visible g h.bottom hk hlen)]
      exact h.hist k hk l hl j hj
  · rw [if_pos (show true = true from rfl),
      if_neg (show ¬ (t.hasCopy = false ∧ true = false) by simp),
      if_pos (show true = true from rfl)]
    have halt : t.alt = false := by simpa using hv
    refine (Rel0.redraw ?_).enableCursor _
    have key : ∀ u : T, (u = t ∨ u = { t with hasCopy := true, altTabs := fun _ _ => 0 }) →
        Rel0 ({ u with savedR := u.r, savedC := u.c, copy := fun i => u.cell i, alt := true } : T)
          { s with alt := true, saved := s.cell, savedR := s.r, savedC := s.c } := by
      intro u hu
      rcases hu with hu | hu
      · subst hu
        exact ⟨⟨g.rows, g.cols, g.cur, g.scroll, g.main, g.alt, g.cur⟩, h.tabs, h.bottom, h.rows,
          h.cols, h.r, h.c, rfl, h.main, h.altR, h.cell, fun _ => ⟨h.cell, h.r, h.c⟩, h.histLen,
          h.hist⟩
      · subst hu
        exact ⟨⟨g.rows, g.cols, g.cur, g.scroll, g.main, g.alt, g.cur⟩,
          fun a b => ⟨(h.tabs a b).1, Nat.zero_le _⟩, h.bottom, h.rows,
          h.cols, h.r, h.c, rfl, h.main, h.altR, h.cell, fun _ => ⟨h.cell, h.r, h.c⟩, h.histLen,
          h.hist⟩
    refine key _ ?_
    by_cases hc : t.hasCopy = true
    · rw [if_pos hc]; exact Or.inl rfl
    · rw [if_neg hc]; exact Or.inr rfl

/-- One control function. -/
theorem exec_rel {t : T} {s : Scr} (h : Rel t s) {a : Act} (hok : Ok s a) :
    ∃ t', t.exec a = some t' ∧ Rel t' (s.act a) := by
  cases a with
  | putc ch color => exact putc_rel h ch color hok
  | delPrev => exact hok.elim
  | delWord => exact hok.elim
  | eraseDisplay m => exact eraseDisplay_rel h hok.1 hok.2
  | eraseLine m => exact eraseLine_rel h hok
  | nonBufUp n => exact nonBufUp_rel h n
  | nonBufDown n => exact nonBufDown_rel h hok
  | moveCur row col => exact ⟨_, rfl, moveCur_rel h row col⟩
  | moveRel dr dc => exact ⟨_, rfl, moveRel_rel h dr dc⟩
  | reset => exact reset_rel h
  | enableCursor v => exact ⟨_, rfl, h.enableCursor v⟩
  | useAlt v ok =>
    have : ok = true := hok
    subst this
    exact ⟨_, rfl, useAlt_rel h v⟩
  | insLines n => exact insLines_rel h hok
  | delLines n => exact delLines_rel h hok
  | setRegion a b => exact ⟨_, rfl, setRegion_rel h a b⟩
  | insChars n => exact insChars_rel h n
  | delChars n => exact delChars_rel h n
  | eraseChars n => exact eraseChars_rel h n

/-- A sequence of control functions, each one allowed where it is used. -/
def OkAll (s : Scr) : List Act → Prop
  | [] => True
  | a :: l => Ok s a ∧ OkAll (s.act a) l

/-- A sequence of control functions on the screen. -/
def Scr.acts (s : Scr) : List Act → Scr
  | [] => s
  | a :: l => Scr.acts (s.act a) l

theorem execs_rel {l : List Act} : ∀ {t : T} {s : Scr}, Rel t s → OkAll s l →
    ∃ t', t.execs l = some t' ∧ Rel t' (s.acts l) := by
  induction l with
  | nil => intro t s h _; exact ⟨t, rfl, h⟩
  | cons a l ih =>
    intro t s h hok
    obtain ⟨t1, h1, r1⟩ := exec_rel h hok.1
    obtain ⟨t2, h2, r2⟩ := ih r1 hok.2
    refine ⟨t2, ?_, r2⟩
    show (t.exec a).bind _ = _
    rw [h1]
    exact h2

/-! ## Memory safety -/

/-- Consistent state, at the bottom of the scrollback. -/
structure WF (t : T) : Prop where
  geo : Geo t
  tabs : TabsOk t
  bottom : t.scroll = t.maxScroll

/-- What no character and no control function changes. -/
def T.fix (t : T) : Nat × Nat × Nat × Bool × Bool × Bool :=
  (t.rows, t.cols, t.extra, t.paused, t.lost, t.hw)

/-- What is put aside while the alternate screen is used. -/
def T.aside (t : T) : Bool × Bool × Nat × Nat × (Nat → Nat → Nat) :=
  (t.alt, t.hasCopy, t.savedR, t.savedC, t.copy)

structure Keep (t t' : T) : Prop where
  fix : t'.fix = t.fix
  aside : t'.aside = t.aside

theorem Keep.trans {t t1 t2 : T} (h1 : Keep t t1) (h2 : Keep t1 t2) : Keep t t2 :=
  ⟨h2.fix.trans h1.fix, h2.aside.trans h1.aside⟩

theorem core_keep {t t' : T} (h : t'.core = t.core) : Keep t t' := by
  have hl : t'.lost = t.lost := (congrArg T.lost h : t'.core.lost = t.core.lost)
  constructor
  · unfold T.fix
    rw [core_rows h, core_cols h, core_extra h, core_paused h, core_hw h, hl]
  · unfold T.aside
    rw [core_alt h, core_hasCopy h, core_savedR h, core_savedC h, core_copy h]

theorem WF.eff {t t' : T} (h : WF t) {f d : Nat → Nat → Nat} (e : Eff t t' f d) :
    WF t' ∧ Keep t t' := by
  refine ⟨⟨e.geo h.geo, e.tabs h.tabs, ?_⟩, core_keep e.core⟩
  rw [core_scroll e.core, core_maxScroll e.core]; exact h.bottom

theorem WF.cursor {t : T} (h : WF t) {r c : Nat} (hr : r < t.rows) (hc : c ≤ t.cols) :
    WF { t with r := r, c := c } :=
  ⟨⟨h.geo.rows, h.geo.cols, ⟨hr, hc⟩, h.geo.scroll, h.geo.main, h.geo.alt, h.geo.saved⟩, h.tabs,
   h.bottom⟩

theorem WF.peek {t : T} (h : WF t) : WF t.peek ∧ Keep t t.peek := by
  rcases peek_eq t with e | e
  · rw [e]; exact ⟨h, rfl, rfl⟩
  · rw [e]
    exact ⟨⟨⟨h.geo.rows, h.geo.cols, h.geo.cur, h.geo.scroll, h.geo.main, h.geo.alt, h.geo.saved⟩,
      h.tabs, h.bottom⟩, rfl, rfl⟩

theorem WF.setTabs {t : T} (h : WF t) {f : Nat → Nat → Nat} (hf : ∀ a b, f a b ≤ b + 1) :
    WF (t.setTabs f) ∧ Keep t (t.setTabs f) := by
  have hc := setTabs_core t f
  refine ⟨⟨Geo.of_core hc h.geo, setTabs_ok h.tabs hf, ?_⟩, core_keep hc⟩
  rw [core_scroll hc, core_maxScroll hc]; exact h.bottom

theorem ringUp_wf {t : T} (h : WF t) : ∃ t', t.ringUp = some t' ∧ WF t' ∧ Keep t t' := by
  have g := h.geo
  have hrows := g.rows
  unfold T.ringUp
  dsimp only
  generalize ht1 : T.tabsUp { t with maxScroll := t.maxScroll + 1 } = u
  have hu : u.core = { t with maxScroll := t.maxScroll + 1 }.core := by
    rw [← ht1]; exact setTabs_core _ _
  have ur : u.rows = t.rows := (core_rows hu :)
  have us : u.scroll = t.scroll := (core_scroll hu :)
  have um : u.maxScroll = t.maxScroll + 1 := (core_maxScroll hu :)
  have ut : TabsOk u := by
    rw [← ht1]
    refine setTabs_ok h.tabs ?_
    intro a b
    show (if a + 1 < t.rows then t.tabs (a + 1) else t.tabs a) b ≤ _
    split
    · exact h.tabs.tabs _ b
    · exact h.tabs.tabs _ b
  generalize hv : ({ u with scroll := t.scroll + 1 } : T) = v
  have hv1 : ({ u with scroll := u.scroll + 1 } : T) = v := by
    rw [← hv]; exact congrArg (fun x => ({ u with scroll := x } : T)) (by rw [us])
  have hv2 : ({ u with scroll := u.maxScroll } : T) = v := by
    rw [← hv]; exact congrArg (fun x => ({ u with scroll := x } : T)) (by rw [um, h.bottom])
  have vcore : v.core = { t with maxScroll := t.maxScroll + 1, scroll := t.scroll + 1 }.core := by
    subst hv
    exact congrArg (fun x : T => { x with scroll := t.scroll + 1 }) hu
  have gv : Geo v := by
    refine Geo.of_core vcore ⟨g.rows, g.cols, g.cur, ?_, g.main, g.alt, g.saved⟩
    have := g.scroll
    dsimp only
    omega
  have wv : WF v := by
    refine ⟨gv, by subst hv; exact ut, ?_⟩
    rw [core_scroll vcore, core_maxScroll vcore]
    show t.scroll + 1 = _
    rw [h.bottom]
  have kv : Keep t v := ⟨(core_keep vcore).fix, (core_keep vcore).aside⟩
  have vr : v.rows = t.rows := (core_rows vcore :)
  rw [hv1, hv2, ur]
  by_cases hc : u.hw ∨ u.paused
  · rw [if_pos hc]
    have esu : Eff v v.showUp v.cell
        (fun i j => if i + 1 < v.rows then v.disp (i + 1) j else v.disp i j) := by
      unfold T.showUp
      by_cases hpp : v.paused = true
      · rw [if_pos hpp]
        exact ⟨rfl, id, fun _ _ _ => rfl, fun _ _ => rfl, fun h => by simp [hpp] at h⟩
      · rw [if_neg hpp]
        refine ⟨rfl, id, fun _ _ _ => rfl, fun _ _ => rfl, fun _ i _ j => ?_⟩
        show (if i + 1 < v.rows then v.disp (i + 1) else v.disp i) j = _
        split <;> rfl
    have hr2 : v.showUp.rows = t.rows := by rw [core_rows esu.core, vr]
    obtain ⟨t2, h2, e2⟩ := clearRow_eff (esu.geo gv) (d := t.rows - 1) (by omega) defColor
    have := wv.eff (esu.trans e2)
    exact ⟨t2, h2, this.1, kv.trans this.2⟩
  · rw [if_neg hc]
    obtain ⟨t2, h2, e2⟩ := clearBuf_eff gv (d := t.rows - 1) (by omega) defColor
    rw [h2]
    have := wv.eff (e2.trans (redraw2_eff t2 0 t2.rows))
    exact ⟨_, rfl, this.1, kv.trans this.2⟩

theorem nonBufUp_wf {t : T} (h : WF t) (n : Nat) :
    ∃ t', t.nonBufUp n = some t' ∧ WF t' ∧ Keep t t' := by
  by_cases hn : n = 0
  · exact ⟨t, by unfold T.nonBufUp; exact if_pos hn, h, rfl, rfl⟩
  · obtain ⟨t', h', e⟩ := nonBufUp_eff h.geo (n := n) (by omega)
    exact ⟨t', h', h.eff e⟩

theorem incrRow_wf {t : T} (h : WF t) :
    ∃ t', t.incrRow = some t' ∧ WF t' ∧ Keep t t' := by
  have hreg := h.geo.region
  have hcur := h.geo.cur
  unfold T.incrRow
  by_cases h1 : t.r + 1 < t.eR
  · rw [if_pos h1]
    exact ⟨_, rfl, h.cursor (r := t.r + 1) (c := t.c) (by omega) hcur.2, rfl, rfl⟩
  · rw [if_neg h1]
    by_cases h2 : t.sR ≠ 0 ∨ t.eR < t.rows
    · rw [if_pos h2]
      by_cases h3 : t.r + 1 = t.eR
      · rw [if_pos h3]; exact nonBufUp_wf h 1
      · rw [if_neg h3]
        by_cases h4 : t.r + 1 < t.rows
        · rw [if_pos h4]
          exact ⟨_, rfl, h.cursor (r := t.r + 1) (c := t.c) (by omega) hcur.2, rfl, rfl⟩
        · rw [if_neg h4]; exact ⟨_, rfl, h, rfl, rfl⟩
    · rw [if_neg h2]; exact ringUp_wf h

theorem incrRow_col {t t' : T} (g : Geo t) (h : t.incrRow = some t') (hw : WF t) : t'.c = t.c := by
  unfold T.incrRow at h
  by_cases h1 : t.r + 1 < t.eR
  · rw [if_pos h1] at h; cases h; rfl
  · rw [if_neg h1] at h
    by_cases h2 : t.sR ≠ 0 ∨ t.eR < t.rows
    · rw [if_pos h2] at h
      by_cases h3 : t.r + 1 = t.eR
      · rw [if_pos h3] at h
        obtain ⟨t2, e2, ef⟩ := nonBufUp_eff g (n := 1) (by omega)
        rw [e2] at h; cases h
        exact core_c ef.core
      · rw [if_neg h3] at h
        by_cases h4 : t.r + 1 < t.rows
        · rw [if_pos h4] at h; cases h; rfl
        · rw [if_neg h4] at h; cases h; rfl
    · rw [if_neg h2] at h
      unfold T.ringUp T.clearRow T.clearBuf T.showUp T.showBlank T.redraw T.redraw2 T.tabsUp at h
      have key : ∀ (u : T) (f : Nat → Nat → Nat), (u.setTabs f).c = u.c := by
        intro u f; unfold T.setTabs; split <;> rfl
      have key2 : ∀ (u : T) (f : Nat → Nat → Nat), (u.setTabs f).paused = u.paused := by
        intro u f; unfold T.setTabs; split <;> rfl
      dsimp only at h
      split at h
      · split at h
        · split at h
          · simp only [Option.map_some, Option.some.injEq] at h
            split at h
            · rw [← h, key]; exact key _ _
            · rw [← h]; exact (key _ _).trans (key _ _)
          · cases h
        · split at h
          · simp only [Option.map_some, Option.some.injEq] at h
            split at h
            · rw [← h, key]; exact key _ _
            · rw [← h]; exact (key _ _).trans (key _ _)
          · cases h
      · split at h
        · simp only [Option.map_some, Option.some.injEq] at h
          split at h
          · rw [← h, key]; exact key _ _
          · rw [← h]; exact (key _ _).trans (key _ _)
        · cases h

theorem printable_wf {t : T} (h : WF t) (hc : t.c < t.cols) (ch color : Nat) :
    ∃ t', t.printable ch color = some t' ∧ WF t' ∧ Keep t t' := by
  unfold T.printable
  obtain ⟨t1, h1, e⟩ := put_eff h.geo h.geo.cur.1 hc (mkEntry ch color)
  rw [h1]
  have w1 := h.eff e
  have hcols := h.geo.cols
  have ec : t1.c = t.c := core_c e.core
  refine ⟨_, rfl, ?_, w1.2.fix, w1.2.aside⟩
  exact w1.1.cursor (r := t1.r) (c := (t1.c + 1) % 65536) w1.1.geo.cur.1
    (by rw [core_cols e.core]; omega)

theorem tab_wf {t : T} (h : WF t) (hc : t.c < t.cols) :
    ∃ t', t.tab = some t' ∧ WF t' ∧ Keep t t' := by
  have hk := tabCol_eq h.geo hc
  have hcols := h.geo.cols
  unfold T.tab
  dsimp only
  rw [if_pos ⟨h.geo.cur.1, by omega⟩]
  refine ⟨_, rfl, ?_⟩
  have h1 := h.setTabs (f := fun a b => if a = t.r ∧ b = t.tabCol
    then (t.tabCol + 1 + 2 ^ 32 - t.c) % 2 ^ 32 % 256 else t.tabs a b) ?_
  · have ec := setTabs_core t (fun a b => if a = t.r ∧ b = t.tabCol
      then (t.tabCol + 1 + 2 ^ 32 - t.c) % 2 ^ 32 % 256 else t.tabs a b)
    generalize t.setTabs _ = u at *
    have hm : (t.tabCol + 1) % 65536 = t.tabCol + 1 := by omega
    have e2 : ({ u with c := (t.tabCol + 1) % 65536 } : T) = { u with r := u.r, c := t.tabCol + 1 } :=
      congrArg (fun x => ({ u with c := x } : T)) hm
    rw [e2]
    refine ⟨?_, h1.2.fix, h1.2.aside⟩
    exact h1.1.cursor h1.1.geo.cur.1 (by rw [core_cols ec]; omega)
  · intro a b
    split
    · rename_i hab
      have h3 : t.c ≤ t.tabCol + 1 := by rw [hk]; omega
      rw [hab.2]
      have : (t.tabCol + 1 + 2 ^ 32 - t.c) % 2 ^ 32 % 256 ≤ (t.tabCol + 1 + 2 ^ 32 - t.c) % 2 ^ 32 :=
        Nat.mod_le _ _
      omega
    · exact h.tabs.tabs a b

theorem putc_wf {t : T} (h : WF t) (ch color : Nat) (hok : ch = 9 → t.c < t.cols) :
    ∃ t', t.putc ch color = some t' ∧ WF t' ∧ Keep t t' := by
  have hcur := h.geo.cur
  have hcols := h.geo.cols
  unfold T.putc
  by_cases h10 : ch = 10
  · rw [if_pos h10]; exact incrRow_wf h
  rw [if_neg h10]
  by_cases h13 : ch = 13
  · rw [if_pos h13]
    exact ⟨_, rfl, h.cursor (r := t.r) (c := 0) hcur.1 (Nat.zero_le _), rfl, rfl⟩
  rw [if_neg h13]
  by_cases h9 : ch = 9
  · rw [if_pos h9]; exact tab_wf h (hok h9)
  rw [if_neg h9]
  by_cases hw : t.c = t.cols
  · rw [if_pos hw]
    have w0 := h.cursor (r := t.r) (c := 0) hcur.1 (Nat.zero_le _)
    obtain ⟨t1, h1, w1, k1⟩ := incrRow_wf w0
    have hc0 : t1.c = 0 := incrRow_col w0.geo h1 w0
    obtain ⟨t2, h2, w2, k2⟩ := printable_wf w1 (by rw [hc0]; have := w1.geo.cols; omega) ch color
    refine ⟨t2, ?_, w2, Keep.trans ⟨k1.fix, k1.aside⟩ k2⟩
    show (T.incrRow ({ t with r := t.r, c := 0 } : T)).bind _ = _
    rw [h1]; exact h2
  · rw [if_neg hw]
    exact printable_wf h (by omega) ch color

theorem eraseBack_wf {t : T} (h : WF t) (hc : 0 < t.c) (color : Nat) :
    ∃ t', t.eraseBack color = some t' ∧ WF t' ∧ Keep t t' ∧ t'.c < t.c ∧ t'.r = t.r := by
  have hcur := h.geo.cur
  have hcols := h.geo.cols
  unfold T.eraseBack
  dsimp only
  rw [if_pos ⟨hcur.1, by omega⟩]
  by_cases hw : t.tabs t.r (t.c - 1) = 0
  · rw [if_pos hw]
    have w0 := h.cursor (r := t.r) (c := t.c - 1) hcur.1 (by omega)
    obtain ⟨t1, h1, e⟩ := put_eff w0.geo (i0 := t.r) (j0 := t.c - 1) hcur.1
      (show t.c - 1 < t.cols by omega) (mkEntry 32 color)
    have w1 := w0.eff e
    refine ⟨t1, h1, w1.1, ⟨w1.2.fix, w1.2.aside⟩, ?_, ?_⟩
    · rw [core_c e.core]; show t.c - 1 < t.c; omega
    · rw [core_r e.core]
  · rw [if_neg hw]
    have hle := h.tabs.tabs t.r (t.c - 1)
    refine ⟨_, rfl, ?_⟩
    have h1 := h.setTabs (f := fun a b => if a = t.r ∧ b = t.c - 1 then 0 else t.tabs a b) ?_
    · have ec := setTabs_core t (fun a b => if a = t.r ∧ b = t.c - 1 then 0 else t.tabs a b)
      generalize t.setTabs _ = u at *
      have hm : (t.c - 1 + 65536 + 1 - t.tabs t.r (t.c - 1)) % 65536 =
          t.c - t.tabs t.r (t.c - 1) := by omega
      rw [hm]
      refine ⟨?_, ⟨h1.2.fix, h1.2.aside⟩, ?_, ?_⟩
      · exact h1.1.cursor (r := u.r) (c := t.c - t.tabs t.r (t.c - 1)) h1.1.geo.cur.1
          (by rw [core_cols ec]; omega)
      · show t.c - t.tabs t.r (t.c - 1) < t.c
        omega
      · exact (core_r ec :)
    · intro a b
      split
      · exact Nat.zero_le _
      · exact h.tabs.tabs a b

theorem backspace_wf {t : T} (h : WF t) (color : Nat) :
    ∃ t', t.backspace color = some t' ∧ WF t' ∧ Keep t t' ∧ (0 < t.c → t'.c < t.c ∧ t'.r = t.r) := by
  unfold T.backspace
  by_cases h0 : t.c = 0
  · rw [if_pos h0]
    by_cases hr : t.r = 0
    · rw [if_pos hr]; exact ⟨_, rfl, h, ⟨rfl, rfl⟩, fun h => by omega⟩
    · rw [if_neg hr]
      have hcur := h.geo.cur
      have hcols := h.geo.cols
      have w0 := h.cursor (r := t.r - 1) (c := t.cols) (by omega) (Nat.le_refl _)
      obtain ⟨t1, h1, w1, k1, _⟩ := eraseBack_wf w0 (show 0 < t.cols by omega) color
      exact ⟨t1, h1, w1, ⟨k1.fix, k1.aside⟩, fun h => by omega⟩
  · rw [if_neg h0]
    obtain ⟨t1, h1, w1, k1, hc⟩ := eraseBack_wf h (by omega) color
    exact ⟨t1, h1, w1, k1, fun _ => hc⟩

theorem wordLoop_wf (sp : Bool) (color : Nat) : ∀ (k : Nat) {t : T}, WF t → t.c ≤ k →
    ∃ t', wordLoop sp color k t = some t' ∧ WF t' ∧ Keep t t' := by
  intro k
  induction k with
  | zero =>
    intro t h hc
    unfold wordLoop
    rw [if_pos (by omega)]
    exact ⟨_, rfl, h, rfl, rfl⟩
  | succ k ih =>
    intro t h hc
    have hcur := h.geo.cur
    unfold wordLoop
    by_cases h0 : t.c = 0
    · rw [if_pos h0]; exact ⟨_, rfl, h, rfl, rfl⟩
    rw [if_neg h0, if_pos (by omega)]
    by_cases hs : (charOf (t.cell t.r (t.c - 1)) = 32) = (sp = true)
    · rw [if_pos hs]
      obtain ⟨t1, h1, w1, k1, hc1⟩ := backspace_wf h color
      have := (hc1 (by omega)).1
      obtain ⟨t2, h2, w2, k2⟩ := ih w1 (by omega)
      refine ⟨t2, ?_, w2, k1.trans k2⟩
      rw [h1]; exact h2
    · rw [if_neg hs]; exact ⟨_, rfl, h, rfl, rfl⟩

theorem delWord_wf {t : T} (h : WF t) (color : Nat) :
    ∃ t', t.delWord color = some t' ∧ WF t' ∧ Keep t t' := by
  unfold T.delWord
  obtain ⟨t1, h1, w1, k1⟩ := wordLoop_wf true color t.c h (Nat.le_refl _)
  obtain ⟨t2, h2, w2, k2⟩ := wordLoop_wf false color t1.c w1 (Nat.le_refl _)
  refine ⟨t2, ?_, w2, k1.trans k2⟩
  rw [h1]; exact h2

theorem reset_wf {t : T} (h : WF t) : ∃ t', t.reset = some t' ∧ WF t' ∧ Keep t t' := by
  have g := h.geo
  unfold T.reset
  dsimp only
  have e0 : t.moveCur 0 0 = { t with r := 0, c := 0 } := by
    unfold T.moveCur; rw [Nat.zero_min, Nat.zero_min]
  rw [e0]
  generalize hu : ({ t with r := 0, c := 0, scroll := 0, maxScroll := 0 } : T) = u
  have vr : u.rows = t.rows := by rw [← hu]
  have wu : WF u := by
    subst hu
    exact ⟨⟨g.rows, g.cols, ⟨g.rows.1, Nat.zero_le _⟩, ⟨Nat.zero_le _, Nat.zero_le _⟩, g.main, g.alt,
      g.saved⟩, h.tabs, rfl⟩
  have ku : Keep t u := by subst hu; exact ⟨rfl, rfl⟩
  obtain ⟨t1, h1, e⟩ := clearAll_eff wu.geo
  rw [vr] at h1
  rw [h1]
  have w1 := wu.eff e
  have w2 := w1.1.setTabs (f := fun _ _ => 0) (fun _ _ => Nat.zero_le _)
  exact ⟨_, rfl, w2.1, (ku.trans w1.2).trans w2.2⟩

theorem enableCursor_wf {t : T} (h : WF t) (v : Bool) :
    WF (t.enableCursor v) ∧ Keep t (t.enableCursor v) := by
  have on : ∀ {u : T} (b : Bool), WF u → WF { u with cursorOn := b } := fun b h =>
    ⟨⟨h.geo.rows, h.geo.cols, h.geo.cur, h.geo.scroll, h.geo.main, h.geo.alt, h.geo.saved⟩,
      h.tabs, h.bottom⟩
  unfold T.enableCursor
  cases v
  · exact ⟨on false h, rfl, rfl⟩
  · have hp := h.peek
    exact ⟨on true hp.1, hp.2.fix, hp.2.aside⟩

theorem useAlt_wf {t : T} (h : WF t) (v ok : Bool) :
    WF (t.useAlt v ok) ∧ (t.useAlt v ok).fix = t.fix := by
  have g := h.geo
  unfold T.useAlt
  dsimp only
  by_cases hv : t.alt = v
  · rw [if_pos hv]; exact ⟨h, rfl⟩
  rw [if_neg hv]
  cases v
  · rw [if_neg (show ¬ false = true by simp)]
    have e := restore_eff g t.rows (Nat.le_refl _)
    generalize t.restore t.rows = u at *
    have wu := h.eff e
    have g1 : WF ({ u with r := t.savedR, c := t.savedC, alt := false } : T) := by
      have gu := wu.1.geo
      refine ⟨⟨gu.rows, gu.cols, ?_, gu.scroll, gu.main, gu.alt, gu.saved⟩, wu.1.tabs, wu.1.bottom⟩
      show t.savedR < u.rows ∧ t.savedC ≤ u.cols
      rw [core_rows e.core, core_cols e.core]; exact g.saved
    have w2 := g1.eff (redraw2_eff _ 0 u.rows)
    have w3 := enableCursor_wf w2.1 u.cursorOn
    exact ⟨w3.1, (w3.2.fix.trans w2.2.fix).trans wu.2.fix⟩
  · rw [if_pos (show true = true from rfl)]
    by_cases hno : t.hasCopy = false ∧ ok = false
    · rw [if_pos hno]; exact ⟨h, rfl⟩
    rw [if_neg hno]
    have key : ∀ u : T, (u = t ∨ u = { t with hasCopy := true, altTabs := fun _ _ => 0 }) →
        WF ({ u with savedR := u.r, savedC := u.c, copy := fun i => u.cell i, alt := true } : T) ∧
        u.fix = t.fix := by
      intro u hu
      rcases hu with hu | hu
      · subst hu
        exact ⟨⟨⟨g.rows, g.cols, g.cur, g.scroll, g.main, g.alt, g.cur⟩, h.tabs, h.bottom⟩, rfl⟩
      · subst hu
        exact ⟨⟨⟨g.rows, g.cols, g.cur, g.scroll, g.main, g.alt, g.cur⟩,
          fun a b => ⟨(h.tabs a b).1, Nat.zero_le _⟩, h.bottom⟩, rfl⟩
    have hcase : (if t.hasCopy = true then t
        else { t with hasCopy := true, altTabs := fun _ _ => 0 }) = t ∨
        (if t.hasCopy = true then t
        else { t with hasCopy := true, altTabs := fun _ _ => 0 }) =
          { t with hasCopy := true, altTabs := fun _ _ => 0 } := by
      by_cases hc : t.hasCopy = true
      · rw [if_pos hc]; exact Or.inl rfl
      · rw [if_neg hc]; exact Or.inr rfl
    generalize (if t.hasCopy = true then t
        else { t with hasCopy := true, altTabs := fun _ _ => 0 }) = u at *
    obtain ⟨g1, f1⟩ := key u hcase
    have w2 := g1.eff (redraw2_eff _ 0 u.rows)
    have w3 := enableCursor_wf w2.1 u.cursorOn
    exact ⟨w3.1, (w3.2.fix.trans w2.2.fix).trans f1⟩

/-- The requests which do no harm: a tab not after a full line; scrolling down by no more lines
than there are up to the end of the region; deleting lines with twice as many lines below the
cursor. -/
def Safe (t : T) : Act → Prop
  | .putc ch _ => ch = 9 → t.c < t.cols
  | .nonBufDown n => n = 0 ∨ min n t.rows ≤ t.eR
  | .delLines n => n = 0 ∨ t.eR ≤ t.r ∨ t.r + 2 * min n (t.eR - t.r) < t.rows
  | _ => True

/-- Does the action switch between the screens? -/
def Act.switches : Act → Bool
  | .useAlt _ _ => true
  | _ => false

theorem exec_wf {t : T} (h : WF t) {a : Act} (hs : Safe t a) :
    ∃ t', t.exec a = some t' ∧ WF t' ∧ t'.fix = t.fix ∧ (a.switches = false → t'.aside = t.aside) := by
  have g := h.geo
  have fin : ∀ {o : Option T}, (∃ t', o = some t' ∧ WF t' ∧ Keep t t') →
      ∃ t', o = some t' ∧ WF t' ∧ t'.fix = t.fix ∧ (a.switches = false → t'.aside = t.aside) := by
    intro o ⟨t', h1, h2, h3⟩
    exact ⟨t', h1, h2, h3.fix, fun _ => h3.aside⟩
  have ef : ∀ {o : Option T} {f d : Nat → Nat → Nat}, (∃ t', o = some t' ∧ Eff t t' f d) →
      ∃ t', o = some t' ∧ WF t' ∧ Keep t t' := by
    intro o f d ⟨t', h1, e⟩
    exact ⟨t', h1, h.eff e⟩
  cases a with
  | putc ch color => exact fin (putc_wf h ch color hs)
  | delPrev =>
    obtain ⟨t', h1, h2, h3, _⟩ := backspace_wf h.peek.1 t.curColor
    exact fin ⟨t', h1, h2, h.peek.2.trans h3⟩
  | delWord =>
    obtain ⟨t', h1, h2, h3⟩ := delWord_wf h.peek.1 t.curColor
    exact fin ⟨t', h1, h2, h.peek.2.trans h3⟩
  | eraseDisplay m =>
    refine fin ?_
    by_cases m0 : m = 0
    · subst m0; exact ef (eraseDisplay0_eff g)
    by_cases m1 : m = 1
    · subst m1; exact ef (eraseDisplay1_eff g)
    by_cases m2 : m = 2
    · subst m2; exact ef (clearAll_eff g)
    by_cases m3 : m = 3
    · subst m3; exact reset_wf h
    · refine ⟨t, ?_, h, rfl, rfl⟩
      show t.eraseDisplay m = _
      unfold T.eraseDisplay
      rw [if_neg m0, if_neg m1, if_neg m2, if_neg m3]
  | eraseLine m =>
    refine fin ?_
    by_cases m0 : m = 0
    · subst m0; exact ef (blankCells_eff g (a := t.c) (b := t.cols) (Nat.le_refl _))
    by_cases m1 : m = 1
    · subst m1; exact ef (blankCells_eff g (a := 0) (b := t.c) g.cur.2)
    by_cases m2 : m = 2
    · subst m2; exact ef (clearRow_eff g g.cur.1 defColor)
    · refine ⟨t, ?_, h, rfl, rfl⟩
      show t.eraseLine m = _
      unfold T.eraseLine
      rw [if_neg m0, if_neg m1, if_neg m2]
  | nonBufUp n => exact fin (nonBufUp_wf h n)
  | nonBufDown n =>
    refine fin ?_
    by_cases hn : n = 0
    · refine ⟨t, ?_, h, rfl, rfl⟩
      show t.nonBufDown n = _
      unfold T.nonBufDown; exact if_pos hn
    · exact ef (nonBufDown_eff g (n := n) (by omega) (hs.resolve_left hn))
  | moveCur row col =>
    have := g.rows
    have := g.cols
    refine fin ⟨_, rfl, h.cursor (r := min row (t.rows - 1)) (c := min col (t.cols - 1)) ?_ ?_,
      rfl, rfl⟩ <;> omega
  | moveRel dr dc =>
    have := g.rows
    have := g.cols
    refine fin ⟨_, rfl, h.cursor (r := clampI (t.r + dr) (t.rows - 1))
      (c := clampI (t.c + dc) (t.cols - 1)) ?_ ?_, rfl, rfl⟩ <;> unfold clampI <;> omega
  | reset => exact fin (reset_wf h)
  | enableCursor v => exact fin ⟨_, rfl, enableCursor_wf h v⟩
  | useAlt v ok =>
    refine ⟨_, rfl, (useAlt_wf h v ok).1, (useAlt_wf h v ok).2, fun hf => ?_⟩
    exact absurd hf (by simp [Act.switches])
  | insLines n =>
    refine fin ?_
    show ∃ t', t.insLines n = some t' ∧ _
    by_cases hn : n = 0
    · exact ⟨t, by unfold T.insLines; exact if_pos hn, h, rfl, rfl⟩
    by_cases hin : t.r ≥ t.eR
    · exact ⟨t, by unfold T.insLines; rw [if_neg hn, if_pos hin], h, rfl, rfl⟩
    · obtain ⟨t', h', e⟩ := insLines_eff g (n := n) (by omega) (by omega)
      have w0 := h.cursor (r := t.r) (c := 0) g.cur.1 (Nat.zero_le _)
      have := w0.eff e
      exact ⟨t', h', this.1, this.2.fix, this.2.aside⟩
  | delLines n =>
    refine fin ?_
    show ∃ t', t.delLines n = some t' ∧ _
    by_cases hn : n = 0
    · exact ⟨t, by unfold T.delLines; exact if_pos hn, h, rfl, rfl⟩
    by_cases hin : t.r ≥ t.eR
    · exact ⟨t, by unfold T.delLines; rw [if_neg hn, if_pos hin], h, rfl, rfl⟩
    · have hs' : t.r + 2 * min n (t.eR - t.r) < t.rows := by
        rcases hs with hs | hs | hs
        · exact absurd hs hn
        · exact absurd hs hin
        · exact hs
      exact ef (delLines_eff g (n := n) (by omega) (by omega) hs')
  | setRegion a b =>
    refine fin ⟨_, rfl, ?_⟩
    have hr := g.rows
    unfold T.setRegion
    dsimp only
    by_cases hab : min a (t.rows - 1) ≥ min b (t.rows - 1)
    · rw [if_pos hab]; exact ⟨h, rfl, rfl⟩
    · rw [if_neg hab]
      have e0 : ∀ u : T, u.moveCur 0 0 = { u with r := 0, c := 0 } := by
        intro u; unfold T.moveCur; rw [Nat.zero_min, Nat.zero_min]
      rw [e0]
      have b1 : min a (t.rows - 1) ≤ min b (t.rows - 1) ∧ min b (t.rows - 1) < t.rows := by omega
      by_cases hal : t.alt = true
      · rw [if_pos hal]
        exact ⟨⟨⟨g.rows, g.cols, ⟨hr.1, Nat.zero_le _⟩, g.scroll, g.main, b1, g.saved⟩, h.tabs,
          h.bottom⟩, rfl, rfl⟩
      · rw [if_neg hal]
        exact ⟨⟨⟨g.rows, g.cols, ⟨hr.1, Nat.zero_le _⟩, g.scroll, b1, g.alt, g.saved⟩, h.tabs,
          h.bottom⟩, rfl, rfl⟩
  | insChars n => exact fin (ef (lineEdit_eff g _))
  | delChars n => exact fin (ef (lineEdit_eff g _))
  | eraseChars n => exact fin (ef (lineEdit_eff g _))

/-- What the code implements as described is also safe. -/
theorem Ok.safe {t : T} {s : Scr} (h : Rel t s) {a : Act} (hok : Ok s a) : Safe t a := by
  have ht := h.top
  have hb := h.bot
  have hr := h.r
  have hc := h.c
  have h1 := h.rows
  have h2 := h.cols
  have hreg := h.geo.region
  cases a with
  | putc ch color => intro h9; have := hok h9; omega
  | nonBufDown n =>
    rcases hok with hok | hok
    · exact Or.inl hok
    · exact Or.inr (by omega)
  | delLines n =>
    rcases hok with hok | hok | hok
    · exact Or.inl hok
    · exact Or.inr (Or.inl (by omega))
    · by_cases hlt : t.eR ≤ t.r
      · exact Or.inr (Or.inl hlt)
      · exact Or.inr (Or.inr (by omega))
  | _ => trivial

/-! ## What the user sees -/

/-- The screen, how many lines the user has scrolled back, and whether the output is paused (the
terminal is not the current one, or a program has asked for graphics mode). -/
structure Obs where
  s : Scr
  back : Nat
  paused : Bool

/-- The picture: `back` lines of the history and below them the first lines of the screen. -/
def Obs.shown (o : Obs) (i j : Nat) : Nat :=
  if i < o.back then (o.s.hist.getD (o.back - 1 - i) fun _ => 0) j else o.s.cell (i - o.back) j

/-- What a request does; `extra` is the number of lines which are remembered.  Any output brings the
user back to the bottom. -/
def Obs.op (extra : Nat) (o : Obs) : Op → Obs
  | .write l => { o with s := o.s.acts l, back := 0 }
  | .scrollUp n => { o with back := min (o.back + n) (min o.s.hist.length extra) }
  | .scrollDown n => { o with back := o.back - n }
  | .pause => { o with paused := true }
  | .restart => { o with paused := false }

def Obs.ops (extra : Nat) (o : Obs) : List Op → Obs
  | [] => o
  | x :: l => Obs.ops extra (o.op extra x) l

/-- The writes contain only allowed control functions and the output is not paused twice. -/
def Obs.Ok (o : Obs) : Op → Prop
  | .write l => OkAll o.s l
  | .pause => o.paused = false
  | _ => True

def Obs.OkOps (extra : Nat) (o : Obs) : List Op → Prop
  | [] => True
  | x :: l => o.Ok x ∧ Obs.OkOps extra (o.op extra x) l

/-- The empty screen. -/
def Obs.start (rows cols : Nat) (paused : Bool) : Obs :=
  { s := { rows, cols, cell := fun _ _ => Scr.blank, r := 0, c := 0, alt := false, mainS := 0,
           mainE := rows - 1, altS := 0, altE := rows - 1, saved := fun _ _ => Scr.blank,
           savedR := 0, savedC := 0, hist := [] },
    back := 0, paused }

/-- Representation, with the user looking at any part of the history. -/
structure Vis (t : T) (o : Obs) : Prop where
  rel : Rel0 { t with scroll := t.maxScroll } o.s
  scroll : t.scroll + o.back = t.maxScroll
  back : o.back ≤ t.extra
  mirror : Mirror t
  paused : o.paused = t.paused
  lost : t.lost = false

theorem Rel.rel0 {t : T} {s : Scr} (h : Rel t s) : Rel0 t s :=
  ⟨h.geo, h.tabs, h.bottom, h.rows, h.cols, h.r, h.c, h.alt, h.main, h.altR, h.cell, h.saved,
   h.histLen, h.hist⟩

theorem Rel0.rel {t : T} {s : Scr} (h : Rel0 t s) (hm : Mirror t) : Rel t s :=
  ⟨h.geo, h.tabs, hm, h.bottom, h.rows, h.cols, h.r, h.c, h.alt, h.main, h.altR, h.cell, h.saved,
   h.histLen, h.hist⟩

theorem at_bottom {t : T} (h : t.scroll = t.maxScroll) :
    ({ t with scroll := t.maxScroll } : T) = t :=
  congrArg (fun x => ({ t with scroll := x } : T)) h.symm

theorem Rel.vis {t : T} {s : Scr} {p : Bool} (h : Rel t s) (hp : p = t.paused)
    (hl : t.lost = false) : Vis t ⟨s, 0, p⟩ := by
  have e : ({ t with scroll := t.maxScroll } : T) = t := at_bottom h.bottom
  exact ⟨by rw [e]; exact h.rel0, h.bottom, Nat.zero_le _, h.mirror, hp, hl⟩

theorem Vis.geo {t : T} {o : Obs} (h : Vis t o) : Geo t := by
  have g := h.rel.geo
  have := h.scroll
  have := h.back
  exact ⟨g.rows, g.cols, g.cur, by omega, g.main, g.alt, g.saved⟩

theorem redraw_mirror (t : T) : Mirror t.redraw := by
  have e := redraw2_eff t 0 t.rows
  intro p i hi j hj
  have hi' : i < t.rows := by rw [← core_rows e.core]; exact hi
  have p' : t.paused = false := by rw [← core_paused e.core]; exact p
  show (t.redraw2 0 t.rows).disp i j = (t.redraw2 0 t.rows).cell i j
  rw [e.disp p' i hi' j, e.cell i hi' j, if_pos ⟨Nat.zero_le _, hi'⟩]

/-- Drawing changes only what is shown. -/
theorem redraw_only (t : T) : ∃ d, t.redraw = { t with disp := d } := by
  unfold T.redraw T.redraw2
  split
  · exact ⟨t.disp, rfl⟩
  · exact ⟨_, rfl⟩

theorem Vis.peek {t : T} {o : Obs} (h : Vis t o) : Vis t.peek o := by
  rcases peek_eq t with e | e
  · rw [e]; exact h
  · rw [e]
    have g := h.rel.geo
    have r := h.rel
    exact ⟨⟨⟨g.rows, g.cols, g.cur, g.scroll, g.main, g.alt, g.saved⟩, r.tabs, r.bottom, r.rows,
      r.cols, r.r, r.c, r.alt, r.main, r.altR, r.cell, r.saved, r.histLen, r.hist⟩, h.scroll, h.back,
      h.mirror, h.paused, h.lost⟩

theorem Vis.scrollTo {t : T} {o : Obs} (h : Vis t o) (b : Nat) (hb : b ≤ t.extra)
    (hm : b ≤ t.maxScroll) :
    Vis (if t.maxScroll - b = t.scroll then t
      else T.redraw { t with scroll := t.maxScroll - b }) { o with back := b } := by
  have g := h.rel.geo
  have r := h.rel
  by_cases he : t.maxScroll - b = t.scroll
  · rw [if_pos he]
    exact ⟨h.rel, by show t.scroll + b = _; omega, hb, h.mirror, h.paused, h.lost⟩
  · rw [if_neg he]
    have hmir := redraw_mirror { t with scroll := t.maxScroll - b }
    obtain ⟨d, hd⟩ := redraw_only { t with scroll := t.maxScroll - b }
    rw [hd] at hmir ⊢
    exact ⟨⟨⟨g.rows, g.cols, g.cur, g.scroll, g.main, g.alt, g.saved⟩, r.tabs, r.bottom, r.rows,
      r.cols, r.r, r.c, r.alt, r.main, r.altR, r.cell, r.saved, r.histLen, r.hist⟩,
      by show t.maxScroll - b + b = t.maxScroll; omega, hb, hmir, h.paused, h.lost⟩

theorem setScroll_eq (t : T) (req b : Nat)
    (hb : b ≤ t.maxScroll)
    (he : min (max req (if t.maxScroll > t.extra then t.maxScroll - t.extra else 0)) t.maxScroll
      = t.maxScroll - b) :
    t.setScroll req = if t.maxScroll - b = t.scroll then t
      else T.redraw { t with scroll := t.maxScroll - b } := by
  unfold T.setScroll
  dsimp only
  rw [he]

theorem execs_rel_fix {l : List Act} : ∀ {t : T} {s : Scr}, Rel t s → OkAll s l →
    ∃ t', t.execs l = some t' ∧ Rel t' (s.acts l) ∧ t'.fix = t.fix := by
  induction l with
  | nil => intro t s h _; exact ⟨t, rfl, h, rfl⟩
  | cons a l ih =>
    intro t s r0 hok
    obtain ⟨u1, e1, r1⟩ := exec_rel r0 hok.1
    obtain ⟨u2, e2, w2, f2, _⟩ := exec_wf ⟨r0.geo, r0.tabs, r0.bottom⟩ (Ok.safe r0 hok.1)
    rw [e1] at e2
    cases e2
    obtain ⟨u3, e3, r3, f3⟩ := ih r1 hok.2
    refine ⟨u3, ?_, r3, f3.trans f2⟩
    show (t.exec a).bind _ = _
    rw [e1]; exact e3

theorem peek_extra (u : T) : u.peek.extra = u.extra := by
  rcases peek_eq u with e | e <;> rw [e]

theorem setScroll_extra (t : T) (req : Nat) : (t.setScroll req).extra = t.extra := by
  unfold T.setScroll
  dsimp only
  generalize min (max req _) t.maxScroll = q
  by_cases hq : q = t.scroll
  · rw [if_pos hq]
  · rw [if_neg hq]
    obtain ⟨d, hd⟩ := redraw_only { t with scroll := q }
    rw [hd]

theorem write_vis {t : T} {o : Obs} (h : Vis t o) {l : List Act} (hok : OkAll o.s l) :
    ∃ t', t.write l = some t' ∧ Vis t' { o with s := o.s.acts l, back := 0 } ∧
      t'.extra = t.extra := by
  unfold T.write
  have e := setScroll_eq t t.maxScroll 0 (Nat.zero_le _) (by split <;> omega)
  have h0 := h.scrollTo 0 (Nat.zero_le _) (Nat.zero_le _)
  rw [← e] at h0
  have he := setScroll_extra t t.maxScroll
  generalize t.setScroll t.maxScroll = u at *
  have hs : u.scroll = u.maxScroll := h0.scroll
  have r0 : Rel u o.s := by
    have := h0.rel
    rw [at_bottom hs] at this
    exact this.rel h0.mirror
  obtain ⟨t1, h1, r1, f1⟩ := execs_rel_fix r0 hok
  rw [h1]
  have hp1 : t1.paused = u.paused := (congrArg (fun x => x.2.2.2.1) f1 :)
  have hl1 : t1.lost = u.lost := (congrArg (fun x => x.2.2.2.2.1) f1 :)
  have he1 : t1.extra = u.extra := (congrArg (fun x => x.2.2.1) f1 :)
  have v1 : Vis t1 ⟨o.s.acts l, 0, o.paused⟩ :=
    r1.vis (by rw [hp1]; exact h0.paused) (by rw [hl1]; exact h0.lost)
  refine ⟨_, rfl, ?_⟩
  show Vis (if t1.cursorOn = true then t1.peek else t1) _ ∧
    (if t1.cursorOn = true then t1.peek else t1).extra = _
  by_cases hc : t1.cursorOn = true
  · rw [if_pos hc]; exact ⟨v1.peek, by rw [peek_extra, he1, he]⟩
  · rw [if_neg hc]; exact ⟨v1, by rw [he1, he]⟩

theorem op_vis {t : T} {o : Obs} (h : Vis t o) {x : Op} (hok : o.Ok x) :
    ∃ t', t.op x = some t' ∧ Vis t' (o.op t.extra x) ∧ t'.extra = t.extra := by
  have hlen : t.maxScroll = o.s.hist.length := h.rel.histLen
  have hsc := h.scroll
  have hbk := h.back
  have setE := setScroll_extra t
  cases x with
  | write l => exact write_vis h hok
  | scrollUp n =>
    refine ⟨_, rfl, ?_⟩
    have e := setScroll_eq t (if n > t.scroll then 0 else t.scroll - n)
      (min (o.back + n) (min o.s.hist.length t.extra)) (by omega) (by
        split <;> split <;> omega)
    have h0 := h.scrollTo (min (o.back + n) (min o.s.hist.length t.extra)) (by omega) (by omega)
    rw [← e] at h0
    have se := setE (if n > t.scroll then 0 else t.scroll - n)
    unfold T.scrollUp
    dsimp only
    generalize t.setScroll (if n > t.scroll then 0 else t.scroll - n) = u at *
    by_cases hc : u.cursorOn = true ∧ u.scroll = u.maxScroll
    · rw [if_pos hc]; exact ⟨h0.peek, by rw [peek_extra, se]⟩
    · rw [if_neg hc]; exact ⟨h0, se⟩
  | scrollDown n =>
    refine ⟨_, rfl, ?_⟩
    have e := setScroll_eq t (t.scroll + n) (o.back - n) (by omega) (by split <;> omega)
    have h0 := h.scrollTo (o.back - n) (by omega) (by omega)
    rw [← e] at h0
    have se := setE (t.scroll + n)
    unfold T.scrollDown
    dsimp only
    generalize t.setScroll (t.scroll + n) = u at *
    by_cases hc : u.cursorOn = true ∧ u.scroll = u.maxScroll
    · rw [if_pos hc]; exact ⟨h0.peek, by rw [peek_extra, se]⟩
    · rw [if_neg hc]; exact ⟨h0, se⟩
  | pause =>
    refine ⟨_, rfl, ?_, rfl⟩
    have g := h.rel.geo
    have r := h.rel
    unfold T.pause
    refine ⟨⟨⟨g.rows, g.cols, g.cur, g.scroll, g.main, g.alt, g.saved⟩, r.tabs, r.bottom, r.rows,
      r.cols, r.r, r.c, r.alt, r.main, r.altR, r.cell, r.saved, r.histLen, r.hist⟩, h.scroll, h.back,
      (fun p => by cases p), rfl, ?_⟩
    show t.paused = false
    rw [← h.paused]; exact hok
  | restart =>
    refine ⟨_, rfl, ?_⟩
    have g := h.rel.geo
    have r := h.rel
    unfold T.restart
    dsimp only
    have hmir := redraw_mirror { t with paused := t.lost }
    obtain ⟨d, hd⟩ := redraw_only { t with paused := t.lost }
    rw [hd] at hmir ⊢
    have v1 : Vis ({ t with paused := t.lost, disp := d } : T) { o with paused := false } :=
      ⟨⟨⟨g.rows, g.cols, g.cur, g.scroll, g.main, g.alt, g.saved⟩, r.tabs, r.bottom, r.rows,
      r.cols, r.r, r.c, r.alt, r.main, r.altR, r.cell, r.saved, r.histLen, r.hist⟩, h.scroll, h.back,
      hmir, h.lost.symm, h.lost⟩
    have on : ∀ {u : T} {o' : Obs} (b : Bool), Vis u o' → Vis { u with cursorOn := b } o' := by
      intro u o' b v
      have g := v.rel.geo
      have r := v.rel
      exact ⟨⟨⟨g.rows, g.cols, g.cur, g.scroll, g.main, g.alt, g.saved⟩, r.tabs, r.bottom, r.rows,
        r.cols, r.r, r.c, r.alt, r.main, r.altR, r.cell, r.saved, r.histLen, r.hist⟩, v.scroll,
        v.back, v.mirror, v.paused, v.lost⟩
    split
    · unfold T.enableCursor
      split
      · refine ⟨on true v1.peek, ?_⟩
        exact peek_extra _
      · exact ⟨on false v1, rfl⟩
    · exact ⟨v1, rfl⟩

theorem run_vis {l : List Op} : ∀ {t : T} {o : Obs}, Vis t o → o.OkOps t.extra l →
    ∃ t', t.run l = some t' ∧ Vis t' (o.ops t.extra l) ∧ t'.extra = t.extra := by
  induction l with
  | nil => intro t o h _; exact ⟨t, rfl, h, rfl⟩
  | cons x l ih =>
    intro t o h hok
    obtain ⟨t1, h1, v1, e1⟩ := op_vis h hok.1
    obtain ⟨t2, h2, v2, e2⟩ := ih v1 (by rw [e1]; exact hok.2)
    refine ⟨t2, ?_, by rw [e1] at v2; exact v2, e2.trans e1⟩
    show (t.op x).bind _ = _
    rw [h1]; exact h2

theorem init_vis {rows cols : Nat} (hr : 0 < rows ∧ rows < 32768) (hc : 1 < cols ∧ cols < 32768)
    (extra : Nat) (m : Nat → Nat → Nat) (junk : Nat) (hw paused : Bool) :
    Vis (init rows cols extra m junk hw paused) (Obs.start rows cols paused) := by
  have hcell : ∀ i < rows, ∀ j, (init rows cols extra m junk hw paused).cell i j
      = mkEntry 32 defColor := by
    intro i hi j
    unfold T.cell T.ring T.total init
    dsimp only
    have : (i + 0) % (rows + extra) = i := Nat.mod_eq_of_lt (by omega)
    rw [this, if_pos hi]
  refine ⟨⟨⟨hr, hc, ⟨hr.1, Nat.zero_le _⟩, ⟨Nat.zero_le _, Nat.zero_le _⟩,
    ⟨Nat.zero_le _, ?_⟩, ⟨Nat.zero_le _, ?_⟩, ⟨hr.1, Nat.zero_le _⟩⟩, ?_, rfl, rfl, rfl, rfl, rfl, rfl,
    ⟨rfl, rfl⟩, ⟨rfl, rfl⟩, ?_, ?_, rfl, ?_⟩, rfl, Nat.zero_le _, ?_, rfl, rfl⟩
  · show rows - 1 < rows; omega
  · show rows - 1 < rows; omega
  · intro a b; exact ⟨Nat.zero_le _, Nat.zero_le _⟩
  · intro i hi j hj; exact hcell i hi j
  · intro h; cases h
  · intro k hk l hl; exact absurd hl (by simp [Obs.start])
  · intro p i hi j hj
    rw [hcell i hi j]; rfl

theorem Vis.shown {t : T} {o : Obs} (h : Vis t o) (hp : o.paused = false) :
    ∀ i < t.rows, ∀ j < t.cols, t.disp i j = o.shown i j := by
  intro i hi j hj
  rw [h.mirror (by rw [← h.paused]; exact hp) i hi j hj]
  have hsc := h.scroll
  have hbk := h.back
  have hlen : t.maxScroll = o.s.hist.length := h.rel.histLen
  unfold Obs.shown
  by_cases hib : i < o.back
  · rw [if_pos hib]
    have hk : o.back - 1 - i < o.s.hist.length := by omega
    have hg : o.s.hist[o.back - 1 - i]? = some o.s.hist[o.back - 1 - i] :=
      List.getElem?_eq_getElem hk
    have h1 := h.rel.hist (o.back - 1 - i) (show _ < t.extra by omega) _ hg j hj
    rw [List.getD_eq_getElem?_getD, hg]
    show t.buf ((i + t.scroll) % t.total) j = o.s.hist[o.back - 1 - i] j
    rw [← h1]
    show t.buf ((i + t.scroll) % t.total) j = t.buf ((t.maxScroll - 1 - (o.back - 1 - i)) % t.total) j
    have : i + t.scroll = t.maxScroll - 1 - (o.back - 1 - i) := by omega
    rw [this]
  · rw [if_neg hib]
    have h1 := h.rel.cell (i - o.back) (show _ < t.rows by omega) j hj
    rw [← h1]
    show t.buf ((i + t.scroll) % t.total) j = t.buf ((i - o.back + t.maxScroll) % t.total) j
    have : i + t.scroll = i - o.back + t.maxScroll := by omega
    rw [this]

/-! ## The properties -/

/-- C105, C106, C107: take a terminal of any size, just created, and any sequence of requests: text
written with control functions among it, scrolling back and forth, pausing and restarting.  If the
control functions are among those the code implements as described (`Ok`), nothing goes wrong in
memory, the cursor is where the specification says, the visible lines are the specification's
screen, and the display shows `back` lines of the history above the screen.  Partial: see `Ok` for
what is excluded, and the `_violated` theorems for what goes wrong there. -/
theorem terminal_shows_screen_partial {rows cols : Nat} (hr : 0 < rows ∧ rows < 32768)
    (hc : 1 < cols ∧ cols < 32768) (extra : Nat) (m : Nat → Nat → Nat) (junk : Nat)
    (hw paused : Bool) {l : List Op}
    (hok : (Obs.start rows cols paused).OkOps extra l) :
    ∃ t', (init rows cols extra m junk hw paused).run l = some t' ∧
      let o := (Obs.start rows cols paused).ops extra l
      t'.r = o.s.r ∧ t'.c = o.s.c ∧
      (o.back = 0 → ∀ i < rows, ∀ j < cols, t'.cell i j = o.s.cell i j) ∧
      (o.paused = false → ∀ i < rows, ∀ j < cols, t'.disp i j = o.shown i j) := by
  have v0 := init_vis hr hc extra m junk hw paused
  obtain ⟨t', h', v', _⟩ := run_vis v0 hok
  have hrow : ∀ {t : T} {o : Obs}, Vis t o → t.rows = o.s.rows ∧ t.cols = o.s.cols :=
    fun v => ⟨v.rel.rows.symm, v.rel.cols.symm⟩
  have lf : ∀ s : Scr, s.lineFeed.rows = s.rows ∧ s.lineFeed.cols = s.cols := by
    intro s; unfold Scr.lineFeed
    split
    · exact ⟨rfl, rfl⟩
    · split <;> exact ⟨rfl, rfl⟩
  have act : ∀ (s : Scr) (a : Act), (s.act a).rows = s.rows ∧ (s.act a).cols = s.cols := by
    intro s a
    cases a with
    | putc ch color =>
      show (s.putc ch color).rows = _ ∧ (s.putc ch color).cols = _
      unfold Scr.putc
      split
      · exact lf s
      · split
        · exact ⟨rfl, rfl⟩
        · split
          · exact ⟨rfl, rfl⟩
          · split
            · exact lf { s with c := 0 }
            · exact ⟨rfl, rfl⟩
    | useAlt v ok => dsimp only [Scr.act]; split; exact ⟨rfl, rfl⟩; split <;> exact ⟨rfl, rfl⟩
    | insLines n => dsimp only [Scr.act]; split <;> exact ⟨rfl, rfl⟩
    | delLines n => dsimp only [Scr.act]; split <;> exact ⟨rfl, rfl⟩
    | setRegion a b => dsimp only [Scr.act]; split; split <;> exact ⟨rfl, rfl⟩; exact ⟨rfl, rfl⟩
    | _ => exact ⟨rfl, rfl⟩
  have acts : ∀ (l : List Act) (s : Scr), (s.acts l).rows = s.rows ∧ (s.acts l).cols = s.cols := by
    intro l
    induction l with
    | nil => intro s; exact ⟨rfl, rfl⟩
    | cons a l ih =>
      intro s
      have h1 := ih (s.act a)
      have h2 := act s a
      exact ⟨h1.1.trans h2.1, h1.2.trans h2.2⟩
  have ops : ∀ (l : List Op) (o : Obs), (o.ops extra l).s.rows = o.s.rows ∧
      (o.ops extra l).s.cols = o.s.cols := by
    intro l
    induction l with
    | nil => intro o; exact ⟨rfl, rfl⟩
    | cons x l ih =>
      intro o
      have h1 := ih (o.op extra x)
      have h2 : (o.op extra x).s.rows = o.s.rows ∧ (o.op extra x).s.cols = o.s.cols := by
        cases x with
        | write l => exact acts l o.s
        | _ => exact ⟨rfl, rfl⟩
      exact ⟨h1.1.trans h2.1, h1.2.trans h2.2⟩
  have hsz := ops l (Obs.start rows cols paused)
  have hsz' := hrow v'
  refine ⟨t', h', v'.rel.r.symm, v'.rel.c.symm, ?_, ?_⟩
  · intro hb i hi j hj
    have hsc := v'.scroll
    have hbot : t'.scroll = t'.maxScroll := by
      have : ((Obs.start rows cols paused).ops extra l).back = 0 := hb
      have e : (init rows cols extra m junk hw paused).extra = extra := rfl
      rw [e, this] at hsc
      exact hsc
    have h1 := v'.rel.cell i (show i < t'.rows by rw [hsz'.1]; exact Nat.lt_of_lt_of_eq hi hsz.1.symm)
      j (show j < t'.cols by rw [hsz'.2]; exact Nat.lt_of_lt_of_eq hj hsz.2.symm)
    rw [at_bottom hbot] at h1
    exact h1
  · intro hp i hi j hj
    exact v'.shown hp i (by rw [hsz'.1]; exact Nat.lt_of_lt_of_eq hi hsz.1.symm)
      j (by rw [hsz'.2]; exact Nat.lt_of_lt_of_eq hj hsz.2.symm)

instance (s : Scr) (a : Act) : Decidable (Ok s a) := by
  cases a <;> (dsimp only [Ok]; infer_instance)

instance decOkAll : (l : List Act) → (s : Scr) → Decidable (OkAll s l)
  | [], _ => isTrue trivial
  | a :: l, s =>
    have := decOkAll l (s.act a)
    inferInstanceAs (Decidable (Ok s a ∧ OkAll (s.act a) l))

instance (o : Obs) (x : Op) : Decidable (o.Ok x) := by
  cases x <;> (dsimp only [Obs.Ok]; infer_instance)

instance decOkOps (extra : Nat) : (l : List Op) → (o : Obs) → Decidable (o.OkOps extra l)
  | [], _ => isTrue trivial
  | x :: l, o =>
    have := decOkOps extra l (o.op extra x)
    inferInstanceAs (Decidable (o.Ok x ∧ (o.op extra x).OkOps extra l))

/-- A use of it: two lines of text, a line inserted above them, scrolling and the alternate screen
on a screen of 4 lines. -/
example : (Obs.start 4 10 false).OkOps 3
    [.write [.putc 65 7, .putc 10 7, .putc 13 7, .putc 9 7, .putc 66 7, .moveCur 0 0, .insLines 1,
      .moveCur 3 0, .putc 10 7, .putc 10 7], .scrollUp 1, .pause, .restart,
     .write [.useAlt true true, .eraseDisplay 2, .setRegion 0 2, .nonBufDown 2, .useAlt false true,
      .delChars 2, .moveCur 1 0, .delLines 1]] := by
  decide +kernel

/-- Each request is safe in the state in which it is executed. -/
def SafeAll (t : T) : List Act → Prop
  | [] => True
  | a :: l => Safe t a ∧ ∀ t', t.exec a = some t' → SafeAll t' l

theorem execs_wf {l : List Act} : ∀ {t : T}, WF t → SafeAll t l →
    ∃ t', t.execs l = some t' ∧ WF t' ∧ t'.fix = t.fix ∧
      (l.all (fun a => !a.switches) = true → t'.aside = t.aside) := by
  induction l with
  | nil => intro t h _; exact ⟨t, rfl, h, rfl, fun _ => rfl⟩
  | cons a l ih =>
    intro t h hs
    obtain ⟨t1, h1, w1, f1, a1⟩ := exec_wf h hs.1
    obtain ⟨t2, h2, w2, f2, a2⟩ := ih w1 (hs.2 t1 h1)
    refine ⟨t2, ?_, w2, f2.trans f1, fun hall => ?_⟩
    · show (t.exec a).bind _ = _
      rw [h1]; exact h2
    · have : (!a.switches) = true ∧ l.all (fun a => !a.switches) = true := by
        simpa using hall
      exact (a2 this.2).trans (a1 (by simpa using this.1))

/-- C104: from a new terminal of any size, any sequence of characters and control functions which
avoids the three harmful ones (`Safe`) touches no memory outside the buffers, and the cursor and the
scrolling region stay on the screen.  Partial: for the excluded ones see
`scroll_down_in_region_violated`, `delete_lines_violated` and `tab_after_full_line_violated`. -/
theorem terminal_memory_safe_partial {rows cols : Nat} (hr : 0 < rows ∧ rows < 32768)
    (hc : 1 < cols ∧ cols < 32768) (extra : Nat) (m : Nat → Nat → Nat) (junk : Nat)
    (hw paused : Bool) {l : List Act} (hs : SafeAll (init rows cols extra m junk hw paused) l) :
    ∃ t', (init rows cols extra m junk hw paused).execs l = some t' ∧
      t'.r < rows ∧ t'.c ≤ cols ∧ t'.sR < t'.eR ∧ t'.eR ≤ rows := by
  have v0 := init_vis hr hc extra m junk hw paused
  obtain ⟨t', h', w', f', _⟩ := execs_wf (l := l) (t := init rows cols extra m junk hw paused)
    ⟨v0.geo, v0.rel.tabs, rfl⟩ hs
  have e1 : t'.rows = rows := (congrArg (fun x => x.1) f' :)
  have e2 : t'.cols = cols := (congrArg (fun x => x.2.1) f' :)
  have hreg := w'.geo.region
  have hcur := w'.geo.cur
  rw [e1] at hreg hcur
  rw [e2] at hcur
  exact ⟨t', h', hcur.1, hcur.2, hreg.1, hreg.2⟩

instance (t : T) (a : Act) : Decidable (Safe t a) := by
  cases a <;> (dsimp only [Safe]; infer_instance)

/-- `SafeAll`, computed. -/
def safeAllB (t : T) : List Act → Bool
  | [] => true
  | a :: l => decide (Safe t a) && ((t.exec a).map fun t1 => safeAllB t1 l).getD true

theorem safeAllB_iff : ∀ {l : List Act} {t : T}, safeAllB t l = true → SafeAll t l
  | [], _, _ => trivial
  | a :: l, t, h => by
    unfold safeAllB at h
    rw [Bool.and_eq_true, decide_eq_true_eq] at h
    refine ⟨h.1, fun t1 h1 => safeAllB_iff ?_⟩
    have := h.2
    rw [h1] at this
    exact this

/-- Non-vacuity: erasing a word and inserting lines above the region are allowed here. -/
example : SafeAll (init 25 80 10 (fun _ _ => 0) 0 true false)
    [.putc 65 7, .putc 9 7, .delWord, .setRegion 5 9, .insLines 3, .eraseDisplay 1] :=
  safeAllB_iff (by decide +kernel)

/-- C104, the exact limit of the two control functions with an argument: they fault exactly when
they are not `Safe`. -/
theorem scroll_down_faults {t : T} (h : WF t) (n : Nat) :
    t.exec (.nonBufDown n) = none ↔ n ≠ 0 ∧ t.eR < min n t.rows := by
  constructor
  · intro hn
    by_cases hs : Safe t (.nonBufDown n)
    · obtain ⟨t', h', _⟩ := exec_wf h hs
      rw [hn] at h'; cases h'
    · unfold Safe at hs
      dsimp only at hs
      omega
  · intro hn
    exact nonBufDown_fault h.geo hn.2

theorem delete_lines_faults {t : T} (h : WF t) (n : Nat) :
    t.exec (.delLines n) = none ↔
      n ≠ 0 ∧ t.r < t.eR ∧ t.rows ≤ t.r + 2 * min n (t.eR - t.r) := by
  constructor
  · intro hn
    by_cases hs : Safe t (.delLines n)
    · obtain ⟨t', h', _⟩ := exec_wf h hs
      rw [hn] at h'; cases h'
    · unfold Safe at hs
      dsimp only at hs
      omega
  · intro hn
    exact delLines_fault (by omega) hn.2.1 hn.2.2

/-- C104 is violated: `ESC[1;5r` `ESC[10T` (a region of five lines, scroll down by ten) accesses
the tab map out of bounds. -/
theorem scroll_down_in_region_violated (hw : Bool) :
    (init 25 80 100 (fun _ _ => 0) 0 hw false).execs [.setRegion 0 4, .nonBufDown 10] = none := by
  have h : ∀ hw, ((init 25 80 100 (fun _ _ => 0) 0 hw false).execs
      [.setRegion 0 4, .nonBufDown 10]).isNone = true := by
    decide +kernel
  exact Option.isNone_iff_eq_none.mp (h hw)

/-- C104 is violated: `ESC[99M` on an ordinary full screen accesses the tab map out of bounds
wherever the cursor is. -/
theorem delete_lines_violated {t : T} (h : WF t) (hreg : t.eR = t.rows) {n : Nat}
    (hn : t.rows ≤ n) : t.exec (.delLines n) = none := by
  have := h.geo.cur
  exact (delete_lines_faults h n).mpr (by omega)

/-- C104 is violated: a full line, a tab, an erase (the key which erases the last character) and
one more character: the character is written far outside the buffer. -/
theorem tab_after_full_line_violated (hw : Bool) :
    (init 25 80 100 (fun _ _ => 0) 0 hw false).execs
      (List.replicate 80 (.putc 97 7) ++ [.putc 9 7, .delPrev, .putc 97 7]) = none := by
  have h : ∀ hw, ((init 25 80 100 (fun _ _ => 0) 0 hw false).execs
      (List.replicate 80 (.putc 97 7) ++ [.putc 9 7, .delPrev, .putc 97 7])).isNone = true := by
    decide +kernel
  exact Option.isNone_iff_eq_none.mp (h hw)

/-- C108: entering the alternate screen, doing there whatever is safe (without switching), and
leaving it, brings back the cursor and every character of the main screen, also on the display. -/
theorem alternate_screen_restores {t : T} (h : WF t) (hmain : t.alt = false)
    {l : List Act} (hsw : l.all (fun a => !a.switches) = true)
    (hs : SafeAll (t.useAlt true true) l) :
    ∃ t', t.execs (.useAlt true true :: l ++ [.useAlt false true]) = some t' ∧
      t'.alt = false ∧ t'.r = t.r ∧ t'.c = t.c ∧
      (∀ i < t.rows, ∀ j, t'.cell i j = t.cell i j) ∧
      (t.paused = false → ∀ i < t.rows, ∀ j, t'.disp i j = t.cell i j) := by
  have w1 := useAlt_wf h true true
  have ha : (t.useAlt true true).alt = true ∧ (t.useAlt true true).savedR = t.r ∧
      (t.useAlt true true).savedC = t.c ∧ (t.useAlt true true).copy = fun i => t.cell i := by
    unfold T.useAlt
    dsimp only
    rw [if_neg (by rw [hmain]; simp), if_pos (show true = true from rfl),
      if_neg (show ¬ (t.hasCopy = false ∧ true = false) by simp)]
    have hcase : (if t.hasCopy = true then t
        else { t with hasCopy := true, altTabs := fun _ _ => 0 }) = t ∨
        (if t.hasCopy = true then t
        else { t with hasCopy := true, altTabs := fun _ _ => 0 }) =
          { t with hasCopy := true, altTabs := fun _ _ => 0 } := by
      by_cases hc : t.hasCopy = true
      · rw [if_pos hc]; exact Or.inl rfl
      · rw [if_neg hc]; exact Or.inr rfl
    generalize (if t.hasCopy = true then t
        else { t with hasCopy := true, altTabs := fun _ _ => 0 }) = u at *
    obtain ⟨d, hd⟩ := redraw_only { u with savedR := u.r, savedC := u.c, copy := fun i => u.cell i,
                                           alt := true }
    rw [hd]
    have hu : u.r = t.r ∧ u.c = t.c ∧ (fun i => u.cell i) = fun i => t.cell i := by
      rcases hcase with e | e <;> rw [e] <;> exact ⟨rfl, rfl, rfl⟩
    have en : ∀ (v : T) (b : Bool), (v.enableCursor b).alt = v.alt ∧
        (v.enableCursor b).savedR = v.savedR ∧ (v.enableCursor b).savedC = v.savedC ∧
        (v.enableCursor b).copy = v.copy := by
      intro v b
      unfold T.enableCursor
      split
      · rcases peek_eq v with e | e <;> rw [e] <;> exact ⟨rfl, rfl, rfl, rfl⟩
      · exact ⟨rfl, rfl, rfl, rfl⟩
    have h1 := en { u with savedR := u.r, savedC := u.c, copy := fun i => u.cell i, alt := true,
                           disp := d } u.cursorOn
    exact ⟨h1.1, h1.2.1.trans hu.1, h1.2.2.1.trans hu.2.1, h1.2.2.2.trans hu.2.2⟩
  obtain ⟨t2, h2, w2, f2, a2⟩ := execs_wf w1.1 hs
  have a2 := a2 hsw
  have b1 : t2.alt = true := (congrArg (fun x => x.1) a2 :).trans ha.1
  have b2 : t2.savedR = t.r := (congrArg (fun x => x.2.2.1) a2 :).trans ha.2.1
  have b3 : t2.savedC = t.c := (congrArg (fun x => x.2.2.2.1) a2 :).trans ha.2.2.1
  have b4 : t2.copy = fun i => t.cell i := (congrArg (fun x => x.2.2.2.2) a2 :).trans ha.2.2.2
  have b5 : t2.rows = t.rows := (congrArg (fun x => x.1) (f2.trans w1.2) :)
  have b6 : t2.paused = t.paused := (congrArg (fun x => x.2.2.2.1) (f2.trans w1.2) :)
  have happ : ∀ (l : List Act) (u v : T), u.execs l = some v →
      u.execs (l ++ [.useAlt false true]) = some (v.useAlt false true) := by
    intro l
    induction l with
    | nil => intro u v e; cases e; rfl
    | cons a l ih =>
      intro u v e
      have e' : (u.exec a).bind (fun t => t.execs l) = some v := e
      show (u.exec a).bind (fun t => t.execs (l ++ [.useAlt false true])) = _
      cases hx : u.exec a with
      | none => rw [hx] at e'; cases e'
      | some u1 => rw [hx] at e'; exact ih u1 v e'
  refine ⟨t2.useAlt false true, happ l _ t2 h2, ?_⟩
  unfold T.useAlt
  dsimp only
  rw [if_neg (by rw [b1]; simp), if_neg (show ¬ false = true by simp)]
  have e := restore_eff w2.geo t2.rows (Nat.le_refl _)
  generalize t2.restore t2.rows = u at *
  have hm := redraw_mirror ({ u with r := t2.savedR, c := t2.savedC, alt := false } : T)
  obtain ⟨d, hd⟩ := redraw_only ({ u with r := t2.savedR, c := t2.savedC, alt := false } : T)
  have eff2 := redraw2_eff ({ u with r := t2.savedR, c := t2.savedC, alt := false } : T) 0 u.rows
  rw [hd] at hm ⊢
  have hd' : T.redraw2 ({ u with r := t2.savedR, c := t2.savedC, alt := false } : T) 0 u.rows =
    { u with r := t2.savedR, c := t2.savedC, alt := false, disp := d } := hd
  rw [hd'] at eff2
  have en : ∀ (v : T) (b : Bool), (v.enableCursor b).alt = v.alt ∧
      (v.enableCursor b).r = v.r ∧ (v.enableCursor b).c = v.c ∧
      (v.enableCursor b).cell = v.cell ∧ (v.enableCursor b).disp = v.disp := by
    intro v b
    unfold T.enableCursor
    split
    · rcases peek_eq v with e | e <;> rw [e] <;> exact ⟨rfl, rfl, rfl, rfl, rfl⟩
    · exact ⟨rfl, rfl, rfl, rfl, rfl⟩
  have h1 := en { u with r := t2.savedR, c := t2.savedC, alt := false, disp := d } u.cursorOn
  have hcell : ∀ i < t.rows, ∀ j, u.cell i j = t.cell i j := by
    intro i hi j
    rw [e.cell i (by omega) j, if_pos (by omega), b4]
  refine ⟨h1.1, h1.2.1.trans b2, h1.2.2.1.trans b3, ?_, ?_⟩
  · intro i hi j
    rw [h1.2.2.2.1]; exact hcell i hi j
  · intro p i hi j
    rw [h1.2.2.2.2]
    have hur : u.rows = t.rows := by rw [core_rows e.core, b5]
    have hup : u.paused = false := by rw [core_paused e.core, b6]; exact p
    have := eff2.disp hup i (show i < u.rows by omega) j
    rw [this, if_pos ⟨Nat.zero_le _, by omega⟩]
    exact hcell i hi j

example : SafeAll ((init 25 80 10 (fun _ _ => 0) 0 true false).useAlt true true)
    [.putc 65 7, .eraseDisplay 2, .setRegion 5 9, .nonBufUp 3] :=
  ⟨by decide, fun _ _ => ⟨trivial, fun _ _ => ⟨trivial, fun _ _ => ⟨trivial, fun _ _ => trivial⟩⟩⟩⟩

/-! ### The erase key -/

/-- No tab ends in the current line at the cursor or after it. -/
def Clean (t : T) : Prop := ∀ j, t.c ≤ j → t.tabs t.r j = 0

/-- One character typed in the line and erased again: a printable one, or a tab which does not begin
in the last column. -/
theorem type_then_erase {t : T} (h : WF t) {ch color : Nat} (hl : ch ≠ 10 ∧ ch ≠ 13)
    (hc : t.c < t.cols) (h9 : ch = 9 → t.c + 1 < t.cols)
    (hclean : t.tabs t.r t.c = 0 ∧ (ch = 9 → ∀ j, t.c ≤ j → t.tabs t.r j = 0)) :
    ∃ t1 t2, t.exec (.putc ch color) = some t1 ∧ t1.exec .delPrev = some t2 ∧ WF t2 ∧
      t2.r = t.r ∧ t2.c = t.c ∧ t2.tabs = t.tabs ∧
      (∀ i < t.rows, ∀ j, (i = t.r ∧ j = t.c) ∨ t2.cell i j = t.cell i j) ∧
      charOf (t2.cell t.r t.c) = (if ch = 9 then charOf (t.cell t.r t.c) else 32) := by
  have g := h.geo
  have hcur := g.cur
  have hcols := g.cols
  have pk : ∀ u : T, u.peek.r = u.r ∧ u.peek.c = u.c ∧ u.peek.tabs = u.tabs ∧
      u.peek.cell = u.cell ∧ u.peek.rows = u.rows ∧ u.peek.cols = u.cols := by
    intro u; rcases peek_eq u with e | e <;> rw [e] <;> exact ⟨rfl, rfl, rfl, rfl, rfl, rfl⟩
  by_cases htab : ch = 9
  · -- a tab
    obtain ⟨t1, h1, w1, k1⟩ := tab_wf h hc
    have hx : t.exec (.putc ch color) = some t1 := by
      show t.putc ch color = _
      unfold T.putc
      rw [if_neg hl.1, if_neg hl.2, if_pos htab]; exact h1
    have hk := tabCol_eq g hc
    have hgt : t.c ≤ t.tabCol := by have := h9 htab; omega
    unfold T.tab at h1
    dsimp only at h1
    rw [if_pos ⟨hcur.1, by omega⟩] at h1
    have hm : (t.tabCol + 1) % 65536 = t.tabCol + 1 := by omega
    have hwid : (t.tabCol + 1 + 2 ^ 32 - t.c) % 2 ^ 32 % 256 = t.tabCol + 1 - t.c := by
      have : t.tabCol + 1 - t.c ≤ 8 := by omega
      omega
    rw [hm, hwid] at h1
    have tb := setTabs_tabs t (fun a b => if a = t.r ∧ b = t.tabCol then t.tabCol + 1 - t.c
      else t.tabs a b)
    have tc := setTabs_core t (fun a b => if a = t.r ∧ b = t.tabCol then t.tabCol + 1 - t.c
      else t.tabs a b)
    have tcell := setTabs_cell t (fun a b => if a = t.r ∧ b = t.tabCol then t.tabCol + 1 - t.c
      else t.tabs a b)
    generalize t.setTabs _ = u at *
    have e1 : t1 = { u with c := t.tabCol + 1 } := by cases h1; rfl
    have ur : t1.r = t.r := by rw [e1]; exact (core_r tc :)
    have uc : t1.c = t.tabCol + 1 := by rw [e1]
    have ut : t1.tabs = fun a b => if a = t.r ∧ b = t.tabCol then t.tabCol + 1 - t.c
        else t.tabs a b := by rw [e1]; exact tb
    have ucell : t1.cell = t.cell := by rw [e1]; exact tcell
    have urows : t1.rows = t.rows := by rw [e1]; exact (core_rows tc :)
    have ucols : t1.cols = t.cols := by rw [e1]; exact (core_cols tc :)
    have wp := w1.peek
    obtain ⟨p1, p2, p3, p4, p5, p6⟩ := pk t1
    have hb : t1.peek.backspace t1.curColor =
        some { t1.peek.setTabs (fun a b => if a = t1.peek.r ∧ b = t1.peek.c - 1 then 0
          else t1.peek.tabs a b) with
          c := (t1.peek.c - 1 + 65536 + 1 - t1.peek.tabs t1.peek.r (t1.peek.c - 1)) % 65536 } := by
      unfold T.backspace
      rw [if_neg (by rw [p2, uc]; omega)]
      unfold T.eraseBack
      dsimp only
      rw [if_pos ⟨by rw [p1, p5, ur, urows]; exact hcur.1, by rw [p2, p6, uc, ucols]; omega⟩]
      rw [if_neg]
      rw [p1, p2, p3, uc, ur, ut]
      show ¬ (if t.r = t.r ∧ t.tabCol + 1 - 1 = t.tabCol then t.tabCol + 1 - t.c else _) = 0
      rw [if_pos ⟨rfl, by omega⟩]
      omega
    obtain ⟨t2, h2, w2, _⟩ := exec_wf w1 (a := .delPrev) trivial
    refine ⟨t1, t2, hx, h2, w2, ?_⟩
    have h2' : t1.peek.backspace t1.curColor = some t2 := h2
    rw [hb] at h2'
    have tb2 := setTabs_tabs t1.peek (fun a b => if a = t1.peek.r ∧ b = t1.peek.c - 1 then 0
          else t1.peek.tabs a b)
    have tc2 := setTabs_core t1.peek (fun a b => if a = t1.peek.r ∧ b = t1.peek.c - 1 then 0
          else t1.peek.tabs a b)
    have tcell2 := setTabs_cell t1.peek (fun a b => if a = t1.peek.r ∧ b = t1.peek.c - 1 then 0
          else t1.peek.tabs a b)
    generalize t1.peek.setTabs _ = v at *
    have e2 : t2 = { v with
        c := (t1.peek.c - 1 + 65536 + 1 - t1.peek.tabs t1.peek.r (t1.peek.c - 1)) % 65536 } := by
      cases h2'; rfl
    have hw : t1.peek.tabs t1.peek.r (t1.peek.c - 1) = t.tabCol + 1 - t.c := by
      rw [p1, p2, p3, uc, ur, ut]
      show (if t.r = t.r ∧ t.tabCol + 1 - 1 = t.tabCol then t.tabCol + 1 - t.c else _) = _
      rw [if_pos ⟨rfl, by omega⟩]
    have c2 : t2.cell = t.cell := by
      rw [e2]
      show v.cell = t.cell
      rw [tcell2, p4, ucell]
    refine ⟨?_, ?_, ?_, ?_, ?_⟩
    · rw [e2]
      show v.r = t.r
      rw [core_r tc2, p1, ur]
    · rw [e2]
      show (t1.peek.c - 1 + 65536 + 1 - t1.peek.tabs t1.peek.r (t1.peek.c - 1)) % 65536 = t.c
      rw [hw, p2, uc]
      omega
    · have : t2.tabs = v.tabs := by rw [e2]; rfl
      rw [this, tb2]
      funext a b
      show (if a = t1.peek.r ∧ b = t1.peek.c - 1 then 0 else t1.peek.tabs a b) = t.tabs a b
      rw [p1, p2, p3, uc, ur, ut]
      show (if a = t.r ∧ b = t.tabCol + 1 - 1 then 0
        else if a = t.r ∧ b = t.tabCol then t.tabCol + 1 - t.c else t.tabs a b) = t.tabs a b
      by_cases hab : a = t.r ∧ b = t.tabCol
      · rw [if_pos ⟨hab.1, by omega⟩, hab.1, hab.2]
        exact (hclean.2 htab t.tabCol hgt).symm
      · rw [if_neg (by omega), if_neg hab]
    · intro i _ j
      exact Or.inr (by rw [c2])
    · rw [if_pos htab, c2]
  · -- a printable character
    obtain ⟨t1, h1, e1⟩ := put_eff g hcur.1 hc (mkEntry ch color)
    have hm : (t1.c + 1) % 65536 = t.c + 1 := by rw [core_c e1.core]; omega
    have hx : t.exec (.putc ch color) = some { t1 with c := t.c + 1 } := by
      show t.putc ch color = _
      unfold T.putc
      rw [if_neg hl.1, if_neg hl.2, if_neg htab, if_neg (by omega)]
      unfold T.printable
      rw [h1]
      exact congrArg (fun x => some ({ t1 with c := x } : T)) hm
    have w1 : WF ({ t1 with c := t.c + 1 } : T) := by
      have := (h.eff e1).1
      exact this.cursor (r := t1.r) this.geo.cur.1 (by rw [core_cols e1.core]; omega)
    have ht1 : t1.tabs = t.tabs := by
      unfold T.put T.setEntry at h1
      rw [if_pos hc] at h1
      unfold T.show1 at h1
      simp only [Option.bind_some] at h1
      split at h1
      · simp only [Option.some.injEq] at h1
        split at h1 <;> rw [← h1] <;> rfl
      · cases h1
    generalize hu : ({ t1 with c := t.c + 1 } : T) = u at *
    have ur : u.r = t.r := by rw [← hu]; exact (core_r e1.core :)
    have uc : u.c = t.c + 1 := by rw [← hu]
    have ut : u.tabs = t.tabs := by rw [← hu]; exact ht1
    have ucell : ∀ i < t.rows, ∀ j, u.cell i j =
        if i = t.r ∧ j = t.c then mkEntry ch color else t.cell i j := by
      intro i hi j; rw [← hu]; exact e1.cell i hi j
    have urows : u.rows = t.rows := by rw [← hu]; exact (core_rows e1.core :)
    have ucols : u.cols = t.cols := by rw [← hu]; exact (core_cols e1.core :)
    obtain ⟨p1, p2, p3, p4, p5, p6⟩ := pk u
    have wp := w1.peek.1
    have hb : u.peek.backspace u.curColor =
        T.put { u.peek with c := u.peek.c - 1 } u.peek.r (u.peek.c - 1) (mkEntry 32 u.curColor) := by
      unfold T.backspace
      rw [if_neg (by rw [p2, uc]; omega)]
      unfold T.eraseBack
      dsimp only
      rw [if_pos ⟨by rw [p1, p5, ur, urows]; exact hcur.1, by rw [p2, p6, uc, ucols]; omega⟩]
      rw [if_pos]
      rw [p1, p2, p3, uc, ur, ut]
      exact hclean.1
    have wb : WF ({ u.peek with c := u.peek.c - 1 } : T) :=
      wp.cursor (r := u.peek.r) wp.geo.cur.1 (by have := wp.geo.cur; omega)
    obtain ⟨t2, h2, e2⟩ := put_eff wb.geo (i0 := u.peek.r) (j0 := u.peek.c - 1)
      (show u.peek.r < u.peek.rows by rw [p1, p5, ur, urows]; exact hcur.1)
      (show u.peek.c - 1 < u.peek.cols by rw [p2, p6, uc, ucols]; omega) (mkEntry 32 u.curColor)
    have ht2 : t2.tabs = u.peek.tabs := by
      have hcc : u.peek.c - 1 < u.peek.cols := by rw [p2, p6, uc, ucols]; omega
      have h3 := h2
      unfold T.put T.setEntry at h3
      rw [if_pos (show u.peek.c - 1 < ({ u.peek with c := u.peek.c - 1 } : T).cols from hcc)] at h3
      unfold T.show1 at h3
      simp only [Option.bind_some] at h3
      split at h3
      · simp only [Option.some.injEq] at h3
        split at h3 <;> rw [← h3] <;> rfl
      · cases h3
    have c2 : ∀ i < t.rows, ∀ j, t2.cell i j =
        if i = t.r ∧ j = t.c then mkEntry 32 u.curColor else t.cell i j := by
      intro i hi j
      rw [e2.cell i (show i < u.peek.rows by rw [p5, urows]; exact hi) j]
      have hj : u.peek.c - 1 = t.c := by rw [p2, uc]; omega
      rw [hj, p1, ur]
      by_cases hij : i = t.r ∧ j = t.c
      · rw [if_pos hij, if_pos hij]
      · rw [if_neg hij, if_neg hij]
        show u.peek.cell i j = _
        rw [p4, ucell i hi j, if_neg hij]
    refine ⟨u, t2, hx, ?_, (wb.eff e2).1, ?_, ?_, ?_, ?_, ?_⟩
    · show u.peek.backspace u.curColor = _
      rw [hb]; exact h2
    · rw [core_r e2.core]
      show u.peek.r = t.r
      rw [p1, ur]
    · rw [core_c e2.core]
      show u.peek.c - 1 = t.c
      rw [p2, uc]; omega
    · rw [ht2, p3, ut]
    · intro i hi j
      by_cases hij : i = t.r ∧ j = t.c
      · exact Or.inl hij
      · exact Or.inr (by rw [c2 i hi j, if_neg hij])
    · rw [if_neg htab, c2 t.r hcur.1 t.c, if_pos ⟨rfl, rfl⟩]
      unfold charOf mkEntry
      omega

/-- One press of the erase key, away from the first column. -/
theorem erase_step {t : T} (h : WF t) (hc : 0 < t.c) :
    ∃ t2, t.exec .delPrev = some t2 ∧ WF t2 ∧ t2.r = t.r ∧ t2.rows = t.rows ∧
      (t.tabs t.r (t.c - 1) = 0 → t2.c = t.c - 1 ∧ t2.tabs = t.tabs ∧
        ∀ i < t.rows, ∀ j, if i = t.r ∧ j = t.c - 1 then charOf (t2.cell i j) = 32
          else t2.cell i j = t.cell i j) ∧
      (t.tabs t.r (t.c - 1) ≠ 0 → t2.c = t.c - t.tabs t.r (t.c - 1) ∧
        (t2.tabs = fun a b => if a = t.r ∧ b = t.c - 1 then 0 else t.tabs a b) ∧
        t2.cell = t.cell) := by
  have pk : ∀ u : T, u.peek.r = u.r ∧ u.peek.c = u.c ∧ u.peek.tabs = u.tabs ∧
      u.peek.cell = u.cell ∧ u.peek.rows = u.rows ∧ u.peek.cols = u.cols := by
    intro u; rcases peek_eq u with e | e <;> rw [e] <;> exact ⟨rfl, rfl, rfl, rfl, rfl, rfl⟩
  obtain ⟨p1, p2, p3, p4, p5, p6⟩ := pk t
  have hcur := h.geo.cur
  have hcols := h.geo.cols
  have wp := h.peek.1
  show ∃ t2, t.peek.backspace t.curColor = some t2 ∧ _
  have hle : t.tabs t.r (t.c - 1) ≤ t.c := by have := h.tabs.tabs t.r (t.c - 1); omega
  have hb : t.peek.backspace t.curColor = t.peek.eraseBack t.curColor := by
    unfold T.backspace; rw [if_neg (by rw [p2]; omega)]
  rw [hb]
  rw [← p1, ← p2, ← p3, ← p4, ← p5]
  rw [← p1, ← p5] at hcur
  rw [← p2, ← p6] at hcur
  rw [← p2] at hc
  rw [← p1, ← p2, ← p3] at hle
  generalize t.curColor = color
  have w0 : WF t.peek := wp
  generalize t.peek = u at *
  unfold T.eraseBack
  dsimp only
  rw [if_pos ⟨hcur.1, by omega⟩]
  by_cases hw : u.tabs u.r (u.c - 1) = 0
  · rw [if_pos hw]
    have wb : WF ({ u with c := u.c - 1 } : T) :=
      w0.cursor (r := u.r) hcur.1 (by omega)
    obtain ⟨t2, h2, e2⟩ := put_eff wb.geo (i0 := u.r) (j0 := u.c - 1) hcur.1
      (show u.c - 1 < u.cols by omega) (mkEntry 32 color)
    have ht2 : t2.tabs = u.tabs := by
      have h3 := h2
      unfold T.put T.setEntry at h3
      rw [if_pos (show u.c - 1 < ({ u with c := u.c - 1 } : T).cols by show u.c - 1 < u.cols; omega)]
        at h3
      unfold T.show1 at h3
      simp only [Option.bind_some] at h3
      split at h3
      · simp only [Option.some.injEq] at h3
        split at h3 <;> rw [← h3] <;> rfl
      · cases h3
    refine ⟨t2, h2, (wb.eff e2).1, (core_r e2.core :), (core_rows e2.core :), ?_,
      fun hn => absurd hw hn⟩
    intro _
    refine ⟨(core_c e2.core :), ht2, ?_⟩
    intro i hi j
    have := e2.cell i hi j
    by_cases hij : i = u.r ∧ j = u.c - 1
    · rw [if_pos hij]
      rw [this, if_pos hij]
      unfold charOf mkEntry
      omega
    · rw [if_neg hij]
      rw [this, if_neg hij]; rfl
  · rw [if_neg hw]
    have tb := setTabs_tabs u (fun a b => if a = u.r ∧ b = u.c - 1 then 0 else u.tabs a b)
    have tc := setTabs_core u (fun a b => if a = u.r ∧ b = u.c - 1 then 0 else u.tabs a b)
    have tcell := setTabs_cell u (fun a b => if a = u.r ∧ b = u.c - 1 then 0 else u.tabs a b)
    have w1 := (w0.setTabs (f := fun a b => if a = u.r ∧ b = u.c - 1 then 0 else u.tabs a b)
      (fun a b => by
        split
        · exact Nat.zero_le _
        · exact w0.tabs.tabs a b)).1
    generalize u.setTabs _ = v at *
    have hm : (u.c - 1 + 65536 + 1 - u.tabs u.r (u.c - 1)) % 65536 = u.c - u.tabs u.r (u.c - 1) := by
      omega
    refine ⟨_, rfl, ?_, (core_r tc :), (core_rows tc :), fun hn => absurd hn hw, fun _ => ⟨hm, tb, ?_⟩⟩
    · rw [hm]
      exact w1.cursor (r := v.r) w1.geo.cur.1 (by rw [core_cols tc]; omega)
    · exact tcell

/-- One character typed in the line. -/
theorem type_step {t : T} (h : WF t) {ch color : Nat} (hl : ch ≠ 10 ∧ ch ≠ 13)
    (hc : t.c < t.cols) (h9 : ch = 9 → t.c + 1 < t.cols) :
    ∃ t1, t.exec (.putc ch color) = some t1 ∧ WF t1 ∧ t1.r = t.r ∧ t1.rows = t.rows ∧
      t.c < t1.c ∧
      (ch ≠ 9 → t1.c = t.c + 1 ∧ t1.tabs = t.tabs ∧
        ∀ i < t.rows, ∀ j, (i ≠ t.r ∨ j ≠ t.c) → t1.cell i j = t.cell i j) ∧
      (ch = 9 → (t1.tabs = fun a b => if a = t.r ∧ b = t1.c - 1 then t1.c - t.c else t.tabs a b) ∧
        t1.cell = t.cell) := by
  have g := h.geo
  have hcur := g.cur
  have hcols := g.cols
  obtain ⟨t1, h1, w1, f1, _⟩ := exec_wf h (a := .putc ch color) (fun _ => hc)
  refine ⟨t1, h1, w1, ?_⟩
  have hrows : t1.rows = t.rows := (congrArg (fun x => x.1) f1 :)
  have h1' : t.putc ch color = some t1 := h1
  unfold T.putc at h1'
  rw [if_neg hl.1, if_neg hl.2] at h1'
  by_cases htab : ch = 9
  · rw [if_pos htab] at h1'
    have hk := tabCol_eq g hc
    have hgt : t.c ≤ t.tabCol := by have := h9 htab; omega
    unfold T.tab at h1'
    dsimp only at h1'
    rw [if_pos ⟨hcur.1, by omega⟩] at h1'
    have hm : (t.tabCol + 1) % 65536 = t.tabCol + 1 := by omega
    have hwid : (t.tabCol + 1 + 2 ^ 32 - t.c) % 2 ^ 32 % 256 = t.tabCol + 1 - t.c := by
      have : t.tabCol + 1 - t.c ≤ 8 := by omega
      omega
    rw [hm, hwid] at h1'
    have tb := setTabs_tabs t (fun a b => if a = t.r ∧ b = t.tabCol then t.tabCol + 1 - t.c
      else t.tabs a b)
    have tc := setTabs_core t (fun a b => if a = t.r ∧ b = t.tabCol then t.tabCol + 1 - t.c
      else t.tabs a b)
    have tcell := setTabs_cell t (fun a b => if a = t.r ∧ b = t.tabCol then t.tabCol + 1 - t.c
      else t.tabs a b)
    generalize t.setTabs _ = u at *
    have e1 : t1 = { u with c := t.tabCol + 1 } := by cases h1'; rfl
    have uc : t1.c = t.tabCol + 1 := by rw [e1]
    refine ⟨by rw [e1]; exact (core_r tc :), hrows, by omega, fun hn => absurd htab hn, fun _ => ?_⟩
    rw [uc, Nat.add_sub_cancel]
    refine ⟨by rw [e1]; exact tb, by rw [e1]; exact tcell⟩
  · rw [if_neg htab, if_neg (show ¬ t.c = t.cols by omega)] at h1'
    unfold T.printable at h1'
    obtain ⟨t0, h0, e0⟩ := put_eff g hcur.1 hc (mkEntry ch color)
    rw [h0] at h1'
    have ht0 : t0.tabs = t.tabs := by
      unfold T.put T.setEntry at h0
      rw [if_pos hc] at h0
      unfold T.show1 at h0
      simp only [Option.bind_some] at h0
      split at h0
      · simp only [Option.some.injEq] at h0
        split at h0 <;> rw [← h0] <;> rfl
      · cases h0
    simp only [Option.map_some, Option.some.injEq] at h1'
    have hm : (t0.c + 1) % 65536 = t.c + 1 := by rw [core_c e0.core]; omega
    rw [hm] at h1'
    have uc : t1.c = t.c + 1 := by rw [← h1']
    refine ⟨by rw [← h1']; exact (core_r e0.core :), hrows, by omega, fun _ => ⟨uc, ?_, ?_⟩,
      fun hn => absurd hn htab⟩
    · rw [← h1']; exact ht0
    · intro i hi j hij
      rw [← h1']
      have := e0.cell i hi j
      rw [if_neg (by omega)] at this
      exact this

/-- Characters typed one after the other which stay in the line, tabs not beginning in the last
column. -/
def Fits (t : T) : List (Nat × Nat) → Prop
  | [] => True
  | (ch, color) :: l => ch ≠ 10 ∧ ch ≠ 13 ∧ t.c < t.cols ∧ (ch = 9 → t.c + 1 < t.cols) ∧
      ∀ t1, t.exec (.putc ch color) = some t1 → Fits t1 l

theorem execs_append (l1 l2 : List Act) (t : T) :
    t.execs (l1 ++ l2) = (t.execs l1).bind fun t => t.execs l2 := by
  induction l1 generalizing t with
  | nil => rfl
  | cons a l1 ih =>
    show (t.exec a).bind (fun t => t.execs (l1 ++ l2)) =
      ((t.exec a).bind fun t => t.execs l1).bind fun t => t.execs l2
    cases t.exec a with
    | none => rfl
    | some u => exact ih u

/-- C109: any characters typed in a line, tabs among them, and then the erase key as many times:
the cursor is back where it was, nothing before it and nothing on other lines has changed, and each
place from the cursor on is as it was or blank.  Partial: for typing which goes over to the next
line, and for lines where a tab was overwritten (`erase_after_overwritten_tab_violated`), see there. -/
theorem erase_undoes_typing_partial {l : List (Nat × Nat)} : ∀ {t : T}, WF t → Clean t → Fits t l →
    ∃ t', t.execs (l.map (fun x => .putc x.1 x.2) ++ List.replicate l.length .delPrev) = some t' ∧
      WF t' ∧ t'.r = t.r ∧ t'.c = t.c ∧ t'.tabs = t.tabs ∧ t'.rows = t.rows ∧
      (∀ i < t.rows, ∀ j, (i ≠ t.r ∨ j < t.c) → t'.cell i j = t.cell i j) ∧
      (∀ j, t.c ≤ j → t'.cell t.r j = t.cell t.r j ∨ charOf (t'.cell t.r j) = 32) := by
  induction l with
  | nil =>
    intro t h _ _
    exact ⟨t, rfl, h, rfl, rfl, rfl, rfl, fun _ _ _ _ => rfl, fun _ _ => Or.inl rfl⟩
  | cons x l ih =>
    intro t h hcl hf
    obtain ⟨ch, color⟩ := x
    obtain ⟨l1, l2, hc, h9, hrest⟩ := hf
    obtain ⟨t1, e1, w1, r1, rw1, lt1, np, nt⟩ := type_step h (color := color) ⟨l1, l2⟩ hc h9
    have hcl1 : Clean t1 := by
      intro j hj
      rw [r1]
      by_cases htab : ch = 9
      · rw [(nt htab).1]
        show (if t.r = t.r ∧ j = t1.c - 1 then _ else t.tabs t.r j) = 0
        rw [if_neg (by omega)]
        exact hcl j (by omega)
      · rw [(np htab).2.1]
        exact hcl j (by omega)
    obtain ⟨t2, e2, w2, r2, c2, tb2, rw2, o2, i2⟩ := ih w1 hcl1 (hrest t1 e1)
    obtain ⟨t3, e3, w3, r3, rw3, z3, n3⟩ := erase_step w2 (by omega)
    have hex : t.execs ((((ch, color) :: l).map fun x => Act.putc x.1 x.2) ++
        List.replicate ((ch, color) :: l).length .delPrev) = some t3 := by
      have el : (((ch, color) :: l).map fun x => Act.putc x.1 x.2) ++
          List.replicate ((ch, color) :: l).length .delPrev =
          (.putc ch color :: ((l.map fun x => Act.putc x.1 x.2) ++
            List.replicate l.length .delPrev)) ++ [.delPrev] := by
        rw [List.length_cons, List.replicate_succ']
        simp
      rw [el, execs_append]
      have : t.execs (.putc ch color :: ((l.map fun x => Act.putc x.1 x.2) ++
            List.replicate l.length .delPrev)) = some t2 := by
        show (t.exec (.putc ch color)).bind _ = _
        rw [e1]; exact e2
      rw [this]
      show (t2.exec .delPrev).bind _ = _
      rw [e3]; rfl
    have hcur := h.geo.cur
    by_cases htab : ch = 9
    · have hw : t2.tabs t2.r (t2.c - 1) = t1.c - t.c := by
        rw [tb2, r2, c2, r1, (nt htab).1]
        exact if_pos ⟨rfl, rfl⟩
      obtain ⟨c3, tb3, cell3⟩ := n3 (by rw [hw]; omega)
      refine ⟨t3, hex, w3, by rw [r3, r2, r1], by rw [c3, hw, c2]; omega, ?_,
        by rw [rw3, rw2, rw1], ?_, ?_⟩
      · rw [tb3]
        funext a b
        show (if a = t2.r ∧ b = t2.c - 1 then 0 else t2.tabs a b) = t.tabs a b
        rw [tb2, r2, c2, r1, (nt htab).1]
        show (if a = t.r ∧ b = t1.c - 1 then 0
          else if a = t.r ∧ b = t1.c - 1 then t1.c - t.c else t.tabs a b) = _
        by_cases hab : a = t.r ∧ b = t1.c - 1
        · rw [if_pos hab, hab.1, hab.2]
          exact (hcl (t1.c - 1) (by omega)).symm
        · rw [if_neg hab, if_neg hab]
      · intro i hi j hij
        rw [cell3, o2 i (by omega) j (by omega), (nt htab).2]
      · intro j hj
        rw [cell3]
        by_cases hlt : j < t1.c
        · left
          rw [o2 t.r (by omega) j (Or.inr hlt), (nt htab).2]
        · have := i2 j (by omega)
          rw [r1, (nt htab).2] at this
          exact this
    · have hw : t2.tabs t2.r (t2.c - 1) = 0 := by
        rw [tb2, r2, c2, r1, (np htab).1, (np htab).2.1]
        exact hcl _ (by omega)
      obtain ⟨c3, tb3, cell3⟩ := z3 hw
      have hc1 := (np htab).1
      refine ⟨t3, hex, w3, by rw [r3, r2, r1], by rw [c3, c2]; omega,
        by rw [tb3, tb2, (np htab).2.1], by rw [rw3, rw2, rw1], ?_, ?_⟩
      · intro i hi j hij
        have := cell3 i (by omega) j
        rw [if_neg (by omega)] at this
        rw [this, o2 i (by omega) j (by omega), (np htab).2.2 i hi j (by omega)]
      · intro j hj
        have h3 := cell3 t.r (by omega) j
        by_cases hj2 : j = t.c
        · rw [if_pos (by omega)] at h3
          exact Or.inr h3
        · rw [if_neg (by omega)] at h3
          rw [h3]
          have := i2 j (by omega)
          rw [r1, (np htab).2.2 t.r hcur.1 j (Or.inr hj2)] at this
          exact this

/-- `Fits`, computed. -/
def fitsB (t : T) : List (Nat × Nat) → Bool
  | [] => true
  | (ch, color) :: l => decide (ch ≠ 10 ∧ ch ≠ 13 ∧ t.c < t.cols ∧ (ch = 9 → t.c + 1 < t.cols)) &&
      ((t.exec (.putc ch color)).map fun t1 => fitsB t1 l).getD true

theorem fitsB_iff : ∀ {l : List (Nat × Nat)} {t : T}, fitsB t l = true → Fits t l
  | [], _, _ => trivial
  | (ch, color) :: l, t, h => by
    unfold fitsB at h
    rw [Bool.and_eq_true, decide_eq_true_eq] at h
    refine ⟨h.1.1, h.1.2.1, h.1.2.2.1, h.1.2.2.2, fun t1 h1 => fitsB_iff ?_⟩
    have := h.2
    rw [h1] at this
    exact this

example : Fits (init 25 80 10 (fun _ _ => 0) 0 true false) [(65, 7), (9, 7), (66, 7), (9, 7)] :=
  fitsB_iff (by decide +kernel)

/-! ### Further violations -/

/-- C109 is violated: a tab, back to its beginning, eight characters over it, and one erase: the
cursor jumps back over all of them and none is erased. -/
theorem erase_after_overwritten_tab_violated :
    ((init 25 80 100 (fun _ _ => 0) 0 true false).execs
      ([.putc 9 7, .putc 13 7] ++ List.replicate 8 (.putc 97 7) ++ [.delPrev])).map
      (fun t => (t.c, charOf (t.cell 0 7))) = some (0, 97) := by
  decide +kernel

/-- C109 is violated: a tab in the last column does nothing, and erasing it erases the character
before. -/
theorem erase_tab_in_last_column_violated :
    ((init 25 10 100 (fun _ _ => 0) 0 true false).execs
      (List.replicate 9 (.putc 97 7) ++ [.putc 9 7, .delPrev])).map
      (fun t => (t.c, charOf (t.cell 0 8))) = some (8, 32) := by
  decide +kernel

/-- C105 is violated: `ESC[1K` and `ESC[1J` do not erase the cursor's own place. -/
theorem erase_to_cursor_violated :
    ((init 25 80 100 (fun _ _ => 0) 0 true false).execs
      [.putc 97 7, .putc 97 7, .moveCur 0 1, .eraseLine 1]).map
      (fun t => (charOf (t.cell 0 0), charOf (t.cell 0 1))) = some (32, 97) ∧
    ((init 25 80 100 (fun _ _ => 0) 0 true false).execs
      [.putc 97 7, .putc 97 7, .moveCur 0 1, .eraseDisplay 1]).map
      (fun t => (charOf (t.cell 0 0), charOf (t.cell 0 1))) = some (32, 97) := by
  constructor <;> decide +kernel

/-- C105 is violated: `ESC[3J` moves the cursor. -/
theorem erase_history_moves_cursor_violated :
    ((init 4 10 5 (fun _ _ => 0) 0 true false).execs
      [.moveCur 2 3, .eraseDisplay 3]).map (fun t => (t.r, t.c)) = some (0, 0) := by
  decide +kernel

/-- The text of six lines, one character in each, for the witnesses below. -/
def sixLines : List Act :=
  [.putc 97 7, .moveCur 1 0, .putc 98 7, .moveCur 2 0, .putc 99 7, .moveCur 3 0, .putc 100 7,
   .moveCur 4 0, .putc 101 7, .moveCur 5 0, .putc 102 7]

/-- First characters of the lines of text, and of the lines shown. -/
def firsts (t : T) : List Nat × List Nat :=
  ((List.range t.rows).map fun i => charOf (t.cell i 0),
   (List.range t.rows).map fun i => charOf (t.disp i 0))

/-- C105 is violated: deleting one of six lines (`ESC[M` in the first line) moves up only the next
two: `abcdef` becomes `bccde `, the third line being there twice. -/
theorem delete_line_violated :
    ((init 6 10 5 (fun _ _ => 0) 0 true false).execs (sixLines ++ [.moveCur 0 0, .delLines 1])).map
      firsts = some ([98, 99, 99, 100, 101, 32], [98, 99, 99, 100, 101, 32]) := by
  decide +kernel

/-- C105 is violated: scrolling down by one line in a region which does not begin at the first line
doubles a line instead of blanking it. -/
theorem scroll_down_region_violated :
    ((init 6 10 5 (fun _ _ => 0) 0 true false).execs (sixLines ++ [.setRegion 2 4, .nonBufDown 1])).map
      firsts = some ([97, 98, 99, 99, 100, 102], [97, 98, 99, 99, 100, 102]) := by
  decide +kernel

/-- C105 and C106 are violated: inserting a line with the cursor above the region changes the lines
there, and the display does not show it. -/
theorem insert_line_above_region_violated :
    ((init 6 10 5 (fun _ _ => 0) 0 true false).execs (sixLines ++ [.setRegion 3 4, .insLines 1])).map
      firsts = some ([32, 97, 98, 99, 100, 102], [97, 98, 99, 99, 100, 102]) := by
  decide +kernel

/-- C106 is violated: deleting all the lines of a region also copies a line over the one below the
region, and the display does not show it. -/
theorem delete_below_region_violated :
    ((init 6 10 5 (fun _ _ => 0) 0 true false).execs
      (sixLines ++ [.setRegion 0 1, .delLines 2])).map
      firsts = some ([32, 32, 101, 100, 101, 102], [32, 32, 99, 100, 101, 102]) := by
  decide +kernel

/-- C106 is violated: a program which asks for graphics mode twice and then for text mode leaves the
terminal without output. -/
theorem pause_twice_violated :
    ((init 4 10 5 (fun _ _ => 0) 0 true false).run
      [.pause, .pause, .restart, .write [.putc 97 7]]).map
      (fun t => (t.paused, charOf (t.cell 0 0), charOf (t.disp 0 0))) = some (true, 97, 32) := by
  decide +kernel

/-- C104 is violated: with the cursor after the last column of the last line of the ring, showing
the cursor reads past the end of the text buffer. -/
theorem cursor_colour_overread_violated :
    ((init 4 10 0 (fun _ _ => 0) 0 true false).run
      [.write ([.moveCur 3 0] ++ List.replicate 10 (.putc 97 7))]).map T.overread = some true := by
  decide +kernel

end Verif.Vterm
