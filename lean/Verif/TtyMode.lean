/-!
# Settings and keyboard mode of the terminals (kernel/tty/tty_ioctl.c, kernel/exit.c)

Property C185 (terminal settings are those last set) and C186 (the keyboard mode and who restores it).

Terminals and processes are numbers.  Foreground groups and sessions are in `Pgrp`.
-/
namespace Verif.TtyMode

/-- `struct termios`: the ICANON flag, the interrupt character, and a number for all the rest. -/
structure Cfg where
  canon : Bool := true
  intr : Nat := 3
  rest : Nat := 0
  deriving DecidableEq, Repr

/-- `default_termios` (kernel/tty/tty_ioctl.c:18-48). -/
def dflt : Cfg := {}

/-- The part of `struct tty` that is used here: `c_term`, the character for which the table of handlers has
the one that interrupts (`ctrl_handlers`), the input buffer, `end_line_delim_count`, `mediumraw_mode`. -/
structure Tty where
  cfg : Cfg := {}
  hnd : Nat := 3
  ring : List Nat := []
  delims : Nat := 0
  medium : Bool := false
  deriving DecidableEq, Repr

/-- The part of `struct process` that is used here: `proc_tty`, `did_set_tty_medium_raw`. -/
structure Proc where
  tty : Option Nat := none
  flag : Bool := false
  deriving DecidableEq, Repr

structure St where
  tty : Nat → Tty := fun _ => {}
  proc : Nat → Proc := fun _ => {}

def St.setTty (s : St) (t : Nat) (x : Tty) : St := { s with tty := fun i => if i = t then x else s.tty i }

def St.setProc (s : St) (p : Nat) (x : Proc) : St := { s with proc := fun i => if i = p then x else s.proc i }

/-- tty_ioctl.c:77-85 `tty_reset_termios`: the handlers stay as they are. -/
def resetTermios (x : Tty) : Tty := { x with cfg := dflt, medium := false }

/-- tty_ioctl.c:63-75 `tty_set_medium_raw_mode(t, false)`. -/
def mediumOff (x : Tty) : Tty := { resetTermios x with medium := false }

/-- kernel/tty/tty_input.c:145-153 `tty_inbuf_reset`. -/
def inbufReset (x : Tty) : Tty := { x with ring := [], delims := 0 }

/-- tty_ioctl.c:97-115 `tty_ioctl_tcsets`; `none` is an address that cannot be read. -/
def tcsets (x : Tty) : Option Cfg → Int × Tty
  | none => (-14, x)
  | some c =>
    (0, { x with cfg := c, hnd := c.intr, delims := if c.canon = x.cfg.canon then x.delims else 0 })

/-- What may happen. -/
inductive Op
  | tcgets (t : Nat)
  /-- TCSETS and TCSETSW, or (`flush`) TCSETSF -/
  | tcsets (flush : Bool) (t : Nat) (c : Option Cfg)
  | kbget (t : Nat)
  | kbset (p t mode : Nat)
  /-- TIOCNOTTY -/
  | notty (p t : Nat)
  /-- TIOCSCTTY by a session leader or not -/
  | sctty (p t : Nat) (leader : Bool)
  /-- setsid, allowed or not -/
  | setsid (p : Nat) (ok : Bool)
  /-- fork or vfork; `c` is the number of the new process -/
  | fork (p c : Nat)
  /-- the process ends by a signal -/
  | killed (p : Nat)
  /-- the process ends by itself -/
  | exited (p : Nat)
  /-- ESC c is written to the terminal -/
  | resetSeq (t : Nat)
  /-- a character comes in -/
  | input (t c : Nat)

/-- What the caller sees. -/
structure Res where
  rc : Int := 0
  cfg : Option Cfg := none
  mode : Option Nat := none
  deriving DecidableEq, Repr

/-- tty_ioctl.c:191-218 `tty_ioctl_KDSKBMODE`; K_XLATE is 1 and K_MEDIUMRAW is 2. -/
def kbset (s : St) (p t mode : Nat) : St × Res :=
  if (s.proc p).tty ≠ some t then (s, { rc := -1 })
  else if mode = 1 then
    ((s.setTty t { s.tty t with medium := false }).setProc p { s.proc p with flag := false }, {})
  else if mode = 2 then
    ((s.setTty t { s.tty t with medium := true }).setProc p { s.proc p with flag := true }, {})
  else (s, { rc := -22 })

/-- The end of a process by a signal (kernel/exit.c:302-311): `none` if the kernel uses a null pointer. -/
def killed (s : St) (p : Nat) : Option St :=
  if (s.proc p).flag then
    match (s.proc p).tty with
    | none => none
    | some t => some (s.setTty t (mediumOff (s.tty t)))
  else some s

/-- One event: kernel/tty/tty_ioctl.c:88-94, 179-276, 325-372; kernel/process.c:221-222, 291 (the child
gets all of `struct process`, then the terminal) and 587-603 `sys_setsid`; modules/console/console.c:766-778
(ESC c).  An ended process keeps its place until the number is used again. -/
def step (s : St) : Op → Option (St × Res)
  | .tcgets t => some (s, { cfg := some (s.tty t).cfg })
  | .tcsets false t c => some (s.setTty t (tcsets (s.tty t) c).2, { rc := (tcsets (s.tty t) c).1 })
  | .tcsets true t c =>
    some (s.setTty t (tcsets (inbufReset (s.tty t)) c).2, { rc := (tcsets (inbufReset (s.tty t)) c).1 })
  | .kbget t => some (s, { mode := some (if (s.tty t).medium then 2 else 1) })
  | .kbset p t m => some (kbset s p t m)
  | .notty p t =>
    if (s.proc p).tty ≠ some t then some (s, { rc := -1 })
    else some (s.setProc p { s.proc p with tty := none }, {})
  | .sctty p t leader =>
    if (s.proc p).tty ≠ none then some (s, { rc := -1 })
    else if leader then some (s.setProc p { s.proc p with tty := some t }, {})
    else some (s, { rc := -1 })
  | .setsid p ok => if ok then some (s.setProc p { s.proc p with tty := none }, {}) else some (s, { rc := -1 })
  | .fork p c => some (s.setProc c (s.proc p), {})
  | .killed p => (killed s p).map fun s1 => (s1, {})
  | .exited _ => some (s, {})
  | .resetSeq t => some (s.setTty t (resetTermios (inbufReset (s.tty t))), {})
  | .input t c => some (s.setTty t { s.tty t with ring := (s.tty t).ring ++ [c] }, {})

/-- Does a character that comes in interrupt (kernel/tty/tty_ctrl_handlers.c.h:29-39 and 145-174)?
Simplified: ISIG is on, and the interrupt character is no other control character. -/
def interrupts (s : St) (t c : Nat) : Bool := c != 0 && c == (s.tty t).hnd

/-- The results of a history; it ends where the kernel crashes (`none`). -/
def trace (s : St) : List Op → List (Option Res)
  | [] => []
  | o :: l =>
    match step s o with
    | none => [none]
    | some (s1, r) => some r :: trace s1 l

/-- The state after a history. -/
def run (s : St) : List Op → Option St
  | [] => some s
  | o :: l => (step s o).bind fun x => run x.1 l

/-! ## Specification -/

/-- What the user knows: the settings and the keyboard mode of each terminal, the controlling terminal of
each process, and the terminal a process has put in medium raw mode and not put back. -/
structure World where
  cfg : Nat → Cfg
  medium : Nat → Bool
  tty : Nat → Option Nat
  setBy : Nat → Option Nat

/-- A new value at one place. -/
def upd {α : Type} (f : Nat → α) (i : Nat) (v : α) : Nat → α := fun j => if j = i then v else f j

/-- The event as the user understands it.  When a process is killed, the terminal it left in medium raw
mode is put back to the usual mode with the default settings. -/
def World.step (w : World) : Op → World × Res
  | .tcgets t => (w, { cfg := some (w.cfg t) })
  | .tcsets _ t (some c) => ({ w with cfg := upd w.cfg t c }, {})
  | .tcsets _ _ none => (w, { rc := -14 })
  | .kbget t => (w, { mode := some (if w.medium t = true then 2 else 1) })
  | .kbset p t m =>
    if w.tty p = some t then
      if m = 1 then ({ w with medium := upd w.medium t false, setBy := upd w.setBy p none }, {})
      else if m = 2 then ({ w with medium := upd w.medium t true, setBy := upd w.setBy p (some t) }, {})
      else (w, { rc := -22 })
    else (w, { rc := -1 })
  | .notty p t => if w.tty p = some t then ({ w with tty := upd w.tty p none }, {}) else (w, { rc := -1 })
  | .sctty p t leader =>
    if w.tty p = none ∧ leader = true then ({ w with tty := upd w.tty p (some t) }, {}) else (w, { rc := -1 })
  | .setsid p ok => if ok = true then ({ w with tty := upd w.tty p none }, {}) else (w, { rc := -1 })
  | .fork p c => ({ w with tty := upd w.tty c (w.tty p), setBy := upd w.setBy c none }, {})
  | .killed p =>
    match w.setBy p with
    | none => (w, {})
    | some t => ({ w with cfg := upd w.cfg t dflt, medium := upd w.medium t false }, {})
  | .exited _ => (w, {})
  | .resetSeq t => ({ w with cfg := upd w.cfg t dflt, medium := upd w.medium t false }, {})
  | .input _ _ => (w, {})

def World.trace (w : World) : List Op → List (Option Res)
  | [] => []
  | o :: l => some (w.step o).2 :: World.trace (w.step o).1 l

/-- A process that has put a terminal in medium raw mode neither forks nor gives up its terminal. -/
def Careful (w : World) : Op → Prop
  | .notty p _ => w.setBy p = none
  | .setsid p _ => w.setBy p = none
  | .fork p _ => w.setBy p = none
  | _ => True

def CarefulRun (w : World) : List Op → Prop
  | [] => True
  | o :: l => Careful w o ∧ CarefulRun (w.step o).1 l

/-- At boot: default settings; `tty` gives the controlling terminals. -/
def World.boot (tty : Nat → Option Nat) : World :=
  { cfg := fun _ => dflt, medium := fun _ => false, tty := tty, setBy := fun _ => none }

def boot (tty : Nat → Option Nat) : St := { proc := fun p => { tty := tty p } }

/-! ## Proofs -/

structure Rel (s : St) (w : World) : Prop where
  cfg : ∀ t, (s.tty t).cfg = w.cfg t
  medium : ∀ t, (s.tty t).medium = w.medium t
  tty : ∀ p, (s.proc p).tty = w.tty p
  flag : ∀ p, (s.proc p).flag = (w.setBy p).isSome
  own : ∀ p t, w.setBy p = some t → w.tty p = some t

theorem rel_tty {s : St} {w : World} (h : Rel s w) {t : Nat} {x : Tty} {c : Cfg} {m : Bool} (hc : x.cfg = c)
    (hm : x.medium = m) : Rel (s.setTty t x) { w with cfg := upd w.cfg t c, medium := upd w.medium t m } := by
  refine ⟨fun i => ?_, fun i => ?_, h.tty, h.flag, h.own⟩
  · show (if i = t then x else s.tty i).cfg = if i = t then c else w.cfg i
    split
    · exact hc
    · exact h.cfg i
  · show (if i = t then x else s.tty i).medium = if i = t then m else w.medium i
    split
    · exact hm
    · exact h.medium i

theorem upd_same {α : Type} (f : Nat → α) (i : Nat) : upd f i (f i) = f := by
  funext j; unfold upd; split <;> simp_all

theorem rel_proc {s : St} {w : World} (h : Rel s w) {p : Nat} {x : Proc} {a b : Option Nat} (ha : x.tty = a)
    (hb : x.flag = b.isSome) (hab : ∀ t, b = some t → a = some t) :
    Rel (s.setProc p x) { w with tty := upd w.tty p a, setBy := upd w.setBy p b } := by
  refine ⟨h.cfg, h.medium, fun i => ?_, fun i => ?_, fun i t => ?_⟩
  · show (if i = p then x else s.proc i).tty = if i = p then a else w.tty i
    split
    · exact ha
    · exact h.tty i
  · show (if i = p then x else s.proc i).flag = (if i = p then b else w.setBy i).isSome
    split
    · exact hb
    · exact h.flag i
  · show (if i = p then b else w.setBy i) = some t → (if i = p then a else w.tty i) = some t
    split
    · exact hab t
    · exact h.own i t

theorem rel_step {s : St} {w : World} (h : Rel s w) (o : Op) (hc : Careful w o) :
    ∃ s1, step s o = some (s1, (w.step o).2) ∧ Rel s1 (w.step o).1 := by
  cases o with
  | tcgets t => exact ⟨s, by simp only [step, World.step, h.cfg], h⟩
  | tcsets fl t c =>
    cases c with
    | none =>
      cases fl with
      | false =>
        refine ⟨s.setTty t (s.tty t), rfl, ?_⟩
        have := rel_tty h (t := t) (x := s.tty t) (h.cfg t) (h.medium t)
        rw [upd_same, upd_same] at this
        exact this
      | true =>
        refine ⟨s.setTty t (inbufReset (s.tty t)), rfl, ?_⟩
        have := rel_tty h (t := t) (x := inbufReset (s.tty t)) (h.cfg t) (h.medium t)
        rw [upd_same, upd_same] at this
        exact this
    | some c =>
      cases fl with
      | false =>
        refine ⟨s.setTty t (tcsets (s.tty t) (some c)).2, rfl, ?_⟩
        have := rel_tty h (t := t) (x := (tcsets (s.tty t) (some c)).2) (c := c) rfl (h.medium t)
        rw [upd_same w.medium] at this
        exact this
      | true =>
        refine ⟨s.setTty t (tcsets (inbufReset (s.tty t)) (some c)).2, rfl, ?_⟩
        have := rel_tty h (t := t) (x := (tcsets (inbufReset (s.tty t)) (some c)).2) (c := c) rfl (h.medium t)
        rw [upd_same w.medium] at this
        exact this
  | kbget t => exact ⟨s, by simp only [step, World.step, h.medium], h⟩
  | kbset p t m =>
    simp only [step, World.step, kbset, h.tty]
    by_cases h1 : w.tty p = some t
    · rw [if_neg (show ¬ w.tty p ≠ some t from fun k => k h1), if_pos h1]
      by_cases h2 : m = 1
      · rw [if_pos h2, if_pos h2]
        refine ⟨_, rfl, ?_⟩
        have k1 := rel_tty h (t := t) (x := { s.tty t with medium := false }) (m := false) (h.cfg t) rfl
        rw [upd_same w.cfg] at k1
        have k2 := rel_proc k1 (p := p) (x := { tty := w.tty p, flag := false }) (b := none) rfl rfl
          (fun _ k => by cases k)
        rw [upd_same w.tty] at k2
        exact k2
      · rw [if_neg h2, if_neg h2]
        by_cases h3 : m = 2
        · rw [if_pos h3, if_pos h3]
          refine ⟨_, rfl, ?_⟩
          have k1 := rel_tty h (t := t) (x := { s.tty t with medium := true }) (m := true) (h.cfg t) rfl
          rw [upd_same w.cfg] at k1
          have k2 := rel_proc k1 (p := p) (x := { tty := w.tty p, flag := true }) (b := some t) rfl rfl
            (fun t2 k => by cases k; exact h1)
          rw [upd_same w.tty] at k2
          exact k2
        · rw [if_neg h3, if_neg h3]
          exact ⟨s, rfl, h⟩
    · rw [if_pos h1, if_neg h1]
      exact ⟨s, rfl, h⟩
  | notty p t =>
    simp only [step, World.step, h.tty]
    by_cases h1 : w.tty p = some t
    · rw [if_neg (show ¬ w.tty p ≠ some t from fun k => k h1), if_pos h1]
      refine ⟨_, rfl, ?_⟩
      have k2 := rel_proc h (p := p) (x := { s.proc p with tty := none }) (a := none) (b := w.setBy p) rfl (h.flag p)
        (fun t2 k => by rw [show w.setBy p = none from hc] at k; cases k)
      rw [upd_same w.setBy] at k2
      exact k2
    · rw [if_pos h1, if_neg h1]
      exact ⟨s, rfl, h⟩
  | sctty p t leader =>
    simp only [step, World.step, h.tty]
    by_cases h1 : w.tty p = none
    · rw [if_neg (show ¬ w.tty p ≠ none from fun k => k h1)]
      cases leader with
      | true =>
        rw [if_pos rfl, if_pos ⟨h1, rfl⟩]
        refine ⟨_, rfl, ?_⟩
        have hs : ∀ t2, w.setBy p = some t2 → some t = some t2 := fun t2 k => by
          have := h.own p t2 k; rw [h1] at this; cases this
        have k2 := rel_proc h (p := p) (x := { s.proc p with tty := some t }) (a := some t) (b := w.setBy p) rfl
          (h.flag p) hs
        rw [upd_same w.setBy] at k2
        exact k2
      | false => exact ⟨s, by simp, by simpa using h⟩
    · rw [if_pos h1, if_neg (fun k => h1 k.1)]
      exact ⟨s, rfl, h⟩
  | setsid p ok =>
    cases ok with
    | true =>
      refine ⟨s.setProc p { s.proc p with tty := none }, rfl, ?_⟩
      have k2 := rel_proc h (p := p) (x := { s.proc p with tty := none }) (a := none) (b := w.setBy p) rfl (h.flag p)
        (fun t2 k => by rw [show w.setBy p = none from hc] at k; cases k)
      rw [upd_same w.setBy] at k2
      exact k2
    | false => exact ⟨s, rfl, h⟩
  | fork p c =>
    refine ⟨s.setProc c (s.proc p), rfl, ?_⟩
    refine rel_proc h (h.tty p) ?_ (fun _ k => by cases k)
    rw [h.flag p, show w.setBy p = none from hc]
  | killed p =>
    simp only [step, World.step, killed, h.flag, h.tty]
    cases hs : w.setBy p with
    | none => exact ⟨s, rfl, h⟩
    | some t =>
      rw [h.own p t hs]
      exact ⟨s.setTty t (mediumOff (s.tty t)), rfl, rel_tty h rfl rfl⟩
  | exited p => exact ⟨s, rfl, h⟩
  | resetSeq t => exact ⟨s.setTty t (resetTermios (inbufReset (s.tty t))), rfl, rel_tty h rfl rfl⟩
  | input t c =>
    refine ⟨s.setTty t { s.tty t with ring := (s.tty t).ring ++ [c] }, rfl, ?_⟩
    have := rel_tty h (t := t) (x := { s.tty t with ring := (s.tty t).ring ++ [c] }) (h.cfg t) (h.medium t)
    rw [upd_same, upd_same] at this
    exact this

theorem trace_eq : ∀ (l : List Op) (s : St) (w : World), Rel s w → CarefulRun w l → trace s l = w.trace l
  | [], _, _, _, _ => rfl
  | o :: l, s, w, h, hc => by
    obtain ⟨s1, h1, h2⟩ := rel_step h o hc.1
    show (match step s o with | none => [none] | some (s1, r) => some r :: trace s1 l) = _
    rw [h1]
    show some _ :: trace s1 l = some _ :: World.trace _ l
    rw [trace_eq l s1 _ h2 hc.2]

/-- C185 and C186 (part): over every history in which no process that put a terminal in medium raw mode
forks or gives up its terminal, the kernel never crashes and everything returned is as specified: TCGETS
gives the settings last set (or the default after a reset), KDGKBMODE the mode last set, and the killing of
a process puts back the terminal that it left in medium raw mode, and no other. -/
theorem modes_partial (tty : Nat → Option Nat) (l : List Op) (h : CarefulRun (World.boot tty) l) :
    trace (boot tty) l = (World.boot tty).trace l :=
  trace_eq l _ _ ⟨fun _ => rfl, fun _ => rfl, fun _ => rfl, fun _ => rfl, fun _ _ k => by cases k⟩ h

example : CarefulRun (World.boot fun _ => some 0) [.fork 1 2, .kbset 2 0 2, .tcsets true 0 (some { intr := 5 }),
    .killed 2, .kbget 0, .tcgets 0] := by
  simp [CarefulRun, Careful, World.boot, World.step, upd]

example : (World.boot fun _ => some 0).trace [.fork 1 2, .kbset 2 0 2, .tcsets true 0 (some { intr := 5 }), .tcgets 0,
    .kbget 0, .killed 2, .kbget 0, .tcgets 0] = [some {}, some {}, some {}, some { cfg := some { intr := 5 } },
    some { mode := some 2 }, some {}, some { mode := some 1 }, some { cfg := some {} }] := by decide

/-- C185 (part): TCSETS and TCSETSW with a bad address change nothing at all. -/
theorem failed_set_partial (s : St) (t : Nat) :
    ∃ s1, step s (.tcsets false t none) = some (s1, { rc := -14 }) ∧ s1.tty = s.tty ∧ s1.proc = s.proc := by
  refine ⟨_, rfl, ?_, rfl⟩
  funext i
  show (if i = t then s.tty t else s.tty i) = s.tty i
  split
  · next h => rw [h]
  · rfl

/-- C185 is violated: TCSETSF with a bad address fails, but the input is lost. -/
theorem flush_violated (s : St) (t : Nat) :
    ∃ s1, step s (.tcsets true t none) = some (s1, { rc := -14 }) ∧ (s1.tty t).ring = [] :=
  ⟨_, rfl, by show (if t = t then inbufReset (s.tty t) else s.tty t).ring = []; rw [if_pos rfl]; rfl⟩

/-- The events that do not reset a terminal. -/
def NoReset : Op → Prop
  | .resetSeq _ | .killed _ => False
  | _ => True

/-- The character that interrupts is the one in the settings. -/
def Acts (s : St) : Prop := ∀ t, (s.tty t).hnd = (s.tty t).cfg.intr

theorem acts_tty {s : St} (h : Acts s) {t : Nat} {x : Tty} (hx : x.hnd = x.cfg.intr) : Acts (s.setTty t x) := by
  intro i
  show (if i = t then x else s.tty i).hnd = (if i = t then x else s.tty i).cfg.intr
  split
  · exact hx
  · exact h i

theorem acts_step {s s1 : St} {r : Res} (h : Acts s) {o : Op} (hn : NoReset o) (hs : step s o = some (s1, r)) : Acts s1 := by
  cases o with
  | tcgets t => cases hs; exact h
  | tcsets fl t c =>
    cases fl <;> cases c <;> cases hs
    · exact acts_tty h (h t)
    · exact acts_tty h rfl
    · exact acts_tty h (h t)
    · exact acts_tty h rfl
  | kbget t => cases hs; exact h
  | kbset p t m =>
    simp only [step, kbset] at hs
    split at hs
    · cases hs; exact h
    · split at hs
      · cases hs; exact acts_tty h (h t)
      · split at hs
        · cases hs; exact acts_tty h (h t)
        · cases hs; exact h
  | notty p t =>
    simp only [step] at hs
    split at hs <;> cases hs <;> exact h
  | sctty p t leader =>
    simp only [step] at hs
    split at hs
    · cases hs; exact h
    · split at hs <;> cases hs <;> exact h
  | setsid p ok =>
    simp only [step] at hs
    split at hs <;> cases hs <;> exact h
  | fork p c => cases hs; exact h
  | killed p => exact hn.elim
  | exited p => cases hs; exact h
  | resetSeq t => exact hn.elim
  | input t c => cases hs; exact acts_tty h (h t)

theorem acts_run : ∀ (l : List Op) (s s1 : St), Acts s → (∀ o ∈ l, NoReset o) → run s l = some s1 → Acts s1
  | [], s, s1, h, _, hr => by cases hr; exact h
  | o :: l, s, s1, h, hn, hr => by
    simp only [run] at hr
    cases hs : step s o with
    | none => rw [hs] at hr; cases hr
    | some x =>
      rw [hs] at hr
      exact acts_run l x.1 s1 (acts_step h (hn o (List.mem_cons_self ..)) (show step s o = some (x.1, x.2) from hs))
        (fun y hy => hn y (List.mem_cons_of_mem _ hy)) hr

/-- C185 (part): over every history without a reset of a terminal (ESC c, or a killed process), the
character that interrupts is the one TCGETS reports. -/
theorem acts_partial (tty : Nat → Option Nat) (l : List Op) (hn : ∀ o ∈ l, NoReset o) (s : St)
    (hr : run (boot tty) l = some s) (t c : Nat) :
    interrupts s t c = true ↔ c ≠ 0 ∧ ∃ s1 g, step s (.tcgets t) = some (s1, { cfg := some g }) ∧ c = g.intr := by
  have h := acts_run l _ s (fun _ => rfl) hn hr t
  simp only [interrupts, Bool.and_eq_true, bne_iff_ne, ne_eq, beq_iff_eq, h]
  constructor
  · rintro ⟨h1, h2⟩
    exact ⟨h1, s, (s.tty t).cfg, rfl, h2⟩
  · rintro ⟨h1, s1, g, h2, h3⟩
    cases h2
    exact ⟨h1, h3⟩

example : ∃ s, run (boot fun _ => some 0) [.tcsets true 0 (some { intr := 5 }), .fork 1 2, .kbset 2 0 2] = some s ∧
    interrupts s 0 5 = true ∧ interrupts s 0 3 = false := ⟨_, rfl, by decide, by decide⟩

/-- C185 is violated: after the interrupt character was changed, ESC c makes TCGETS report the default one,
while the changed one goes on to interrupt and the default one does not. -/
theorem stale_violated (s : St) (t : Nat) (c : Cfg) (h0 : c.intr ≠ 0) (h3 : c.intr ≠ 3) :
    ∃ s1, run s [.tcsets false t (some c), .resetSeq t] = some s1 ∧
      step s1 (.tcgets t) = some (s1, { cfg := some dflt }) ∧ dflt.intr = 3 ∧
      interrupts s1 t c.intr = true ∧ interrupts s1 t 3 = false := by
  refine ⟨_, rfl, ?_, rfl, ?_, ?_⟩
  · simp [step, St.setTty, resetTermios]
  · simp [interrupts, St.setTty, resetTermios, inbufReset, tcsets, h0]
  · simp [interrupts, St.setTty, resetTermios, inbufReset, tcsets, Ne.symm h3]

/-- C186 is violated: a process that puts its terminal in medium raw mode, then gives it up, and then is
killed, makes the kernel use a null pointer. -/
theorem crash_violated (s : St) (p t : Nat) (h : (s.proc p).tty = some t) :
    run s [.kbset p t 2, .notty p t, .killed p] = none := by
  simp [run, step, kbset, killed, h, St.setTty, St.setProc]

/-- C186 is violated: the child of a process that put the terminal in medium raw mode, when killed, takes
the mode away from its parent, which is still running. -/
theorem fork_violated (s : St) (p c t : Nat) (h : (s.proc p).tty = some t) :
    ∃ s1, run s [.kbset p t 2, .fork p c, .killed c] = some s1 ∧ (s1.tty t).medium = false ∧ (s1.tty t).cfg = dflt := by
  refine ⟨(((s.setTty t { s.tty t with medium := true }).setProc p { s.proc p with flag := true }).setProc c
    { s.proc p with flag := true }).setTty t (mediumOff { s.tty t with medium := true }), ?_, ?_, ?_⟩
  · simp [run, step, kbset, killed, h, St.setTty, St.setProc]
  · simp [St.setTty, St.setProc, mediumOff]
  · simp [St.setTty, St.setProc, mediumOff, resetTermios]

/-- C186 is violated: a process that goes to another terminal and is killed there resets the settings of
that one, and leaves the first in medium raw mode. -/
theorem other_violated (s : St) (p t u : Nat) (h : (s.proc p).tty = some t) (hu : u ≠ t) :
    ∃ s1, run s [.kbset p t 2, .setsid p true, .sctty p u true, .killed p] = some s1 ∧
      (s1.tty t).medium = true ∧ (s1.tty u).cfg = dflt := by
  refine ⟨(((((s.setTty t { s.tty t with medium := true }).setProc p { s.proc p with flag := true }).setProc p
    { tty := none, flag := true }).setProc p { tty := some u, flag := true }).setTty u (mediumOff (s.tty u))), ?_, ?_, ?_⟩
  · simp [run, step, kbset, killed, h, St.setTty, St.setProc, hu]
  · simp [St.setTty, St.setProc, Ne.symm hu]
  · simp [St.setTty, St.setProc, mediumOff, resetTermios]

/-- In the world of the specification the first terminal would be put back and the second left alone. -/
example : (World.boot fun _ => some 0).trace [.tcsets false 1 (some { intr := 7 }), .kbset 1 0 2, .setsid 1 true,
    .sctty 1 1 true, .killed 1, .kbget 0, .tcgets 1] = [some {}, some {}, some {}, some {}, some {},
    some { mode := some 1 }, some { cfg := some { intr := 7 } }] := by decide


end Verif.TtyMode
