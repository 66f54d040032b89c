/-
The keyboard controller (modules/kb8042/generic_x86/i8042.c): turning the ports off and on around
a command to the keyboard or to the controller.
-/
namespace Verif.Kbc

/-- What lasts: the mask of the keyboard's interrupt in the interrupt controller, the two ports as
the keyboard controller has them, the ports wanted (sw_port_enabled, i8042.c:22-26), and the bytes
sent to the keyboard. -/
structure Core where
  masked : Bool
  p1 : Bool
  p2 : Bool
  sw1 : Bool
  sw2 : Bool
  sent : List (BitVec 8)
deriving DecidableEq, Repr

/-- The state: `t` counts the reads of the status register. -/
structure St where
  core : Core
  t : Nat
deriving DecidableEq, Repr

/-- What the status register shows at each read: I8042_STATUS_OUTPUT_FULL and
I8042_STATUS_INPUT_FULL (i8042.h:17-18). Any sequence is possible. The bytes read from the data
port are thrown away by all functions here, or only shown, and are not modelled. -/
structure Status where
  outFull : Nat → Bool
  inFull : Nat → Bool

/-- What the controller does with a command (i8042.h:35-40): others do not change the ports. -/
def Core.cmd (c : Core) (b : BitVec 8) : Core :=
  if b = 0xAD then { c with p1 := false }
  else if b = 0xAE then { c with p1 := true }
  else if b = 0xA7 then { c with p2 := false }
  else if b = 0xA8 then { c with p2 := true }
  else c

/-- `if (!f()) return false; g` -/
def andThen (f g : St → Bool × St) (s : St) : Bool × St :=
  if (f s).1 then g (f s).2 else (false, (f s).2)

/-- i8042_wait_cmd_fetched (i8042.c:48-59), with KB_ITERS_TIMEOUT - i in `k`. -/
def waitCmd (st : Status) : Nat → St → Bool × St
  | 0, s => (!st.inFull s.t, { s with t := s.t + 1 })
  | k + 1, s =>
    if st.inFull s.t then waitCmd st k { s with t := s.t + 1 } else (true, { s with t := s.t + 1 })

/-- i8042_wait_for_data (i8042.c:61-72). -/
def waitData (st : Status) : Nat → St → Bool × St
  | 0, s => (st.outFull s.t, { s with t := s.t + 1 })
  | k + 1, s =>
    if st.outFull s.t then (true, { s with t := s.t + 1 })
    else waitData st k { s with t := s.t + 1 }

/-- i8042_full_wait (i8042.c:112-134), with KB_ITERS_TIMEOUT + 1 - iters in `k`. -/
def fullWait (st : Status) : Nat → St → Bool × St
  | 0, s => (false, s)
  | k + 1, s =>
    if st.outFull s.t || st.inFull s.t then fullWait st k { s with t := s.t + 1 }
    else (true, { s with t := s.t + 1 })

/-- outb(I8042_CMD_PORT, b) -/
def outCmd (b : BitVec 8) (s : St) : Bool × St := (true, { s with core := s.core.cmd b })

/-- outb(I8042_DATA_PORT, b) -/
def outData (b : BitVec 8) (s : St) : Bool × St :=
  (true, { s with core := { s.core with sent := s.core.sent ++ [b] } })

/-- i8042_send_cmd (i8042.c:88-99); `T` is KB_ITERS_TIMEOUT, 10000 (i8042.c:12). -/
def sendCmd (st : Status) (T : Nat) (b : BitVec 8) : St → Bool × St :=
  andThen (waitCmd st T) (andThen (outCmd b) (waitCmd st T))

/-- i8042_send_cmd_and_wait_response (i8042.c:101-110). -/
def sendWait (st : Status) (T : Nat) (b : BitVec 8) : St → Bool × St :=
  andThen (sendCmd st T b) (waitData st T)

/-- irq_set_mask and irq_clear_mask of X86_PC_KEYBOARD_IRQ (kernel/arch/generic_x86/pic.c:155-216). -/
def setMask (m : Bool) (s : St) : Bool × St := (true, { s with core := { s.core with masked := m } })

/-- i8042_disable_ports (i8042.c:136-153). -/
def disablePorts (st : Status) (T : Nat) : St → Bool × St :=
  andThen (setMask true) (andThen (fullWait st (T + 1)) (andThen (sendCmd st T 0xAD)
    (andThen (sendCmd st T 0xA7) (fullWait st (T + 1)))))

/-- The two conditional commands of i8042_enable_ports (i8042.c:160-166). -/
def enable1 (st : Status) (T : Nat) (s : St) : Bool × St :=
  if s.core.sw1 then sendCmd st T 0xAE s else (true, s)
@[inherit_doc enable1]
def enable2 (st : Status) (T : Nat) (s : St) : Bool × St :=
  if s.core.sw2 then sendCmd st T 0xA8 s else (true, s)

/-- i8042_enable_ports (i8042.c:155-174). -/
def enablePorts (st : Status) (T : Nat) : St → Bool × St :=
  andThen (fullWait st (T + 1)) (andThen (enable1 st T) (andThen (enable2 st T)
    (andThen (fullWait st (T + 1)) (setMask false))))

/-- kb_send_cmd_with_arg_unsafe (i8042.c:176-192). -/
def kbSend (st : Status) (T : Nat) (c a : BitVec 8) : St → Bool × St :=
  andThen (fullWait st (T + 1)) (andThen (outData c) (andThen (fullWait st (T + 1))
    (andThen (outData a) (fullWait st (T + 1)))))

/-- The common shape of kb_led_set and kb_set_typematic_byte. -/
def kbCommand (st : Status) (T : Nat) (c a : BitVec 8) (s : St) : Bool × St :=
  let d := disablePorts st T s
  if d.1 then
    let k := kbSend st T c a d.2
    let e := enablePorts st T k.2
    (k.1 && e.1, e.2)
  else (false, d.2)

/-- kb_led_set (i8042.c:194-214). -/
def ledSet (st : Status) (T : Nat) (v : BitVec 8) : St → Bool × St := kbCommand st T 0xED (v &&& 0b111)

/-- kb_set_typematic_byte (i8042.c:226-246). -/
def typematic (st : Status) (T : Nat) (v : BitVec 8) : St → Bool × St :=
  kbCommand st T 0xF3 (v &&& 0b11111)

/-- i8042_read_regs (i8042.c:358-380) with i8042_read_ctr_unsafe and i8042_read_cto_unsafe
(i8042.c:336-356); `ctr` and `cto` tell which pointers are given. -/
def readRegs (st : Status) (T : Nat) (ctr cto : Bool) (s : St) : Bool × St :=
  let d := disablePorts st T s
  let r := if ctr && d.1 then sendWait st T 0x20 d.2 else d
  let q := if cto && r.1 then sendWait st T 0xD0 r.2 else r
  let e := enablePorts st T q.2
  (q.1 && e.1, e.2)

/-! ### Specification -/

/-- The keyboard works: its interrupt gets through and its port is on if it is wanted. -/
def Works (s : St) : Prop :=
  s.core.masked = false ∧ s.core.p1 = s.core.sw1 ∧ s.core.p2 = s.core.sw2

/-- The controller is busy for the next `N` looks at it, and never again. -/
def BusyFor (st : Status) (from_ N : Nat) : Prop :=
  (∀ i, from_ ≤ i → i < from_ + N → st.outFull i = true ∨ st.inFull i = true) ∧
  (∀ i, from_ + N ≤ i → st.outFull i = false ∧ st.inFull i = false)

/-! ### Proofs -/

section
variable {st : Status} {T : Nat}

private theorem andThen_true {f g : St → Bool × St} {s : St} (h : (andThen f g s).1 = true) :
    (f s).1 = true ∧ (g (f s).2).1 = true ∧ andThen f g s = g (f s).2 := by
  unfold andThen at h ⊢
  by_cases hf : (f s).1 = true
  · rw [if_pos hf] at h ⊢; exact ⟨hf, h, rfl⟩
  · rw [if_neg hf] at h; exact absurd h (by simp)

private theorem andThen_of {f g : St → Bool × St} {s : St} (h : (f s).1 = true) :
    andThen f g s = g (f s).2 := by unfold andThen; rw [if_pos h]

private theorem waitCmd_core (k : Nat) : ∀ s, (waitCmd st k s).2.core = s.core := by
  induction k with
  | zero => intro s; rfl
  | succ k ih => intro s; unfold waitCmd; split; exact ih _; rfl

private theorem waitData_core (k : Nat) : ∀ s, (waitData st k s).2.core = s.core := by
  induction k with
  | zero => intro s; rfl
  | succ k ih => intro s; unfold waitData; split; rfl; exact ih _

private theorem fullWait_core (k : Nat) : ∀ s, (fullWait st k s).2.core = s.core := by
  induction k with
  | zero => intro s; rfl
  | succ k ih => intro s; unfold fullWait; split; exact ih _; rfl

private theorem sendCmd_true {b : BitVec 8} {s : St} (h : (sendCmd st T b s).1 = true) :
    (sendCmd st T b s).2.core = s.core.cmd b := by
  obtain ⟨_, h2, e1⟩ := andThen_true h
  obtain ⟨_, _, e2⟩ := andThen_true h2
  unfold sendCmd
  rw [e1, e2, waitCmd_core]
  show (waitCmd st T s).2.core.cmd b = _
  rw [waitCmd_core]

private theorem sendWait_true {b : BitVec 8} {s : St} (h : (sendWait st T b s).1 = true) :
    (sendWait st T b s).2.core = s.core.cmd b := by
  obtain ⟨h1, _, e1⟩ := andThen_true h
  unfold sendWait
  rw [e1, waitData_core, sendCmd_true h1]

private theorem disable_true {s : St} (h : (disablePorts st T s).1 = true) :
    (disablePorts st T s).2.core = { s.core with masked := true, p1 := false, p2 := false } := by
  obtain ⟨_, h2, e1⟩ := andThen_true h
  obtain ⟨_, h3, e2⟩ := andThen_true h2
  obtain ⟨c1, h4, e3⟩ := andThen_true h3
  obtain ⟨c2, _, e4⟩ := andThen_true h4
  unfold disablePorts
  rw [e1, e2, e3, e4, fullWait_core, sendCmd_true c2, sendCmd_true c1, fullWait_core]
  rfl

private theorem enable1_true {s : St} (h : (enable1 st T s).1 = true) :
    (enable1 st T s).2.core = { s.core with p1 := s.core.sw1 || s.core.p1 } := by
  unfold enable1 at h ⊢
  by_cases hs : s.core.sw1 = true
  · rw [if_pos hs] at h ⊢; rw [sendCmd_true h, hs]; rfl
  · have e : (s.core.sw1 || s.core.p1) = s.core.p1 := by simp [hs]
    rw [if_neg hs, e]

private theorem enable2_true {s : St} (h : (enable2 st T s).1 = true) :
    (enable2 st T s).2.core = { s.core with p2 := s.core.sw2 || s.core.p2 } := by
  unfold enable2 at h ⊢
  by_cases hs : s.core.sw2 = true
  · rw [if_pos hs] at h ⊢; rw [sendCmd_true h, hs]; rfl
  · have e : (s.core.sw2 || s.core.p2) = s.core.p2 := by simp [hs]
    rw [if_neg hs, e]

private theorem enable_true {s : St} (h : (enablePorts st T s).1 = true) :
    (enablePorts st T s).2.core = { s.core with masked := false, p1 := s.core.sw1 || s.core.p1,
                                                p2 := s.core.sw2 || s.core.p2 } := by
  obtain ⟨_, h2, e1⟩ := andThen_true h
  obtain ⟨c1, h3, e2⟩ := andThen_true h2
  obtain ⟨c2, h4, e3⟩ := andThen_true h3
  obtain ⟨_, _, e4⟩ := andThen_true h4
  unfold enablePorts
  rw [e1, e2, e3, e4]
  unfold setMask
  dsimp only
  rw [fullWait_core, enable2_true c2, enable1_true c1, fullWait_core]

private theorem kbSend_true {c a : BitVec 8} {s : St} (h : (kbSend st T c a s).1 = true) :
    (kbSend st T c a s).2.core = { s.core with sent := s.core.sent ++ [c, a] } := by
  obtain ⟨_, h2, e1⟩ := andThen_true h
  obtain ⟨_, h3, e2⟩ := andThen_true h2
  obtain ⟨_, h4, e3⟩ := andThen_true h3
  obtain ⟨_, _, e4⟩ := andThen_true h4
  unfold kbSend
  rw [e1, e2, e3, e4, fullWait_core]
  unfold outData
  dsimp only
  rw [fullWait_core]
  dsimp only
  rw [fullWait_core]
  simp

private theorem kbCommand_true {c a : BitVec 8} {s : St} (h : (kbCommand st T c a s).1 = true) :
    (kbCommand st T c a s).2.core =
      { s.core with masked := false, p1 := s.core.sw1, p2 := s.core.sw2,
                    sent := s.core.sent ++ [c, a] } := by
  unfold kbCommand at h ⊢
  dsimp only at h ⊢
  by_cases hd : (disablePorts st T s).1 = true
  · rw [if_pos hd] at h ⊢
    dsimp only at h ⊢
    rw [Bool.and_eq_true] at h
    rw [enable_true h.2, kbSend_true h.1, disable_true hd]
    simp
  · rw [if_neg hd] at h; exact absurd h (by simp)

private theorem fullWait_busy (k : Nat) : ∀ s : St,
    (∀ i, s.t ≤ i → i < s.t + k → st.outFull i = true ∨ st.inFull i = true) →
    fullWait st k s = (false, { s with t := s.t + k }) := by
  induction k with
  | zero => intro s _; rfl
  | succ k ih =>
    intro s h
    unfold fullWait
    have h0 : (st.outFull s.t || st.inFull s.t) = true := by
      have := h s.t (Nat.le_refl _) (by omega)
      simpa using this
    rw [if_pos h0, ih _ (fun i h1 h2 => h i (by dsimp only at h1; omega) (by dsimp only at h2; omega))]
    simp only [Nat.add_assoc, Nat.add_comm 1 k]

/-- From look `B` on the controller is idle, and busy before. -/
private theorem fullWait_ends {B : Nat} (k : Nat) : ∀ s : St,
    (∀ i, s.t ≤ i → i < B → st.outFull i = true ∨ st.inFull i = true) →
    (∀ i, B ≤ i → st.outFull i = false ∧ st.inFull i = false) → B ≤ s.t + k →
    (fullWait st (k + 1) s).1 = true ∧ B ≤ (fullWait st (k + 1) s).2.t := by
  induction k with
  | zero =>
    intro s h1 h2 h3
    have a := h2 s.t h3
    unfold fullWait
    rw [if_neg (by simp [a.1, a.2])]
    exact ⟨rfl, by dsimp only; omega⟩
  | succ k ih =>
    intro s h1 h2 h3
    unfold fullWait
    by_cases hb : B ≤ s.t
    · have a := h2 s.t hb
      rw [if_neg (by simp [a.1, a.2])]
      exact ⟨rfl, by dsimp only; omega⟩
    · have a := h1 s.t (Nat.le_refl _) (by omega)
      rw [if_pos (by simpa using a)]
      exact ih _ (fun i p q => h1 i (by dsimp only at p; omega) q) h2 (by dsimp only; omega)

variable {B : Nat} (idle : ∀ i, B ≤ i → st.outFull i = false ∧ st.inFull i = false)
include idle

private theorem fullWait_idle {s : St} (h : B ≤ s.t) :
    (fullWait st (T + 1) s).1 = true ∧ B ≤ (fullWait st (T + 1) s).2.t :=
  fullWait_ends T s (fun i p q => absurd q (by omega)) idle (by omega)

private theorem waitCmd_idle {s : St} (h : B ≤ s.t) :
    (waitCmd st T s).1 = true ∧ B ≤ (waitCmd st T s).2.t := by
  have a := (idle s.t h).2
  cases T with
  | zero => exact ⟨by simp [waitCmd, a], by simp only [waitCmd]; omega⟩
  | succ k => unfold waitCmd; rw [if_neg (by simp [a])]; exact ⟨rfl, by dsimp only; omega⟩

omit idle in
private theorem waitData_mono (k : Nat) : ∀ s : St, s.t ≤ (waitData st k s).2.t := by
  induction k with
  | zero => intro s; simp only [waitData]; omega
  | succ k ih =>
    intro s; unfold waitData
    split
    · dsimp only; omega
    · exact Nat.le_trans (by dsimp only; omega) (ih _)

private theorem sendCmd_idle {b : BitVec 8} {s : St} (h : B ≤ s.t) :
    (sendCmd st T b s).1 = true ∧ B ≤ (sendCmd st T b s).2.t := by
  obtain ⟨a1, a2⟩ := waitCmd_idle (T := T) idle h
  unfold sendCmd
  rw [andThen_of a1, andThen_of rfl]
  exact waitCmd_idle idle a2

private theorem sendWait_idle {b : BitVec 8} {s : St} (h : B ≤ s.t) :
    B ≤ (sendWait st T b s).2.t := by
  obtain ⟨a1, a2⟩ := sendCmd_idle (T := T) (b := b) idle h
  unfold sendWait
  rw [andThen_of a1]
  exact Nat.le_trans a2 (waitData_mono T _)

private theorem sendWait_core {b : BitVec 8} {s : St} (h : B ≤ s.t) :
    (sendWait st T b s).2.core = s.core.cmd b := by
  obtain ⟨a1, _⟩ := sendCmd_idle (T := T) (b := b) idle h
  unfold sendWait
  rw [andThen_of a1, waitData_core, sendCmd_true a1]

/-- The rest of i8042_disable_ports once the first wait has ended. -/
private theorem disable_idle {s : St}
    (h : (fullWait st (T + 1) (setMask true s).2).1 = true)
    (h' : B ≤ (fullWait st (T + 1) (setMask true s).2).2.t) :
    (disablePorts st T s).1 = true ∧ B ≤ (disablePorts st T s).2.t := by
  unfold disablePorts
  rw [andThen_of rfl, andThen_of h]
  obtain ⟨a1, a2⟩ := sendCmd_idle (T := T) (b := 0xAD) idle h'
  rw [andThen_of a1]
  obtain ⟨b1, b2⟩ := sendCmd_idle (T := T) (b := 0xA7) idle a2
  rw [andThen_of b1]
  exact fullWait_idle idle b2

private theorem enable_idle {s : St} (h : (fullWait st (T + 1) s).1 = true)
    (h' : B ≤ (fullWait st (T + 1) s).2.t) : (enablePorts st T s).1 = true := by
  unfold enablePorts
  rw [andThen_of h]
  have a : ∀ s : St, B ≤ s.t → (enable1 st T s).1 = true ∧ B ≤ (enable1 st T s).2.t := by
    intro s hs; unfold enable1; split
    · exact sendCmd_idle idle hs
    · exact ⟨rfl, hs⟩
  have b : ∀ s : St, B ≤ s.t → (enable2 st T s).1 = true ∧ B ≤ (enable2 st T s).2.t := by
    intro s hs; unfold enable2; split
    · exact sendCmd_idle idle hs
    · exact ⟨rfl, hs⟩
  obtain ⟨a1, a2⟩ := a _ h'
  rw [andThen_of a1]
  obtain ⟨b1, b2⟩ := b _ a2
  rw [andThen_of b1, andThen_of (fullWait_idle idle b2).1]
  rfl

private theorem kbSend_idle {c a : BitVec 8} {s : St} (h : B ≤ s.t) :
    (kbSend st T c a s).1 = true ∧ B ≤ (kbSend st T c a s).2.t := by
  unfold kbSend
  obtain ⟨a1, a2⟩ := fullWait_idle (T := T) idle h
  rw [andThen_of a1, andThen_of rfl]
  obtain ⟨b1, b2⟩ := fullWait_idle (T := T) (s := (outData c (fullWait st (T + 1) s).2).2) idle a2
  rw [andThen_of b1, andThen_of rfl]
  exact fullWait_idle idle b2
end

private theorem disable_busy {st : Status} {T N : Nat} {s : St} (h : BusyFor st s.t N) (hN : T < N) :
    disablePorts st T s = (false, ⟨{ s.core with masked := true }, s.t + (T + 1)⟩) := by
  have hw := fullWait_busy (st := st) (T + 1) (setMask true s).2
    (fun i p q => h.1 i p (by
      have q' : i < s.t + (T + 1) := q
      omega))
  have h1 : (fullWait st (T + 1) (setMask true s).2).1 ≠ true := by rw [hw]; simp
  unfold disablePorts
  rw [andThen_of rfl]
  conv => lhs; unfold andThen
  rw [if_neg h1, hw]
  rfl

private theorem disable_short {st : Status} {T N : Nat} {s : St} (h : BusyFor st s.t N) (hN : N ≤ T) :
    (disablePorts st T s).1 = true ∧ s.t + N ≤ (disablePorts st T s).2.t := by
  have hw := fullWait_ends (st := st) (B := s.t + N) T (setMask true s).2 h.1 h.2 (by
    show s.t + N ≤ s.t + T
    omega)
  exact disable_idle h.2 hw.1 hw.2

/-- C194, for calls that succeed: whatever the controller shows, if setting the lights is reported
to have succeeded, then the keyboard works and got the command and the three bits of the argument.
Missing: calls that fail, see `busy_violated`. -/
theorem led_partial (st : Status) (T : Nat) (v : BitVec 8) (s : St)
    (h : (ledSet st T v s).1 = true) :
    Works (ledSet st T v s).2 ∧
      (ledSet st T v s).2.core.sent = s.core.sent ++ [0xED, v &&& 0b111] := by
  have e := kbCommand_true h
  unfold Works ledSet
  rw [e]
  exact ⟨⟨rfl, rfl, rfl⟩, rfl⟩

/-- C194, for calls that succeed: the same for the repeat rate. -/
theorem typematic_partial (st : Status) (T : Nat) (v : BitVec 8) (s : St)
    (h : (typematic st T v s).1 = true) :
    Works (typematic st T v s).2 ∧
      (typematic st T v s).2.core.sent = s.core.sent ++ [0xF3, v &&& 0b11111] := by
  have e := kbCommand_true h
  unfold Works typematic
  rw [e]
  exact ⟨⟨rfl, rfl, rfl⟩, rfl⟩

/-- C194, for a controller that is busy for at most as many looks as a wait takes: setting the
lights succeeds. -/
theorem short_busy (st : Status) (T N : Nat) (v : BitVec 8) (s : St) (h : BusyFor st s.t N)
    (hN : N ≤ T) : (ledSet st T v s).1 = true ∧ (typematic st T v s).1 = true := by
  obtain ⟨d1, d2⟩ := disable_short h hN
  have key : ∀ c a, (kbCommand st T c a s).1 = true := by
    intro c a
    unfold kbCommand
    dsimp only
    rw [if_pos d1]
    dsimp only
    obtain ⟨k1, k2⟩ := kbSend_idle (T := T) (c := c) (a := a) h.2 d2
    obtain ⟨f1, f2⟩ := fullWait_idle (T := T) h.2 k2
    rw [k1, enable_idle h.2 f1 f2]
    rfl
  exact ⟨key _ _, key _ _⟩

/-- C194 is violated: if the controller is busy for one look more, then setting the lights or the
repeat rate fails and leaves the keyboard's interrupt off, although the controller is idle ever
after and its ports were never turned off. -/
theorem busy_violated (st : Status) (T N : Nat) (v : BitVec 8) (s : St) (h : BusyFor st s.t N)
    (hN : T < N) :
    (ledSet st T v s).1 = false ∧ (ledSet st T v s).2.core = { s.core with masked := true } ∧
    (typematic st T v s).1 = false ∧
    (typematic st T v s).2.core = { s.core with masked := true } ∧
    ¬ Works (ledSet st T v s).2 ∧ ¬ Works (typematic st T v s).2 := by
  have key : ∀ c a, kbCommand st T c a s = (false, ⟨{ s.core with masked := true }, s.t + (T + 1)⟩) := by
    intro c a
    unfold kbCommand
    dsimp only
    rw [disable_busy h hN]
    rfl
  unfold ledSet typematic Works
  rw [key, key]
  simp

/-- C194 for reading the registers: in the same situation, and up to twice as long, the keyboard
works afterwards, as the ports are turned on again also after a failure. -/
theorem regs_recover (st : Status) (T N : Nat) (ctr cto : Bool) (s : St) (hw0 : Works s)
    (h : BusyFor st s.t N) (hN : N ≤ 2 * T + 1) : Works (readRegs st T ctr cto s).2 := by
  unfold readRegs
  dsimp only
  suffices H : ∀ q : St, (q.core.sw1 || q.core.p1) = q.core.sw1 →
      (q.core.sw2 || q.core.p2) = q.core.sw2 →
      (fullWait st (T + 1) q).1 = true → s.t + N ≤ (fullWait st (T + 1) q).2.t →
      Works (enablePorts st T q).2 by
    by_cases hs : N ≤ T
    · obtain ⟨d1, d2⟩ := disable_short h hs
      have dc := disable_true d1
      have step : ∀ (b : Bool) (r : Bool × St) (x : BitVec 8), (∀ c : Core, c.cmd x = c) →
          s.t + N ≤ r.2.t →
          s.t + N ≤ (if (b && r.1) = true then sendWait st T x r.2 else r).2.t ∧
          (if (b && r.1) = true then sendWait st T x r.2 else r).2.core = r.2.core := by
        intro b r x hx hr
        split
        · exact ⟨sendWait_idle h.2 hr, by rw [sendWait_core h.2 hr, hx]⟩
        · exact ⟨hr, rfl⟩
      obtain ⟨hr, er⟩ := step ctr (disablePorts st T s) 0x20 (fun _ => rfl) d2
      obtain ⟨hq, eq⟩ := step cto _ 0xD0 (fun _ => rfl) hr
      obtain ⟨f1, f2⟩ := fullWait_idle (T := T) h.2 hq
      exact H _ (by rw [eq, er, dc]; simp) (by rw [eq, er, dc]; simp) f1 f2
    · rw [disable_busy h (by omega)]
      simp only [Bool.and_false, Bool.false_eq_true, if_false]
      have hw := fullWait_ends (st := st) (B := s.t + N) T
        ⟨{ s.core with masked := true }, s.t + (T + 1)⟩
        (fun i p q => h.1 i (by
          have p' : s.t + (T + 1) ≤ i := p
          omega) q) h.2 (by
          show s.t + N ≤ s.t + (T + 1) + T
          omega)
      exact H _ (by simp [hw0.2.1]) (by simp [hw0.2.2]) hw.1 hw.2
  intro q g1 g2 f1 f2
  unfold Works
  rw [enable_true (enable_idle h.2 f1 f2)]
  exact ⟨rfl, g1, g2⟩

/-- C194 for reading the registers: if it is reported to have succeeded, the keyboard works. -/
theorem regs_partial (st : Status) (T : Nat) (ctr cto : Bool) (s : St)
    (h : (readRegs st T ctr cto s).1 = true) : Works (readRegs st T ctr cto s).2 := by
  unfold readRegs at h ⊢
  dsimp only at h ⊢
  rw [Bool.and_eq_true] at h
  obtain ⟨hq, he⟩ := h
  have hc : ∀ (b : Bool) (r : Bool × St) (x : BitVec 8), (∀ c : Core, c.cmd x = c) →
      (if (b && r.1) = true then sendWait st T x r.2 else r).1 = true →
      r.1 = true ∧ (if (b && r.1) = true then sendWait st T x r.2 else r).2.core = r.2.core := by
    intro b r x hx h
    by_cases hb : (b && r.1) = true
    · rw [if_pos hb] at h ⊢
      rw [Bool.and_eq_true] at hb
      exact ⟨hb.2, by rw [sendWait_true h, hx]⟩
    · rw [if_neg hb] at h ⊢
      exact ⟨h, rfl⟩
  obtain ⟨hr, eq1⟩ := hc _ _ _ (fun c => rfl) hq
  obtain ⟨hd, eq2⟩ := hc _ _ _ (fun c => rfl) hr
  unfold Works
  rw [enable_true he, eq1, eq2, disable_true hd]
  simp

/-! ### The hypotheses are met -/

private def busy (n : Nat) : Status := ⟨fun _ => false, fun i => decide (i < n)⟩

private theorem busy_for (n : Nat) : BusyFor (busy n) 0 n :=
  ⟨fun i _ h => Or.inr (by simp only [busy]; exact decide_eq_true (by omega)),
   fun i h => ⟨rfl, by simp only [busy]; exact decide_eq_false (by omega)⟩⟩

private def s0 : St := ⟨⟨false, true, false, true, false, []⟩, 0⟩

example : Works s0 := ⟨rfl, rfl, rfl⟩
example : (ledSet (busy 3) 10000 0b1100 s0).1 = true :=
  (short_busy (busy 3) 10000 3 0b1100 s0 (busy_for 3) (by decide)).1
example : ¬ Works (ledSet (busy 10001) 10000 0b100 s0).2 :=
  (busy_violated (busy 10001) 10000 10001 0b100 s0 (busy_for 10001) (by decide)).2.2.2.2.1
example : Works (readRegs (busy 10001) 10000 true true s0).2 :=
  regs_recover (busy 10001) 10000 10001 true true s0 ⟨rfl, rfl, rfl⟩ (busy_for 10001) (by decide)
/-- A controller that answers: the output is full at the fifth and at the eighth look after the
ports are off. -/
private def answers : Status := ⟨fun i => i == 8 || i == 11, fun _ => false⟩
example : (readRegs answers 5 true true s0).1 = true := by decide

end Verif.Kbc
