/-!
# Signals (`kernel/signal.c`)

`w` is the number of bits of `ulong` (32 on i386, 64 on x86_64 and riscv64).  Signal sets are arrays of
`64 / w` words.  Undefined behaviour (shift of a 32-bit int by 32 or more) is the outcome `none`.
-/

namespace Verif.Signal

/-- `K_SIGACTION_MASK_WORDS` (include/tilck/kernel/signal.h:35); `_NSIG` is 64. -/
def nWords (w : Nat) : Nat := 64 / w

abbrev SigSet (w : Nat) := List (BitVec w)

/-- `(1 << index)` converted to `ulong`: a 32-bit signed shift, then sign extension. -/
def shlInt (w idx : Nat) : Option (BitVec w) :=
  if idx < 32 then some ((1#32 <<< idx).signExtend w) else none

/-- `~(1u << index)` converted to `ulong`: 32-bit unsigned, then zero extension. -/
def notShlUint (w idx : Nat) : Option (BitVec w) :=
  if idx < 32 then some ((~~~ (1#32 <<< idx)).setWidth w) else none

/-- signal.c:21-35 `__add_sig` (`signum ≥ 1`). -/
def addSig {w : Nat} (s : SigSet w) (signum : Nat) : Option (SigSet w) :=
  let n := signum - 1
  if nWords w ≤ n / w then some s
  else match shlInt w (n % w) with
    | none => none
    | some b => some (s.modify (n / w) (· ||| b))

/-- signal.c:45-59 `__del_sig`. -/
def delSig {w : Nat} (s : SigSet w) (signum : Nat) : Option (SigSet w) :=
  let n := signum - 1
  if nWords w ≤ n / w then some s
  else match notShlUint w (n % w) with
    | none => none
    | some b => some (s.modify (n / w) (· &&& b))

/-- signal.c:67-81 `__is_sig_set`. -/
def isSigSet {w : Nat} (s : SigSet w) (signum : Nat) : Option Bool :=
  let n := signum - 1
  if nWords w ≤ n / w then some false
  else match shlInt w (n % w) with
    | none => none
    | some b => some (decide ((s[n / w]?.getD 0) &&& b ≠ 0))

/-- include/tilck/common/utils.h:141-152 `get_first_set_bit_index_l`. -/
def firstBit {w : Nat} (v : BitVec w) (i : Nat) : Nat → Nat
  | 0 => i
  | fuel + 1 => if v.getLsbD i then i else firstBit v (i + 1) fuel

/-- signal.c:93-110 `get_first_pending_sig`; inner `none`: -1. -/
def firstPendingFrom {w : Nat} (mask : SigSet w) : List (BitVec w) → Nat → Option (Option Nat)
  | [], _ => some none
  | v :: vs, i =>
    if v ≠ 0 then
      match isSigSet mask (i * w + firstBit v 0 w + 1) with
      | none => none
      | some false => some (some (i * w + firstBit v 0 w + 1))
      | some true => firstPendingFrom mask vs (i + 1)
    else firstPendingFrom mask vs (i + 1)

def firstPending {w : Nat} (pending mask : SigSet w) : Option (Option Nat) := firstPendingFrom mask pending 0

/-! ## Specification of signal sets -/

/-- Signal `sig` (1..64) is a member of the set: bit `sig - 1` of the array of words. -/
def has {w : Nat} (s : SigSet w) (sig : Nat) : Bool := (s[(sig - 1) / w]?.getD 0).getLsbD ((sig - 1) % w)

def IsSig (sig : Nat) : Prop := 1 ≤ sig ∧ sig ≤ 64

/-! ## Proofs about signal sets -/

theorem bit_shl (idx j : Nat) (h : idx < 32) (hj : j < 32) : (1#32 <<< idx).getLsbD j = decide (j = idx) := by
  rw [← BitVec.twoPow_eq, BitVec.getLsbD_twoPow]
  simp [h]
  constructor <;> exact Eq.symm

theorem msb_shl (idx : Nat) (h : idx < 32) : (1#32 <<< idx).msb = decide (idx = 31) := by
  rw [BitVec.msb_eq_getLsbD_last, bit_shl _ _ h (by omega)]
  simp
  constructor <;> (intro h; omega)

theorem bit_shlInt {w idx j : Nat} (h : idx < 32) (hj : j < w) {b} (hb : shlInt w idx = some b) :
    b.getLsbD j = if j < 32 then decide (j = idx) else decide (idx = 31) := by
  unfold shlInt at hb
  rw [if_pos h] at hb
  injection hb with hb; subst hb
  rw [BitVec.getLsbD_signExtend]
  by_cases h32 : j < 32
  · simp only [hj, h32, decide_true, Bool.true_and, if_true]; exact bit_shl _ _ h h32
  · simp only [hj, h32, decide_true, Bool.true_and, if_false]; exact msb_shl _ h

theorem bit_notShlUint {w idx j : Nat} (h : idx < 32) (hj : j < w) {b} (hb : notShlUint w idx = some b) :
    b.getLsbD j = if j < 32 then decide (j ≠ idx) else false := by
  unfold notShlUint at hb
  rw [if_pos h] at hb
  injection hb with hb; subst hb
  rw [BitVec.getLsbD_setWidth, BitVec.getLsbD_not]
  by_cases h32 : j < 32
  · rw [bit_shl _ _ h h32]; simp [hj, h32]
  · simp [h32]

theorem has_modify {w : Nat} (s : SigSet w) (slot : Nat) (f : BitVec w → BitVec w) (sig : Nat)
    (hl : slot < s.length) :
    has (s.modify slot f) sig =
      if slot = (sig - 1) / w then (f (s[slot]?.getD 0)).getLsbD ((sig - 1) % w) else has s sig := by
  unfold has
  rw [List.getElem?_modify]
  split
  · rename_i e
    rw [← e, List.getElem?_eq_getElem hl]; simp
  · cases s[(sig - 1) / w]? <;> simp

theorem divmod {w a b : Nat} (h1 : a / w = b / w) (h2 : a % w = b % w) : a = b := by
  rw [← Nat.div_add_mod a w, ← Nat.div_add_mod b w, h1, h2]

/-- C23, adding: on 32-bit machines every signal, on 64-bit machines the signals 1..31. -/
theorem add_sig_exact_partial {w : Nat} {s : SigSet w} {sig : Nat} (hl : s.length = nWords w) (hs : IsSig sig)
    (hw : w = 32 ∨ (w = 64 ∧ sig ≤ 31)) :
    ∃ s', addSig s sig = some s' ∧ s'.length = nWords w ∧
      ∀ x, IsSig x → has s' x = (has s x || decide (x = sig)) := by
  have hlt : (sig - 1) % w < 32 := by rcases hw with rfl | ⟨rfl, h⟩ <;> unfold IsSig at hs <;> omega
  have hslot : ¬ nWords w ≤ (sig - 1) / w := by
    rcases hw with rfl | ⟨rfl, h⟩ <;> unfold IsSig at hs <;> simp [nWords] <;> omega
  obtain ⟨b, hb⟩ : ∃ b, shlInt w ((sig - 1) % w) = some b := by unfold shlInt; rw [if_pos hlt]; exact ⟨_, rfl⟩
  refine ⟨s.modify ((sig - 1) / w) (· ||| b), ?_, by simp [hl], ?_⟩
  · unfold addSig; simp only [if_neg hslot, hb]
  · intro x hx
    rw [has_modify _ _ _ _ (by omega)]
    have hj : (x - 1) % w < w := Nat.mod_lt _ (by rcases hw with rfl | ⟨rfl, _⟩ <;> decide)
    split
    · rename_i e
      rw [BitVec.getLsbD_or, bit_shlInt hlt hj hb]
      have e1 : (s[(sig - 1) / w]?.getD 0).getLsbD ((x - 1) % w) = has s x := by unfold has; rw [e]
      rw [e1]
      congr 1
      split
      · rename_i h32
        by_cases hxs : x = sig
        · subst hxs; simp
        · have : ¬ (x - 1) % w = (sig - 1) % w := by
            intro h; have := divmod e.symm h; unfold IsSig at *; omega
          simp [this, hxs]
      · rename_i h32
        rcases hw with rfl | ⟨rfl, h⟩
        · omega
        · have a1 : ¬ (sig - 1) % 64 = 31 := by unfold IsSig at *; omega
          have a2 : ¬ x = sig := by unfold IsSig at *; omega
          simp [a1, a2]
    · rename_i e
      have : ¬ x = sig := by intro h; subst h; exact e rfl
      simp [this]

/-- C23, removing: on 32-bit machines exactly that signal; on 64-bit machines correct for the signals 1..32
only (see `del_sig_violated`). -/
theorem del_sig_exact_partial {w : Nat} {s : SigSet w} {sig : Nat} (hl : s.length = nWords w) (hs : IsSig sig)
    (hw : w = 32 ∨ (w = 64 ∧ sig ≤ 32)) :
    ∃ s', delSig s sig = some s' ∧ s'.length = nWords w ∧
      ∀ x, IsSig x → (w = 64 → x ≤ 32) → has s' x = (has s x && decide (x ≠ sig)) := by
  have hlt : (sig - 1) % w < 32 := by rcases hw with rfl | ⟨rfl, h⟩ <;> unfold IsSig at hs <;> omega
  have hslot : ¬ nWords w ≤ (sig - 1) / w := by
    rcases hw with rfl | ⟨rfl, h⟩ <;> unfold IsSig at hs <;> simp [nWords] <;> omega
  obtain ⟨b, hb⟩ : ∃ b, notShlUint w ((sig - 1) % w) = some b := by
    unfold notShlUint; rw [if_pos hlt]; exact ⟨_, rfl⟩
  refine ⟨s.modify ((sig - 1) / w) (· &&& b), ?_, by simp [hl], ?_⟩
  · unfold delSig; simp only [if_neg hslot, hb]
  · intro x hx hx2
    rw [has_modify _ _ _ _ (by omega)]
    have hj : (x - 1) % w < w := Nat.mod_lt _ (by rcases hw with rfl | ⟨rfl, _⟩ <;> decide)
    split
    · rename_i e
      rw [BitVec.getLsbD_and, bit_notShlUint hlt hj hb]
      have e1 : (s[(sig - 1) / w]?.getD 0).getLsbD ((x - 1) % w) = has s x := by unfold has; rw [e]
      rw [e1]
      congr 1
      split
      · rename_i h32
        by_cases hxs : x = sig
        · subst hxs; simp
        · have : ¬ (x - 1) % w = (sig - 1) % w := by
            intro h; have := divmod e.symm h; unfold IsSig at *; omega
          simp [this, hxs]
      · rename_i h32
        rcases hw with rfl | ⟨rfl, h⟩
        · omega
        · have := hx2 rfl; unfold IsSig at *; omega
    · rename_i e
      have : ¬ x = sig := by intro h; subst h; exact e rfl
      simp [this]

theorem del_sig_sub {w : Nat} {s s' : SigSet w} {sig : Nat} (h : delSig s sig = some s')
    (hl : s.length = nWords w) : s'.length = nWords w ∧ ∀ x, has s' x = true → has s x = true := by
  unfold delSig at h
  simp only at h
  split at h
  · injection h with h; subst h; exact ⟨hl, fun x hx => hx⟩
  · split at h
    · cases h
    · injection h with h; subst h
      refine ⟨by simp [hl], ?_⟩
      intro x hx
      rw [has_modify _ _ _ _ (by omega)] at hx
      split at hx
      · rename_i e
        rw [BitVec.getLsbD_and] at hx
        simp at hx
        unfold has; rw [← e]; exact hx.1
      · exact hx

theorem and_ne_zero {w : Nat} {a b : BitVec w} {i : Nat} (hi : i < w)
    (hb : ∀ j, j < w → b.getLsbD j = decide (j = i)) : decide (a &&& b ≠ 0) = a.getLsbD i := by
  have key : a &&& b ≠ 0 ↔ a.getLsbD i = true := by
    constructor
    · intro h
      apply Classical.byContradiction
      intro hn
      apply h
      apply BitVec.eq_of_getLsbD_eq
      intro j hj
      rw [BitVec.getLsbD_and, hb j hj]
      by_cases e : j = i
      · subst e; simp at hn; simp [hn]
      · simp [e]
    · intro h h0
      have : (a &&& b).getLsbD i = (0 : BitVec w).getLsbD i := by rw [h0]
      rw [BitVec.getLsbD_and, hb i hi, h] at this
      simp at this
  cases hc : a.getLsbD i with
  | true => exact decide_eq_true (key.2 hc)
  | false =>
    apply decide_eq_false
    intro hne
    have := key.1 hne
    rw [hc] at this; cases this

/-- C23, testing. -/
theorem is_sig_set_exact_partial {w : Nat} {s : SigSet w} {sig : Nat} (hs : IsSig sig)
    (hw : w = 32 ∨ (w = 64 ∧ sig ≤ 31)) : isSigSet s sig = some (has s sig) := by
  have hlt : (sig - 1) % w < 32 := by rcases hw with rfl | ⟨rfl, h⟩ <;> unfold IsSig at hs <;> omega
  have hslot : ¬ nWords w ≤ (sig - 1) / w := by
    rcases hw with rfl | ⟨rfl, h⟩ <;> unfold IsSig at hs <;> simp [nWords] <;> omega
  obtain ⟨b, hb⟩ : ∃ b, shlInt w ((sig - 1) % w) = some b := by unfold shlInt; rw [if_pos hlt]; exact ⟨_, rfl⟩
  have hj : (sig - 1) % w < w := Nat.mod_lt _ (by rcases hw with rfl | ⟨rfl, _⟩ <;> decide)
  unfold isSigSet
  simp only [if_neg hslot, hb]
  rw [and_ne_zero hj]
  · rfl
  · intro j hjw
    rw [bit_shlInt hlt hjw hb]
    split
    · rfl
    · rename_i h32
      rcases hw with rfl | ⟨rfl, h⟩
      · omega
      · have a1 : ¬ (sig - 1) % 64 = 31 := by unfold IsSig at *; omega
        have a2 : ¬ j = (sig - 1) % 64 := by unfold IsSig at *; omega
        simp [a1, a2]

/-- C23 fails on 64-bit machines: removing signal 9 from a set also removes signal 40. -/
theorem del_sig_violated : ∃ s s' : SigSet 64, delSig s 9 = some s' ∧ has s 40 = true ∧ has s' 40 = false :=
  ⟨[0x8000000000#64], [0#64], by decide, by decide, by decide⟩

/-- C23 fails on 64-bit machines: adding signal 32 to the empty set also adds signal 33; and adding a signal
above 32 is undefined behaviour. -/
theorem add_sig_violated :
    (∃ s' : SigSet 64, addSig [0#64] 32 = some s' ∧ has s' 33 = true) ∧ addSig [0#64] 33 = none :=
  ⟨⟨[0xffffffff80000000#64], by decide, by decide⟩, by decide⟩

/-! ## C22: which signal is delivered -/

theorem firstBit_spec {w : Nat} (v : BitVec w) : ∀ fuel i, i + fuel = w → (∀ j, j < i → v.getLsbD j = false) →
    v ≠ 0 → firstBit v i fuel < w ∧ v.getLsbD (firstBit v i fuel) = true ∧
      ∀ j, j < firstBit v i fuel → v.getLsbD j = false := by
  intro fuel
  induction fuel with
  | zero =>
    intro i h hl hv
    exfalso; apply hv
    apply BitVec.eq_of_getLsbD_eq
    intro j hj
    rw [hl j (by omega)]; simp
  | succ fuel ih =>
    intro i h hl hv
    unfold firstBit
    split
    · rename_i hb; exact ⟨by omega, hb, hl⟩
    · rename_i hb
      apply ih (i + 1) (by omega) _ hv
      intro j hj
      by_cases e : j = i
      · subst e; simpa using hb
      · exact hl j (by omega)

theorem has_split {w : Nat} (pre : List (BitVec w)) (v : BitVec w) (vs : List (BitVec w)) (b : Nat) (hb : b < w) :
    has (pre ++ v :: vs) (pre.length * w + b + 1) = v.getLsbD b := by
  unfold has
  have e1 : (pre.length * w + b + 1 - 1) / w = pre.length := by
    rw [show pre.length * w + b + 1 - 1 = b + w * pre.length by rw [Nat.mul_comm]; omega,
      Nat.add_mul_div_left _ _ (by omega), Nat.div_eq_of_lt hb]; omega
  have e2 : (pre.length * w + b + 1 - 1) % w = b := by
    rw [show pre.length * w + b + 1 - 1 = b + w * pre.length by rw [Nat.mul_comm]; omega,
      Nat.add_mul_mod_self_left, Nat.mod_eq_of_lt hb]
  rw [e1, e2, List.getElem?_append_right (Nat.le_refl _)]
  simp

/-- All pending signals are among those the word operations support (see C23). -/
def Supported {w : Nat} (p : SigSet w) : Prop := ∀ x, IsSig x → has p x = true → w = 32 ∨ (w = 64 ∧ x ≤ 31)

theorem firstPendingFrom_spec {w : Nat} (mask : SigSet w) (hw : w = 32 ∨ w = 64) :
    ∀ (vs pre : List (BitVec w)), (pre ++ vs).length = nWords w → Supported (pre ++ vs) →
    (∃ r, firstPendingFrom mask vs pre.length = some r) ∧
    (∀ r, firstPendingFrom mask vs pre.length = some (some r) →
      IsSig r ∧ has (pre ++ vs) r = true ∧ has mask r = false) ∧
    (firstPendingFrom mask vs pre.length = some none →
      ∀ x, IsSig x → pre.length * w < x → has (pre ++ vs) x = true →
        ∃ y, IsSig y ∧ y ≤ x ∧ has (pre ++ vs) y = true ∧ has mask y = true) := by
  have hw0 : 0 < w := by omega
  intro vs
  induction vs with
  | nil =>
    intro pre hl _
    refine ⟨⟨_, rfl⟩, (fun r h => by cases h), ?_⟩
    intro _ x hx hlt hh
    exfalso
    unfold has at hh
    rw [List.append_nil] at hh hl
    have : pre.length ≤ (x - 1) / w := by
      rw [Nat.le_div_iff_mul_le hw0]; omega
    rw [List.getElem?_eq_none this] at hh
    simp at hh
  | cons v vs ih =>
    intro pre hl hsup
    have ih' := ih (pre ++ [v]) (by simpa using hl) (by simpa using hsup)
    rw [show (pre ++ [v]).length = pre.length + 1 by simp, show pre ++ [v] ++ vs = pre ++ v :: vs by simp] at ih'
    obtain ⟨i1, i2, i3⟩ := ih'
    -- members of word `pre.length`
    have inword : ∀ x, IsSig x → pre.length * w < x → ¬ (pre.length + 1) * w < x →
        ∃ b, b < w ∧ x = pre.length * w + b + 1 := by
      intro x hx h1 h2
      rw [Nat.add_mul] at h2
      exact ⟨x - pre.length * w - 1, by omega, by omega⟩
    unfold firstPendingFrom
    by_cases hv : v ≠ 0
    · rw [if_pos hv]
      obtain ⟨f1, f2, f3⟩ := firstBit_spec v w 0 (by omega) (by omega) hv
      have hlen : pre.length + 1 ≤ nWords w := by simp at hl; omega
      have hsig : IsSig (pre.length * w + firstBit v 0 w + 1) := by
        refine ⟨by omega, ?_⟩
        have : (pre.length + 1) * w ≤ nWords w * w := Nat.mul_le_mul_right _ hlen
        rw [Nat.add_mul] at this
        have : nWords w * w = 64 := by rcases hw with rfl | rfl <;> rfl
        omega
      have hhas : has (pre ++ v :: vs) (pre.length * w + firstBit v 0 w + 1) = true := by
        rw [has_split _ _ _ _ f1]; exact f2
      rw [is_sig_set_exact_partial hsig (hsup _ hsig hhas)]
      cases hm : has mask (pre.length * w + firstBit v 0 w + 1) with
      | false =>
        refine ⟨⟨_, rfl⟩, ?_, (fun h => by cases h)⟩
        intro r hr
        simp at hr; subst hr
        exact ⟨hsig, hhas, hm⟩
      | true =>
        refine ⟨i1, i2, ?_⟩
        intro h x hx hlt hh
        by_cases hnext : (pre.length + 1) * w < x
        · exact i3 h x hx hnext hh
        · obtain ⟨b, hb, rfl⟩ := inword x hx hlt hnext
          rw [has_split _ _ _ _ hb] at hh
          refine ⟨_, hsig, ?_, hhas, hm⟩
          have : ¬ b < firstBit v 0 w := by intro hlt; rw [f3 b hlt] at hh; cases hh
          omega
    · rw [if_neg hv]
      refine ⟨i1, i2, ?_⟩
      intro h x hx hlt hh
      by_cases hnext : (pre.length + 1) * w < x
      · exact i3 h x hx hnext hh
      · obtain ⟨b, hb, rfl⟩ := inword x hx hlt hnext
        rw [has_split _ _ _ _ hb] at hh
        have hv : v = 0 := by simpa using hv
        rw [hv] at hh; simp at hh

/-- C22: the signal picked for delivery is pending and not blocked; and if none is picked although an
unblocked signal `x` is pending, then a blocked signal with a smaller number is pending as well (see
`deliverable_signal_violated`).  In particular: when no blocked signal is pending, a pending signal is
always picked.  (64-bit machines: for the signals 1..31.) -/
theorem pick_pending_partial {w : Nat} {pending mask : SigSet w} (hw : w = 32 ∨ w = 64)
    (hl : pending.length = nWords w) (hsup : Supported pending) :
    (∃ r, firstPending pending mask = some r) ∧
    (∀ r, firstPending pending mask = some (some r) → IsSig r ∧ has pending r = true ∧ has mask r = false) ∧
    (firstPending pending mask = some none →
      ∀ x, IsSig x → has pending x = true → has mask x = false →
        ∃ y, IsSig y ∧ y < x ∧ has pending y = true ∧ has mask y = true) := by
  have h := firstPendingFrom_spec mask hw pending [] (by simpa using hl) (by simpa using hsup)
  simp at h
  obtain ⟨h1, h2, h3⟩ := h
  refine ⟨h1, h2, ?_⟩
  intro h x hx hh hm
  obtain ⟨y, y1, y2, y3, y4⟩ := h3 h x hx (by unfold IsSig at hx; omega) hh
  refine ⟨y, y1, ?_, y3, y4⟩
  have : y ≠ x := by intro e; subst e; rw [hm] at y4; cases y4
  omega

/-- signal.c:561-566, the test made by `pending_signals` (outside of handlers). -/
def pendingSignals {w : Nat} (pending mask : SigSet w) : Bool :=
  (List.zipWith (fun p m => decide (p &&& ~~~ m ≠ 0)) pending mask).any id

/-- C22 fails: SIGUSR1 (10) is pending and not blocked, the kernel's own `pending_signals()` says so (system
calls return -EINTR), but no signal is picked because SIGHUP (1) is pending and blocked. -/
theorem deliverable_signal_violated :
    ∃ pending mask : SigSet 32, pending.length = nWords 32 ∧ has pending 10 = true ∧ has mask 10 = false ∧
      pendingSignals pending mask = true ∧ firstPending pending mask = some none :=
  ⟨[0x201#32, 0#32], [0x1#32, 0#32], by decide, by decide, by decide, by decide, by decide⟩

/-! ## Tasks and system calls -/

inductive Handler | dfl | ign | fn (addr : Nat)
deriving DecidableEq, Repr

/-- Task states; sleeping tasks are interruptible unless they wait on a mutex or a semaphore
(signal.c:298). -/
inductive TState | running | runnable | sleepIntr | sleepUnintr | stopped | zombie
deriving DecidableEq, Repr

/-- The signal-related fields of `struct task` and `struct process` (sched.h:200-216, process.h:88).
`handlers sig` is `sa_handlers[sig - 1]`. -/
structure Task (w : Nat) where
  tid : Nat
  mask : SigSet w
  oldMask : SigSet w
  pending : SigSet w
  fault : SigSet w
  handlers : Nat → Handler
  nested : Int
  inSuspend : Bool
  state : TState
  stopPending : Bool
  vforkStopped : Bool

def SIGKILL : Nat := 9
def SIGSTOP : Nat := 19

inductive Action | terminate | ignore | stop | cont
deriving DecidableEq, Repr

/-- signal.c:406-441 `signal_default_actions` and the default at 488-491; Linux signal numbers. -/
def defaultAction (sig : Nat) : Action :=
  if sig = 17 ∨ sig = 23 then .ignore
  else if sig = 18 then .cont
  else if sig = 19 ∨ sig = 20 ∨ sig = 21 ∨ sig = 22 then .stop
  else .terminate

/-- signal.c:265-311 `signal_wakeup_task`. -/
def wakeupTask {w : Nat} (t : Task w) : Task w :=
  if t.vforkStopped then t
  else { t with stopPending := false
                state := match t.state with
                  | .sleepIntr => .runnable
                  | .stopped => .runnable
                  | s => s }

/-- signal.c:37-43 `add_pending_sig`. -/
def addPending {w : Nat} (t : Task w) (sig : Nat) (fault : Bool) : Option (Task w) :=
  match addSig t.pending sig with
  | none => none
  | some p =>
    if fault then
      match addSig t.fault sig with
      | none => none
      | some f => some { t with pending := p, fault := f }
    else some { t with pending := p }

/-- signal.c:313-323 and 498-501. -/
def pend {w : Nat} (t : Task w) (sig : Nat) (fault : Bool) : Option (Task w) :=
  match addPending t sig fault with
  | none => none
  | some t1 =>
    match isSigSet t1.mask sig with
    | none => none
    | some m => some (if m then t1 else wakeupTask t1)

/-- signal.c:335-371 `action_stop` (the wait status is not modelled). -/
def actionStop {w : Nat} (t : Task w) : Task w :=
  match t.state with
  | .sleepIntr | .sleepUnintr => { t with stopPending := true }
  | .running | .runnable => { t with state := .stopped }
  | _ => t

/-- signal.c:373-404 `action_continue`. -/
def actionCont {w : Nat} (t : Task w) : Task w :=
  if t.vforkStopped then t
  else match t.state with
    | .stopped => { t with state := .runnable }
    | .sleepIntr | .sleepUnintr => { t with stopPending := false }
    | _ => t

/-- signal.c:528-532 (`send_signal2`) and 443-503 `do_send_signal`. -/
def sendSignal {w : Nat} (t : Task w) (sig : Nat) (fault : Bool) : Option (Task w) :=
  if sig = 0 then some t
  else if t.state = .zombie then some t
  else if 64 ≤ sig then some t
  else if t.nested < 0 then some t
  else
    let h := if t.tid = 1 ∧ t.handlers sig = .dfl then .ign else t.handlers sig
    match h with
    | .ign => some t
    | .dfl => match defaultAction sig with
      | .terminate => pend t sig fault
      | .ignore => some t
      | .stop => some (actionStop t)
      | .cont => some (actionCont t)
    | .fn _ => pend t sig fault

/-- What `process_signals` did. -/
inductive Outcome | nothing | killed (sig : Nat) | handler (sig : Nat) (h : Handler)
deriving DecidableEq, Repr

/-- exit.c:242-262: the task terminates. -/
def die {w : Nat} (t : Task w) : Task w :=
  { t with pending := List.replicate (nWords w) 0, fault := List.replicate (nWords w) 0, nested := -1, state := .zombie }

/-- signal.c:61-65 `del_pending_sig`. -/
def delPending {w : Nat} (t : Task w) (sig : Nat) : Option (Task w) :=
  match delSig t.pending sig, delSig t.fault sig with
  | some p, some f => some { t with pending := p, fault := f }
  | _, _ => none

/-- signal.c:195-263 `process_signals`; `inReturn`: called by `rt_sigreturn`.  Killing is immediate (for a
task that is not current it is postponed by a trampoline, signal.c:148-152).  `setup_sig_handler` is assumed
to succeed; it increments `nested_sig_handlers` (arch/i386/process32.c:62). -/
def processSignals {w : Nat} (t : Task w) (inReturn : Bool) : Option (Task w × Outcome) :=
  let t := { t with mask := List.zipWith (fun m f => m &&& ~~~ f) t.mask t.fault }
  match isSigSet t.pending SIGKILL with
  | none => none
  | some true => some (die t, .killed SIGKILL)
  | some false =>
    if t.nested > 0 ∧ inReturn = false then some (t, .nothing)
    else match firstPending t.pending t.mask with
      | none => none
      | some none => some (t, .nothing)
      | some (some sig) =>
        match t.handlers sig with
        | .dfl => some (die t, .killed sig)
        | h => match delPending t sig with
          | none => none
          | some t1 => some ({ t1 with nested := t1.nested + 1 }, .handler sig h)

inductive How | block | unblock | setmask
deriving DecidableEq, Repr

def applyHow {w : Nat} : How → BitVec w → BitVec w → BitVec w
  | .block, m, u => m ||| u
  | .unblock, m, u => m &&& ~~~ u
  | .setmask, _, u => u

/-- signal.c:782-812: the loop over the words; a user word that cannot be read (`none`) makes the call
return -EFAULT in the middle. -/
def procWords {w : Nat} (how : How) : List (BitVec w) → List (Option (BitVec w)) → List (BitVec w) × Bool
  | [], _ => ([], true)
  | m :: ms, some u :: us => (applyHow how m u :: (procWords how ms us).1, (procWords how ms us).2)
  | ms, _ => (ms, false)

/-- signal.c:780-819 `sys_rt_sigprocmask` with a non-NULL set and a valid `how`. -/
def sigprocmask {w : Nat} (t : Task w) (how : How) (user : List (Option (BitVec w))) : Option (Task w) :=
  let r := procWords how t.mask user
  if r.2 then
    match delSig r.1 SIGSTOP with
    | none => none
    | some m1 => match delSig m1 SIGKILL with
      | none => none
      | some m2 => some { t with mask := m2 }
  else some { t with mask := r.1 }

/-- signal.c:855-917 `sys_rt_sigsuspend` up to the sleep; `none`: the user mask cannot be read. -/
def sigsuspend {w : Nat} (t : Task w) (user : Option (SigSet w)) : Option (Task w) :=
  if t.nested > 0 then some t
  else match user with
    | none => some { t with oldMask := t.mask }
    | some u => match delSig u SIGKILL with
      | none => none
      | some m1 => match delSig m1 SIGSTOP with
        | none => none
        | some m2 => some { t with oldMask := t.mask, mask := m2, inSuspend := true }

/-- signal.c:954-1006 `sys_rt_sigreturn`. -/
def sigreturn {w : Nat} (t : Task w) : Option (Task w × Outcome) :=
  if t.nested > 0 then
    match processSignals t true with
    | none => none
    | some (t1, .nothing) =>
        some ({ (if t1.inSuspend then { t1 with mask := t1.oldMask, inSuspend := false } else t1) with
          nested := t1.nested - 1 }, .nothing)
    | some (t1, .killed s) => some (t1, .killed s)
    | some (t1, .handler s h) => some ({ t1 with nested := t1.nested - 1 }, .handler s h)
  else some (t, .nothing)

/-- signal.c:685-745 `sys_rt_sigaction` with a new action; `flagsOk`: none of the unsupported flags. -/
def sigaction {w : Nat} (t : Task w) (sig : Nat) (h : Handler) (flagsOk : Bool) : Task w :=
  if sig < 1 ∨ 64 ≤ sig then t
  else if sig = SIGKILL ∨ sig = SIGSTOP then t
  else if flagsOk then { t with handlers := fun x => if x = sig then h else t.handlers x }
  else t

/-- execve.c:150-152 and signal.c:124-136. -/
def exec {w : Nat} (t : Task w) : Task w :=
  { t with nested := 0, inSuspend := false
           handlers := fun x => match t.handlers x with | .fn _ => .dfl | h => h }

/-- The child of `fork` starts as a copy with no pending signals (process.c:264-272). -/
def forkChild {w : Nat} (t : Task w) (tid : Nat) : Task w :=
  { t with tid := tid, pending := List.replicate (nWords w) 0, fault := List.replicate (nWords w) 0 }

inductive Op (w : Nat)
  | sigaction (sig : Nat) (h : Handler) (flagsOk : Bool)
  | sigprocmask (how : How) (user : List (Option (BitVec w)))
  | sigsuspend (user : Option (SigSet w))
  | sigreturn
  | send (sig : Nat) (fault : Bool)
  | deliver
  | exec
  | fork (tid : Nat)
  /-- the scheduler and the rest of the kernel move the task between its states -/
  | sched (st : TState)

def step {w : Nat} (t : Task w) : Op w → Option (Task w)
  | .sigaction sig h f => some (sigaction t sig h f)
  | .sigprocmask how u => sigprocmask t how u
  | .sigsuspend u => sigsuspend t u
  | .sigreturn => (sigreturn t).map (·.1)
  | .send sig f => sendSignal t sig f
  | .deliver => (processSignals t false).map (·.1)
  | .exec => some (exec t)
  | .fork tid => some (forkChild t tid)
  | .sched st => some { t with state := st }

/-- The first process (process.c:723-742): everything zero. -/
def initTask (w : Nat) : Task w :=
  let z := List.replicate (nWords w) (0 : BitVec w)
  { tid := 1, mask := z, oldMask := z, pending := z, fault := z, handlers := fun _ => .dfl, nested := 0,
    inSuspend := false, state := .running, stopPending := false, vforkStopped := false }

/-- A user buffer with one entry per word; `split = false` excludes buffers that can be read only in part. -/
def OpOk {w : Nat} (split : Bool) : Op w → Prop
  | .sigprocmask _ u => u.length = nWords w ∧ (split = true ∨ u.head? = some none ∨ ∀ x ∈ u, x ≠ none)
  | .sigsuspend (some u) => u.length = nWords w
  | _ => True

/-- All histories of system calls, signals and deliveries of a process and its descendants. -/
inductive Hist (w : Nat) (split : Bool) : Task w → Prop
  | init : Hist w split (initTask w)
  | step {t op t'} : Hist w split t → OpOk split op → step t op = some t' → Hist w split t'

/-! ### Proofs -/

structure Good {w : Nat} (t : Task w) : Prop where
  lm : t.mask.length = nWords w
  lo : t.oldMask.length = nWords w
  lp : t.pending.length = nWords w
  lf : t.fault.length = nWords w
  m9 : has t.mask SIGKILL = false
  m19 : has t.mask SIGSTOP = false
  o9 : t.inSuspend = true → has t.oldMask SIGKILL = false
  o19 : t.inSuspend = true → has t.oldMask SIGSTOP = false
  h9 : t.handlers SIGKILL = .dfl
  h19 : t.handlers SIGSTOP = .dfl

theorem has_zipAnd {w : Nat} (m f : SigSet w) (h : m.length = f.length) (x : Nat) :
    has (List.zipWith (fun a b => a &&& ~~~ b) m f) x = true → has m x = true := by
  unfold has
  rw [List.getElem?_zipWith]
  by_cases hi : (x - 1) / w < m.length
  · rw [List.getElem?_eq_getElem hi, List.getElem?_eq_getElem (by omega)]
    simp
    intro h1 _; first | exact h1 | (intro _; exact h1)
  · rw [List.getElem?_eq_none (by omega)]; simp

theorem good_unmask {w : Nat} {t : Task w} (h : Good t) :
    Good { t with mask := List.zipWith (fun m f => m &&& ~~~ f) t.mask t.fault } := by
  have hl : t.mask.length = t.fault.length := by rw [h.lm, h.lf]
  refine ⟨by simp [h.lm, h.lf], h.lo, h.lp, h.lf, ?_, ?_, h.o9, h.o19, h.h9, h.h19⟩
  · cases hh : has (List.zipWith (fun m f => m &&& ~~~ f) t.mask t.fault) SIGKILL with
    | false => rfl
    | true => have := has_zipAnd _ _ hl _ hh; rw [h.m9] at this; cases this
  · cases hh : has (List.zipWith (fun m f => m &&& ~~~ f) t.mask t.fault) SIGSTOP with
    | false => rfl
    | true => have := has_zipAnd _ _ hl _ hh; rw [h.m19] at this; cases this

theorem good_die {w : Nat} {t : Task w} (h : Good t) : Good (die t) :=
  ⟨h.lm, h.lo, by simp [die], by simp [die], h.m9, h.m19, h.o9, h.o19, h.h9, h.h19⟩

theorem addSig_len {w : Nat} {s s' : SigSet w} {sig} (h : addSig s sig = some s') : s'.length = s.length := by
  unfold addSig at h
  simp only at h
  split at h
  · injection h with h; rw [h]
  · split at h
    · cases h
    · injection h with h; subst h; simp

theorem good_addPending {w : Nat} {t t' : Task w} {sig f} (h : Good t) (hs : addPending t sig f = some t') :
    Good t' := by
  unfold addPending at hs
  split at hs
  · cases hs
  · rename_i p hp
    have lp := addSig_len hp
    split at hs
    · split at hs
      · cases hs
      · rename_i q hq
        have lq := addSig_len hq
        injection hs with hs; subst hs
        exact ⟨h.lm, h.lo, by rw [← h.lp, ← lp], by rw [← h.lf, ← lq], h.m9, h.m19, h.o9, h.o19, h.h9, h.h19⟩
    · injection hs with hs; subst hs
      exact ⟨h.lm, h.lo, by rw [← h.lp, ← lp], h.lf, h.m9, h.m19, h.o9, h.o19, h.h9, h.h19⟩

theorem good_same {w : Nat} {t t' : Task w} (h : Good t) (e1 : t'.mask = t.mask) (e2 : t'.oldMask = t.oldMask)
    (e3 : t'.pending = t.pending) (e4 : t'.fault = t.fault) (e5 : t'.handlers = t.handlers)
    (e6 : t'.inSuspend = t.inSuspend) : Good t' :=
  ⟨e1 ▸ h.lm, e2 ▸ h.lo, e3 ▸ h.lp, e4 ▸ h.lf, e1 ▸ h.m9, e1 ▸ h.m19, by rw [e6, e2]; exact h.o9,
   by rw [e6, e2]; exact h.o19, e5 ▸ h.h9, e5 ▸ h.h19⟩

theorem good_wakeup {w : Nat} {t : Task w} (h : Good t) : Good (wakeupTask t) := by
  unfold wakeupTask; split
  · exact h
  · exact good_same h rfl rfl rfl rfl rfl rfl

theorem good_pend {w : Nat} {t t' : Task w} {sig f} (h : Good t) (hs : pend t sig f = some t') : Good t' := by
  unfold pend at hs
  split at hs
  · cases hs
  · rename_i t1 h1
    have g := good_addPending h h1
    split at hs
    · cases hs
    · injection hs with hs; subst hs
      split
      · exact g
      · exact good_wakeup g

theorem good_send {w : Nat} {t t' : Task w} {sig f} (h : Good t) (hs : sendSignal t sig f = some t') : Good t' := by
  unfold sendSignal at hs
  split at hs; · injection hs with hs; exact hs ▸ h
  split at hs; · injection hs with hs; exact hs ▸ h
  split at hs; · injection hs with hs; exact hs ▸ h
  split at hs; · injection hs with hs; exact hs ▸ h
  simp only at hs
  split at hs
  · injection hs with hs; exact hs ▸ h
  · split at hs
    · exact good_pend h hs
    · injection hs with hs; exact hs ▸ h
    · injection hs with hs; subst hs
      unfold actionStop; split <;> first | exact h | exact good_same h rfl rfl rfl rfl rfl rfl
    · injection hs with hs; subst hs
      unfold actionCont; split
      · exact h
      · split <;> first | exact h | exact good_same h rfl rfl rfl rfl rfl rfl
  · exact good_pend h hs

theorem good_process {w : Nat} {t : Task w} {b r} (h : Good t) (hs : processSignals t b = some r) : Good r.1 := by
  unfold processSignals at hs
  simp only at hs
  have g := good_unmask h
  split at hs
  · cases hs
  · injection hs with hs; subst hs; exact good_die g
  · split at hs
    · injection hs with hs; subst hs; exact g
    · split at hs
      · cases hs
      · injection hs with hs; subst hs; exact g
      · split at hs
        · injection hs with hs; subst hs; exact good_die g
        · split at hs
          · cases hs
          · rename_i t1 hd
            injection hs with hs; subst hs
            unfold delPending at hd
            split at hd
            · rename_i p f hp hf
              injection hd with hd; subst hd
              exact ⟨g.lm, g.lo, (del_sig_sub hp g.lp).1, (del_sig_sub hf g.lf).1, g.m9, g.m19, g.o9, g.o19,
                g.h9, g.h19⟩
            · cases hd

theorem procWords_len {w : Nat} (how : How) : ∀ (ms : List (BitVec w)) us, (procWords how ms us).1.length = ms.length := by
  intro ms
  induction ms with
  | nil => intro us; simp [procWords]
  | cons m ms ih =>
    intro us
    cases us with
    | nil => simp [procWords]
    | cons u us =>
      cases u with
      | none => simp [procWords]
      | some u => simp [procWords, ih]

theorem procWords_ok {w : Nat} (how : How) : ∀ (ms : List (BitVec w)) us, us.length = ms.length →
    (∀ x ∈ us, x ≠ none) → (procWords how ms us).2 = true := by
  intro ms
  induction ms with
  | nil => intro us _ _; simp [procWords]
  | cons m ms ih =>
    intro us hl hn
    cases us with
    | nil => simp at hl
    | cons u us =>
      cases u with
      | none => exact absurd rfl (hn none List.mem_cons_self)
      | some u => simp [procWords]; exact ih us (by simpa using hl) (fun x hx => hn x (List.mem_cons_of_mem _ hx))

/-- Removing SIGKILL and SIGSTOP, in any order. -/
theorem del_two {w : Nat} (hw : w = 32 ∨ w = 64) {s s1 s2 : SigSet w} {a b : Nat} (hl : s.length = nWords w)
    (ha : a = 9 ∨ a = 19) (hb : b = 9 ∨ b = 19) (h1 : delSig s a = some s1) (h2 : delSig s1 b = some s2) :
    s2.length = nWords w ∧ has s2 a = false ∧ has s2 b = false := by
  have wa : w = 32 ∨ (w = 64 ∧ a ≤ 32) := by omega
  have wb : w = 32 ∨ (w = 64 ∧ b ≤ 32) := by omega
  have sa : IsSig a := by unfold IsSig; omega
  have sb : IsSig b := by unfold IsSig; omega
  obtain ⟨x1, e1, l1, f1⟩ := del_sig_exact_partial hl sa wa
  rw [h1] at e1; injection e1 with e1; subst e1
  obtain ⟨x2, e2, l2, f2⟩ := del_sig_exact_partial l1 sb wb
  rw [h2] at e2; injection e2 with e2; subst e2
  refine ⟨l2, ?_, ?_⟩
  · cases hh : has s2 a with
    | false => rfl
    | true =>
      have := (del_sig_sub h2 l1).2 a hh
      rw [f1 a sa (by omega)] at this; simp at this
  · rw [f2 b sb (by omega)]; simp

theorem good_step {w : Nat} {split : Bool} (hw : w = 64 ∨ (w = 32 ∧ split = false)) {t t' : Task w} {op}
    (h : Good t) (ho : OpOk split op) (hs : step t op = some t') : Good t' := by
  have hw' : w = 32 ∨ w = 64 := by omega
  cases op with
  | sigaction sig hd f =>
    simp only [step] at hs; injection hs with hs; subst hs
    unfold sigaction
    split; · exact h
    split; · exact h
    split
    · rename_i hne _
      simp only [not_or] at hne
      exact ⟨h.lm, h.lo, h.lp, h.lf, h.m9, h.m19, h.o9, h.o19,
        by show (if _ then _ else _) = _; rw [if_neg (Ne.symm hne.1)]; exact h.h9,
        by show (if _ then _ else _) = _; rw [if_neg (Ne.symm hne.2)]; exact h.h19⟩
    · exact h
  | sigprocmask how u =>
    simp only [step, sigprocmask] at hs
    have hl : (procWords how t.mask u).1.length = nWords w := by rw [procWords_len]; exact h.lm
    split at hs
    · split at hs
      · cases hs
      · rename_i m1 h1
        split at hs
        · cases hs
        · rename_i m2 h2
          injection hs with hs; subst hs
          obtain ⟨l, a, b⟩ := del_two hw' hl (.inr rfl) (.inl rfl) h1 h2
          exact ⟨l, h.lo, h.lp, h.lf, b, a, h.o9, h.o19, h.h9, h.h19⟩
    · rename_i hf
      injection hs with hs; subst hs
      have hmask : (procWords how t.mask u).1 = t.mask := by
        have hor : u.head? = some none ∨ ∀ x ∈ u, x ≠ none := by
          rcases hw with hw | ⟨_, hsp⟩
          · subst hw
            obtain ⟨hl1, _⟩ := ho
            cases u with
            | nil => simp [nWords] at hl1
            | cons x xs =>
              have : xs = [] := by simp [nWords] at hl1; exact hl1
              subst this
              cases x with
              | none => exact .inl rfl
              | some x => right; simp
          · rcases ho.2 with e | e | e
            · rw [hsp] at e; cases e
            · exact .inl e
            · exact .inr e
        rcases hor with e | e
        · cases hm : t.mask with
          | nil => simp [procWords]
          | cons m ms =>
            cases u with
            | nil => simp at e
            | cons x xs => simp at e; subst e; simp [procWords]
        · exact absurd (procWords_ok how t.mask u (by rw [ho.1, h.lm]) e) hf
      exact good_same h hmask rfl rfl rfl rfl rfl
  | sigsuspend u =>
    simp only [step, sigsuspend] at hs
    split at hs
    · injection hs with hs; exact hs ▸ h
    · split at hs
      · injection hs with hs; subst hs
        exact ⟨h.lm, h.lm, h.lp, h.lf, h.m9, h.m19, fun _ => h.m9, fun _ => h.m19, h.h9, h.h19⟩
      · rename_i m
        split at hs
        · cases hs
        · rename_i m1 h1
          split at hs
          · cases hs
          · rename_i m2 h2
            injection hs with hs; subst hs
            obtain ⟨l, a, b⟩ := del_two hw' ho (.inl rfl) (.inr rfl) h1 h2
            exact ⟨l, h.lm, h.lp, h.lf, a, b, fun _ => h.m9, fun _ => h.m19, h.h9, h.h19⟩
  | sigreturn =>
    simp only [step, Option.map_eq_some_iff] at hs
    obtain ⟨⟨t2, o⟩, hs, rfl⟩ := hs
    unfold sigreturn at hs
    split at hs
    · split at hs
      · cases hs
      · rename_i t1 hp
        have g : Good t1 := good_process h hp
        injection hs with hs; injection hs with hs; subst hs
        by_cases hi : t1.inSuspend = true
        · rw [if_pos hi]
          exact ⟨g.lo, g.lo, g.lp, g.lf, g.o9 hi, g.o19 hi, (fun e => by cases e), (fun e => by cases e), g.h9, g.h19⟩
        · rw [if_neg hi]; exact good_same g rfl rfl rfl rfl rfl rfl
      · rename_i t1 s hp
        injection hs with hs; injection hs with hs; subst hs
        exact (good_process h hp : Good (t1, Outcome.killed s).1)
      · rename_i t1 s hd hp
        have g : Good t1 := good_process h hp
        injection hs with hs; injection hs with hs; subst hs
        exact good_same g rfl rfl rfl rfl rfl rfl
    · injection hs with hs; injection hs with hs; exact hs ▸ h
  | send sig f => exact good_send h hs
  | deliver =>
    simp only [step, Option.map_eq_some_iff] at hs
    obtain ⟨r, hs, rfl⟩ := hs
    exact good_process h hs
  | exec =>
    simp only [step] at hs; injection hs with hs; subst hs
    exact ⟨h.lm, h.lo, h.lp, h.lf, h.m9, h.m19, (fun e => by cases e), (fun e => by cases e),
      by simp [exec, h.h9], by simp [exec, h.h19]⟩
  | fork tid =>
    simp only [step] at hs; injection hs with hs; subst hs
    exact ⟨h.lm, h.lo, by simp [forkChild], by simp [forkChild], h.m9, h.m19, h.o9, h.o19, h.h9, h.h19⟩
  | sched st =>
    simp only [step] at hs; injection hs with hs; subst hs
    exact good_same h rfl rfl rfl rfl rfl rfl

theorem hist_good {w : Nat} {split : Bool} (hw : w = 64 ∨ (w = 32 ∧ split = false)) {t : Task w}
    (h : Hist w split t) : Good t := by
  induction h with
  | init =>
    refine ⟨by simp [initTask], by simp [initTask], by simp [initTask], by simp [initTask], ?_, ?_, ?_, ?_, rfl, rfl⟩
    · rcases hw with rfl | ⟨rfl, _⟩ <;> decide
    · rcases hw with rfl | ⟨rfl, _⟩ <;> decide
    · intro e; cases e
    · intro e; cases e
  | step _ ho hs ih => exact good_step hw ih ho hs

/-- C21: after any history, SIGKILL and SIGSTOP are not blocked and have the default disposition: on 64-bit
machines always; on 32-bit machines provided no `rt_sigprocmask` call got a buffer of which only the first
half is readable (see `kill_unblockable_violated`). -/
theorem kill_stop_unblockable_partial {w : Nat} {split : Bool} {t : Task w} (h : Hist w split t)
    (hw : w = 64 ∨ (w = 32 ∧ split = false)) :
    (has t.mask SIGKILL = false ∧ has t.mask SIGSTOP = false) ∧
    (t.handlers SIGKILL = .dfl ∧ t.handlers SIGSTOP = .dfl) := by
  have g := hist_good hw h
  exact ⟨⟨g.m9, g.m19⟩, ⟨g.h9, g.h19⟩⟩

/-- C21 fails on 32-bit machines: `rt_sigprocmask(SIG_SETMASK, p, ...)` with `p` pointing to the last word of
a mapped page returns -EFAULT after having blocked SIGKILL. -/
theorem kill_unblockable_violated : ∃ t, Hist 32 true t ∧ has t.mask SIGKILL = true := by
  refine ⟨_, .step (op := .sigprocmask .setmask [some 0xffffffff#32, none]) .init ⟨by decide, .inl rfl⟩ rfl, ?_⟩
  decide

/-- C54: SIGKILL works.  Sending it to a process (other than init) that is alive makes an interruptibly
sleeping or stopped task runnable (unless it is suspended by vfork), and the next time signals are processed
the task dies, whatever else is pending, blocked or being handled. -/
theorem sigkill_kills_partial {w : Nat} {split : Bool} {t : Task w} (h : Hist w split t)
    (hw : w = 64 ∨ (w = 32 ∧ split = false)) (hz : t.state ≠ .zombie) (hn : 0 ≤ t.nested) (h1 : t.tid ≠ 1) :
    ∃ t', sendSignal t SIGKILL false = some t' ∧
      (t.vforkStopped = false → t'.state ≠ .sleepIntr ∧ t'.state ≠ .stopped ∧ t'.stopPending = false) ∧
      ∀ b, ∃ t'', processSignals t' b = some (t'', .killed SIGKILL) := by
  have g := hist_good hw h
  have sk : IsSig SIGKILL := by unfold IsSig SIGKILL; omega
  have wk : w = 32 ∨ (w = 64 ∧ SIGKILL ≤ 31) := by unfold SIGKILL; omega
  obtain ⟨p, hp, lp, fp⟩ := add_sig_exact_partial g.lp sk wk
  have hm : isSigSet t.mask SIGKILL = some false := by
    rw [is_sig_set_exact_partial sk wk, g.m9]
  have e : sendSignal t SIGKILL false = some (wakeupTask { t with pending := p }) := by
    unfold sendSignal
    rw [if_neg (by decide), if_neg hz, if_neg (by decide), if_neg (by omega)]
    simp only [h1, false_and, if_false, g.h9]
    have : defaultAction SIGKILL = .terminate := by decide
    simp only [this]
    unfold pend addPending
    simp [hp, hm]
  refine ⟨_, e, ?_, ?_⟩
  · intro hv
    unfold wakeupTask
    rw [if_neg (by simp [hv])]
    refine ⟨?_, ?_, rfl⟩ <;> (show (match t.state with | _ => _) ≠ _; cases t.state <;> simp)
  · intro b
    have hpend : (wakeupTask { t with pending := p }).pending = p := by unfold wakeupTask; split <;> rfl
    generalize wakeupTask { t with pending := p } = u at hpend
    refine ⟨die { u with mask := List.zipWith (fun m f => m &&& ~~~ f) u.mask u.fault }, ?_⟩
    unfold processSignals
    simp only
    rw [hpend, is_sig_set_exact_partial sk wk, fp _ sk]
    simp

/-- C54 fails on 32-bit machines after the partial -EFAULT: a sleeping task is not woken by SIGKILL. -/
theorem sigkill_kills_violated : ∃ t t', Hist 32 true t ∧ t.tid = 2 ∧ t.state = .sleepIntr ∧
    sendSignal t SIGKILL false = some t' ∧ t'.state = .sleepIntr := by
  refine ⟨_, _, .step (op := .sched .sleepIntr) (.step (op := .sigprocmask .setmask [some 0xffffffff#32, none])
    (.step (op := .fork 2) .init trivial rfl) ⟨by decide, .inl rfl⟩ rfl) trivial rfl, rfl, rfl, rfl, ?_⟩
  decide

/-- C55: a signal that is ignored when it is sent changes nothing. -/
theorem ignored_signal_no_effect {w : Nat} (t : Task w) (sig : Nat) (fault : Bool)
    (h : t.handlers sig = .ign) : sendSignal t sig fault = some t := by
  unfold sendSignal
  split; · rfl
  split; · rfl
  split; · rfl
  split; · rfl
  simp [h]

/-- C55 fails for signals that are set to "ignore" while pending: SIGUSR1 is blocked, has a handler, is sent,
then set to SIG_IGN and unblocked: the kernel redirects the process to the address SIG_IGN (1). -/
theorem ignored_signal_violated : ∃ t, Hist 32 false t ∧ t.handlers 10 = .ign ∧
    (processSignals t false).map (·.2) = some (.handler 10 .ign) := by
  refine ⟨_, .step (op := .sigprocmask .setmask [some 0#32, some 0#32])
    (.step (op := .sigaction 10 .ign true)
    (.step (op := .send 10 false)
    (.step (op := .sigaction 10 (.fn 4096) true)
    (.step (op := .sigprocmask .block [some 0x200#32, some 0#32]) .init ⟨by decide, .inr (.inr ?_)⟩ rfl)
    trivial rfl) trivial rfl) trivial rfl) ⟨by decide, .inr (.inr ?_)⟩ rfl, ?_, ?_⟩
  · simp
  · simp
  · decide
  · decide

/-- C22, at the level of `process_signals`: a signal for which a handler is set up, or which kills, was pending
and (unless it is SIGKILL) not blocked at that moment, the unmasking of hardware faults included; a handled
signal is removed from the pending set, the other signals (1..32 on 64-bit machines) stay. -/
theorem process_signals_picks_deliverable {w : Nat} {split : Bool} {t t' : Task w} {b : Bool} {o : Outcome}
    (h : Hist w split t) (hw : w = 64 ∨ (w = 32 ∧ split = false)) (hsup : Supported t.pending)
    (hs : processSignals t b = some (t', o)) :
    (∀ sig, o = .killed sig → has t.pending sig = true ∧
      (sig = SIGKILL ∨ has (List.zipWith (fun m f => m &&& ~~~ f) t.mask t.fault) sig = false)) ∧
    (∀ sig hd, o = .handler sig hd → has t.pending sig = true ∧ hd = t.handlers sig ∧
      has (List.zipWith (fun m f => m &&& ~~~ f) t.mask t.fault) sig = false ∧
      ∀ x, IsSig x → (w = 64 → x ≤ 32) → has t'.pending x = (has t.pending x && decide (x ≠ sig))) := by
  have hw' : w = 32 ∨ w = 64 := by omega
  have g := hist_good hw h
  have sk : IsSig SIGKILL := by unfold IsSig SIGKILL; omega
  have wk : w = 32 ∨ (w = 64 ∧ SIGKILL ≤ 31) := by unfold SIGKILL; omega
  obtain ⟨_, hpick, _⟩ := pick_pending_partial (mask := List.zipWith (fun m f => m &&& ~~~ f) t.mask t.fault)
    hw' g.lp hsup
  unfold processSignals at hs
  simp only [is_sig_set_exact_partial sk wk] at hs
  split at hs
  · cases hs
  · rename_i h9
    injection h9 with h9
    injection hs with hs; injection hs with h1 h2; subst h1; subst h2
    refine ⟨?_, (fun _ _ e => by cases e)⟩
    intro sig e; injection e with e; subst e; exact ⟨h9, .inl rfl⟩
  · split at hs
    · injection hs with hs; injection hs with h1 h2; subst h1; subst h2
      exact ⟨(fun _ e => by cases e), (fun _ _ e => by cases e)⟩
    · split at hs
      · cases hs
      · injection hs with hs; injection hs with h1 h2; subst h1; subst h2
        exact ⟨(fun _ e => by cases e), (fun _ _ e => by cases e)⟩
      · rename_i sig hf
        obtain ⟨p1, p2, p3⟩ := hpick sig hf
        split at hs
        · injection hs with hs; injection hs with h1 h2; subst h1; subst h2
          refine ⟨?_, (fun _ _ e => by cases e)⟩
          intro s e; injection e with e; subst e; exact ⟨p2, .inr p3⟩
        · rename_i hd hnd
          split at hs
          · cases hs
          · rename_i t1 hdel
            injection hs with hs; injection hs with h1 h2; subst h1; subst h2
            refine ⟨(fun _ e => by cases e), ?_⟩
            intro s hd' e; injection e with e1 e2; subst e1; subst e2
            refine ⟨p2, rfl, p3, ?_⟩
            have hsu := hsup sig p1 p2
            obtain ⟨q, hq, _, fq⟩ := del_sig_exact_partial g.lp p1 (by omega)
            unfold delPending at hdel
            simp only [hq] at hdel
            split at hdel
            · rename_i p f hp _
              injection hp with hp; subst hp
              injection hdel with hdel; subst hdel
              exact fq
            · cases hdel

/-! ## Non-vacuity -/

/-- A reachable state with a pending, blocked signal and a handler. -/
example : ∃ t, Hist 32 false t ∧ has t.pending 10 = true ∧ has t.mask 10 = true ∧ has t.mask 9 = false ∧
    t.handlers 10 = .fn 4096 ∧ Supported t.pending := by
  refine ⟨_, .step (op := .send 10 false)
    (.step (op := .sigaction 10 (.fn 4096) true)
    (.step (op := .sigprocmask .block [some 0xffffffff#32, some 0xffffffff#32]) .init
      ⟨by decide, .inr (.inr ?_)⟩ rfl) trivial rfl) trivial rfl, ?_, ?_, ?_, ?_, fun _ _ _ => .inl rfl⟩
  · simp
  · decide
  · decide
  · decide
  · decide

/-- A sleeping child, to which `sigkill_kills_partial` applies. -/
example : ∃ t, Hist 32 false t ∧ t.state = .sleepIntr ∧ 0 ≤ t.nested ∧ t.tid ≠ 1 ∧ t.vforkStopped = false :=
  ⟨_, .step (op := .sched .sleepIntr) (.step (op := .fork 2) .init trivial rfl) trivial rfl, rfl,
    by decide, by decide, rfl⟩

example : firstPending [0x80000600#32, 1#32] [0x80000000#32, 0#32] = some (some 10) := by decide
example : delSig [0xffffffff#32, 0xffffffff#32] 19 = some [0xfffbffff#32, 0xffffffff#32] := by decide

/-! ## C56: stopped processes -/

/-- C56, the part that holds: a signal other than SIGCONT that is blocked, ignored or not terminating by default
leaves a stopped process stopped (`stopped_stays_violated`: any other signal resumes it). -/
theorem stopped_stays_partial {w : Nat} {t t' : Task w} {sig f} (ht : t.state = .stopped) (hc : sig ≠ 18)
    (hq : isSigSet t.mask sig = some true ∨ t.handlers sig = .ign ∨
      (t.handlers sig = .dfl ∧ defaultAction sig ≠ .terminate))
    (hs : sendSignal t sig f = some t') : t'.state = .stopped := by
  have hp : ∀ t', isSigSet t.mask sig = some true → pend t sig f = some t' → t'.state = .stopped := by
    intro t' hm h
    unfold pend addPending at h
    split at h
    · cases h
    · rename_i t1 h1
      have e : t1.mask = t.mask ∧ t1.state = t.state := by
        split at h1
        · cases h1
        · split at h1
          · split at h1
            · cases h1
            · injection h1 with h1; subst h1; exact ⟨rfl, rfl⟩
          · injection h1 with h1; subst h1; exact ⟨rfl, rfl⟩
      rw [e.1, hm] at h
      simp at h
      rw [← h, e.2, ht]
  unfold sendSignal at hs
  split at hs; · injection hs with hs; exact hs ▸ ht
  split at hs; · injection hs with hs; exact hs ▸ ht
  split at hs; · injection hs with hs; exact hs ▸ ht
  split at hs; · injection hs with hs; exact hs ▸ ht
  simp only at hs
  split at hs
  · injection hs with hs; exact hs ▸ ht
  · rename_i hd
    have hdf : t.handlers sig = .dfl := by
      split at hd
      · cases hd
      · exact hd
    split at hs
    · rename_i ha
      rcases hq with h | h | h
      · exact hp t' h hs
      · rw [hdf] at h; cases h
      · exact absurd ha h.2
    · injection hs with hs; exact hs ▸ ht
    · injection hs with hs; subst hs; unfold actionStop; rw [ht]; exact ht
    · rename_i ha
      unfold defaultAction at ha
      rw [if_neg hc] at ha
      repeat' split at ha
      all_goals cases ha
  · rename_i a hd
    have hdf : ∃ a, t.handlers sig = .fn a := by
      split at hd
      · cases hd
      · exact ⟨_, hd⟩
    obtain ⟨b, hb⟩ := hdf
    rcases hq with h | h | h
    · exact hp t' h hs
    · rw [hb] at h; cases h
    · rw [hb] at h; cases h.1

/-- C56: SIGCONT with the default disposition resumes a stopped process (not suspended by vfork). -/
theorem sigcont_resumes_partial {w : Nat} {t : Task w} {f} (ht : t.state = .stopped) (hn : 0 ≤ t.nested) (h1 : t.tid ≠ 1)
    (hv : t.vforkStopped = false) (hd : t.handlers 18 = .dfl) :
    ∃ t', sendSignal t 18 f = some t' ∧ t'.state = .runnable := by
  refine ⟨actionCont t, ?_, ?_⟩
  · unfold sendSignal
    rw [if_neg (by decide), if_neg (by rw [ht]; simp), if_neg (by decide), if_neg (by omega)]
    simp only [h1, false_and, if_false, hd]
    have : defaultAction 18 = .cont := by decide
    simp only [this]
  · unfold actionCont; rw [if_neg (by simp [hv])]; simp [ht]

/-- C56 fails: SIGUSR1 with a handler resumes a stopped process. -/
theorem stopped_stays_violated : ∃ t t', Hist 32 false t ∧ t.state = .stopped ∧ sendSignal t 10 false = some t' ∧
    t'.state = .runnable := by
  refine ⟨_, _, .step (op := .send 19 false) (.step (op := .sigaction 10 (.fn 4096) true) (.step (op := .fork 2) .init
    trivial rfl) trivial rfl) trivial rfl, ?_, rfl, ?_⟩ <;> decide

/-- C56 fails: a process that ignores SIGCONT cannot be resumed with it. -/
theorem sigcont_resumes_violated : ∃ t, Hist 32 false t ∧ t.state = .stopped ∧ sendSignal t 18 false = some t := by
  refine ⟨_, .step (op := .send 19 false) (.step (op := .sigaction 18 .ign true) (.step (op := .fork 2) .init
    trivial rfl) trivial rfl) trivial rfl, ?_, ?_⟩
  · decide
  · rfl

/-- Non-vacuity of the two theorems above. -/
example : ∃ t : Task 32, Hist 32 false t ∧ t.state = .stopped ∧ 0 ≤ t.nested ∧ t.tid ≠ 1 ∧ t.vforkStopped = false ∧
    t.handlers 18 = .dfl ∧ isSigSet t.mask 10 = some true := by
  refine ⟨_, .step (op := .send 19 false) (.step (op := .sigprocmask .block [some 0x200#32, some 0#32]) (.step (op := .fork 2) .init
    trivial rfl) ⟨by decide, .inr (.inr (by decide))⟩ rfl) trivial rfl, ?_⟩
  decide

end Verif.Signal
