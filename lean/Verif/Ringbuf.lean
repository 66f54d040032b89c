/-!
# Ring buffer (kernel/ringbuf.c, include/tilck/kernel/ringbuf.h)

Properties C01, C02.

The model keeps the three position/count fields and the storage.  One storage cell holds one
element (`elem_size` bytes in C; the byte layout inside a cell is not modelled).  Every access
outside the storage and every violated `ASSERT` makes the operation return `none`.
-/
namespace Verif.Ringbuf

/-- include/tilck/kernel/ringbuf.h:6-14 `struct ringbuf`.  `elem_size` is abstracted: a cell of
`buf` is one element. -/
structure RB (α : Type) where
  readPos : Nat
  writePos : Nat
  elems : Nat
  maxElems : Nat
  buf : List α

/-- u32 wrap-around. -/
def u32 (n : Nat) : Nat := n % 4294967296

/-- `memcpy(buf + pos, data, len)`: `none` when it would touch memory outside `buf`. -/
def blit {α} (buf : List α) (pos : Nat) (data : List α) : Option (List α) :=
  if pos + data.length ≤ buf.length then
    some (buf.take pos ++ data ++ buf.drop (pos + data.length))
  else none

/-- `memcpy(dst, buf + pos, len)`: `none` when it would touch memory outside `buf`. -/
def slice {α} (buf : List α) (pos len : Nat) : Option (List α) :=
  if pos + len ≤ buf.length then some ((buf.drop pos).take len) else none

/-- kernel/ringbuf.c:16-27 `ringbuf_init`. The storage content is whatever the caller passes. -/
def init {α} (storage : List α) : RB α :=
  { readPos := 0, writePos := 0, elems := 0, maxElems := storage.length, buf := storage }

/-- include/tilck/kernel/ringbuf.h:16-19 -/
def isEmpty {α} (rb : RB α) : Bool := rb.elems == 0

/-- include/tilck/kernel/ringbuf.h:21-24 -/
def isFull {α} (rb : RB α) : Bool := rb.elems == rb.maxElems

/-- include/tilck/kernel/ringbuf.h:31-34 `ringbuf_reset`. -/
def reset {α} (rb : RB α) : RB α := { rb with readPos := 0, writePos := 0, elems := 0 }

/-- kernel/ringbuf.c:34-43 `ringbuf_write_elem` (and ringbuf.h:45-54 `ringbuf_write_elem1`). -/
def writeElem {α} (rb : RB α) (e : α) : Option (RB α × Bool) :=
  if isFull rb then some (rb, false)
  else do
    let b ← blit rb.buf rb.writePos [e]
    some ({ rb with buf := b,
                    writePos := u32 (rb.writePos + 1) % rb.maxElems,
                    elems := u32 (rb.elems + 1) }, true)

/-- kernel/ringbuf.c:183-192 `ringbuf_read_elem` (and ringbuf.h:56-65 `ringbuf_read_elem1`). -/
def readElem {α} (rb : RB α) : Option (RB α × Option α) :=
  if isEmpty rb then some (rb, none)
  else do
    let e ← rb.buf[rb.readPos]?
    some ({ rb with readPos := u32 (rb.readPos + 1) % rb.maxElems,
                    elems := rb.elems - 1 }, some e)

/-- kernel/ringbuf.c:194-206 `ringbuf_unwrite_elem`, non-NULL `elem_ptr`. -/
def unwriteElem {α} (rb : RB α) : Option (RB α × Option α) :=
  if isEmpty rb then some (rb, none)
  else do
    let wp := u32 (u32 (rb.maxElems + rb.writePos) + 4294967295) % rb.maxElems
    let e ← rb.buf[wp]?
    some ({ rb with writePos := wp, elems := rb.elems - 1 }, some e)

/-- kernel/ringbuf.c:45-114 `ringbuf_write_bytes`; `len` is `data.length`; the second component is
the returned byte count.  `none` also covers the ASSERT at line 107. -/
def writeBytes {α} (rb : RB α) (data : List α) : Option (RB α × Nat) :=
  if isFull rb then some (rb, 0)
  else if rb.writePos < rb.readPos then do
    let n := min data.length (rb.readPos - rb.writePos)
    let b ← blit rb.buf rb.writePos (data.take n)
    some ({ rb with buf := b, writePos := u32 (rb.writePos + n), elems := u32 (rb.elems + n) }, n)
  else do
    let n := min data.length (rb.maxElems - rb.writePos)
    let b ← blit rb.buf rb.writePos (data.take n)
    let rb1 : RB α := { rb with buf := b, writePos := (rb.writePos + n) % rb.maxElems,
                                elems := u32 (rb.elems + n) }
    if n = data.length then some (rb1, n)
    else if rb1.writePos ≠ 0 then none
    else do
      let n2 := min (data.length - n) rb1.readPos
      let b2 ← blit rb1.buf 0 ((data.drop n).take n2)
      some ({ rb1 with buf := b2, writePos := u32 (rb1.writePos + n2),
                       elems := u32 (rb1.elems + n2) }, n + n2)

/-- kernel/ringbuf.c:116-181 `ringbuf_read_bytes`: the bytes copied out (their number is the return
value).  `none` also covers the ASSERT at line 174. -/
def readBytes {α} (rb : RB α) (len : Nat) : Option (RB α × List α) :=
  if isEmpty rb then some (rb, [])
  else if rb.readPos < rb.writePos then do
    let n := min len (rb.writePos - rb.readPos)
    let d ← slice rb.buf rb.readPos n
    some ({ rb with readPos := u32 (rb.readPos + n), elems := rb.elems - n }, d)
  else do
    let n := min len (rb.maxElems - rb.readPos)
    let d ← slice rb.buf rb.readPos n
    let rb1 : RB α := { rb with readPos := (rb.readPos + n) % rb.maxElems,
                                elems := rb.elems - n }
    if n = len then some (rb1, d)
    else if rb1.readPos ≠ 0 then none
    else do
      let n2 := min (len - n) rb1.writePos
      let d2 ← slice rb1.buf 0 n2
      some ({ rb1 with readPos := u32 (rb1.readPos + n2), elems := rb1.elems - n2 }, d ++ d2)

/-! ## Specification: a bounded FIFO queue (oldest element first) -/

/-- The operations of the public API. -/
inductive Op (α : Type) where
  | write (e : α) | read | unwrite | writeBytes (d : List α) | readBytes (n : Nat)
  | isEmpty | isFull | getElems | reset

/-- What the caller observes. -/
inductive Out (α : Type) where
  | ok (b : Bool) | elem (e : Option α) | count (n : Nat) | data (d : List α) | unit
deriving DecidableEq

/-- Abstract queue of capacity `cap`. -/
def Spec.step {α} (cap : Nat) (q : List α) : Op α → List α × Out α
  | .write e => if q.length < cap then (q ++ [e], .ok true) else (q, .ok false)
  | .read => (q.tail, .elem q.head?)
  | .unwrite => (q.dropLast, .elem q.getLast?)
  | .writeBytes d => (q ++ d.take (cap - q.length), .count (min d.length (cap - q.length)))
  | .readBytes n => (q.drop n, .data (q.take n))
  | .isEmpty => (q, .ok (q.length == 0))
  | .isFull => (q, .ok (q.length == cap))
  | .getElems => (q, .count q.length)
  | .reset => ([], .unit)

/-- The queue's observations along a history. -/
def Spec.run {α} (cap : Nat) (q : List α) : List (Op α) → List (Out α)
  | [] => []
  | op :: ops => (Spec.step cap q op).2 :: Spec.run cap (Spec.step cap q op).1 ops

/-- One API call on the model. -/
def step {α} (rb : RB α) : Op α → Option (RB α × Out α)
  | .write e => (writeElem rb e).map fun r => (r.1, .ok r.2)
  | .read => (readElem rb).map fun r => (r.1, .elem r.2)
  | .unwrite => (unwriteElem rb).map fun r => (r.1, .elem r.2)
  | .writeBytes d => (writeBytes rb d).map fun r => (r.1, .count r.2)
  | .readBytes n => (readBytes rb n).map fun r => (r.1, .data r.2)
  | .isEmpty => some (rb, .ok (isEmpty rb))
  | .isFull => some (rb, .ok (isFull rb))
  | .getElems => some (rb, .count rb.elems)
  | .reset => some (reset rb, .unit)

/-- The model's observations along a history; `none` if any call has undefined behaviour. -/
def run {α} (rb : RB α) : List (Op α) → Option (List (Out α))
  | [] => some []
  | op :: ops => do
    let r ← step rb op
    let rest ← run r.1 ops
    some (r.2 :: rest)

/-! ## Representation relation and simulation -/

/-- `rb` stores exactly the queue `q`. -/
structure Rep {α} (rb : RB α) (q : List α) : Prop where
  pos : 0 < rb.maxElems
  bound : rb.maxElems ≤ 2147483648
  blen : rb.buf.length = rb.maxElems
  rlt : rb.readPos < rb.maxElems
  cnt : rb.elems = q.length
  le : q.length ≤ rb.maxElems
  wp : rb.writePos = (rb.readPos + q.length) % rb.maxElems
  val : ∀ i, i < q.length → rb.buf[(rb.readPos + i) % rb.maxElems]? = q[i]?

theorem modlt {a m : Nat} (h : a < 2 * m) : a % m = if a < m then a else a - m := by
  split
  · exact Nat.mod_eq_of_lt (by assumption)
  · rw [Nat.mod_eq_sub_mod (by omega)]
    exact Nat.mod_eq_of_lt (by omega)

theorem modcase {a m : Nat} (h : a < 2 * m) :
    (a < m ∧ a % m = a) ∨ (m ≤ a ∧ a % m = a - m) := by
  rw [modlt h]; split <;> omega

theorem u32_of_lt {n : Nat} (h : n < 4294967296) : u32 n = n := Nat.mod_eq_of_lt h

theorem blit_some {α} {buf : List α} {pos : Nat} {d : List α} (h : pos + d.length ≤ buf.length) :
    ∃ b, blit buf pos d = some b ∧ b.length = buf.length ∧
      ∀ i, b[i]? = if pos ≤ i ∧ i < pos + d.length then d[i - pos]? else buf[i]? := by
  refine ⟨_, if_pos h, ?_, ?_⟩
  · simp; omega
  · intro i
    by_cases h1 : i < pos
    · rw [if_neg (by omega), List.append_assoc, List.getElem?_append_left (by simp; omega)]
      simp [h1]
    · by_cases h2 : i < pos + d.length
      · rw [if_pos (by omega), List.append_assoc, List.getElem?_append_right (by simp; omega),
          List.getElem?_append_left (by simp; omega)]
        congr 1; simp; omega
      · rw [if_neg (by omega), List.append_assoc, List.getElem?_append_right (by simp; omega),
          List.getElem?_append_right (by simp; omega)]
        simp only [List.length_take, List.getElem?_drop]
        congr 1; omega

theorem slice_some {α} {buf : List α} {pos len : Nat} (h : pos + len ≤ buf.length) :
    ∃ d, slice buf pos len = some d ∧ d.length = len ∧ ∀ i, i < len → d[i]? = buf[pos + i]? := by
  refine ⟨_, if_pos h, ?_, ?_⟩
  · simp; omega
  · intro i hi
    simp [hi]

theorem rep_init {α} (st : List α) (h : 0 < st.length) (hb : st.length ≤ 2147483648) :
    Rep (init st) [] := by
  constructor <;> simp [init] <;> omega

theorem ext_len {α} {a b : List α} (hl : a.length = b.length)
    (h : ∀ i, i < a.length → a[i]? = b[i]?) : a = b := by
  apply List.ext_getElem? ; intro i
  by_cases hi : i < a.length
  · exact h i hi
  · rw [List.getElem?_eq_none (by omega), List.getElem?_eq_none (by omega)]


theorem sim_write {α} {rb : RB α} {q : List α} (h : Rep rb q) (e : α) :
    ∃ rb', writeElem rb e = some (rb', decide (q.length < rb.maxElems)) ∧
      rb'.maxElems = rb.maxElems ∧
      Rep rb' (if q.length < rb.maxElems then q ++ [e] else q) := by
  obtain ⟨pos, bound, blen, rlt, cnt, le, wp, val⟩ := h
  by_cases hf : q.length < rb.maxElems
  · have hw : rb.writePos < rb.maxElems := wp ▸ Nat.mod_lt _ pos
    obtain ⟨b, hb, hbl, hbv⟩ := blit_some (buf := rb.buf) (pos := rb.writePos) (d := [e])
      (by simp; omega)
    have hnf : isFull rb = false := by simp [isFull]; omega
    refine ⟨{ rb with buf := b, writePos := (rb.writePos + 1) % rb.maxElems,
                      elems := rb.elems + 1 }, ?_, rfl, ?_⟩
    · simp [writeElem, hnf, hb, hf, u32_of_lt (n := rb.writePos + 1) (by omega),
        u32_of_lt (n := rb.elems + 1) (by omega)]
    simp only [hf, if_true]
    constructor <;> simp only [List.length_append, List.length_cons, List.length_nil] <;> try omega
    · rw [wp, Nat.mod_add_mod]; congr 1
    · intro i hi
      rw [hbv]
      have := val i
      rw [modlt (by omega)] at this ⊢
      rw [modlt (by omega)] at wp
      by_cases hlast : i < q.length
      · rw [List.getElem?_append_left hlast, ← this hlast, if_neg]
        simp only [List.length_cons, List.length_nil]
        split at wp <;> split <;> omega
      · have : i = q.length := by omega
        subst this
        rw [if_pos (by simp only [List.length_cons, List.length_nil]; omega),
          List.getElem?_append_right (by omega), ← wp]
        simp
  · have hfl : isFull rb = true := by simp [isFull]; omega
    exact ⟨rb, by simp [writeElem, hfl, hf], rfl, by simp [hf]; exact ⟨pos, bound, blen, rlt, cnt, le, wp, val⟩⟩

theorem sim_read {α} {rb : RB α} {q : List α} (h : Rep rb q) :
    ∃ rb', readElem rb = some (rb', q.head?) ∧ rb'.maxElems = rb.maxElems ∧ Rep rb' q.tail := by
  obtain ⟨pos, bound, blen, rlt, cnt, le, wp, val⟩ := h
  cases q with
  | nil => exact ⟨rb, by simp [readElem, isEmpty] at *; simp [cnt], rfl, ⟨pos, bound, blen, rlt, cnt, le, wp, val⟩⟩
  | cons x xs =>
    have hne : isEmpty rb = false := by simp [isEmpty]; simp at cnt; omega
    have h0 : rb.buf[rb.readPos]? = some x := by
      have := val 0 (by simp)
      simpa [Nat.mod_eq_of_lt rlt] using this
    simp only [List.length_cons] at *
    refine ⟨{ rb with readPos := (rb.readPos + 1) % rb.maxElems, elems := rb.elems - 1 }, ?_, rfl, ?_⟩
    · simp [readElem, hne, h0, u32_of_lt (n := rb.readPos + 1) (by omega)]
    constructor <;> simp only [List.tail_cons] <;> try omega
    · exact Nat.mod_lt _ pos
    · rw [wp]; simp only [Nat.mod_add_mod]; congr 1; omega
    · intro i hi
      have := val (i+1) (by omega)
      rw [List.getElem?_cons_succ] at this
      rw [← this, Nat.mod_add_mod]; congr 2; omega

theorem sim_unwrite {α} {rb : RB α} {q : List α} (h : Rep rb q) :
    ∃ rb', unwriteElem rb = some (rb', q.getLast?) ∧ rb'.maxElems = rb.maxElems ∧
      Rep rb' q.dropLast := by
  obtain ⟨pos, bound, blen, rlt, cnt, le, wp, val⟩ := h
  by_cases hq : q = []
  · subst hq
    exact ⟨rb, by simp [unwriteElem, isEmpty] at *; simp [cnt], rfl, ⟨pos, bound, blen, rlt, cnt, le, wp, val⟩⟩
  · have hl : 0 < q.length := List.length_pos_iff.mpr hq
    have hne : isEmpty rb = false := by simp [isEmpty]; omega
    have hwlt : rb.writePos < rb.maxElems := wp ▸ Nat.mod_lt _ pos
    have hwp : u32 (u32 (rb.maxElems + rb.writePos) + 4294967295) % rb.maxElems
        = (rb.readPos + (q.length - 1)) % rb.maxElems := by
      rw [u32_of_lt (n := rb.maxElems + rb.writePos) (by omega)]
      have : u32 (rb.maxElems + rb.writePos + 4294967295) = rb.maxElems + rb.writePos - 1 := by
        unfold u32; omega
      rw [this, modlt (by omega), modlt (by omega)]
      rw [modlt (by omega)] at wp
      split at wp <;> repeat' split
      all_goals omega
    have hv := val (q.length - 1) (by omega)
    have hlast : q[q.length - 1]? = q.getLast? := by
      rw [List.getLast?_eq_getElem?]
    rw [hlast, List.getLast?_eq_some_getLast hq] at hv
    refine ⟨{ rb with writePos := (rb.readPos + (q.length - 1)) % rb.maxElems,
                      elems := rb.elems - 1 }, ?_, rfl, ?_⟩
    · simp [unwriteElem, hne, hwp, hv, List.getLast?_eq_some_getLast hq]
    · constructor <;> simp only [List.length_dropLast] <;> try omega
      intro i hi
      rw [val i (by omega), List.getElem?_dropLast, if_pos hi]


theorem sim_writeBytes {α} {rb : RB α} {q : List α} (h : Rep rb q) (d : List α) :
    ∃ rb', writeBytes rb d = some (rb', min d.length (rb.maxElems - q.length)) ∧
      rb'.maxElems = rb.maxElems ∧ Rep rb' (q ++ d.take (rb.maxElems - q.length)) := by
  have h0 := h
  obtain ⟨pos, bound, blen, rlt, cnt, le, wp, val⟩ := h
  by_cases hfull : q.length = rb.maxElems
  · have : isFull rb = true := by simp [isFull]; omega
    exact ⟨rb, by simp [writeBytes, this, hfull], rfl, by simpa [hfull] using h0⟩
  have hnf : isFull rb = false := by simp [isFull]; omega
  have wp' := wp
  rw [modlt (by omega)] at wp'
  by_cases hcase : rb.writePos < rb.readPos
  · -- one chunk, wrapped
    have hge : ¬ rb.readPos + q.length < rb.maxElems := by split at wp' <;> omega
    rw [if_neg hge] at wp'
    have hn : rb.readPos - rb.writePos = rb.maxElems - q.length := by omega
    obtain ⟨b, hb, hbl, hbv⟩ := blit_some (buf := rb.buf) (pos := rb.writePos)
      (d := d.take (min d.length (rb.readPos - rb.writePos))) (by simp; omega)
    refine ⟨{ rb with buf := b,
                      writePos := rb.writePos + min d.length (rb.maxElems - q.length),
                      elems := rb.elems + min d.length (rb.maxElems - q.length) }, ?_, rfl, ?_⟩
    · rw [hn] at hb
      simp only [writeBytes, hnf, hcase, hn, hb, Bool.false_eq_true, if_false, if_true,
        Option.bind_eq_bind, Option.bind_some]
      rw [u32_of_lt (by omega), u32_of_lt (by omega)]
    · constructor <;> simp only [List.length_append, List.length_take] <;> try omega
      · rw [modlt (by omega)]; split <;> omega
      · intro i hi
        rw [hbv]
        have hm := modcase (a := rb.readPos + i) (m := rb.maxElems) (by omega)
        simp only [List.length_take]
        by_cases hiq : i < q.length
        · rw [List.getElem?_append_left hiq, ← val i hiq, if_neg (by omega)]
        · rw [List.getElem?_append_right (by omega), if_pos (by omega)]
          rw [List.getElem?_take, List.getElem?_take, if_pos (by omega), if_pos (by omega)]
          congr 1; omega
  · -- part one (and maybe part two)
    have hwlt : rb.writePos < rb.maxElems := wp ▸ Nat.mod_lt _ pos
    have hwr : rb.writePos = rb.readPos + q.length := by split at wp' <;> omega
    obtain ⟨b, hb, hbl, hbv⟩ := blit_some (buf := rb.buf) (pos := rb.writePos)
      (d := d.take (min d.length (rb.maxElems - rb.writePos))) (by simp; omega)
    by_cases hone : d.length ≤ rb.maxElems - rb.writePos
    · have hmin : min d.length (rb.maxElems - rb.writePos) = d.length := by omega
      have hmin2 : min d.length (rb.maxElems - q.length) = d.length := by omega
      refine ⟨{ rb with buf := b, writePos := (rb.writePos + d.length) % rb.maxElems,
                        elems := rb.elems + d.length }, ?_, rfl, ?_⟩
      · simp only [writeBytes, hnf, hcase, hmin2, Bool.false_eq_true, if_false]
        rw [hb]
        simp only [hmin, Option.bind_eq_bind, Option.bind_some, if_true]
        rw [u32_of_lt (by omega)]
      · constructor <;> simp only [List.length_append, List.length_take] <;> try omega
        · rw [hwr]; congr 1; omega
        · intro i hi
          rw [hbv]
          have hm := modcase (a := rb.readPos + i) (m := rb.maxElems) (by omega)
          simp only [List.length_take]
          by_cases hiq : i < q.length
          · rw [List.getElem?_append_left hiq, ← val i hiq, if_neg (by omega)]
          · rw [List.getElem?_append_right (by omega), if_pos (by omega)]
            rw [List.getElem?_take, List.getElem?_take, if_pos (by omega), if_pos (by omega)]
            congr 1; omega
    · have hmin : min d.length (rb.maxElems - rb.writePos) = rb.maxElems - rb.writePos := by omega
      obtain ⟨b2, hb2, hbl2, hbv2⟩ := blit_some (buf := b) (pos := 0)
        (d := (d.drop (rb.maxElems - rb.writePos)).take
          (min (d.length - (rb.maxElems - rb.writePos)) rb.readPos)) (by simp; omega)
      have hz : (rb.writePos + (rb.maxElems - rb.writePos)) % rb.maxElems = 0 := by
        rw [show rb.writePos + (rb.maxElems - rb.writePos) = rb.maxElems by omega]; simp
      refine ⟨{ rb with buf := b2,
                        writePos := min (d.length - (rb.maxElems - rb.writePos)) rb.readPos,
                        elems := rb.elems + min d.length (rb.maxElems - q.length) }, ?_, rfl, ?_⟩
      · simp only [writeBytes, hnf, hcase, Bool.false_eq_true, if_false]
        rw [hb]
        simp only [hmin, Option.bind_eq_bind, Option.bind_some, hz, ne_eq, not_true_eq_false,
          if_false, hb2]
        rw [if_neg (by omega), u32_of_lt (n := rb.elems + _) (by omega), u32_of_lt (by omega),
          u32_of_lt (by omega)]
        congr 2
        · congr 1 <;> omega
        · omega
      · constructor <;> simp only [List.length_append, List.length_take] <;> try omega
        · by_cases hr : d.length - (rb.maxElems - rb.writePos) < rb.readPos + 1
          · rw [modlt (by omega)]; split <;> omega
          · rw [modlt (by omega)]; split <;> omega
        · intro i hi
          rw [hbv2]
          have hm := modcase (a := rb.readPos + i) (m := rb.maxElems) (by omega)
          simp only [List.length_take, List.length_drop]
          by_cases hiq : i < q.length
          · rw [List.getElem?_append_left hiq, ← val i hiq, if_neg (by omega), hbv]
            simp only [List.length_take]
            rw [if_neg (by omega)]
          · have hR : (d.take (rb.maxElems - q.length))[i - q.length]? = d[i - q.length]? := by
              rw [List.getElem?_take, if_pos (by omega)]
            rw [List.getElem?_append_right (by omega), hR]
            by_cases hw : rb.readPos + i < rb.maxElems
            · rw [if_neg (by omega), hbv]
              simp only [List.length_take]
              rw [if_pos (by omega), List.getElem?_take, if_pos (by omega)]
              congr 1; omega
            · rw [if_pos (by omega), List.getElem?_take, if_pos (by omega),
                List.getElem?_drop]
              congr 1; omega

theorem sim_readBytes {α} {rb : RB α} {q : List α} (h : Rep rb q) (n : Nat) :
    ∃ rb', readBytes rb n = some (rb', q.take n) ∧
      rb'.maxElems = rb.maxElems ∧ Rep rb' (q.drop n) := by
  have h0 := h
  obtain ⟨pos, bound, blen, rlt, cnt, le, wp, val⟩ := h
  by_cases hemp : q.length = 0
  · have : isEmpty rb = true := by simp [isEmpty]; omega
    have hq : q = [] := List.length_eq_zero_iff.mp hemp
    exact ⟨rb, by simp [readBytes, this, hq], rfl, by simpa [hq] using h0⟩
  have hne : isEmpty rb = false := by simp [isEmpty]; omega
  have wp' := wp
  rw [modlt (by omega)] at wp'
  by_cases hcase : rb.readPos < rb.writePos
  · have hlt : rb.readPos + q.length < rb.maxElems := by split at wp' <;> omega
    rw [if_pos hlt] at wp'
    have hn : rb.writePos - rb.readPos = q.length := by omega
    obtain ⟨d, hd, hdl, hdv⟩ := slice_some (buf := rb.buf) (pos := rb.readPos)
      (len := min n (rb.writePos - rb.readPos)) (by omega)
    refine ⟨{ rb with readPos := rb.readPos + min n q.length,
                      elems := rb.elems - min n q.length }, ?_, rfl, ?_⟩
    · rw [hn] at hd
      simp only [readBytes, hne, hcase, hn, hd, Bool.false_eq_true, if_false, if_true,
        Option.bind_eq_bind, Option.bind_some]
      rw [u32_of_lt (by omega)]
      congr 2
      apply ext_len
      · simp; omega
      · intro i hi
        rw [hdv i (by omega), List.getElem?_take, if_pos (by omega), ← val i (by omega),
          Nat.mod_eq_of_lt (by omega)]
    · have : rb.writePos < rb.maxElems := wp ▸ Nat.mod_lt _ pos
      constructor <;> simp only [List.length_drop] <;> try omega
      · rw [Nat.mod_eq_of_lt (by omega)]; omega
      · intro i hi
        rw [List.getElem?_drop, ← val (n + i) (by omega)]
        congr 2; omega
  · have hwlt : rb.writePos < rb.maxElems := wp ▸ Nat.mod_lt _ pos
    have hwr : rb.writePos + rb.maxElems = rb.readPos + q.length := by split at wp' <;> omega
    obtain ⟨d, hd, hdl, hdv⟩ := slice_some (buf := rb.buf) (pos := rb.readPos)
      (len := min n (rb.maxElems - rb.readPos)) (by omega)
    by_cases hone : n ≤ rb.maxElems - rb.readPos
    · have hmin : min n (rb.maxElems - rb.readPos) = n := by omega
      refine ⟨{ rb with readPos := (rb.readPos + n) % rb.maxElems,
                        elems := rb.elems - n }, ?_, rfl, ?_⟩
      · rw [hmin] at hd
        simp only [readBytes, hne, hcase, Bool.false_eq_true, if_false, hd, hmin,
          Option.bind_eq_bind, Option.bind_some, if_true]
        congr 2
        apply ext_len
        · simp; omega
        · intro i hi
          rw [hdv i (by omega), List.getElem?_take, if_pos (by omega), ← val i (by omega),
            Nat.mod_eq_of_lt (by omega)]
      · constructor <;> simp only [List.length_drop] <;> try omega
        · exact Nat.mod_lt _ pos
        · rw [wp, Nat.mod_add_mod]; congr 1; omega
        · intro i hi
          rw [List.getElem?_drop, ← val (n + i) (by omega), Nat.mod_add_mod]
          congr 2; omega
    · have hmin : min n (rb.maxElems - rb.readPos) = rb.maxElems - rb.readPos := by omega
      have hz : (rb.readPos + (rb.maxElems - rb.readPos)) % rb.maxElems = 0 := by
        rw [show rb.readPos + (rb.maxElems - rb.readPos) = rb.maxElems by omega]; simp
      obtain ⟨d2, hd2, hdl2, hdv2⟩ := slice_some (buf := rb.buf) (pos := 0)
        (len := min (n - (rb.maxElems - rb.readPos)) rb.writePos) (by omega)
      refine ⟨{ rb with readPos := min (n - (rb.maxElems - rb.readPos)) rb.writePos,
                        elems := rb.elems - min n q.length }, ?_, rfl, ?_⟩
      · rw [hmin] at hd
        simp only [readBytes, hne, hcase, Bool.false_eq_true, if_false, hd, hmin,
          Option.bind_eq_bind, Option.bind_some, hz, ne_eq, not_true_eq_false, hd2]
        rw [if_neg (by omega), u32_of_lt (by omega)]
        congr 2
        · congr 1 <;> omega
        · apply ext_len
          · simp; omega
          · intro i hi
            simp only [List.length_append] at hi
            rw [List.getElem?_take, if_pos (by omega), ← val i (by omega), modlt (by omega)]
            by_cases hid : i < d.length
            · rw [List.getElem?_append_left hid, hdv i (by omega), if_pos (by omega)]
            · rw [List.getElem?_append_right (by omega), hdv2 _ (by omega), if_neg (by omega)]
              congr 1; omega
      · constructor <;> simp only [List.length_drop] <;> try omega
        · rw [modlt (by omega)]; split <;> omega
        · intro i hi
          rw [List.getElem?_drop, ← val (n + i) (by omega)]
          have hm := modcase (a := rb.readPos + (n + i)) (m := rb.maxElems) (by omega)
          rw [Nat.mod_eq_of_lt (by omega)]
          congr 1; omega

/-! ## Property theorems -/

theorem sim_step {α} {rb : RB α} {q : List α} (h : Rep rb q) (op : Op α) :
    ∃ rb', step rb op = some (rb', (Spec.step rb.maxElems q op).2) ∧
      rb'.maxElems = rb.maxElems ∧ Rep rb' (Spec.step rb.maxElems q op).1 := by
  cases op with
  | write e =>
    obtain ⟨rb', h1, h2, h3⟩ := sim_write h e
    refine ⟨rb', ?_, h2, ?_⟩
    · simp only [step, h1, Spec.step, Option.map_some]; split <;> simp_all
    · simp only [Spec.step]; split <;> simp_all
  | read =>
    obtain ⟨rb', h1, h2, h3⟩ := sim_read h
    exact ⟨rb', by simp [step, h1, Spec.step], h2, h3⟩
  | unwrite =>
    obtain ⟨rb', h1, h2, h3⟩ := sim_unwrite h
    exact ⟨rb', by simp [step, h1, Spec.step], h2, h3⟩
  | writeBytes d =>
    obtain ⟨rb', h1, h2, h3⟩ := sim_writeBytes h d
    exact ⟨rb', by simp [step, h1, Spec.step], h2, h3⟩
  | readBytes n =>
    obtain ⟨rb', h1, h2, h3⟩ := sim_readBytes h n
    exact ⟨rb', by simp [step, h1, Spec.step], h2, h3⟩
  | isEmpty => exact ⟨rb, by simp [step, Spec.step, isEmpty, h.cnt], rfl, h⟩
  | isFull => exact ⟨rb, by simp [step, Spec.step, isFull, h.cnt], rfl, h⟩
  | getElems => exact ⟨rb, by simp [step, Spec.step, h.cnt], rfl, h⟩
  | reset =>
    refine ⟨reset rb, rfl, rfl, ?_⟩
    obtain ⟨pos, bound, blen, rlt, cnt, le, wp, val⟩ := h
    constructor <;> simp [reset, Spec.step] <;> omega

/-- **C01 / C02.**  A ring buffer initialised on any non-empty storage (at most 2^31 cells; its
initial content is irrelevant) answers every finite history of API calls — single-element and bulk —
exactly like a bounded FIFO queue of the same capacity, and never touches memory outside its
storage nor trips an ASSERT. -/
theorem ringbuf_refines_fifo {α} (storage : List α) (hpos : 0 < storage.length)
    (hmax : storage.length ≤ 2147483648) (ops : List (Op α)) :
    run (init storage) ops = some (Spec.run storage.length [] ops) := by
  have key : ∀ (ops : List (Op α)) (rb : RB α) (q : List α), Rep rb q →
      run rb ops = some (Spec.run rb.maxElems q ops) := by
    intro ops
    induction ops with
    | nil => intros; rfl
    | cons op ops ih =>
      intro rb q h
      obtain ⟨rb', h1, h2, h3⟩ := sim_step h op
      simp [run, h1, ih rb' _ h3, Spec.run, h2]
  exact key ops _ _ (rep_init storage hpos hmax)

/-- **C02**, stated for a single call from any reachable state: a bulk write stores exactly the
prefix that fits and a bulk read afterwards can return the whole content in order. -/
theorem ringbuf_bulk_roundtrip {α} (storage : List α) (hpos : 0 < storage.length)
    (hmax : storage.length ≤ 2147483648) (ops : List (Op α)) (d : List α) (n : Nat)
    (hn : d.length ≤ storage.length) (hn2 : storage.length ≤ n) :
    run (init storage) (ops ++ [.reset, .writeBytes d, .readBytes n]) =
      some (Spec.run storage.length [] ops ++ [.unit, .count d.length, .data d]) := by
  rw [ringbuf_refines_fifo storage hpos hmax]
  have aux : ∀ (ops : List (Op α)) q, Spec.run storage.length q
      (ops ++ [.reset, .writeBytes d, .readBytes n])
      = Spec.run storage.length q ops ++ [.unit, .count d.length, .data d] := by
    intro ops
    induction ops with
    | nil =>
      intro q
      simp only [List.nil_append, Spec.run, Spec.step, List.length_nil, Nat.sub_zero]
      rw [List.take_of_length_le hn, Nat.min_eq_left hn,
        List.take_of_length_le (by omega)]
    | cons op ops ih => intro q; simp [Spec.run, ih]
  rw [aux]

/-- Non-vacuity: a concrete wrapping history. -/
example : run (init [0, 0, 0]) [.write 1, .write 2, .read, .writeBytes [3, 4, 5], .isFull,
    .unwrite, .readBytes 5] =
    some [.ok true, .ok true, .elem (some 1), .count 2, .ok true, .elem (some 4), .data [2, 3]] := by
  decide

end Verif.Ringbuf
