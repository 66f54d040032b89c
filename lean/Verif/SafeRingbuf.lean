import Verif.Ringbuf
/-!
# Interrupt-safe ring buffer (kernel/safe_ringbuf.cpp, include/tilck/kernel/safe_ringbuf.h)

Properties C03, C04.

The concurrent model follows the documented usage contract (safe_ringbuf.h:8-27): on a single CPU,
producers may interrupt the consumer or other producers at any instruction and then run to
completion (possibly interrupted themselves); the consumer never interrupts a producer.
Each shared-memory access of `__safe_ringbuf_write`/`__safe_ringbuf_read` is one atomic step.
-/
namespace Verif.SafeRingbuf

/-- safe_ringbuf.h:59-74 `struct generic_safe_ringbuf_stat` (bit-fields `read_pos:15`,
`write_pos:15`, `full:1`; `avail_bit` is never written and stays 0). -/
structure Stat where
  rp : Nat
  wp : Nat
  full : Bool
deriving DecidableEq, Repr

/-- safe_ringbuf.h:70-71: the raw u32 overlaying the bit-fields. -/
def pack (s : Stat) : Nat := s.rp + s.wp * 32768 + (if s.full then 1073741824 else 0)

/-- safe_ringbuf.cpp:19-23 `rb_stat_is_empty`. -/
def Stat.isEmpty (s : Stat) : Bool := s.rp == s.wp && !s.full

/-- safe_ringbuf.cpp:123-126: the new status after reserving a slot (15-bit field assignment). -/
def Stat.afterWrite (max : Nat) (ns : Stat) : Stat :=
  let wp := (ns.wp + 1) % max % 32768
  { ns with wp := wp, full := if wp = ns.rp then true else ns.full }

/-- safe_ringbuf.cpp:173-174: the new status after consuming a slot. -/
def Stat.afterRead (max : Nat) (ns : Stat) : Stat :=
  { ns with rp := (ns.rp + 1) % max % 32768, full := false }

/-- Program points of a producer inside `__safe_ringbuf_write` (safe_ringbuf.cpp:100-142). -/
inductive PFrame (α : Type) where
  /-- at line 114 -/
  | start (v : α)
  /-- line 114 executed -/
  | l1 (v : α) (cs : Stat)
  /-- line 115 executed -/
  | l2 (v : α) (cs ns : Stat)
  /-- CAS at line 128 succeeded, slot not yet stored (line 132-135) -/
  | store (v : α) (cs : Stat)

/-- Program points of the consumer inside `__safe_ringbuf_read` (safe_ringbuf.cpp:144-183). -/
inductive CFrame (α : Type) where
  | start
  | l1 (cs : Stat)
  | l2 (cs ns : Stat)
  /-- element copied (line 168-171), about to CAS -/
  | copied (cs ns : Stat) (e : α)

/-- The whole system.  `prods` is the stack of running producers (innermost first), `cons` the
consumer, if it is inside a read.  The last four components are history variables that never
influence the execution:
* `commits`: values of successful slot reservations in order, each with the flag "no element was
  stored at that moment";
* `reads`: values returned by successful reads, in order;
* `rets`: results `(v, was_empty)` of writes that returned true, in order of return;
* `fails`: for every write that returned false, the number of stored elements at that moment. -/
structure Sys (α : Type) where
  stat : Stat
  buf : List α
  prods : List (PFrame α)
  cons : Option (CFrame α)
  commits : List (α × Bool)
  reads : List α
  rets : List (α × Bool)
  fails : List Nat

/-- safe_ringbuf.cpp:78-91 `safe_ringbuf_init`. -/
def init {α} (storage : List α) : Sys α :=
  ⟨⟨0, 0, false⟩, storage, [], none, [], [], [], []⟩

/-- Number of elements reserved and not yet consumed, from the history alone. -/
def Sys.stored {α} (s : Sys α) : Nat := s.commits.length - s.reads.length

/-- One atomic step of the system; `max` is `rb->max_elems`. -/
inductive Step {α} (max : Nat) : Sys α → Sys α → Prop where
  /-- a producer starts, possibly interrupting whatever is running -/
  | interrupt (s : Sys α) (v : α) : Step max s { s with prods := .start v :: s.prods }
  /-- line 114 -/
  | pLoad1 (s : Sys α) (v r) : s.prods = .start v :: r →
      Step max s { s with prods := .l1 v s.stat :: r }
  /-- line 115 -/
  | pLoad2 (s : Sys α) (v cs r) : s.prods = .l1 v cs :: r →
      Step max s { s with prods := .l2 v cs s.stat :: r }
  /-- lines 117-121: full, return false -/
  | pFull (s : Sys α) (v cs ns r) : s.prods = .l2 v cs ns :: r → cs.full = true →
      Step max s { s with prods := r, fails := s.fails ++ [s.stored] }
  /-- lines 123-130, CAS succeeds -/
  | pCas (s : Sys α) (v cs ns r) : s.prods = .l2 v cs ns :: r → cs.full = false →
      pack s.stat = pack cs →
      Step max s { s with stat := ns.afterWrite max, prods := .store v cs :: r,
                          commits := s.commits ++ [(v, s.stored == 0)] }
  /-- line 128: CAS fails (value changed, or spurious failure of the weak CAS): retry -/
  | pCasFail (s : Sys α) (v cs ns r) : s.prods = .l2 v cs ns :: r → cs.full = false →
      Step max s { s with prods := .start v :: r }
  /-- lines 132-141: store the element and return true -/
  | pStore (s : Sys α) (v cs r) : s.prods = .store v cs :: r → cs.wp < s.buf.length →
      Step max s { s with buf := s.buf.set cs.wp v, prods := r,
                          rets := s.rets ++ [(v, cs.isEmpty)] }
  /-- the consumer enters `__safe_ringbuf_read`; it never interrupts a producer -/
  | cBegin (s : Sys α) : s.prods = [] → s.cons = none →
      Step max s { s with cons := some .start }
  | cLoad1 (s : Sys α) : s.prods = [] → s.cons = some .start →
      Step max s { s with cons := some (.l1 s.stat) }
  | cLoad2 (s : Sys α) (cs) : s.prods = [] → s.cons = some (.l1 cs) →
      Step max s { s with cons := some (.l2 cs s.stat) }
  /-- lines 163-166: empty, return false -/
  | cEmpty (s : Sys α) (cs ns) : s.prods = [] → s.cons = some (.l2 cs ns) → cs.isEmpty = true →
      Step max s { s with cons := none }
  /-- lines 168-171 -/
  | cCopy (s : Sys α) (cs ns e) : s.prods = [] → s.cons = some (.l2 cs ns) →
      cs.isEmpty = false → s.buf[cs.rp]? = some e →
      Step max s { s with cons := some (.copied cs ns e) }
  /-- lines 173-182, CAS succeeds -/
  | cCas (s : Sys α) (cs ns e) : s.prods = [] → s.cons = some (.copied cs ns e) →
      pack s.stat = pack cs →
      Step max s { s with stat := ns.afterRead max, cons := none, reads := s.reads ++ [e] }
  | cCasFail (s : Sys α) (cs ns e) : s.prods = [] → s.cons = some (.copied cs ns e) →
      Step max s { s with cons := some .start }

/-- States reachable from initialisation. -/
inductive Reach {α} (storage : List α) : Sys α → Prop where
  | init : Reach storage (init storage)
  | step {s t} : Reach storage s → Step storage.length s t → Reach storage t

/-- The elements the buffer itself holds, oldest first, as decoded from status and storage. -/
def contents {α} (max : Nat) (s : Sys α) : List α :=
  let n := if s.stat.full then max else (max + s.stat.wp - s.stat.rp) % max
  (List.range n).filterMap fun i => s.buf[(s.stat.rp + i) % max]?

/-! ## Invariant -/

/-- The status word for read position `rp` and `k` stored elements. -/
def statOf (max rp k : Nat) : Stat := ⟨rp, (rp + k) % max, decide (k = max)⟩

/-- What is known about a producer frame, given the current read position and queue. -/
def PInv {α} (max rp : Nat) (q : List α) : PFrame α → Prop
  | .start _ => True
  | .l1 _ cs => ∃ k, k ≤ q.length ∧ cs = statOf max rp k
  | .l2 _ cs ns => ∃ k k', k ≤ k' ∧ k' ≤ q.length ∧ cs = statOf max rp k ∧ ns = statOf max rp k'
  | .store v cs => ∃ k, k < q.length ∧ cs = statOf max rp k ∧ q[k]? = some v

def CInv {α} (max rp : Nat) (q : List α) : CFrame α → Prop
  | .start => True
  | .l1 cs => ∃ k, k ≤ q.length ∧ cs = statOf max rp k
  | .l2 cs ns => ∃ k k', k ≤ k' ∧ k' ≤ q.length ∧ cs = statOf max rp k ∧ ns = statOf max rp k'
  | .copied cs ns e => ∃ k k', 0 < k ∧ k ≤ k' ∧ k' ≤ q.length ∧ cs = statOf max rp k ∧
      ns = statOf max rp k' ∧ q[0]? = some e

/-- Slot reserved by a frame. -/
def PFrame.slot? {α} : PFrame α → Option (α × Stat)
  | .store v cs => some (v, cs)
  | _ => none

def pending {α} (ps : List (PFrame α)) : List (α × Stat) := ps.filterMap PFrame.slot?

@[simp] theorem pending_nil {α} : pending ([] : List (PFrame α)) = [] := rfl
@[simp] theorem pending_start {α} (v : α) r : pending (.start v :: r) = pending r := rfl
@[simp] theorem pending_l1 {α} (v : α) c r : pending (.l1 v c :: r) = pending r := rfl
@[simp] theorem pending_l2 {α} (v : α) c n r : pending (.l2 v c n :: r) = pending r := rfl
@[simp] theorem pending_store {α} (v : α) c r : pending (.store v c :: r) = (v, c) :: pending r := rfl

structure Inv {α} (max : Nat) (s : Sys α) (q : List α) : Prop where
  pos : 0 < max
  bound : max ≤ 32768
  blen : s.buf.length = max
  rlt : s.stat.rp < max
  le : q.length ≤ max
  st : s.stat = statOf max s.stat.rp q.length
  hist : s.commits.map Prod.fst = s.reads ++ q
  val : ∀ i, i < q.length → s.buf[(s.stat.rp + i) % max]? = q[i]? ∨
    ∃ p ∈ pending s.prods, p.2.wp = (s.stat.rp + i) % max
  prods : ∀ p ∈ s.prods, PInv max s.stat.rp q p
  cons : ∀ c, s.cons = some c → CInv max s.stat.rp q c
  uniq : (pending s.prods).Pairwise (fun a b => a.2.wp ≠ b.2.wp)
  perm : (s.rets ++ (pending s.prods).map fun p => (p.1, p.2.isEmpty)).Perm s.commits
  fails : ∀ n ∈ s.fails, n = max

open Verif.Ringbuf (modcase)

theorem pack_inj {a b : Stat} (ha : a.rp < 32768) (ha' : a.wp < 32768) (hb : b.rp < 32768)
    (hb' : b.wp < 32768) (h : pack a = pack b) : a = b := by
  obtain ⟨ar, aw, af⟩ := a
  obtain ⟨br, bw, bf⟩ := b
  simp only [pack] at *
  cases af <;> cases bf <;> simp at h ⊢ <;> omega

theorem statOf_wp_inj {max rp k k' : Nat} (hr : rp < max) (hk : k < max) (hk' : k' < max)
    (h : (rp + k) % max = (rp + k') % max) : k = k' := by
  have h1 := modcase (a := rp + k) (m := max) (by omega)
  have h2 := modcase (a := rp + k') (m := max) (by omega)
  omega

theorem statOf_inj {max rp k k' : Nat} (hr : rp < max) (hk : k ≤ max) (hk' : k' ≤ max)
    (h : statOf max rp k = statOf max rp k') : k = k' := by
  simp only [statOf, Stat.mk.injEq, true_and, decide_eq_decide] at h
  obtain ⟨h1, h2⟩ := h
  by_cases hm : k = max
  · exact hm.trans (h2.mp hm).symm
  · have : k' ≠ max := fun h' => hm (h2.mpr h')
    exact statOf_wp_inj hr (by omega) (by omega) h1

theorem statOf_isEmpty {max rp k : Nat} (hr : rp < max) (hk : k ≤ max) :
    (statOf max rp k).isEmpty = decide (k = 0) := by
  have h1 := modcase (a := rp + k) (m := max) (by omega)
  simp only [statOf, Stat.isEmpty]
  by_cases hm : k = max
  · simp [hm]; omega
  · by_cases hk0 : k = 0
    · subst hk0; simp [Nat.mod_eq_of_lt hr]; omega
    · simp [hm, hk0]; omega

theorem afterWrite_statOf {max rp k : Nat} (hm : max ≤ 32768) (hr : rp < max) (hk : k < max) :
    (statOf max rp k).afterWrite max = statOf max rp (k + 1) := by
  have h1 := modcase (a := rp + (k + 1)) (m := max) (by omega)
  have h2 : (rp + (k+1)) % max < max := Nat.mod_lt _ (by omega)
  simp only [statOf, Stat.afterWrite, Nat.mod_add_mod, Stat.mk.injEq, true_and, Nat.add_assoc]
  rw [Nat.mod_eq_of_lt (a := (rp + (k+1)) % max) (by omega)]
  refine ⟨rfl, ?_⟩
  split <;> simp <;> omega

theorem afterRead_statOf {max rp k : Nat} (hm : max ≤ 32768) (hr : rp < max) (hk : k < max) :
    (statOf max rp (k + 1)).afterRead max = statOf max ((rp + 1) % max) k := by
  have h2 : (rp + 1) % max < max := Nat.mod_lt _ (by omega)
  simp only [statOf, Stat.afterRead, Stat.mk.injEq]
  rw [Nat.mod_eq_of_lt (a := (rp + 1) % max) (by omega), Nat.mod_add_mod]
  refine ⟨rfl, ?_, ?_⟩
  · congr 1; omega
  · simp; omega

theorem PInv.mono {α} {max rp : Nat} {q : List α} (x : α) {p : PFrame α} (h : PInv max rp q p) :
    PInv max rp (q ++ [x]) p := by
  cases p with
  | start => trivial
  | l1 v cs => obtain ⟨k, h1, h2⟩ := h; exact ⟨k, by simp; omega, h2⟩
  | l2 v cs ns => obtain ⟨k, k', h0, h1, h2⟩ := h; exact ⟨k, k', h0, by simp; omega, h2⟩
  | store v cs =>
    obtain ⟨k, h1, h2, h3⟩ := h
    exact ⟨k, by simp; omega, h2, by rw [List.getElem?_append_left h1]; exact h3⟩

theorem CInv.mono {α} {max rp : Nat} {q : List α} (x : α) {p : CFrame α} (h : CInv max rp q p) :
    CInv max rp (q ++ [x]) p := by
  cases p with
  | start => trivial
  | l1 cs => obtain ⟨k, h1, h2⟩ := h; exact ⟨k, by simp; omega, h2⟩
  | l2 cs ns => obtain ⟨k, k', h0, h1, h2⟩ := h; exact ⟨k, k', h0, by simp; omega, h2⟩
  | copied cs ns e =>
    obtain ⟨k, k', h0, h1, h2, h3, h4, h5⟩ := h
    exact ⟨k, k', h0, h1, by simp; omega, h3, h4, by rw [List.getElem?_append_left (by omega)]; exact h5⟩

theorem inv_init {α} (st : List α) (h : 0 < st.length) (hb : st.length ≤ 32768) :
    Inv st.length (init st) [] := by
  refine ⟨h, hb, rfl, h, by simp, ?_, rfl, by simp, by simp [init], by simp [init], by simp [init],
    by simp [init], by simp [init]⟩
  simp [init, statOf]; omega

theorem stored_eq {α} {max : Nat} {s : Sys α} {q : List α} (h : Inv max s q) :
    s.stored = q.length := by
  have := congrArg List.length h.hist
  simp at this; simp [Sys.stored]; omega

theorem statOf_lt {max rp k : Nat} (hm : max ≤ 32768) (hr : rp < max) :
    (statOf max rp k).rp < 32768 ∧ (statOf max rp k).wp < 32768 := by
  have : (rp + k) % max < max := Nat.mod_lt _ (by omega)
  simp [statOf]; omega

/-- Equal raw words at the CAS mean nothing happened since the first load. -/
theorem cas_eq {α} {max : Nat} {s : Sys α} {q : List α} (h : Inv max s q) {k : Nat}
    (hk : k ≤ q.length) (hp : pack s.stat = pack (statOf max s.stat.rp k)) : k = q.length := by
  have h1 := statOf_lt (k := k) h.bound h.rlt
  have h2 := statOf_lt (k := q.length) h.bound h.rlt
  rw [← h.st] at h2
  have h3 := pack_inj h2.1 h2.2 h1.1 h1.2 hp
  rw [h.st] at h3
  have hle := h.le
  exact (statOf_inj h.rlt h.le (by omega) h3).symm

theorem inv_step {α} {max : Nat} {s t : Sys α} {q : List α} (h : Inv max s q)
    (st : Step max s t) : ∃ q', Inv max t q' := by
  have h0 := h
  obtain ⟨pos, bound, blen, rlt, le, hst, hist, val, prods, cons, uniq, perm, fails⟩ := h
  cases st with
  | interrupt v =>
    refine ⟨q, pos, bound, blen, rlt, le, hst, hist, ?_, ?_, cons, ?_, ?_, fails⟩
    · simpa using val
    · intro p hp
      rcases List.mem_cons.mp hp with rfl | hp
      · trivial
      · exact prods p hp
    · simpa using uniq
    · simpa using perm
  | pLoad1 v r hp =>
    rw [hp] at prods val uniq perm
    refine ⟨q, pos, bound, blen, rlt, le, hst, hist, ?_, ?_, cons, ?_, ?_, fails⟩
    · simpa using val
    · intro p hp
      rcases List.mem_cons.mp hp with rfl | hp
      · exact ⟨q.length, Nat.le_refl _, hst⟩
      · exact prods p (List.mem_cons_of_mem _ hp)
    · simpa using uniq
    · simpa using perm
  | pLoad2 v cs r hp =>
    rw [hp] at prods val uniq perm
    refine ⟨q, pos, bound, blen, rlt, le, hst, hist, ?_, ?_, cons, ?_, ?_, fails⟩
    · simpa using val
    · intro p hp
      rcases List.mem_cons.mp hp with rfl | hp
      · obtain ⟨k, hk, hcs⟩ := prods _ List.mem_cons_self
        exact ⟨k, q.length, hk, Nat.le_refl _, hcs, hst⟩
      · exact prods p (List.mem_cons_of_mem _ hp)
    · simpa using uniq
    · simpa using perm
  | pFull v cs ns r hp hf =>
    rw [hp] at prods val uniq perm
    refine ⟨q, pos, bound, blen, rlt, le, hst, hist, ?_, ?_, cons, ?_, ?_, ?_⟩
    · simpa using val
    · exact fun p hp => prods p (List.mem_cons_of_mem _ hp)
    · simpa using uniq
    · simpa using perm
    · intro n hn
      rcases List.mem_append.mp hn with hn | hn
      · exact fails n hn
      · obtain ⟨k, k', h1, h2, h3, h4⟩ := prods _ List.mem_cons_self
        rw [stored_eq h0, List.mem_singleton] at hn
        simp [h3, statOf] at hf
        omega
  | pCas v cs ns r hp hf hcas =>
    obtain ⟨k, k', h1, h2, h3, h4⟩ := prods (.l2 v cs ns) (by rw [hp]; exact List.mem_cons_self)
    rw [h3] at hcas
    have hk := cas_eq h0 (by omega) hcas
    have hk' : k' = q.length := by omega
    subst hk
    rw [hk'] at h4
    have hlt : q.length < max := by
      rw [h3] at hf; simp [statOf] at hf; omega
    have hns : ns.afterWrite max = statOf max s.stat.rp (q.length + 1) := by
      rw [h4, afterWrite_statOf bound rlt hlt]
    have hpend : pending s.prods = pending r := by simp [hp]
    have hpend' : pending (.store v cs :: r) = (v, cs) :: pending r := rfl
    have hrp : (ns.afterWrite max).rp = s.stat.rp := by rw [hns]; rfl
    rw [hpend] at val uniq perm
    have hcsw : cs.wp = (s.stat.rp + q.length) % max := by rw [h3]; rfl
    refine ⟨q ++ [v], pos, bound, blen, ?_, ?_, ?_, ?_, ?_, ?_, ?_, ?_, ?_, fails⟩
    · rw [hrp]; exact rlt
    · simp; omega
    · simp only [hrp, hns, List.length_append, List.length_singleton]; rfl
    · simp [hist]
    · intro i hi
      simp only [hrp, hpend']
      simp only [List.length_append, List.length_singleton] at hi
      by_cases hiq : i < q.length
      · rw [List.getElem?_append_left hiq]
        rcases val i hiq with hv | ⟨p, hp1, hp2⟩
        · exact Or.inl hv
        · exact Or.inr ⟨p, List.mem_cons_of_mem _ hp1, hp2⟩
      · have : i = q.length := by omega
        subst this
        exact Or.inr ⟨_, List.mem_cons_self, hcsw⟩
    · intro p hpm
      simp only [hrp]
      rcases List.mem_cons.mp hpm with rfl | hpm
      · exact ⟨q.length, by simp, h3, by simp⟩
      · exact (prods p (by rw [hp]; exact List.mem_cons_of_mem _ hpm)).mono v
    · intro c hc
      simp only [hrp]
      exact (cons c hc).mono v
    · rw [hpend']
      refine List.Pairwise.cons ?_ uniq
      intro p hpm
      simp only [pending, List.mem_filterMap] at hpm
      obtain ⟨f, hf1, hf2⟩ := hpm
      have hfi := prods f (by rw [hp]; exact List.mem_cons_of_mem _ hf1)
      cases f <;> simp [PFrame.slot?] at hf2
      subst hf2
      obtain ⟨j, hj1, hj2, hj3⟩ := hfi
      rw [hcsw, hj2]
      intro heq
      have := statOf_wp_inj rlt hlt (by omega) heq
      omega
    · have hemp : cs.isEmpty = (s.stored == 0) := by
        rw [stored_eq h0, h3, statOf_isEmpty rlt (by omega)]
        rfl
      simp only [hpend', List.map_cons, hemp]
      rw [← List.singleton_append, ← List.append_assoc]
      refine (List.Perm.append_right _ List.perm_append_comm).trans ?_
      rw [List.append_assoc]
      exact (List.perm_append_comm).trans (perm.append_right _)
  | pCasFail v cs ns r hp hf =>
    rw [hp] at prods val uniq perm
    refine ⟨q, pos, bound, blen, rlt, le, hst, hist, ?_, ?_, cons, ?_, ?_, fails⟩
    · simpa using val
    · intro p hp
      rcases List.mem_cons.mp hp with rfl | hp
      · trivial
      · exact prods p (List.mem_cons_of_mem _ hp)
    · simpa using uniq
    · simpa using perm
  | pStore v cs r hp hlt =>
    rw [hp] at prods val uniq perm
    have hpend : pending (.store v cs :: r) = (v, cs) :: pending r := rfl
    rw [hpend] at val uniq perm
    obtain ⟨k, hk, hcs, hkv⟩ := prods _ List.mem_cons_self
    have hcsw : cs.wp = (s.stat.rp + k) % max := by rw [hcs]; rfl
    refine ⟨q, pos, bound, by simp [blen], rlt, le, hst, hist, ?_, ?_, cons, ?_, ?_, fails⟩
    · intro i hi
      by_cases hik : i = k
      · subst hik
        left
        simp only
        rw [← hcsw, List.getElem?_set_self hlt, hkv]
      · have hne : cs.wp ≠ (s.stat.rp + i) % max := by
          rw [hcsw]; intro heq
          exact hik (statOf_wp_inj rlt (by omega) (by omega) heq).symm
        rcases val i hi with hv | ⟨p, hp1, hp2⟩
        · left; simp only; rw [List.getElem?_set_ne hne, hv]
        · rcases List.mem_cons.mp hp1 with rfl | hp1
          · exact absurd hp2 hne
          · exact Or.inr ⟨p, hp1, hp2⟩
    · exact fun p hp => prods p (List.mem_cons_of_mem _ hp)
    · exact (List.pairwise_cons.mp uniq).2
    · simp only [List.map_cons] at perm
      simp only [List.append_assoc, List.singleton_append]
      exact perm
  | cBegin h1 h2 =>
    exact ⟨q, pos, bound, blen, rlt, le, hst, hist, val, prods,
      by intro c hc; simp at hc; subst hc; trivial, uniq, perm, fails⟩
  | cLoad1 h1 h2 =>
    exact ⟨q, pos, bound, blen, rlt, le, hst, hist, val, prods,
      by intro c hc; simp at hc; subst hc; exact ⟨q.length, Nat.le_refl _, hst⟩, uniq, perm, fails⟩
  | cLoad2 cs h1 h2 =>
    refine ⟨q, pos, bound, blen, rlt, le, hst, hist, val, prods, ?_, uniq, perm, fails⟩
    intro c hc; simp at hc; subst hc
    obtain ⟨k, hk, hcs⟩ := cons _ h2
    exact ⟨k, q.length, hk, Nat.le_refl _, hcs, hst⟩
  | cEmpty cs ns h1 h2 h3 =>
    exact ⟨q, pos, bound, blen, rlt, le, hst, hist, val, prods,
      by intro c hc; simp at hc, uniq, perm, fails⟩
  | cCopy cs ns e h1 h2 h3 h4 =>
    refine ⟨q, pos, bound, blen, rlt, le, hst, hist, val, prods, ?_, uniq, perm, fails⟩
    intro c hc; simp at hc; subst hc
    obtain ⟨k, k', hk, hk', hcs, hns⟩ := cons _ h2
    have hk0 : 0 < k := by
      rw [hcs, statOf_isEmpty rlt (by omega)] at h3
      simp at h3; omega
    refine ⟨k, k', hk0, hk, hk', hcs, hns, ?_⟩
    have hv := val 0 (by omega)
    rw [h1] at hv
    simp only [pending_nil, List.not_mem_nil, false_and, exists_false, or_false,
      Nat.add_zero, Nat.mod_eq_of_lt rlt] at hv
    rw [hcs] at h4
    simp only [statOf] at h4
    rw [← hv, h4]
  | cCas cs ns e h1 h2 h3 =>
    obtain ⟨k, k', hk0, hk, hk', hcs, hns, he⟩ := cons _ h2
    rw [hcs] at h3
    have hkq := cas_eq h0 (by omega) h3
    have hk'q : k' = q.length := by omega
    cases q with
    | nil => simp at he
    | cons x xs =>
      simp at he; subst he
      simp only [List.length_cons] at *
      have hns2 : ns.afterRead max = statOf max ((s.stat.rp + 1) % max) xs.length := by
        rw [hns, hk'q, afterRead_statOf bound rlt (by omega)]
      have hrp : (ns.afterRead max).rp = (s.stat.rp + 1) % max := by rw [hns2]; rfl
      refine ⟨xs, pos, bound, blen, ?_, by omega, ?_, ?_, ?_, ?_, ?_, uniq, perm, fails⟩
      · rw [hrp]; exact Nat.mod_lt _ pos
      · simp only [hrp]; exact hns2
      · simp [hist]
      · intro i hi
        left
        have := val (i+1) (by omega)
        rw [h1] at this
        simp only [pending_nil, List.not_mem_nil, false_and, exists_false, or_false,
          List.getElem?_cons_succ] at this
        simp only [hrp]
        rw [← this, Nat.mod_add_mod]; congr 2; omega
      · intro p hp; simp only [h1] at hp; simp at hp
      · intro c hc; simp at hc
  | cCasFail cs ns e h1 h2 =>
    exact ⟨q, pos, bound, blen, rlt, le, hst, hist, val, prods,
      by intro c hc; simp at hc; subst hc; trivial, uniq, perm, fails⟩

theorem inv_reach {α} {storage : List α} (hpos : 0 < storage.length)
    (hmax : storage.length ≤ 32768) {s : Sys α} (h : Reach storage s) :
    ∃ q, Inv storage.length s q := by
  induction h with
  | init => exact ⟨[], inv_init storage hpos hmax⟩
  | step _ st ih => obtain ⟨q, hq⟩ := ih; exact inv_step hq st

theorem filterMap_range {α} (q : List α) (f : Nat → Option α) (n : Nat) (hn : n = q.length)
    (h : ∀ i, i < q.length → f i = q[i]?) : (List.range n).filterMap f = q := by
  subst hn
  induction q generalizing f with
  | nil => rfl
  | cons x xs ih =>
    rw [List.length_cons, List.range_succ_eq_map, List.filterMap_cons]
    have h0 := h 0 (by simp)
    simp only [List.getElem?_cons_zero] at h0
    rw [h0, List.filterMap_map]
    show x :: _ = x :: xs
    congr 1
    apply ih
    intro i hi
    have := h (i+1) (by simp; omega)
    simpa using this

theorem contents_eq {α} {max : Nat} {s : Sys α} {q : List α} (h : Inv max s q)
    (hidle : s.prods = []) : contents max s = q := by
  unfold contents
  apply filterMap_range
  · rw [h.st]
    have hr := h.rlt
    have hl := h.le
    have h1 := modcase (a := s.stat.rp + q.length) (m := max) (by omega)
    simp only [statOf]
    by_cases hm : q.length = max
    · simp [hm]
    · simp only [hm, decide_false, Bool.false_eq_true, if_false]
      rcases h1 with ⟨h1, h2⟩ | ⟨h1, h2⟩
      · rw [h2, show max + (s.stat.rp + q.length) - s.stat.rp = max + q.length by omega,
          Nat.add_mod_left, Nat.mod_eq_of_lt (by omega)]
      · rw [h2, show max + (s.stat.rp + q.length - max) - s.stat.rp = q.length by omega,
          Nat.mod_eq_of_lt (by omega)]
  · intro i hi
    have := h.val i hi
    simpa [hidle] using this

/-! ## Property theorems -/

/-- **C04 (and C03).**  In every reachable state of every schedule in which no producer is running:
the elements decoded from the buffer are exactly the successfully reserved values, in reservation
order, minus those already returned by reads (which were returned in the same order); each write that
reserved a slot has returned exactly once with a correct `was_empty` flag. -/
theorem safe_ringbuf_no_loss_no_dup {α} (storage : List α) (hpos : 0 < storage.length)
    (hmax : storage.length ≤ 32768) (s : Sys α) (h : Reach storage s) (hidle : s.prods = []) :
    s.commits.map Prod.fst = s.reads ++ contents storage.length s ∧ s.rets.Perm s.commits := by
  obtain ⟨q, hq⟩ := inv_reach hpos hmax h
  refine ⟨by rw [contents_eq hq hidle]; exact hq.hist, ?_⟩
  simpa [hidle] using hq.perm

/-- **C03/C04.**  At every reachable point, whatever is running, the values returned by reads are a
prefix of the reserved values in reservation order and at most `max_elems` are outstanding. -/
theorem safe_ringbuf_reads_fifo {α} (storage : List α) (hpos : 0 < storage.length)
    (hmax : storage.length ≤ 32768) (s : Sys α) (h : Reach storage s) :
    s.reads <+: s.commits.map Prod.fst ∧ s.stored ≤ storage.length := by
  obtain ⟨q, hq⟩ := inv_reach hpos hmax h
  refine ⟨⟨q, hq.hist.symm⟩, ?_⟩
  rw [stored_eq hq]; exact hq.le

/-- **C03.**  A write returns false only when the buffer holds `max_elems` elements at that
moment, and a read returns "empty" only if the buffer was empty when the status was loaded.  The
first half is about every failed write in the history. -/
theorem safe_ringbuf_fail_only_when_full {α} (storage : List α) (hpos : 0 < storage.length)
    (hmax : storage.length ≤ 32768) (s : Sys α) (h : Reach storage s) :
    ∀ n ∈ s.fails, n = storage.length := by
  obtain ⟨q, hq⟩ := inv_reach hpos hmax h
  exact hq.fails

/-- **C03.**  The status word read by any operation at any reachable point says "full"/"empty"
exactly when the history says `max_elems`/0 elements are stored. -/
theorem safe_ringbuf_status_exact {α} (storage : List α) (hpos : 0 < storage.length)
    (hmax : storage.length ≤ 32768) (s : Sys α) (h : Reach storage s) :
    (s.stat.full = true ↔ s.stored = storage.length) ∧
    (s.stat.isEmpty = true ↔ s.stored = 0) := by
  obtain ⟨q, hq⟩ := inv_reach hpos hmax h
  rw [stored_eq hq]
  constructor
  · rw [hq.st]; simp [statOf]
  · rw [hq.st, statOf_isEmpty hq.rlt hq.le]; simp

/-- **C03/C04.**  No operation ever touches memory outside the storage: the slot a producer is about
to store to and the slot the consumer is about to copy are always inside the buffer. -/
theorem safe_ringbuf_in_bounds {α} (storage : List α) (hpos : 0 < storage.length)
    (hmax : storage.length ≤ 32768) (s : Sys α) (h : Reach storage s) :
    (∀ v cs, PFrame.store v cs ∈ s.prods → cs.wp < s.buf.length) ∧
    (∀ cs ns, s.cons = some (.l2 cs ns) → cs.rp < s.buf.length) := by
  obtain ⟨q, hq⟩ := inv_reach hpos hmax h
  constructor
  · intro v cs hm
    obtain ⟨k, _, hcs, _⟩ := hq.prods _ hm
    rw [hcs, hq.blen]; exact Nat.mod_lt _ hq.pos
  · intro cs ns hc
    obtain ⟨k, k', _, _, hcs, _⟩ := hq.cons _ hc
    rw [hcs, hq.blen]; exact hq.rlt

/-- Non-vacuity: a producer interrupted (after its reservation, before its store) by another
producer that completes; both elements end up in the buffer in reservation order. -/
example : ∃ s : Sys Nat, Reach [0, 0, 0] s ∧ s.prods = [] ∧ contents 3 s = [7, 8] ∧
    s.rets = [(8, false), (7, true)] ∧ s.commits = [(7, true), (8, false)] := by
  refine ⟨_, .step (.step (.step (.step (.step (.step (.step (.step (.step (.step .init
    (.interrupt _ 7)) (.pLoad1 _ 7 _ rfl)) (.pLoad2 _ 7 _ _ rfl)) (.pCas _ 7 _ _ _ rfl rfl rfl))
    (.interrupt _ 8)) (.pLoad1 _ 8 _ rfl)) (.pLoad2 _ 8 _ _ rfl)) (.pCas _ 8 _ _ _ rfl rfl rfl))
    (.pStore _ 8 _ _ rfl (by decide))) (.pStore _ 7 _ _ rfl (by decide)), rfl, ?_, ?_, ?_⟩ <;> decide

end Verif.SafeRingbuf
