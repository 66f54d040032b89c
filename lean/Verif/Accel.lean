/-!
# The accelerator of small allocations (kernel/kmalloc/kmalloc_accelerator.c.h)

Property C192: elements taken from an accelerator are separate live blocks that may be freed one by one, and
destroying it gives back all the rest and nothing else.
-/
namespace Verif.Accel

/-- A block of memory: address and size. -/
abbrev Block := Nat × Nat

/-- `struct kmalloc_acc` and the blocks in use in the heap. -/
structure St where
  size : Nat
  cnt : Nat
  cur : Nat
  buf : Nat
  live : List Block
  deriving DecidableEq, Repr

/-- kmalloc_accelerator.c.h:21-51 `kmalloc_create_accelerator`; the assertions on the sizes are hypotheses of
the theorems as far as they are needed (at least one element). -/
def mk (size cnt : Nat) (live : List Block) : St := { size, cnt, cur := cnt, buf := 0, live }

/-- The blocks that may be freed one by one in a buffer allocated with `sub_blocks_min_size`
(kernel/kmalloc/kmalloc.c:473-512: the block is split down to this size), from number `i` on. -/
def pieces (b size i : Nat) : Nat → List Block
  | 0 => []
  | k + 1 => (b + size * i, size) :: pieces b size (i + 1) k

/-- kmalloc_accelerator.c.h:53-74 `kmalloc_accelerator_get_elem`; `o` is what general_kmalloc answers, if it
is called.  Simplified: no overflow of the product of the sizes, and the size reported is the size asked
for (the assertion on it holds). -/
def get (s : St) (o : Option Nat) : St × Option Nat :=
  if s.cur = s.cnt then
    match o with
    | none => ({ s with buf := 0 }, none)
    | some b => ({ s with buf := b, cur := 1, live := pieces b s.size 0 s.cnt ++ s.live }, some b)
  else ({ s with cur := s.cur + 1 }, some (s.buf + s.size * s.cur))

/-- general_kmalloc.c.h `general_kfree` with KFREE_FL_ALLOW_SPLIT, seen from outside (`SmallHeap` and `Kmalloc`
model the heaps); `none` if there is no such block in use. -/
def free (live : List Block) (x : Block) : Option (List Block) := if x ∈ live then some (live.erase x) else none

/-- kmalloc_accelerator.c.h:76-90 `kmalloc_destroy_accelerator`: the loop, `k` rounds before the end. -/
def destroyFrom : Nat → St → Option St
  | 0, s => some s
  | k + 1, s => (free s.live (s.buf + s.size * s.cur, s.size)).bind fun l =>
      destroyFrom k { s with live := l, cur := s.cur + 1 }

/-- The whole of `kmalloc_destroy_accelerator`. -/
def destroy (s : St) : Option St := destroyFrom (s.cnt - s.cur) s

/-- What the user of an accelerator does: takes an element, or frees one. -/
inductive Op
  | get (o : Option Nat)
  | put (a : Nat)

/-- The accelerator and the elements that the user has. -/
def step (x : St × List Nat) : Op → Option (St × List Nat)
  | .get o => some ((get x.1 o).1, (get x.1 o).2.toList ++ x.2)
  | .put a => (free x.1.live (a, x.1.size)).map fun l => ({ x.1 with live := l }, x.2.erase a)

/-- A history (glue). -/
def run (x : St × List Nat) : List Op → Option (St × List Nat)
  | [] => some x
  | o :: l => (step x o).bind fun y => run y l

/-! ## Specification -/

/-- Two blocks have no byte in common. -/
def Apart (x y : Block) : Prop := x.1 + x.2 ≤ y.1 ∨ y.1 + y.2 ≤ x.1

/-- The heap gives memory that is not in use, and the user frees only what it has. -/
def Fair (x : St × List Nat) : List Op → Prop
  | [] => True
  | o :: l => (match o with
      | .get (some b) => ∀ q ∈ x.1.live, Apart (b, x.1.size * x.1.cnt) q
      | .get none => True
      | .put a => a ∈ x.2) ∧ ∀ y, step x o = some y → Fair y l

/-! ## Proofs -/

theorem mem_pieces {b size : Nat} : ∀ {k i : Nat} {q : Block}, q ∈ pieces b size i k →
    q.2 = size ∧ b + size * i ≤ q.1 ∧ q.1 + size ≤ b + size * (i + k)
  | 0, _, _, h => by cases h
  | k + 1, i, q, h => by
    rcases List.mem_cons.1 h with rfl | h
    · refine ⟨rfl, Nat.le_refl _, ?_⟩
      dsimp only
      rw [Nat.mul_add, Nat.mul_add, Nat.mul_one]
      omega
    · obtain ⟨h1, h2, h3⟩ := mem_pieces h
      refine ⟨h1, ?_, ?_⟩
      · rw [Nat.mul_add, Nat.mul_one] at h2; omega
      · rw [show i + (k + 1) = i + 1 + k by omega]; exact h3

theorem apart_pieces (b size : Nat) : ∀ (k i : Nat), (pieces b size i k).Pairwise Apart
  | 0, _ => List.Pairwise.nil
  | k + 1, i => by
    refine List.Pairwise.cons ?_ (apart_pieces b size k (i + 1))
    intro q hq
    obtain ⟨-, h2, -⟩ := mem_pieces hq
    left
    dsimp only
    rw [Nat.mul_add, Nat.mul_one] at h2
    omega

theorem Apart.symm {x y : Block} (h : Apart x y) : Apart y x := Or.symm h

/-- The user's elements as blocks. -/
def blocks (size : Nat) (g : List Nat) : List Block := g.map fun a => (a, size)

structure Inv (size cnt : Nat) (l0 : List Block) (x : St × List Nat) : Prop where
  hsize : x.1.size = size
  hcnt : x.1.cnt = cnt
  hcur : x.1.cur ≤ cnt
  perm : x.1.live.Perm (blocks size x.2 ++ (pieces x.1.buf size x.1.cur (cnt - x.1.cur) ++ l0))
  apart : x.1.live.Pairwise Apart

theorem blocks_erase (size a : Nat) : ∀ (g : List Nat), blocks size (g.erase a) = (blocks size g).erase (a, size)
  | [] => rfl
  | b :: g => by
    by_cases e : b = a
    · subst e; simp [blocks]
    · have : (b, size) ≠ (a, size) := fun k => e (Prod.mk.inj k).1
      rw [List.erase_cons_tail (by simpa using e)]
      show (b, size) :: blocks size (g.erase a) = ((b, size) :: blocks size g).erase (a, size)
      rw [List.erase_cons_tail (by simpa using e), blocks_erase size a g]

theorem step_inv {size cnt : Nat} (hc : 0 < cnt) {l0 : List Block} {x : St × List Nat} (h : Inv size cnt l0 x) {o : Op}
    (ho : match o with
      | .get (some b) => ∀ q ∈ x.1.live, Apart (b, x.1.size * x.1.cnt) q
      | .get none => True
      | .put a => a ∈ x.2) : ∃ y, step x o = some y ∧ Inv size cnt l0 y := by
  obtain ⟨h1, h2, h3, h4, h5⟩ := h
  obtain ⟨s, g⟩ := x
  dsimp only at h1 h2 h3 h4 h5 ho
  cases o with
  | get o =>
    refine ⟨_, rfl, ?_⟩
    unfold get
    by_cases c : s.cur = s.cnt
    · have h4' : s.live.Perm (blocks size g ++ l0) := by
        rw [c, h2, Nat.sub_self] at h4
        exact h4
      dsimp only
      rw [if_pos c]
      cases o with
      | none =>
        refine ⟨h1, h2, h3, ?_, h5⟩
        show s.live.Perm (blocks size g ++ (pieces 0 size s.cur (cnt - s.cur) ++ l0))
        rw [c, h2, Nat.sub_self]
        exact h4'
      | some b =>
        refine ⟨h1, h2, hc, ?_, ?_⟩
        · show (pieces b s.size 0 s.cnt ++ s.live).Perm ((b, size) :: blocks size g ++ (pieces b size 1 (cnt - 1) ++ l0))
          obtain ⟨n, rfl⟩ : ∃ n, cnt = n + 1 := ⟨cnt - 1, by omega⟩
          rw [h1, h2]
          show ((b + size * 0, size) :: (pieces b size 1 n ++ s.live)).Perm ((b, size) :: (blocks size g ++ (pieces b size 1 (n + 1 - 1) ++ l0)))
          rw [Nat.mul_zero, Nat.add_zero, Nat.add_sub_cancel]
          refine List.Perm.cons _ ?_
          refine (List.Perm.append_left _ h4').trans ?_
          rw [← List.append_assoc, ← List.append_assoc]
          exact List.Perm.append_right _ List.perm_append_comm
        · show (pieces b s.size 0 s.cnt ++ s.live).Pairwise Apart
          refine List.pairwise_append.2 ⟨apart_pieces .., h5, ?_⟩
          intro p hp q hq
          obtain ⟨p1, p2, p3⟩ := mem_pieces hp
          have := ho q hq
          unfold Apart at this ⊢
          dsimp only at this
          rw [Nat.mul_zero, Nat.add_zero] at p2
          rw [Nat.zero_add] at p3
          omega
    · have hlt : s.cur < cnt := by omega
      dsimp only
      rw [if_neg c]
      refine ⟨h1, h2, hlt, ?_, h5⟩
      show s.live.Perm ((s.buf + s.size * s.cur, size) :: blocks size g ++ (pieces s.buf size (s.cur + 1) (cnt - (s.cur + 1)) ++ l0))
      obtain ⟨n, hn⟩ : ∃ n, cnt - s.cur = n + 1 := ⟨cnt - s.cur - 1, by omega⟩
      rw [show cnt - (s.cur + 1) = n by omega, h1]
      rw [hn] at h4
      refine h4.trans ?_
      show (blocks size g ++ ((s.buf + size * s.cur, size) :: (pieces s.buf size (s.cur + 1) n ++ l0))).Perm _
      exact List.perm_middle
  | put a =>
    have hm : (a, s.size) ∈ s.live := by
      rw [h1]
      exact h4.mem_iff.2 (List.mem_append_left _ (List.mem_map.2 ⟨a, ho, rfl⟩))
    refine ⟨({ s with live := s.live.erase (a, s.size) }, g.erase a), ?_, h1, h2, h3, ?_, h5.sublist (List.erase_sublist ..)⟩
    · simp [step, free, hm]
    · show (s.live.erase (a, s.size)).Perm (blocks size (g.erase a) ++ _)
      rw [blocks_erase, h1]
      refine (h4.erase (a, size)).trans ?_
      rw [List.erase_append_left _ (show (a, size) ∈ blocks size g from List.mem_map.2 ⟨a, ho, rfl⟩)]

theorem run_inv {size cnt : Nat} (hc : 0 < cnt) {l0 : List Block} : ∀ (l : List Op) (x : St × List Nat), Inv size cnt l0 x →
    Fair x l → ∃ y, run x l = some y ∧ Inv size cnt l0 y
  | [], x, h, _ => ⟨x, rfl, h⟩
  | o :: l, x, h, hf => by
    obtain ⟨y, e, hy⟩ := step_inv hc h hf.1
    obtain ⟨z, e2, hz⟩ := run_inv hc l y hy (hf.2 y e)
    exact ⟨z, by simp [run, e, e2], hz⟩

theorem destroy_inv {size cnt : Nat} {l0 : List Block} {g : List Nat} : ∀ (k : Nat) (s : St), Inv size cnt l0 (s, g) →
    cnt - s.cur = k → ∃ s', destroyFrom k s = some s' ∧ s'.live.Perm (blocks size g ++ l0) ∧ s'.cur = cnt
  | 0, s, h, hk => by
    refine ⟨s, rfl, ?_, ?_⟩
    · have := h.perm
      dsimp only at this
      rw [hk] at this
      exact this
    · have := h.hcur
      dsimp only at this
      omega
  | k + 1, s, h, hk => by
    obtain ⟨h1, h2, h3, h4, h5⟩ := h
    dsimp only at h1 h2 h3 h4 h5
    rw [hk] at h4
    have h4' : s.live.Perm ((s.buf + size * s.cur, size) :: (blocks size g ++ (pieces s.buf size (s.cur + 1) k ++ l0))) :=
      h4.trans List.perm_middle
    have hm : (s.buf + s.size * s.cur, s.size) ∈ s.live := by
      rw [h1]
      exact h4'.mem_iff.2 (List.mem_cons_self ..)
    have hi : Inv size cnt l0 ({ s with live := s.live.erase (s.buf + s.size * s.cur, s.size), cur := s.cur + 1 }, g) := by
      refine ⟨h1, h2, by show s.cur + 1 ≤ cnt; omega, ?_, h5.sublist (List.erase_sublist ..)⟩
      show (s.live.erase (s.buf + s.size * s.cur, s.size)).Perm (blocks size g ++ (pieces s.buf size (s.cur + 1) (cnt - (s.cur + 1)) ++ l0))
      rw [show cnt - (s.cur + 1) = k by omega, h1]
      refine (h4'.erase (s.buf + size * s.cur, size)).trans ?_
      rw [List.erase_cons_head]
    obtain ⟨s', e1, e2, e3⟩ := destroy_inv k _ hi (by show cnt - (s.cur + 1) = k; omega)
    refine ⟨s', ?_, e2, e3⟩
    unfold destroyFrom free
    rw [if_pos hm]
    exact e1

theorem mk_inv (size cnt : Nat) (l0 : List Block) (h : l0.Pairwise Apart) : Inv size cnt l0 (mk size cnt l0, []) := by
  refine ⟨rfl, rfl, Nat.le_refl _, ?_, h⟩
  show l0.Perm ([] ++ (pieces 0 size cnt (cnt - cnt) ++ l0))
  rw [Nat.sub_self]
  exact List.Perm.refl _

/-- C192: for every history of taking and freeing elements, every element the user has is a block in use,
with no byte in common with the other elements or with the blocks in use before. -/
theorem elements_apart (size cnt : Nat) (hc : 0 < cnt) (l0 : List Block) (h0 : l0.Pairwise Apart) (l : List Op)
    (hf : Fair (mk size cnt l0, []) l) :
    ∃ s g, run (mk size cnt l0, []) l = some (s, g) ∧ (∀ a ∈ g, (a, size) ∈ s.live) ∧
      (g.map (fun a => (a, size)) ++ l0).Pairwise Apart := by
  obtain ⟨⟨s, g⟩, e, hi⟩ := run_inv hc l _ (mk_inv size cnt l0 h0) hf
  refine ⟨s, g, e, ?_, ?_⟩
  · intro a ha
    exact hi.perm.mem_iff.2 (List.mem_append_left _ (List.mem_map.2 ⟨a, ha, rfl⟩))
  · have := (hi.perm.pairwise_iff (fun h => Apart.symm h)).1 hi.apart
    refine this.sublist ?_
    exact List.Sublist.append_left (List.sublist_append_right ..) _

/-- C192: after any history, destroying the accelerator never frees a block that is not in use, and leaves
exactly the elements that the user has and the blocks in use before. -/
theorem destroy_exact (size cnt : Nat) (hc : 0 < cnt) (l0 : List Block) (h0 : l0.Pairwise Apart) (l : List Op)
    (hf : Fair (mk size cnt l0, []) l) :
    ∃ s g s', run (mk size cnt l0, []) l = some (s, g) ∧ destroy s = some s' ∧
      s'.live.Perm (g.map (fun a => (a, size)) ++ l0) := by
  obtain ⟨⟨s, g⟩, e, hi⟩ := run_inv hc l _ (mk_inv size cnt l0 h0) hf
  obtain ⟨s', e1, e2, -⟩ := destroy_inv (cnt - s.cur) s hi rfl
  refine ⟨s, g, s', e, ?_, e2⟩
  have := hi.hcnt
  dsimp only at this
  unfold destroy
  rw [this]
  exact e1

/-- C192: taking an element fails only if the heap has no memory; then nothing is taken from the heap, and
the next attempt asks the heap again. -/
theorem get_fails (s : St) (o : Option Nat) (h : (get s o).2 = none) :
    o = none ∧ (get s o).1.live = s.live ∧ ∀ b, (get (get s o).1 (some b)).2 = some b := by
  unfold get at h ⊢
  by_cases c : s.cur = s.cnt
  · rw [if_pos c] at h ⊢
    cases o with
    | none => exact ⟨rfl, rfl, fun b => by simp [c]⟩
    | some b => cases h
  · rw [if_neg c] at h
    cases h

/-- C192: the heap is asked once for `cnt` elements: the next ones come from the same buffer, in order. -/
theorem buffer_used (s : St) (b : Nat) (hc : s.cur = s.cnt) : ∀ k, k < s.cnt →
    ∃ s', run ((get s (some b)).1, []) (List.replicate k (.get none)) = some s' ∧ s'.1.cur = k + 1 ∧
      s'.1.live = (get s (some b)).1.live ∧ s'.2 = ((List.range k).map fun i => b + s.size * (i + 1)).reverse := by
  have hr : ∀ k (x : St × List Nat), run x (List.replicate (k + 1) (.get none)) =
      (run x (List.replicate k (.get none))).bind fun y => step y (.get none) := by
    intro k
    induction k with
    | zero => intro x; simp [run, List.replicate]
    | succ k ih =>
      intro x
      show (step x (.get none)).bind (fun y => run y (List.replicate (k + 1) (.get none))) = _
      show _ = ((step x (.get none)).bind fun y => run y (List.replicate k (.get none))).bind _
      cases step x (.get none) with
      | none => rfl
      | some y => exact ih y
  have hs : ∀ k, k < s.cnt → run ((get s (some b)).1, []) (List.replicate k (.get none)) =
      some ({ s with buf := b, cur := k + 1, live := pieces b s.size 0 s.cnt ++ s.live },
        ((List.range k).map fun i => b + s.size * (i + 1)).reverse) := by
    intro k
    induction k with
    | zero => intro _; simp [run, get, hc]
    | succ k ih =>
      intro hk
      rw [hr, ih (by omega)]
      have : ¬ k + 1 = s.cnt := by omega
      simp [step, get, this, List.range_succ]
  intro k hk
  refine ⟨_, hs k hk, rfl, ?_, rfl⟩
  simp [get, hc]

def demo : List Op := [.get (some 100), .get none, .put 100, .get none, .get none, .get none, .get (some 200)]

example : run (mk 8 4 [(0, 50)], []) demo = some (⟨8, 4, 1, 200, [(200, 8), (208, 8), (216, 8), (224, 8), (108, 8), (116, 8), (124, 8), (0, 50)]⟩,
    [200, 124, 116, 108]) := by decide

example : Fair (mk 8 4 [(0, 50)], []) demo := by
  simp [Fair, demo, step, get, mk, pieces, free, Apart]
  intro a b h
  omega

end Verif.Accel
