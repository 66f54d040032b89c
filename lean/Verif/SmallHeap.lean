/-
The small heaps of the kernel's allocator.

Modelled code (vvaltchev/tilck):
  kernel/kmalloc/kmalloc_small_heaps.c.h 24-278   the small heaps
  kernel/kmalloc/general_kmalloc.c.h 27-187       general_kmalloc, general_kfree
  kernel/kmalloc/kmalloc_int.h 10-43              constants
  include/tilck/kernel/kmalloc.h 100-130          kmalloc, kfree, kfree2

The individual heaps (per_heap_kmalloc, per_heap_kfree) are given by their contract, proved in module Kmalloc: where a block
is placed is an input of each call, and any legal place is considered; a heap refuses only if there is no legal place.
Allocations that will be split into small elements (KMALLOC_FL_SUB_BLOCK_MIN_SIZE_MASK with elements below 2048 bytes) are
left out: there are none in the kernel. Preemption is disabled throughout, so the calls do not interleave. Statistics and
debug code are left out.
-/
import Mathlib.Data.List.Basic
import Mathlib.Data.List.Perm.Basic
import Mathlib.Tactic.Common

namespace Verif.SmallHeap

/-! ## Model -/

/-- A range of addresses. -/
structure Blk where
  a : Nat
  n : Nat
  deriving DecidableEq

/-- kmalloc_int.h: SMALL_HEAP_SIZE, SMALL_HEAP_MBS, SMALL_HEAP_MD_SIZE, SMALL_HEAP_MAX_ALLOC, MAX_EMPTY_SMALL_HEAPS. -/
def SIZE : Nat := 32768
def MBS : Nat := 32
def MD : Nat := 2048
def MAXALLOC : Nat := SIZE / 16 - 1
def MAXEMPTY : Int := 1

/-- `struct small_heap_node` with its heap: where the heap is, where the node is, the blocks allocated in it besides the
metadata. -/
structure Heap where
  base : Nat
  node : Nat
  blocks : List Blk
  deriving DecidableEq

/-- `mem_allocated`: the metadata is at the start of the heap (kmalloc_small_heaps.c.h:141-146). -/
def mem (h : Heap) : Nat := MD + (h.blocks.map (·.n)).sum

/-- The small heaps in the order of `small_heaps_list`, the addresses of those in `avail_small_heaps_list`,
`shs.empty_count`, and the blocks allocated in the main heaps. -/
structure St where
  heaps : List Heap
  avail : List Nat
  empty : Int
  main : List Blk
  deriving DecidableEq

/-- What the heaps answer in a call: where the small heap at a given address places the block, where the main heaps place
the memory of a new small heap and its node, where they place a big block and how long it is. -/
structure Ora where
  pick : Nat → Option Nat
  area : Option Nat
  node : Option Nat
  big : Option Blk

/-- kmalloc.c:493-495: sizes are rounded up to a power of two, at least the minimum block size. -/
def rnd (size : Nat) : Nat := max (Nat.nextPowerOfTwo size) MBS

/-- kmalloc_int.h:22-23, SMALL_HEAP_NODE_ALLOC_SZ: at least MAXALLOC + 1; the size of the structure is a parameter. -/
def nodeSz (sz : Nat) : Nat := max sz (MAXALLOC + 1)

def findHeap (hs : List Heap) (b : Nat) : Option Heap := hs.find? fun h => h.base == b

def upd (hs : List Heap) (b : Nat) (f : Heap → Heap) : List Heap := hs.map fun h => if h.base = b then f h else h

/-- kmalloc_small_heaps.c.h:187-214: the first heap of the available ones that has enough memory and a place. A heap that
finds no place has rounded `*size` up. -/
def findAvail (hs : List Heap) (o : Ora) : List Nat → Nat → Option (Heap × Nat)
  | [], _ => none
  | b :: r, size =>
    match findHeap hs b with
    | none => findAvail hs o r size
    | some h =>
      if SIZE - mem h < size then findAvail hs o r size
      else
        match o.pick b with
        | some a => some (h, a)
        | none => findAvail hs o r (rnd size)

def addBlk (b : Blk) (h : Heap) : Heap := { h with blocks := b :: h.blocks }

/-- kmalloc_small_heaps.c.h:92-169, `alloc_new_small_heap`. -/
def newHeap (nsz : Nat) (s : St) (o : Ora) : Option (St × Heap) :=
  match o.area with
  | none => none
  | some b =>
    match o.node with
    | none => none
    | some nd =>
      let h : Heap := ⟨b, nd, []⟩
      some ({ s with heaps := s.heaps ++ [h], avail := s.avail ++ [b],
                     main := ⟨b, SIZE⟩ :: ⟨nd, nodeSz nsz⟩ :: s.main }, h)

/-- kmalloc_small_heaps.c.h:178-227, `small_heaps_kmalloc`. The result is the block with its actual size. -/
def smallKmalloc (nsz : Nat) (s : St) (o : Ora) (size : Nat) : St × Option Blk :=
  match findAvail s.heaps o s.avail size with
  | some (h, a) =>
    let blk : Blk := ⟨a, rnd size⟩
    let h' := addBlk blk h
    ({ s with heaps := upd s.heaps h.base (addBlk blk),
              empty := if mem h = MD then s.empty - 1 else s.empty,
              avail := if mem h' = SIZE then s.avail.erase h.base else s.avail }, some blk)
  | none =>
    match newHeap nsz s o with
    | none => (s, none)
    | some (s1, h) =>
      match o.pick h.base with
      | some a => ({ s1 with heaps := upd s1.heaps h.base (addBlk ⟨a, rnd size⟩) }, some ⟨a, rnd size⟩)
      | none => (s1, none)

/-- general_kmalloc.c.h:105-143, `general_kmalloc` without special flags. -/
def kmalloc (nsz : Nat) (s : St) (o : Ora) (size : Nat) : St × Option Blk :=
  if size ≤ MAXALLOC then smallKmalloc nsz s o size
  else
    match o.big with
    | some b => ({ s with main := b :: s.main }, some b)
    | none => (s, none)

/-- kmalloc_small_heaps.c.h:236-247: the heap a pointer is in. -/
def heapOf (hs : List Heap) (p : Nat) : Option Heap :=
  hs.find? fun h => decide (h.base ≤ p ∧ p ≤ h.base + SIZE - MBS)

def delBlk (b : Blk) (h : Heap) : Heap := { h with blocks := h.blocks.erase b }

/-- The result of a call of kfree: it returned, it panicked because no heap contains the block, or it went on with what is
no block of that heap, and corrupted it. -/
inductive Out | ok (s : St) | panic | corrupt
  deriving DecidableEq

/-- kmalloc_small_heaps.c.h:229-278, `small_heaps_kfree`; `none`: -ENOENT. -/
def smallKfree (nsz : Nat) (s : St) (p size : Nat) : Option Out :=
  match heapOf s.heaps p with
  | none => none
  | some h =>
    match h.blocks.find? fun b => decide (b.a = p) with
    | none => some .corrupt
    | some b =>
      if size ≠ 0 ∧ rnd size ≠ b.n then some .corrupt
      else
        let h' := delBlk b h
        let s1 := { s with heaps := upd s.heaps h.base (delBlk b) }
        if mem h = SIZE then some (.ok { s1 with avail := s.avail ++ [h.base] })
        else if mem h' = MD then
          if s.empty < MAXEMPTY then some (.ok { s1 with empty := s.empty + 1 })
          else some (.ok { s with heaps := s1.heaps.filter (fun x => decide (x.base ≠ h.base)),
                                  avail := s.avail.erase h.base,
                                  main := (s.main.erase ⟨h.base, SIZE⟩).erase ⟨h.node, nodeSz nsz⟩ })
        else some (.ok s1)

/-- general_kmalloc.c.h:63-103, `main_heaps_kfree`: `inMain` tells which addresses the main heaps have. -/
def mainKfree (inMain : Nat → Bool) (s : St) (p : Nat) : Option Out :=
  if inMain p then
    match s.main.find? fun b => decide (b.a = p) with
    | none => some .corrupt
    | some b => some (.ok { s with main := s.main.erase b })
  else none

/-- general_kmalloc.c.h:145-187, `general_kfree`; `size` is 0 for `kfree`. -/
def kfree (nsz : Nat) (inMain : Nat → Bool) (s : St) (p size : Nat) : Out :=
  if p = 0 then .ok s
  else if size ≠ 0 then
    if size ≤ MAXALLOC then (smallKfree nsz s p size).getD .panic
    else (mainKfree inMain s p).getD .panic
  else
    match smallKfree nsz s p size with
    | some r => r
    | none => (mainKfree inMain s p).getD .panic

def init : St := ⟨[], [], 0, []⟩

/-! ## Specification -/

def Disj (b c : Blk) : Prop := b.a + b.n ≤ c.a ∨ c.a + c.n ≤ b.a

/-- A legal place in a small heap for a block of `n` bytes: aligned, behind the metadata, in the heap, and free. -/
def Place (h : Heap) (n a : Nat) : Prop :=
  n ∣ a ∧ h.base + MD ≤ a ∧ a + n ≤ h.base + SIZE ∧ ∀ b ∈ h.blocks, Disj ⟨a, n⟩ b

/-- The contract of a heap: it gives a legal place if there is one. -/
def PickOk (h : Heap) (n : Nat) : Option Nat → Prop
  | some a => Place h n a
  | none => ∀ a, ¬ Place h n a

/-- The contracts of all heaps in a call. New memory of the main heaps is nowhere in use, is not at address 0 and is known
to be theirs; the memory of a small heap is aligned to its size. -/
structure OraOk (nsz : Nat) (inMain : Nat → Bool) (s : St) (size : Nat) (o : Ora) : Prop where
  pick : ∀ h ∈ s.heaps, PickOk h (rnd size) (o.pick h.base)
  fresh : ∀ b nd, o.area = some b → o.node = some nd → PickOk ⟨b, nd, []⟩ (rnd size) (o.pick b)
  area : ∀ b, o.area = some b → SIZE ∣ b ∧ 0 < b ∧ ∀ c ∈ s.main, Disj ⟨b, SIZE⟩ c
  node : ∀ b nd, o.area = some b → o.node = some nd → 0 < nd ∧ Disj ⟨nd, nodeSz nsz⟩ ⟨b, SIZE⟩ ∧
    ∀ c ∈ s.main, Disj ⟨nd, nodeSz nsz⟩ c
  big : ∀ b, o.big = some b → size ≤ b.n ∧ 0 < b.a ∧ inMain b.a = true ∧ ∀ c ∈ s.main, Disj b c

/-- A block a user of the allocator has: address, requested size, actual size (as told by general_kmalloc). -/
structure Entry where
  p : Nat
  req : Nat
  n : Nat
  deriving DecidableEq

/-- The histories: blocks are allocated, and freed with the requested size or without. -/
inductive Reach (nsz : Nat) (inMain : Nat → Bool) : St → List Entry → Prop
  | init : Reach nsz inMain init []
  | fail {s L s' size o} : Reach nsz inMain s L → 0 < size → OraOk nsz inMain s size o → kmalloc nsz s o size = (s', none) →
      Reach nsz inMain s' L
  | kmalloc {s L s' size o b} : Reach nsz inMain s L → 0 < size → OraOk nsz inMain s size o →
      kmalloc nsz s o size = (s', some b) → Reach nsz inMain s' (⟨b.a, size, b.n⟩ :: L)
  | kfree {s L s' e size} : Reach nsz inMain s L → e ∈ L → size = 0 ∨ size = e.req →
      kfree nsz inMain s e.p size = .ok s' → Reach nsz inMain s' (L.erase e)

/-! ## Proofs -/

theorem Disj.symm {b c : Blk} (h : Disj b c) : Disj c b := Or.symm h

/-! ### Sizes -/

theorem rnd_small : ∀ n, n < 2048 → n ≤ rnd n ∧ 32 ≤ rnd n ∧ rnd n ≤ 2048 ∧ rnd n ∣ 2048 ∧ rnd (rnd n) = rnd n := by
  decide +kernel

/-- How many numbers below `N` satisfy `p`. -/
def cov (N : Nat) (p : Nat → Bool) : Nat := (List.range N).countP p

theorem cov_succ (N : Nat) (p : Nat → Bool) : cov (N + 1) p = cov N p + (if p N then 1 else 0) := by
  unfold cov
  rw [List.range_succ, List.countP_append]
  simp [List.countP_cons]

theorem cov_iv (a n : Nat) : ∀ N, cov N (fun x => decide (a ≤ x ∧ x < a + n)) = min N (a + n) - min N a
  | 0 => by simp [cov]
  | N + 1 => by
    rw [cov_succ, cov_iv a n N]
    by_cases h : a ≤ N ∧ N < a + n
    · rw [decide_eq_true h, if_pos rfl]; omega
    · rw [decide_eq_false h, if_neg (by decide)]; omega

theorem cov_or (p q : Nat → Bool) (h : ∀ x, ¬ (p x = true ∧ q x = true)) : ∀ N, cov N (fun x => p x || q x) = cov N p + cov N q
  | 0 => rfl
  | N + 1 => by
    rw [cov_succ, cov_succ, cov_succ, cov_or p q h N]
    have := h N
    cases hp : p N <;> cases hq : q N
    · simp
    · simp; omega
    · simp; omega
    · exact absurd ⟨hp, hq⟩ this

theorem cov_mono (p q : Nat → Bool) (h : ∀ x, p x = true → q x = true) : ∀ N, cov N p ≤ cov N q
  | 0 => Nat.le_refl _
  | N + 1 => by
    rw [cov_succ, cov_succ]
    have := cov_mono p q h N
    have hN := h N
    cases hp : p N
    · rw [if_neg (show ¬ (false = true) by decide)]; omega
    · rw [hN hp]; omega

def inB (x : Nat) (b : Blk) : Bool := decide (b.a ≤ x ∧ x < b.a + b.n)

theorem cov_sum (hi : Nat) : ∀ (l : List Blk), l.Pairwise Disj → (∀ b ∈ l, b.a + b.n ≤ hi) →
    cov hi (fun x => l.any (inB x)) = (l.map (·.n)).sum
  | [], _, _ => by
    have : cov hi (fun _ => false) = 0 := by unfold cov; simp
    simpa using this
  | b :: l, hp, hb => by
    have e : (fun x => (b :: l).any (inB x)) = fun x => inB x b || l.any (inB x) := by funext x; rfl
    obtain ⟨p1, p2⟩ := List.pairwise_cons.1 hp
    rw [e, cov_or, cov_sum hi l p2 (fun c hc => hb c (List.mem_cons_of_mem _ hc))]
    · have h1 := cov_iv b.a b.n hi
      have h2 := hb b (List.mem_cons_self ..)
      have h3 : cov hi (fun x => inB x b) = b.n := by
        show cov hi (fun x => decide (b.a ≤ x ∧ x < b.a + b.n)) = b.n
        rw [h1]; omega
      rw [h3]; rfl
    · rintro x ⟨hx, hy⟩
      obtain ⟨c, hc, hxc⟩ := List.any_eq_true.1 hy
      have := p1 c hc
      simp only [inB, decide_eq_true_eq] at hx hxc
      rcases this with q | q <;> omega

theorem sum_le {lo hi : Nat} (hle : lo ≤ hi) {l : List Blk} (hp : l.Pairwise Disj) (hb : ∀ b ∈ l, lo ≤ b.a ∧ b.a + b.n ≤ hi) :
    (l.map (·.n)).sum ≤ hi - lo := by
  rw [← cov_sum hi l hp (fun b h => (hb b h).2)]
  have h1 := cov_iv lo (hi - lo) hi
  have h2 := cov_mono (fun x => l.any (inB x)) (fun x => decide (lo ≤ x ∧ x < lo + (hi - lo))) (by
    intro x hx
    obtain ⟨c, hc, hxc⟩ := List.any_eq_true.1 hx
    have := hb c hc
    simp only [inB, decide_eq_true_eq] at hxc ⊢
    omega) hi
  omega

/-! ### The invariant -/

structure HeapOk (h : Heap) : Prop where
  al : SIZE ∣ h.base
  pos : 0 < h.base
  dis : h.blocks.Pairwise Disj
  ins : ∀ b ∈ h.blocks, h.base + MD ≤ b.a ∧ b.a + b.n ≤ h.base + SIZE
  len : ∀ b ∈ h.blocks, 32 ≤ b.n ∧ b.n ≤ 2048 ∧ b.n ∣ b.a

def areaB (h : Heap) : Blk := ⟨h.base, SIZE⟩
def nodeB (nsz : Nat) (h : Heap) : Blk := ⟨h.node, nodeSz nsz⟩
def blkOf (e : Entry) : Blk := ⟨e.p, e.n⟩
def isBig (e : Entry) : Bool := decide (MAXALLOC < e.req)
def bigs (L : List Entry) : List Blk := (L.filter isBig).map blkOf
def smalls (L : List Entry) : List Blk := (L.filter fun e => !isBig e).map blkOf
def notFull (h : Heap) : Bool := decide (mem h ≠ SIZE)
def isEmpty (h : Heap) : Bool := decide (mem h = MD)

structure EntOk (inMain : Nat → Bool) (e : Entry) : Prop where
  req : 0 < e.req
  le : e.req ≤ e.n
  pos : 0 < e.p
  small : e.req ≤ MAXALLOC → e.n = rnd e.req
  main : MAXALLOC < e.req → inMain e.p = true

/-- The invariant for an order `K` of the heaps. -/
structure Core (nsz : Nat) (inMain : Nat → Bool) (a : List Nat) (e : Int) (m : List Blk) (L : List Entry) (K : List Heap) : Prop where
  hok : ∀ h ∈ K, HeapOk h
  dis : m.Pairwise Disj
  main : m.Perm (K.map areaB ++ (K.map (nodeB nsz) ++ bigs L))
  small : (K.flatMap (·.blocks)).Perm (smalls L)
  avail : a.Perm ((K.filter notFull).map (·.base))
  empty : e = ((K.filter isEmpty).length : Int)
  le1 : e ≤ 1
  ent : ∀ x ∈ L, EntOk inMain x

theorem Core.perm {nsz inMain a e m L K K'} (h : Core nsz inMain a e m L K) (p : K.Perm K') : Core nsz inMain a e m L K' where
  hok := fun x hx => h.hok x (p.mem_iff.2 hx)
  dis := h.dis
  main := h.main.trans ((p.map areaB).append ((p.map (nodeB nsz)).append (List.Perm.refl _)))
  small := (p.flatMap_right _).symm.trans h.small
  avail := h.avail.trans ((p.filter _).map _)
  empty := by rw [h.empty, (p.filter isEmpty).length_eq]
  le1 := h.le1
  ent := h.ent

def Inv (nsz : Nat) (inMain : Nat → Bool) (s : St) (L : List Entry) : Prop := Core nsz inMain s.avail s.empty s.main L s.heaps

theorem Core.pw {nsz inMain a e m L K} (h : Core nsz inMain a e m L K) :
    (K.map areaB ++ (K.map (nodeB nsz) ++ bigs L)).Pairwise Disj :=
  (List.Perm.pairwise_iff (fun {a b} (q : Disj a b) => q.symm) h.main).1 h.dis

theorem Core.areas {nsz inMain a e m L K} (h : Core nsz inMain a e m L K) : K.Pairwise fun x y => Disj (areaB x) (areaB y) :=
  List.pairwise_map.1 (List.pairwise_append.1 h.pw).1

theorem Core.area_node {nsz inMain a e m L K} (h : Core nsz inMain a e m L K) {x y : Heap} (hx : x ∈ K) (hy : y ∈ K) :
    Disj (areaB x) (nodeB nsz y) :=
  (List.pairwise_append.1 h.pw).2.2 _ (List.mem_map.2 ⟨x, hx, rfl⟩) _ (List.mem_append_left _ (List.mem_map.2 ⟨y, hy, rfl⟩))

theorem mem_bigs {L : List Entry} {x : Entry} (hx : x ∈ L) (hb : MAXALLOC < x.req) : blkOf x ∈ bigs L :=
  List.mem_map.2 ⟨x, List.mem_filter.2 ⟨hx, decide_eq_true hb⟩, rfl⟩

theorem mem_smalls {L : List Entry} {x : Entry} (hx : x ∈ L) (hb : x.req ≤ MAXALLOC) : blkOf x ∈ smalls L := by
  refine List.mem_map.2 ⟨x, List.mem_filter.2 ⟨hx, ?_⟩, rfl⟩
  have : isBig x = false := decide_eq_false (by omega)
  rw [this]; rfl

theorem Core.area_big {nsz inMain a e m L K} (h : Core nsz inMain a e m L K) {x : Heap} {y : Entry} (hx : x ∈ K) (hy : y ∈ L)
    (hb : MAXALLOC < y.req) : Disj (areaB x) (blkOf y) :=
  (List.pairwise_append.1 h.pw).2.2 _ (List.mem_map.2 ⟨x, hx, rfl⟩) _ (List.mem_append_right _ (mem_bigs hy hb))

theorem Core.node_big {nsz inMain a e m L K} (h : Core nsz inMain a e m L K) {x : Heap} {y : Entry} (hx : x ∈ K) (hy : y ∈ L)
    (hb : MAXALLOC < y.req) : Disj (nodeB nsz x) (blkOf y) :=
  (List.pairwise_append.1 (List.pairwise_append.1 h.pw).2.1).2.2 _ (List.mem_map.2 ⟨x, hx, rfl⟩) _ (mem_bigs hy hb)

theorem pw_ne {α : Type} {R : α → α → Prop} (hs : ∀ a b, R a b → R b a) : ∀ {l : List α}, l.Pairwise R → ∀ {a b}, a ∈ l → b ∈ l → a ≠ b → R a b
  | [], _, a, b, ha, _, _ => by cases ha
  | x :: l, h, a, b, ha, hb, hn => by
    obtain ⟨h1, h2⟩ := List.pairwise_cons.1 h
    rcases List.mem_cons.1 ha with rfl | ha
    · rcases List.mem_cons.1 hb with rfl | hb
      · exact absurd rfl hn
      · exact h1 b hb
    · rcases List.mem_cons.1 hb with hbx | hb
      · rw [hbx]; exact hs _ _ (h1 a ha)
      · exact pw_ne hs h2 ha hb hn

theorem Core.area_ne {nsz inMain a e m L K} (h : Core nsz inMain a e m L K) {x y : Heap} (hx : x ∈ K) (hy : y ∈ K) (hn : x ≠ y) :
    Disj (areaB x) (areaB y) := pw_ne (fun _ _ q => Disj.symm q) h.areas hx hy hn

/-- The heap of a small block. -/
theorem Core.home {nsz inMain a e m L K} (h : Core nsz inMain a e m L K) {x : Entry} (hx : x ∈ L) (hb : x.req ≤ MAXALLOC) :
    ∃ y ∈ K, blkOf x ∈ y.blocks := by
  have := h.small.mem_iff.2 (mem_smalls hx hb)
  obtain ⟨y, hy, hm⟩ := List.mem_flatMap.1 this
  exact ⟨y, hy, hm⟩

theorem mem_le {h : Heap} (hk : HeapOk h) : mem h ≤ SIZE := by
  have := sum_le (lo := h.base + MD) (hi := h.base + SIZE) (by unfold MD SIZE; omega) hk.dis hk.ins
  unfold mem
  unfold MD SIZE at *
  omega

theorem place_ok {h : Heap} {n a : Nat} (hk : HeapOk h) (hp : Place h n a) (h1 : 32 ≤ n) (h2 : n ≤ 2048) : HeapOk (addBlk ⟨a, n⟩ h) where
  al := hk.al
  pos := hk.pos
  dis := List.pairwise_cons.2 ⟨hp.2.2.2, hk.dis⟩
  ins := by
    intro b hb
    rcases List.mem_cons.1 hb with rfl | hb
    · exact ⟨hp.2.1, hp.2.2.1⟩
    · exact hk.ins b hb
  len := by
    intro b hb
    rcases List.mem_cons.1 hb with rfl | hb
    · exact ⟨h1, h2, hp.1⟩
    · exact hk.len b hb

theorem mem_add (b : Blk) (h : Heap) : mem (addBlk b h) = mem h + b.n := by
  simp only [mem, addBlk, List.map_cons, List.sum_cons]; omega

theorem place_mem {h : Heap} {n a : Nat} (hk : HeapOk h) (hp : Place h n a) (h1 : 32 ≤ n) (h2 : n ≤ 2048) : mem h + n ≤ SIZE := by
  have := mem_le (place_ok hk hp h1 h2)
  rw [mem_add] at this
  exact this

theorem mem_md {h : Heap} (hk : HeapOk h) : mem h = MD ↔ h.blocks = [] := by
  constructor
  · intro hm
    cases hb : h.blocks with
    | nil => rfl
    | cons b r =>
      have := (hk.len b (by rw [hb]; exact List.mem_cons_self ..)).1
      unfold mem at hm
      rw [hb, List.map_cons, List.sum_cons] at hm
      omega
  · intro hb
    unfold mem
    rw [hb]; rfl

theorem smalls_cons (x : Entry) (L : List Entry) : smalls (x :: L) = if isBig x then smalls L else blkOf x :: smalls L := by
  unfold smalls
  rw [List.filter_cons]
  cases isBig x <;> rfl

theorem bigs_cons (x : Entry) (L : List Entry) : bigs (x :: L) = if isBig x then blkOf x :: bigs L else bigs L := by
  unfold bigs
  rw [List.filter_cons]
  cases isBig x <;> rfl

theorem isBig_t {x : Entry} (h : MAXALLOC < x.req) : isBig x = true := decide_eq_true h
theorem isBig_f {x : Entry} (h : x.req ≤ MAXALLOC) : isBig x = false := decide_eq_false (by omega)

theorem ent_cons {inMain : Nat → Bool} {L : List Entry} {x : Entry} (h : ∀ x ∈ L, EntOk inMain x) (hx : EntOk inMain x) :
    ∀ y ∈ x :: L, EntOk inMain y := by
  intro y hy
  rcases List.mem_cons.1 hy with rfl | hy
  · exact hx
  · exact h y hy

theorem filter_cons_len {α : Type} (p : α → Bool) (a : α) (l : List α) :
    (((a :: l).filter p).length : Int) = (l.filter p).length + (if p a then 1 else 0) := by
  rw [List.filter_cons]
  cases p a <;> simp

theorem max_lt {n : Nat} (h : n ≤ MAXALLOC) : n < 2048 := by
  have : MAXALLOC = 2047 := rfl
  omega

/-- Allocation in a heap. -/
theorem core_alloc {nsz inMain a e m L h R} (c : Core nsz inMain a e m L (h :: R)) {size p : Nat} (h0 : 0 < size) (hs : size ≤ MAXALLOC)
    (hp : Place h (rnd size) p) :
    Core nsz inMain (if mem (addBlk ⟨p, rnd size⟩ h) = SIZE then a.erase h.base else a) (if mem h = MD then e - 1 else e) m
      (⟨p, size, rnd size⟩ :: L) (addBlk ⟨p, rnd size⟩ h :: R) := by
  obtain ⟨r1, r2, r3, r4, r5⟩ := rnd_small size (max_lt hs)
  have hk := c.hok h (List.mem_cons_self ..)
  have hk' := place_ok hk hp r2 r3
  have hm := place_mem hk hp r2 r3
  have ha := mem_add ⟨p, rnd size⟩ h
  dsimp only at ha
  have nf : notFull h = true := decide_eq_true (by omega)
  have ne : isEmpty (addBlk ⟨p, rnd size⟩ h) = false := by
    refine decide_eq_false ?_
    have : MD ≤ mem h := by unfold mem; omega
    omega
  have hb : isBig ⟨p, size, rnd size⟩ = false := isBig_f hs
  refine ⟨?_, c.dis, ?_, ?_, ?_, ?_, ?_, ?_⟩
  · intro x hx
    rcases List.mem_cons.1 hx with rfl | hx
    · exact hk'
    · exact c.hok x (List.mem_cons_of_mem _ hx)
  · have := c.main
    rw [bigs_cons, hb, if_neg (by decide)]
    exact this
  · rw [smalls_cons, hb, if_neg (by decide)]
    exact c.small.cons _
  · have av := c.avail
    rw [List.filter_cons, nf, if_pos rfl] at av
    rw [List.filter_cons]
    by_cases hf : mem (addBlk ⟨p, rnd size⟩ h) = SIZE
    · have : notFull (addBlk ⟨p, rnd size⟩ h) = false := decide_eq_false (by simpa using hf)
      rw [if_pos hf, this, if_neg (by decide)]
      have := av.erase h.base
      rw [List.map_cons, List.erase_cons_head] at this
      exact this
    · have : notFull (addBlk ⟨p, rnd size⟩ h) = true := decide_eq_true hf
      rw [if_neg hf, this, if_pos rfl]
      exact av
  · have := c.empty
    rw [filter_cons_len] at this ⊢
    rw [ne, if_neg (show ¬ (false = true) by decide)]
    by_cases hz : mem h = MD
    · have hz' : isEmpty h = true := decide_eq_true hz
      rw [if_pos hz, this, hz', if_pos rfl]; omega
    · have hz' : isEmpty h = false := decide_eq_false hz
      rw [if_neg hz, this, hz', if_neg (by decide)]
  · have := c.le1
    split <;> omega
  · refine ent_cons c.ent ⟨h0, r1, ?_, fun _ => rfl, fun hh => ?_⟩
    · have := hk.pos
      have := hp.2.1
      show 0 < p
      omega
    · exact absurd hs (by dsimp only at hh; omega)

/-- Allocation in a new heap. -/
theorem core_new {nsz inMain a e m L K} (c : Core nsz inMain a e m L K) {size p b nd : Nat} (h0 : 0 < size) (hs : size ≤ MAXALLOC)
    (hp : Place ⟨b, nd, []⟩ (rnd size) p) (hal : SIZE ∣ b) (hpos : 0 < b) (hdb : ∀ x ∈ m, Disj ⟨b, SIZE⟩ x)
    (hdn : Disj ⟨nd, nodeSz nsz⟩ ⟨b, SIZE⟩) (hdn' : ∀ x ∈ m, Disj ⟨nd, nodeSz nsz⟩ x) :
    Core nsz inMain (a ++ [b]) e (⟨b, SIZE⟩ :: ⟨nd, nodeSz nsz⟩ :: m)
      (⟨p, size, rnd size⟩ :: L) (addBlk ⟨p, rnd size⟩ ⟨b, nd, []⟩ :: K) := by
  obtain ⟨r1, r2, r3, r4, r5⟩ := rnd_small size (max_lt hs)
  have hk : HeapOk ⟨b, nd, []⟩ := ⟨hal, hpos, List.Pairwise.nil, fun x hx => absurd hx List.not_mem_nil, fun x hx => absurd hx List.not_mem_nil⟩
  have hk' := place_ok hk hp r2 r3
  have ha := mem_add ⟨p, rnd size⟩ ⟨b, nd, []⟩
  have hm : mem ⟨b, nd, []⟩ = 2048 := rfl
  dsimp only at ha
  have hsz : SIZE = 32768 := rfl
  have hmd : MD = 2048 := rfl
  have nf : notFull (addBlk ⟨p, rnd size⟩ ⟨b, nd, []⟩) = true := decide_eq_true (by omega)
  have ne : isEmpty (addBlk ⟨p, rnd size⟩ ⟨b, nd, []⟩) = false := decide_eq_false (by omega)
  have hb : isBig ⟨p, size, rnd size⟩ = false := isBig_f hs
  refine ⟨?_, ?_, ?_, ?_, ?_, ?_, c.le1, ?_⟩
  · intro x hx
    rcases List.mem_cons.1 hx with rfl | hx
    · exact hk'
    · exact c.hok x hx
  · refine List.pairwise_cons.2 ⟨?_, List.pairwise_cons.2 ⟨hdn', c.dis⟩⟩
    intro x hx
    rcases List.mem_cons.1 hx with rfl | hx
    · exact hdn.symm
    · exact hdb x hx
  · rw [bigs_cons, hb, if_neg (by decide)]
    refine List.Perm.cons _ ?_
    exact (c.main.cons _).trans (List.perm_middle.symm)
  · rw [smalls_cons, hb, if_neg (by decide)]
    exact c.small.cons _
  · rw [List.filter_cons, nf, if_pos rfl]
    exact (List.perm_append_singleton b a).trans (c.avail.cons b)
  · rw [filter_cons_len, ne, if_neg (by decide), c.empty]; omega
  · refine ent_cons c.ent ⟨h0, r1, ?_, fun _ => rfl, fun hh => ?_⟩
    · have := hp.2.1
      show 0 < p
      dsimp only at this
      omega
    · exact absurd hs (by dsimp only at hh; omega)

theorem core_big {nsz inMain a e m L K} (c : Core nsz inMain a e m L K) {size : Nat} {b : Blk} (hs : MAXALLOC < size)
    (hb : size ≤ b.n ∧ 0 < b.a ∧ inMain b.a = true ∧ ∀ x ∈ m, Disj b x) :
    Core nsz inMain a e (b :: m) (⟨b.a, size, b.n⟩ :: L) K := by
  have hB : isBig ⟨b.a, size, b.n⟩ = true := isBig_t hs
  refine ⟨c.hok, List.pairwise_cons.2 ⟨hb.2.2.2, c.dis⟩, ?_, ?_, c.avail, c.empty, c.le1, ?_⟩
  · rw [bigs_cons, hB, if_pos rfl]
    refine (c.main.cons b).trans ?_
    rw [← List.append_assoc, ← List.append_assoc]
    exact List.perm_middle.symm
  · rw [smalls_cons, hB, if_pos rfl]; exact c.small
  · exact ent_cons c.ent ⟨by dsimp only; omega, hb.1, hb.2.1, fun h => absurd hs (by dsimp only at h; omega), fun _ => hb.2.2.1⟩

theorem smalls_erase {L : List Entry} {x : Entry} (hx : x ∈ L) (hs : x.req ≤ MAXALLOC) :
    (smalls L).Perm (blkOf x :: smalls (L.erase x)) ∧ bigs L = bigs L ∧ (bigs L).Perm (bigs (L.erase x)) := by
  have p := List.perm_cons_erase hx
  have hb := isBig_f hs
  refine ⟨?_, rfl, ?_⟩
  · have : (smalls L).Perm (smalls (x :: L.erase x)) := (p.filter _).map _
    rw [smalls_cons, hb, if_neg (by decide)] at this
    exact this
  · have : (bigs L).Perm (bigs (x :: L.erase x)) := (p.filter _).map _
    rw [bigs_cons, hb, if_neg (by decide)] at this
    exact this

theorem bigs_erase {L : List Entry} {x : Entry} (hx : x ∈ L) (hs : MAXALLOC < x.req) :
    (bigs L).Perm (blkOf x :: bigs (L.erase x)) ∧ (smalls L).Perm (smalls (L.erase x)) := by
  have p := List.perm_cons_erase hx
  have hb := isBig_t hs
  refine ⟨?_, ?_⟩
  · have : (bigs L).Perm (bigs (x :: L.erase x)) := (p.filter _).map _
    rw [bigs_cons, hb, if_pos rfl] at this
    exact this
  · have : (smalls L).Perm (smalls (x :: L.erase x)) := (p.filter _).map _
    rw [smalls_cons, hb, if_pos rfl] at this
    exact this

theorem del_ok {h : Heap} (hk : HeapOk h) (b : Blk) : HeapOk (delBlk b h) where
  al := hk.al
  pos := hk.pos
  dis := hk.dis.sublist List.erase_sublist
  ins := fun x hx => hk.ins x (List.mem_of_mem_erase hx)
  len := fun x hx => hk.len x (List.mem_of_mem_erase hx)

theorem mem_del {h : Heap} {b : Blk} (hb : b ∈ h.blocks) : mem h = mem (delBlk b h) + b.n := by
  have p := (List.perm_cons_erase hb).map (·.n)
  have := p.sum_nat
  rw [List.map_cons, List.sum_cons] at this
  unfold mem delBlk
  dsimp only
  omega

/-- What freeing does to the heap's blocks and the lists of live blocks. -/
theorem core_free {nsz inMain a e m L h R} (c : Core nsz inMain a e m L (h :: R)) {x : Entry} (hx : x ∈ L) (hs : x.req ≤ MAXALLOC)
    (hb : blkOf x ∈ h.blocks) {a' : List Nat} {e' : Int} (ha : a'.Perm (((delBlk (blkOf x) h :: R).filter notFull).map (·.base)))
    (he : e' = (((delBlk (blkOf x) h :: R).filter isEmpty).length : Int)) (he1 : e' ≤ 1) :
    Core nsz inMain a' e' m (L.erase x) (delBlk (blkOf x) h :: R) := by
  obtain ⟨p1, _, p3⟩ := smalls_erase hx hs
  refine ⟨?_, c.dis, ?_, ?_, ha, he, he1, fun y hy => c.ent y (List.mem_of_mem_erase hy)⟩
  · intro y hy
    rcases List.mem_cons.1 hy with rfl | hy
    · exact del_ok (c.hok h (List.mem_cons_self ..)) _
    · exact c.hok y (List.mem_cons_of_mem _ hy)
  · exact c.main.trans (((List.Perm.refl _)).append ((List.Perm.refl _).append p3))
  · have q1 : ((h :: R).flatMap (·.blocks)).Perm (blkOf x :: ((delBlk (blkOf x) h :: R).flatMap (·.blocks))) := by
      rw [List.flatMap_cons, List.flatMap_cons]
      exact (List.perm_cons_erase hb).append_right _
    exact List.Perm.cons_inv (q1.symm.trans (c.small.trans p1))

/-- Freeing the last block of a heap that is then destroyed. -/
theorem core_destroy {nsz inMain a e m L h R} (c : Core nsz inMain a e m L (h :: R)) {x : Entry} (hx : x ∈ L) (hs : x.req ≤ MAXALLOC)
    (hb : blkOf x ∈ h.blocks) (hf : mem h ≠ SIZE) (hz : mem (delBlk (blkOf x) h) = MD) :
    Core nsz inMain (a.erase h.base) e ((m.erase ⟨h.base, SIZE⟩).erase ⟨h.node, nodeSz nsz⟩) (L.erase x) R := by
  obtain ⟨p1, _, p3⟩ := smalls_erase hx hs
  have hk := c.hok h (List.mem_cons_self ..)
  have hd := (mem_md (del_ok hk (blkOf x))).1 hz
  have nf : notFull h = true := decide_eq_true hf
  have ne : isEmpty h = false := by
    refine decide_eq_false ?_
    have := mem_del hb
    have := (hk.len _ hb).1
    omega
  refine ⟨fun y hy => c.hok y (List.mem_cons_of_mem _ hy), ?_, ?_, ?_, ?_, ?_, c.le1,
    fun y hy => c.ent y (List.mem_of_mem_erase hy)⟩
  · exact c.dis.sublist (List.erase_sublist.trans List.erase_sublist)
  · have q := c.main.erase ⟨h.base, SIZE⟩
    have e1 : (List.map areaB (h :: R) ++ (List.map (nodeB nsz) (h :: R) ++ bigs L)).erase ⟨h.base, SIZE⟩ =
        List.map areaB R ++ (nodeB nsz h :: (List.map (nodeB nsz) R ++ bigs L)) := by
      show (areaB h :: _).erase (areaB h) = _
      rw [List.erase_cons_head]; rfl
    rw [e1] at q
    have q2 := (q.trans List.perm_middle).erase (nodeB nsz h)
    rw [List.erase_cons_head] at q2
    exact q2.trans ((List.Perm.refl _).append ((List.Perm.refl _).append p3))
  · have q1 : ((h :: R).flatMap (·.blocks)).Perm (blkOf x :: ((delBlk (blkOf x) h :: R).flatMap (·.blocks))) := by
      rw [List.flatMap_cons, List.flatMap_cons]
      exact (List.perm_cons_erase hb).append_right _
    have q2 := List.Perm.cons_inv (q1.symm.trans (c.small.trans p1))
    rw [List.flatMap_cons, hd, List.nil_append] at q2
    exact q2
  · have av := c.avail
    rw [List.filter_cons, nf, if_pos rfl] at av
    have := av.erase h.base
    rw [List.map_cons, List.erase_cons_head] at this
    exact this
  · have := c.empty
    rw [filter_cons_len, ne, if_neg (show ¬ (false = true) by decide)] at this
    rw [this]; omega

/-! ### One heap among the others -/

theorem base_ne {x y : Heap} (h : Disj (areaB x) (areaB y)) : x.base ≠ y.base := by
  intro e
  have : SIZE = 32768 := rfl
  rcases h with h | h
  all_goals
    have : (areaB x).a = x.base := rfl
    have : (areaB y).a = y.base := rfl
    have : (areaB x).n = SIZE := rfl
    have : (areaB y).n = SIZE := rfl
    omega

theorem upd_none (l : List Heap) (b : Nat) (f : Heap → Heap) (h : ∀ x ∈ l, x.base ≠ b) : upd l b f = l := by
  unfold upd
  conv_rhs => rw [← List.map_id l]
  exact List.map_congr_left (fun x hx => by rw [if_neg (h x hx)]; rfl)

theorem split {hs : List Heap} (pw : hs.Pairwise fun x y => Disj (areaB x) (areaB y)) {h : Heap} (hm : h ∈ hs) :
    ∃ R, hs.Perm (h :: R) ∧ (∀ f, (upd hs h.base f).Perm (f h :: R)) ∧
      (∀ f : Heap → Heap, (f h).base = h.base → ((upd hs h.base f).filter fun x => decide (x.base ≠ h.base)).Perm R) ∧
      findHeap hs h.base = some h := by
  obtain ⟨l, r, rfl⟩ := List.append_of_mem hm
  obtain ⟨_, p2, p3⟩ := List.pairwise_append.1 pw
  have hl : ∀ x ∈ l, x.base ≠ h.base := fun x hx => base_ne (p3 x hx h (List.mem_cons_self ..))
  have hr : ∀ x ∈ r, x.base ≠ h.base := fun x hx e => base_ne ((List.pairwise_cons.1 p2).1 x hx) e.symm
  have hu : ∀ f, upd (l ++ h :: r) h.base f = l ++ f h :: r := by
    intro f
    have : upd (l ++ h :: r) h.base f = upd l h.base f ++ ((if h.base = h.base then f h else h) :: upd r h.base f) := by
      simp only [upd, List.map_append, List.map_cons]
    rw [this, upd_none l _ f hl, upd_none r _ f hr, if_pos rfl]
  refine ⟨l ++ r, List.perm_middle, fun f => ?_, fun f hf => ?_, ?_⟩
  · rw [hu]; exact List.perm_middle
  · rw [hu, List.filter_append, List.filter_cons, hf]
    rw [if_neg (by simp)]
    rw [List.filter_eq_self.2 (fun x hx => decide_eq_true (hl x hx)),
      List.filter_eq_self.2 (fun x hx => decide_eq_true (hr x hx))]
  · unfold findHeap
    rw [List.find?_append, List.find?_eq_none.2 (fun x hx => by simpa using hl x hx), List.find?_cons]
    simp

theorem findHeap_some {hs : List Heap} {b : Nat} {h : Heap} (hf : findHeap hs b = some h) : h ∈ hs ∧ h.base = b := by
  refine ⟨List.mem_of_find?_eq_some hf, ?_⟩
  have := List.find?_some hf
  simpa using this

theorem findAvail_some (hs : List Heap) (o : Ora) : ∀ (av : List Nat) (size : Nat) {h : Heap} {a : Nat},
    findAvail hs o av size = some (h, a) → h ∈ hs ∧ o.pick h.base = some a
  | [], _, _, _, hf => by cases hf
  | b :: r, size, h, a, hf => by
    rw [findAvail] at hf
    cases hb : findHeap hs b with
    | none => rw [hb] at hf; exact findAvail_some hs o r size hf
    | some x =>
      rw [hb] at hf
      dsimp only at hf
      split at hf
      · exact findAvail_some hs o r size hf
      · cases hp : o.pick b with
        | none => rw [hp] at hf; exact findAvail_some hs o r _ hf
        | some y =>
          rw [hp] at hf
          cases hf
          obtain ⟨q1, q2⟩ := findHeap_some hb
          exact ⟨q1, by rw [q2]; exact hp⟩

theorem findAvail_none {hs : List Heap} (pw : hs.Pairwise fun x y => Disj (areaB x) (areaB y)) (hok : ∀ h ∈ hs, HeapOk h) {o : Ora} {n : Nat}
    (hn : 32 ≤ n) (hn2 : n ≤ 2048) (hpk : ∀ h ∈ hs, PickOk h n (o.pick h.base)) : ∀ (av : List Nat) (size : Nat), size ≤ n → rnd size = n → rnd n = n →
    findAvail hs o av size = none → ∀ h ∈ hs, h.base ∈ av → ∀ a, ¬ Place h n a
  | [], _, _, _, _, _, h, _, hb, _ => by cases hb
  | b :: r, size, h1, h2, h3, hf, h, hm, hb, a => by
    rw [findAvail] at hf
    obtain ⟨R, _, _, _, hfh⟩ := split pw hm
    by_cases e : h.base = b
    · rw [← e, hfh] at hf
      dsimp only at hf
      split at hf
      · rename_i hlt
        intro hp
        have := place_mem (hok h hm) hp hn hn2
        omega
      · have hp := hpk h hm
        cases hpb : o.pick h.base with
        | none => rw [hpb] at hp; exact hp a
        | some y => rw [hpb] at hf; cases hf
    · have hb' : h.base ∈ r := by
        rcases List.mem_cons.1 hb with q | q
        · exact absurd q e
        · exact q
      cases hbb : findHeap hs b with
      | none => rw [hbb] at hf; exact findAvail_none pw hok hn hn2 hpk r size h1 h2 h3 hf h hm hb' a
      | some x =>
        rw [hbb] at hf
        dsimp only at hf
        split at hf
        · exact findAvail_none pw hok hn hn2 hpk r size h1 h2 h3 hf h hm hb' a
        · cases hpb : o.pick b with
          | none =>
            rw [hpb] at hf
            dsimp only at hf
            rw [h2] at hf
            exact findAvail_none pw hok hn hn2 hpk r n (Nat.le_refl _) h3 h3 hf h hm hb' a
          | some y => rw [hpb] at hf; cases hf

/-- An empty heap has room. -/
theorem place_new {b nd size : Nat} (hb : SIZE ∣ b) (hs : size ≤ MAXALLOC) : Place ⟨b, nd, []⟩ (rnd size) (b + MD) := by
  obtain ⟨r1, r2, r3, r4, r5⟩ := rnd_small size (max_lt hs)
  refine ⟨?_, Nat.le_refl _, ?_, fun x hx => absurd hx List.not_mem_nil⟩
  · have : (2048 : Nat) ∣ b := Nat.dvd_trans (by decide : (2048 : Nat) ∣ SIZE) hb
    exact Nat.dvd_add (Nat.dvd_trans r4 this) r4
  · show b + MD + rnd size ≤ b + SIZE
    have : MD = 2048 := rfl
    have : SIZE = 32768 := rfl
    omega

/-! ### Calls -/

/-- What a call of kmalloc does. -/
inductive KOut (nsz : Nat) (inMain : Nat → Bool) (s : St) (L : List Entry) (size : Nat) (o : Ora) : St × Option Blk → Prop
  | some {s' b} (hi : Inv nsz inMain s' (⟨b.a, size, b.n⟩ :: L)) (hd : ∀ x ∈ L, Disj b (blkOf x)) :
      KOut nsz inMain s L size o (s', some b)
  | small (hs : size ≤ MAXALLOC) (hp : ∀ h ∈ s.heaps, ∀ a, ¬ Place h (rnd size) a) (ho : o.area = none ∨ o.node = none) :
      KOut nsz inMain s L size o (s, none)
  | big (hs : MAXALLOC < size) (ho : o.big = none) : KOut nsz inMain s L size o (s, none)

/-- A place in a heap is disjoint from everything that is in use. -/
theorem place_disj {nsz inMain a e m L K} (c : Core nsz inMain a e m L K) {h : Heap} (hh : h ∈ K) {n p : Nat} (hp : Place h n p) :
    ∀ x ∈ L, Disj ⟨p, n⟩ (blkOf x) := by
  have far : ∀ b : Blk, Disj (areaB h) b → Disj ⟨p, n⟩ b := by
    intro b hd
    have e1 : (areaB h).a = h.base := rfl
    have e2 : (areaB h).n = SIZE := rfl
    have := hp.2.1
    have := hp.2.2.1
    rcases hd with q | q
    · left; dsimp only; omega
    · right; dsimp only; omega
  intro x hx
  by_cases hb : x.req ≤ MAXALLOC
  · obtain ⟨y, hy, hm⟩ := c.home hx hb
    by_cases e : h = y
    · subst e; exact hp.2.2.2 _ hm
    · have hd := c.area_ne hh hy e
      have hi := (c.hok y hy).ins _ hm
      apply far
      have e1 : (areaB y).a = y.base := rfl
      have e2 : (areaB y).n = SIZE := rfl
      rcases hd with q | q
      · left; omega
      · right; omega
  · exact far _ (c.area_big hh hx (by omega))

theorem kmalloc_out {nsz inMain s L size o} (hi : Inv nsz inMain s L) (h0 : 0 < size) (ho : OraOk nsz inMain s size o) :
    KOut nsz inMain s L size o (kmalloc nsz s o size) := by
  unfold kmalloc
  by_cases hs : size ≤ MAXALLOC
  · rw [if_pos hs]
    unfold smallKmalloc
    obtain ⟨r1, r2, r3, r4, r5⟩ := rnd_small size (max_lt hs)
    cases hf : findAvail s.heaps o s.avail size with
    | some x =>
      obtain ⟨h, a⟩ := x
      dsimp only
      obtain ⟨hm, hp⟩ := findAvail_some _ _ _ _ hf
      have hpl : Place h (rnd size) a := by
        have := ho.pick h hm
        rw [hp] at this
        exact this
      obtain ⟨R, p1, p2, _, _⟩ := split hi.areas hm
      refine .some ?_ (place_disj hi hm hpl)
      exact (core_alloc (hi.perm p1) h0 hs hpl).perm (p2 _).symm
    | none =>
      dsimp only
      have np : ∀ h ∈ s.heaps, ∀ a, ¬ Place h (rnd size) a := by
        intro h hm a hp
        by_cases hb : h.base ∈ s.avail
        · exact findAvail_none hi.areas hi.hok r2 r3 ho.pick s.avail size r1 rfl r5 hf h hm hb a hp
        · apply hb
          have hlt := place_mem (hi.hok h hm) hp r2 r3
          refine hi.avail.mem_iff.2 (List.mem_map.2 ⟨h, List.mem_filter.2 ⟨hm, decide_eq_true (by omega)⟩, rfl⟩)
      unfold newHeap
      cases ha : o.area with
      | none => exact .small hs np (Or.inl ha)
      | some b =>
        cases hn : o.node with
        | none => exact .small hs np (Or.inr hn)
        | some nd =>
          dsimp only
          obtain ⟨a1, a2, a3⟩ := ho.area b ha
          obtain ⟨n1, n2, n3⟩ := ho.node b nd ha hn
          have hpk := ho.fresh b nd ha hn
          cases hp : o.pick b with
          | none =>
            rw [hp] at hpk
            exact absurd (place_new a1 hs) (hpk _)
          | some p =>
            rw [hp] at hpk
            have hpl : Place ⟨b, nd, []⟩ (rnd size) p := hpk
            have hc := core_new hi h0 hs hpl a1 a2 a3 n2 n3
            have hne : ∀ x ∈ s.heaps, x.base ≠ b := by
              intro x hx
              have := a3 (areaB x) (hi.main.mem_iff.2 (List.mem_append_left _ (List.mem_map.2 ⟨x, hx, rfl⟩)))
              exact fun e => base_ne (x := ⟨b, nd, []⟩) (y := x) this e.symm
            have hu : upd (s.heaps ++ [⟨b, nd, []⟩]) b (addBlk ⟨p, rnd size⟩) = s.heaps ++ [addBlk ⟨p, rnd size⟩ ⟨b, nd, []⟩] := by
              have : upd (s.heaps ++ [⟨b, nd, []⟩]) b (addBlk ⟨p, rnd size⟩) =
                  upd s.heaps b (addBlk ⟨p, rnd size⟩) ++ [if b = b then addBlk ⟨p, rnd size⟩ ⟨b, nd, []⟩ else ⟨b, nd, []⟩] := by
                simp only [upd, List.map_append, List.map_cons, List.map_nil]
              rw [this, upd_none _ _ _ hne, if_pos rfl]
            refine .some ?_ ?_
            · show Core _ _ _ _ _ _ (upd (s.heaps ++ [⟨b, nd, []⟩]) b (addBlk ⟨p, rnd size⟩))
              rw [hu]
              exact hc.perm (List.perm_append_singleton _ _).symm
            · intro x hx
              have far : ∀ c : Blk, Disj ⟨b, SIZE⟩ c → Disj ⟨p, rnd size⟩ c := by
                intro c hd
                have := hpl.2.1
                have := hpl.2.2.1
                dsimp only at *
                rcases hd with q | q
                · left; dsimp only at *; omega
                · right; dsimp only at *; omega
              apply far
              by_cases hb : x.req ≤ MAXALLOC
              · obtain ⟨y, hy, hm⟩ := hi.home hx hb
                have hd := a3 (areaB y) (hi.main.mem_iff.2 (List.mem_append_left _ (List.mem_map.2 ⟨y, hy, rfl⟩)))
                have hin := (hi.hok y hy).ins _ hm
                have e1 : (areaB y).a = y.base := rfl
                have e2 : (areaB y).n = SIZE := rfl
                rcases hd with q | q
                · left; omega
                · right
                  show (blkOf x).a + (blkOf x).n ≤ b
                  have q' : (areaB y).a + (areaB y).n ≤ b := q
                  omega
              · exact a3 _ (hi.main.mem_iff.2 (List.mem_append_right _ (List.mem_append_right _ (mem_bigs hx (by omega)))))
  · rw [if_neg hs]
    cases hb : o.big with
    | none => exact .big (by omega) hb
    | some b =>
      dsimp only
      have hbb := ho.big b hb
      refine .some (core_big hi (by omega) hbb) ?_
      intro x hx
      by_cases hq : x.req ≤ MAXALLOC
      · obtain ⟨y, hy, hm⟩ := hi.home hx hq
        have hd := hbb.2.2.2 (areaB y) (hi.main.mem_iff.2 (List.mem_append_left _ (List.mem_map.2 ⟨y, hy, rfl⟩)))
        have hin := (hi.hok y hy).ins _ hm
        have e1 : (areaB y).a = y.base := rfl
        have e2 : (areaB y).n = SIZE := rfl
        rcases hd with q | q
        · left; omega
        · right; omega
      · exact hbb.2.2.2 _ (hi.main.mem_iff.2 (List.mem_append_right _ (List.mem_append_right _ (mem_bigs hx (by omega)))))

/-! ### kfree -/

theorem heapOf_eq {nsz inMain a e m L K} (c : Core nsz inMain a e m L K) {h : Heap} (hh : h ∈ K) {b : Blk} (hb : b ∈ h.blocks) :
    heapOf K b.a = some h := by
  have hi := (c.hok h hh).ins b hb
  have hl := (c.hok h hh).len b hb
  have s1 : SIZE = 32768 := rfl
  have s2 : MBS = 32 := rfl
  have s3 : MD = 2048 := rfl
  unfold heapOf
  cases hf : K.find? (fun h => decide (h.base ≤ b.a ∧ b.a ≤ h.base + SIZE - MBS)) with
  | none =>
    have := List.find?_eq_none.1 hf h hh
    exact absurd (decide_eq_true ⟨by omega, by omega⟩) this
  | some y =>
    have hy := List.mem_of_find?_eq_some hf
    have hp := List.find?_some hf
    simp only [decide_eq_true_eq] at hp
    by_cases e : h = y
    · rw [e]
    · exfalso
      have hd := c.area_ne hh hy e
      have e1 : (areaB y).a = y.base := rfl
      have e2 : (areaB y).n = SIZE := rfl
      have e3 : (areaB h).a = h.base := rfl
      have e4 : (areaB h).n = SIZE := rfl
      rcases hd with q | q <;> omega

theorem find_blk {l : List Blk} (hp : l.Pairwise Disj) (hn : ∀ b ∈ l, 0 < b.n) {b : Blk} (hb : b ∈ l) :
    l.find? (fun x => decide (x.a = b.a)) = some b := by
  cases hf : l.find? (fun x => decide (x.a = b.a)) with
  | none => exact absurd (decide_eq_true rfl) (List.find?_eq_none.1 hf b hb)
  | some y =>
    have hy := List.mem_of_find?_eq_some hf
    have hq := List.find?_some hf
    simp only [decide_eq_true_eq] at hq
    by_cases e : b = y
    · rw [e]
    · exfalso
      have hd := pw_ne (fun _ _ q => Disj.symm q) hp hb hy e
      have := hn b hb
      have := hn y hy
      rcases hd with q | q <;> omega

theorem Core.main_pos {nsz inMain a e m L K} (c : Core nsz inMain a e m L K) : ∀ b ∈ m, 0 < b.n := by
  intro b hb
  rcases List.mem_append.1 (c.main.mem_iff.1 hb) with h | h
  · obtain ⟨x, _, rfl⟩ := List.mem_map.1 h
    show 0 < SIZE; decide
  · rcases List.mem_append.1 h with h | h
    · obtain ⟨x, _, rfl⟩ := List.mem_map.1 h
      show 0 < nodeSz nsz
      unfold nodeSz
      omega
    · obtain ⟨x, hx, rfl⟩ := List.mem_map.1 h
      have := c.ent x (List.mem_filter.1 hx).1
      have h1 := this.req
      have h2 := this.le
      show 0 < x.n
      omega

/-- Freeing a small block. -/
theorem smallKfree_ok {nsz inMain s L} (hi : Inv nsz inMain s L) {x : Entry} (hx : x ∈ L) (hs : x.req ≤ MAXALLOC) {size : Nat}
    (hsz : size = 0 ∨ rnd size = x.n) : ∃ s', smallKfree nsz s x.p size = some (.ok s') ∧ Inv nsz inMain s' (L.erase x) := by
  obtain ⟨h, hh, hb⟩ := hi.home hx hs
  have hk := hi.hok h hh
  have hl := hk.len _ hb
  have s1 : SIZE = 32768 := rfl
  have s3 : MD = 2048 := rfl
  have f1 : heapOf s.heaps x.p = some h := heapOf_eq hi hh hb
  have f2 : h.blocks.find? (fun b => decide (b.a = x.p)) = some (blkOf x) :=
    find_blk hk.dis (fun b hb => by have := (hk.len b hb).1; omega) hb
  obtain ⟨R, p1, p2, p3, _⟩ := split hi.areas hh
  have c := hi.perm p1
  have hmd := mem_del hb
  have hml := mem_le hk
  have hge : MD ≤ mem (delBlk (blkOf x) h) := by unfold mem; omega
  have hc : ¬ (size ≠ 0 ∧ rnd size ≠ (blkOf x).n) := by
    rintro ⟨q1, q2⟩
    rcases hsz with q | q
    · exact q1 q
    · exact q2 q
  have nf' : notFull (delBlk (blkOf x) h) = true := decide_eq_true (by omega)
  unfold smallKfree
  rw [f1]
  dsimp only
  rw [f2]
  dsimp only
  rw [if_neg hc]
  have hne : isEmpty h = false := decide_eq_false (by omega)
  have em := c.empty
  rw [filter_cons_len, hne, if_neg (show ¬ (false = true) by decide)] at em
  have av := c.avail
  rw [List.filter_cons] at av
  by_cases hf : mem h = SIZE
  · rw [if_pos hf]
    refine ⟨_, rfl, ?_⟩
    have nf : notFull h = false := decide_eq_false (by simpa using hf)
    rw [nf, if_neg (show ¬ (false = true) by decide)] at av
    refine (core_free c hx hs hb ?_ ?_ hi.le1).perm (p2 _).symm
    · rw [List.filter_cons, nf', if_pos rfl]
      exact (List.perm_append_singleton _ _).trans (av.cons _)
    · have : isEmpty (delBlk (blkOf x) h) = false := decide_eq_false (by
        have := hl.2.1
        omega)
      rw [filter_cons_len, this, if_neg (show ¬ (false = true) by decide)]
      exact em
  · rw [if_neg hf]
    have nf : notFull h = true := decide_eq_true hf
    rw [nf, if_pos rfl] at av
    have av' : s.avail.Perm (((delBlk (blkOf x) h :: R).filter notFull).map (·.base)) := by
      rw [List.filter_cons, nf', if_pos rfl]
      exact av
    by_cases hz : mem (delBlk (blkOf x) h) = MD
    · have hz' : isEmpty (delBlk (blkOf x) h) = true := decide_eq_true hz
      rw [if_pos hz]
      by_cases hlt : s.empty < MAXEMPTY
      · rw [if_pos hlt]
        refine ⟨_, rfl, ?_⟩
        refine (core_free c hx hs hb av' ?_ ?_).perm (p2 _).symm
        · rw [filter_cons_len, hz', if_pos rfl]
          dsimp only
          omega
        · dsimp only
          have : MAXEMPTY = 1 := rfl
          omega
      · rw [if_neg hlt]
        refine ⟨_, rfl, ?_⟩
        exact (core_destroy c hx hs hb hf hz).perm (p3 _ rfl).symm
    · rw [if_neg hz]
      refine ⟨_, rfl, ?_⟩
      have hz' : isEmpty (delBlk (blkOf x) h) = false := decide_eq_false hz
      refine (core_free c hx hs hb av' ?_ hi.le1).perm (p2 _).symm
      rw [filter_cons_len, hz', if_neg (show ¬ (false = true) by decide)]
      exact em

theorem mainKfree_ok {nsz inMain s L} (hi : Inv nsz inMain s L) {x : Entry} (hx : x ∈ L) (hs : MAXALLOC < x.req) :
    ∃ s', mainKfree inMain s x.p = some (.ok s') ∧ Inv nsz inMain s' (L.erase x) := by
  obtain ⟨p1, p2⟩ := bigs_erase hx hs
  have hm : blkOf x ∈ s.main := hi.main.mem_iff.2 (List.mem_append_right _ (List.mem_append_right _ (mem_bigs hx hs)))
  have f : s.main.find? (fun b => decide (b.a = x.p)) = some (blkOf x) := find_blk hi.dis hi.main_pos hm
  unfold mainKfree
  rw [if_pos ((hi.ent x hx).main hs), f]
  refine ⟨_, rfl, hi.hok, hi.dis.sublist List.erase_sublist, ?_, hi.small.trans p2, hi.avail, hi.empty, hi.le1,
    fun y hy => hi.ent y (List.mem_of_mem_erase hy)⟩
  have q := hi.main.trans ((List.Perm.refl _).append ((List.Perm.refl _).append p1))
  rw [← List.append_assoc] at q
  have q2 := (q.trans List.perm_middle).erase (blkOf x)
  rw [List.erase_cons_head, List.append_assoc] at q2
  exact q2

theorem heapOf_big {nsz inMain a e m L K} (c : Core nsz inMain a e m L K) {x : Entry} (hx : x ∈ L) (hs : MAXALLOC < x.req) :
    heapOf K x.p = none := by
  unfold heapOf
  rw [List.find?_eq_none]
  intro h hh hp
  simp only [decide_eq_true_eq] at hp
  have hd := c.area_big hh hx hs
  have h1 := (c.ent x hx).req
  have h2 := (c.ent x hx).le
  have e1 : (areaB h).a = h.base := rfl
  have e2 : (areaB h).n = SIZE := rfl
  have e3 : (blkOf x).a = x.p := rfl
  have e4 : (blkOf x).n = x.n := rfl
  have s1 : SIZE = 32768 := rfl
  have s2 : MBS = 32 := rfl
  rcases hd with q | q <;> omega

theorem kfree_ok' {nsz inMain s L} (hi : Inv nsz inMain s L) {x : Entry} (hx : x ∈ L) {size : Nat}
    (hsz : size = 0 ∨ ((size ≤ MAXALLOC ↔ x.req ≤ MAXALLOC) ∧ (x.req ≤ MAXALLOC → rnd size = x.n))) :
    ∃ s', kfree nsz inMain s x.p size = .ok s' ∧ Inv nsz inMain s' (L.erase x) := by
  have he := hi.ent x hx
  unfold kfree
  rw [if_neg (show ¬ x.p = 0 by have := he.pos; omega)]
  by_cases hs : x.req ≤ MAXALLOC
  · obtain ⟨s', h1, h2⟩ := smallKfree_ok (size := size) hi hx hs (hsz.imp id (fun q => q.2 hs))
    refine ⟨s', ?_, h2⟩
    by_cases h0 : size = 0
    · rw [if_neg (by simpa using h0), h1]
    · rw [if_pos h0, if_pos ((hsz.resolve_left h0).1.2 hs), h1]; rfl
  · obtain ⟨s', h1, h2⟩ := mainKfree_ok hi hx (show MAXALLOC < x.req by omega)
    refine ⟨s', ?_, h2⟩
    by_cases h0 : size = 0
    · rw [if_neg (by simpa using h0)]
      have : smallKfree nsz s x.p size = none := by
        unfold smallKfree
        rw [heapOf_big hi hx (by omega)]
      rw [this, h1]; rfl
    · rw [if_pos h0, if_neg (fun q => hs ((hsz.resolve_left h0).1.1 q)), h1]; rfl

theorem kfree_ok {nsz inMain s L} (hi : Inv nsz inMain s L) {x : Entry} (hx : x ∈ L) {size : Nat}
    (hsz : size = 0 ∨ size = x.req) : ∃ s', kfree nsz inMain s x.p size = .ok s' ∧ Inv nsz inMain s' (L.erase x) := by
  refine kfree_ok' hi hx (hsz.imp id ?_)
  rintro rfl
  exact ⟨Iff.rfl, fun q => ((hi.ent x hx).small q).symm⟩

theorem inv_init (nsz : Nat) (inMain : Nat → Bool) : Inv nsz inMain init [] where
  hok := fun _ h => absurd h List.not_mem_nil
  dis := List.Pairwise.nil
  main := List.Perm.refl _
  small := List.Perm.refl _
  avail := List.Perm.refl _
  empty := rfl
  le1 := by decide
  ent := fun _ h => absurd h List.not_mem_nil

theorem reach_inv {nsz inMain s L} (h : Reach nsz inMain s L) : Inv nsz inMain s L := by
  induction h with
  | init => exact inv_init nsz inMain
  | @fail s L s' size o _ h0 ho hk ih =>
    have := kmalloc_out ih h0 ho
    rw [hk] at this
    cases this with
    | small _ _ _ => exact ih
    | big _ _ => exact ih
  | @kmalloc s L s' size o b _ h0 ho hk ih =>
    have := kmalloc_out ih h0 ho
    rw [hk] at this
    cases this with
    | some hi _ => exact hi
  | @kfree s L s' e size _ he hs hk ih =>
    obtain ⟨s2, h1, h2⟩ := kfree_ok ih he hs
    rw [h1] at hk
    cases hk
    exact h2

/-! ## Claims -/

/-- The blocks in use do not overlap, are as large as requested, small ones are aligned to their size, and none overlaps
the allocator's own data. -/
theorem blocks_safe {nsz inMain s L} (h : Reach nsz inMain s L) :
    (L.Pairwise fun x y => x.p + x.n ≤ y.p ∨ y.p + y.n ≤ x.p) ∧
    (∀ x ∈ L, 0 < x.p ∧ x.req ≤ x.n ∧ (x.req ≤ 2047 → x.n ∣ x.p)) ∧
    (∀ x ∈ L, ∀ y ∈ s.heaps, (x.p + x.n ≤ y.base ∨ y.base + 2048 ≤ x.p) ∧
      (x.p + x.n ≤ y.node ∨ y.node + nodeSz nsz ≤ x.p)) := by
  have hi := reach_inv h
  refine ⟨?_, ?_, ?_⟩
  · clear hi
    induction h with
    | init => exact List.Pairwise.nil
    | fail _ _ _ _ ih => exact ih
    | @kmalloc s L s' size o b hr h0 ho hk ih =>
      have := kmalloc_out (reach_inv hr) h0 ho
      rw [hk] at this
      cases this with
      | some _ hd => exact List.pairwise_cons.2 ⟨fun y hy => hd y hy, ih⟩
    | kfree _ _ _ _ ih => exact ih.sublist List.erase_sublist
  · intro x hx
    have he := hi.ent x hx
    refine ⟨he.pos, he.le, fun hs => ?_⟩
    obtain ⟨y, hy, hb⟩ := hi.home hx hs
    exact ((hi.hok y hy).len _ hb).2.2
  · intro x hx y hy
    have e1 : (areaB y).a = y.base := rfl
    have e2 : (areaB y).n = 32768 := rfl
    have e3 : (blkOf x).a = x.p := rfl
    have e4 : (blkOf x).n = x.n := rfl
    have e5 : (nodeB nsz y).a = y.node := rfl
    have e6 : (nodeB nsz y).n = nodeSz nsz := rfl
    by_cases hs : x.req ≤ MAXALLOC
    · obtain ⟨z, hz, hb⟩ := hi.home hx hs
      have hin := (hi.hok z hz).ins _ hb
      have s3 : MD = 2048 := rfl
      have s1 : SIZE = 32768 := rfl
      have e7 : (areaB z).a = z.base := rfl
      have e8 : (areaB z).n = 32768 := rfl
      constructor
      · by_cases e : y = z
        · subst e; right; omega
        · rcases hi.area_ne hy hz e with q | q
          · right; omega
          · left; omega
      · rcases hi.area_node hz hy with q | q
        · left; omega
        · right; omega
    · constructor
      · rcases hi.area_big hy hx (by omega) with q | q
        · right; omega
        · left; omega
      · rcases hi.node_big hy hx (by omega) with q | q
        · right; omega
        · left; omega

/-- Freeing a block, with its requested size or without, never panics or corrupts a heap. -/
theorem kfree_safe {nsz inMain s L} (h : Reach nsz inMain s L) {x : Entry} (hx : x ∈ L) :
    (∃ s', kfree nsz inMain s x.p 0 = .ok s') ∧ (∃ s', kfree nsz inMain s x.p x.req = .ok s') := by
  have hi := reach_inv h
  obtain ⟨s1, h1, _⟩ := kfree_ok hi hx (Or.inl rfl)
  obtain ⟨s2, h2, _⟩ := kfree_ok hi hx (Or.inr rfl)
  exact ⟨⟨s1, h1⟩, ⟨s2, h2⟩⟩

/-- A request fails only if no small heap has a place for it and the main heaps have no memory for another one (or, for a
big one, no memory for the block); and then nothing has changed. -/
theorem kmalloc_fails {nsz inMain s L} (h : Reach nsz inMain s L) {size : Nat} {o : Ora} (h0 : 0 < size) (ho : OraOk nsz inMain s size o)
    {s' : St} (hk : kmalloc nsz s o size = (s', none)) :
    s' = s ∧ (size ≤ 2047 → (∀ y ∈ s.heaps, ∀ a, ¬ Place y (rnd size) a) ∧ (o.area = none ∨ o.node = none)) ∧
    (2047 < size → o.big = none) := by
  have := kmalloc_out (reach_inv h) h0 ho
  rw [hk] at this
  cases this with
  | small hs hp hh => exact ⟨rfl, fun _ => ⟨hp, hh⟩, fun q => absurd (show size ≤ 2047 from hs) (by omega)⟩
  | big hs hh => exact ⟨rfl, fun q => absurd (show 2047 < size from hs) (by omega), fun _ => hh⟩

theorem heaps_le {K : List Heap} (hok : ∀ h ∈ K, HeapOk h) : K.length ≤ (K.flatMap (·.blocks)).length + (K.filter isEmpty).length := by
  induction K with
  | nil => simp
  | cons h K ih =>
    have := ih (fun x hx => hok x (List.mem_cons_of_mem _ hx))
    have hk := hok h (List.mem_cons_self ..)
    rw [List.flatMap_cons, List.length_append, List.filter_cons, List.length_cons]
    by_cases he : mem h = MD
    · have : isEmpty h = true := decide_eq_true he
      rw [this, if_pos rfl, List.length_cons]; omega
    · have h2 : isEmpty h = false := decide_eq_false he
      have : h.blocks ≠ [] := fun q => he ((mem_md hk).2 q)
      have := List.length_pos_iff.2 this
      rw [h2, if_neg (by decide)]; omega

/-- Memory is given back: there is at most one small heap that is not needed, and the main heaps hold, besides the users'
big blocks, two blocks for each small heap. -/
theorem given_back {nsz inMain s L} (h : Reach nsz inMain s L) :
    s.heaps.length ≤ (L.filter fun x => decide (x.req ≤ 2047)).length + 1 ∧
    s.main.length = 2 * s.heaps.length + (L.filter fun x => decide (2047 < x.req)).length := by
  have hi := reach_inv h
  have h1 := heaps_le hi.hok
  have h2 := hi.small.length_eq
  have h3 := hi.empty
  have h4 := hi.le1
  have h5 : (smalls L).length = (L.filter fun x => decide (x.req ≤ 2047)).length := by
    unfold smalls
    rw [List.length_map]
    congr 1
    refine List.filter_congr (fun x _ => ?_)
    by_cases q : x.req ≤ 2047
    · rw [isBig_f q, decide_eq_true q]; rfl
    · rw [isBig_t (show MAXALLOC < x.req from (by have : MAXALLOC = 2047 := rfl; omega)), decide_eq_false q]; rfl
  have h6 := hi.main.length_eq
  have h7 : (bigs L).length = (L.filter fun x => decide (2047 < x.req)).length := by
    unfold bigs
    rw [List.length_map]; rfl
  simp only [List.length_append, List.length_map] at h6
  constructor <;> omega

/-- Freeing with the size that general_kmalloc has told, which may be larger than requested, works unless this is 2048 for a
request below that. -/
theorem told_size_partial {nsz inMain s L} (h : Reach nsz inMain s L) {x : Entry} (hx : x ∈ L) (hn : ¬ (x.req < 2048 ∧ x.n = 2048)) :
    ∃ s', kfree nsz inMain s x.p x.n = .ok s' := by
  have hi := reach_inv h
  have he := hi.ent x hx
  have hm : MAXALLOC = 2047 := rfl
  have : ∃ s', kfree nsz inMain s x.p x.n = .ok s' ∧ Inv nsz inMain s' (L.erase x) := by
    refine kfree_ok' hi hx (Or.inr ⟨?_, ?_⟩)
    · constructor
      · intro q; have := he.le; omega
      · intro q
        have h1 := he.small q
        have := (rnd_small x.req (max_lt q)).2.2.1
        omega
    · intro q
      rw [he.small q]
      exact (rnd_small x.req (max_lt q)).2.2.2.2
  obtain ⟨s', h1, _⟩ := this
  exact ⟨s', h1⟩

/-- The answers of the heaps in the example below. -/
def ora1 : Ora := ⟨fun b => some (b + 2048), some 32768, some 65536, some ⟨131072, 8192⟩⟩

theorem ora1_ok : OraOk 3000 (fun _ => true) init 1500 ora1 where
  pick := fun _ h => absurd h List.not_mem_nil
  fresh := by
    intro b nd h1 h2
    cases h1; cases h2
    exact place_new (by decide) (by decide)
  area := by
    intro b h1
    cases h1
    exact ⟨by decide, by decide, fun _ h => absurd h List.not_mem_nil⟩
  node := by
    intro b nd h1 h2
    cases h1; cases h2
    exact ⟨by decide, Or.inr (by decide), fun _ h => absurd h List.not_mem_nil⟩
  big := by
    intro b h1
    cases h1
    exact ⟨by decide, by decide, rfl, fun _ h => absurd h List.not_mem_nil⟩

def s1 : St := ⟨[⟨32768, 65536, [⟨34816, 2048⟩]⟩], [32768], 0, [⟨32768, 32768⟩, ⟨65536, 3000⟩]⟩
def s2 : St := ⟨[⟨32768, 65536, []⟩], [32768], 1, [⟨32768, 32768⟩, ⟨65536, 3000⟩]⟩

theorem s1_reach : Reach 3000 (fun _ => true) s1 [⟨34816, 1500, 2048⟩] :=
  @Reach.kmalloc 3000 (fun _ => true) init [] s1 1500 ora1 ⟨34816, 2048⟩ .init (by decide) ora1_ok (by decide +kernel)

/-- A block of 1500 bytes: the allocator says that it has 2048; freeing it with this size corrupts the main heaps. -/
theorem told_size_violated : ∃ s, Reach 3000 (fun _ => true) s [⟨34816, 1500, 2048⟩] ∧
    kfree 3000 (fun _ => true) s 34816 2048 = .corrupt := ⟨s1, s1_reach, by decide +kernel⟩

/-- Allocating and freeing leaves one empty small heap. -/
example : Reach 3000 (fun _ => true) s2 [] :=
  @Reach.kfree 3000 (fun _ => true) s1 [⟨34816, 1500, 2048⟩] s2 ⟨34816, 1500, 2048⟩ 1500 s1_reach (by decide) (Or.inr rfl)
    (by decide +kernel)

end Verif.SmallHeap
