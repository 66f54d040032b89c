/-
The intrusive circular doubly-linked list used all over the kernel, at the level of its pointers.

Modelled code (vvaltchev/tilck):
  include/tilck/kernel/list.h 26-88     initialisation, insertion, removal, queries
  include/tilck/kernel/list.h 133-153   list_for_each, list_for_each_ro, list_for_each_reverse

Addresses are natural numbers; the memory holds a `next` and a `prev` pointer at every address. A list head (struct list)
and a node (struct list_node) have the same layout and the code casts one to the other, so they are not distinguished.
CONTAINER_OF is left out: loops run over the nodes instead of the structures they are in.
-/
import Mathlib.Data.List.Basic
import Mathlib.Tactic.Common
import Mathlib.Data.List.Perm.Basic
import Mathlib.Tactic.Tauto

namespace Verif.LList

/-! ## Model -/

/-- The two pointers of every struct list_node. -/
structure Mem where
  nx : Nat → Nat
  pv : Nat → Nat

def set (f : Nat → Nat) (a b : Nat) : Nat → Nat := fun x => if x = a then b else f x

/-- list.h:26-30 list_node_init, 40-42 list_init. -/
def nodeInit (n : Nat) (m : Mem) : Mem := { nx := set m.nx n n, pv := set m.pv n n }

/-- list.h:36-38 list_node_is_empty, 48-50 list_is_empty. -/
def isEmpty (n : Nat) (m : Mem) : Bool := m.nx n == n && m.pv n == n

/-- list.h:52-56 list_is_node_in_list. -/
def isNodeInList (n : Nat) (m : Mem) : Bool := !isEmpty n m && m.nx (m.pv n) == n && m.pv (m.nx n) == n

/-- list.h:58-66 list_add_after, assignment by assignment. -/
def addAfter (curr elem : Nat) (m : Mem) : Mem :=
  { nx := set (set m.nx curr elem) elem (m.nx curr),
    pv := set (set m.pv elem curr) (m.nx curr) elem }

/-- list.h:68-72 list_add_before. -/
def addBefore (curr elem : Nat) (m : Mem) : Mem := addAfter (m.pv curr) elem m

/-- list.h:74-77 list_add_tail. -/
def addTail (l elem : Nat) (m : Mem) : Mem := addBefore l elem m

/-- list.h:79-82 list_add_head. -/
def addHead (l elem : Nat) (m : Mem) : Mem := addAfter l elem m

/-- list.h:84-88 list_remove. -/
def remove (elem : Nat) (m : Mem) : Mem :=
  { nx := set m.nx (m.pv elem) (m.nx elem), pv := set m.pv (m.nx elem) (m.pv elem) }

inductive Op where
  | init (h : Nat)
  | nodeInit (n : Nat)
  | addAfter (c e : Nat)
  | addBefore (c e : Nat)
  | addHead (h e : Nat)
  | addTail (h e : Nat)
  | remove (e : Nat)

def step (m : Mem) : Op → Mem
  | .init h => nodeInit h m
  | .nodeInit n => nodeInit n m
  | .addAfter c e => addAfter c e m
  | .addBefore c e => addBefore c e m
  | .addHead h e => addHead h e m
  | .addTail h e => addTail h e m
  | .remove e => remove e m

def run (m : Mem) (ops : List Op) : Mem := ops.foldl step m

/-- list.h:133-137 list_for_each: `pos` and the prefetched `tp`; the nodes visited, the memory in the end, and whether the
loop ended within the given number of rounds. -/
def forEach (body : Nat → List Op) (h : Nat) : Nat → Nat → Nat → Mem → List Nat × Mem × Bool
  | 0, _, _, m => ([], m, false)
  | k + 1, pos, tp, m =>
    if pos = h then ([], m, true)
    else
      ((forEach body h k tp ((run m (body pos)).nx tp) (run m (body pos))).1.cons pos,
       (forEach body h k tp ((run m (body pos)).nx tp) (run m (body pos))).2)

/-- list.h:139-142 list_for_each_ro. -/
def forEachRo (body : Nat → List Op) (h : Nat) : Nat → Nat → Mem → List Nat × Mem × Bool
  | 0, _, m => ([], m, false)
  | k + 1, pos, m =>
    if pos = h then ([], m, true)
    else
      ((forEachRo body h k ((run m (body pos)).nx pos) (run m (body pos))).1.cons pos,
       (forEachRo body h k ((run m (body pos)).nx pos) (run m (body pos))).2)

/-- list.h:149-153 list_for_each_reverse. -/
def forEachRev (body : Nat → List Op) (h : Nat) : Nat → Nat → Nat → Mem → List Nat × Mem × Bool
  | 0, _, _, m => ([], m, false)
  | k + 1, pos, tp, m =>
    if pos = h then ([], m, true)
    else
      ((forEachRev body h k tp ((run m (body pos)).pv tp) (run m (body pos))).1.cons pos,
       (forEachRev body h k tp ((run m (body pos)).pv tp) (run m (body pos))).2)

/-! ## Specification: lists of nodes -/

/-- The lists as the caller sees them: which addresses are list heads, the elements of each list, the nodes that have been
initialised and not inserted since, and the nodes that were ever initialised or inserted. -/
structure Abs where
  head : Nat → Bool
  els : Nat → List Nat
  ini : Nat → Bool
  seen : Nat → Bool

def put {α : Type} (f : Nat → α) (a : Nat) (b : α) : Nat → α := fun x => if x = a then b else f x

/-- `n` is an element of a list. -/
def InList (a : Abs) (n : Nat) : Prop := ∃ h, a.head h = true ∧ n ∈ a.els h

/-- Insert `e` after, and before, the element `c`. -/
def insAfter (c e : Nat) (l : List Nat) : List Nat := l.flatMap fun x => if x = c then [x, e] else [x]
def insBefore (c e : Nat) (l : List Nat) : List Nat := l.flatMap fun x => if x = c then [e, x] else [x]

/-- What each call means. -/
def aStep (a : Abs) : Op → Abs
  | .init h => { head := put a.head h true, els := put a.els h [], ini := put a.ini h false, seen := put a.seen h false }
  | .nodeInit n => { a with ini := put a.ini n true, seen := put a.seen n true }
  | .addAfter c e =>
    { a with els := fun h => if h = c then e :: a.els h else insAfter c e (a.els h), ini := put a.ini e false,
             seen := put a.seen e true }
  | .addBefore c e =>
    { a with els := fun h => if h = c then a.els h ++ [e] else insBefore c e (a.els h), ini := put a.ini e false,
             seen := put a.seen e true }
  | .addHead h e =>
    { a with els := put a.els h (e :: a.els h), ini := put a.ini e false, seen := put a.seen e true }
  | .addTail h e =>
    { a with els := put a.els h (a.els h ++ [e]), ini := put a.ini e false, seen := put a.seen e true }
  | .remove e => { a with els := fun h => (a.els h).filter (· ≠ e) }

def aRun (a : Abs) (ops : List Op) : Abs := ops.foldl aStep a

/-- The calls the kernel is allowed to make: insert only what is in no list, next to a head or an element; remove only an
element or a node that was initialised and never inserted since. -/
def Legal (a : Abs) : Op → Prop
  | .init h => ¬ InList a h ∧ (a.head h = true → a.els h = [])
  | .nodeInit n => ¬ InList a n ∧ a.head n = false
  | .addAfter c e => ¬ InList a e ∧ a.head e = false ∧ (a.head c = true ∨ InList a c)
  | .addBefore c e => ¬ InList a e ∧ a.head e = false ∧ (a.head c = true ∨ InList a c)
  | .addHead h e => ¬ InList a e ∧ a.head e = false ∧ a.head h = true
  | .addTail h e => ¬ InList a e ∧ a.head e = false ∧ a.head h = true
  | .remove e => InList a e ∨ a.ini e = true

def LegalRun : Abs → List Op → Prop
  | _, [] => True
  | a, o :: os => Legal a o ∧ LegalRun (aStep a o) os

/-- Any memory, no lists. -/
def none0 : Abs := ⟨fun _ => false, fun _ => [], fun _ => false, fun _ => false⟩

/-- All histories, from any memory. -/
inductive Reach : Mem → Abs → Prop
  | start (m : Mem) : Reach m none0
  | step {m : Mem} {a : Abs} (o : Op) : Reach m a → Legal a o → Reach (step m o) (aStep a o)

/-- The first `k` nodes met when following a pointer from `x`. -/
def walk (f : Nat → Nat) : Nat → Nat → List Nat
  | 0, _ => []
  | k + 1, x => f x :: walk f k (f x)

/-! ## Chains of pointers -/

theorem set_eq (f : Nat → Nat) (a b : Nat) : set f a b a = b := if_pos rfl
theorem set_ne (f : Nat → Nat) {a b x : Nat} (h : x ≠ a) : set f a b x = f x := if_neg h

/-- From `a` the pointers lead through `l` to `b`, and back. -/
def Seg (m : Mem) (a : Nat) : List Nat → Nat → Prop
  | [], b => m.nx a = b ∧ m.pv b = a
  | x :: l, b => m.nx a = x ∧ m.pv x = a ∧ Seg m x l b

theorem Seg.congr {m m' : Mem} : ∀ {l : List Nat} {a b : Nat}, Seg m a l b → (∀ x ∈ a :: l, m'.nx x = m.nx x) →
    (∀ x ∈ l ++ [b], m'.pv x = m.pv x) → Seg m' a l b
  | [], a, b, h, h1, h2 => ⟨(h1 a (by simp)).trans h.1, (h2 b (by simp)).trans h.2⟩
  | x :: l, a, b, h, h1, h2 =>
    ⟨(h1 a (by simp)).trans h.1, (h2 x (by simp)).trans h.2.1,
     h.2.2.congr (fun y hy => h1 y (List.mem_cons_of_mem _ hy)) (fun y hy => h2 y (List.mem_cons_of_mem _ hy))⟩

theorem Seg.split {m : Mem} : ∀ {l1 l2 : List Nat} {a c b : Nat}, Seg m a (l1 ++ c :: l2) b ↔ Seg m a l1 c ∧ Seg m c l2 b
  | [], l2, a, c, b => ⟨fun h => ⟨⟨h.1, h.2.1⟩, h.2.2⟩, fun h => ⟨h.1.1, h.1.2, h.2⟩⟩
  | x :: l1, l2, a, c, b => ⟨fun h => ⟨⟨h.1, h.2.1, (Seg.split.mp h.2.2).1⟩, (Seg.split.mp h.2.2).2⟩,
      fun h => ⟨h.1.1, h.1.2.1, Seg.split.mpr ⟨h.1.2.2, h.2⟩⟩⟩

theorem Seg.first {m : Mem} {l : List Nat} {a b : Nat} (h : Seg m a l b) : m.nx a ∈ l ++ [b] := by
  cases l with
  | nil => rw [h.1]; simp
  | cons x l => rw [h.1]; simp

theorem Seg.last {m : Mem} : ∀ {l : List Nat} {a b : Nat}, Seg m a l b → m.pv b ∈ a :: l
  | [], a, b, h => by rw [h.2]; simp
  | x :: l, a, b, h => List.mem_cons_of_mem _ h.2.2.last

theorem Seg.walkF {m : Mem} : ∀ {l : List Nat} {a b : Nat}, Seg m a l b → walk m.nx (l.length + 1) a = l ++ [b]
  | [], a, b, h => by simp [walk, h.1]
  | x :: l, a, b, h => by
    show m.nx a :: walk m.nx (l.length + 1) (m.nx a) = _
    rw [h.1, h.2.2.walkF]
    rfl

theorem walk_snoc (f : Nat → Nat) : ∀ (k x y : Nat) (l : List Nat), walk f (k + 1) x = l ++ [y] →
    walk f (k + 2) x = l ++ [y, f y]
  | 0, x, y, l, h => by
    have h1 : [f x] = l ++ [y] := h
    cases l with
    | nil =>
      have : f x = y := by simpa using h1
      show [f x, f (f x)] = _
      rw [this]
      rfl
    | cons z l => exact absurd (congrArg List.length h1) (by simp)
  | k + 1, x, y, l, h => by
    cases l with
    | nil => exact absurd (congrArg List.length h) (by simp [walk])
    | cons z l =>
      have h1 : f x :: walk f (k + 1) (f x) = z :: (l ++ [y]) := h
      obtain ⟨e1, e2⟩ := List.cons.inj h1
      show f x :: walk f (k + 2) (f x) = _
      rw [walk_snoc f k (f x) y l e2, e1]
      rfl

theorem Seg.walkB {m : Mem} : ∀ {l : List Nat} {a b : Nat}, Seg m a l b → walk m.pv (l.length + 1) b = l.reverse ++ [a]
  | [], a, b, h => by simp [walk, h.2]
  | x :: l, a, b, h => by
    have h1 := h.2.2.walkB
    have h2 := walk_snoc m.pv l.length b x l.reverse h1
    show walk m.pv (l.length + 2) b = _
    rw [h2, h.2.1]
    simp

/-! ## Insertion and removal in a chain -/

theorem Seg.insert {m : Mem} {l : List Nat} {c b e : Nat} (h : Seg m c l b) (hn : l.Nodup) (hb : b ∉ l) (hc : c ∉ l)
    (hec : e ≠ c) (heb : e ≠ b) (hel : e ∉ l) : Seg (addAfter c e m) c (e :: l) b := by
  have hcn : m.nx c ≠ e := by
    have := h.first
    intro hx
    rw [hx] at this
    simp [hel, heb] at this
  refine ⟨?_, ?_, ?_⟩
  · show set (set m.nx c e) e (m.nx c) c = e
    rw [set_ne _ (Ne.symm hec), set_eq]
  · show set (set m.pv e c) (m.nx c) e e = c
    rw [set_ne _ (Ne.symm hcn), set_eq]
  · cases l with
    | nil =>
      have h1 : m.nx c = b := h.1
      refine ⟨?_, ?_⟩
      · show set (set m.nx c e) e (m.nx c) e = b
        rw [set_eq, h1]
      · show set (set m.pv e c) (m.nx c) e b = e
        rw [h1, set_eq]
    | cons x l =>
      have h1 : m.nx c = x := h.1
      have hnd := List.nodup_cons.mp hn
      have hxb : x ≠ b := fun hx => hb (hx ▸ List.mem_cons_self)
      have hxe : x ≠ e := fun hx => hel (hx ▸ List.mem_cons_self)
      refine ⟨?_, ?_, h.2.2.congr ?_ ?_⟩
      · show set (set m.nx c e) e (m.nx c) e = x
        rw [set_eq, h1]
      · show set (set m.pv e c) (m.nx c) e x = e
        rw [h1, set_eq]
      · intro y hy
        show set (set m.nx c e) e (m.nx c) y = _
        rw [set_ne _ (show y ≠ e from fun hx => hel (hx ▸ hy)), set_ne _ (show y ≠ c from fun hx => hc (hx ▸ hy))]
      · intro y hy
        show set (set m.pv e c) (m.nx c) e y = _
        have hyx : y ≠ x := by
          intro hx
          rw [hx] at hy
          rcases List.mem_append.mp hy with h3 | h3
          · exact hnd.1 h3
          · exact hxb (List.mem_singleton.mp h3)
        have hye : y ≠ e := by
          intro hx
          rw [hx] at hy
          rcases List.mem_append.mp hy with h3 | h3
          · exact hel (List.mem_cons_of_mem _ h3)
          · exact heb (List.mem_singleton.mp h3)
        rw [h1, set_ne _ hyx, set_ne _ hye]

/-- A chain that the insertion does not touch. -/
theorem Seg.insertFrame {m : Mem} {l : List Nat} {a b c e : Nat} (h : Seg m a l b) (hc : c ∉ a :: l) (he : e ∉ a :: l)
    (hn : m.nx c ∉ l ++ [b]) (heb : e ∉ l ++ [b]) : Seg (addAfter c e m) a l b := by
  refine h.congr ?_ ?_
  · intro y hy
    show set (set m.nx c e) e (m.nx c) y = _
    rw [set_ne _ (show y ≠ e from fun hx => he (hx ▸ hy)), set_ne _ (show y ≠ c from fun hx => hc (hx ▸ hy))]
  · intro y hy
    show set (set m.pv e c) (m.nx c) e y = _
    rw [set_ne _ (show y ≠ m.nx c from fun hx => hn (hx ▸ hy)), set_ne _ (show y ≠ e from fun hx => heb (hx ▸ hy))]

theorem Seg.join {m : Mem} : ∀ {l1 l2 : List Nat} {a b e : Nat}, Seg m a l1 e → Seg m e l2 b →
    (l1 ++ l2).Nodup → a ∉ l1 ++ l2 → b ∉ l1 ++ l2 → Seg (remove e m) a (l1 ++ l2) b
  | [], l2, a, b, e, h1, h2, hn, ha, hb => by
    have hp : m.pv e = a := h1.2
    cases l2 with
    | nil =>
      have hq : m.nx e = b := h2.1
      refine ⟨?_, ?_⟩
      · show set m.nx (m.pv e) (m.nx e) a = b
        rw [hp, set_eq, hq]
      · show set m.pv (m.nx e) (m.pv e) b = a
        rw [hq, set_eq, hp]
    | cons x l =>
      have hq : m.nx e = x := h2.1
      have hnd := List.nodup_cons.mp hn
      refine ⟨?_, ?_, h2.2.2.congr ?_ ?_⟩
      · show set m.nx (m.pv e) (m.nx e) a = x
        rw [hp, set_eq, hq]
      · show set m.pv (m.nx e) (m.pv e) x = a
        rw [hq, set_eq, hp]
      · intro y hy
        show set m.nx (m.pv e) (m.nx e) y = _
        rw [hp, set_ne _ (show y ≠ a from fun hx => ha (hx ▸ hy))]
      · intro y hy
        show set m.pv (m.nx e) (m.pv e) y = _
        rw [hq, set_ne]
        intro hx
        rw [hx] at hy
        rcases List.mem_append.mp hy with h3 | h3
        · exact hnd.1 h3
        · exact hb ((List.mem_singleton.mp h3) ▸ List.mem_cons_self)
  | y :: l, l2, a, b, e, h1, h2, hn, ha, hb => by
    have hnd := List.nodup_cons.mp hn
    refine ⟨?_, ?_, h1.2.2.join h2 hnd.2 hnd.1 fun h3 => hb (List.mem_cons_of_mem _ h3)⟩
    · show set m.nx (m.pv e) (m.nx e) a = y
      have hp := h1.2.2.last
      rw [set_ne]
      · exact h1.1
      · intro hx
        rw [← hx] at hp
        exact ha (List.mem_append_left _ hp)
    · show set m.pv (m.nx e) (m.pv e) y = a
      have hq := h2.first
      rw [set_ne]
      · exact h1.2.1
      · intro hx
        rw [← hx] at hq
        rcases List.mem_append.mp hq with h3 | h3
        · exact hnd.1 (List.mem_append_right _ h3)
        · exact hb ((List.mem_singleton.mp h3) ▸ List.mem_cons_self)

/-- A chain that the removal does not touch. -/
theorem Seg.removeFrame {m : Mem} {l : List Nat} {a b e : Nat} (h : Seg m a l b) (hp : m.pv e ∉ a :: l)
    (hq : m.nx e ∉ l ++ [b]) : Seg (remove e m) a l b :=
  h.congr (fun _ hy => set_ne _ fun hx => hp (hx ▸ hy)) (fun _ hy => set_ne _ fun hx => hq (hx ▸ hy))

/-! ## The invariant -/

structure Inv (m : Mem) (a : Abs) : Prop where
  seg : ∀ h, a.head h = true → Seg m h (a.els h) h
  nd : ∀ h, a.head h = true → (a.els h).Nodup
  dj : ∀ h h' x, a.head h = true → a.head h' = true → x ∈ a.els h → x ∈ a.els h' → h = h'
  hn : ∀ h, a.head h = true → ¬ InList a h
  out : ∀ n, a.seen n = true → ¬ InList a n → a.head n = false → (m.nx n = n ∧ m.pv n = n) ∨ m.nx (m.pv n) ≠ n
  ini : ∀ n, a.ini n = true → ¬ InList a n ∧ a.head n = false ∧ m.nx n = n ∧ m.pv n = n

/-- `n` is a head or in a list. -/
def Used (a : Abs) (n : Nat) : Prop := a.head n = true ∨ InList a n

theorem used_ring {a : Abs} {h x : Nat} (hh : a.head h = true) (hx : x ∈ h :: a.els h) : Used a x := by
  rcases List.mem_cons.mp hx with rfl | hx
  · exact Or.inl hh
  · exact Or.inr ⟨h, hh, hx⟩

theorem not_ring {a : Abs} {h e : Nat} (hh : a.head h = true) (he : ¬ Used a e) : e ∉ h :: a.els h :=
  fun hx => he (used_ring hh hx)

/-- The rings of two lists have nothing in common. -/
theorem Inv.ringDj {m : Mem} {a : Abs} (v : Inv m a) {h h' x : Nat} (h1 : a.head h = true) (h2 : a.head h' = true)
    (x1 : x ∈ h :: a.els h) (x2 : x ∈ h' :: a.els h') : h = h' := by
  rcases List.mem_cons.mp x1 with e1 | x1 <;> rcases List.mem_cons.mp x2 with e2 | x2
  · exact e1.symm.trans e2
  · exact absurd ⟨h', h2, e1 ▸ x2⟩ (v.hn h h1)
  · exact absurd ⟨h, h1, e2 ▸ x1⟩ (v.hn h' h2)
  · exact v.dj h h' x h1 h2 x1 x2

theorem Seg.pvLast {m : Mem} : ∀ {l : List Nat} {a b : Nat}, Seg m a l b → m.pv b = (a :: l).getLast (by simp)
  | [], a, b, h => h.2
  | x :: l, a, b, h => by
    rw [h.2.2.pvLast]
    simp

theorem ring_insert {m : Mem} {h e : Nat} {l1 l2 : List Nat} (hs : Seg m h (l1 ++ l2) h) (hnd : (l1 ++ l2).Nodup)
    (hh : h ∉ l1 ++ l2) (he : e ∉ h :: (l1 ++ l2)) :
    Seg (addAfter ((h :: l1).getLast (by simp)) e m) h (l1 ++ e :: l2) h ∧
      m.nx ((h :: l1).getLast (by simp)) ∈ l2 ++ [h] := by
  have heh : e ≠ h := fun hx => he (hx ▸ List.mem_cons_self)
  have hel : e ∉ l1 ++ l2 := fun hx => he (List.mem_cons_of_mem _ hx)
  rcases List.eq_nil_or_concat l1 with rfl | ⟨l0, p, rfl⟩
  · exact ⟨Seg.insert hs hnd hh hh heh heh hel, hs.first⟩
  · have hl : (h :: (l0 ++ [p])).getLast (by simp) = p := by simp
    simp only [List.concat_eq_append] at *
    rw [hl]
    have e1 : l0 ++ [p] ++ l2 = l0 ++ p :: l2 := by simp
    rw [e1] at hs hnd hh hel
    obtain ⟨s1, s2⟩ := Seg.split.mp hs
    have nd1 : l0.Nodup ∧ (p :: l2).Nodup ∧ ∀ x ∈ l0, ∀ y ∈ p :: l2, x ≠ y := List.nodup_append.mp hnd
    have nd2 := List.nodup_cons.mp nd1.2.1
    have hp0 : p ∉ l0 := fun hx => nd1.2.2 p hx p List.mem_cons_self rfl
    have hhp : h ≠ p := fun hx => hh (by simp [hx])
    have hh0 : h ∉ l0 := fun hx => hh (by simp [hx])
    have hh2 : h ∉ l2 := fun hx => hh (by simp [hx])
    have hep : e ≠ p := fun hx => hel (by simp [hx])
    have he0 : e ∉ l0 := fun hx => hel (by simp [hx])
    have he2 : e ∉ l2 := fun hx => hel (by simp [hx])
    have hf := s2.first
    refine ⟨?_, hf⟩
    have e2 : l0 ++ [p] ++ e :: l2 = l0 ++ p :: (e :: l2) := by simp
    rw [e2]
    refine Seg.split.mpr ⟨s1.insertFrame ?_ ?_ ?_ ?_, s2.insert nd2.2 hh2 nd2.1 hep heh he2⟩
    · simp [Ne.symm hhp, hp0]
    · simp [heh, he0]
    · intro hx
      rcases List.mem_append.mp hf with h3 | h3
      · rcases List.mem_append.mp hx with h4 | h4
        · exact nd1.2.2 _ h4 _ (List.mem_cons_of_mem _ h3) rfl
        · exact nd2.1 ((List.mem_singleton.mp h4) ▸ h3)
      · rw [List.mem_singleton.mp h3] at hx
        rcases List.mem_append.mp hx with h4 | h4
        · exact hh0 h4
        · exact hhp (List.mem_singleton.mp h4)
    · simp [he0, hep]

theorem inv_insert {m : Mem} {a a' : Abs} {h0 e : Nat} {l1 l2 : List Nat} (v : Inv m a) (hh : a.head h0 = true)
    (hl : a.els h0 = l1 ++ l2) (he : ¬ Used a e) (e1 : a'.head = a.head) (e2 : a'.els h0 = l1 ++ e :: l2)
    (e3 : ∀ h, a.head h = true → h ≠ h0 → a'.els h = a.els h) (e4 : a'.ini = put a.ini e false)
    (e5 : a'.seen = put a.seen e true) : Inv (addAfter ((h0 :: l1).getLast (by simp)) e m) a' := by
  obtain ⟨hs, hf⟩ := ring_insert (e := e) (hl ▸ v.seg h0 hh) (hl ▸ v.nd h0 hh)
    (fun hx => v.hn h0 hh ⟨h0, hh, hl ▸ hx⟩) (hl ▸ not_ring hh he)
  have hlast : (h0 :: l1).getLast (by simp) ∈ h0 :: a.els h0 := by
    rw [hl]
    have := List.getLast_mem (l := h0 :: l1) (by simp)
    rcases List.mem_cons.mp this with h3 | h3
    · rw [h3]; exact List.mem_cons_self
    · exact List.mem_cons_of_mem _ (List.mem_append_left _ h3)
  generalize hp : (h0 :: l1).getLast (by simp) = p at *
  have hq : m.nx p ∈ h0 :: a.els h0 := by
    rw [hl]
    rcases List.mem_append.mp hf with h3 | h3
    · exact List.mem_cons_of_mem _ (List.mem_append_right _ h3)
    · rw [List.mem_singleton.mp h3]; exact List.mem_cons_self
  have up : Used a p := used_ring hh hlast
  have uq : Used a (m.nx p) := used_ring hh hq
  have hel : e ∉ a.els h0 := fun hx => he (Or.inr ⟨h0, hh, hx⟩)
  have mem0 : ∀ x, x ∈ a'.els h0 ↔ x = e ∨ x ∈ a.els h0 := by
    intro x
    rw [e2, hl]
    simp only [List.mem_append, List.mem_cons]
    tauto
  have inl : ∀ n, InList a' n ↔ n = e ∨ InList a n := by
    intro n
    constructor
    · rintro ⟨h, hb, hx⟩
      rw [e1] at hb
      by_cases hc : h = h0
      · subst hc
        rcases (mem0 n).mp hx with h3 | h3
        · exact Or.inl h3
        · exact Or.inr ⟨h, hb, h3⟩
      · rw [e3 h hb hc] at hx
        exact Or.inr ⟨h, hb, hx⟩
    · rintro (rfl | ⟨h, hb, hx⟩)
      · exact ⟨h0, by rw [e1]; exact hh, (mem0 _).mpr (Or.inl rfl)⟩
      · by_cases hc : h = h0
        · subst hc
          exact ⟨h, by rw [e1]; exact hb, (mem0 _).mpr (Or.inr hx)⟩
        · exact ⟨h, by rw [e1]; exact hb, by rw [e3 h hb hc]; exact hx⟩
  have nxo : ∀ n, n ≠ e → n ≠ p → (addAfter p e m).nx n = m.nx n := fun n x y => by
    show set (set m.nx p e) e (m.nx p) n = _
    rw [set_ne _ x, set_ne _ y]
  have pvo : ∀ n, n ≠ e → n ≠ m.nx p → (addAfter p e m).pv n = m.pv n := fun n x y => by
    show set (set m.pv e p) (m.nx p) e n = _
    rw [set_ne _ y, set_ne _ x]
  refine ⟨?_, ?_, ?_, ?_, ?_, ?_⟩
  · intro h hb
    rw [e1] at hb
    by_cases hc : h = h0
    · subst hc
      rw [e2]
      exact hs
    · rw [e3 h hb hc]
      refine (v.seg h hb).insertFrame (fun hx => hc (v.ringDj hb hh hx hlast)) (not_ring hb he) ?_ ?_
      · intro hx
        refine hc (v.ringDj hb hh ?_ hq)
        rcases List.mem_append.mp hx with h3 | h3
        · exact List.mem_cons_of_mem _ h3
        · rw [List.mem_singleton.mp h3]; exact List.mem_cons_self
      · intro hx
        refine not_ring hb he ?_
        rcases List.mem_append.mp hx with h3 | h3
        · exact List.mem_cons_of_mem _ h3
        · rw [List.mem_singleton.mp h3]; exact List.mem_cons_self
  · intro h hb
    rw [e1] at hb
    by_cases hc : h = h0
    · subst hc
      rw [e2, List.perm_middle.nodup_iff, List.nodup_cons, ← hl]
      exact ⟨hel, v.nd h hb⟩
    · rw [e3 h hb hc]
      exact v.nd h hb
  · intro h h' x hb hb' hx hx'
    rw [e1] at hb hb'
    have hxe : ∀ k, a.head k = true → k ≠ h0 → x ∈ a'.els k → x ≠ e ∧ x ∈ a.els k := by
      intro k hk hc hxk
      rw [e3 k hk hc] at hxk
      exact ⟨fun h3 => he (Or.inr ⟨k, hk, h3 ▸ hxk⟩), hxk⟩
    by_cases hc : h = h0 <;> by_cases hc' : h' = h0
    · rw [hc, hc']
    · obtain ⟨a1, a2⟩ := hxe h' hb' hc' hx'
      rw [hc] at hx
      rw [hc]
      exact v.dj h0 h' x hh hb' (((mem0 x).mp hx).resolve_left a1) a2
    · obtain ⟨a1, a2⟩ := hxe h hb hc hx
      rw [hc'] at hx'
      rw [hc']
      exact v.dj h h0 x hb hh a2 (((mem0 x).mp hx').resolve_left a1)
    · exact v.dj h h' x hb hb' (hxe h hb hc hx).2 (hxe h' hb' hc' hx').2
  · intro h hb hx
    rw [e1] at hb
    rcases (inl h).mp hx with rfl | h3
    · exact he (Or.inl hb)
    · exact v.hn h hb h3
  · intro n hsn hnl hnh
    rw [e1] at hnh
    have hne : n ≠ e := fun h3 => hnl ((inl n).mpr (Or.inl h3))
    have hnl' : ¬ InList a n := fun h3 => hnl ((inl n).mpr (Or.inr h3))
    have hsn' : a.seen n = true := by
      rw [e5] at hsn
      unfold put at hsn
      rwa [if_neg hne] at hsn
    have hnu : ¬ Used a n := by
      rintro (h3 | h3)
      · rw [hnh] at h3; exact absurd h3 (by decide)
      · exact hnl' h3
    have hnp : n ≠ p := fun h3 => hnu (h3 ▸ up)
    have hnq : n ≠ m.nx p := fun h3 => hnu (h3 ▸ uq)
    rcases v.out n hsn' hnl' hnh with ⟨x, y⟩ | x
    · exact Or.inl ⟨(nxo n hne hnp).trans x, (pvo n hne hnq).trans y⟩
    · right
      rw [pvo n hne hnq]
      by_cases c1 : m.pv n = e
      · show set (set m.nx p e) e (m.nx p) (m.pv n) ≠ n
        rw [c1, set_eq]
        exact Ne.symm hnq
      · by_cases c2 : m.pv n = p
        · show set (set m.nx p e) e (m.nx p) (m.pv n) ≠ n
          rw [set_ne _ c1, c2, set_eq]
          exact Ne.symm hne
        · rw [nxo _ c1 c2]; exact x
  · intro n hin
    have hne : n ≠ e := by
      rintro rfl
      rw [e4] at hin
      unfold put at hin
      rw [if_pos rfl] at hin
      exact absurd hin (by decide)
    have hin' : a.ini n = true := by
      rw [e4] at hin
      unfold put at hin
      rwa [if_neg hne] at hin
    obtain ⟨x1, x2, x3, x4⟩ := v.ini n hin'
    have hnu : ¬ Used a n := by
      rintro (h3 | h3)
      · rw [x2] at h3; exact absurd h3 (by decide)
      · exact x1 h3
    refine ⟨fun h3 => ((inl n).mp h3).elim hne x1, by rw [e1]; exact x2, ?_, ?_⟩
    · exact (nxo n hne (fun h3 => hnu (h3 ▸ up))).trans x3
    · exact (pvo n hne (fun h3 => hnu (h3 ▸ uq))).trans x4

theorem inv_remove {m : Mem} {a a' : Abs} {h0 e : Nat} {l1 l2 : List Nat} (v : Inv m a) (hh : a.head h0 = true)
    (hl : a.els h0 = l1 ++ e :: l2) (e1 : a'.head = a.head) (e2 : a'.els h0 = l1 ++ l2)
    (e3 : ∀ h, a.head h = true → h ≠ h0 → a'.els h = a.els h) (e4 : a'.ini = a.ini)
    (e5 : a'.seen = a.seen) : Inv (remove e m) a' := by
  obtain ⟨s1, s2⟩ := Seg.split.mp (hl ▸ v.seg h0 hh)
  have hnd := v.nd h0 hh
  rw [hl, List.perm_middle.nodup_iff, List.nodup_cons] at hnd
  have hh0 : h0 ∉ a.els h0 := fun hx => v.hn h0 hh ⟨h0, hh, hx⟩
  have hh1 : h0 ∉ l1 ++ l2 := fun hx => hh0 (by
    rw [hl]
    rcases List.mem_append.mp hx with h3 | h3 <;> simp [h3])
  have heh : h0 ≠ e := fun hx => hh0 (by rw [hl]; simp [hx])
  have hs := s1.join s2 hnd.2 hh1 hh1
  have hp : m.pv e ∈ h0 :: a.els h0 := by
    rw [hl]
    rcases List.mem_cons.mp s1.last with h3 | h3
    · rw [h3]; exact List.mem_cons_self
    · exact List.mem_cons_of_mem _ (List.mem_append_left _ h3)
  have hq : m.nx e ∈ h0 :: a.els h0 := by
    rw [hl]
    rcases List.mem_append.mp s2.first with h3 | h3
    · exact List.mem_cons_of_mem _ (List.mem_append_right _ (List.mem_cons_of_mem _ h3))
    · rw [List.mem_singleton.mp h3]; exact List.mem_cons_self
  have hqe : m.nx e ≠ e := by
    intro hx
    have := s2.first
    rw [hx] at this
    rcases List.mem_append.mp this with h3 | h3
    · exact hnd.1 (List.mem_append_right _ h3)
    · exact heh (List.mem_singleton.mp h3).symm
  have up : Used a (m.pv e) := used_ring hh hp
  have uq : Used a (m.nx e) := used_ring hh hq
  have mem0 : ∀ x, x ∈ a.els h0 ↔ x = e ∨ x ∈ a'.els h0 := by
    intro x
    rw [e2, hl]
    simp only [List.mem_append, List.mem_cons]
    tauto
  have inl : ∀ n, InList a n ↔ n = e ∨ InList a' n := by
    intro n
    constructor
    · rintro ⟨h, hb, hx⟩
      by_cases hc : h = h0
      · subst hc
        rcases (mem0 n).mp hx with h3 | h3
        · exact Or.inl h3
        · exact Or.inr ⟨h, by rw [e1]; exact hb, h3⟩
      · exact Or.inr ⟨h, by rw [e1]; exact hb, by rw [e3 h hb hc]; exact hx⟩
    · rintro (rfl | ⟨h, hb, hx⟩)
      · exact ⟨h0, hh, (mem0 _).mpr (Or.inl rfl)⟩
      · rw [e1] at hb
        by_cases hc : h = h0
        · subst hc
          exact ⟨h, hb, (mem0 _).mpr (Or.inr hx)⟩
        · rw [e3 h hb hc] at hx
          exact ⟨h, hb, hx⟩
  have sub : ∀ h x, a.head h = true → x ∈ a'.els h → x ∈ a.els h := by
    intro h x hb hx
    by_cases hc : h = h0
    · subst hc
      exact (mem0 x).mpr (Or.inr hx)
    · rwa [e3 h hb hc] at hx
  have nxo : ∀ n, n ≠ m.pv e → (remove e m).nx n = m.nx n := fun n x => set_ne _ x
  have pvo : ∀ n, n ≠ m.nx e → (remove e m).pv n = m.pv n := fun n x => set_ne _ x
  refine ⟨?_, ?_, ?_, ?_, ?_, ?_⟩
  · intro h hb
    rw [e1] at hb
    by_cases hc : h = h0
    · subst hc
      rw [e2]
      exact hs
    · rw [e3 h hb hc]
      refine (v.seg h hb).removeFrame (fun hx => hc (v.ringDj hb hh hx hp)) ?_
      intro hx
      refine hc (v.ringDj hb hh ?_ hq)
      rcases List.mem_append.mp hx with h3 | h3
      · exact List.mem_cons_of_mem _ h3
      · rw [List.mem_singleton.mp h3]; exact List.mem_cons_self
  · intro h hb
    rw [e1] at hb
    by_cases hc : h = h0
    · subst hc
      rw [e2]
      exact hnd.2
    · rw [e3 h hb hc]
      exact v.nd h hb
  · intro h h' x hb hb' hx hx'
    rw [e1] at hb hb'
    exact v.dj h h' x hb hb' (sub h x hb hx) (sub h' x hb' hx')
  · intro h hb hx
    rw [e1] at hb
    exact v.hn h hb ((inl h).mpr (Or.inr hx))
  · intro n hsn hnl hnh
    rw [e1] at hnh
    rw [e5] at hsn
    by_cases hne : n = e
    · right
      rw [hne, pvo e (Ne.symm hqe)]
      show set m.nx (m.pv e) (m.nx e) (m.pv e) ≠ e
      rw [set_eq]
      exact hqe
    · have hnl' : ¬ InList a n := fun h3 => ((inl n).mp h3).elim hne hnl
      have hnu : ¬ Used a n := by
        rintro (h3 | h3)
        · rw [hnh] at h3; exact absurd h3 (by decide)
        · exact hnl' h3
      have hnp : n ≠ m.pv e := fun h3 => hnu (h3 ▸ up)
      have hnq : n ≠ m.nx e := fun h3 => hnu (h3 ▸ uq)
      rcases v.out n hsn hnl' hnh with ⟨x, y⟩ | x
      · exact Or.inl ⟨(nxo n hnp).trans x, (pvo n hnq).trans y⟩
      · right
        rw [pvo n hnq]
        by_cases c1 : m.pv n = m.pv e
        · show set m.nx (m.pv e) (m.nx e) (m.pv n) ≠ n
          rw [c1, set_eq]
          exact Ne.symm hnq
        · rw [nxo _ c1]; exact x
  · intro n hin
    rw [e4] at hin
    obtain ⟨x1, x2, x3, x4⟩ := v.ini n hin
    have hnu : ¬ Used a n := by
      rintro (h3 | h3)
      · rw [x2] at h3; exact absurd h3 (by decide)
      · exact x1 h3
    exact ⟨fun h3 => x1 ((inl n).mpr (Or.inr h3)), by rw [e1]; exact x2,
      (nxo n (fun h3 => hnu (h3 ▸ up))).trans x3, (pvo n (fun h3 => hnu (h3 ▸ uq))).trans x4⟩

theorem insAfter_not {c e : Nat} : ∀ {l : List Nat}, c ∉ l → insAfter c e l = l
  | [], _ => rfl
  | x :: l, h => by
    have h1 : x ≠ c := fun hx => h (hx ▸ List.mem_cons_self)
    have := insAfter_not (e := e) (fun hx => h (List.mem_cons_of_mem x hx) : c ∉ l)
    unfold insAfter at *
    rw [List.flatMap_cons, if_neg h1, this]
    rfl

theorem insBefore_not {c e : Nat} : ∀ {l : List Nat}, c ∉ l → insBefore c e l = l
  | [], _ => rfl
  | x :: l, h => by
    have h1 : x ≠ c := fun hx => h (hx ▸ List.mem_cons_self)
    have := insBefore_not (e := e) (fun hx => h (List.mem_cons_of_mem x hx) : c ∉ l)
    unfold insBefore at *
    rw [List.flatMap_cons, if_neg h1, this]
    rfl

theorem insAfter_mem {c e : Nat} {l1 l2 : List Nat} (h1 : c ∉ l1) (h2 : c ∉ l2) :
    insAfter c e (l1 ++ c :: l2) = (l1 ++ [c]) ++ e :: l2 := by
  have a := insAfter_not (e := e) h1
  have b := insAfter_not (e := e) h2
  unfold insAfter at *
  rw [List.flatMap_append, List.flatMap_cons, if_pos rfl, a, b]
  simp

theorem insBefore_mem {c e : Nat} {l1 l2 : List Nat} (h1 : c ∉ l1) (h2 : c ∉ l2) :
    insBefore c e (l1 ++ c :: l2) = l1 ++ e :: (c :: l2) := by
  have a := insBefore_not (e := e) h1
  have b := insBefore_not (e := e) h2
  unfold insBefore at *
  rw [List.flatMap_append, List.flatMap_cons, if_pos rfl, a, b]
  simp

theorem notUsed {a : Abs} {e : Nat} (h1 : ¬ InList a e) (h2 : a.head e = false) : ¬ Used a e := by
  rintro (h | h)
  · rw [h2] at h; exact absurd h (by decide)
  · exact h1 h

/-- Where an element of a list is. -/
theorem Inv.at {m : Mem} {a : Abs} (v : Inv m a) {c : Nat} (h : InList a c) : ∃ h0 l1 l2, a.head h0 = true ∧
    a.els h0 = l1 ++ c :: l2 ∧ c ∉ l1 ∧ c ∉ l2 ∧ h0 ≠ c ∧ ∀ h, a.head h = true → h ≠ h0 → c ∉ a.els h ∧ h ≠ c := by
  obtain ⟨h0, hb, hx⟩ := h
  obtain ⟨l1, l2, hl⟩ := List.append_of_mem hx
  have hnd := v.nd h0 hb
  rw [hl, List.perm_middle.nodup_iff, List.nodup_cons] at hnd
  exact ⟨h0, l1, l2, hb, hl, fun h3 => hnd.1 (List.mem_append_left _ h3), fun h3 => hnd.1 (List.mem_append_right _ h3),
    fun h3 => v.hn h0 hb ⟨h0, hb, h3 ▸ hx⟩,
    fun h hh hne => ⟨fun h3 => hne (v.dj h h0 c hh hb h3 hx), fun h3 => v.hn h hh ⟨h0, hb, h3 ▸ hx⟩⟩⟩

theorem inv_addHead {m : Mem} {a a' : Abs} {h e : Nat} (v : Inv m a) (hh : a.head h = true) (he : ¬ Used a e)
    (e1 : a'.head = a.head) (e2 : a'.els h = e :: a.els h)
    (e3 : ∀ k, a.head k = true → k ≠ h → a'.els k = a.els k) (e4 : a'.ini = put a.ini e false)
    (e5 : a'.seen = put a.seen e true) : Inv (addAfter h e m) a' :=
  inv_insert (l1 := []) (l2 := a.els h) v hh rfl he e1 e2 e3 e4 e5

theorem inv_addTail {m : Mem} {a a' : Abs} {h e : Nat} (v : Inv m a) (hh : a.head h = true) (he : ¬ Used a e)
    (e1 : a'.head = a.head) (e2 : a'.els h = a.els h ++ [e])
    (e3 : ∀ k, a.head k = true → k ≠ h → a'.els k = a.els k) (e4 : a'.ini = put a.ini e false)
    (e5 : a'.seen = put a.seen e true) : Inv (addBefore h e m) a' := by
  unfold addBefore
  rw [(v.seg h hh).pvLast]
  exact inv_insert (l1 := a.els h) (l2 := []) v hh (by simp) he e1 e2 e3 e4 e5

theorem inv_nodeInit {m : Mem} {a a' : Abs} {n : Nat} (v : Inv m a) (hl : ¬ InList a n)
    (hh : a.head n = true → a.els n = []) (e1 : ∀ h, h ≠ n → a'.head h = a.head h)
    (e2 : ∀ h, h ≠ n → a'.els h = a.els h) (e2' : a'.head n = true → a'.els n = [])
    (e4 : ∀ k, k ≠ n → a'.ini k = a.ini k) (e4' : a'.ini n = true → a'.head n = false)
    (e5 : ∀ k, k ≠ n → a'.seen k = a.seen k) : Inv (nodeInit n m) a' := by
  have inl : ∀ k, InList a' k → InList a k := by
    rintro k ⟨h, hb, hx⟩
    by_cases hc : h = n
    · subst hc
      rw [e2' hb] at hx
      exact absurd hx List.not_mem_nil
    · rw [e1 h hc] at hb
      rw [e2 h hc] at hx
      exact ⟨h, hb, hx⟩
  have inl' : ∀ k, InList a k → InList a' k := by
    rintro k ⟨h, hb, hx⟩
    by_cases hc : h = n
    · subst hc
      rw [hh hb] at hx
      exact absurd hx List.not_mem_nil
    · exact ⟨h, by rw [e1 h hc]; exact hb, by rw [e2 h hc]; exact hx⟩
  have nxo : ∀ k, k ≠ n → (nodeInit n m).nx k = m.nx k := fun k x => set_ne _ x
  have pvo : ∀ k, k ≠ n → (nodeInit n m).pv k = m.pv k := fun k x => set_ne _ x
  have nxn : (nodeInit n m).nx n = n := set_eq _ _ _
  have pvn : (nodeInit n m).pv n = n := set_eq _ _ _
  refine ⟨?_, ?_, ?_, ?_, ?_, ?_⟩
  · intro h hb
    by_cases hc : h = n
    · subst hc
      rw [e2' hb]
      exact ⟨nxn, pvn⟩
    · rw [e1 h hc] at hb
      rw [e2 h hc]
      refine (v.seg h hb).congr (fun x hx => nxo x ?_) (fun x hx => pvo x ?_)
      · rintro rfl
        rcases List.mem_cons.mp hx with h3 | h3
        · exact hc h3.symm
        · exact hl ⟨h, hb, h3⟩
      · rintro rfl
        rcases List.mem_append.mp hx with h3 | h3
        · exact hl ⟨h, hb, h3⟩
        · exact hc (List.mem_singleton.mp h3).symm
  · intro h hb
    by_cases hc : h = n
    · subst hc
      rw [e2' hb]
      exact List.nodup_nil
    · rw [e1 h hc] at hb
      rw [e2 h hc]
      exact v.nd h hb
  · intro h h' x hb hb' hx hx'
    by_cases hc : h = n
    · subst hc; rw [e2' hb] at hx; exact absurd hx List.not_mem_nil
    · by_cases hc' : h' = n
      · subst hc'; rw [e2' hb'] at hx'; exact absurd hx' List.not_mem_nil
      · rw [e1 h hc] at hb
        rw [e1 h' hc'] at hb'
        rw [e2 h hc] at hx
        rw [e2 h' hc'] at hx'
        exact v.dj h h' x hb hb' hx hx'
  · intro h hb hx
    by_cases hc : h = n
    · subst hc; exact hl (inl _ hx)
    · rw [e1 h hc] at hb
      exact v.hn h hb (inl _ hx)
  · intro k hs hnl hnh
    by_cases hc : k = n
    · subst hc; exact Or.inl ⟨nxn, pvn⟩
    · rw [e5 k hc] at hs
      rw [e1 k hc] at hnh
      rcases v.out k hs (fun h3 => hnl (inl' k h3)) hnh with ⟨x, y⟩ | x
      · exact Or.inl ⟨(nxo k hc).trans x, (pvo k hc).trans y⟩
      · right
        rw [pvo k hc]
        by_cases c1 : m.pv k = n
        · rw [c1, nxn]; exact Ne.symm hc
        · rw [nxo _ c1]; exact x
  · intro k hi
    by_cases hc : k = n
    · subst hc
      exact ⟨fun h3 => hl (inl _ h3), e4' hi, nxn, pvn⟩
    · rw [e4 k hc] at hi
      obtain ⟨x1, x2, x3, x4⟩ := v.ini k hi
      exact ⟨fun h3 => x1 (inl _ h3), by rw [e1 k hc]; exact x2, (nxo k hc).trans x3, (pvo k hc).trans x4⟩

theorem filter_ne_not {e : Nat} {l : List Nat} (h : e ∉ l) : l.filter (· ≠ e) = l := by
  rw [List.filter_eq_self]
  intro x hx
  exact decide_eq_true fun h3 : x = e => h (h3 ▸ hx)

theorem inv_step {m : Mem} {a : Abs} {o : Op} (v : Inv m a) (hl : Legal a o) : Inv (step m o) (aStep a o) := by
  cases o with
  | init h =>
    refine inv_nodeInit v hl.1 hl.2 (fun k hk => if_neg hk) (fun k hk => if_neg hk) (fun _ => if_pos rfl)
      (fun k hk => if_neg hk) ?_ (fun k hk => if_neg hk)
    intro hi
    exact absurd ((if_pos rfl : put a.ini h false h = false).symm.trans hi) (by decide)
  | nodeInit n =>
    refine inv_nodeInit v hl.1 ?_ (fun k hk => rfl) (fun k hk => rfl) ?_ (fun k hk => if_neg hk) (fun _ => hl.2)
      (fun k hk => if_neg hk)
    · intro hc; rw [hl.2] at hc; exact absurd hc (by decide)
    · intro hc
      have hc' : a.head n = true := hc
      rw [hl.2] at hc'; exact absurd hc' (by decide)
  | addAfter c e =>
    obtain ⟨h1, h2, h3⟩ := hl
    rcases h3 with h3 | h3
    · refine inv_addHead v h3 (notUsed h1 h2) rfl (if_pos rfl) ?_ rfl rfl
      intro k hk hne
      show (if k = c then _ else insAfter c e (a.els k)) = _
      rw [if_neg hne, insAfter_not]
      exact fun hx => v.hn c h3 ⟨k, hk, hx⟩
    · obtain ⟨h0, l1, l2, hb, hel, n1, n2, hne, hoth⟩ := v.at h3
      have := inv_insert (m := m) (a' := aStep a (.addAfter c e)) (e := e) (l1 := l1 ++ [c]) (l2 := l2) v hb (by simp [hel])
        (notUsed h1 h2) rfl (by
          show (if h0 = c then _ else insAfter c e (a.els h0)) = _
          rw [if_neg hne, hel, insAfter_mem n1 n2]) (fun k hk hk2 => by
          show (if k = c then _ else insAfter c e (a.els k)) = _
          rw [if_neg (hoth k hk hk2).2, insAfter_not (hoth k hk hk2).1]) rfl rfl
      have hg : (h0 :: (l1 ++ [c])).getLast (by simp) = c := by simp
      rw [hg] at this
      exact this
  | addBefore c e =>
    obtain ⟨h1, h2, h3⟩ := hl
    rcases h3 with h3 | h3
    · refine inv_addTail v h3 (notUsed h1 h2) rfl (if_pos rfl) ?_ rfl rfl
      intro k hk hne
      show (if k = c then _ else insBefore c e (a.els k)) = _
      rw [if_neg hne, insBefore_not]
      exact fun hx => v.hn c h3 ⟨k, hk, hx⟩
    · obtain ⟨h0, l1, l2, hb, hel, n1, n2, hne, hoth⟩ := v.at h3
      have := inv_insert (m := m) (a' := aStep a (.addBefore c e)) (e := e) (l1 := l1) (l2 := c :: l2) v hb hel
        (notUsed h1 h2) rfl (by
          show (if h0 = c then _ else insBefore c e (a.els h0)) = _
          rw [if_neg hne, hel, insBefore_mem n1 n2]) (fun k hk hk2 => by
          show (if k = c then _ else insBefore c e (a.els k)) = _
          rw [if_neg (hoth k hk hk2).2, insBefore_not (hoth k hk hk2).1]) rfl rfl
      have hg := (Seg.split.mp (hel ▸ v.seg h0 hb)).1.pvLast
      rw [← hg] at this
      exact this
  | addHead h e =>
    obtain ⟨h1, h2, h3⟩ := hl
    exact inv_addHead v h3 (notUsed h1 h2) rfl (if_pos rfl) (fun k _ hk => if_neg hk) rfl rfl
  | addTail h e =>
    obtain ⟨h1, h2, h3⟩ := hl
    exact inv_addTail v h3 (notUsed h1 h2) rfl (if_pos rfl) (fun k _ hk => if_neg hk) rfl rfl
  | remove e =>
    by_cases hin : InList a e
    · obtain ⟨h0, l1, l2, hb, hel, n1, n2, hne, hoth⟩ := v.at hin
      refine inv_remove v hb hel rfl ?_ ?_ rfl rfl
      · show (a.els h0).filter (· ≠ e) = _
        rw [hel, List.filter_append, List.filter_cons, filter_ne_not n1, filter_ne_not n2]
        simp
      · intro k hk hk2
        exact filter_ne_not (hoth k hk hk2).1
    · obtain ⟨_, x2, x3, x4⟩ := v.ini e (hl.resolve_left hin)
      have hm : step m (.remove e) = m := by
        show Mem.mk (set m.nx (m.pv e) (m.nx e)) (set m.pv (m.nx e) (m.pv e)) = m
        rw [x3, x4]
        have h1 : set m.nx e e = m.nx := by
          funext y
          by_cases hy : y = e
          · rw [hy, set_eq, x3]
          · rw [set_ne _ hy]
        have h2 : set m.pv e e = m.pv := by
          funext y
          by_cases hy : y = e
          · rw [hy, set_eq, x4]
          · rw [set_ne _ hy]
        rw [h1, h2]
      rw [hm]
      have hels : ∀ k, a.head k = true → (aStep a (.remove e)).els k = a.els k := fun k hk =>
        filter_ne_not fun hx => hin ⟨k, hk, hx⟩
      have inl : ∀ n, InList (aStep a (.remove e)) n ↔ InList a n := by
        intro n
        constructor
        · rintro ⟨h, hb, hx⟩
          have hb' : a.head h = true := hb
          rw [hels h hb'] at hx
          exact ⟨h, hb', hx⟩
        · rintro ⟨h, hb, hx⟩
          exact ⟨h, hb, by rw [hels h hb]; exact hx⟩
      refine ⟨fun h hb => by rw [hels h hb]; exact v.seg h hb, fun h hb => by rw [hels h hb]; exact v.nd h hb, ?_,
        fun h hb hx => v.hn h hb ((inl h).mp hx), fun n a1 a2 a3 => v.out n a1 (fun h3 => a2 ((inl n).mpr h3)) a3, ?_⟩
      · intro h h' x hb hb' hx hx'
        rw [hels h hb] at hx
        rw [hels h' hb'] at hx'
        exact v.dj h h' x hb hb' hx hx'
      · intro n hi
        obtain ⟨y1, y2, y3, y4⟩ := v.ini n hi
        exact ⟨fun h3 => y1 ((inl n).mp h3), y2, y3, y4⟩

theorem inv_reach {m : Mem} {a : Abs} (h : Reach m a) : Inv m a := by
  induction h with
  | start m =>
    refine ⟨fun h hb => ?_, fun h hb => ?_, fun h h' x hb => ?_, fun h hb => ?_, fun n hs => ?_, fun n hi => ?_⟩ <;>
      exact absurd (show false = true by assumption) (by decide)
  | step o _ hl ih => exact inv_step ih hl

/-! ## The properties -/

/-- Following `next` from a head meets exactly the elements, in order, and comes back; following `prev` meets them in
reverse. -/
theorem lists_exact {m : Mem} {a : Abs} (r : Reach m a) {h : Nat} (hh : a.head h = true) :
    walk m.nx ((a.els h).length + 1) h = a.els h ++ [h] ∧
    walk m.pv ((a.els h).length + 1) h = (a.els h).reverse ++ [h] ∧
    (a.els h).Nodup ∧ h ∉ a.els h ∧ ∀ h', a.head h' = true → h' ≠ h → ∀ x ∈ a.els h, x ∉ a.els h' :=
  have v := inv_reach r
  ⟨(v.seg h hh).walkF, (v.seg h hh).walkB, v.nd h hh, fun hx => v.hn h hh ⟨h, hh, hx⟩,
   fun _ hh' hne x hx hx' => hne (v.dj _ _ x hh' hh hx' hx)⟩

/-- list_is_empty() tells the truth. -/
theorem empty_exact {m : Mem} {a : Abs} (r : Reach m a) {h : Nat} (hh : a.head h = true) :
    isEmpty h m = true ↔ a.els h = [] := by
  have v := inv_reach r
  have hs := v.seg h hh
  have hn : h ∉ a.els h := fun hx => v.hn h hh ⟨h, hh, hx⟩
  unfold isEmpty
  rw [Bool.and_eq_true, beq_iff_eq, beq_iff_eq]
  cases hl : a.els h with
  | nil => rw [hl] at hs; exact ⟨fun _ => rfl, fun _ => hs⟩
  | cons x l =>
    rw [hl] at hs hn
    refine ⟨fun hx => ?_, fun hx => absurd hx (by simp)⟩
    exact absurd (hs.1.symm.trans hx.1) (fun h3 => hn (h3 ▸ List.mem_cons_self))

/-- list_is_node_in_list() tells the truth about every node that was ever initialised or inserted, also after removals. -/
theorem member_exact {m : Mem} {a : Abs} (r : Reach m a) {n : Nat} (hs : a.seen n = true) (hh : a.head n = false) :
    isNodeInList n m = true ↔ ∃ h, a.head h = true ∧ n ∈ a.els h := by
  have v := inv_reach r
  unfold isNodeInList isEmpty
  constructor
  · intro h
    by_contra hc
    simp only [Bool.and_eq_true, Bool.not_eq_true', beq_iff_eq] at h
    rcases v.out n hs hc hh with ⟨x, y⟩ | x
    · have := h.1.1
      rw [x, y] at this
      simp at this
    · exact x h.1.2
  · intro hin
    obtain ⟨h0, l1, l2, hb, hel, n1, n2, hne, _⟩ := v.at hin
    obtain ⟨s1, s2⟩ := Seg.split.mp (hel ▸ v.seg h0 hb)
    have hq : m.nx n ≠ n := by
      intro hx
      have := s2.first
      rw [hx] at this
      rcases List.mem_append.mp this with h3 | h3
      · exact n2 h3
      · exact hne (List.mem_singleton.mp h3).symm
    have h1 : m.nx (m.pv n) = n := by
      rcases List.eq_nil_or_concat l1 with rfl | ⟨l0, p, rfl⟩
      · rw [s1.2]; exact s1.1
      · rw [List.concat_eq_append] at s1
        obtain ⟨_, t2⟩ := Seg.split.mp s1
        rw [t2.2]; exact t2.1
    have h2 : m.pv (m.nx n) = n := by
      cases l2 with
      | nil => rw [s2.1]; exact s2.2
      | cons x l => rw [s2.1]; exact s2.2.1
    rw [h1, h2]
    simp [hq]

/-! ## Loops -/

theorem reach_run {m : Mem} {a : Abs} (r : Reach m a) : ∀ (ops : List Op), LegalRun a ops → Reach (run m ops) (aRun a ops)
  | [], _ => r
  | o :: os, h => reach_run (.step o r h.1) os h.2

/-- The bodies of a list_for_each over `h`, run for the elements `xs` one after the other, make only allowed calls and leave
the elements after the current one alone. -/
def LeavesRest (h : Nat) (body : Nat → List Op) : List Nat → Abs → Prop
  | [], _ => True
  | x :: xs, a => LegalRun a (body x) ∧ (aRun a (body x)).head h = true ∧
      (∃ p, (aRun a (body x)).els h = p ++ xs) ∧ LeavesRest h body xs (aRun a (body x))

/-- The same, and the current element also stays. -/
def LeavesRestAndSelf (h : Nat) (body : Nat → List Op) : List Nat → Abs → Prop
  | [], _ => True
  | x :: xs, a => LegalRun a (body x) ∧ (aRun a (body x)).head h = true ∧
      (∃ p, (aRun a (body x)).els h = p ++ x :: xs) ∧ LeavesRestAndSelf h body xs (aRun a (body x))

/-- The bodies of a list_for_each_reverse leave the elements before the current one alone; `xs` in the order of the loop. -/
def LeavesFront (h : Nat) (body : Nat → List Op) : List Nat → Abs → Prop
  | [], _ => True
  | x :: xs, a => LegalRun a (body x) ∧ (aRun a (body x)).head h = true ∧
      (∃ p, (aRun a (body x)).els h = xs.reverse ++ p) ∧ LeavesFront h body xs (aRun a (body x))

theorem Seg.nxHead {m : Mem} {x b : Nat} {l : List Nat} (h : Seg m x l b) : m.nx x = (l ++ [b]).head (by simp) := by
  cases l with
  | nil => exact h.1
  | cons y l => exact h.1

theorem forEach_go {h : Nat} {body : Nat → List Op} : ∀ (xs : List Nat) {m : Mem} {a : Abs} {k pos : Nat} (p : List Nat),
    Reach m a → a.head h = true → a.els h = p ++ xs → pos = (xs ++ [h]).head (by simp) → xs.length < k →
    LeavesRest h body xs a →
    forEach body h k pos (m.nx pos) m = (xs, xs.foldl (fun m x => run m (body x)) m, true) ∧
      Reach (xs.foldl (fun m x => run m (body x)) m) (xs.foldl (fun a x => aRun a (body x)) a)
  | [], m, a, k, pos, p, r, hh, hl, hp, hk, _ => by
    have hp' : pos = h := hp
    cases k with
    | zero => exact absurd hk (by simp)
    | succ k =>
      unfold forEach
      rw [if_pos hp']
      exact ⟨rfl, r⟩
  | x :: xs, m, a, k, pos, p, r, hh, hl, hp, hk, hb => by
    have hp' : pos = x := hp
    subst hp'
    have v := inv_reach r
    have hne : pos ≠ h := fun hx => v.hn h hh ⟨h, hh, by rw [hl, hx]; simp⟩
    obtain ⟨_, s2⟩ := Seg.split.mp (hl ▸ v.seg h hh)
    obtain ⟨b1, b2, ⟨p', b3⟩, b4⟩ := hb
    cases k with
    | zero => exact absurd hk (by simp)
    | succ k =>
      unfold forEach
      rw [if_neg hne]
      have ih := forEach_go (k := k) xs p' (reach_run r _ b1) b2 b3 s2.nxHead (by simpa using hk) b4
      rw [ih.1]
      exact ⟨rfl, ih.2⟩

/-- list_for_each visits every element once, in order, and ends, whatever its body does to the elements up to the current
one and to other lists. -/
theorem for_each_exact {m : Mem} {a : Abs} (r : Reach m a) {h : Nat} (hh : a.head h = true) (body : Nat → List Op)
    (hb : LeavesRest h body (a.els h) a) {k : Nat} (hk : (a.els h).length < k) :
    (forEach body h k (m.nx h) (m.nx (m.nx h)) m).1 = a.els h ∧
    (forEach body h k (m.nx h) (m.nx (m.nx h)) m).2.2 = true ∧
    Reach (forEach body h k (m.nx h) (m.nx (m.nx h)) m).2.1 ((a.els h).foldl (fun a x => aRun a (body x)) a) := by
  obtain ⟨h1, h2⟩ := forEach_go (a.els h) [] r hh rfl ((inv_reach r).seg h hh).nxHead hk hb
  rw [h1]
  exact ⟨rfl, rfl, h2⟩

theorem forEachRo_go {h : Nat} {body : Nat → List Op} : ∀ (xs : List Nat) {m : Mem} {a : Abs} {k pos : Nat} (p : List Nat),
    Reach m a → a.head h = true → a.els h = p ++ xs → pos = (xs ++ [h]).head (by simp) → xs.length < k →
    LeavesRestAndSelf h body xs a →
    forEachRo body h k pos m = (xs, xs.foldl (fun m x => run m (body x)) m, true) ∧
      Reach (xs.foldl (fun m x => run m (body x)) m) (xs.foldl (fun a x => aRun a (body x)) a)
  | [], m, a, k, pos, p, r, hh, hl, hp, hk, _ => by
    have hp' : pos = h := hp
    cases k with
    | zero => exact absurd hk (by simp)
    | succ k =>
      unfold forEachRo
      rw [if_pos hp']
      exact ⟨rfl, r⟩
  | x :: xs, m, a, k, pos, p, r, hh, hl, hp, hk, hb => by
    have hp' : pos = x := hp
    subst hp'
    have v := inv_reach r
    have hne : pos ≠ h := fun hx => v.hn h hh ⟨h, hh, by rw [hl, hx]; simp⟩
    obtain ⟨b1, b2, ⟨p', b3⟩, b4⟩ := hb
    have r' := reach_run r _ b1
    obtain ⟨_, s2⟩ := Seg.split.mp (b3 ▸ (inv_reach r').seg h b2)
    cases k with
    | zero => exact absurd hk (by simp)
    | succ k =>
      unfold forEachRo
      rw [if_neg hne]
      have ih := forEachRo_go (k := k) xs (p' ++ [pos]) r' b2 (by rw [b3]; simp) s2.nxHead (by simpa using hk) b4
      rw [ih.1]
      exact ⟨rfl, ih.2⟩

/-- list_for_each_ro visits every element once, in order, and ends, if its body does not touch the list from the current
element on. -/
theorem for_each_ro_exact {m : Mem} {a : Abs} (r : Reach m a) {h : Nat} (hh : a.head h = true) (body : Nat → List Op)
    (hb : LeavesRestAndSelf h body (a.els h) a) {k : Nat} (hk : (a.els h).length < k) :
    (forEachRo body h k (m.nx h) m).1 = a.els h ∧ (forEachRo body h k (m.nx h) m).2.2 = true ∧
    Reach (forEachRo body h k (m.nx h) m).2.1 ((a.els h).foldl (fun a x => aRun a (body x)) a) := by
  obtain ⟨h1, h2⟩ := forEachRo_go (a.els h) [] r hh rfl ((inv_reach r).seg h hh).nxHead hk hb
  rw [h1]
  exact ⟨rfl, rfl, h2⟩

theorem Seg.pvHead {m : Mem} {l : List Nat} {a b : Nat} (h : Seg m a l b) : m.pv b = (l.reverse ++ [a]).head (by simp) := by
  rw [h.pvLast]
  rcases List.eq_nil_or_concat l with rfl | ⟨l0, p, rfl⟩
  · rfl
  · simp

theorem forEachRev_go {h : Nat} {body : Nat → List Op} : ∀ (xs : List Nat) {m : Mem} {a : Abs} {k pos : Nat} (p : List Nat),
    Reach m a → a.head h = true → a.els h = xs.reverse ++ p → pos = (xs ++ [h]).head (by simp) → xs.length < k →
    LeavesFront h body xs a →
    forEachRev body h k pos (m.pv pos) m = (xs, xs.foldl (fun m x => run m (body x)) m, true) ∧
      Reach (xs.foldl (fun m x => run m (body x)) m) (xs.foldl (fun a x => aRun a (body x)) a)
  | [], m, a, k, pos, p, r, hh, hl, hp, hk, _ => by
    have hp' : pos = h := hp
    cases k with
    | zero => exact absurd hk (by simp)
    | succ k =>
      unfold forEachRev
      rw [if_pos hp']
      exact ⟨rfl, r⟩
  | x :: xs, m, a, k, pos, p, r, hh, hl, hp, hk, hb => by
    have hp' : pos = x := hp
    subst hp'
    have v := inv_reach r
    have hl' : a.els h = xs.reverse ++ pos :: p := by rw [hl]; simp
    have hne : pos ≠ h := fun hx => v.hn h hh ⟨h, hh, by rw [hl', hx]; simp⟩
    obtain ⟨s1, _⟩ := Seg.split.mp (hl' ▸ v.seg h hh)
    obtain ⟨b1, b2, ⟨p', b3⟩, b4⟩ := hb
    cases k with
    | zero => exact absurd hk (by simp)
    | succ k =>
      unfold forEachRev
      rw [if_neg hne]
      have hpv : m.pv pos = (xs ++ [h]).head (by simp) := by
        rw [s1.pvHead]
        simp
      have ih := forEachRev_go (k := k) xs p' (reach_run r _ b1) b2 b3 hpv (by simpa using hk) b4
      rw [ih.1]
      exact ⟨rfl, ih.2⟩

/-- list_for_each_reverse visits every element once, from the last to the first, and ends, whatever its body does to the
elements from the current one on and to other lists. -/
theorem for_each_reverse_exact {m : Mem} {a : Abs} (r : Reach m a) {h : Nat} (hh : a.head h = true) (body : Nat → List Op)
    (hb : LeavesFront h body (a.els h).reverse a) {k : Nat} (hk : (a.els h).length < k) :
    (forEachRev body h k (m.pv h) (m.pv (m.pv h)) m).1 = (a.els h).reverse ∧
    (forEachRev body h k (m.pv h) (m.pv (m.pv h)) m).2.2 = true ∧
    Reach (forEachRev body h k (m.pv h) (m.pv (m.pv h)) m).2.1
      ((a.els h).reverse.foldl (fun a x => aRun a (body x)) a) := by
  obtain ⟨h1, h2⟩ := forEachRev_go (a.els h).reverse [] r hh (by simp) ((inv_reach r).seg h hh).pvHead
    (by simpa using hk) hb
  rw [h1]
  exact ⟨rfl, rfl, h2⟩

/-! ## Examples and limits -/

/-- A history: two lists (heads 1 and 2), three elements. -/
def ops0 : List Op := [.init 1, .init 2, .nodeInit 12, .addTail 1 10, .addHead 1 11, .addBefore 11 12, .remove 10, .addTail 2 10]

def m0 : Mem := ⟨fun _ => 0, fun _ => 0⟩

theorem ops0_legal : LegalRun none0 ops0 := by
  have hh : ∀ (a : Abs), (∀ h, a.head h = true → h = 1 ∨ h = 2) → ∀ n, n ∉ a.els 1 → n ∉ a.els 2 → ¬ InList a n := by
    rintro a ha n h1 h2 ⟨h, hb, hx⟩
    rcases ha h hb with rfl | rfl
    · exact h1 hx
    · exact h2 hx
  have hd : ∀ (a : Abs) (f : Nat → Bool), a.head = f → (∀ h, f h = true → h = 1 ∨ h = 2) →
      ∀ h, a.head h = true → h = 1 ∨ h = 2 := fun a f e q h hb => q h (e ▸ hb)
  have f1 : ∀ h, (put (fun _ => false) 1 true) h = true → h = 1 ∨ h = 2 := by
    intro h
    unfold put
    by_cases h1 : h = 1 <;> simp [h1]
  have f2 : ∀ h, (put (put (fun _ => false) 1 true) 2 true) h = true → h = 1 ∨ h = 2 := by
    intro h
    unfold put
    by_cases h1 : h = 1 <;> by_cases h2 : h = 2 <;> simp [h1, h2]
  refine ⟨⟨?_, by decide⟩, ⟨?_, by decide⟩, ⟨?_, by decide⟩, ⟨?_, by decide, by decide⟩, ⟨?_, by decide, by decide⟩,
    ⟨?_, by decide, Or.inr ⟨1, by decide, by decide⟩⟩, Or.inl ⟨1, by decide, by decide⟩, ⟨?_, by decide, by decide⟩, trivial⟩
  · exact hh _ (fun h hb => absurd (show false = true from hb) (by decide)) _ (by decide) (by decide)
  · exact hh _ (hd _ _ rfl f1) _ (by decide) (by decide)
  · exact hh _ (hd _ _ rfl f2) _ (by decide) (by decide)
  · exact hh _ (hd _ _ rfl f2) _ (by decide) (by decide)
  · exact hh _ (hd _ _ rfl f2) _ (by decide) (by decide)
  · exact hh _ (hd _ _ rfl f2) _ (by decide) (by decide)
  · exact hh _ (hd _ _ rfl f2) _ (by decide) (by decide)

/-- The lists of the example and what the pointers say. -/
example : Reach (run m0 ops0) (aRun none0 ops0) ∧ (aRun none0 ops0).els 1 = [12, 11] ∧ (aRun none0 ops0).els 2 = [10] ∧
    walk (run m0 ops0).nx 3 1 = [12, 11, 1] ∧ isNodeInList 10 (run m0 ops0) = true :=
  ⟨reach_run (.start m0) _ ops0_legal, by decide, by decide, by decide, by decide⟩

/-- A loop that moves every element of list 1 to list 2. -/
example : (forEach (fun x => [.remove x, .addTail 2 x]) 1 3 ((run m0 ops0).nx 1) ((run m0 ops0).nx ((run m0 ops0).nx 1))
    (run m0 ops0)).1 = [12, 11] := by decide

/-- The body of that loop meets the condition of `for_each_exact`. -/
example : LeavesRest 1 (fun x => [.remove x, .addTail 2 x]) ((aRun none0 ops0).els 1) (aRun none0 ops0) := by
  have r0 : Reach (run m0 ops0) (aRun none0 ops0) := reach_run (.start m0) _ ops0_legal
  have hrem : ∀ {m : Mem} {a : Abs} {x : Nat}, Reach m a → InList a x → ¬ InList (aStep a (.remove x)) x := by
    rintro m a x _ _ ⟨h, _, hx⟩
    have := List.mem_filter.mp hx
    simp at this
  refine ⟨⟨Or.inl ⟨1, by decide, by decide⟩, ⟨hrem r0 ⟨1, by decide, by decide⟩, by decide, by decide⟩, trivial⟩, by decide,
    ⟨[], by decide⟩, ?_⟩
  have l1 : LegalRun (aRun none0 ops0) [.remove 12, .addTail 2 12] :=
    ⟨Or.inl ⟨1, by decide, by decide⟩, ⟨hrem r0 ⟨1, by decide, by decide⟩, by decide, by decide⟩, trivial⟩
  have r1 := reach_run r0 _ l1
  exact ⟨⟨Or.inl ⟨1, by decide, by decide⟩, ⟨hrem r1 ⟨1, by decide, by decide⟩, by decide, by decide⟩, trivial⟩, by decide,
    ⟨[], by decide⟩, trivial⟩

/-- Removing the next element in a list_for_each: the loop visits an element that is no longer in the list. -/
theorem for_each_remove_next_unsafe :
    (forEach (fun x => if x = 12 then [.remove 11] else []) 1 3 ((run m0 ops0).nx 1)
      ((run m0 ops0).nx ((run m0 ops0).nx 1)) (run m0 ops0)).1 = [12, 11] ∧
    (aRun (aRun none0 ops0) [.remove 11]).els 1 = [12] := by decide

/-- Removing an element twice, with another insertion in between, takes that one out of the list. -/
theorem remove_twice_unsafe :
    walk (run m0 (ops0 ++ [.remove 12, .addHead 1 13, .remove 12])).nx 2 1 = [11, 1] ∧
    (aRun none0 (ops0 ++ [.remove 12, .addHead 1 13])).els 1 = [13, 11] := by decide

end Verif.LList
