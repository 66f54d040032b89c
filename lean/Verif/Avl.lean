import Mathlib.Data.Int.Order.Basic
/-!
# AVL tree (kernel/bintree)

Properties C09 (ordered map) and C10 (balance, height, stack bounds).

A tree is a functional value; the intrusive links become constructor arguments and the explicit
stack of the C code (the path from the root, unwound while rebalancing) becomes recursion.  The
index each path entry would have in `stack[MAX_TREE_HEIGHT]` is carried along and a push beyond the
array is the outcome `none`, like a failed ASSERT or a NULL dereference.  Stored heights are
integers; the `u16` truncation of the field is not represented (`avl_height_bound` shows that
heights stay far below 65535 for every tree that fits in memory).
-/
namespace Verif.Avl

/-- include/tilck/kernel/bintree.h:26 `MAX_TREE_HEIGHT`. -/
def maxStack : Nat := 32

/-- include/tilck/kernel/bintree.h:28-32 `struct bintree_node`, embedded in an object of type `α`. -/
inductive Tree (α : Type) where
  | nil : Tree α
  | node (h : Int) (l : Tree α) (o : α) (r : Tree α) : Tree α
  deriving Repr

open Tree

variable {α : Type}

/-- kernel/bintree/avl_int.h:65 `HEIGHT` (stored height). -/
def ht : Tree α → Int
  | nil => -1
  | node h _ _ _ => h

/-- kernel/bintree/avl_int.h:67-73 `update_height`. -/
def mk (l : Tree α) (o : α) (r : Tree α) : Tree α := node (max (ht l) (ht r) + 1) l o r

/-- kernel/bintree/avl_bintree.c:15-34 `rotate_left_child`. -/
def rotateLeftChild : Tree α → Option (Tree α)
  | node _ (node _ nll ol nlr) o nr => some (mk nll ol (mk nlr o nr))
  | _ => none

/-- kernel/bintree/avl_bintree.c:46-65 `rotate_right_child`. -/
def rotateRightChild : Tree α → Option (Tree α)
  | node _ nl o (node _ nrl or nrr) => some (mk (mk nl o nrl) or nrr)
  | _ => none

/-- kernel/bintree/avl_int.h:63 `LEFT_OF` (NULL dereference is `none`). -/
def leftOf : Tree α → Option (Tree α)
  | nil => none
  | node _ l _ _ => some l

/-- kernel/bintree/avl_int.h:64 `RIGHT_OF`. -/
def rightOf : Tree α → Option (Tree α)
  | nil => none
  | node _ _ _ r => some r

/-- `UPDATE_HEIGHT(OBJTN_NN(*obj_ref))`. -/
def updateHeight : Tree α → Option (Tree α)
  | nil => none
  | node _ l o r => some (mk l o r)

/-- kernel/bintree/avl_bintree.c:109 `height != old_height`. -/
def changed (a b : Int) : Bool := a != b

/-- kernel/bintree/avl_bintree.c:77-110 `balance`; returns the new subtree and whether its stored
height changed. -/
def balance : Tree α → Option (Tree α × Bool)
  | nil => some (nil, false)
  | node h l o r => do
    let bf := ht l - ht r
    let t ←
      if bf > 1 then do
        let ll ← leftOf l
        let lr ← rightOf l
        if ht ll ≥ ht lr then rotateLeftChild (node h l o r)
        else do
          let l' ← rotateRightChild l
          rotateLeftChild (node h l' o r)
      else if bf < -1 then do
        let rr ← rightOf r
        let rl ← leftOf r
        if ht rr ≥ ht rl then rotateRightChild (node h l o r)
        else do
          let r' ← rotateLeftChild r
          rotateRightChild (node h l o r')
      else some (node h l o r)
    let t' ← updateHeight t
    pure (t', changed (ht t') h)

/-- Outcome of an insertion below some point of the path: the key was present, or it was inserted
and the unwinding loop is still running (`more`) or has stopped (`stop`). -/
inductive Ins | present | more | stop
  deriving DecidableEq, Repr

section ops
variable {K : Type} (cmp : K → K → Int) (key : α → K)

/-- kernel/bintree/avl_insert.c.h:24-70 `bintree_insert_internal` with avl_int.h:98-114
`AVL_BUILD_PATH_TO_OBJ`; `d` is the stack index of the current slot. -/
def insertRec (o : α) : Nat → Tree α → Option (Tree α × Ins)
  | d, nil => if d < maxStack then some (node 0 nil o nil, .more) else none
  | d, node h l x r =>
    if d < maxStack then
      let c := cmp (key x) (key o)
      if c = 0 then some (node h l x r, .present)
      else if c < 0 then do
        let (r', i) ← insertRec o (d + 1) r
        if i = .more then do
          let (t', ch) ← balance (node h l x r')
          pure (t', if ch then .more else .stop)
        else pure (node h l x r', i)
      else do
        let (l', i) ← insertRec o (d + 1) l
        if i = .more then do
          let (t', ch) ← balance (node h l' x r)
          pure (t', if ch then .more else .stop)
        else pure (node h l' x r, i)
    else none

/-- `bintree_insert`: false if an object with the same key was present. -/
def insert (t : Tree α) (o : α) : Option (Tree α × Bool) :=
  (insertRec cmp key o 0 t).map fun r => (r.1, decide (r.2 ≠ .present))

/-- kernel/bintree/avl_bintree.c:129-155: unlink the leftmost object of a non-empty tree and
rebalance the path to it; returns the remaining tree and that object (with its stored height). -/
def takeMin : Nat → Tree α → Option (Tree α × Int × α)
  | _, nil => none
  | d, node h nil x r =>
    if d < maxStack then do
      let (r', _) ← balance r
      pure (r', h, x)
    else none
  | d, node h (node hl ll lo lr) x r =>
    if d < maxStack then do
      let (l', m) ← takeMin (d + 1) (node hl ll lo lr)
      let (t', _) ← balance (node h l' x r)
      pure (t', m)
    else none

/-- kernel/bintree/avl_bintree.c:117-172 `bintree_remove_internal_aux`: replacement of the node
at stack index `d`, before the final unwinding loop reaches it. -/
def removeHere (d : Nat) (l r : Tree α) : Option (Tree α) :=
  match l, r with
  | nil, r => some r
  | l, nil => some l
  | l, r => do
    let (r', hm, m) ← takeMin (d + 1) r
    pure (node hm l m r')

/-- kernel/bintree/avl_remove.c.h:26-37 `bintree_remove_internal`, with the unwinding loop
avl_bintree.c:170-171. -/
def removeRec (k : K) : Nat → Tree α → Option (Tree α × Option α)
  | d, nil => if d < maxStack then some (nil, none) else none
  | d, node h l x r =>
    if d < maxStack then
      let c := cmp (key x) k
      if c = 0 then do
        let t ← removeHere d l r
        let (t', _) ← balance t
        pure (t', some x)
      else if c < 0 then do
        let (r', res) ← removeRec k (d + 1) r
        if res.isSome then do
          let (t', _) ← balance (node h l x r')
          pure (t', res)
        else pure (node h l x r', none)
      else do
        let (l', res) ← removeRec k (d + 1) l
        if res.isSome then do
          let (t', _) ← balance (node h l' x r)
          pure (t', res)
        else pure (node h l' x r, none)
    else none

def remove (t : Tree α) (k : K) : Option (Tree α × Option α) := removeRec cmp key k 0 t

/-- kernel/bintree/avl_find.c.h:24-37 `bintree_find_internal`. -/
def find (k : K) : Tree α → Option α
  | nil => none
  | node _ l x r =>
    let c := cmp (key x) k
    if c = 0 then some x else if c < 0 then find k r else find k l

end ops

/-- kernel/bintree/avl_bintree.c:175-185 `bintree_get_first_obj_internal`. -/
def first : Tree α → Option α
  | nil => none
  | node _ nil x _ => some x
  | node _ (node h l y r) _ _ => first (node h l y r)

/-- kernel/bintree/avl_bintree.c:187-197 `bintree_get_last_obj_internal`. -/
def last : Tree α → Option α
  | nil => none
  | node _ _ x nil => some x
  | node _ _ _ (node h l y r) => last (node h l y r)

/-! ## Specification: a finite map as a strictly sorted list of objects -/

/-- In-order contents. -/
def toList : Tree α → List α
  | nil => []
  | node _ l x r => toList l ++ x :: toList r

section spec
variable {K : Type} [LinearOrder K] (key : α → K)

def SortedKeys (L : List α) : Prop := L.Pairwise (fun a b => key a < key b)

/-- Insert unless the key is present. -/
def Spec.insert (L : List α) (o : α) : List α × Bool :=
  if ∃ x ∈ L, key x = key o then (L, false)
  else (L.filter (fun x => key x < key o) ++ o :: L.filter (fun x => key o < key x), true)

def Spec.remove (L : List α) (k : K) : List α × Option α :=
  (L.filter (fun x => key x ≠ k), L.find? (fun x => key x = k))

/-- `cmp` orders the keys satisfying `S` correctly. -/
def CmpOK (cmp : K → K → Int) (S : K → Prop) : Prop :=
  ∀ a b, S a → S b → (cmp a b < 0 ↔ a < b) ∧ (cmp a b = 0 ↔ a = b)

end spec

/-! ## Balance -/

@[simp] theorem ht_nil : ht (nil : Tree α) = -1 := rfl
@[simp] theorem ht_node (h : Int) (l r : Tree α) (o : α) : ht (node h l o r) = h := rfl
theorem ht_mk (l r : Tree α) (o : α) : ht (mk l o r) = max (ht l) (ht r) + 1 := rfl


/-- The AVL invariant: stored heights are exact and siblings differ by at most one. -/
def Avl : Tree α → Prop
  | nil => True
  | node h l _ r => h = max (ht l) (ht r) + 1 ∧ ht l - ht r ≤ 1 ∧ ht r - ht l ≤ 1 ∧ Avl l ∧ Avl r

theorem avl_ht_nonneg {t : Tree α} (h : Avl t) : -1 ≤ ht t := by
  induction t with
  | nil => simp [ht_nil, ht_node]
  | node h' l o r ihl ihr =>
    obtain ⟨h1, h2, h3, h4, h5⟩ := h
    have := ihl h4; simp [ht_nil, ht_node]; omega

theorem ht_node_nonneg {h' : Int} {l r : Tree α} {o : α} (h : Avl (node h' l o r)) : 0 ≤ h' := by
  obtain ⟨h1, h2, h3, h4, h5⟩ := h
  have := avl_ht_nonneg h4; omega

theorem avl_mk {l r : Tree α} {o : α} (hl : Avl l) (hr : Avl r) (h1 : ht l - ht r ≤ 1)
    (h2 : ht r - ht l ≤ 1) : Avl (mk l o r) := ⟨rfl, h1, h2, hl, hr⟩

/-- Balancing a node whose subtrees are AVL and differ by at most two. -/
theorem balance_ok {h : Int} {l r : Tree α} {o : α} (hl : Avl l) (hr : Avl r)
    (h1 : ht l - ht r ≤ 2) (h2 : ht r - ht l ≤ 2) :
    ∃ t', balance (node h l o r) = some (t', changed (ht t') h) ∧ Avl t' ∧
      toList t' = toList l ++ o :: toList r ∧
      (ht t' = max (ht l) (ht r) + 1 ∨ ht t' = max (ht l) (ht r)) ∧
      (ht l - ht r ≤ 1 → ht r - ht l ≤ 1 → ht t' = max (ht l) (ht r) + 1) := by
  have bl := avl_ht_nonneg hl
  have br := avl_ht_nonneg hr
  by_cases hb : ht l - ht r > 1
  · cases l with
    | nil => simp only [ht_nil, ht_node] at hb bl h1; omega
    | node hl' ll lo lr =>
      obtain ⟨e1, e2, e3, e4, e5⟩ := hl
      have bll := avl_ht_nonneg e4
      have blr := avl_ht_nonneg e5
      simp only [ht_nil, ht_node] at hb h1 h2 bl
      by_cases hc : ht ll ≥ ht lr
      · refine ⟨mk ll lo (mk lr o r), ?_, ?_, ?_, ?_, ?_⟩
        · simp [balance, leftOf, rightOf, hb, hc, rotateLeftChild, updateHeight, mk, ht_nil, ht_node]
        · refine avl_mk e4 (avl_mk e5 hr ?_ ?_) ?_ ?_ <;> (try simp only [ht_mk, ht_node, ht_nil]) <;> omega
        · simp [mk, toList]
        · simp only [ht_mk, ht_node, ht_nil]; omega
        · intro h3; simp only [ht_nil, ht_node] at h3; omega
      · cases lr with
        | nil => simp only [ht_nil, ht_node] at hc; omega
        | node hlr lrl lro lrr =>
          obtain ⟨f1, f2, f3, f4, f5⟩ := e5
          have blrl := avl_ht_nonneg f4
          have blrr := avl_ht_nonneg f5
          simp only [ht_nil, ht_node] at hc e1 e2 e3 blr
          refine ⟨mk (mk ll lo lrl) lro (mk lrr o r), ?_, ?_, ?_, ?_, ?_⟩
          · simp [balance, leftOf, rightOf, hb, hc, rotateLeftChild, rotateRightChild, updateHeight, mk, ht_nil, ht_node]
          · refine avl_mk (avl_mk e4 f4 ?_ ?_) (avl_mk f5 hr ?_ ?_) ?_ ?_ <;> (try simp only [ht_mk, ht_node, ht_nil]) <;> omega
          · simp [mk, toList]
          · simp only [ht_mk, ht_node, ht_nil]; omega
          · intro h3; simp only [ht_nil, ht_node] at h3; omega
  · by_cases hb2 : ht l - ht r < -1
    · cases r with
      | nil => simp only [ht_nil, ht_node] at hb2 br h2; omega
      | node hr' rl ro rr =>
        obtain ⟨e1, e2, e3, e4, e5⟩ := hr
        have brl := avl_ht_nonneg e4
        have brr := avl_ht_nonneg e5
        simp only [ht_nil, ht_node] at hb hb2 h1 h2 br
        by_cases hc : ht rr ≥ ht rl
        · refine ⟨mk (mk l o rl) ro rr, ?_, ?_, ?_, ?_, ?_⟩
          · simp [balance, leftOf, rightOf, hb, hb2, hc, rotateRightChild, updateHeight, mk, ht_nil, ht_node]
          · refine avl_mk (avl_mk hl e4 ?_ ?_) e5 ?_ ?_ <;> (try simp only [ht_mk, ht_node, ht_nil]) <;> omega
          · simp [mk, toList]
          · simp only [ht_mk, ht_node, ht_nil]; omega
          · intro _ h3; simp only [ht_nil, ht_node] at h3; omega
        · cases rl with
          | nil => simp only [ht_nil, ht_node] at hc; omega
          | node hrl rll rlo rlr =>
            obtain ⟨f1, f2, f3, f4, f5⟩ := e4
            have := avl_ht_nonneg f4
            have := avl_ht_nonneg f5
            simp only [ht_nil, ht_node] at hc e1 e2 e3 brl
            refine ⟨mk (mk l o rll) rlo (mk rlr ro rr), ?_, ?_, ?_, ?_, ?_⟩
            · simp [balance, leftOf, rightOf, hb, hb2, hc, rotateLeftChild, rotateRightChild, updateHeight, mk, ht_nil, ht_node]
            · refine avl_mk (avl_mk hl f4 ?_ ?_) (avl_mk f5 e5 ?_ ?_) ?_ ?_ <;> (try simp only [ht_mk, ht_node, ht_nil]) <;> omega
            · simp [mk, toList]
            · simp only [ht_mk, ht_node, ht_nil]; omega
            · intro _ h3; simp only [ht_nil, ht_node] at h3; omega
    · refine ⟨mk l o r, ?_, ?_, ?_, ?_, ?_⟩
      · simp [balance, hb, hb2, updateHeight, mk, ht_nil, ht_node]
      · exact avl_mk hl hr (by omega) (by omega)
      · simp [mk, toList]
      · left; rfl
      · intros; rfl

/-! ## Insert -/

section proofs
variable {K : Type} [LinearOrder K] {cmp : K → K → Int} {key : α → K} {S : K → Prop}

theorem sorted_node {L R : List α} {x : α} (h : SortedKeys key (L ++ x :: R)) :
    SortedKeys key L ∧ SortedKeys key R ∧ (∀ a ∈ L, key a < key x) ∧ (∀ b ∈ R, key x < key b) := by
  unfold SortedKeys at *
  rw [List.pairwise_append, List.pairwise_cons] at h
  exact ⟨h.1, h.2.1.2, fun a ha => h.2.2 a ha x (by simp), h.2.1.1⟩

theorem specInsert_right {L R : List α} {x o : α} (hs : SortedKeys key (L ++ x :: R))
    (hxo : key x < key o) :
    Spec.insert key (L ++ x :: R) o =
      (L ++ x :: (Spec.insert key R o).1, (Spec.insert key R o).2) := by
  obtain ⟨_, _, h3, _⟩ := sorted_node hs
  have hL : ∀ a ∈ L, key a < key o := fun a ha => lt_trans (h3 a ha) hxo
  unfold Spec.insert
  have e : (∃ y ∈ L ++ x :: R, key y = key o) ↔ ∃ y ∈ R, key y = key o := by
    constructor
    · rintro ⟨y, hy, he⟩
      rcases List.mem_append.mp hy with hy | hy
      · exact absurd he (ne_of_lt (hL y hy))
      · rcases List.mem_cons.mp hy with rfl | hy
        · exact absurd he (ne_of_lt hxo)
        · exact ⟨y, hy, he⟩
    · rintro ⟨y, hy, he⟩; exact ⟨y, by simp [hy], he⟩
  by_cases hR : ∃ y ∈ R, key y = key o
  · rw [if_pos hR, if_pos (e.mpr hR)]
  · rw [if_neg hR, if_neg (fun h => hR (e.mp h))]
    have f1 : L.filter (fun y => decide (key y < key o)) = L :=
      List.filter_eq_self.mpr (fun a ha => by simpa using hL a ha)
    have f2 : L.filter (fun y => decide (key o < key y)) = [] :=
      List.filter_eq_nil_iff.mpr (fun a ha => by simpa using le_of_lt (hL a ha))
    simp [List.filter_append, f1, f2, List.filter_cons, hxo, le_of_lt hxo]

theorem specInsert_left {L R : List α} {x o : α} (hs : SortedKeys key (L ++ x :: R))
    (hox : key o < key x) :
    Spec.insert key (L ++ x :: R) o =
      ((Spec.insert key L o).1 ++ x :: R, (Spec.insert key L o).2) := by
  obtain ⟨_, _, _, h4⟩ := sorted_node hs
  have hR : ∀ b ∈ R, key o < key b := fun b hb => lt_trans hox (h4 b hb)
  unfold Spec.insert
  have e : (∃ y ∈ L ++ x :: R, key y = key o) ↔ ∃ y ∈ L, key y = key o := by
    constructor
    · rintro ⟨y, hy, he⟩
      rcases List.mem_append.mp hy with hy | hy
      · exact ⟨y, hy, he⟩
      · rcases List.mem_cons.mp hy with rfl | hy
        · exact absurd he (ne_of_gt hox)
        · exact absurd he (ne_of_gt (hR y hy))
    · rintro ⟨y, hy, he⟩; exact ⟨y, by simp [hy], he⟩
  by_cases hL : ∃ y ∈ L, key y = key o
  · rw [if_pos hL, if_pos (e.mpr hL)]
  · rw [if_neg hL, if_neg (fun h => hL (e.mp h))]
    have f1 : R.filter (fun y => decide (key o < key y)) = R :=
      List.filter_eq_self.mpr (fun a ha => by simpa using hR a ha)
    have f2 : R.filter (fun y => decide (key y < key o)) = [] :=
      List.filter_eq_nil_iff.mpr (fun a ha => by simpa using le_of_lt (hR a ha))
    simp [List.filter_append, f1, f2, List.filter_cons, hox, le_of_lt hox]

theorem insertRec_ok (hcmp : CmpOK cmp S) (o : α) (ho : S (key o)) (t : Tree α) :
    ∀ d : Nat, Avl t → SortedKeys key (toList t) → (∀ x ∈ toList t, S (key x)) →
      (d : Int) + ht t + 1 < maxStack →
      ∃ t' i, insertRec cmp key o d t = some (t', i) ∧ Avl t' ∧
        toList t' = (Spec.insert key (toList t) o).1 ∧
        (Spec.insert key (toList t) o).2 = decide (i ≠ .present) ∧
        ht t ≤ ht t' ∧ ht t' ≤ ht t + 1 ∧ (i ≠ .more → ht t' = ht t) := by
  induction t with
  | nil =>
    intro d _ _ _ hd
    simp only [ht_nil, ht_node] at hd
    refine ⟨node 0 nil o nil, .more, ?_, ?_, ?_, ?_, ?_, ?_, ?_⟩
    · rw [insertRec, if_pos (by omega)]
    · simp [Avl, ht_nil, ht_node]
    · simp [toList, Spec.insert]
    · simp [toList, Spec.insert]
    · simp [ht_nil, ht_node]
    · simp [ht_nil, ht_node]
    · simp
  | node h l x r ihl ihr =>
    intro d ha hs hS hd
    obtain ⟨a1, a2, a3, a4, a5⟩ := ha
    simp only [toList] at hs hS ⊢
    obtain ⟨s1, s2, s3, s4⟩ := sorted_node hs
    simp only [ht_nil, ht_node] at hd
    have bl := avl_ht_nonneg a4
    have br := avl_ht_nonneg a5
    have hdm : d < maxStack := by omega
    obtain ⟨c1, c2⟩ := hcmp (key x) (key o) (hS x (by simp)) ho
    simp only [insertRec, if_pos hdm]
    by_cases hc0 : cmp (key x) (key o) = 0
    · have hk := c2.mp hc0
      refine ⟨node h l x r, .present, ?_, ⟨a1, a2, a3, a4, a5⟩, ?_, ?_, by simp, by omega, by simp⟩
      · rw [if_pos hc0]
      · unfold Spec.insert; rw [if_pos ⟨x, by simp, hk⟩]; rfl
      · unfold Spec.insert; rw [if_pos ⟨x, by simp, hk⟩]; simp
    · rw [if_neg hc0]
      by_cases hc : cmp (key x) (key o) < 0
      · rw [if_pos hc]
        have hlt := c1.mp hc
        obtain ⟨r', i, g1, g2, g3, g4, g5, g6, g7⟩ :=
          ihr (d + 1) a5 s2 (fun y hy => hS y (by simp [hy])) (by omega)
        rw [specInsert_right hs hlt, g1]
        simp only [Option.bind_eq_bind, Option.bind_some]
        by_cases hi : i = .more
        · obtain ⟨t', b1, b2, b3, b4, b5⟩ :=
            balance_ok (h := h) (o := x) a4 g2 (by omega) (by omega)
          rw [if_pos hi, b1]
          refine ⟨t', _, rfl, b2, by rw [b3, g3], ?_, ?_, ?_, ?_⟩
          · subst hi; simp at g4; simp [g4]; split <;> simp
          · simp only [ht_nil, ht_node]; by_cases hx : ht l - ht r' ≤ 1 ∧ ht r' - ht l ≤ 1
            · have := b5 hx.1 hx.2; omega
            · omega
          · simp only [ht_nil, ht_node]; omega
          · simp only [ht_nil, ht_node]
            intro hn
            by_cases hch : ht t' = h
            · exact hch
            · simp [changed, hch] at hn
        · rw [if_neg hi]
          refine ⟨node h l x r', i, rfl, ?_, by simp [toList, g3], g4, by simp, by simp only [ht_node]; omega, by simp⟩
          have := g7 hi
          exact ⟨by rw [this]; exact a1, by omega, by omega, a4, g2⟩
      · rw [if_neg hc]
        have hlt : key o < key x := by
          rcases lt_trichotomy (key x) (key o) with h' | h' | h'
          · exact absurd (c1.mpr h') hc
          · exact absurd (c2.mpr h') hc0
          · exact h'
        obtain ⟨l', i, g1, g2, g3, g4, g5, g6, g7⟩ :=
          ihl (d + 1) a4 s1 (fun y hy => hS y (by simp [hy])) (by omega)
        rw [specInsert_left hs hlt, g1]
        simp only [Option.bind_eq_bind, Option.bind_some]
        by_cases hi : i = .more
        · obtain ⟨t', b1, b2, b3, b4, b5⟩ :=
            balance_ok (h := h) (o := x) g2 a5 (by omega) (by omega)
          rw [if_pos hi, b1]
          refine ⟨t', _, rfl, b2, by rw [b3, g3], ?_, ?_, ?_, ?_⟩
          · subst hi; simp at g4; simp [g4]; split <;> simp
          · simp only [ht_nil, ht_node]; by_cases hx : ht l' - ht r ≤ 1 ∧ ht r - ht l' ≤ 1
            · have := b5 hx.1 hx.2; omega
            · omega
          · simp only [ht_nil, ht_node]; omega
          · simp only [ht_nil, ht_node]
            intro hn
            by_cases hch : ht t' = h
            · exact hch
            · simp [changed, hch] at hn
        · rw [if_neg hi]
          refine ⟨node h l' x r, i, rfl, ?_, by simp [toList, g3], g4, by simp, by simp only [ht_node]; omega, by simp⟩
          have := g7 hi
          exact ⟨by rw [this]; exact a1, by omega, by omega, g2, a5⟩

/-! ## Remove -/

theorem balance_exact {t : Tree α} (h : Avl t) : balance t = some (t, false) := by
  cases t with
  | nil => rfl
  | node h' l o r =>
    obtain ⟨a1, a2, a3, a4, a5⟩ := h
    have : ¬ (ht l - ht r > 1) := by omega
    have : ¬ (ht l - ht r < -1) := by omega
    simp [balance, *, updateHeight, mk, changed]

theorem takeMin_ok (t : Tree α) : ∀ d : Nat, Avl t → t ≠ nil → (d : Int) + ht t < maxStack →
    ∃ t' hm m, takeMin d t = some (t', hm, m) ∧ Avl t' ∧ toList t = m :: toList t' ∧
      ht t' ≤ ht t ∧ ht t - 1 ≤ ht t' := by
  induction t with
  | nil => intro _ _ h; exact absurd rfl h
  | node h l x r ihl ihr =>
    intro d ha _ hd
    obtain ⟨a1, a2, a3, a4, a5⟩ := ha
    simp only [ht_nil, ht_node] at hd
    have br := avl_ht_nonneg a5
    have bl := avl_ht_nonneg a4
    cases l with
    | nil =>
      simp only [ht_nil, ht_node] at a1 a2 a3 bl
      refine ⟨r, h, x, ?_, a5, by simp [toList], ?_, ?_⟩
      · rw [takeMin, if_pos (by omega), balance_exact a5]; rfl
      · simp only [ht_nil, ht_node]; omega
      · simp only [ht_nil, ht_node]; omega
    | node hl ll lo lr =>
      have hbl : 0 ≤ ht (node hl ll lo lr) := ht_node_nonneg a4
      obtain ⟨l', hm, m, g1, g2, g3, g4, g5⟩ := ihl (d + 1) a4 (by simp) (by simp only [ht_nil, ht_node] at *; omega)
      obtain ⟨t', b1, b2, b3, b4, b5⟩ := balance_ok (h := h) (o := x) g2 a5 (by omega) (by omega)
      refine ⟨t', hm, m, ?_, b2, ?_, ?_, ?_⟩
      · rw [takeMin, if_pos (by omega), g1]
        simp [b1]
      · simp only [toList] at g3 ⊢; rw [b3, g3]; simp
      · simp only [ht_nil, ht_node] at *; omega
      · by_cases hx : ht l' - ht r ≤ 1 ∧ ht r - ht l' ≤ 1
        · have := b5 hx.1 hx.2; simp only [ht_nil, ht_node] at *; omega
        · simp only [ht_nil, ht_node] at *; omega

theorem find_filter_mid {L R : List α} {x : α} (hs : SortedKeys key (L ++ x :: R)) :
    Spec.remove key (L ++ x :: R) (key x) = (L ++ R, some x) := by
  obtain ⟨_, _, h3, h4⟩ := sorted_node hs
  have f1 : L.filter (fun y => decide (key y ≠ key x)) = L :=
    List.filter_eq_self.mpr (fun a ha => by simpa using ne_of_lt (h3 a ha))
  have f2 : R.filter (fun y => decide (key y ≠ key x)) = R :=
    List.filter_eq_self.mpr (fun a ha => by simpa using ne_of_gt (h4 a ha))
  have g1 : L.find? (fun y => decide (key y = key x)) = none :=
    List.find?_eq_none.mpr (fun a ha => by simpa using ne_of_lt (h3 a ha))
  simp only [Spec.remove, List.filter_append, f1, List.find?_append, g1, List.filter_cons, f2]
  simp

theorem specRemove_right {L R : List α} {x : α} {k : K} (hs : SortedKeys key (L ++ x :: R))
    (hxk : key x < k) :
    Spec.remove key (L ++ x :: R) k =
      (L ++ x :: (Spec.remove key R k).1, (Spec.remove key R k).2) := by
  obtain ⟨_, _, h3, _⟩ := sorted_node hs
  have hL : ∀ a ∈ L, key a ≠ k := fun a ha => ne_of_lt (lt_trans (h3 a ha) hxk)
  have f1 : L.filter (fun y => decide (key y ≠ k)) = L :=
    List.filter_eq_self.mpr (fun a ha => by simpa using hL a ha)
  have g1 : L.find? (fun y => decide (key y = k)) = none :=
    List.find?_eq_none.mpr (fun a ha => by simpa using hL a ha)
  simp [Spec.remove, List.filter_append, List.find?_append, g1, List.filter_cons, List.find?_cons,
    ne_of_lt hxk]
  simpa using f1

theorem specRemove_left {L R : List α} {x : α} {k : K} (hs : SortedKeys key (L ++ x :: R))
    (hkx : k < key x) :
    Spec.remove key (L ++ x :: R) k =
      ((Spec.remove key L k).1 ++ x :: R, (Spec.remove key L k).2) := by
  obtain ⟨_, _, _, h4⟩ := sorted_node hs
  have hR : ∀ b ∈ R, key b ≠ k := fun b hb => ne_of_gt (lt_trans hkx (h4 b hb))
  have f1 : R.filter (fun y => decide (key y ≠ k)) = R :=
    List.filter_eq_self.mpr (fun a ha => by simpa using hR a ha)
  have g1 : R.find? (fun y => decide (key y = k)) = none :=
    List.find?_eq_none.mpr (fun a ha => by simpa using hR a ha)
  have f1' := f1
  simp at f1'
  simp [Spec.remove, List.filter_append, List.find?_append, g1, List.filter_cons, List.find?_cons,
    ne_of_gt hkx]
  exact f1'

theorem removeRec_ok (hcmp : CmpOK cmp S) (k : K) (hk : S k) (t : Tree α) :
    ∀ d : Nat, Avl t → SortedKeys key (toList t) → (∀ x ∈ toList t, S (key x)) →
      (d : Int) + ht t + 1 < maxStack →
      ∃ t' res, removeRec cmp key k d t = some (t', res) ∧ Avl t' ∧
        (toList t', res) = Spec.remove key (toList t) k ∧
        ht t' ≤ ht t ∧ ht t - 1 ≤ ht t' ∧ (res = none → t' = t) := by
  induction t with
  | nil =>
    intro d _ _ _ hd
    simp only [ht_nil, ht_node] at hd
    refine ⟨nil, none, ?_, trivial, by simp [toList, Spec.remove], by simp, by omega, by simp⟩
    rw [removeRec, if_pos (by omega)]
  | node h l x r ihl ihr =>
    intro d ha hs hS hd
    obtain ⟨a1, a2, a3, a4, a5⟩ := ha
    simp only [toList] at hs hS ⊢
    obtain ⟨s1, s2, s3, s4⟩ := sorted_node hs
    simp only [ht_nil, ht_node] at hd
    have bl := avl_ht_nonneg a4
    have br := avl_ht_nonneg a5
    have hdm : d < maxStack := by omega
    obtain ⟨c1, c2⟩ := hcmp (key x) k (hS x (by simp)) hk
    simp only [removeRec, if_pos hdm]
    by_cases hc0 : cmp (key x) k = 0
    · rw [if_pos hc0]
      have hkx := c2.mp hc0
      subst hkx
      rw [find_filter_mid hs]
      cases hl : l with
      | nil =>
        subst hl
        simp only [ht_nil, ht_node] at *
        refine ⟨r, some x, ?_, a5, by simp [toList], by omega, by omega, by simp⟩
        simp [removeHere, balance_exact a5]
      | node hl' ll lo lr =>
        cases hr : r with
        | nil =>
          subst hr hl
          simp only [ht_nil, ht_node] at *
          refine ⟨node hl' ll lo lr, some x, ?_, a4, by simp [toList], by simp only [ht_nil, ht_node]; omega,
            by simp only [ht_nil, ht_node]; omega, by simp⟩
          simp [removeHere, balance_exact a4]
        | node hr' rl ro rr =>
          subst hl hr
          have h0 := ht_node_nonneg a5
          obtain ⟨r', hm, m, g1, g2, g3, g4, g5⟩ := takeMin_ok _ (d + 1) a5 (by simp)
            (by simp only [ht_nil, ht_node] at *; omega)
          obtain ⟨t', b1, b2, b3, b4, b5⟩ := balance_ok (h := hm) (o := m) a4 g2 (by omega) (by omega)
          refine ⟨t', some x, ?_, b2, ?_, ?_, ?_, by simp⟩
          · simp [removeHere, g1, b1]
          · rw [b3, g3]
          · simp only [ht_nil, ht_node] at *; omega
          · by_cases hx : ht (node hl' ll lo lr) - ht r' ≤ 1 ∧ ht r' - ht (node hl' ll lo lr) ≤ 1
            · have := b5 hx.1 hx.2; simp only [ht_nil, ht_node] at *; omega
            · simp only [ht_nil, ht_node] at *; omega
    · rw [if_neg hc0]
      by_cases hc : cmp (key x) k < 0
      · rw [if_pos hc]
        have hlt := c1.mp hc
        obtain ⟨r', res, g1, g2, g3, g4, g5, g6⟩ :=
          ihr (d + 1) a5 s2 (fun y hy => hS y (by simp [hy])) (by omega)
        rw [specRemove_right hs hlt, g1, ← g3]
        simp only [Option.bind_eq_bind, Option.bind_some]
        cases hres : res with
        | none =>
          have := g6 hres
          subst this
          refine ⟨node h l x r', none, by simp, ⟨a1, a2, a3, a4, a5⟩, by simp [toList], by simp,
            by omega, by simp⟩
        | some y =>
          obtain ⟨t', b1, b2, b3, b4, b5⟩ :=
            balance_ok (h := h) (o := x) a4 g2 (by omega) (by omega)
          refine ⟨t', some y, by simp [b1], b2, by rw [b3], ?_, ?_, by simp⟩
          · simp only [ht_nil, ht_node]; omega
          · simp only [ht_nil, ht_node]; by_cases hx : ht l - ht r' ≤ 1 ∧ ht r' - ht l ≤ 1
            · have := b5 hx.1 hx.2; omega
            · omega
      · rw [if_neg hc]
        have hlt : k < key x := by
          rcases lt_trichotomy (key x) k with h' | h' | h'
          · exact absurd (c1.mpr h') hc
          · exact absurd (c2.mpr h') hc0
          · exact h'
        obtain ⟨l', res, g1, g2, g3, g4, g5, g6⟩ :=
          ihl (d + 1) a4 s1 (fun y hy => hS y (by simp [hy])) (by omega)
        rw [specRemove_left hs hlt, g1, ← g3]
        simp only [Option.bind_eq_bind, Option.bind_some]
        cases hres : res with
        | none =>
          have := g6 hres
          subst this
          refine ⟨node h l' x r, none, by simp, ⟨a1, a2, a3, a4, a5⟩, by simp [toList], by simp,
            by omega, by simp⟩
        | some y =>
          obtain ⟨t', b1, b2, b3, b4, b5⟩ :=
            balance_ok (h := h) (o := x) g2 a5 (by omega) (by omega)
          refine ⟨t', some y, by simp [b1], b2, by rw [b3], ?_, ?_, by simp⟩
          · simp only [ht_nil, ht_node]; omega
          · simp only [ht_nil, ht_node]; by_cases hx : ht l' - ht r ≤ 1 ∧ ht r - ht l' ≤ 1
            · have := b5 hx.1 hx.2; omega
            · omega

theorem find_ok (hcmp : CmpOK cmp S) (k : K) (hk : S k) (t : Tree α) :
    SortedKeys key (toList t) → (∀ x ∈ toList t, S (key x)) →
    find cmp key k t = (toList t).find? (fun x => decide (key x = k)) := by
  induction t with
  | nil => intros; rfl
  | node h l x r ihl ihr =>
    intro hs hS
    simp only [toList] at hs hS ⊢
    obtain ⟨s1, s2, s3, s4⟩ := sorted_node hs
    obtain ⟨c1, c2⟩ := hcmp (key x) k (hS x (by simp)) hk
    simp only [find]
    by_cases hc0 : cmp (key x) k = 0
    · rw [if_pos hc0]
      have := c2.mp hc0; subst this
      exact (congrArg Prod.snd (find_filter_mid hs)).symm
    · rw [if_neg hc0]
      by_cases hc : cmp (key x) k < 0
      · rw [if_pos hc, ihr s2 (fun y hy => hS y (by simp [hy]))]
        exact (congrArg Prod.snd (specRemove_right hs (c1.mp hc))).symm
      · rw [if_neg hc, ihl s1 (fun y hy => hS y (by simp [hy]))]
        have hlt : k < key x := by
          rcases lt_trichotomy (key x) k with h' | h' | h'
          · exact absurd (c1.mpr h') hc
          · exact absurd (c2.mpr h') hc0
          · exact h'
        exact (congrArg Prod.snd (specRemove_left hs hlt)).symm

theorem first_ok (t : Tree α) : first t = (toList t).head? := by
  induction t with
  | nil => rfl
  | node h l x r ihl ihr =>
    cases l with
    | nil => rfl
    | node hl ll lo lr =>
      rw [first, ihl]
      simp [toList, List.head?_append]

theorem last_ok (t : Tree α) : last t = (toList t).getLast? := by
  induction t with
  | nil => rfl
  | node h l x r ihl ihr =>
    cases r with
    | nil => simp [last, toList]
    | node hr rl ro rr =>
      rw [last, ihr]
      simp [toList, List.getLast?_append, List.getLast?_cons]

end proofs

/-! ## Size and height -/

/-- The Fibonacci numbers. -/
def fib : Nat → Nat
  | 0 => 0
  | 1 => 1
  | n + 2 => fib n + fib (n + 1)

theorem fib_mono_succ (n : Nat) : fib n ≤ fib (n + 1) := by
  cases n with
  | zero => decide
  | succ n => rw [fib]; omega

theorem fib_mono {m n : Nat} (h : m ≤ n) : fib m ≤ fib n := by
  induction h with
  | refl => exact Nat.le_refl _
  | step _ ih => exact Nat.le_trans ih (fib_mono_succ _)

/-- **C10.** An AVL tree of (stored) height `h` has at least `F(h+3) - 1` objects. -/
theorem avl_size_bound {t : Tree α} (h : Avl t) :
    fib ((ht t + 3).toNat) ≤ (toList t).length + 1 := by
  induction t with
  | nil => simp [ht_nil, ht_node, toList]; decide
  | node h' l o r ihl ihr =>
    obtain ⟨a1, a2, a3, a4, a5⟩ := h
    have bl := avl_ht_nonneg a4
    have br := avl_ht_nonneg a5
    have hl := ihl a4
    have hr := ihr a5
    simp only [toList, List.length_append, List.length_cons, ht_nil, ht_node]
    have e : (h' + 3).toNat = (h' + 1).toNat + 2 := by omega
    rw [e, fib]
    rcases Int.le_total (ht l) (ht r) with hle | hle
    · have m1 := fib_mono (show (h' + 1).toNat ≤ (ht l + 3).toNat by omega)
      have m2 := fib_mono (show (h' + 1).toNat + 1 ≤ (ht r + 3).toNat by omega)
      omega
    · have m1 := fib_mono (show (h' + 1).toNat ≤ (ht r + 3).toNat by omega)
      have m2 := fib_mono (show (h' + 1).toNat + 1 ≤ (ht l + 3).toNat by omega)
      omega

theorem fib34 : fib 34 = 5702887 := by decide +kernel

/-- **C10.** With fewer than 5702886 objects the height is at most 30. -/
theorem avl_height_bound {t : Tree α} (h : Avl t) (hn : (toList t).length < 5702886) : ht t ≤ 30 := by
  apply Classical.byContradiction
  intro hc
  have h1 := avl_size_bound h
  have h2 := fib_mono (show 34 ≤ (ht t + 3).toNat by omega)
  rw [fib34] at h2; omega

/-! ## Histories -/

inductive Op (α K : Type) where
  | insert (o : α)
  | remove (k : K)
  | find (k : K)
  | first
  | last

inductive Out (α : Type) where
  | flag (b : Bool)
  | obj (o : Option α)

section hist
variable {K : Type} [LinearOrder K] (cmp : K → K → Int) (key : α → K)

/-- One call on the model. -/
def step (t : Tree α) : Op α K → Option (Tree α × Out α)
  | .insert o => (insert cmp key t o).map fun r => (r.1, .flag r.2)
  | .remove k => (remove cmp key t k).map fun r => (r.1, .obj r.2)
  | .find k => some (t, .obj (find cmp key k t))
  | .first => some (t, .obj (first t))
  | .last => some (t, .obj (last t))

/-- The same call on the abstract map. -/
def Spec.step (L : List α) : Op α K → List α × Out α
  | .insert o => ((Spec.insert key L o).1, .flag (Spec.insert key L o).2)
  | .remove k => ((Spec.remove key L k).1, .obj (Spec.remove key L k).2)
  | .find k => (L, .obj (L.find? fun x => decide (key x = k)))
  | .first => (L, .obj L.head?)
  | .last => (L, .obj L.getLast?)

/-- All calls of a history; `none` if some call faults. -/
def run (t : Tree α) : List (Op α K) → Option (Tree α × List (Out α))
  | [] => some (t, [])
  | op :: ops => do
    let (t', out) ← step cmp key t op
    let (t'', outs) ← run t' ops
    pure (t'', out :: outs)

def Spec.run (L : List α) : List (Op α K) → List α × List (Out α)
  | [] => (L, [])
  | op :: ops =>
    let s := Spec.step key L op
    let r := Spec.run s.1 ops
    (r.1, s.2 :: r.2)

/-- The keys used by an operation satisfy `S`. -/
def Op.keyOK (S : K → Prop) : Op α K → Prop
  | .insert o => S (key o)
  | .remove k => S k
  | .find k => S k
  | _ => True

/-- The abstract map stays below the size that the 32-entry path stack can handle. -/
def Spec.Fits (L : List α) : List (Op α K) → Prop
  | [] => True
  | op :: ops => L.length < 5702886 ∧ Spec.Fits (Spec.step key L op).1 ops

variable {cmp key} {S : K → Prop}

theorem specInsert_sorted {L : List α} (h : SortedKeys key L) (o : α) :
    SortedKeys key (Spec.insert key L o).1 := by
  unfold Spec.insert
  split
  · exact h
  · unfold SortedKeys at *
    rw [List.pairwise_append, List.pairwise_cons]
    refine ⟨h.filter _, ⟨?_, h.filter _⟩, ?_⟩
    · intro b hb; simpa using (List.mem_filter.mp hb).2
    · intro a ha b hb
      have h1 : key a < key o := by simpa using (List.mem_filter.mp ha).2
      rcases List.mem_cons.mp hb with rfl | hb
      · exact h1
      · have h2 : key o < key b := by simpa using (List.mem_filter.mp hb).2
        exact lt_trans h1 h2

theorem specInsert_mem {L : List α} {o x : α} (h : x ∈ (Spec.insert key L o).1) : x ∈ L ∨ x = o := by
  unfold Spec.insert at h
  split at h
  · exact Or.inl h
  · rcases List.mem_append.mp h with h | h
    · exact Or.inl (List.mem_filter.mp h).1
    · rcases List.mem_cons.mp h with h | h
      · exact Or.inr h
      · exact Or.inl (List.mem_filter.mp h).1

theorem step_ok (hcmp : CmpOK cmp S) (t : Tree α) (op : Op α K) (ha : Avl t)
    (hs : SortedKeys key (toList t)) (hS : ∀ x ∈ toList t, S (key x)) (hop : op.keyOK key S)
    (hn : (toList t).length < 5702886) :
    ∃ t' out, step cmp key t op = some (t', out) ∧ Avl t' ∧ SortedKeys key (toList t') ∧
      (∀ x ∈ toList t', S (key x)) ∧ (toList t', out) = Spec.step key (toList t) op := by
  have hb := avl_height_bound ha hn
  have hd : ((0 : Nat) : Int) + ht t + 1 < maxStack := by simp [maxStack]; omega
  cases op with
  | insert o =>
    obtain ⟨t', i, g1, g2, g3, g4, _⟩ := insertRec_ok (key := key) hcmp o hop t 0 ha hs hS hd
    refine ⟨t', .flag (decide (i ≠ .present)), ?_, g2, ?_, ?_, ?_⟩
    · simp [step, insert, g1]
    · rw [g3]; exact specInsert_sorted hs o
    · intro x hx
      rw [g3] at hx
      rcases specInsert_mem hx with h | rfl
      · exact hS x h
      · exact hop
    · simp only [Spec.step, g3, g4]
  | remove k =>
    obtain ⟨t', res, g1, g2, g3, _⟩ := removeRec_ok (key := key) hcmp k hop t 0 ha hs hS hd
    have e1 : toList t' = (toList t).filter (fun x => decide (key x ≠ k)) := congrArg Prod.fst g3
    refine ⟨t', .obj res, ?_, g2, ?_, ?_, ?_⟩
    · simp [step, remove, g1]
    · rw [e1]; exact List.Pairwise.filter _ hs
    · intro x hx; rw [e1] at hx; exact hS x (List.mem_filter.mp hx).1
    · simp only [Spec.step, ← g3]
  | find k =>
    exact ⟨t, _, rfl, ha, hs, hS, by simp only [Spec.step, find_ok hcmp k hop t hs hS]⟩
  | first => exact ⟨t, _, rfl, ha, hs, hS, by simp only [Spec.step, first_ok]⟩
  | last => exact ⟨t, _, rfl, ha, hs, hS, by simp only [Spec.step, last_ok]⟩

theorem run_ok (hcmp : CmpOK cmp S) (ops : List (Op α K)) : ∀ t : Tree α, Avl t →
    SortedKeys key (toList t) → (∀ x ∈ toList t, S (key x)) →
    (∀ op ∈ ops, op.keyOK key S) → Spec.Fits key (toList t) ops →
    ∃ t' outs, run cmp key t ops = some (t', outs) ∧ Avl t' ∧ SortedKeys key (toList t') ∧
      (toList t', outs) = Spec.run key (toList t) ops := by
  induction ops with
  | nil => intro t ha hs _ _ _; exact ⟨t, [], rfl, ha, hs, rfl⟩
  | cons op ops ih =>
    intro t ha hs hS hk hf
    obtain ⟨hn, hf⟩ := hf
    obtain ⟨t1, out, g1, g2, g3, g4, g5⟩ := step_ok hcmp t op ha hs hS (hk op (by simp)) hn
    rw [← g5] at hf
    obtain ⟨t2, outs, e1, e2, e3, e4⟩ := ih t1 g2 g3 g4 (fun o ho => hk o (by simp [ho])) hf
    refine ⟨t2, out :: outs, by simp [run, g1, e1], e2, e3, ?_⟩
    simp only [Spec.run, ← g5, ← e4]

end hist

/-- **C09, C10.** Every history of insert/remove/find/first/last calls from the empty tree, with a
comparison function that orders the keys in use, behaves exactly like the abstract ordered map, never
faults (no stack overflow, no NULL dereference), and leaves a sorted AVL tree whose height is at most 30 —
as long as the map stays below 5702886 objects. -/
theorem avl_refines_map {K : Type} [LinearOrder K] {cmp : K → K → Int} {key : α → K} {S : K → Prop}
    (hcmp : CmpOK cmp S) (ops : List (Op α K)) (hk : ∀ op ∈ ops, op.keyOK key S)
    (hf : Spec.Fits key [] ops) :
    ∃ t outs, run cmp key nil ops = some (t, outs) ∧
      (toList t, outs) = Spec.run key [] ops ∧ SortedKeys key (toList t) ∧ Avl t ∧
      fib ((ht t + 3).toNat) ≤ (toList t).length + 1 := by
  obtain ⟨t, outs, h1, h2, h3, h4⟩ := run_ok hcmp ops nil trivial List.Pairwise.nil
    (by intro x hx; simp [toList] at hx) hk hf
  exact ⟨t, outs, h1, h4, h3, h2, avl_size_bound h2⟩

/-! ### The hard-coded comparison of the `_ptr` variants -/

/-- Signed wrap-around to `w` bits. -/
def wrapS (w : Nat) (x : Int) : Int := (x + 2 ^ (w - 1)) % 2 ^ w - 2 ^ (w - 1)

/-- kernel/bintree/avl_bintree.c:199-212: difference of two `long` fields. -/
def ptrCmp (w : Nat) (a b : Int) : Int := wrapS w (a - b)

/-- **C09.** The subtraction orders correctly every set of keys of diameter below `2^(w-1)`, e.g. all
kernel addresses or all non-negative offsets. -/
theorem ptrCmp_ok (w : Nat) (hw : 1 ≤ w) (lo : Int) :
    CmpOK (ptrCmp w) (fun k => lo ≤ k ∧ k < lo + 2 ^ (w - 1)) := by
  intro a b ha hb
  have hp : (2 : Int) ^ w = 2 * 2 ^ (w - 1) := by
    obtain ⟨k, rfl⟩ : ∃ k, w = k + 1 := ⟨w - 1, by omega⟩
    simp [Int.pow_succ]; omega
  have : ptrCmp w a b = a - b := by
    unfold ptrCmp wrapS
    rw [Int.emod_eq_of_lt (by omega) (by omega)]; omega
  rw [this]
  constructor <;> constructor <;> intro h <;> omega

/-- **C09 violated** for arbitrary `long` keys: the wrapped difference says `2^31-1 < -2`. -/
theorem ptrCmp_wrong_order_violated : ∃ a b : Int, -2 ^ 31 ≤ b ∧ b < a ∧ a < 2 ^ 31 ∧ ptrCmp 32 a b < 0 :=
  ⟨2 ^ 31 - 1, -2, by decide, by decide, by decide, by decide⟩

/-! ### Stack overflow for larger trees -/

/-- The leanest AVL tree of height `n` (all objects equal to `o`; only the shape matters). -/
def fibTree (o : α) : Nat → Tree α
  | 0 => node 0 nil o nil
  | 1 => node 1 nil o (node 0 nil o nil)
  | n + 2 => node (n + 2) (fibTree o n) o (fibTree o (n + 1))

theorem fibTree_ok (o : α) (n : Nat) :
    (Avl (fibTree o n) ∧ ht (fibTree o n) = n ∧ (toList (fibTree o n)).length + 1 = fib (n + 3)) ∧
    (Avl (fibTree o (n+1)) ∧ ht (fibTree o (n+1)) = n + 1 ∧
      (toList (fibTree o (n+1))).length + 1 = fib (n + 4)) := by
  induction n with
  | zero =>
    simp [fibTree, Avl, ht_nil, ht_node, toList, fib]
    decide
  | succ n ih =>
    obtain ⟨⟨h1, h2, h3⟩, h4, h5, h6⟩ := ih
    refine ⟨⟨h4, by simpa using h5, h6⟩, ?_, ?_, ?_⟩
    · simp only [fibTree, Avl]
      refine ⟨by omega, by omega, by omega, h1, h4⟩
    · simp [fibTree, ht_nil, ht_node]; omega
    · simp only [fibTree, toList, List.length_append, List.length_cons]
      rw [show n + 1 + 4 = (n + 3) + 2 by omega, fib]
      rw [show n + 3 + 1 = n + 4 by omega]
      omega

/-- Descending always to the right from a slot of index `d` in a Fibonacci tree of height `n` needs
the indices `d .. d+n+1`. -/
theorem fibTree_overflow {K : Type} (cmp : K → K → Int) (key : α → K) (o p : α)
    (hlt : cmp (key o) (key p) < 0) (n : Nat) : ∀ d, maxStack ≤ d + n + 1 →
    insertRec cmp key p d (fibTree o n) = none := by
  have hne : cmp (key o) (key p) ≠ 0 := by omega
  have down : ∀ (d : Nat) (h : Int) (l r : Tree α), insertRec cmp key p (d + 1) r = none →
      insertRec cmp key p d (node h l o r) = none := by
    intro d h l r hr
    simp only [insertRec]
    split
    · simp [hne, hlt, hr]
    · rfl
  have leaf : ∀ d, maxStack ≤ d → insertRec cmp key p d nil = none := by
    intro d hd; rw [insertRec, if_neg (by omega)]
  have key1 : ∀ n, (∀ d, maxStack ≤ d + n + 1 → insertRec cmp key p d (fibTree o n) = none) ∧
      (∀ d, maxStack ≤ d + (n + 1) + 1 → insertRec cmp key p d (fibTree o (n + 1)) = none) := by
    intro n
    induction n with
    | zero =>
      refine ⟨fun d hd => down d _ _ _ (leaf _ (by omega)), fun d hd => ?_⟩
      exact down d _ _ _ (down _ _ _ _ (leaf _ (by omega)))
    | succ n ih => exact ⟨ih.2, fun d hd => down d _ _ _ (ih.2 (d + 1) (by omega))⟩
  exact (key1 n).1

/-- **C10 violated.** The header promises (include/tilck/kernel/bintree.h:16-19) that every AVL tree of up to
14.9 million objects fits `MAX_TREE_HEIGHT`; but the path of an insertion also stores the empty slot
below the deepest object, so an AVL tree with only 5702886 objects makes `bintree_insert` write past the
end of its stack. -/
theorem avl_stack_overflow_violated :
    ∃ t : Tree Int, Avl t ∧ (toList t).length = 5702886 ∧
      insert (fun a b => a - b) (fun x : Int => x) t 1 = none := by
  refine ⟨fibTree 0 31, ((fibTree_ok 0 31).1).1, ?_, ?_⟩
  · have := ((fibTree_ok (0 : Int) 31).1).2.2
    rw [show 31 + 3 = 34 from rfl, fib34] at this; omega
  · rw [insert, fibTree_overflow _ _ 0 1 (by decide) 31 0 (by decide)]; rfl

/-! ### In-order iterator -/

/-- Return labels of the shadow stack: include/tilck/common/norec.h:98-115 and
kernel/bintree/avl_bintree.c:311,323,325,328. -/
inductive Lbl | afterRoot | afterLeft | afterYield | afterRight
  deriving DecidableEq

/-- kernel/bintree/avl_bintree.c:290-334: `frames` is `ctx->stack[0 .. stack_size)`, innermost first,
and `pend` is `ctx->stack[stack_size].ret_addr`. -/
structure Iter (α : Type) where
  frames : List (Lbl × Tree α)
  pend : Option Lbl

/-- Result of one iteration of the loop: continue, or return an object. `none` is a fault: writing
`stack[32]` (norec.h:108-112 stores at index `stack_size` after the increment), or a jump to a label
that is not in the loop. -/
inductive IterRes (α : Type) where
  | cont (s : Iter α)
  | yield (o : α) (s : Iter α)
  | done
  | fault

/-- include/tilck/common/norec.h:105-115 `SIMULATE_CALL1`. -/
def call (s : Iter α) (lbl : Lbl) (t : Tree α) : IterRes α :=
  if s.frames.length + 1 < maxStack then .cont ⟨(lbl, t) :: s.frames, none⟩ else .fault

/-- include/tilck/common/norec.h:83-88 `SIMULATE_RETURN_NULL`. -/
def ret (s : Iter α) : IterRes α :=
  match s.frames with
  | [] => .fault
  | (lbl, _) :: fs => .cont ⟨fs, some lbl⟩

/-- kernel/bintree/avl_bintree.c:314-332, one iteration. -/
def iterStep (rev : Bool) (s : Iter α) : IterRes α :=
  match s.frames with
  | [] => .done
  | (_, nil) :: _ => .fault
  | (_, node _ l o r) :: _ =>
    let left := if rev then r else l
    let right := if rev then l else r
    let afterYield : IterRes α :=
      match right with
      | nil => ret s
      | node h a b c => call s .afterRight (node h a b c)
    match s.pend with
    | none =>
      match left with
      | nil => .yield o { s with pend := some .afterYield }
      | node h a b c => call s .afterLeft (node h a b c)
    | some .afterLeft => .yield o { s with pend := some .afterYield }
    | some .afterYield => afterYield
    | some .afterRight => ret s
    | some .afterRoot => .fault

/-- kernel/bintree/avl_bintree.c:274-288 and :301-312: start and first call. -/
def iterStart : Tree α → Iter α
  | nil => ⟨[], none⟩
  | node h l o r => ⟨[(.afterRoot, node h l o r)], none⟩

/-- All objects returned by successive `next` calls within `n` loop iterations; `true` when NULL has
been returned. -/
def collect (rev : Bool) : Nat → Iter α → Option (List α × Bool)
  | 0, _ => some ([], false)
  | n + 1, s =>
    match iterStep rev s with
    | .done => some ([], true)
    | .fault => none
    | .cont s' => collect rev n s'
    | .yield o s' => (collect rev n s').map fun r => (o :: r.1, r.2)

/-- Real height of a tree (number of levels). -/
def levels : Tree α → Nat
  | nil => 0
  | node _ l _ r => max (levels l) (levels r) + 1

/-- The sequence an in-order visit must produce. -/
def order (rev : Bool) (t : Tree α) : List α := if rev then (toList t).reverse else toList t

theorem collect_node (rev : Bool) (t : Tree α) : ∀ (lbl : Lbl) (fs : List (Lbl × Tree α)),
    t ≠ nil → fs.length + levels t < maxStack →
    ∃ n, ∀ m, collect rev (n + m) ⟨(lbl, t) :: fs, none⟩ =
      (collect rev m ⟨fs, some lbl⟩).map fun r => (order rev t ++ r.1, r.2) := by
  induction t with
  | nil => intro _ _ h; exact absurd rfl h
  | node h l o r ihl ihr =>
    intro lbl fs _ hlen
    simp only [levels] at hlen
    -- the child visited first / second
    have hA : ∀ (a : Tree α), (∀ (lbl : Lbl) (fs : List (Lbl × Tree α)), a ≠ nil →
          fs.length + levels a < maxStack → ∃ n, ∀ m, collect rev (n + m) ⟨(lbl, a) :: fs, none⟩ =
            (collect rev m ⟨fs, some lbl⟩).map fun r => (order rev a ++ r.1, r.2)) →
        (if rev then r else l) = a → levels a + 1 + fs.length < maxStack →
        ∃ n, ∀ m, collect rev (n + m) ⟨(lbl, node h l o r) :: fs, none⟩ =
          (collect rev m ⟨(lbl, node h l o r) :: fs, some .afterYield⟩).map
            fun r => (order rev a ++ o :: r.1, r.2) := by
      intro a iha hsel hla
      cases a with
      | nil =>
        refine ⟨1, fun m => ?_⟩
        rw [Nat.add_comm, collect]
        simp only [iterStep, hsel]
        simp [order, toList]
      | node ha al ao ar =>
        obtain ⟨n, hn⟩ := iha .afterLeft ((lbl, node h l o r) :: fs) (by simp) (by simp; omega)
        refine ⟨1 + n + 1, fun m => ?_⟩
        rw [show 1 + n + 1 + m = (n + (1 + m)) + 1 by omega, collect]
        simp only [iterStep, hsel, call, List.length_cons]
        rw [if_pos (by simp only [levels] at hla; omega)]
        simp only
        rw [hn (1 + m), show 1 + m = m + 1 by omega, collect]
        simp only [iterStep]
        rw [Option.map_map]; congr
    have hB : ∀ (b : Tree α), (∀ (lbl : Lbl) (fs : List (Lbl × Tree α)), b ≠ nil →
          fs.length + levels b < maxStack → ∃ n, ∀ m, collect rev (n + m) ⟨(lbl, b) :: fs, none⟩ =
            (collect rev m ⟨fs, some lbl⟩).map fun r => (order rev b ++ r.1, r.2)) →
        (if rev then l else r) = b → levels b + 1 + fs.length < maxStack →
        ∃ n, ∀ m, collect rev (n + m) ⟨(lbl, node h l o r) :: fs, some .afterYield⟩ =
          (collect rev m ⟨fs, some lbl⟩).map fun r => (order rev b ++ r.1, r.2) := by
      intro b ihb hsel hlb
      cases b with
      | nil =>
        refine ⟨1, fun m => ?_⟩
        rw [Nat.add_comm, collect]
        simp only [iterStep, hsel, ret]
        simp [order, toList]
      | node hb bl bo br =>
        obtain ⟨n, hn⟩ := ihb .afterRight ((lbl, node h l o r) :: fs) (by simp) (by simp; omega)
        refine ⟨1 + n + 1, fun m => ?_⟩
        rw [show 1 + n + 1 + m = (n + (1 + m)) + 1 by omega, collect]
        simp only [iterStep, hsel, call, List.length_cons]
        rw [if_pos (by simp only [levels] at hlb; omega)]
        simp only
        rw [hn (1 + m), show 1 + m = m + 1 by omega, collect]
        simp only [iterStep, ret]
    have hsum : ∃ n, ∀ m, collect rev (n + m) ⟨(lbl, node h l o r) :: fs, none⟩ =
        (collect rev m ⟨fs, some lbl⟩).map fun x =>
          ((order rev (if rev then r else l) ++ o :: order rev (if rev then l else r)) ++ x.1, x.2) := by
      cases rev with
      | false =>
        obtain ⟨n1, h1⟩ := hA l ihl rfl (by omega)
        obtain ⟨n2, h2⟩ := hB r ihr rfl (by omega)
        refine ⟨n1 + n2, fun m => ?_⟩
        rw [Nat.add_assoc, h1, h2, Option.map_map]
        congr 1; funext x; simp
      | true =>
        obtain ⟨n1, h1⟩ := hA r ihr rfl (by omega)
        obtain ⟨n2, h2⟩ := hB l ihl rfl (by omega)
        refine ⟨n1 + n2, fun m => ?_⟩
        rw [Nat.add_assoc, h1, h2, Option.map_map]
        congr 1; funext x; simp
    obtain ⟨n, hn⟩ := hsum
    refine ⟨n, fun m => ?_⟩
    rw [hn]
    congr 1; funext x
    cases rev <;> simp [order, toList]

/-- **C09.** The iterator returns every object exactly once in key order (reverse order on request)
and then NULL, without faulting, for every tree of at most 31 levels. -/
theorem iterator_in_order (rev : Bool) (t : Tree α) (h : levels t < maxStack) :
    ∃ n, collect rev n (iterStart t) = some (order rev t, true) := by
  cases t with
  | nil => exact ⟨1, by simp [collect, iterStart, iterStep, order, toList]⟩
  | node h' l o r =>
    obtain ⟨n, hn⟩ := collect_node rev (node h' l o r) .afterRoot [] (by simp) (by simpa using h)
    refine ⟨n + 1, ?_⟩
    rw [iterStart, hn 1]
    simp [collect, iterStep]

theorem levels_eq {t : Tree α} (h : Avl t) : (levels t : Int) = ht t + 1 := by
  induction t with
  | nil => simp [levels, ht_nil, ht_node]
  | node h' l o r ihl ihr =>
    obtain ⟨a1, a2, a3, a4, a5⟩ := h
    have := ihl a4; have := ihr a5
    simp only [levels, ht_nil, ht_node]; omega

/-- **C09.** The same for every AVL tree below 5702886 objects. -/
theorem iterator_in_order_avl (rev : Bool) (t : Tree α) (h : Avl t)
    (hn : (toList t).length < 5702886) :
    ∃ n, collect rev n (iterStart t) = some (order rev t, true) := by
  apply iterator_in_order
  have := levels_eq h
  have := avl_height_bound h hn
  simp [maxStack]; omega

/-! ### Non-vacuity -/

example : CmpOK (fun a b : Int => a - b) (fun _ => True) := by
  intro a b _ _; simp only; constructor <;> constructor <;> intro h <;> omega

example : ((run (fun a b : Int => a - b) (fun x : Int => x) nil
    [.insert 5, .insert 3, .insert 8, .insert 1, .insert 2, .remove 5, .insert 3]).map
      fun r => toList r.1) = some [1, 2, 3, 8] := by decide

end Verif.Avl
