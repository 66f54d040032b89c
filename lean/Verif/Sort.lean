/-!
# Sorting (kernel/sort.c)

Property C05 (sorted, permutation, stable) and array reversal.

Arrays are lists; an access outside the array makes the run return `none`.
`insertion_sort_generic` (sort.c:32-52) is the same algorithm with `memcpy` of `elem_size` bytes
instead of word assignments, so one model serves both.
-/
namespace Verif.Sort

/-- kernel/sort.c:20-24: inner loop; `elem` is the saved element, `j` its tentative destination. -/
def inner {α} (cmp : α → α → Int) (elem : α) (a : List α) : Nat → Option (List α)
  | 0 => if 0 < a.length then some (a.set 0 elem) else none
  | j + 1 =>
    match a[j]? with
    | none => none
    | some x =>
      if cmp x elem > 0 then
        if j + 1 < a.length then inner cmp elem (a.set (j + 1) x) j else none
      else
        if j + 1 < a.length then some (a.set (j + 1) elem) else none

/-- kernel/sort.c:15-25: outer loop from `i` with `fuel = elem_count - i` iterations left. -/
def outer {α} (cmp : α → α → Int) (a : List α) (i : Nat) : Nat → Option (List α)
  | 0 => some a
  | fuel + 1 =>
    match a[i]? with
    | none => none
    | some elem =>
      match inner cmp elem a i with
      | none => none
      | some a' => outer cmp a' (i + 1) fuel

/-- kernel/sort.c:11-26 `insertion_sort_ptr`, kernel/sort.c:32-52 `insertion_sort_generic`, called
with `elem_count` = length of the array.  (`fuel` is the exact iteration count of the `for`.) -/
def insertionSort {α} (cmp : α → α → Int) (a : List α) : Option (List α) :=
  outer cmp a 1 (a.length - 1)

/-- kernel/sort.c:62-66: the loop of `array_reverse_ptr` from `i`, `fuel` iterations left. -/
def revLoop {α} (a : List α) (i : Nat) : Nat → Option (List α)
  | 0 => some a
  | fuel + 1 =>
    match a[i]?, a[a.length - i - 1]? with
    | some x, some y => revLoop ((a.set i y).set (a.length - i - 1) x) (i + 1) fuel
    | _, _ => none

/-- kernel/sort.c:56-67 `array_reverse_ptr`. -/
def arrayReverse {α} (a : List α) : Option (List α) := revLoop a 0 (a.length / 2)

/-! ## Specification -/

/-- A comparison function in the style of `qsort`: a total preorder on keys. -/
structure IsCmp {α} (cmp : α → α → Int) : Prop where
  flip : ∀ a b, cmp a b > 0 ↔ cmp b a < 0
  trans : ∀ a b c, cmp a b ≤ 0 → cmp b c ≤ 0 → cmp a c ≤ 0

/-! ## Lemmas -/

/-- Insert at the right place, scanning from the right. Input is the *reversed* prefix. -/
def insRev {α} (cmp : α → α → Int) (e : α) : List α → List α
  | [] => [e]
  | p :: ps => if cmp p e > 0 then p :: insRev cmp e ps else e :: p :: ps

theorem inner_eq {α} (cmp : α → α → Int) (e : α) (R : List α) :
    ∀ (y : α) (S : List α), inner cmp e (R.reverse ++ y :: S) R.length =
      some ((insRev cmp e R).reverse ++ S) := by
  induction R with
  | nil => intro y S; simp [inner, insRev]
  | cons p ps ih =>
    intro y S
    have hg : ((p :: ps).reverse ++ y :: S)[ps.length]? = some p := by
      simp
    have hset : ∀ z, ((p :: ps).reverse ++ y :: S).set (ps.length + 1) z = ps.reverse ++ p :: (z :: S) := by
      intro z; simp [List.set_append]
    have hlen : ps.length + 1 < ((p :: ps).reverse ++ y :: S).length := by simp
    rw [List.length_cons, inner, hg]
    simp only [hlen, if_true, hset]
    by_cases hc : cmp p e > 0
    · rw [if_pos hc, ih]; simp [insRev, hc]
    · rw [if_neg hc]; simp [insRev, hc]

theorem outer_eq {α} (cmp : α → α → Int) (S : List α) :
    ∀ (R : List α), outer cmp (R.reverse ++ S) R.length S.length =
      some (S.foldl (fun R e => insRev cmp e R) R).reverse := by
  induction S with
  | nil => intro R; simp [outer]
  | cons e S ih =>
    intro R
    have hl : (insRev cmp e R).length = R.length + 1 := by
      induction R with
      | nil => rfl
      | cons p ps ih => simp only [insRev]; split <;> simp_all
    simp only [List.length_cons, outer]
    rw [List.getElem?_append_right (by simp)]
    simp only [List.length_reverse, Nat.sub_self, List.getElem?_cons_zero, inner_eq]
    rw [← hl, ih]; rfl

theorem insertionSort_eq {α} (cmp : α → α → Int) (a : List α) :
    insertionSort cmp a = some (a.foldl (fun R e => insRev cmp e R) []).reverse := by
  cases a with
  | nil => simp [insertionSort, outer]
  | cons x xs =>
    have := outer_eq cmp xs [x]
    simpa [insertionSort, insRev] using this

theorem insRev_perm {α} (cmp : α → α → Int) (e : α) (R : List α) :
    (insRev cmp e R).Perm (e :: R) := by
  induction R with
  | nil => simp [insRev]
  | cons p ps ih =>
    simp only [insRev]; split
    · exact (List.Perm.cons p ih).trans (List.Perm.swap e p ps)
    · exact List.Perm.refl _

theorem foldl_perm {α} (cmp : α → α → Int) (a : List α) : ∀ R,
    (a.foldl (fun R e => insRev cmp e R) R).Perm (a ++ R) := by
  induction a with
  | nil => intro R; simp
  | cons x xs ih =>
    intro R
    refine (ih _).trans ?_
    refine (List.Perm.append_left xs (insRev_perm cmp x R)).trans ?_
    exact List.perm_middle

theorem insRev_sorted {α} {cmp : α → α → Int} (h : IsCmp cmp) (e : α) (R : List α)
    (hR : R.Pairwise (fun a b => cmp b a ≤ 0)) :
    (insRev cmp e R).Pairwise (fun a b => cmp b a ≤ 0) := by
  induction R with
  | nil => simp [insRev]
  | cons p ps ih =>
    rw [List.pairwise_cons] at hR
    simp only [insRev]; split
    · rename_i hc
      rw [List.pairwise_cons]
      refine ⟨?_, ih hR.2⟩
      intro b hb
      have := (insRev_perm cmp e ps).mem_iff.mp hb
      rcases List.mem_cons.mp this with rfl | hb'
      · have := (h.flip p b).mp hc; omega
      · exact hR.1 b hb'
    · rename_i hc
      rw [List.pairwise_cons]
      refine ⟨?_, List.pairwise_cons.mpr hR⟩
      intro b hb
      rcases List.mem_cons.mp hb with rfl | hb'
      · omega
      · exact h.trans _ _ _ (hR.1 b hb') (by omega)

theorem foldl_sorted {α} {cmp : α → α → Int} (h : IsCmp cmp) (a : List α) : ∀ R,
    R.Pairwise (fun a b => cmp b a ≤ 0) →
    (a.foldl (fun R e => insRev cmp e R) R).Pairwise (fun a b => cmp b a ≤ 0) := by
  induction a with
  | nil => intro R hR; exact hR
  | cons x xs ih => intro R hR; exact ih _ (insRev_sorted h x R hR)

theorem equiv_gt {α} {cmp : α → α → Int} (h : IsCmp cmp) {x p e : α} (h1 : cmp x p = 0)
    (h2 : cmp x e = 0) : ¬ cmp p e > 0 := by
  have h1' : ¬ cmp p x > 0 := by rw [h.flip]; omega
  have := h.trans p x e (by omega) (by omega)
  omega

theorem insRev_filter {α} {cmp : α → α → Int} (h : IsCmp cmp) (x e : α) (R : List α) :
    (insRev cmp e R).filter (fun y => cmp x y == 0) =
      (e :: R).filter (fun y => cmp x y == 0) := by
  induction R with
  | nil => simp [insRev]
  | cons p ps ih =>
    simp only [insRev]; split
    · rename_i hc
      by_cases hp : cmp x p = 0
      · have he : cmp x e ≠ 0 := fun he => equiv_gt h hp he hc
        rw [List.filter_cons_of_pos (by simpa using hp), ih, List.filter_cons_of_neg (by simpa using he),
          List.filter_cons_of_neg (by simpa using he), List.filter_cons_of_pos (by simpa using hp)]
      · rw [List.filter_cons_of_neg (by simpa using hp), ih]
        by_cases he : cmp x e = 0
        · rw [List.filter_cons_of_pos (by simpa using he), List.filter_cons_of_pos (by simpa using he),
            List.filter_cons_of_neg (by simpa using hp)]
        · rw [List.filter_cons_of_neg (by simpa using he), List.filter_cons_of_neg (by simpa using he),
            List.filter_cons_of_neg (by simpa using hp)]
    · rfl

theorem foldl_filter {α} {cmp : α → α → Int} (h : IsCmp cmp) (x : α) (a : List α) : ∀ R,
    (a.foldl (fun R e => insRev cmp e R) R).filter (fun y => cmp x y == 0) =
      (a.reverse ++ R).filter (fun y => cmp x y == 0) := by
  induction a with
  | nil => intro R; simp
  | cons e es ih =>
    intro R
    rw [List.foldl_cons, ih, List.filter_append, insRev_filter h, ← List.filter_append]
    simp

/-! ## Property theorems -/

/-- **C05.**  For every array and every total-preorder comparison, the sort terminates inside the
array bounds and its result is a permutation of the input, ordered by the comparison, in which
elements comparing equal keep their original relative order. -/
theorem insertion_sort_correct {α} (cmp : α → α → Int) (h : IsCmp cmp) (a : List α) :
    ∃ r, insertionSort cmp a = some r ∧ r.Perm a ∧ r.Pairwise (fun x y => cmp x y ≤ 0) ∧
      ∀ x, r.filter (fun y => cmp x y == 0) = a.filter (fun y => cmp x y == 0) := by
  refine ⟨_, insertionSort_eq cmp a, ?_, ?_, ?_⟩
  · exact (List.reverse_perm _).trans (by simpa using foldl_perm cmp a [])
  · rw [List.pairwise_reverse]
    exact foldl_sorted h a [] List.Pairwise.nil
  · intro x
    rw [List.filter_reverse, foldl_filter h]
    simp

/-- **C05**, memory safety and permutation need no assumption on the comparison function. -/
theorem insertion_sort_perm {α} (cmp : α → α → Int) (a : List α) :
    ∃ r, insertionSort cmp a = some r ∧ r.Perm a :=
  ⟨_, insertionSort_eq cmp a,
    (List.reverse_perm _).trans (by simpa using foldl_perm cmp a [])⟩

/-- The reversal loop after `n` swaps of the middle part. -/
theorem revLoop_eq {α} (n : Nat) : ∀ (P M S : List α), P.length = S.length → M.length / 2 = n →
    revLoop (P ++ M ++ S) P.length n = some (P ++ M.reverse ++ S) := by
  induction n with
  | zero =>
    intro P M S _ hM
    have : M.reverse = M := by
      match M, hM with
      | [], _ => rfl
      | [x], _ => rfl
      | _ :: _ :: t, h => simp at h; omega
    simp [revLoop, this]
  | succ n ih =>
    intro P M S hPS hM
    match M with
    | [] => simp at hM
    | x :: M' =>
      have hne : M' ≠ [] := by rintro rfl; simp at hM
      obtain ⟨M'', y, rfl⟩ : ∃ M'' y, M' = M'' ++ [y] :=
        ⟨M'.dropLast, M'.getLast hne, (List.dropLast_concat_getLast hne).symm⟩
      have hi : (P ++ (x :: (M'' ++ [y])) ++ S)[P.length]? = some x := by simp
      have hidx : (P ++ (x :: (M'' ++ [y])) ++ S).length - P.length - 1 = P.length + (M''.length + 1) := by
        simp; omega
      have hj : (P ++ (x :: (M'' ++ [y])) ++ S)[P.length + (M''.length + 1)]? = some y := by
        simp [List.getElem?_append]
      simp only [revLoop, hidx, hi, hj]
      have hs : ((P ++ (x :: (M'' ++ [y])) ++ S).set P.length y).set (P.length + (M''.length + 1)) x =
          (P ++ [y]) ++ M'' ++ (x :: S) := by
        simp [List.set_append]
      rw [hs]
      have := ih (P ++ [y]) M'' (x :: S) (by simp [hPS]) (by simp at hM; omega)
      simp only [List.length_append, List.length_singleton] at this
      rw [this]; simp

/-- `array_reverse_ptr` reverses any array in place, inside its bounds. -/
theorem array_reverse_correct {α} (a : List α) : arrayReverse a = some a.reverse := by
  have := revLoop_eq (a.length / 2) [] a [] rfl rfl
  simpa [arrayReverse] using this

/-- Non-vacuity: the comparison used for memory regions / worker priorities (difference of keys,
here key = first component) is an `IsCmp`, and sorting moves elements while staying stable. -/
example : IsCmp (fun a b : Int × Nat => a.1 - b.1) :=
  ⟨by intros; omega, by intros; omega⟩

example : insertionSort (fun a b : Int × Nat => a.1 - b.1) [(3, 0), (1, 1), (3, 2), (1, 3), (2, 4)] =
    some [(1, 1), (1, 3), (2, 4), (3, 0), (3, 2)] := by decide

example : arrayReverse [1, 2, 3, 4, 5] = some [5, 4, 3, 2, 1] := by decide

end Verif.Sort
