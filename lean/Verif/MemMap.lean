import Verif.Sort
import Mathlib.Data.List.Perm.Basic

/-!
# The physical memory map (kernel/mm/system_mmap.c)

Properties C38 (normalisation of the physical memory regions) and C67 (what the kernel takes for
available memory).

The global array `mem_regions` with `mem_regions_count` is a list; entries behind the count are not
modelled.  Addresses and lengths are `u64`: sums and differences are taken modulo `2^64`, as the
code does.  `panic` is the outcome `none` / `.panic`.
-/
namespace Verif.MemMap

/-! ## Model -/

/-- `2^64`. -/
def W : Nat := 18446744073709551616

/-- `u64` addition. -/
def add64 (a b : Nat) : Nat := (a + b) % W
/-- `u64` subtraction. -/
def sub64 (a b : Nat) : Nat := (a + (W - b)) % W

/-- include/tilck/kernel/system_mmap.h:15-21 `struct mem_region`. -/
structure Region where
  addr : Nat
  len : Nat
  type : Nat
  extra : Nat
deriving DecidableEq, Repr

/-- include/tilck/kernel/system_mmap.h:7 `MAX_MEM_REGIONS`. -/
def MAX : Nat := 512

/-- `r->addr + r->len`, a `u64`. -/
def endOf (r : Region) : Nat := add64 r.addr r.len

/-- kernel/mm/system_mmap.c:42-48 `append_mem_region`; `none` is the panic. -/
def append (rs : List Region) (r : Region) : Option (List Region) :=
  if MAX ≤ rs.length then none else some (rs ++ [r])

/-- kernel/mm/system_mmap.c:50-62 `less_than_cmp_mem_region`. -/
def cmpRegion (a b : Region) : Int :=
  if a.addr < b.addr then -1 else if a.addr = b.addr then 0 else 1

/-- kernel/mm/system_mmap.c:64-70 `sort_mem_regions`. -/
def sortRegions (rs : List Region) : Option (List Region) := Sort.insertionSort cmpRegion rs

/-- kernel/mm/system_mmap.c:145-150 `remove_mem_region_by_swap_with_last` (with
`swap_mem_regions`, lines 134-143; the `ASSERT`s hold at every call). -/
def swapRemove (rs : List Region) (i : Nat) : List Region :=
  match rs[i]?, rs[rs.length - 1]? with
  | some a, some b => ((rs.set i b).set (rs.length - 1) a).dropLast
  | _, _ => rs

/-- include/tilck/common/utils.h:25-29 `pow2_round_up_at64(n, PAGE_SIZE)`; masking with
`-PAGE_SIZE` is rounding down to a multiple of 4096. -/
def roundUp64 (n : Nat) : Nat := add64 n 4095 / 4096 * 4096

/-- kernel/mm/system_mmap.c:156-166: body of the loop of `align_mem_regions_to_page_boundary`. -/
def align (r : Region) : Region :=
  { r with addr := r.addr / 4096 * 4096
           len := sub64 (roundUp64 (endOf r)) (r.addr / 4096 * 4096) }

/-- kernel/mm/system_mmap.c:172-188: the loop of `merge_adj_mem_regions` from index `i`
(`remove_mem_region`, lines 125-132, shifts the tail down by one).  Every iteration decreases
`mem_regions_count - i`, so `fuel = mem_regions_count` is enough. -/
def mergeFrom : Nat → List Region → Nat → List Region
  | 0, rs, _ => rs
  | fuel + 1, rs, i =>
    match rs[i]?, rs[i + 1]? with
    | some a, some b =>
      if b.type ≠ a.type ∨ b.extra ≠ a.extra then mergeFrom fuel rs (i + 1)
      else if b.addr ≠ endOf a then mergeFrom fuel rs (i + 1)
      else mergeFrom fuel ((rs.set i { a with len := add64 a.len b.len }).eraseIdx (i + 1)) i
    | _, _ => rs

/-- kernel/mm/system_mmap.c:170-189 `merge_adj_mem_regions`. -/
def merge (rs : List Region) : List Region := mergeFrom rs.length rs 0

/-- What `handle_region_overlap` does: panic, `false` (nothing changed) or `true`. -/
inductive Res where
  | panic
  | no
  | yes (rs : List Region)
deriving DecidableEq, Repr

/-- kernel/mm/system_mmap.c:199-394: `handle_region_overlap(i, j)` from line 217 on, that is when
region `i` does not start after region `j`. -/
def overlapOrd (rs : List Region) (i j : Nat) : Res :=
  match rs[i]?, rs[j]? with
  | some r1, some r2 =>
    if endOf r1 ≤ r2.addr then .no
    else if r1.addr ≤ r2.addr ∧ endOf r2 ≤ endOf r1 then
      if r2.type ≤ r1.type then .yes (swapRemove rs j)
      else if r1.addr = r2.addr ∧ endOf r1 = endOf r2 then .yes (swapRemove rs i)
      else if r1.addr = r2.addr then
        .yes (rs.set i { r1 with addr := endOf r2, len := sub64 (endOf r1) (endOf r2) })
      else if endOf r1 = endOf r2 then
        .yes (rs.set i { r1 with len := sub64 r2.addr r1.addr })
      else
        match append (rs.set i { r1 with len := sub64 r2.addr r1.addr })
            { addr := endOf r2, len := sub64 (endOf r1) (endOf r2),
              type := r1.type, extra := r1.extra } with
        | none => .panic
        | some rs' => .yes rs'
    else if r2.type ≤ r1.type then
      .yes (rs.set j { r2 with addr := endOf r1, len := sub64 (endOf r2) (endOf r1) })
    else if r1.addr = r2.addr then .yes (swapRemove rs i)
    else .yes (rs.set i { r1 with len := sub64 r2.addr r1.addr })
  | _, _ => .panic

/-- kernel/mm/system_mmap.c:191-395 `handle_region_overlap`: case 0 (lines 202-215) calls the
function again with the indices swapped. -/
def overlap (rs : List Region) (i j : Nat) : Res :=
  if i = j then .no
  else
    match rs[i]?, rs[j]? with
    | some r1, some r2 => if r2.addr < r1.addr then overlapOrd rs j i else overlapOrd rs i j
    | _, _ => .panic

/-- kernel/mm/system_mmap.c:405-407: the `for` loop of `handle_overlapping_regions` from index `i`.
The count is re-read at every iteration and never exceeds `MAX`, so `MAX` iterations are enough. -/
def passFrom : Nat → List Region → Nat → Bool → Option (List Region × Bool)
  | 0, rs, _, any => some (rs, any)
  | fuel + 1, rs, i, any =>
    if i + 1 < rs.length then
      match overlap rs i (i + 1) with
      | .panic => none
      | .no => passFrom fuel rs (i + 1) any
      | .yes rs' => passFrom fuel rs' (i + 1) true
    else some (rs, any)

/-- Outcome of a loop that is given `fuel` rounds. -/
inductive Out where
  | panic
  | running
  | done (rs : List Region)
deriving DecidableEq, Repr

/-- kernel/mm/system_mmap.c:397-412 `handle_overlapping_regions`; `.running` means that `fuel`
rounds of the `do … while` did not finish it. -/
def handleAll : Nat → List Region → Out
  | 0, _ => .running
  | fuel + 1, rs =>
    match passFrom MAX rs 0 false with
    | none => .panic
    | some (rs', any) =>
      match sortRegions rs' with
      | none => .panic
      | some rs'' => if any then handleAll fuel rs'' else .done rs''

/-- kernel/mm/system_mmap.c:414-420 `fix_mem_regions`. -/
def fixMem (fuel : Nat) (rs : List Region) : Out :=
  match sortRegions (rs.map align) with
  | none => .panic
  | some rs' => handleAll fuel (merge rs')

/-! ## Specification -/

/-- Address `p` belongs to region `r`. -/
def In (p : Nat) (r : Region) : Prop := r.addr ≤ p ∧ p < r.addr + r.len

instance (p : Nat) (r : Region) : Decidable (In p r) := by unfold In; infer_instance

/-- Region `r` contains some address of the page of `p`. -/
def Touches (r : Region) (p : Nat) : Prop := ∃ q, In q r ∧ q / 4096 = p / 4096

/-- Sorted, pairwise disjoint, non-empty page-aligned regions. -/
structure Clean (out : List Region) : Prop where
  sorted : out.Pairwise (fun a b => a.addr + a.len ≤ b.addr)
  pages : ∀ r ∈ out, 0 < r.len ∧ r.addr % 4096 = 0 ∧ r.len % 4096 = 0

/-- `out` covers the pages touched by the `input` regions, no others, and gives each address the
largest (strictest) type, with the flags of an input region of that type. -/
structure Strictest (input out : List Region) : Prop where
  covered : ∀ p, ∀ i ∈ input, Touches i p → ∃ r ∈ out, In p r
  typed : ∀ p, ∀ r ∈ out, In p r →
    (∃ i ∈ input, Touches i p ∧ i.type = r.type ∧ i.extra = r.extra) ∧
    ∀ i ∈ input, Touches i p → i.type ≤ r.type

/-- A region a firmware may report: not empty, and rounding its end up to a page does not leave
the 64-bit address space. -/
def Sane (r : Region) : Prop := 0 < r.len ∧ r.addr + r.len + 4095 < W

instance (r : Region) : Decidable (Sane r) := by unfold Sane; infer_instance

/-! ## Lemmas: lists -/

theorem two : ∀ (rs : List Region) (i j : Nat), i ≠ j → i < rs.length → j < rs.length →
    ∃ rest, ∀ x y, ((rs.set i x).set j y).Perm (x :: y :: rest)
  | [], i, j, _, hi, _ => by simp at hi
  | a :: l, 0, 0, h, _, _ => absurd rfl h
  | a :: l, 0, j + 1, _, _, hj => by
    refine ⟨l.eraseIdx j, fun x y => ?_⟩
    have : j < l.length := by simpa using hj
    simpa using (List.set_perm_cons_eraseIdx this y)
  | a :: l, i + 1, 0, _, hi, _ => by
    refine ⟨l.eraseIdx i, fun x y => ?_⟩
    have : i < l.length := by simpa using hi
    simp only [List.set_cons_succ, List.set_cons_zero]
    exact ((List.set_perm_cons_eraseIdx this x).cons y).trans (List.Perm.swap _ _ _)
  | a :: l, i + 1, j + 1, h, hi, hj => by
    obtain ⟨rest, hr⟩ := two l i j (by omega) (by simpa using hi) (by simpa using hj)
    refine ⟨a :: rest, fun x y => ?_⟩
    simp only [List.set_cons_succ]
    refine ((hr x y).cons a).trans ?_
    exact (List.Perm.swap x a _).trans ((List.Perm.swap y a _).cons x)

theorem set_self {rs : List Region} {i : Nat} {a : Region} (h : rs[i]? = some a) :
    rs.set i a = rs := by
  obtain ⟨hi, rfl⟩ := List.getElem?_eq_some_iff.mp h
  simp

theorem swapRemove_perm {rs : List Region} {i : Nat} {a : Region} (h : rs[i]? = some a) :
    (a :: swapRemove rs i).Perm rs := by
  obtain ⟨hi, ha⟩ := List.getElem?_eq_some_iff.mp h
  rcases List.eq_nil_or_concat rs with rfl | ⟨L, b, rfl⟩
  · simp at hi
  · have hlast : (L.concat b)[(L.concat b).length - 1]? = some b := by simp
    unfold swapRemove
    rw [h, hlast]
    dsimp only
    simp only [List.concat_eq_append, List.length_append, List.length_singleton,
      Nat.add_sub_cancel] at *
    by_cases hil : i < L.length
    · rw [List.set_append_left _ _ hil]
      have hLa : L[i] = a := by rw [List.getElem_append_left hil] at ha; exact ha
      rw [List.set_append_right _ _ (by simp)]
      simp only [List.length_set, Nat.sub_self, List.set_cons_zero, List.dropLast_concat]
      have h1 := (List.set_perm_cons_eraseIdx hil b)
      have h2 := (List.getElem_cons_eraseIdx_perm hil)
      rw [hLa] at h2
      refine (h1.cons a).trans ((List.Perm.swap _ _ _).trans ?_)
      refine (h2.cons b).trans ?_
      exact (List.perm_append_singleton b L).symm
    · have hiL : i = L.length := by simp at hi; omega
      subst hiL
      simp only [List.getElem_append_right (Nat.le_refl _), Nat.sub_self,
        List.getElem_singleton] at ha
      subst ha
      rw [List.set_append_right _ _ (Nat.le_refl _)]
      simp only [Nat.sub_self, List.set_cons_zero]
      rw [List.set_append_right _ _ (Nat.le_refl _)]
      simp only [Nat.sub_self, List.set_cons_zero, List.dropLast_concat]
      exact (List.perm_append_singleton b L).symm

/-! ## Lemmas: refinement of a memory map -/

/-- `b` describes the same addresses as `a`; types may only get stricter. -/
def Ref (a b : List Region) : Prop :=
  ∀ p, (∀ r ∈ b, In p r → ∃ r0 ∈ a, In p r0 ∧ r0.type = r.type ∧ r0.extra = r.extra) ∧
    (∀ r0 ∈ a, In p r0 → ∃ r ∈ b, In p r ∧ r0.type ≤ r.type)

theorem Ref.refl (a : List Region) : Ref a a := fun _ =>
  ⟨fun r hr hp => ⟨r, hr, hp, rfl, rfl⟩, fun r hr hp => ⟨r, hr, hp, Nat.le_refl _⟩⟩

theorem Ref.trans {a b c : List Region} (h1 : Ref a b) (h2 : Ref b c) : Ref a c := by
  intro p
  constructor
  · intro r hr hp
    obtain ⟨r1, m1, i1, t1, e1⟩ := (h2 p).1 r hr hp
    obtain ⟨r0, m0, i0, t0, e0⟩ := (h1 p).1 r1 m1 i1
    exact ⟨r0, m0, i0, t0.trans t1, e0.trans e1⟩
  · intro r hr hp
    obtain ⟨r1, m1, i1, t1⟩ := (h1 p).2 r hr hp
    obtain ⟨r0, m0, i0, t0⟩ := (h2 p).2 r1 m1 i1
    exact ⟨r0, m0, i0, Nat.le_trans t1 t0⟩

theorem Ref.of_perm {a b : List Region} (h : a.Perm b) : Ref a b := fun _ =>
  ⟨fun r hr hp => ⟨r, h.mem_iff.mpr hr, hp, rfl, rfl⟩,
   fun r hr hp => ⟨r, h.mem_iff.mp hr, hp, Nat.le_refl _⟩⟩

theorem Ref.append {a b : List Region} (h : Ref a b) (c : List Region) :
    Ref (a ++ c) (b ++ c) := by
  intro p
  constructor
  · intro r hr hp
    rcases List.mem_append.mp hr with hr | hr
    · obtain ⟨r0, m0, rest⟩ := (h p).1 r hr hp
      exact ⟨r0, List.mem_append_left _ m0, rest⟩
    · exact ⟨r, List.mem_append_right _ hr, hp, rfl, rfl⟩
  · intro r hr hp
    rcases List.mem_append.mp hr with hr | hr
    · obtain ⟨r0, m0, rest⟩ := (h p).2 r hr hp
      exact ⟨r0, List.mem_append_left _ m0, rest⟩
    · exact ⟨r, List.mem_append_right _ hr, hp, Nat.le_refl _⟩

/-! ## Lemmas: the measure -/

/-- Number of breakpoints in `[a, b)`. -/
def mu (E : List Nat) (a b : Nat) : Nat := E.countP (fun c => decide (a ≤ c ∧ c < b))

theorem mu_add (E : List Nat) {a b c : Nat} (h1 : a ≤ b) (h2 : b ≤ c) :
    mu E a c = mu E a b + mu E b c := by
  induction E with
  | nil => rfl
  | cons x xs ih =>
    unfold mu at *
    simp only [List.countP_cons, decide_eq_true_eq] at *
    rw [ih]
    split <;> split <;> split <;> omega

theorem mu_pos {E : List Nat} {a b : Nat} (h : a ∈ E) (hab : a < b) : 0 < mu E a b := by
  unfold mu
  exact List.countP_pos_iff.mpr ⟨a, h, by simp [hab]⟩

/-- Total number of breakpoints inside the regions. -/
def phi (E : List Nat) (rs : List Region) : Nat :=
  (rs.map (fun r => mu E r.addr (r.addr + r.len))).sum

theorem phi_cons (E : List Nat) (r : Region) (rs : List Region) :
    phi E (r :: rs) = mu E r.addr (r.addr + r.len) + phi E rs := by simp [phi]

theorem phi_append (E : List Nat) (a b : List Region) : phi E (a ++ b) = phi E a + phi E b := by
  simp [phi]

theorem phi_perm (E : List Nat) {a b : List Region} (h : a.Perm b) : phi E a = phi E b :=
  (h.map _).sum_nat

/-- A page-aligned non-empty region inside the address space whose bounds are breakpoints. -/
structure Good (E : List Nat) (r : Region) : Prop where
  pos : 0 < r.len
  top : r.addr + r.len < W
  s : r.addr ∈ E
  e : r.addr + r.len ∈ E
  al : r.addr % 4096 = 0
  ll : r.len % 4096 = 0

theorem length_le_phi (E : List Nat) (rs : List Region) (h : ∀ r ∈ rs, Good E r) :
    rs.length ≤ phi E rs := by
  induction rs with
  | nil => simp
  | cons r rs ih =>
    rw [phi_cons, List.length_cons]
    have := ih (fun x hx => h x (List.mem_cons_of_mem _ hx))
    have g := h r List.mem_cons_self
    have := mu_pos (b := r.addr + r.len) g.s (by have := g.pos; omega)
    omega

theorem endOf_good {E : List Nat} {r : Region} (g : Good E r) : endOf r = r.addr + r.len :=
  Nat.mod_eq_of_lt g.top

theorem sub64_eq {a b : Nat} (h : b ≤ a) (ha : a < W) : sub64 a b = a - b := by
  unfold sub64
  have : a + (W - b) = W + (a - b) := by omega
  rw [this, Nat.add_mod_left, Nat.mod_eq_of_lt (by omega)]

/-- What one successful `handle_region_overlap` guarantees. -/
structure StepOk (E : List Nat) (rs rs' : List Region) : Prop where
  good : ∀ r ∈ rs', Good E r
  ref : Ref rs rs'
  phi : phi E rs' < phi E rs

/-- Two regions are replaced by the list `new`. -/
theorem local_step {E : List Nat} {rs rs' rest new : List Region} {r1 r2 : Region}
    (hg : ∀ r ∈ rs, Good E r) (hp : rs.Perm (r1 :: r2 :: rest)) (hp' : rs'.Perm (new ++ rest))
    (hnew : ∀ r ∈ new, Good E r) (href : Ref [r1, r2] new) (hphi : phi E new < phi E [r1, r2]) :
    StepOk E rs rs' := by
  refine ⟨?_, ?_, ?_⟩
  · intro r hr
    rcases List.mem_append.mp (hp'.mem_iff.mp hr) with h | h
    · exact hnew r h
    · exact hg r (hp.mem_iff.mpr (by simp [h]))
  · exact (Ref.of_perm hp).trans ((Ref.append href rest).trans (Ref.of_perm hp'.symm))
  · rw [phi_perm E hp, phi_perm E hp', phi_append]
    have : phi E (r1 :: r2 :: rest) = phi E [r1, r2] + phi E rest := by
      rw [← phi_append]; rfl
    omega

theorem ref2 {r1 r2 : Region} {new : List Region}
    (h1 : ∀ r ∈ new, ∀ p, In p r →
      (In p r1 ∧ r1.type = r.type ∧ r1.extra = r.extra) ∨
      (In p r2 ∧ r2.type = r.type ∧ r2.extra = r.extra))
    (h2 : ∀ p, In p r1 → ∃ r ∈ new, In p r ∧ r1.type ≤ r.type)
    (h3 : ∀ p, In p r2 → ∃ r ∈ new, In p r ∧ r2.type ≤ r.type) : Ref [r1, r2] new := by
  intro p
  constructor
  · intro r hr hp
    rcases h1 r hr p hp with h | h
    · exact ⟨r1, by simp, h⟩
    · exact ⟨r2, by simp, h⟩
  · intro r0 hr hp
    simp only [List.mem_cons, List.not_mem_nil, or_false] at hr
    rcases hr with rfl | rfl
    · exact h2 p hp
    · exact h3 p hp
theorem overlapOrd_no {E : List Nat} {rs : List Region} {i j : Nat} {r1 r2 : Region}
    (hi : rs[i]? = some r1) (hj : rs[j]? = some r2) (g1 : Good E r1)
    (h : overlapOrd rs i j = .no) : r1.addr + r1.len ≤ r2.addr := by
  unfold overlapOrd at h
  rw [hi, hj] at h
  dsimp only at h
  rw [endOf_good g1] at h
  split at h
  · assumption
  · exfalso
    (repeat' split at h) <;> cases h

theorem good_mem {E : List Nat} {rs : List Region} (hg : ∀ r ∈ rs, Good E r) {i : Nat}
    {r : Region} (h : rs[i]? = some r) : Good E r := hg r (List.mem_of_getElem? h)

/-- The list around two different positions. -/
theorem around {rs : List Region} {i j : Nat} {r1 r2 : Region} (hij : i ≠ j)
    (hi : rs[i]? = some r1) (hj : rs[j]? = some r2) :
    ∃ rest, rs.Perm (r1 :: r2 :: rest) ∧ (∀ x, (rs.set i x).Perm (x :: r2 :: rest)) ∧
      (∀ y, (rs.set j y).Perm (r1 :: y :: rest)) ∧ (swapRemove rs i).Perm (r2 :: rest) ∧
      (swapRemove rs j).Perm (r1 :: rest) := by
  obtain ⟨il, _⟩ := List.getElem?_eq_some_iff.mp hi
  obtain ⟨jl, _⟩ := List.getElem?_eq_some_iff.mp hj
  obtain ⟨rest, h⟩ := two rs i j hij il jl
  have h0 : rs.Perm (r1 :: r2 :: rest) := by
    have := h r1 r2
    rwa [set_self hi, set_self hj] at this
  refine ⟨rest, h0, ?_, ?_, ?_, ?_⟩
  · intro x
    have := h x r2
    rwa [set_self (by rw [List.getElem?_set_ne hij]; exact hj)] at this
  · intro y
    have := h r1 y
    rwa [set_self hi] at this
  · have := (swapRemove_perm hi).trans h0
    exact this.cons_inv
  · have := ((swapRemove_perm hj).trans h0).trans (List.Perm.swap _ _ _)
    exact this.cons_inv

theorem overlapOrd_yes {E : List Nat} {rs rs' : List Region} {i j : Nat} {r1 r2 : Region}
    (hg : ∀ r ∈ rs, Good E r) (hij : i ≠ j)
    (hi : rs[i]? = some r1) (hj : rs[j]? = some r2) (hs : r1.addr ≤ r2.addr)
    (h : overlapOrd rs i j = .yes rs') : StepOk E rs rs' := by
  have g1 := good_mem hg hi
  have g2 := good_mem hg hj
  obtain ⟨rest, hPm, seti, setj, remi, remj⟩ := around hij hi hj
  unfold overlapOrd at h
  rw [hi, hj] at h
  dsimp only at h
  rw [endOf_good g1, endOf_good g2] at h
  have p1 := g1.pos
  have p2 := g2.pos
  have t1 := g1.top
  have t2 := g2.top
  have a1 := g1.al
  have a2 := g2.al
  have l1 := g1.ll
  have l2 := g2.ll
  have m1 := mu_pos (b := r1.addr + r1.len) g1.s (by omega)
  have m2 := mu_pos (b := r2.addr + r2.len) g2.s (by omega)
  split at h
  · cases h
  rename_i ho
  split at h
  · rename_i hin
    split at h
    · -- region 2 removed
      rename_i ht
      cases h
      refine local_step (new := [r1]) hg hPm remj ?_ ?_ ?_
      · intro r hr; simp at hr; subst hr; exact g1
      · apply ref2
        · intro r hr p hp; simp at hr; subst hr; exact Or.inl ⟨hp, rfl, rfl⟩
        · intro p hp; exact ⟨r1, by simp, hp, Nat.le_refl _⟩
        · intro p hp; exact ⟨r1, by simp, by unfold In at *; omega, ht⟩
      · simp only [phi, List.map, List.sum_cons, List.sum_nil]; omega
    · rename_i ht
      split at h
      · rename_i he
        cases h
        refine local_step (new := [r2]) hg hPm remi ?_ ?_ ?_
        · intro r hr; simp at hr; subst hr; exact g2
        · apply ref2
          · intro r hr p hp; simp at hr; subst hr; exact Or.inr ⟨hp, rfl, rfl⟩
          · intro p hp; exact ⟨r2, by simp, by unfold In at *; omega, by omega⟩
          · intro p hp; exact ⟨r2, by simp, hp, Nat.le_refl _⟩
        · simp only [phi, List.map, List.sum_cons, List.sum_nil]; omega
      · rename_i hne
        split at h
        · -- 2b
          rename_i hse
          rw [sub64_eq (by omega) t1] at h
          cases h
          refine local_step (new := [_, r2]) hg hPm (seti _) ?_ ?_ ?_
          · intro r hr
            simp only [List.mem_cons, List.not_mem_nil, or_false] at hr
            rcases hr with rfl | rfl
            · have hx : r2.addr + r2.len + (r1.addr + r1.len - (r2.addr + r2.len)) =
                  r1.addr + r1.len := by omega
              refine ⟨?_, ?_, g2.e, ?_, ?_, ?_⟩ <;> dsimp only
              · omega
              · omega
              · rw [hx]; exact g1.e
              · omega
              · omega
            · exact g2
          · apply ref2
            · intro r hr p hp
              simp only [List.mem_cons, List.not_mem_nil, or_false] at hr
              rcases hr with rfl | rfl
              · exact Or.inl ⟨by unfold In at *; dsimp only at *; omega, rfl, rfl⟩
              · exact Or.inr ⟨hp, rfl, rfl⟩
            · intro p hp
              by_cases hq : In p r2
              · exact ⟨r2, by simp, hq, by omega⟩
              · exact ⟨_, List.mem_cons_self, by unfold In at *; dsimp only; omega, Nat.le_refl _⟩
            · intro p hp; exact ⟨r2, by simp, hp, Nat.le_refl _⟩
          · simp only [phi, List.map, List.sum_cons, List.sum_nil]
            have hx : r2.addr + r2.len + (r1.addr + r1.len - (r2.addr + r2.len)) =
                  r1.addr + r1.len := by omega
            rw [hx]
            have := mu_add E (a := r1.addr) (b := r2.addr + r2.len) (c := r1.addr + r1.len)
              (by omega) (by omega)
            rw [hse] at this
            rw [hse] at m1 ⊢
            omega
        · rename_i hse
          split at h
          · -- 2c
            rename_i hee
            rw [sub64_eq (by omega) (by omega)] at h
            cases h
            have hx : r1.addr + (r2.addr - r1.addr) = r2.addr := by omega
            refine local_step (new := [_, r2]) hg hPm (seti _) ?_ ?_ ?_
            · intro r hr
              simp only [List.mem_cons, List.not_mem_nil, or_false] at hr
              rcases hr with rfl | rfl
              · refine ⟨?_, ?_, g1.s, ?_, ?_, ?_⟩ <;> dsimp only
                · omega
                · omega
                · rw [hx]; exact g2.s
                · omega
                · omega
              · exact g2
            · apply ref2
              · intro r hr p hp
                simp only [List.mem_cons, List.not_mem_nil, or_false] at hr
                rcases hr with rfl | rfl
                · exact Or.inl ⟨by unfold In at *; dsimp only at *; omega, rfl, rfl⟩
                · exact Or.inr ⟨hp, rfl, rfl⟩
              · intro p hp
                by_cases hq : In p r2
                · exact ⟨r2, by simp, hq, by omega⟩
                · exact ⟨_, List.mem_cons_self, by unfold In at *; dsimp only; omega, Nat.le_refl _⟩
              · intro p hp; exact ⟨r2, by simp, hp, Nat.le_refl _⟩
            · simp only [phi, List.map, List.sum_cons, List.sum_nil]
              rw [hx]
              have := mu_add E (a := r1.addr) (b := r2.addr) (c := r1.addr + r1.len)
                (by omega) (by omega)
              rw [hee] at this m1 ⊢
              omega
          · -- base case
            rename_i hee
            rw [sub64_eq (a := r2.addr) (b := r1.addr) (by omega) (by omega),
              sub64_eq (a := r1.addr + r1.len) (by omega) (by omega)] at h
            unfold append at h
            split at h
            · cases h
            · rename_i rs'' hap
              split at hap
              · cases hap
              cases hap
              cases h
              have hx : r1.addr + (r2.addr - r1.addr) = r2.addr := by omega
              have hy : r2.addr + r2.len + (r1.addr + r1.len - (r2.addr + r2.len)) =
                  r1.addr + r1.len := by omega
              refine local_step (new := [_, _, r2]) hg hPm
                ((List.perm_append_singleton _ _).trans ((seti _).cons _)) ?_ ?_ ?_
              · intro r hr
                simp only [List.mem_cons, List.not_mem_nil, or_false] at hr
                rcases hr with rfl | rfl | rfl
                · refine ⟨?_, ?_, g2.e, ?_, ?_, ?_⟩ <;> dsimp only
                  · omega
                  · omega
                  · rw [hy]; exact g1.e
                  · omega
                  · omega
                · refine ⟨?_, ?_, g1.s, ?_, ?_, ?_⟩ <;> dsimp only
                  · omega
                  · omega
                  · rw [hx]; exact g2.s
                  · omega
                  · omega
                · exact g2
              · apply ref2
                · intro r hr p hp
                  simp only [List.mem_cons, List.not_mem_nil, or_false] at hr
                  rcases hr with rfl | rfl | rfl
                  · exact Or.inl ⟨by unfold In at *; dsimp only at *; omega, rfl, rfl⟩
                  · exact Or.inl ⟨by unfold In at *; dsimp only at *; omega, rfl, rfl⟩
                  · exact Or.inr ⟨hp, rfl, rfl⟩
                · intro p hp
                  by_cases hq : In p r2
                  · exact ⟨r2, by simp, hq, by omega⟩
                  · by_cases hlt : p < r2.addr
                    · exact ⟨_, List.mem_cons_of_mem _ List.mem_cons_self,
                        by unfold In at *; dsimp only; omega, Nat.le_refl _⟩
                    · exact ⟨_, List.mem_cons_self, by unfold In at *; dsimp only; omega,
                        Nat.le_refl _⟩
                · intro p hp; exact ⟨r2, by simp, hp, Nat.le_refl _⟩
              · simp only [phi, List.map, List.sum_cons, List.sum_nil]
                rw [hx, hy]
                have := mu_add E (a := r1.addr) (b := r2.addr) (c := r1.addr + r1.len)
                  (by omega) (by omega)
                have := mu_add E (a := r2.addr) (b := r2.addr + r2.len) (c := r1.addr + r1.len)
                  (by omega) (by omega)
                omega
  · rename_i hin
    have mm := mu_pos (E := E) (a := r2.addr) (b := r1.addr + r1.len) g2.s (by omega)
    split at h
    · rename_i ht
      rw [sub64_eq (by omega) t2] at h
      cases h
      have hx : r1.addr + r1.len + (r2.addr + r2.len - (r1.addr + r1.len)) =
          r2.addr + r2.len := by omega
      refine local_step (new := [r1, _]) hg hPm (setj _) ?_ ?_ ?_
      · intro r hr
        simp only [List.mem_cons, List.not_mem_nil, or_false] at hr
        rcases hr with rfl | rfl
        · exact g1
        · refine ⟨?_, ?_, g1.e, ?_, ?_, ?_⟩ <;> dsimp only
          · omega
          · omega
          · rw [hx]; exact g2.e
          · omega
          · omega
      · apply ref2
        · intro r hr p hp
          simp only [List.mem_cons, List.not_mem_nil, or_false] at hr
          rcases hr with rfl | rfl
          · exact Or.inl ⟨hp, rfl, rfl⟩
          · exact Or.inr ⟨by unfold In at *; dsimp only at *; omega, rfl, rfl⟩
        · intro p hp; exact ⟨r1, by simp, hp, Nat.le_refl _⟩
        · intro p hp
          by_cases hq : In p r1
          · exact ⟨r1, by simp, hq, by omega⟩
          · exact ⟨_, List.mem_cons_of_mem _ List.mem_cons_self,
              by unfold In at *; dsimp only; omega, Nat.le_refl _⟩
      · simp only [phi, List.map, List.sum_cons, List.sum_nil]
        rw [hx]
        have := mu_add E (a := r2.addr) (b := r1.addr + r1.len) (c := r2.addr + r2.len)
          (by omega) (by omega)
        omega
    · rename_i ht
      split at h
      · rename_i hse
        cases h
        refine local_step (new := [r2]) hg hPm remi ?_ ?_ ?_
        · intro r hr; simp at hr; subst hr; exact g2
        · apply ref2
          · intro r hr p hp; simp at hr; subst hr; exact Or.inr ⟨hp, rfl, rfl⟩
          · intro p hp; exact ⟨r2, by simp, by unfold In at *; omega, by omega⟩
          · intro p hp; exact ⟨r2, by simp, hp, Nat.le_refl _⟩
        · simp only [phi, List.map, List.sum_cons, List.sum_nil]; omega
      · rename_i hse
        rw [sub64_eq (by omega) (by omega)] at h
        cases h
        have hx : r1.addr + (r2.addr - r1.addr) = r2.addr := by omega
        refine local_step (new := [_, r2]) hg hPm (seti _) ?_ ?_ ?_
        · intro r hr
          simp only [List.mem_cons, List.not_mem_nil, or_false] at hr
          rcases hr with rfl | rfl
          · refine ⟨?_, ?_, g1.s, ?_, ?_, ?_⟩ <;> dsimp only
            · omega
            · omega
            · rw [hx]; exact g2.s
            · omega
            · omega
          · exact g2
        · apply ref2
          · intro r hr p hp
            simp only [List.mem_cons, List.not_mem_nil, or_false] at hr
            rcases hr with rfl | rfl
            · exact Or.inl ⟨by unfold In at *; dsimp only at *; omega, rfl, rfl⟩
            · exact Or.inr ⟨hp, rfl, rfl⟩
          · intro p hp
            by_cases hq : In p r2
            · exact ⟨r2, by simp, hq, by omega⟩
            · exact ⟨_, List.mem_cons_self, by unfold In at *; dsimp only; omega, Nat.le_refl _⟩
          · intro p hp; exact ⟨r2, by simp, hp, Nat.le_refl _⟩
        · simp only [phi, List.map, List.sum_cons, List.sum_nil]
          rw [hx]
          have := mu_add E (a := r1.addr) (b := r2.addr) (c := r1.addr + r1.len)
            (by omega) (by omega)
          omega

theorem overlapOrd_panic {E : List Nat} {rs : List Region} {i j : Nat} {r1 r2 : Region}
    (hg : ∀ r ∈ rs, Good E r) (hij : i ≠ j)
    (hi : rs[i]? = some r1) (hj : rs[j]? = some r2) (hs : r1.addr ≤ r2.addr)
    (h : overlapOrd rs i j = .panic) : MAX < phi E rs := by
  have g1 := good_mem hg hi
  have g2 := good_mem hg hj
  obtain ⟨rest, hPm, seti, setj, remi, remj⟩ := around hij hi hj
  unfold overlapOrd at h
  rw [hi, hj] at h
  dsimp only at h
  rw [endOf_good g1, endOf_good g2] at h
  have p1 := g1.pos
  have p2 := g2.pos
  split at h
  · cases h
  split at h
  · rename_i hin
    split at h
    · cases h
    split at h
    · cases h
    split at h
    · cases h
    rename_i hse
    split at h
    · cases h
    rename_i hee
    split at h
    · rename_i hap
      unfold append at hap
      split at hap
      · rename_i hl
        rw [List.length_set] at hl
        rw [phi_perm E hPm, phi_cons, phi_cons]
        have hl2 := hPm.length_eq
        simp only [List.length_cons] at hl2
        have := length_le_phi E rest (fun r hr => hg r (hPm.mem_iff.mpr (by simp [hr])))
        have := mu_add E (a := r1.addr) (b := r2.addr) (c := r1.addr + r1.len)
          (by omega) (by omega)
        have := mu_pos (E := E) (a := r1.addr) (b := r2.addr) g1.s (by omega)
        have := mu_pos (E := E) (a := r2.addr) (b := r1.addr + r1.len) g2.s (by omega)
        have := mu_pos (E := E) (a := r2.addr) (b := r2.addr + r2.len) g2.s (by omega)
        omega
      · cases hap
    · cases h
  · split at h
    · cases h
    · split at h <;> cases h

theorem overlap_adj {E : List Nat} {rs : List Region} {i : Nat}
    (hg : ∀ r ∈ rs, Good E r) (hi : i + 1 < rs.length) :
    (overlap rs i (i + 1) = .panic → MAX < phi E rs) ∧
    (∀ rs', overlap rs i (i + 1) = .yes rs' → StepOk E rs rs') ∧
    (overlap rs i (i + 1) = .no → rs[i].addr ≤ rs[i + 1].addr →
      rs[i].addr + rs[i].len ≤ rs[i + 1].addr) := by
  have h1 : rs[i]? = some rs[i] := List.getElem?_eq_getElem _
  have h2 : rs[i + 1]? = some rs[i + 1] := List.getElem?_eq_getElem _
  have e : overlap rs i (i + 1) =
      if rs[i + 1].addr < rs[i].addr then overlapOrd rs (i + 1) i else overlapOrd rs i (i + 1) := by
    unfold overlap
    rw [if_neg (by omega), h1, h2]
  rw [e]
  by_cases hlt : rs[i + 1].addr < rs[i].addr
  · rw [if_pos hlt]
    exact ⟨fun h => overlapOrd_panic hg (by omega) h2 h1 (by omega) h,
      fun rs' h => overlapOrd_yes hg (by omega) h2 h1 (by omega) h, fun _ h => by omega⟩
  · rw [if_neg hlt]
    exact ⟨fun h => overlapOrd_panic hg (by omega) h1 h2 (by omega) h,
      fun rs' h => overlapOrd_yes hg (by omega) h1 h2 (by omega) h,
      fun h _ => overlapOrd_no h1 h2 (good_mem hg h1) h⟩

theorem passFrom_ok {E : List Nat} : ∀ (fuel : Nat) (rs : List Region) (i : Nat) (any : Bool),
    (∀ r ∈ rs, Good E r) →
    (passFrom fuel rs i any = none → MAX < phi E rs) ∧
    (∀ rs' b, passFrom fuel rs i any = some (rs', b) →
      (∀ r ∈ rs', Good E r) ∧ Ref rs rs' ∧
      (b = true → any = true ∧ phi E rs' ≤ phi E rs ∨ phi E rs' < phi E rs) ∧
      (b = false → rs' = rs ∧ ∀ k, i ≤ k → k < i + fuel → (h : k + 1 < rs.length) →
        overlap rs k (k + 1) = .no))
  | 0, rs, i, any, hg => by
    refine ⟨(fun h => by cases h), fun rs' b h => ?_⟩
    cases h
    exact ⟨hg, Ref.refl _, fun h => Or.inl ⟨h, Nat.le_refl _⟩, fun _ => ⟨rfl, fun k h1 h2 => by omega⟩⟩
  | fuel + 1, rs, i, any, hg => by
    unfold passFrom
    by_cases hi : i + 1 < rs.length
    · rw [if_pos hi]
      obtain ⟨hpan, hyes, _⟩ := overlap_adj hg hi
      cases ho : overlap rs i (i + 1) with
      | panic => exact ⟨fun _ => hpan ho, (fun rs' b h => by cases h)⟩
      | no =>
        obtain ⟨q1, q2⟩ := passFrom_ok fuel rs (i + 1) any hg
        refine ⟨q1, fun rs' b h => ?_⟩
        obtain ⟨a1, a2, a3, a4⟩ := q2 rs' b h
        refine ⟨a1, a2, a3, fun hb => ?_⟩
        obtain ⟨e, hk⟩ := a4 hb
        refine ⟨e, fun k k1 k2 k3 => ?_⟩
        by_cases hki : k = i
        · subst hki; exact ho
        · exact hk k (by omega) (by omega) k3
      | yes rs1 =>
        have st := hyes rs1 ho
        obtain ⟨q1, q2⟩ := passFrom_ok fuel rs1 (i + 1) true st.good
        have := st.phi
        refine ⟨fun h => by have := q1 h; omega, fun rs' b h => ?_⟩
        obtain ⟨a1, a2, a3, a4⟩ := q2 rs' b h
        refine ⟨a1, st.ref.trans a2, fun hb => Or.inr ?_, fun hb => ?_⟩
        · rcases a3 hb with ⟨_, h⟩ | h <;> omega
        · exfalso
          have hmono : ∀ (f : Nat) (l : List Region) (k : Nat) (l' : List Region) (c : Bool),
              passFrom f l k true = some (l', c) → c = true := by
            intro f
            induction f with
            | zero => intro l k l' c h; cases h; rfl
            | succ f ih =>
              intro l k l' c h
              unfold passFrom at h
              split at h
              · split at h
                · cases h
                · exact ih _ _ _ _ h
                · exact ih _ _ _ _ h
              · cases h; rfl
          have := hmono fuel rs1 (i + 1) rs' b h
          rw [hb] at this; cases this
    · rw [if_neg hi]
      refine ⟨(fun h => by cases h), fun rs' b h => ?_⟩
      cases h
      exact ⟨hg, Ref.refl _, fun h => Or.inl ⟨h, Nat.le_refl _⟩,
        fun _ => ⟨rfl, fun k h1 h2 h3 => by omega⟩⟩
theorem overlapOrd_len {rs rs' : List Region} {i j : Nat} (h : overlapOrd rs i j = .yes rs')
    {n : Nat} (hn : MAX ≤ n) (hl : rs.length ≤ n) : rs'.length ≤ n := by
  have hsr : ∀ k, (swapRemove rs k).length ≤ n := by
    intro k
    unfold swapRemove
    split
    · simp; omega
    · exact hl
  unfold overlapOrd at h
  split at h
  · (repeat' split at h) <;> first
      | (cases h; done)
      | (cases h; first | exact hsr _ | (rw [List.length_set]; exact hl))
      | skip
    rename_i hap
    cases h
    unfold append at hap
    split at hap
    · cases hap
    · cases hap
      rename_i hx
      simp only [List.length_append, List.length_set, List.length_singleton] at *
      omega
  · cases h

theorem passFrom_len : ∀ (fuel : Nat) (rs : List Region) (i : Nat) (any : Bool)
    (rs' : List Region) (b : Bool), passFrom fuel rs i any = some (rs', b) →
    rs.length ≤ MAX → rs'.length ≤ MAX
  | 0, rs, i, any, rs', b, h, hl => by cases h; exact hl
  | fuel + 1, rs, i, any, rs', b, h, hl => by
    unfold passFrom at h
    split at h
    · split at h
      · cases h
      · exact passFrom_len fuel rs _ _ _ _ h hl
      · rename_i rs1 ho
        refine passFrom_len fuel rs1 _ _ _ _ h ?_
        unfold overlap at ho
        split at ho
        · cases ho
        split at ho
        · split at ho
          · exact overlapOrd_len ho (Nat.le_refl _) hl
          · exact overlapOrd_len ho (Nat.le_refl _) hl
        · cases ho
    · cases h; exact hl

theorem isCmp : Sort.IsCmp cmpRegion := by
  constructor
  · intro a b
    unfold cmpRegion
    split <;> split <;> (repeat' split) <;> omega
  · intro a b c
    unfold cmpRegion
    intro h1 h2
    (repeat' split at h1) <;> (repeat' split at h2) <;> (repeat' split) <;> omega

/-- Sorted by start address. -/
def Ordered (rs : List Region) : Prop := rs.Pairwise (fun a b => a.addr ≤ b.addr)

theorem sort_ok (rs : List Region) :
    ∃ r, sortRegions rs = some r ∧ r.Perm rs ∧ Ordered r := by
  obtain ⟨r, h1, h2, h3, _⟩ := Sort.insertion_sort_correct cmpRegion isCmp rs
  refine ⟨r, h1, h2, h3.imp ?_⟩
  intro a b h
  unfold cmpRegion at h
  (repeat' split at h) <;> omega

theorem adjacent_pairwise {rs : List Region} (hpos : ∀ r ∈ rs, 0 < r.len)
    (h : ∀ k, (hk : k + 1 < rs.length) → rs[k].addr + rs[k].len ≤ rs[k + 1].addr) :
    rs.Pairwise (fun a b => a.addr + a.len ≤ b.addr) := by
  rw [List.pairwise_iff_getElem]
  intro i j hi hj hij
  obtain ⟨d, rfl⟩ : ∃ d, j = i + 1 + d := ⟨j - i - 1, by omega⟩
  clear hij
  induction d with
  | zero => exact h i hj
  | succ d ih =>
    have h1 := ih (by omega)
    have h2 := h (i + 1 + d) (by omega)
    have h3 := hpos rs[i + 1 + d] (List.getElem_mem _)
    show rs[i].addr + rs[i].len ≤ rs[i + 1 + d + 1].addr
    omega

theorem ordered_disjoint_perm {a b : List Region} (hp : b.Perm a) (hb : Ordered b)
    (hpos : ∀ r ∈ a, 0 < r.len) (ha : a.Pairwise (fun a b => a.addr + a.len ≤ b.addr)) :
    b.Pairwise (fun a b => a.addr + a.len ≤ b.addr) := by
  have h1 : a.Pairwise (fun x y => x.addr + x.len ≤ y.addr ∨ y.addr + y.len ≤ x.addr) :=
    ha.imp (fun h => Or.inl h)
  have h2 : b.Pairwise (fun x y => x.addr + x.len ≤ y.addr ∨ y.addr + y.len ≤ x.addr) :=
    hp.symm.pairwise h1 (fun h => h.symm)
  refine (hb.and h2).imp_of_mem ?_
  intro x y hx hy h
  have := hpos y (hp.mem_iff.mp hy)
  omega

theorem handleAll_ok {E : List Nat} : ∀ (fuel : Nat) (rs : List Region),
    (∀ r ∈ rs, Good E r) → Ordered rs → rs.length ≤ MAX → phi E rs < fuel →
    (handleAll fuel rs = .panic ∧ MAX < phi E rs) ∨
    (∃ out, handleAll fuel rs = .done out ∧ (∀ r ∈ out, Good E r) ∧ Ref rs out ∧
      out.Pairwise (fun a b => a.addr + a.len ≤ b.addr))
  | 0, rs, _, _, _, h => by omega
  | fuel + 1, rs, hg, ho, hl, hf => by
    unfold handleAll
    obtain ⟨q1, q2⟩ := passFrom_ok MAX rs 0 false hg
    cases hp : passFrom MAX rs 0 false with
    | none => exact Or.inl ⟨rfl, q1 hp⟩
    | some x =>
      obtain ⟨rs', b⟩ := x
      obtain ⟨a1, a2, a3, a4⟩ := q2 rs' b hp
      obtain ⟨r, s1, s2, s3⟩ := sort_ok rs'
      dsimp only
      rw [s1]
      dsimp only
      have hgr : ∀ x ∈ r, Good E x := fun x hx => a1 x (s2.mem_iff.mp hx)
      have hphi := phi_perm E s2
      cases b with
      | true =>
        have hd : phi E rs' < phi E rs := by
          rcases a3 rfl with ⟨h, _⟩ | h
          · cases h
          · exact h
        rw [if_pos rfl]
        by_cases hlen : r.length ≤ MAX
        · rcases handleAll_ok fuel r hgr s3 hlen (by omega) with ⟨h1, h2⟩ | ⟨out, h1, h2, h3, h4⟩
          · exact Or.inl ⟨h1, by omega⟩
          · exact Or.inr ⟨out, h1, h2, a2.trans ((Ref.of_perm s2.symm).trans h3), h4⟩
        · exfalso
          exact hlen (by
            have := passFrom_len MAX rs 0 false rs' true hp hl
            rw [s2.length_eq]; exact this)
      | false =>
        rw [if_neg (by decide)]
        obtain ⟨rfl, hk⟩ := a4 rfl
        refine Or.inr ⟨r, rfl, hgr, Ref.of_perm s2.symm, ?_⟩
        apply ordered_disjoint_perm s2 s3 (fun x hx => (hg x hx).pos)
        apply adjacent_pairwise (fun x hx => (hg x hx).pos)
        intro k hk1
        refine (overlap_adj hg hk1).2.2 (hk k (by omega) (by omega) hk1) ?_
        exact List.pairwise_iff_getElem.mp ho k (k + 1) _ _ (by omega)
theorem mergeFrom_ok {E : List Nat} : ∀ (fuel : Nat) (rs : List Region) (i : Nat),
    (∀ r ∈ rs, Good E r) → Ordered rs →
    (∀ r ∈ mergeFrom fuel rs i, Good E r) ∧ Ordered (mergeFrom fuel rs i) ∧
    Ref rs (mergeFrom fuel rs i) ∧ phi E (mergeFrom fuel rs i) = phi E rs ∧
    (mergeFrom fuel rs i).length ≤ rs.length
  | 0, rs, i, hg, ho => ⟨hg, ho, Ref.refl _, rfl, Nat.le_refl _⟩
  | fuel + 1, rs, i, hg, ho => by
    unfold mergeFrom
    split
    · rename_i a b ha hb
      have ga := good_mem hg ha
      have gb := good_mem hg hb
      split
      · exact mergeFrom_ok fuel rs (i + 1) hg ho
      rename_i hte
      split
      · exact mergeFrom_ok fuel rs (i + 1) hg ho
      rename_i hadj
      rw [endOf_good ga] at hadj
      have hadj' : b.addr = a.addr + a.len := by omega
      have hte' : b.type = a.type ∧ b.extra = a.extra := by
        refine ⟨?_, ?_⟩
        · exact Classical.byContradiction fun h => hte (Or.inl h)
        · exact Classical.byContradiction fun h => hte (Or.inr h)
      have hal : add64 a.len b.len = a.len + b.len := by
        have := gb.top
        exact Nat.mod_eq_of_lt (by omega)
      rw [hal]
      obtain ⟨il, hia⟩ := List.getElem?_eq_some_iff.mp ha
      obtain ⟨jl, hjb⟩ := List.getElem?_eq_some_iff.mp hb
      obtain ⟨rest, hPm, seti, -, -, -⟩ := around (i := i) (j := i + 1) (by omega) ha hb
      generalize hx : ({ a with len := a.len + b.len } : Region) = x
      have hx1 : x.addr = a.addr := by rw [← hx]
      have hx2 : x.len = a.len + b.len := by rw [← hx]
      have hx3 : x.type = a.type := by rw [← hx]
      have hx4 : x.extra = a.extra := by rw [← hx]
      have hperm : ((rs.set i x).eraseIdx (i + 1)).Perm (x :: rest) := by
        have h1 : (rs.set i x)[i + 1]'(by rw [List.length_set]; exact jl) = b := by
          rw [List.getElem_set_ne (by omega)]; exact hjb
        have h2 := List.getElem_cons_eraseIdx_perm (l := rs.set i x) (n := i + 1)
          (by rw [List.length_set]; exact jl)
        rw [h1] at h2
        exact ((h2.trans (seti x)).trans (List.Perm.swap _ _ _)).cons_inv
      have gx : Good E x := by
        have := ga.pos; have := gb.top; have := ga.al; have := ga.ll; have := gb.ll
        refine ⟨by omega, by omega, by rw [hx1]; exact ga.s, ?_, by omega, by omega⟩
        have : x.addr + x.len = b.addr + b.len := by omega
        rw [this]; exact gb.e
      have hg' : ∀ r ∈ (rs.set i x).eraseIdx (i + 1), Good E r := by
        intro r hr
        rcases List.mem_cons.mp (hperm.mem_iff.mp hr) with rfl | h
        · exact gx
        · exact hg r (hPm.mem_iff.mpr (by simp [h]))
      have ho' : Ordered ((rs.set i x).eraseIdx (i + 1)) := by
        have h1 : Ordered (rs.set i x) := by
          have e : (rs.set i x).map Region.addr = rs.map Region.addr := by
            have hm : a.addr = (rs.map Region.addr)[i]'(by simpa using il) := by simp [hia]
            rw [List.map_set, hx1, hm, List.set_getElem_self]
          unfold Ordered at *
          rw [← List.pairwise_map (f := Region.addr) (R := (· ≤ ·))] at ho ⊢
          rw [e]; exact ho
        exact h1.sublist (List.eraseIdx_sublist _ _)
      have hr' : Ref rs ((rs.set i x).eraseIdx (i + 1)) := by
        refine (Ref.of_perm hPm).trans (Ref.trans ?_ (Ref.of_perm hperm.symm))
        have : Ref ([a, b] ++ rest) ([x] ++ rest) := by
          apply Ref.append
          apply ref2
          · intro r hr p hp
            simp at hr
            subst hr
            unfold In at *
            by_cases h : p < a.addr + a.len
            · exact Or.inl ⟨by omega, hx3.symm, hx4.symm⟩
            · exact Or.inr ⟨by omega, by omega, by omega⟩
          · intro p hp
            exact ⟨x, by simp, by unfold In at *; omega, by omega⟩
          · intro p hp
            exact ⟨x, by simp, by unfold In at *; omega, by omega⟩
        exact this
      have hphi' : phi E ((rs.set i x).eraseIdx (i + 1)) = phi E rs := by
        rw [phi_perm E hPm, phi_perm E hperm, phi_cons, phi_cons, phi_cons]
        have := mu_add E (a := a.addr) (b := b.addr) (c := b.addr + b.len) (by omega) (by omega)
        have e1 : x.addr + x.len = b.addr + b.len := by omega
        rw [e1, hx1, ← hadj']
        omega
      have hlen' : ((rs.set i x).eraseIdx (i + 1)).length ≤ rs.length := by
        have := hPm.length_eq
        have := hperm.length_eq
        simp only [List.length_cons] at *
        omega
      obtain ⟨q1, q2, q3, q4, q5⟩ := mergeFrom_ok fuel _ i hg' ho'
      exact ⟨q1, q2, hr'.trans q3, q4.trans hphi', Nat.le_trans q5 hlen'⟩
    · exact ⟨hg, ho, Ref.refl _, rfl, Nat.le_refl _⟩

theorem align_ok {r : Region} (h : Sane r) :
    (align r).addr + (align r).len = (r.addr + r.len + 4095) / 4096 * 4096 ∧
    (align r).addr = r.addr / 4096 * 4096 ∧ 0 < (align r).len ∧
    (align r).addr + (align r).len < W ∧ (align r).len % 4096 = 0 := by
  obtain ⟨h1, h2⟩ := h
  have e1 : endOf r = r.addr + r.len := Nat.mod_eq_of_lt (by omega)
  have e2 : roundUp64 (endOf r) = (r.addr + r.len + 4095) / 4096 * 4096 := by
    unfold roundUp64
    rw [e1]
    unfold add64
    rw [Nat.mod_eq_of_lt h2]
  have e3 : (align r).len = (r.addr + r.len + 4095) / 4096 * 4096 - r.addr / 4096 * 4096 := by
    show sub64 (roundUp64 (endOf r)) _ = _
    rw [e2, sub64_eq (by omega) (by omega)]
  have e4 : (align r).addr = r.addr / 4096 * 4096 := rfl
  omega

theorem in_align {r : Region} (h : Sane r) (p : Nat) : In p (align r) ↔ Touches r p := by
  obtain ⟨h1, h2, h3, _⟩ := align_ok h
  obtain ⟨s1, s2⟩ := h
  unfold Touches In
  constructor
  · intro hp
    by_cases hlt : p < r.addr
    · exact ⟨r.addr, by omega, by omega⟩
    · by_cases hge : p < r.addr + r.len
      · exact ⟨p, by omega, rfl⟩
      · exact ⟨r.addr + r.len - 1, by omega, by omega⟩
  · rintro ⟨q, hq, he⟩
    omega

/-- The bounds of the page-aligned input. -/
def bps (rs : List Region) : List Nat :=
  rs.flatMap (fun r => [r.addr, r.addr + r.len])

theorem mu_le (E : List Nat) (a b : Nat) : mu E a b ≤ E.length := List.countP_le_length

theorem phi_le (E : List Nat) (rs : List Region) : phi E rs ≤ rs.length * E.length := by
  induction rs with
  | nil => simp [phi]
  | cons r rs ih =>
    rw [phi_cons, List.length_cons, Nat.add_mul, Nat.one_mul]
    have := mu_le E r.addr (r.addr + r.len)
    omega

theorem bps_length (rs : List Region) : (bps rs).length = 2 * rs.length := by
  induction rs with
  | nil => rfl
  | cons r rs ih =>
    unfold bps at *
    rw [List.flatMap_cons, List.length_append, ih, List.length_cons]
    simp only [List.length_cons, List.length_nil]
    omega

theorem bps_mem {rs : List Region} {r : Region} (h : r ∈ rs) :
    r.addr ∈ bps rs ∧ r.addr + r.len ∈ bps rs := by
  unfold bps
  constructor <;> exact List.mem_flatMap.mpr ⟨r, h, by simp⟩

theorem fixMem_ok (rs : List Region) (hs : ∀ r ∈ rs, Sane r) (hl : rs.length ≤ MAX)
    (fuel : Nat) (hf : 2 * rs.length * rs.length < fuel) :
    (fixMem fuel rs = .panic ∧ MAX < 2 * rs.length * rs.length) ∨
    ∃ out, fixMem fuel rs = .done out ∧ Ref (rs.map align) out ∧
      (∀ r ∈ out, Good (bps (rs.map align)) r) ∧
      out.Pairwise (fun a b => a.addr + a.len ≤ b.addr) := by
  unfold fixMem
  obtain ⟨r, s1, s2, s3⟩ := sort_ok (rs.map align)
  rw [s1]
  dsimp only
  generalize hE : bps (rs.map align) = E
  have hg0 : ∀ x ∈ rs.map align, Good E x := by
    intro x hx
    have hb := bps_mem hx
    obtain ⟨y, hy, rfl⟩ := List.mem_map.mp hx
    obtain ⟨h1, h2, h3, h4, h5⟩ := align_ok (hs y hy)
    rw [hE] at hb
    exact ⟨h3, h4, hb.1, hb.2, by omega, h5⟩
  have hgr : ∀ x ∈ r, Good E x := fun x hx => hg0 x (s2.mem_iff.mp hx)
  obtain ⟨m1, m2, m3, m4, m5⟩ := mergeFrom_ok (E := E) r.length r 0 hgr s3
  have hphi : phi E (merge r) ≤ 2 * rs.length * rs.length := by
    show phi E (mergeFrom r.length r 0) ≤ _
    rw [m4, phi_perm E s2]
    refine Nat.le_trans (phi_le _ _) ?_
    rw [← hE, bps_length, List.length_map, Nat.mul_comm]
    exact Nat.le_refl _
  have hlen : (merge r).length ≤ MAX := by
    have h1 : (merge r).length ≤ r.length := m5
    have h2 := s2.length_eq
    rw [List.length_map] at h2
    omega
  rcases handleAll_ok fuel (merge r) m1 m2 hlen (by omega) with ⟨h1, h2⟩ | ⟨out, h1, h2, h3, h4⟩
  · exact Or.inl ⟨h1, by omega⟩
  · refine Or.inr ⟨out, h1, ?_, h2, h4⟩
    exact (Ref.of_perm s2.symm).trans (m3.trans h3)

theorem unique_of_sorted {out : List Region} (h : out.Pairwise (fun a b => a.addr + a.len ≤ b.addr))
    {a b : Region} (ha : a ∈ out) (hb : b ∈ out) {p : Nat} (pa : In p a) (pb : In p b) : a = b := by
  obtain ⟨i, hi, rfl⟩ := List.getElem_of_mem ha
  obtain ⟨j, hj, rfl⟩ := List.getElem_of_mem hb
  rw [List.pairwise_iff_getElem] at h
  unfold In at *
  rcases Nat.lt_trichotomy i j with hij | rfl | hij
  · have := h i j hi hj hij; omega
  · rfl
  · have := h j i hj hi hij; omega

/-! ## Property theorems -/

/-- **C38.**  For every list of up to 512 non-empty regions (in any order, overlapping in any way)
that do not reach the end of the 64-bit address space, normalisation finishes — after at most
`2n² + 1` rounds — and either gives up because it would need more than 512 entries (which cannot
happen with at most 16 input regions) or produces sorted, disjoint, page-aligned regions that cover
exactly the pages touched by the input and carry at each address the strictest of the input types
there. -/
theorem fix_mem_regions_partial (rs : List Region) (hs : ∀ r ∈ rs, Sane r)
    (hl : rs.length ≤ 512) (fuel : Nat) (hf : 2 * rs.length * rs.length < fuel) :
    (fixMem fuel rs = .panic ∧ 16 < rs.length) ∨
    ∃ out, fixMem fuel rs = .done out ∧ Clean out ∧ Strictest rs out := by
  rcases fixMem_ok rs hs hl fuel hf with ⟨h1, h2⟩ | ⟨out, h1, h2, h3, h4⟩
  · refine Or.inl ⟨h1, ?_⟩
    by_contra hc
    have h16 : rs.length ≤ 16 := by omega
    have : 2 * rs.length * rs.length ≤ 2 * 16 * 16 :=
      Nat.mul_le_mul (Nat.mul_le_mul_left _ h16) h16
    unfold MAX at h2
    omega
  · refine Or.inr ⟨out, h1, ⟨h4, fun r hr => ⟨(h3 r hr).pos, (h3 r hr).al, (h3 r hr).ll⟩⟩, ?_, ?_⟩
    · intro p i hi ht
      obtain ⟨r, hr, hin, _⟩ := (h2 p).2 (align i) (List.mem_map.mpr ⟨i, hi, rfl⟩)
        ((in_align (hs i hi) p).mpr ht)
      exact ⟨r, hr, hin⟩
    · intro p r hr hp
      constructor
      · obtain ⟨r0, m0, i0, t0, e0⟩ := (h2 p).1 r hr hp
        obtain ⟨i, hi, rfl⟩ := List.mem_map.mp m0
        exact ⟨i, hi, (in_align (hs i hi) p).mp i0, t0, e0⟩
      · intro i hi ht
        obtain ⟨r', hr', hin', hle⟩ := (h2 p).2 (align i) (List.mem_map.mpr ⟨i, hi, rfl⟩)
          ((in_align (hs i hi) p).mpr ht)
        have := unique_of_sorted h4 hr hr' hp hin'
        subst this
        exact hle

/-- The hypotheses are met, and the conclusion is not about trivial maps: an available region
split by a reserved one, a stricter region overlapping two others, unaligned bounds. -/
example :
    let rs : List Region := [⟨0x100000, 0x700000, 1, 0⟩, ⟨0x300010, 0x1000, 2, 2⟩,
      ⟨0x7ff000, 0x2000, 3, 0⟩, ⟨0x9fc00, 0x400, 2, 0⟩]
    (∀ r ∈ rs, Sane r) ∧ rs.length ≤ 512 ∧
    fixMem 33 rs = .done [⟨0x9f000, 0x1000, 2, 0⟩, ⟨0x100000, 0x200000, 1, 0⟩,
      ⟨0x300000, 0x2000, 2, 2⟩, ⟨0x302000, 0x4fd000, 1, 0⟩, ⟨0x7ff000, 0x2000, 3, 0⟩] := by
  decide +kernel

/-- **C38 violated, zero-length region.**  One empty reserved region at the start of an available
one: normalisation never finishes, whatever the number of rounds. -/
theorem empty_region_violated :
    ∀ fuel, fixMem fuel [⟨0x100000, 0x1000, 1, 0⟩, ⟨0x100000, 0, 2, 0⟩] = .running := by
  have h : ∀ fuel, handleAll fuel [⟨0x100000, 0x1000, 1, 0⟩, ⟨0x100000, 0, 2, 0⟩] = .running := by
    intro fuel
    induction fuel with
    | zero => rfl
    | succ n ih =>
      have h1 : passFrom MAX [⟨0x100000, 0x1000, 1, 0⟩, ⟨0x100000, 0, 2, 0⟩] 0 false =
          some ([⟨0x100000, 0x1000, 1, 0⟩, ⟨0x100000, 0, 2, 0⟩], true) := by decide +kernel
      have h2 : sortRegions [⟨0x100000, 0x1000, 1, 0⟩, ⟨0x100000, 0, 2, 0⟩] =
          some [⟨0x100000, 0x1000, 1, 0⟩, ⟨0x100000, 0, 2, 0⟩] := by decide +kernel
      unfold handleAll
      rw [h1]
      dsimp only
      rw [h2]
      exact ih
  intro fuel
  have h1 : sortRegions ([⟨0x100000, 0x1000, 1, 0⟩, ⟨0x100000, 0, 2, 0⟩].map align) =
      some [⟨0x100000, 0x1000, 1, 0⟩, ⟨0x100000, 0, 2, 0⟩] := by decide +kernel
  have h2 : merge [⟨0x100000, 0x1000, 1, 0⟩, ⟨0x100000, 0, 2, 0⟩] =
      [⟨0x100000, 0x1000, 1, 0⟩, ⟨0x100000, 0, 2, 0⟩] := by decide +kernel
  unfold fixMem
  rw [h1]
  dsimp only
  rw [h2]
  exact h fuel

/-- **C38 violated, region ending at the top of the address space.**  Its end wraps to 0, no
overlap is seen, and the address `2^64 - 4096` stays in two regions of different type. -/
theorem top_of_memory_violated :
    ∃ out, fixMem 10 [⟨W - 0x2000, 0x2000, 2, 0⟩, ⟨W - 0x1000, 0x800, 1, 0⟩] = .done out ∧
      ∃ a ∈ out, ∃ b ∈ out, In (W - 0x1000) a ∧ In (W - 0x1000) b ∧ a.type ≠ b.type :=
  ⟨[⟨W - 0x2000, 0x2000, 2, 0⟩, ⟨W - 0x1000, 0x1000, 1, 0⟩], by decide +kernel,
    ⟨W - 0x2000, 0x2000, 2, 0⟩, by simp, ⟨W - 0x1000, 0x1000, 1, 0⟩, by simp,
    by decide +kernel, by decide +kernel, by decide⟩
/-! ## The whole boot-time map -/

/-- kernel/arch/generic_x86/mmap.c:11-33 `arch_add_initial_mem_regions` (x86): the two regions it
appends. -/
def archInitial : List Region := [⟨0, 65536, 2, 4⟩, ⟨0, 1048576, 1, 4⟩]

/-- `append_mem_region` for each element of a list. -/
def appendAll : List Region → List Region → Option (List Region)
  | rs, [] => some rs
  | rs, r :: l =>
    match append rs r with
    | none => none
    | some rs' => appendAll rs' l

/-- kernel/arch/generic_x86/mmap.c:6: `MAX_DMA`. -/
def MAX_DMA : Nat := 262144
/-- 16 MB. -/
def MB16 : Nat := 16777216

/-- kernel/arch/generic_x86/mmap.c:44-45: the regions `arch_add_final_mem_regions` carves from. -/
def dmaCandidate (m : Region) : Bool := m.type == 1 && m.extra == 0 && decide (m.addr ≤ MB16)

/-- kernel/arch/generic_x86/mmap.c:39-90: the loop of `arch_add_final_mem_regions` (x86) from index
`i`, with `tot` bytes of DMA memory so far.  The count is re-read at each iteration and never
exceeds `MAX`. -/
def archFinalFrom : Nat → List Region → Nat → Nat → Option (List Region)
  | 0, rs, _, _ => some rs
  | fuel + 1, rs, i, tot =>
    match rs[i]? with
    | none => some rs
    | some m =>
      if dmaCandidate m = false then archFinalFrom fuel rs (i + 1) tot
      else if MAX_DMA ≤ tot then some rs
      else
        match append rs ⟨m.addr, min (MB16 - m.addr) (MAX_DMA - tot), 1, 16⟩ with
        | none => none
        | some rs' =>
          archFinalFrom fuel
            (rs'.set i { m with addr := add64 m.addr (min (MB16 - m.addr) (MAX_DMA - tot))
                                len := sub64 m.len (min (MB16 - m.addr) (MAX_DMA - tot)) })
            (i + 1) (tot + min (MB16 - m.addr) (MAX_DMA - tot))

/-- kernel/mm/system_mmap.c:447-454: first half of `set_lower_and_upper_kb`, a `u32`. -/
def lowerKb : List Region → Nat
  | [] => 0
  | m :: l => if m.type = 1 then m.addr / 1024 % 4294967296 else lowerKb l

/-- kernel/mm/system_mmap.c:457-465: second half, applied to the list in reverse order. -/
def upperKbRev : List Region → Nat
  | [] => 0
  | m :: l => if m.type = 1 then endOf m / 1024 % 4294967296 else upperKbRev l

/-- kernel/mm/system_mmap.c:457-465: `__mem_upper_kb`. -/
def upperKb (rs : List Region) : Nat := upperKbRev rs.reverse

/-- kernel/mm/system_mmap.c:493-518 `system_mmap_set`.  `pre`: regions appended before (the ramdisks);
`fw`: the firmware's multiboot map; `phdrs`: the kernel's load segments (lines 422-441).  The
multiboot records and ELF headers themselves are not parsed here.  The dump is not modelled. -/
def systemMmapSet (fuel : Nat) (pre fw phdrs : List Region) : Out :=
  match appendAll pre (archInitial ++ fw ++ phdrs) with
  | none => .panic
  | some rs =>
    match fixMem fuel rs with
    | .panic => .panic
    | .running => .running
    | .done mid =>
      match archFinalFrom MAX mid 0 0 with
      | none => .panic
      | some rs2 => fixMem fuel rs2

/-- kernel/mm/system_mmap.c:520-531 `system_mmap_get_region_of`, `none` for -1. -/
def getRegionOfFrom (p : Nat) : List Region → Nat → Option Nat
  | [], _ => none
  | m :: l, i => if m.addr ≤ p ∧ p < endOf m then some i else getRegionOfFrom p l (i + 1)

/-- kernel/mm/system_mmap.c:520-531. -/
def getRegionOf (rs : List Region) (p : Nat) : Option Nat := getRegionOfFrom p rs 0

/-! ### Specification -/

/-- Like `Strictest`, without the informational flags. -/
structure StrictestType (input out : List Region) : Prop where
  covered : ∀ p, ∀ i ∈ input, Touches i p → ∃ r ∈ out, In p r
  typed : ∀ p, ∀ r ∈ out, In p r →
    (∃ i ∈ input, Touches i p ∧ i.type = r.type) ∧ ∀ i ∈ input, Touches i p → i.type ≤ r.type

/-- Every region the DMA memory may be carved from is larger than what is carved. -/
def DmaFits (mid : List Region) : Prop :=
  ∀ r ∈ mid, dmaCandidate r = true → r.addr < MB16 ∧ min (MB16 - r.addr) MAX_DMA < r.len

/-! ### Lemmas -/

/-- `Ref` for types only. -/
def RefT (a b : List Region) : Prop :=
  ∀ p, (∀ r ∈ b, In p r → ∃ r0 ∈ a, In p r0 ∧ r0.type = r.type) ∧
    (∀ r0 ∈ a, In p r0 → ∃ r ∈ b, In p r ∧ r0.type ≤ r.type)

theorem RefT.refl (a : List Region) : RefT a a := fun _ =>
  ⟨fun r hr hp => ⟨r, hr, hp, rfl⟩, fun r hr hp => ⟨r, hr, hp, Nat.le_refl _⟩⟩

theorem RefT.trans {a b c : List Region} (h1 : RefT a b) (h2 : RefT b c) : RefT a c := by
  intro p
  constructor
  · intro r hr hp
    obtain ⟨r1, m1, i1, t1⟩ := (h2 p).1 r hr hp
    obtain ⟨r0, m0, i0, t0⟩ := (h1 p).1 r1 m1 i1
    exact ⟨r0, m0, i0, t0.trans t1⟩
  · intro r hr hp
    obtain ⟨r1, m1, i1, t1⟩ := (h1 p).2 r hr hp
    obtain ⟨r0, m0, i0, t0⟩ := (h2 p).2 r1 m1 i1
    exact ⟨r0, m0, i0, Nat.le_trans t1 t0⟩

theorem Ref.toT {a b : List Region} (h : Ref a b) : RefT a b := fun p =>
  ⟨fun r hr hp => by
    obtain ⟨r0, h1, h2, h3, _⟩ := (h p).1 r hr hp
    exact ⟨r0, h1, h2, h3⟩, (h p).2⟩

theorem appendAll_eq : ∀ (l rs out : List Region), appendAll rs l = some out →
    out = rs ++ l ∧ (rs.length ≤ MAX → out.length ≤ MAX)
  | [], rs, out, h => by cases h; simp
  | r :: l, rs, out, h => by
    unfold appendAll append at h
    split at h
    · cases h
    · rename_i rs' ha
      split at ha
      · cases ha
      · cases ha
        rename_i hx
        obtain ⟨h1, h2⟩ := appendAll_eq l _ out h
        refine ⟨by rw [h1]; simp, fun _ => h2 ?_⟩
        simp; omega

theorem handleAll_length : ∀ (fuel : Nat) (rs out : List Region), handleAll fuel rs = .done out →
    rs.length ≤ MAX → out.length ≤ MAX
  | 0, rs, out, h, _ => by cases h
  | fuel + 1, rs, out, h, hl => by
    unfold handleAll at h
    split at h
    · cases h
    · rename_i rs' any hp
      obtain ⟨r, s1, s2, _⟩ := sort_ok rs'
      rw [s1] at h
      dsimp only at h
      have hl' : rs'.length ≤ MAX := passFrom_len MAX rs 0 false rs' any hp hl
      have hr : r.length ≤ MAX := by rw [s2.length_eq]; exact hl'
      split at h
      · exact handleAll_length fuel r out h hr
      · cases h; exact hr

theorem mergeFrom_length : ∀ (fuel : Nat) (rs : List Region) (i : Nat),
    (mergeFrom fuel rs i).length ≤ rs.length
  | 0, rs, i => Nat.le_refl _
  | fuel + 1, rs, i => by
    unfold mergeFrom
    split
    · split
      · exact mergeFrom_length fuel rs _
      split
      · exact mergeFrom_length fuel rs _
      · refine Nat.le_trans (mergeFrom_length fuel _ _) ?_
        refine Nat.le_trans (List.length_eraseIdx_le _ _) ?_
        rw [List.length_set]
        exact Nat.le_refl _
    · exact Nat.le_refl _

theorem fixMem_length {fuel : Nat} {rs out : List Region} (h : fixMem fuel rs = .done out)
    (hl : rs.length ≤ MAX) : out.length ≤ MAX := by
  unfold fixMem at h
  obtain ⟨r, s1, s2, _⟩ := sort_ok (rs.map align)
  rw [s1] at h
  refine handleAll_length fuel (merge r) out h ?_
  have h1 := s2.length_eq
  rw [List.length_map] at h1
  have h2 : (merge r).length ≤ r.length := mergeFrom_length _ _ _
  omega

/-- Page-aligned, non-empty, below `2^64 - 4096`. -/
structure Tidy (r : Region) : Prop where
  pos : 0 < r.len
  top : r.addr + r.len + 4095 < W
  al : r.addr % 4096 = 0
  ll : r.len % 4096 = 0

theorem align_tidy {r : Region} (h : Tidy r) : align r = r := by
  obtain ⟨h1, h2, h3, h4⟩ := h
  obtain ⟨a1, a2, a3, a4, a5⟩ := align_ok (r := r) ⟨h1, h2⟩
  have e1 : (align r).addr = r.addr := by omega
  have e2 : (align r).len = r.len := by omega
  have e3 : (align r).type = r.type := rfl
  have e4 : (align r).extra = r.extra := rfl
  cases r
  cases h : align _
  simp_all

theorem map_align_tidy {rs : List Region} (h : ∀ r ∈ rs, Tidy r) : rs.map align = rs := by
  have : rs.map align = rs.map id := List.map_congr_left (fun r hr => align_tidy (h r hr))
  rw [this, List.map_id]

theorem archFinalFrom_ok : ∀ (fuel : Nat) (rs : List Region) (i tot : Nat) (out : List Region),
    archFinalFrom fuel rs i tot = some out → (∀ r ∈ rs, Tidy r) → rs.length ≤ MAX →
    tot % 4096 = 0 →
    (∀ k r, i ≤ k → rs[k]? = some r → dmaCandidate r = true →
      r.addr < MB16 ∧ min (MB16 - r.addr) MAX_DMA < r.len) →
    (∀ r ∈ out, Tidy r) ∧ out.length ≤ MAX ∧ RefT rs out
  | 0, rs, i, tot, out, h, ht, hl, _, _ => by cases h; exact ⟨ht, hl, RefT.refl _⟩
  | fuel + 1, rs, i, tot, out, h, ht, hl, hm, hf => by
    unfold archFinalFrom at h
    split at h
    · cases h; exact ⟨ht, hl, RefT.refl _⟩
    · rename_i m hi
      split at h
      · exact archFinalFrom_ok fuel rs (i + 1) tot out h ht hl hm
          (fun k r hk hr hc => hf k r (by omega) hr hc)
      rename_i hcand
      have hc : dmaCandidate m = true := by cases hb : dmaCandidate m <;> simp_all
      split at h
      · cases h; exact ⟨ht, hl, RefT.refl _⟩
      rename_i htot
      obtain ⟨f1, f2⟩ := hf i m (Nat.le_refl _) hi hc
      have tm := ht m (List.mem_of_getElem? hi)
      obtain ⟨il, _⟩ := List.getElem?_eq_some_iff.mp hi
      generalize hd : min (MB16 - m.addr) (MAX_DMA - tot) = d at h
      have hd1 : 0 < d ∧ d < m.len ∧ d % 4096 = 0 := by
        have := tm.al
        unfold MAX_DMA MB16 at *
        omega
      obtain ⟨d1, d2, d3⟩ := hd1
      have ha1 : add64 m.addr d = m.addr + d := Nat.mod_eq_of_lt (by have := tm.top; omega)
      have ha2 : sub64 m.len d = m.len - d := sub64_eq (by omega) (by have := tm.top; omega)
      rw [ha1, ha2] at h
      unfold append at h
      split at h
      · cases h
      rename_i rs' hap
      split at hap
      · cases hap
      rename_i hroom
      cases hap
      generalize hx : ({ m with addr := m.addr + d, len := m.len - d } : Region) = x at h
      have hx1 : x.addr = m.addr + d := by rw [← hx]
      have hx2 : x.len = m.len - d := by rw [← hx]
      have hx3 : x.type = m.type := by rw [← hx]
      have hset : (rs ++ [(⟨m.addr, d, 1, 16⟩ : Region)]).set i x = rs.set i x ++ [⟨m.addr, d, 1, 16⟩] :=
        List.set_append_left _ _ il
      rw [hset] at h
      have hmt : m.type = 1 := by
        unfold dmaCandidate at hc
        simp only [Bool.and_eq_true, beq_iff_eq] at hc
        exact hc.1.1
      have tx : Tidy x := by
        have := tm.top; have := tm.al; have := tm.ll
        exact ⟨by omega, by omega, by omega, by omega⟩
      have td : Tidy ⟨m.addr, d, 1, 16⟩ := by
        have := tm.top; have := tm.al
        refine ⟨d1, ?_, tm.al, d3⟩
        show m.addr + d + 4095 < W
        omega
      have ht' : ∀ r ∈ rs.set i x ++ [⟨m.addr, d, 1, 16⟩], Tidy r := by
        intro r hr
        rcases List.mem_append.mp hr with hr | hr
        · rcases List.mem_or_eq_of_mem_set hr with h | rfl
          · exact ht r h
          · exact tx
        · simp at hr; subst hr; exact td
      have hl' : (rs.set i x ++ [(⟨m.addr, d, 1, 16⟩ : Region)]).length ≤ MAX := by
        simp; omega
      have hf' : ∀ k r, i + 1 ≤ k → (rs.set i x ++ [(⟨m.addr, d, 1, 16⟩ : Region)])[k]? = some r →
          dmaCandidate r = true → r.addr < MB16 ∧ min (MB16 - r.addr) MAX_DMA < r.len := by
        intro k r hk hr hcr
        by_cases hkl : k < rs.length
        · rw [List.getElem?_append_left (by rw [List.length_set]; exact hkl),
            List.getElem?_set_ne (by omega)] at hr
          exact hf k r (by omega) hr hcr
        · rw [List.getElem?_append_right (by rw [List.length_set]; omega)] at hr
          have : r = ⟨m.addr, d, 1, 16⟩ := by
            have := List.mem_of_getElem? hr
            simpa using this
          subst this
          unfold dmaCandidate at hcr
          simp at hcr
      obtain ⟨q1, q2, q3⟩ := archFinalFrom_ok fuel _ (i + 1) (tot + d) out h ht' hl' (by omega) hf'
      · refine ⟨q1, q2, RefT.trans ?_ q3⟩
        intro p
        constructor
        · intro r hr hp
          rcases List.mem_append.mp hr with hr | hr
          · rcases List.mem_or_eq_of_mem_set hr with h | rfl
            · exact ⟨r, h, hp, rfl⟩
            · exact ⟨m, List.mem_of_getElem? hi, by unfold In at *; omega, hx3.symm⟩
          · simp at hr; subst hr
            refine ⟨m, List.mem_of_getElem? hi, ?_, hmt⟩
            unfold In at *; dsimp only at hp; omega
        · intro r hr hp
          obtain ⟨k, hk, rfl⟩ := List.getElem_of_mem hr
          by_cases hki : k = i
          · subst hki
            have hmk : rs[k] = m := by
              have := List.getElem?_eq_getElem hk
              rw [hi] at this; cases this; rfl
            rw [hmk] at hp ⊢
            by_cases hlt : p < m.addr + d
            · exact ⟨⟨m.addr, d, 1, 16⟩, List.mem_append_right _ List.mem_cons_self,
                by unfold In at *; dsimp only; omega, by dsimp only; omega⟩
            · exact ⟨x, List.mem_append_left _ (List.mem_set hk x),
                by unfold In at *; omega, by omega⟩
          · refine ⟨rs[k], List.mem_append_left _ ?_, hp, Nat.le_refl _⟩
            have : (rs.set i x)[k]'(by rw [List.length_set]; exact hk) = rs[k] :=
              List.getElem_set_ne (by omega) _
            rw [← this]; exact List.getElem_mem _

/-! ### Property theorems -/

/-- **C67.**  If every candidate for DMA memory is larger than the part carved from it, the memory
map after boot (when boot does not give up for lack of entries) is sorted, disjoint and gives each
address the strictest type stated there by the firmware, the kernel image, the ramdisks or the fixed
low-memory regions.  In particular an address is "available" only if someone declared it available
and nobody declared it anything else. -/
theorem system_mmap_set_partial (pre fw phdrs : List Region) (hpre : pre.length ≤ 512)
    (hs : ∀ r ∈ pre ++ (archInitial ++ fw ++ phdrs), Sane r ∧ r.addr + r.len + 8192 < W)
    (fuel : Nat) (hf : 2 * 512 * 512 < fuel)
    (hdma : ∀ mid, fixMem fuel (pre ++ (archInitial ++ fw ++ phdrs)) = .done mid → DmaFits mid) :
    systemMmapSet fuel pre fw phdrs = .panic ∨
    ∃ out, systemMmapSet fuel pre fw phdrs = .done out ∧ Clean out ∧
      StrictestType (pre ++ (archInitial ++ fw ++ phdrs)) out := by
  unfold systemMmapSet
  cases ha : appendAll pre (archInitial ++ fw ++ phdrs) with
  | none => exact Or.inl rfl
  | some rs =>
    obtain ⟨e, hlen⟩ := appendAll_eq _ _ _ ha
    have hlen := hlen hpre
    dsimp only
    rw [← e] at hs hdma ⊢
    have hbound : ∀ n, n ≤ MAX → 2 * n * n < fuel := by
      intro n hn
      have : 2 * n * n ≤ 2 * 512 * 512 := Nat.mul_le_mul (Nat.mul_le_mul_left _ hn) hn
      omega
    rcases fixMem_ok rs (fun r hr => (hs r hr).1) hlen fuel (hbound _ hlen) with
      ⟨h1, _⟩ | ⟨mid, h1, h2, h3, h4⟩
    · rw [h1]; exact Or.inl rfl
    · rw [h1]
      dsimp only
      have htid : ∀ r ∈ mid, Tidy r := by
        intro r hr
        have g := h3 r hr
        refine ⟨g.pos, ?_, g.al, g.ll⟩
        obtain ⟨r0, m0, i0, _⟩ := (h2 (r.addr + r.len - 1)).1 r hr (by have := g.pos; unfold In; omega)
        obtain ⟨i, hi, rfl⟩ := List.mem_map.mp m0
        obtain ⟨s1, s2⟩ := hs i hi
        obtain ⟨a1, _⟩ := align_ok s1
        unfold In at i0
        have := g.al; have := g.ll; have := g.pos
        omega
      have hmlen : mid.length ≤ MAX := fixMem_length h1 hlen
      cases hd : archFinalFrom MAX mid 0 0 with
      | none => exact Or.inl rfl
      | some rs2 =>
        dsimp only
        obtain ⟨q1, q2, q3⟩ := archFinalFrom_ok MAX mid 0 0 rs2 hd htid hmlen rfl
          (fun k r _ hr hc => hdma mid h1 r (List.mem_of_getElem? hr) hc)
        rcases fixMem_ok rs2 (fun r hr => ⟨(q1 r hr).pos, (q1 r hr).top⟩) q2 fuel (hbound _ q2) with
          ⟨g1, _⟩ | ⟨out, g1, g2, g3, g4⟩
        · exact Or.inl g1
        · rw [map_align_tidy q1] at g2
          have hall : RefT (rs.map align) out := h2.toT.trans (q3.trans g2.toT)
          refine Or.inr ⟨out, g1,
            ⟨g4, fun r hr => ⟨(g3 r hr).pos, (g3 r hr).al, (g3 r hr).ll⟩⟩, ?_, ?_⟩
          · intro p i hi ht
            obtain ⟨r, hr, hin, _⟩ := (hall p).2 (align i) (List.mem_map.mpr ⟨i, hi, rfl⟩)
              ((in_align (hs i hi).1 p).mpr ht)
            exact ⟨r, hr, hin⟩
          · intro p r hr hp
            constructor
            · obtain ⟨r0, m0, i0, t0⟩ := (hall p).1 r hr hp
              obtain ⟨i, hi, rfl⟩ := List.mem_map.mp m0
              exact ⟨i, hi, (in_align (hs i hi).1 p).mp i0, t0⟩
            · intro i hi ht
              obtain ⟨r', hr', hin', hle⟩ := (hall p).2 (align i) (List.mem_map.mpr ⟨i, hi, rfl⟩)
                ((in_align (hs i hi).1 p).mpr ht)
              have := unique_of_sorted g4 hr hr' hp hin'
              subst this
              exact hle
/-- The hypotheses are met by an ordinary PC: low memory, a kernel at 1 MB, 127 MB of memory, an
ACPI area; the DMA area is carved from low memory. -/
example :
    let fw : List Region := [⟨0, 0x9fc00, 1, 0⟩, ⟨0x9fc00, 0x400, 2, 0⟩, ⟨0xf0000, 0x10000, 2, 0⟩,
      ⟨0x100000, 0x7ee0000, 1, 0⟩, ⟨0x7fe0000, 0x20000, 3, 0⟩]
    let ph : List Region := [⟨0x100000, 0x80000, 2, 2⟩, ⟨0x180000, 0x30123, 2, 2⟩]
    let mid : List Region := [⟨0, 0x10000, 2, 4⟩, ⟨0x10000, 0x8f000, 1, 0⟩, ⟨0x9f000, 0x1000, 2, 0⟩,
      ⟨0xa0000, 0x50000, 1, 4⟩, ⟨0xf0000, 0x10000, 2, 0⟩, ⟨0x100000, 0xb1000, 2, 2⟩,
      ⟨0x1b1000, 0x7e2f000, 1, 0⟩, ⟨0x7fe0000, 0x20000, 3, 0⟩]
    (∀ r ∈ [] ++ (archInitial ++ fw ++ ph), Sane r ∧ r.addr + r.len + 8192 < W) ∧
    fixMem 600000 ([] ++ (archInitial ++ fw ++ ph)) = .done mid ∧
    (∀ r ∈ mid, dmaCandidate r = true → r.addr < MB16 ∧ min (MB16 - r.addr) MAX_DMA < r.len) ∧
    systemMmapSet 600000 [] fw ph = .done [⟨0, 0x10000, 2, 4⟩,
      ⟨0x10000, 0x40000, 1, 16⟩, ⟨0x50000, 0x4f000, 1, 0⟩, ⟨0x9f000, 0x1000, 2, 0⟩,
      ⟨0xa0000, 0x50000, 1, 4⟩, ⟨0xf0000, 0x10000, 2, 0⟩, ⟨0x100000, 0xb1000, 2, 2⟩, ⟨0x1b1000, 0x7e2f000, 1, 0⟩,
      ⟨0x7fe0000, 0x20000, 3, 0⟩] := by
  decide +kernel

/-- **C67 violated.**  The only memory above 1 MB is one page, 0x100000-0x101000.  The DMA area is
always 256 KB long, whatever the length of the region it is carved from: after boot the address
0x110000, which nobody declared, is "available", and the leftover of the region has a length near
`2^64`. -/
theorem dma_area_violated :
    ∃ out, systemMmapSet 600000 [] [⟨0x100000, 0x1000, 1, 0⟩] [] = .done out ∧
      (∃ r ∈ out, In 0x110000 r ∧ r.type = 1) ∧
      (∀ i ∈ archInitial ++ [⟨0x100000, 0x1000, 1, 0⟩], ¬ Touches i 0x110000) ∧
      ∃ r ∈ out, W - 0x40000 < r.len := by
  refine ⟨[⟨0, 0x10000, 2, 4⟩, ⟨0x10000, 0xf0000, 1, 4⟩, ⟨0x100000, 0x40000, 1, 16⟩,
    ⟨0x140000, W - 0x3f000, 1, 0⟩], by decide +kernel,
    ⟨⟨0x100000, 0x40000, 1, 16⟩, by simp, by decide +kernel, rfl⟩, ?_,
    ⟨⟨0x140000, W - 0x3f000, 1, 0⟩, by simp, by decide⟩⟩
  intro i hi
  simp only [archInitial, List.cons_append, List.nil_append, List.mem_cons, List.not_mem_nil,
    or_false] at hi
  rcases hi with rfl | rfl | rfl <;> (rintro ⟨q, hq, he⟩; unfold In at hq; dsimp only at hq; omega)

theorem getRegionOfFrom_ok (p : Nat) : ∀ (rs : List Region) (n : Nat),
    (∀ r ∈ rs, r.addr + r.len < W) →
    (∀ k, getRegionOfFrom p rs n = some k → ∃ j r, k = n + j ∧ rs[j]? = some r ∧ In p r) ∧
    (getRegionOfFrom p rs n = none → ∀ r ∈ rs, ¬ In p r)
  | [], n, _ => ⟨(fun k h => by cases h), (fun _ r hr => by simp at hr)⟩
  | m :: l, n, ht => by
    have htm : endOf m = m.addr + m.len := Nat.mod_eq_of_lt (ht m List.mem_cons_self)
    unfold getRegionOfFrom
    rw [htm]
    split
    · rename_i h
      refine ⟨fun k hk => ?_, (fun hk => by cases hk)⟩
      cases hk
      exact ⟨0, m, rfl, rfl, h⟩
    · rename_i h
      obtain ⟨q1, q2⟩ := getRegionOfFrom_ok p l (n + 1) (fun r hr => ht r (List.mem_cons_of_mem _ hr))
      constructor
      · intro k hk
        obtain ⟨j, r, e, h1, h2⟩ := q1 k hk
        exact ⟨j + 1, r, by omega, by simpa using h1, h2⟩
      · intro hk r hr
        rcases List.mem_cons.mp hr with rfl | hr
        · exact h
        · exact q2 hk r hr

/-- **C67**, looking an address up: in a normalised map inside the address space, the index returned
is that of the one region containing the address, and -1 means no region contains it. -/
theorem get_region_of (rs : List Region) (hc : Clean rs) (ht : ∀ r ∈ rs, r.addr + r.len < W)
    (p : Nat) :
    match getRegionOf rs p with
    | some k => ∃ r, rs[k]? = some r ∧ In p r ∧ ∀ r' ∈ rs, In p r' → r' = r
    | none => ∀ r ∈ rs, ¬ In p r := by
  obtain ⟨h1, h2⟩ := getRegionOfFrom_ok p rs 0 ht
  unfold getRegionOf
  cases h : getRegionOfFrom p rs 0 with
  | none => exact h2 h
  | some k =>
    obtain ⟨j, r, e, hj, hin⟩ := h1 k h
    have : k = j := by omega
    subst this
    exact ⟨r, hj, hin, fun r' hr' hin' =>
      unique_of_sorted hc.sorted hr' (List.mem_of_getElem? hj) hin' hin⟩

theorem lowerKb_ok : ∀ (rs : List Region),
    rs.Pairwise (fun a b => a.addr + a.len ≤ b.addr) → (∀ r ∈ rs, r.addr < 1024 * 4294967296) →
    (∀ r ∈ rs, r.type = 1 → lowerKb rs * 1024 ≤ r.addr) ∧
    ((∃ r ∈ rs, r.type = 1) → ∃ r ∈ rs, r.type = 1 ∧ lowerKb rs = r.addr / 1024)
  | [], _, _ => ⟨(fun r hr => by simp at hr), (fun ⟨r, hr, _⟩ => by simp at hr)⟩
  | m :: l, hs, hb => by
    have hm := hb m List.mem_cons_self
    obtain ⟨q1, q2⟩ := lowerKb_ok l (List.Pairwise.of_cons hs)
      (fun r hr => hb r (List.mem_cons_of_mem _ hr))
    have hrel := (List.pairwise_cons.mp hs).1
    unfold lowerKb
    split
    · rename_i ht
      have e : m.addr / 1024 % 4294967296 = m.addr / 1024 := Nat.mod_eq_of_lt (by omega)
      rw [e]
      constructor
      · intro r hr _
        rcases List.mem_cons.mp hr with rfl | hr
        · omega
        · have := hrel r hr; omega
      · intro _; exact ⟨m, List.mem_cons_self, ht, rfl⟩
    · rename_i ht
      constructor
      · intro r hr h1
        rcases List.mem_cons.mp hr with rfl | hr
        · exact absurd h1 ht
        · exact q1 r hr h1
      · rintro ⟨r, hr, h1⟩
        rcases List.mem_cons.mp hr with rfl | hr
        · exact absurd h1 ht
        · obtain ⟨r', a, b, c⟩ := q2 ⟨r, hr, h1⟩
          exact ⟨r', List.mem_cons_of_mem _ a, b, c⟩

theorem upperKbRev_ok : ∀ (rs : List Region),
    rs.Pairwise (fun a b => b.addr + b.len ≤ a.addr) →
    (∀ r ∈ rs, r.addr + r.len < 1024 * 4294967296 ∧ (r.addr + r.len) % 1024 = 0) →
    (∀ r ∈ rs, r.type = 1 → r.addr + r.len ≤ upperKbRev rs * 1024) ∧
    ((∃ r ∈ rs, r.type = 1) → ∃ r ∈ rs, r.type = 1 ∧ upperKbRev rs * 1024 = r.addr + r.len)
  | [], _, _ => ⟨(fun r hr => by simp at hr), (fun ⟨r, hr, _⟩ => by simp at hr)⟩
  | m :: l, hs, hb => by
    have hm := hb m List.mem_cons_self
    obtain ⟨q1, q2⟩ := upperKbRev_ok l (List.Pairwise.of_cons hs)
      (fun r hr => hb r (List.mem_cons_of_mem _ hr))
    have hrel := (List.pairwise_cons.mp hs).1
    have he : endOf m = m.addr + m.len := Nat.mod_eq_of_lt (by unfold W; omega)
    unfold upperKbRev
    split
    · rename_i ht
      have e : endOf m / 1024 % 4294967296 = (m.addr + m.len) / 1024 := by
        rw [he]; exact Nat.mod_eq_of_lt (by omega)
      rw [e]
      constructor
      · intro r hr _
        rcases List.mem_cons.mp hr with rfl | hr
        · omega
        · have := hrel r hr; omega
      · intro _; exact ⟨m, List.mem_cons_self, ht, by omega⟩
    · rename_i ht
      constructor
      · intro r hr h1
        rcases List.mem_cons.mp hr with rfl | hr
        · exact absurd h1 ht
        · exact q1 r hr h1
      · rintro ⟨r, hr, h1⟩
        rcases List.mem_cons.mp hr with rfl | hr
        · exact absurd h1 ht
        · obtain ⟨r', a, b, c⟩ := q2 ⟨r, hr, h1⟩
          exact ⟨r', List.mem_cons_of_mem _ a, b, c⟩

/-- **C67**, the bounds of physical memory: in a normalised map below 4 TB, `__mem_lower_kb` and
`__mem_upper_kb` are the lowest address and the highest end of an available region. -/
theorem memory_bounds_partial (rs : List Region) (hc : Clean rs)
    (hb : ∀ r ∈ rs, r.addr + r.len < 1024 * 4294967296) :
    (∀ r ∈ rs, r.type = 1 → lowerKb rs * 1024 ≤ r.addr ∧ r.addr + r.len ≤ upperKb rs * 1024) ∧
    ((∃ r ∈ rs, r.type = 1) →
      (∃ r ∈ rs, r.type = 1 ∧ lowerKb rs * 1024 = r.addr) ∧
      (∃ r ∈ rs, r.type = 1 ∧ upperKb rs * 1024 = r.addr + r.len)) := by
  obtain ⟨l1, l2⟩ := lowerKb_ok rs hc.sorted (fun r hr => by have := hb r hr; omega)
  obtain ⟨u1, u2⟩ := upperKbRev_ok rs.reverse (List.pairwise_reverse.mpr hc.sorted)
    (fun r hr => by
      have hr := List.mem_reverse.mp hr
      have := hb r hr
      have := hc.pages r hr
      omega)
  refine ⟨fun r hr h1 => ⟨l1 r hr h1, u1 r (List.mem_reverse.mpr hr) h1⟩, fun ⟨r, hr, h1⟩ => ⟨?_, ?_⟩⟩
  · obtain ⟨r', a, b, c⟩ := l2 ⟨r, hr, h1⟩
    have := hc.pages r' a
    exact ⟨r', a, b, by omega⟩
  · obtain ⟨r', a, b, c⟩ := u2 ⟨r, List.mem_reverse.mpr hr, h1⟩
    exact ⟨r', List.mem_reverse.mp a, b, c⟩

/-- A map on which both lookups are exercised. -/
example :
    let rs : List Region := [⟨0, 0x10000, 2, 4⟩, ⟨0x10000, 0x8f000, 1, 4⟩, ⟨0x100000, 0x1000, 1, 0⟩]
    Clean rs ∧ getRegionOf rs 0x10fff = some 1 ∧ getRegionOf rs 0xfffff = none ∧
      lowerKb rs = 64 ∧ upperKb rs = 1028 :=
  ⟨⟨by decide, by decide⟩, by decide +kernel, by decide +kernel, by decide, by decide +kernel⟩

end Verif.MemMap
