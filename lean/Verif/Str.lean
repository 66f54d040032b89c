/-!
# C string helpers (common/string_util.c)

Properties C48-C51.

A C string is the list of its characters before the terminating NUL; a character is the signed
value of a `char` (any non-zero integer here).  Reading the element after the last one yields the
terminator 0; the functions below never look further (a second read past the end is not possible
by construction, as in the C code, where the loops stop at the terminator).
-/
namespace Verif.Str

/-- `*s`: the pointed character, 0 at the terminator. -/
def cur : List Int → Int
  | [] => 0
  | c :: _ => c

/-- common/string_util.c:49-56 `strcmp`. -/
def strcmp : List Int → List Int → Int
  | a :: s1, b :: s2 => if a = b then strcmp s1 s2 else a - b
  | [], s2 => 0 - cur s2
  | a :: _, [] => a - 0

/-- common/string_util.c:58-67 `strncmp`. -/
def strncmp : List Int → List Int → Nat → Int
  | _, _, 0 => 0
  | a :: s1, b :: s2, n + 1 => if a = b then strncmp s1 s2 n else a - b
  | [], s2, _ + 1 => 0 - cur s2
  | a :: _, [], _ + 1 => a - 0

/-- common/string_util.c:92-99: the search loop; returns the offset from the start. -/
def strstrLoop (needle : List Int) : List Int → Nat → Option Nat
  | [], _ => none
  | c :: h, off =>
    if needle.length ≤ (c :: h).length then
      if c = cur needle ∧ strncmp (c :: h) needle needle.length = 0 then some off
      else strstrLoop needle h (off + 1)
    else none

/-- common/string_util.c:82-102 `tilck_strstr`: offset of the match, `none` for NULL. -/
def strstr (haystack needle : List Int) : Option Nat :=
  if cur haystack = 0 ∨ cur needle = 0 then none else strstrLoop needle haystack 0

/-- common/string_util.c:354-365 `strrchr`: scan backwards from the terminator.
`i` is `last - s`. -/
def strrchrLoop (s : List Int) (c : Int) : Nat → Option Nat
  | 0 => if (s ++ [0])[0]? = some c then some 0 else none
  | i + 1 => if (s ++ [0])[i + 1]? = some c then some (i + 1) else strrchrLoop s c i

def strrchr (s : List Int) (c : Int) : Option Nat := strrchrLoop s c s.length

/-- Byte memory. -/
abbrev Mem := Nat → Nat

def Mem.set (m : Mem) (a v : Nat) : Mem := fun x => if x = a then v else m x

/-- common/string_util.c:279-287 `memcpy` (forward byte copy). -/
def memcpy (m : Mem) (dest src : Nat) : Nat → Mem
  | 0 => m
  | n + 1 => memcpy (m.set dest (m src)) (dest + 1) (src + 1) n

/-- common/string_util.c:301-306: the backward copy loop; `tmp = dest + count`, `s = src + count`. -/
def memcpyBack (m : Mem) (dest src : Nat) : Nat → Mem
  | 0 => m
  | n + 1 => memcpyBack (m.set (dest + n) (m (src + n))) dest src n

/-- common/string_util.c:290-310 `memmove`. -/
def memmove (m : Mem) (dest src count : Nat) : Mem :=
  if dest ≤ src then memcpy m dest src count else memcpyBack m dest src count

/-- common/string_util.c:126-140 `tilck_strncpy`: `dest` at address `d`; `i` characters already
copied; the string continues with `s`. -/
def strncpyLoop (m : Mem) (d : Nat) (i n : Nat) : List Nat → Mem
  | [] => if i < n then m.set d 0 else m
  | c :: s => if i < n then strncpyLoop (m.set d c) (d + 1) (i + 1) n s else m

def strncpy (m : Mem) (d : Nat) (s : List Nat) (n : Nat) : Mem := strncpyLoop m d 0 n s

/-- common/string_util.c:210-230 `str_reverse`, loop with `i = str - base`, `j = end - base`;
XOR swap on bytes; `none` if an access leaves the string. -/
def strReverseLoop (fuel : Nat) (s : List Nat) (i j : Nat) : Option (List Nat) :=
  match fuel with
  | 0 => some s
  | fuel + 1 =>
    if i < j then
      match s[i]?, s[j]? with
      | some a, some b =>
        let a1 := a ^^^ b
        let b1 := b ^^^ a1
        let a2 := a1 ^^^ b1
        strReverseLoop fuel ((s.set i a2).set j b1) (i + 1) (j - 1)
      | _, _ => none
    else some s

/-- common/string_util.c:210-230 `str_reverse` with `len = strlen(str)`. The loop runs at most
`len` times, which bounds the model's recursion. -/
def strReverse (s : List Nat) : Option (List Nat) :=
  if s.length = 0 then some s else strReverseLoop s.length s 0 (s.length - 1)

/-! ## Specification -/

/-- Lexicographic comparison of character sequences where a proper prefix comes first, given the
order `<` on characters extended with the terminator 0. -/
def LexLt (a b : List Int) : Prop :=
  ∃ n, a.take n = b.take n ∧ n ≤ a.length ∧ n ≤ b.length ∧ cur (a.drop n) < cur (b.drop n)

/-- A C string contains no NUL. -/
def IsCStr (s : List Int) : Prop := ∀ c ∈ s, c ≠ 0

/-! ## Lemmas and property theorems -/

/-- **C48.** `strcmp` returns 0 exactly for equal strings. -/
theorem strcmp_eq_zero_iff {a b : List Int} (ha : IsCStr a) (hb : IsCStr b) :
    strcmp a b = 0 ↔ a = b := by
  induction a generalizing b with
  | nil =>
    cases b with
    | nil => simp [strcmp, cur]
    | cons y ys => have := hb y (by simp); simp [strcmp, cur]; omega
  | cons x xs ih =>
    cases b with
    | nil => have := ha x (by simp); simp [strcmp]; omega
    | cons y ys =>
      simp only [strcmp]
      have iha := ih (b := ys) (fun c hc => ha c (List.mem_cons_of_mem _ hc))
        (fun c hc => hb c (List.mem_cons_of_mem _ hc))
      split
      · rename_i h; subst h; simp [iha]
      · rename_i h; simp [h]; omega

/-- **C48.** A negative result means lexicographically smaller, a positive one means larger. -/
theorem strcmp_neg_iff {a b : List Int} (ha : IsCStr a) (hb : IsCStr b) :
    strcmp a b < 0 ↔ LexLt a b := by
  induction a generalizing b with
  | nil =>
    have : strcmp [] b = 0 - cur b := by cases b <;> rfl
    rw [this]
    constructor
    · intro h; exact ⟨0, by simp, by simp, by simp, by simp [cur] at *; omega⟩
    · rintro ⟨n, h1, h2, h3, h4⟩
      simp at h2; subst h2; simp [cur] at h4 ⊢; omega
  | cons x xs ih =>
    cases b with
    | nil =>
      constructor
      · intro h; exact ⟨0, by simp, by simp, by simp, by simp [strcmp, cur] at *; omega⟩
      · rintro ⟨n, h1, h2, h3, h4⟩
        simp at h3; subst h3; simp [cur, strcmp] at h4 ⊢; omega
    | cons y ys =>
      have iha := ih (b := ys) (fun c hc => ha c (List.mem_cons_of_mem _ hc))
        (fun c hc => hb c (List.mem_cons_of_mem _ hc))
      simp only [strcmp]
      split
      · rename_i h; subst h
        rw [iha]
        constructor
        · rintro ⟨n, h1, h2, h3, h4⟩
          exact ⟨n + 1, by simp [h1], by simp; omega, by simp; omega, by simpa using h4⟩
        · rintro ⟨n, h1, h2, h3, h4⟩
          cases n with
          | zero => simp [cur] at h4
          | succ n =>
            exact ⟨n, by simpa using h1, by simp at h2; omega, by simp at h3; omega, by simpa using h4⟩
      · rename_i h
        constructor
        · intro h'; exact ⟨0, by simp, by simp, by simp, by simp [cur]; omega⟩
        · rintro ⟨n, h1, h2, h3, h4⟩
          cases n with
          | zero => simp [cur] at h4; omega
          | succ n => simp at h1; exact absurd h1.1 h

/-- **C48.** Swapping the arguments flips the sign. -/
theorem strcmp_antisymm (a b : List Int) : strcmp b a = - strcmp a b := by
  induction a generalizing b with
  | nil => cases b <;> simp [strcmp, cur]
  | cons x xs ih =>
    cases b with
    | nil => simp [strcmp, cur]
    | cons y ys =>
      simp only [strcmp]
      by_cases h : x = y
      · subst h; simp [ih]
      · rw [if_neg h, if_neg (Ne.symm h)]; omega

/-- **C48.** `strncmp(a,b,n)` compares exactly the first `n` characters. -/
theorem strncmp_eq (a b : List Int) (n : Nat) :
    strncmp a b n = strcmp (a.take n) (b.take n) := by
  induction a generalizing b n with
  | nil =>
    cases n with
    | zero => simp [strncmp, strcmp, cur]
    | succ n => cases b <;> simp [strncmp, strcmp, cur]
  | cons x xs ih =>
    cases n with
    | zero => simp [strncmp, strcmp, cur]
    | succ n =>
      cases b with
      | nil => simp [strncmp, strcmp]
      | cons y ys => simp [strncmp, strcmp, ih]

/-- `needle` occurs in `h` at offset `k`. -/
def OccursAt (h needle : List Int) (k : Nat) : Prop :=
  k + needle.length ≤ h.length ∧ (h.drop k).take needle.length = needle

theorem strncmp_zero_iff {h nd : List Int} (hh : IsCStr h) (hn : IsCStr nd) :
    strncmp h nd nd.length = 0 ↔ h.take nd.length = nd := by
  rw [strncmp_eq, List.take_length]
  exact strcmp_eq_zero_iff (fun c hc => hh c (List.mem_of_mem_take hc)) hn

theorem strstrLoop_spec {nd : List Int} (hn : IsCStr nd) (hne : nd ≠ []) (h : List Int) :
    ∀ off, IsCStr h →
      (∀ r, strstrLoop nd h off = some r → ∃ k, r = off + k ∧ OccursAt h nd k ∧
        ∀ j < k, ¬ OccursAt h nd j) ∧
      (strstrLoop nd h off = none → ∀ k, ¬ OccursAt h nd k) := by
  have hpos : 0 < nd.length := List.length_pos_iff.mpr hne
  induction h with
  | nil =>
    intro off _
    refine ⟨by simp [strstrLoop], ?_⟩
    intro _ k hk
    have := hk.1
    simp only [List.length_nil] at this; omega
  | cons c h ih =>
    intro off hs
    have hs' : IsCStr h := fun x hx => hs x (List.mem_cons_of_mem _ hx)
    have hsucc : ∀ k, OccursAt (c :: h) nd (k + 1) ↔ OccursAt h nd k := by
      intro k; simp [OccursAt]; omega
    simp only [strstrLoop]
    by_cases hl : nd.length ≤ (c :: h).length
    · rw [if_pos hl]
      by_cases hm : c = cur nd ∧ strncmp (c :: h) nd nd.length = 0
      · rw [if_pos hm]
        refine ⟨?_, by simp⟩
        intro r hr
        simp at hr; subst hr
        refine ⟨0, rfl, ⟨by omega, ?_⟩, by simp⟩
        exact (strncmp_zero_iff hs hn).mp hm.2
      · rw [if_neg hm]
        have h0 : ¬ OccursAt (c :: h) nd 0 := by
          rintro ⟨_, h2⟩
          apply hm
          simp only [List.drop_zero] at h2
          refine ⟨?_, (strncmp_zero_iff hs hn).mpr h2⟩
          cases nd with
          | nil => exact absurd rfl hne
          | cons a t => simp at h2; simp [cur, h2.1]
        obtain ⟨ih1, ih2⟩ := ih (off + 1) hs'
        constructor
        · intro r hr
          obtain ⟨k, hk1, hk2, hk3⟩ := ih1 r hr
          refine ⟨k + 1, by omega, (hsucc k).mpr hk2, ?_⟩
          intro j hj
          cases j with
          | zero => exact h0
          | succ j => rw [hsucc]; exact hk3 j (by omega)
        · intro hr k
          cases k with
          | zero => exact h0
          | succ k => rw [hsucc]; exact ih2 hr k
    · rw [if_neg hl]
      refine ⟨by simp, ?_⟩
      intro _ k hk
      have := hk.1; omega

/-- **C49 (partial).**  For a non-empty needle, `strstr` returns the offset of the *first* occurrence, and
NULL exactly when there is none.  (Missing: the empty needle, see `strstr_empty_needle_violated`.) -/
theorem strstr_first_occurrence_partial {h nd : List Int} (hh : IsCStr h) (hn : IsCStr nd)
    (hne : nd ≠ []) :
    (∀ k, strstr h nd = some k ↔ OccursAt h nd k ∧ ∀ j < k, ¬ OccursAt h nd j) ∧
    (strstr h nd = none ↔ ∀ k, ¬ OccursAt h nd k) := by
  have hpos : 0 < nd.length := List.length_pos_iff.mpr hne
  have hnd : cur nd ≠ 0 := by
    cases nd with
    | nil => exact absurd rfl hne
    | cons a t => exact hn a (by simp)
  have key : (∀ r, strstr h nd = some r → OccursAt h nd r ∧ ∀ j < r, ¬ OccursAt h nd j) ∧
      (strstr h nd = none → ∀ k, ¬ OccursAt h nd k) := by
    cases h with
    | nil =>
      refine ⟨by simp [strstr, cur], ?_⟩
      intro _ k hk
      have := hk.1; simp only [List.length_nil] at this; omega
    | cons c t =>
      have hc : c ≠ 0 := hh c (by simp)
      have := strstrLoop_spec hn hne (c :: t) 0 hh
      have hst : strstr (c :: t) nd = strstrLoop nd (c :: t) 0 := by
        unfold strstr; rw [if_neg]; rintro (h | h)
        · exact hc h
        · exact hnd h
      rw [hst]
      refine ⟨?_, this.2⟩
      intro r hr
      obtain ⟨k, h1, h2, h3⟩ := this.1 r hr
      rw [Nat.zero_add] at h1; subst h1; exact ⟨h2, h3⟩
  constructor
  · intro k
    constructor
    · exact key.1 k
    · rintro ⟨h1, h2⟩
      cases hr : strstr h nd with
      | none => exact absurd h1 (key.2 hr k)
      | some r =>
        have h3 := key.1 r hr
        rcases Nat.lt_trichotomy r k with h4 | h4 | h4
        · exact absurd h3.1 (h2 r h4)
        · rw [h4]
        · exact absurd h1 (h3.2 k h4)
  · constructor
    · exact key.2
    · intro hall
      cases hr : strstr h nd with
      | none => rfl
      | some r => exact absurd (key.1 r hr).1 (hall r)

/-- **C49 violated** for the empty needle: the C standard requires the match at offset 0 (the empty
string occurs everywhere), `tilck_strstr` returns NULL. -/
theorem strstr_empty_needle_violated : ∃ h : List Int, IsCStr h ∧ OccursAt h [] 0 ∧
    strstr h [] = none :=
  ⟨[97], by simp [IsCStr], by simp [OccursAt], by decide⟩

example : strstr [97, 98, 97, 98, 99] [97, 98, 99] = some 2 := by decide

/-- **C49.** `strrchr` returns the last position of a non-NUL character, NULL iff absent. -/
theorem strrchr_last (s : List Int) (c : Int) (hc : c ≠ 0) :
    (∀ k, strrchr s c = some k → s[k]? = some c ∧ ∀ j : Nat, k < j → s[j]? ≠ some c) ∧
    (strrchr s c = none → ∀ k : Nat, s[k]? ≠ some c) := by
  have hx : ∀ j : Nat, (s ++ [0])[j]? = some c ↔ s[j]? = some c := by
    intro j
    by_cases hj : j < s.length
    · rw [List.getElem?_append_left hj]
    · rw [List.getElem?_append_right (by omega), List.getElem?_eq_none (l := s) (by omega)]
      constructor
      · intro h
        cases hk : j - s.length with
        | zero => rw [hk] at h; simp at h; exact absurd h.symm hc
        | succ n => rw [hk] at h; simp at h
      · intro h; simp at h
  have key : ∀ i : Nat, (∀ j : Nat, i < j → s[j]? ≠ some c) →
      (∀ k, strrchrLoop s c i = some k → s[k]? = some c ∧ ∀ j : Nat, k < j → s[j]? ≠ some c) ∧
      (strrchrLoop s c i = none → ∀ k : Nat, s[k]? ≠ some c) := by
    intro i
    induction i with
    | zero =>
      intro hi
      simp only [strrchrLoop, hx]
      split
      · rename_i h
        refine ⟨?_, by simp⟩
        intro k hk; simp at hk; subst hk; exact ⟨h, hi⟩
      · rename_i h
        refine ⟨by simp, ?_⟩
        intro _ k
        cases k with
        | zero => exact h
        | succ k => exact hi _ (by omega)
    | succ i ih =>
      intro hi
      simp only [strrchrLoop, hx]
      split
      · rename_i h
        refine ⟨?_, by simp⟩
        intro k hk; simp at hk; subst hk; exact ⟨h, hi⟩
      · rename_i h
        apply ih
        intro j hj
        by_cases hji : j = i + 1
        · subst hji; exact h
        · exact hi j (by omega)
  exact key s.length (fun j hj => by rw [List.getElem?_eq_none (by omega)]; simp)

/-! ### Memory copies -/

theorem memcpy_spec (n : Nat) : ∀ (m : Mem) (d s : Nat), d ≤ s ∨ s + n ≤ d →
    ∀ x, memcpy m d s n x = if d ≤ x ∧ x < d + n then m (s + (x - d)) else m x := by
  induction n with
  | zero => intro m d s _ x; simp [memcpy]; omega
  | succ n ih =>
    intro m d s h x
    rw [memcpy, ih _ _ _ (by omega)]
    simp only [Mem.set]
    repeat' split
    all_goals first | (exfalso; omega) | rfl | (congr 1; omega) | (subst_vars; congr 1; omega)

theorem memcpyBack_spec (n : Nat) : ∀ (m : Mem) (d s : Nat), s ≤ d →
    ∀ x, memcpyBack m d s n x = if d ≤ x ∧ x < d + n then m (s + (x - d)) else m x := by
  induction n with
  | zero => intro m d s _ x; simp [memcpyBack]; omega
  | succ n ih =>
    intro m d s h x
    rw [memcpyBack, ih _ _ _ h]
    simp only [Mem.set]
    repeat' split
    all_goals first | (exfalso; omega) | rfl | (congr 1; omega) | (subst_vars; congr 1; omega)

/-- **C50.** `memmove` copies `count` bytes as they were before the call, whatever the overlap, and
changes nothing else. -/
theorem memmove_correct (m : Mem) (dest src count : Nat) (x : Nat) :
    memmove m dest src count x =
      if dest ≤ x ∧ x < dest + count then m (src + (x - dest)) else m x := by
  unfold memmove
  split
  · exact memcpy_spec count m dest src (by omega) x
  · exact memcpyBack_spec count m dest src (by omega) x

/-- **C50.** `memcpy` is a correct copy when the areas do not overlap or `dest ≤ src` (the case used
by `remove_mem_region`, kernel/mm/system_mmap.c:124). -/
theorem memcpy_correct (m : Mem) (dest src count : Nat) (h : dest ≤ src ∨ src + count ≤ dest)
    (x : Nat) : memcpy m dest src count x =
      if dest ≤ x ∧ x < dest + count then m (src + (x - dest)) else m x :=
  memcpy_spec count m dest src h x

/-- **C50.** The remaining overlap direction really is not supported by `memcpy`. -/
theorem memcpy_overlap_not_memmove : ∃ (m : Mem) (dest src count x : Nat),
    memcpy m dest src count x ≠ memmove m dest src count x :=
  ⟨fun a => a, 1, 0, 2, 2, by decide⟩

theorem strncpyLoop_spec (s : List Nat) : ∀ (m : Mem) (d i n x : Nat), i ≤ n →
    strncpyLoop m d i n s x =
      if d ≤ x ∧ x < d + min s.length (n - i) then s.getD (x - d) 0
      else if x = d + s.length ∧ s.length < n - i then 0 else m x := by
  induction s with
  | nil =>
    intro m d i n x hi
    simp only [strncpyLoop]
    simp only [List.length_nil]
    repeat' split
    all_goals try simp only [Mem.set]
    all_goals (repeat' split)
    all_goals first | (exfalso; omega) | rfl
  | cons c t ih =>
    intro m d i n x hi
    simp only [strncpyLoop]
    split
    · rw [ih _ _ _ _ _ (by omega)]
      simp only [List.length_cons, Mem.set]
      repeat' split
      all_goals first
        | (exfalso; omega)
        | rfl
        | (rw [show x - d = (x - (d+1)) + 1 by omega, List.getD_cons_succ])
        | (rw [show x - d = 0 by omega]; simp)
    · rw [if_neg (by simp only [List.length_cons]; omega), if_neg (by simp only [List.length_cons]; omega)]

/-- **C51.** `strncpy(dest, s, n)` writes the first `min(strlen s, n)` characters, then one NUL only
if the string is shorter than `n`, and touches no byte outside `[dest, dest+n)`. -/
theorem strncpy_spec (m : Mem) (d n : Nat) (s : List Nat) (x : Nat) :
    strncpy m d s n x =
      if d ≤ x ∧ x < d + min s.length n then s.getD (x - d) 0
      else if x = d + s.length ∧ s.length < n then 0 else m x := by
  have := strncpyLoop_spec s m d 0 n x (by omega)
  simpa [strncpy] using this

theorem strncpy_in_bounds (m : Mem) (d n : Nat) (s : List Nat) (x : Nat)
    (hx : x < d ∨ d + n ≤ x) : strncpy m d s n x = m x := by
  rw [strncpy_spec, if_neg (by omega), if_neg (by omega)]

/-- **C51 violated** (C standard / POSIX): `strncpy` must pad with NULs up to `n`; bytes after the
first NUL keep their old value here. -/
theorem strncpy_no_padding_violated : ∃ (m : Mem) (s : List Nat) (x : Nat),
    s.length < x ∧ x < 4 ∧ strncpy m 0 s 4 x ≠ 0 :=
  ⟨fun _ => 7, [65], 2, by decide, by decide, by decide⟩

/-! ### In-place reversal -/

theorem xor_swap (a b : Nat) : (b ^^^ (a ^^^ b)) = a ∧ ((a ^^^ b) ^^^ a) = b := by
  constructor
  · rw [Nat.xor_comm a b, ← Nat.xor_assoc, Nat.xor_self, Nat.zero_xor]
  · rw [Nat.xor_comm a b, Nat.xor_assoc, Nat.xor_self, Nat.xor_zero]

theorem strReverseLoop_eq (n : Nat) : ∀ (P M S : List Nat), P.length = S.length → M ≠ [] →
    M.length ≤ n →
    strReverseLoop n (P ++ M ++ S) P.length (P.length + M.length - 1) = some (P ++ M.reverse ++ S) := by
  induction n with
  | zero =>
    intro P M S _ hM hn
    exact absurd (List.length_eq_zero_iff.mp (by omega)) hM
  | succ n ih =>
    intro P M S hPS hM hn
    match M, hM with
    | [x], _ => simp [strReverseLoop]
    | x :: z :: M', _ =>
      obtain ⟨M'', y, hM''⟩ : ∃ M'' y, z :: M' = M'' ++ [y] :=
        ⟨(z :: M').dropLast, (z :: M').getLast (by simp), (List.dropLast_concat_getLast (by simp)).symm⟩
      rw [hM''] at hn ⊢
      have hi : (P ++ (x :: (M'' ++ [y])) ++ S)[P.length]? = some x := by simp
      have hidx : P.length + (x :: (M'' ++ [y])).length - 1 = P.length + (M''.length + 1) := by
        simp
      have hj : (P ++ (x :: (M'' ++ [y])) ++ S)[P.length + (M''.length + 1)]? = some y := by
        simp [List.getElem?_append]
      have hs : ((P ++ (x :: (M'' ++ [y])) ++ S).set P.length y).set (P.length + (M''.length + 1)) x =
          (P ++ [y]) ++ M'' ++ (x :: S) := by
        simp [List.set_append]
      simp only [strReverseLoop, hidx, hi, hj, (xor_swap x y).1, (xor_swap x y).2, hs]
      rw [if_pos (by omega)]
      cases M'' with
      | nil =>
        cases n with
        | zero => simp [strReverseLoop]
        | succ n => simp [strReverseLoop]; omega
      | cons w M3 =>
        have := ih (P ++ [y]) (w :: M3) (x :: S) (by simp [hPS]) (by simp) (by simp at hn ⊢; omega)
        simp only [List.length_append, List.length_singleton] at this
        rw [show P.length + ((w :: M3).length + 1) - 1 = P.length + 1 + (w :: M3).length - 1 by omega,
          this]
        simp

/-- **C06 (helper).** `str_reverse` reverses any string in place, inside its bounds. -/
theorem str_reverse_correct (s : List Nat) : strReverse s = some s.reverse := by
  unfold strReverse
  split
  · rename_i h; have := List.length_eq_zero_iff.mp h; subst this; rfl
  · rename_i h
    have hne : s ≠ [] := by rintro rfl; simp at h
    have := strReverseLoop_eq s.length [] s [] rfl hne (Nat.le_refl _)
    simpa using this

example : strReverse [1, 2, 3, 4] = some [4, 3, 2, 1] := by decide

end Verif.Str
