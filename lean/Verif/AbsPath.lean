/-!
# Absolute path computation (kernel/fs/vfs_util.c)

Property C08.  Characters are byte codes: `/` is 47 and `.` is 46.  `dest` is represented by the
list of characters written so far (so `d - dest` is its length); every store is checked against
`dest_s` and a violation, like a failed ASSERT, is the outcome `none`.
-/
namespace Verif.AbsPath

inductive Out
  | enoent
  | enametoolong
  | ok (text : List Nat)
  deriving DecidableEq, Repr

/-- kernel/fs/vfs_util.c:14-26, the loop of `drop_last_component`; the argument is `d - dest`, the
index of the last character still kept; returns the new `d - dest`. -/
def dropLoop (d : List Nat) : Nat → Nat
  | 0 => 0
  | 1 => 1
  | i + 2 => if d[i + 1]? = some 47 then i + 2 else dropLoop d (i + 1)

/-- kernel/fs/vfs_util.c:7-29 `drop_last_component`. The zeroing of the dropped characters is not
represented (they are past the end of the string). -/
def dropLastComponent (d : List Nat) : Option (List Nat) :=
  if d.getLast? = some 47 then some (d.take (dropLoop d (d.length - 1))) else none

/-- `*d++ = c` with the bound of the buffer. -/
def put (cap : Nat) (d : List Nat) (c : Nat) : Option (List Nat) :=
  if d.length < cap then some (d ++ [c]) else none

/-- kernel/fs/vfs_util.c:64-110, the main loop; `fuel` bounds the number of iterations (running out
of it is `none`). Each line of the C loop body is one branch. -/
def loop (cap : Nat) : Nat → List Nat → List Nat → Option (List Nat)
  | _, [], d => some d
  | 0, _ :: _, _ => none
  | fuel + 1, c :: p, d =>
    if c = 47 ∧ p.head? = some 47 then loop cap fuel p d           -- :66-68
    else if c ≠ 46 then                                            -- :70-71
      (put cap d c).bind (loop cap fuel p)
    else if 0 < d.length ∧ d.getLast? ≠ some 47 then               -- :75-76
      (put cap d c).bind (loop cap fuel p)
    else if p.head? = some 47 ∨ p = [] then loop cap fuel (p.drop 1) d   -- :78-85
    else if p.head? = some 46 ∧ (p.tail.head? = some 47 ∨ p.tail = []) then   -- :87-103
      if 0 < d.length then
        if 1 < d.length then (dropLastComponent d).bind (loop cap fuel (p.drop 2))
        else loop cap fuel (p.drop 2) d
      else none
    else (put cap d c).bind (loop cap fuel p)                      -- :108

/-- kernel/fs/vfs_util.c:112-123, after the loop. -/
def finish (cap : Nat) (path d : List Nat) : Option Out :=
  if d.length = 0 then none
  else
    let d := if 1 < d.length ∧ d.getLast? = some 47 ∧ path.getLast? ≠ some 47 then d.dropLast else d
    if d.length = 0 then none
    else if d.length < cap then some (.ok d) else none

/-- kernel/fs/vfs_util.c:31-124 `compute_abs_path`. -/
def computeAbsPath (path cwd : List Nat) (cap : Nat) : Option Out :=
  if cwd.head? ≠ some 47 then none
  else if path = [] then some .enoent
  else if path.head? ≠ some 47 then
    if cwd.getLast? ≠ some 47 then none
    else if cap < path.length + cwd.length + 1 then some .enametoolong
    else (loop cap path.length path cwd).bind (finish cap path)
  else if cap < path.length + 1 then some .enametoolong
  else (loop cap path.length path []).bind (finish cap path)

/-! ## Specification

A path is read left to right, `/` separates components; an empty component and `.` are ignored,
`..` removes the last component (and does nothing at the root). -/

/-- Enter component `c`. -/
def enter (stack : List (List Nat)) (c : List Nat) : List (List Nat) :=
  if c = [] ∨ c = [46] then stack else if c = [46, 46] then stack.dropLast else stack ++ [c]

/-- Walk the characters of a path; `cur` is the component being read. -/
def walk (stack : List (List Nat)) (cur : List Nat) : List Nat → List (List Nat)
  | [] => enter stack cur
  | c :: p => if c = 47 then walk (enter stack cur) [] p else walk stack (cur ++ [c]) p

/-- `/a/b/c/` for the components `a b c`. -/
def render : List (List Nat) → List Nat
  | stack => 47 :: stack.flatMap (fun c => c ++ [47])

/-- Canonical text: `/a/b/c`, with a trailing slash only if asked for (and not for the root). -/
def text (stack : List (List Nat)) (trailing : Bool) : List Nat :=
  if trailing ∨ stack = [] then render stack else (render stack).dropLast

/-- A canonical component: not empty, no slash, not `.`, not `..`. -/
def GoodComp (c : List Nat) : Prop := c ≠ [] ∧ 47 ∉ c ∧ c ≠ [46] ∧ c ≠ [46, 46]

def Good (stack : List (List Nat)) : Prop := ∀ c ∈ stack, GoodComp c

/-! ## Proof -/

theorem nil_or_snoc {α} (l : List α) : l = [] ∨ ∃ l' c, l = l' ++ [c] := by
  rcases List.eq_nil_or_concat l with h | ⟨l', c, h⟩
  · exact Or.inl h
  · exact Or.inr ⟨l', c, by simpa using h⟩

theorem render_concat (st : List (List Nat)) (c : List Nat) :
    render (st ++ [c]) = render st ++ (c ++ [47]) := by simp [render]

theorem render_getLast (st : List (List Nat)) : (render st).getLast? = some 47 := by
  rcases nil_or_snoc st with rfl | ⟨l, c, rfl⟩
  · rfl
  · rw [render_concat, List.getLast?_append]; simp

theorem render_len_pos (st : List (List Nat)) : 0 < (render st).length := by simp [render]

theorem render_eq_concat (st : List (List Nat)) : ∃ pre, render st = pre ++ [47] := by
  rcases nil_or_snoc st with rfl | ⟨l, c, rfl⟩
  · exact ⟨[], rfl⟩
  · exact ⟨render l ++ c, by rw [render_concat, List.append_assoc]⟩

/-- Walking back over a slash-free component reaches the slash before it. -/
theorem dropLoop_comp (pre c : List Nat) (hpre : ∃ p, pre = p ++ [47]) (tail : List Nat) :
    47 ∉ c → ∀ k, k ≤ c.length → (1 ≤ k) →
      dropLoop (pre ++ c ++ tail) (pre.length + k) = pre.length := by
  intro hc k
  obtain ⟨p0, rfl⟩ := hpre
  induction k with
  | zero => intro _ h; omega
  | succ k ih =>
    intro hk _
    simp only [List.length_append, List.length_singleton] at *
    rw [show p0.length + 1 + (k + 1) = (p0.length + k) + 2 by omega]
    rw [dropLoop]
    by_cases hk0 : k = 0
    · subst hk0
      have h1 : (p0 ++ [47] ++ c ++ tail)[p0.length + 0 + 1]? = c[0]? := by
        rw [List.append_assoc (p0 ++ [47]), List.getElem?_append_right (by simp),
          List.getElem?_append_left (by simp; omega)]
        simp
      have h2 : c[0]? ≠ some 47 := by
        intro h; exact hc (List.mem_of_getElem? h)
      rw [h1, if_neg h2]
      cases hp : p0.length with
      | zero => simp [dropLoop]
      | succ n =>
        have h3 : (p0 ++ [47] ++ c ++ tail)[n + 1]? = some 47 := by
          rw [List.append_assoc, List.append_assoc, List.getElem?_append_right (by omega)]
          simp [hp]
        simp only [Nat.add_zero]
        rw [dropLoop, if_pos h3]
    · have h1 : (p0 ++ [47] ++ c ++ tail)[p0.length + k + 1]? = c[k]? := by
        rw [List.append_assoc (p0 ++ [47]), List.getElem?_append_right (by simp),
          List.getElem?_append_left (by simp; omega)]
        congr 1; simp
      have h2 : c[k]? ≠ some 47 := by
        intro h; exact hc (List.mem_of_getElem? h)
      rw [h1, if_neg h2]
      have := ih (by omega) (by omega)
      rw [show p0.length + k + 1 = p0.length + 1 + k by omega]
      exact this

theorem dropLast_render (st : List (List Nat)) (hg : Good st) (h : 1 < (render st).length) :
    dropLastComponent (render st) = some (render st.dropLast) := by
  rcases nil_or_snoc st with rfl | ⟨l, c, rfl⟩
  · simp [render] at h
  · have hc : GoodComp c := hg c (by simp)
    rw [dropLastComponent, if_pos (render_getLast _), render_concat, List.dropLast_concat]
    have hlen : (render l ++ (c ++ [47])).length - 1 = (render l).length + c.length := by
      simp
    have hc1 : 1 ≤ c.length := List.length_pos_iff.mpr hc.1
    have := dropLoop_comp (render l) c (render_eq_concat l) [47] hc.2.1 c.length (Nat.le_refl _) hc1
    rw [hlen, ← List.append_assoc, this, List.append_assoc, List.take_left']
    rfl

/-- The component of `cur` being read, up to the next slash. -/
def whole (cur p : List Nat) : List Nat := cur ++ p.takeWhile (· ≠ 47)

/-- Loop invariant at the top of the loop, once something has been written. -/
structure Inv (st : List (List Nat)) (cur p d : List Nat) : Prop where
  good : Good st
  hd : d = render st ++ cur
  cur47 : 47 ∉ cur
  boundary : cur = [] → p.head? ≠ some 47
  inside : cur ≠ [] → whole cur p ≠ [46] ∧ whole cur p ≠ [46, 46]

theorem goodComp_of_inside {cur p : List Nat} (h47 : 47 ∉ cur) (hne : cur ≠ [])
    (hin : cur ≠ [] → whole cur (47 :: p) ≠ [46] ∧ whole cur (47 :: p) ≠ [46, 46]) :
    GoodComp cur := by
  have := hin hne
  simp [whole] at this
  exact ⟨hne, h47, this.1, this.2⟩

theorem enter_good {st : List (List Nat)} {c : List Nat} (h : GoodComp c) :
    enter st c = st ++ [c] := by
  unfold enter
  rw [if_neg, if_neg h.2.2.2]
  rintro (h' | h')
  · exact h.1 h'
  · exact h.2.2.1 h'

theorem getLast_cur {st : List (List Nat)} {cur : List Nat} (hne : cur ≠ []) (h47 : 47 ∉ cur) :
    (render st ++ cur).getLast? ≠ some 47 := by
  rw [List.getLast?_append]
  cases hl : cur.getLast? with
  | none => exact absurd (List.getLast?_eq_none_iff.mp hl) hne
  | some x =>
    simp
    rintro rfl
    exact h47 (List.mem_of_getLast? hl)

/-- No `./` followed by another slash in the rest of the path (also excludes `../` followed by a
slash). -/
def NoDotSlashSlash (p : List Nat) : Prop := ¬ [46, 47, 47] <:+: p

theorem NoDotSlashSlash.tail {c : Nat} {p : List Nat} (h : NoDotSlashSlash (c :: p)) :
    NoDotSlashSlash p := fun h' => h (h'.trans (List.infix_cons (List.infix_refl p)))

theorem enter_nil (st : List (List Nat)) : enter st [] = st := by simp [enter]
theorem enter_dot (st : List (List Nat)) : enter st [46] = st := by simp [enter]
theorem enter_dotdot (st : List (List Nat)) : enter st [46, 46] = st.dropLast := by simp [enter]

/-- The main loop from any state satisfying the invariant. -/
theorem loop_spec (cap : Nat) (p : List Nat) : ∀ (fuel : Nat) (st : List (List Nat)) (cur d : List Nat),
    p.length ≤ fuel → d.length + p.length < cap → NoDotSlashSlash p → Inv st cur p d →
    ∃ st' cur', loop cap fuel p d = some (render st' ++ cur') ∧ Good st' ∧ 47 ∉ cur' ∧
      (cur' ≠ [] → GoodComp cur') ∧
      (render st' ++ cur').length ≤ d.length + p.length ∧
      enter st' cur' = walk st cur p ∧
      (cur' ≠ [] → p ≠ [] → p.getLast? ≠ some 47) := by
  induction hn : p.length using Nat.strongRecOn generalizing p with
  | ind n IH =>
    intro fuel st cur d hfuel hcap hnd inv
    match p, fuel with
    | [], fuel =>
      refine ⟨st, cur, ?_, inv.good, inv.cur47, ?_, ?_, ?_, by simp⟩
      · cases fuel <;> simp [loop, inv.hd]
      · intro h
        have := inv.inside h
        simp [whole] at this
        exact ⟨h, inv.cur47, this.1, this.2⟩
      · rw [inv.hd]; omega
      · simp [walk]
    | c :: p, 0 => simp at hn; omega
    | c :: p, fuel + 1 =>
      simp only [List.length_cons] at hn
      have hcap' : d.length + (p.length + 1) < cap := by omega
      have hpn : p.length < n := by omega
      have hlastcons : ∀ q : List Nat, ∀ cur' : List Nat,
          (cur' ≠ [] → p ≠ [] → p.getLast? ≠ some 47) → (p = [] → cur' ≠ [] → c ≠ 47) →
          (cur' ≠ [] → c :: p ≠ [] → (c :: p).getLast? ≠ some 47) := by
        intro _ cur' h1 h2 h3 _
        by_cases hp : p = []
        · subst hp; simp; exact h2 rfl h3
        · rw [List.getLast?_cons]
          have := h1 h3 hp
          cases hl : p.getLast? with
          | none => exact absurd (List.getLast?_eq_none_iff.mp hl) hp
          | some x => rw [hl] at this; simpa using this
      -- copying one character inside or at the start of a component
      have copy : c ≠ 47 → (cur = [] → whole [c] p ≠ [46] ∧ whole [c] p ≠ [46, 46]) →
          ∃ st' cur', (put cap d c).bind (loop cap fuel p) = some (render st' ++ cur') ∧ Good st' ∧
            47 ∉ cur' ∧ (cur' ≠ [] → GoodComp cur') ∧
            (render st' ++ cur').length ≤ d.length + n ∧
            enter st' cur' = walk st cur (c :: p) ∧
            (cur' ≠ [] → c :: p ≠ [] → (c :: p).getLast? ≠ some 47) := by
        intro hc hw
        have hput : put cap d c = some (d ++ [c]) := by rw [put, if_pos (by omega)]
        rw [hput, Option.bind_some]
        have hinv : Inv st (cur ++ [c]) p (d ++ [c]) := by
          refine ⟨inv.good, by rw [inv.hd, List.append_assoc], ?_, by simp, ?_⟩
          · simp; exact ⟨inv.cur47, Ne.symm hc⟩
          · intro _
            have : whole (cur ++ [c]) p = whole cur (c :: p) := by
              simp [whole, hc]
            by_cases hcur : cur = []
            · subst hcur; simpa using hw rfl
            · rw [this]; exact inv.inside hcur
        obtain ⟨st', cur', h1, h2, h3, h4, h5, h6, h7⟩ :=
          IH p.length hpn p rfl fuel st (cur ++ [c]) (d ++ [c]) (by omega) (by simp; omega) hnd.tail hinv
        refine ⟨st', cur', h1, h2, h3, h4, ?_, ?_, hlastcons [] cur' h7 (fun _ _ => hc)⟩
        · simp at h5 ⊢; omega
        · rw [h6, walk, if_neg hc]
      simp only [loop]
      by_cases hss : c = 47 ∧ p.head? = some 47
      · -- skip a slash
        rw [if_pos hss]
        obtain ⟨rfl, hp⟩ := hss
        have hcur : cur ≠ [] := by
          intro h; exact inv.boundary h rfl
        have hinv : Inv st cur p d := by
          refine ⟨inv.good, inv.hd, inv.cur47, fun h => absurd h hcur, fun h => ?_⟩
          have := inv.inside h
          cases p with
          | nil => simp at hp
          | cons x p => simp at hp; subst hp; simpa [whole] using this
        obtain ⟨st', cur', h1, h2, h3, h4, h5, h6, h7⟩ :=
          IH p.length hpn p rfl fuel st cur d (by omega) (by omega) hnd.tail hinv
        refine ⟨st', cur', h1, h2, h3, h4, by omega, ?_,
          hlastcons [] cur' h7 (fun hp0 => by subst hp0; simp at hp)⟩
        rw [h6]
        cases p with
        | nil => simp at hp
        | cons x p => simp at hp; subst hp; simp [walk, enter_nil]
      · rw [if_neg hss]
        by_cases hc46 : c ≠ 46
        · rw [if_pos hc46]
          by_cases hc47 : c = 47
          · -- copy a slash: a component ends
            subst hc47
            have hcur : cur ≠ [] := fun h => inv.boundary h rfl
            have hgc : GoodComp cur := goodComp_of_inside inv.cur47 hcur inv.inside
            have hput : put cap d 47 = some (d ++ [47]) := by rw [put, if_pos (by omega)]
            rw [hput, Option.bind_some]
            have hinv : Inv (st ++ [cur]) [] p (d ++ [47]) := by
              refine ⟨?_, ?_, by simp, ?_, by simp⟩
              · intro x hx
                rcases List.mem_append.mp hx with hx | hx
                · exact inv.good x hx
                · simp at hx; subst hx; exact hgc
              · rw [render_concat, inv.hd]; simp
              · intro _ hp; exact hss ⟨rfl, hp⟩
            obtain ⟨st', cur', h1, h2, h3, h4, h5, h6, h7⟩ :=
              IH p.length hpn p rfl fuel _ [] (d ++ [47]) (by omega) (by simp; omega) hnd.tail hinv
            by_cases hp0 : p = []
            · subst hp0
              refine ⟨st', cur', h1, h2, h3, h4, by simp at h5 ⊢; omega, ?_, ?_⟩
              · rw [h6]; simp [walk, enter_good hgc]
              · intro hne
                exfalso
                simp [walk] at h6
                have hl : loop cap fuel [] (d ++ [47]) = some (d ++ [47]) := by
                  cases fuel <;> simp [loop]
                rw [hl] at h1
                have := Option.some.inj h1
                have hlast : (d ++ [47]).getLast? = some 47 := by simp
                rw [this] at hlast
                exact getLast_cur hne h3 hlast
            · refine ⟨st', cur', h1, h2, h3, h4, by simp at h5 ⊢; omega, ?_,
                hlastcons [] cur' h7 (fun h => absurd h hp0)⟩
              rw [h6]; simp [walk, enter_good hgc]
          · apply copy hc47
            intro _
            simp [whole]
            constructor
            · intro h; exact absurd h hc46
            · intro h; exact absurd h hc46
        · rw [if_neg hc46]
          have hc : c = 46 := by omega
          subst hc
          have hdlen : 0 < d.length := by rw [inv.hd]; simp [render]
          by_cases hin : 0 < d.length ∧ d.getLast? ≠ some 47
          · rw [if_pos hin]
            apply copy (by omega)
            intro hcur
            exfalso
            apply hin.2
            rw [inv.hd, hcur, List.append_nil]; exact render_getLast st
          · rw [if_neg hin]
            have hcur : cur = [] := by
              apply Classical.byContradiction
              intro h
              exact hin ⟨hdlen, by rw [inv.hd]; exact getLast_cur h inv.cur47⟩
            subst hcur
            have hd : d = render st := by rw [inv.hd, List.append_nil]
            -- continuing at a boundary with `q` left, `k` characters consumed
            have boundary : ∀ (st2 : List (List Nat)) (q : List Nat), Good st2 →
                q.length < n → q.head? ≠ some 47 → NoDotSlashSlash q →
                (render st2).length ≤ d.length →
                walk st2 [] q = walk st [] (46 :: p) →
                (q ≠ [] → (46 :: p).getLast? = q.getLast?) →
                ∃ st' cur', loop cap fuel q (render st2) = some (render st' ++ cur') ∧ Good st' ∧
                  47 ∉ cur' ∧ (cur' ≠ [] → GoodComp cur') ∧
                  (render st' ++ cur').length ≤ d.length + n ∧
                  enter st' cur' = walk st [] (46 :: p) ∧
                  (cur' ≠ [] → 46 :: p ≠ [] → (46 :: p).getLast? ≠ some 47) := by
              intro st2 q hg hql hq47 hqnd hlen hw hlast
              have hinv : Inv st2 [] q (render st2) := ⟨hg, by simp, by simp, fun _ => hq47, by simp⟩
              obtain ⟨st', cur', h1, h2, h3, h4, h5, h6, h7⟩ :=
                IH q.length hql q rfl fuel st2 [] (render st2) (by omega) (by omega) hqnd hinv
              refine ⟨st', cur', h1, h2, h3, h4, by omega, by rw [h6, hw], ?_⟩
              intro hne _
              by_cases hq0 : q = []
              · subst hq0
                exfalso
                have hl : loop cap fuel [] (render st2) = some (render st2) := by
                  cases fuel <;> simp [loop]
                rw [hl] at h1
                have := Option.some.inj h1
                have hlast : (render st2).getLast? = some 47 := render_getLast st2
                rw [this] at hlast
                exact getLast_cur hne h3 hlast
              · rw [hlast hq0]; exact h7 hne hq0
            have hgdrop : Good st.dropLast := fun x hx => inv.good x (List.dropLast_subset _ hx)
            have hlen_drop : (render st.dropLast).length ≤ d.length := by
              rw [hd]
              rcases nil_or_snoc st with rfl | ⟨l, x, rfl⟩
              · simp
              · rw [List.dropLast_concat, render_concat]; simp
            have hdrop : ∀ q, (if 1 < d.length then (dropLastComponent d).bind (loop cap fuel q)
                else loop cap fuel q d) = loop cap fuel q (render st.dropLast) := by
              intro q
              by_cases h1 : 1 < d.length
              · rw [if_pos h1, hd, dropLast_render st inv.good (by rw [← hd]; exact h1)]; rfl
              · rw [if_neg h1]
                have : st = [] := by
                  apply Classical.byContradiction
                  intro hst
                  rcases nil_or_snoc st with rfl | ⟨l, x, rfl⟩
                  · exact hst rfl
                  · rw [hd, render_concat] at h1
                    simp [render] at h1
                subst this
                rw [hd]; rfl
            have notslash : ∀ q, NoDotSlashSlash (46 :: 47 :: q) → q.head? ≠ some 47 := by
              intro q hq hh
              cases q with
              | nil => simp at hh
              | cons x q =>
                simp at hh; subst hh
                exact hq ⟨[], q, by simp⟩
            by_cases h1 : p.head? = some 47 ∨ p = []
            · rw [if_pos h1]
              cases p with
              | nil =>
                have hl0 : loop cap fuel (List.drop 1 []) d = loop cap fuel [] (render st) := by rw [hd]; rfl
                rw [hl0]
                refine boundary st [] inv.good (by simp at hn ⊢; omega) (by simp) ?_ (by rw [hd]; omega) ?_ (by simp)
                · intro h; simp at h
                · simp [walk, enter_nil, enter_dot]
              | cons x q =>
                have hx : x = 47 := by simpa using h1
                subst hx
                have hl0 : loop cap fuel (List.drop 1 (47 :: q)) d = loop cap fuel q (render st) := by rw [hd]; rfl
                rw [hl0]
                refine boundary st q inv.good (by simp at hpn; omega) (notslash q hnd) hnd.tail.tail
                  (by rw [hd]; omega) ?_ ?_
                · simp [walk, enter_dot]
                · intro hq; rw [List.getLast?_cons_cons, List.getLast?_cons]
                  cases hl : q.getLast? with
                  | none => exact absurd (List.getLast?_eq_none_iff.mp hl) hq
                  | some x => rfl
            · rw [if_neg h1]
              by_cases h2 : p.head? = some 46 ∧ (p.tail.head? = some 47 ∨ p.tail = [])
              · rw [if_pos h2, if_pos hdlen, hdrop]
                cases p with
                | nil => simp at h2
                | cons x p' =>
                  have hx : x = 46 := by simpa using h2.1
                  subst hx
                  cases p' with
                  | nil =>
                    simp only [List.drop_succ_cons, List.drop_nil]
                    refine boundary st.dropLast [] hgdrop (by simp at hpn ⊢; omega) (by simp) ?_ hlen_drop ?_ (by simp)
                    · intro h; simp at h
                    · simp [walk, enter_nil, enter_dotdot]
                  | cons y r =>
                    have hy : y = 47 := by simpa using h2.2
                    subst hy
                    simp only [List.drop_succ_cons, List.drop_zero]
                    refine boundary st.dropLast r hgdrop (by simp at hpn ⊢; omega) (notslash r hnd.tail)
                      hnd.tail.tail.tail hlen_drop ?_ ?_
                    · simp [walk, enter_dotdot]
                    · intro hq
                      rw [List.getLast?_cons_cons, List.getLast?_cons_cons, List.getLast?_cons]
                      cases hl : r.getLast? with
                      | none => exact absurd (List.getLast?_eq_none_iff.mp hl) hq
                      | some x => rfl
              · rw [if_neg h2]
                apply copy (by omega)
                intro _
                cases p with
                | nil => simp at h1
                | cons x p' =>
                  have hx : x ≠ 47 := by simpa using h1
                  constructor
                  · simp [whole, hx]
                  · intro h
                    apply h2
                    simp [whole, hx] at h
                    refine ⟨by simpa using h.1, ?_⟩
                    cases p' with
                    | nil => simp
                    | cons y r =>
                      left
                      by_cases hy : y = 47
                      · simp [hy]
                      · simp [hy] at h

theorem enter_keeps_good {st : List (List Nat)} {c : List Nat} (hg : Good st) (hc : 47 ∉ c) :
    Good (enter st c) := by
  unfold enter
  split
  · exact hg
  · split
    · exact fun x hx => hg x (List.dropLast_subset _ hx)
    · intro x hx
      rename_i h1 h2
      rcases List.mem_append.mp hx with hx | hx
      · exact hg x hx
      · simp at hx; subst hx
        exact ⟨fun h => h1 (Or.inl h), hc, fun h => h1 (Or.inr h), h2⟩

/-- The components computed by the specification are always canonical. -/
theorem walk_good (p : List Nat) : ∀ (st : List (List Nat)) (cur : List Nat), Good st → 47 ∉ cur →
    Good (walk st cur p) := by
  induction p with
  | nil => intro st cur h1 h2; exact enter_keeps_good h1 h2
  | cons c p ih =>
    intro st cur h1 h2
    simp only [walk]
    split
    · exact ih _ _ (enter_keeps_good h1 h2) (by simp)
    · rename_i hc
      exact ih _ _ h1 (by simp; exact ⟨h2, Ne.symm hc⟩)

theorem render_inj_len {st : List (List Nat)} : (render st).length = 1 ↔ st = [] := by
  rcases nil_or_snoc st with rfl | ⟨l, c, rfl⟩
  · simp [render]
  · rw [render_concat]; simp [render]

/-- What happens after the loop. -/
theorem finish_spec (cap : Nat) (path : List Nat) (st : List (List Nat)) (cur : List Nat)
    (h47 : 47 ∉ cur) (hgc : cur ≠ [] → GoodComp cur)
    (hcap : (render st ++ cur).length < cap)
    (hlast : cur ≠ [] → path.getLast? ≠ some 47) :
    finish cap path (render st ++ cur) =
      some (.ok (text (enter st cur) (decide (path.getLast? = some 47)))) := by
  have hpos : (render st ++ cur).length ≠ 0 := by
    have := render_len_pos st; rw [List.length_append]; omega
  unfold finish
  rw [if_neg hpos]
  by_cases hcur : cur = []
  · subst hcur
    simp only [List.append_nil, enter_nil] at *
    by_cases hst : st = []
    · subst hst
      simp [render, text] at *
      omega
    · have hlen : 1 < (render st).length := by
        have : (render st).length ≠ 1 := fun h => hst (render_inj_len.mp h)
        have := render_len_pos st; omega
      by_cases hp : path.getLast? = some 47
      · simp [hp, text, hpos, hcap, hlen, render_getLast]
      · have h2 : (render st).dropLast.length ≠ 0 := by simp; omega
        have h3 : (render st).dropLast.length < cap := by simp; omega
        simp only [hlen, render_getLast, hp, ne_eq, not_false_eq_true, and_self, if_true, h2, h3,
          if_false]
        simp [text, hst]
  · have hl := getLast_cur (st := st) hcur h47
    simp only [hl, false_and, and_false, if_false, hpos, hcap, if_true]
    rw [enter_good (hgc hcur)]
    have : path.getLast? ≠ some 47 := hlast hcur
    simp only [text, this, decide_false, Bool.false_eq_true, false_or]
    rw [if_neg (by simp), render_concat, ← List.append_assoc, List.dropLast_concat]

/-- Leading slashes of an absolute path, before anything is written. -/
theorem loop_leading (cap : Nat) (p : List Nat) : ∀ fuel, p.length ≤ fuel → p.length < cap →
    NoDotSlashSlash p → p.head? = some 47 →
    ∃ st' cur', loop cap fuel p [] = some (render st' ++ cur') ∧ Good st' ∧ 47 ∉ cur' ∧
      (cur' ≠ [] → GoodComp cur') ∧ (render st' ++ cur').length ≤ p.length ∧
      enter st' cur' = walk [] [] p ∧ (cur' ≠ [] → p ≠ [] → p.getLast? ≠ some 47) := by
  induction p with
  | nil => intro _ _ _ _ h; simp at h
  | cons c p ih =>
    intro fuel hf hcap hnd hh
    simp at hh; subst hh
    cases fuel with
    | zero => simp at hf
    | succ fuel =>
      simp only [List.length_cons] at hf hcap
      by_cases hp : p.head? = some 47
      · obtain ⟨st', cur', h1, h2, h3, h4, h5, h6, h7⟩ := ih fuel (by omega) (by omega) hnd.tail hp
        have hpne : p ≠ [] := by rintro rfl; simp at hp
        refine ⟨st', cur', ?_, h2, h3, h4, by simp at h5 ⊢; omega, ?_, ?_⟩
        · rw [loop, if_pos ⟨rfl, hp⟩]; exact h1
        · rw [h6]; simp [walk, enter_nil]
        · intro hne _
          have := h7 hne hpne
          rw [List.getLast?_cons]
          cases hl : p.getLast? with
          | none => exact absurd (List.getLast?_eq_none_iff.mp hl) hpne
          | some x => rw [hl] at this; simpa using this
      · have hput : put cap [] 47 = some [47] := by rw [put, if_pos (by simp; omega)]; rfl
        have hinv : Inv [] [] p [47] :=
          ⟨by intro x hx; simp at hx, by simp [render], by simp, fun _ => hp, by simp⟩
        obtain ⟨st', cur', h1, h2, h3, h4, h5, h6, h7⟩ :=
          loop_spec cap p fuel [] [] [47] (by omega) (by simp; omega) hnd.tail hinv
        refine ⟨st', cur', ?_, h2, h3, h4, by simp at h5 ⊢; omega, ?_, ?_⟩
        · rw [loop, if_neg (by simp [hp]), if_pos (by omega), hput]; exact h1
        · rw [h6]; simp [walk, enter_nil]
        · intro hne _
          by_cases hpe : p = []
          · subst hpe
            exfalso
            have hl : loop cap fuel [] [47] = some [47] := by cases fuel <;> simp [loop]
            rw [hl] at h1
            have hx := Option.some.inj h1
            have hlast : ([47] : List Nat).getLast? = some 47 := rfl
            rw [hx] at hlast
            exact getLast_cur hne h3 hlast
          · have := h7 hne hpe
            rw [List.getLast?_cons]
            cases hl : p.getLast? with
            | none => exact absurd (List.getLast?_eq_none_iff.mp hl) hpe
            | some x => rw [hl] at this; simpa using this

/-- **C08 (partial).** For a canonical current directory `/a/b/` and any path in which no `./` is
directly followed by another slash: the result is the canonical absolute path obtained by walking
the components (`.` and empty ones ignored, `..` popping, never above the root), with a trailing
slash exactly when the given path has one; the call fails only with `-ENOENT` for the empty path
and `-ENAMETOOLONG` when the buffer cannot hold cwd and path; it never writes outside the buffer.

Missing: paths containing `.//`, see `abs_path_dot_slash_slash_violated`. -/
theorem compute_abs_path_correct_partial (path : List Nat) (cwd : List (List Nat)) (cap : Nat)
    (hcwd : Good cwd) (hnd : NoDotSlashSlash path) :
    computeAbsPath path (render cwd) cap =
      some (
        if path = [] then .enoent
        else
          let relative := path.head? ≠ some 47
          if cap < path.length + 1 + (if relative then (render cwd).length else 0) then .enametoolong
          else .ok (text (walk (if relative then cwd else []) [] path)
            (decide (path.getLast? = some 47)))) := by
  have hc0 : (render cwd).head? = some 47 := by simp [render]
  unfold computeAbsPath
  rw [if_neg (by simp [hc0])]
  by_cases hp : path = []
  · simp [hp]
  · rw [if_neg hp, if_neg hp]
    by_cases hrel : path.head? ≠ some 47
    · simp only [hrel, if_true, render_getLast, ne_eq, not_true_eq_false, if_false,
        not_false_eq_true]
      by_cases hs : cap < path.length + (render cwd).length + 1
      · rw [if_pos hs, if_pos (by omega)]
      · rw [if_neg hs, if_neg (by omega)]
        have hinv : Inv cwd [] path (render cwd) := ⟨hcwd, by simp, by simp, fun _ => hrel, by simp⟩
        obtain ⟨st', cur', h1, h2, h3, h4, h5, h6, h7⟩ :=
          loop_spec cap path path.length cwd [] (render cwd) (Nat.le_refl _) (by omega) hnd hinv
        rw [h1, Option.bind_some, finish_spec cap path st' cur' h3 h4 (by omega) (fun h => h7 h hp), h6]
    · simp only [hrel, if_false, Nat.add_zero]
      by_cases hs : cap < path.length + 1
      · rw [if_pos hs, if_pos hs]
      · rw [if_neg hs, if_neg hs]
        obtain ⟨st', cur', h1, h2, h3, h4, h5, h6, h7⟩ :=
          loop_leading cap path path.length (Nat.le_refl _) (by omega) hnd
            (Decidable.byContradiction hrel)
        rw [h1, Option.bind_some, finish_spec cap path st' cur' h3 h4 (by omega) (fun h => h7 h hp), h6]

/-- **C08.** The components of every result are canonical: no empty, `.` or `..` component. -/
theorem compute_abs_path_result_canonical (path : List Nat) (cwd : List (List Nat)) (hcwd : Good cwd) :
    Good (walk cwd [] path) := walk_good path cwd [] hcwd (by simp)

/-- **C08 violated.** `compute_abs_path("/x/.//../y")` yields `/x/y`; the `..` cancels the empty
component that the doubled slash left behind, and the correct answer is `/y`. -/
theorem abs_path_dot_slash_slash_violated :
    computeAbsPath [47, 120, 47, 46, 47, 47, 46, 46, 47, 121] [47] 64 = some (.ok [47, 120, 47, 121]) ∧
    text (walk [] [] [47, 120, 47, 46, 47, 47, 46, 46, 47, 121]) false = [47, 121] := by decide

/-- **C08 violated.** `compute_abs_path("/.//a")` keeps a doubled slash: `//a`. -/
theorem abs_path_double_slash_violated :
    computeAbsPath [47, 46, 47, 47, 97] [47] 64 = some (.ok [47, 47, 97]) ∧
    text (walk [] [] [47, 46, 47, 47, 97]) false = [47, 97] := by decide

/-! ### Non-vacuity: `../b/./c/` from `/x/a/` is `/x/b/c/` -/

example : Good [[120], [97]] ∧ NoDotSlashSlash [46, 46, 47, 98, 47, 46, 47, 99, 47] := by
  constructor
  · intro c hc; simp at hc; rcases hc with rfl | rfl <;> simp [GoodComp]
  · intro h; revert h; decide

example : computeAbsPath [46, 46, 47, 98, 47, 46, 47, 99, 47] (render [[120], [97]]) 64 =
    some (.ok [47, 120, 47, 98, 47, 99, 47]) := by decide

end Verif.AbsPath
