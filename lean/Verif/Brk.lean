import Verif.Paging

/-!
# The heap of a process (kernel/mm/process_mm.c, `brk`)

Properties C142 (the heap is always there), C143 (what `brk` does), C144 (new memory contains
nothing of others), C145 (a failing `brk` has no effect).

`sys_brk` is modelled on top of the model of address spaces (`Paging`), as the sequence of
`map_page` and `unmap_page` calls it makes.  A process has its address space and its two numbers
`initial_brk` and `brk`; a child made by `vfork` has numbers of its own but the same space.

Simplifications: addresses are natural numbers (the kernel's part of the address space is above all
that `brk` accepts).  The `len` of the entry for the heap in the list of mappings is left out (it
is used for listings only).
-/
namespace Verif.Brk
open Paging

/-! ## Model -/

/-- `MAX_BRK` and `USER_MMAP_BEGIN` (config/config_mm.h:42-43). -/
def MAX : Nat := 0x40000000

/-- The memory allocator: the page that `kmalloc(PAGE_SIZE)` returns in a state and the page table
that `map_page` gets, if any. -/
structure Env where
  pg : St → Option Nat
  nt : St → Option Nat

/-- Fields `pdir`, `initial_brk` and `brk` of `struct process`. -/
structure Proc where
  space : Nat
  init : Nat
  brk : Nat
  deriving DecidableEq, Repr

/-- kernel/mm/process_mm.c:31-33: `unmap_page` of `n` pages from `v` on.  `unmap_page` asserts that
the page is there (kernel/arch/i386/paging.c:274-277); without the assertion it would drop a
reference to page frame 0.  The list in the result is what has been done.  (The loop counts addresses;
both ends are multiples of the page size, see `heap_there_partial`.) -/
def shrinkLoop (c : Cfg) (d : Nat) : Nat → Nat → St → Option (St × List Op)
  | 0, _, s => some (s, [])
  | n + 1, v, s =>
    match unmap c s d v true with
    | some (s', .ok) => (shrinkLoop c d n (v + 1) s').map fun x => (x.1, .unmap d v true :: x.2)
    | _ => none

/-- kernel/mm/process_mm.c:41-47: is one of the `n` pages from `v` on in use? -/
def anyMapped (s : St) (d : Nat) : Nat → Nat → Bool
  | 0, _ => false
  | n + 1, v => (look s d v).isSome || anyMapped s d n (v + 1)

/-- What is in a page that `kmalloc` returns: what was there before (it is not `kzmalloc`). -/
def old (s : St) : Option Nat → Nat → Nat
  | none => fun _ => 0
  | some g => s.data g

/-- kernel/mm/process_mm.c:53-68: up to `n` new pages from `v` on; the second part of the result is
the page where the loop stopped. -/
def growLoop (c : Cfg) (e : Env) (d : Nat) : Nat → Nat → St → Option (St × Nat × List Op)
  | 0, v, s => some (s, v, [])
  | n + 1, v, s =>
    match mapNew c s d v true (old s (e.pg s)) (e.pg s) (e.nt s) with
    | some (s', .ok) => (growLoop c e d n (v + 1) s').map fun x =>
        (x.1, x.2.1, .mapNew d v true (old s (e.pg s)) (e.pg s) (e.nt s) :: x.2.2)
    | some (s', _) => some (s', v, [])
    | none => none

/-- kernel/mm/process_mm.c:20-72 `brk_syscall_int`: the new break. -/
def brkInt (c : Cfg) (e : Env) (s : St) (p : Proc) (new : Nat) : Option (St × Nat × List Op) :=
  if new < p.brk then
    (shrinkLoop c p.space ((p.brk - new) / 4096) (new / 4096) s).map fun x => (x.1, new, x.2)
  else if anyMapped s p.space ((new - p.brk) / 4096) (p.brk / 4096) then some (s, p.brk, [])
  else (growLoop c e p.space ((new - p.brk) / 4096) (p.brk / 4096) s).map fun x =>
    (x.1, 4096 * x.2.1, x.2.2)

/-- kernel/mm/process_mm.c:74-113 `sys_brk`: the value returned, which is also the new break. -/
def sysBrk (c : Cfg) (e : Env) (s : St) (p : Proc) (new : Nat) : Option (St × Nat × List Op) :=
  if new = 0 then some (s, p.brk, [])
  else if new % 4096 ≠ 0 then some (s, p.brk, [])
  else if new < p.init then some (s, p.brk, [])
  else if MAX ≤ new then some (s, p.brk, [])
  else if new = p.brk then some (s, p.brk, [])
  else brkInt c e s p new

/-! ## Executions -/

/-- The memory manager and the processes. -/
structure W where
  s : St
  procs : Nat → Option Proc

/-- No process lives in the space `d`. -/
def Unused (w : W) (d : Nat) : Prop := ∀ p x, w.procs p = some x → x.space ≠ d

/-- Process `p` lives alone in its space. -/
def Alone (w : W) (p : Nat) (x : Proc) : Prop :=
  ∀ q y, w.procs q = some y → y.space = x.space → q = p

/-- What the rest of the kernel does not do to a space in use: `munmap` refuses addresses below
`USER_MMAP_BEGIN` (process_mm.c:455-463), pages are made read-only by the ELF loader before the
program starts, and the space is destroyed when its last process is gone. -/
def Away (w : W) : Op → Prop
  | .unmap d v _ => MAX ≤ 4096 * v ∨ Unused w d
  | .setRo d _ => Unused w d
  | .destroy d => Unused w d
  | .new (some n) => Unused w n
  | .fork _ (some n) _ => Unused w n
  | _ => True

/-- The memory the processes see, after operations that succeeded. -/
def doneOps (m : Mem) (ops : List Op) : Mem := ops.foldl (fun m op => m.step op .ok) m

/-- All the executions.  `alone`: whether `brk` is only called by processes that do not share their
space with another one (the child of a `vfork` does). -/
inductive Reach (c : Cfg) (e : Env) (alone : Bool) : W → Mem → Prop
  | boot (junk) : Reach c e alone ⟨Paging.boot c junk, fun _ => none⟩ (Mem.boot c junk)
  /-- Any operation of the memory manager. -/
  | mem {w m op s' ev} : Reach c e alone w m → Ok c w.s m op → ¬ Avoid c w.s op → Away w op →
      step c w.s op = some (s', ev) → Reach c e alone ⟨s', w.procs⟩ (m.step op ev)
  /-- `execve` (kernel/execve.c:136-137): a process starts in a space that has been prepared. -/
  | exec {w m p d a} : Reach c e alone w m → m.live d = true → Unused w d → a % 4096 = 0 →
      Reach c e alone ⟨w.s, upd w.procs p (some ⟨d, a, a⟩)⟩ m
  /-- `fork` (kernel/fork.c:82-96, the structure is copied in kernel/process.c:200-240). -/
  | fork {w m p q x n pts s'} : Reach c e alone w m → w.procs p = some x → w.procs q = none →
      Ok c w.s m (.fork x.space (some n) pts) → ¬ Avoid c w.s (.fork x.space (some n) pts) →
      Unused w n → step c w.s (.fork x.space (some n) pts) = some (s', .ok) →
      Reach c e alone ⟨s', upd w.procs q (some { x with space := n })⟩
        (m.step (.fork x.space (some n) pts) .ok)
  /-- `vfork` (kernel/fork.c:77-80): the child lives in the space of its parent. -/
  | vfork {w m p q x} : Reach c e alone w m → w.procs p = some x → w.procs q = none →
      Reach c e alone ⟨w.s, upd w.procs q (some x)⟩ m
  /-- A process ends, or leaves its space. -/
  | exit {w m p} : Reach c e alone w m → Reach c e alone ⟨w.s, upd w.procs p none⟩ m
  | brk {w m p x new s' r ops} : Reach c e alone w m → w.procs p = some x →
      (alone = true → Alone w p x) → sysBrk c e w.s x new = some (s', r, ops) →
      Reach c e alone ⟨s', upd w.procs p (some { x with brk := r })⟩ (doneOps m ops)

/-- The allocator returns what is not in use. -/
def Sound (c : Cfg) (e : Env) : Prop :=
  (∀ s g, e.pg s = some g → g < c.lim ∧ g ≠ c.zero ∧ s.alloc g = false) ∧
  (∀ s t, e.nt s = some t → s.pt t = none)

/-! ## Specification -/

/-- The pages of `[a, b)` are private memory that can be read and written. -/
def Usable (m : Mem) (d a b : Nat) : Prop :=
  ∀ v, a ≤ 4096 * v → 4096 * v < b → ∃ bytes, m.page d v = some (.priv bytes true)

/-- `m'` differs from `m` in pages of `[a, b)` of space `d` at most. -/
def SameBut (m m' : Mem) (d a b : Nat) : Prop :=
  m'.live = m.live ∧ m'.obj = m.obj ∧ m'.isObj = m.isObj ∧
  ∀ d' v, ¬ (d' = d ∧ a ≤ 4096 * v ∧ 4096 * v < b) → m'.page d' v = m.page d' v

/-- The addresses `brk` accepts. -/
def Valid (p : Proc) (new : Nat) : Prop :=
  new ≠ 0 ∧ new % 4096 = 0 ∧ p.init ≤ new ∧ new < 0x40000000

/-! ## Lemmas -/

theorem setPage_same {m : Mem} {d v : Nat} {q : Option Page} : (m.setPage d v q).page d v = q := by
  show upd m.page d (upd (m.page d) v q) d v = q
  rw [upd_same, upd_same]

theorem setPage_other {m : Mem} {d v d' v' : Nat} {q : Option Page} (h : ¬ (d' = d ∧ v' = v)) :
    (m.setPage d v q).page d' v' = m.page d' v' := by
  show upd m.page d (upd (m.page d) v q) d' v' = _
  by_cases hd : d' = d
  · subst hd
    rw [upd_same, upd_other (fun e => h ⟨rfl, e⟩)]
  · rw [upd_other hd]

/-- In use below the region of `mmap`. -/
def Held (w : W) (d v : Nat) : Prop := (∃ p x, w.procs p = some x ∧ x.space = d) ∧ 4096 * v < MAX

theorem keep {c : Cfg} {w : W} {m : Mem} {op : Op} {s' : St} {ev : Ev} (hI : Inv c w.s m)
    (hok : Ok c w.s m op) (hav : ¬ Avoid c w.s op) (haw : Away w op)
    (hst : step c w.s op = some (s', ev)) {d v : Nat} {b : Nat → Nat}
    (hp : m.page d v = some (.priv b true)) (hu : Held w d v) :
    ∃ b', (m.step op ev).page d v = some (.priv b' true) := by
  obtain ⟨⟨p, x, hx, hd⟩, hv⟩ := hu
  have free : ∀ {d'}, Unused w d' → d ≠ d' := fun h e => h p x hx (by rw [hd, e])
  have mapped : ∀ {d' v' : Nat} {q : Option Page}, m.page d' v' = none →
      ∃ b', (m.setPage d' v' q).page d v = some (.priv b' true) := by
    intro d' v' q hn
    refine ⟨b, ?_⟩
    rw [setPage_other]
    · exact hp
    · rintro ⟨rfl, rfl⟩; rw [hp] at hn; cases hn
  cases op with
  | new n =>
    cases n with
    | none => exact ⟨b, by cases ev <;> exact hp⟩
    | some n =>
      injection hst with hst; injection hst with h1 h2; subst h2
      refine ⟨b, ?_⟩
      show upd m.page n _ d v = _
      rw [upd_other (free haw)]; exact hp
  | mapNew d' v' rw' bytes pg nt =>
    obtain ⟨s2, ev2, k1, k2 | k2⟩ := mapNew_inv (rw := rw') (bytes := bytes) hI hok.1 hok.2.1
      hok.2.2.1 hok.2.2.2
    · change mapNew c w.s d' v' rw' bytes pg nt = _ at hst
      rw [k1] at hst; injection hst with hst; injection hst with h1 h2; subst h2
      rw [k2.1]; exact mapped k2.2.1
    · change mapNew c w.s d' v' rw' bytes pg nt = _ at hst
      rw [k1] at hst; injection hst with hst; injection hst with h1 h2; subst h2
      rcases k2.1 with e | e <;> rw [e] <;> exact ⟨b, hp⟩
  | mapZero d' v' rw' nt =>
    obtain ⟨s2, ev2, k1, k2 | k2⟩ := map_inv (x := ⟨c.zero, false, rw', false⟩) hI hok.1 hok.2.1
      hok.2.2 (Or.inr ⟨rfl, rfl, rfl⟩)
    · change mapPageInt c w.s d' v' _ nt = _ at hst
      rw [k1] at hst; injection hst with hst; injection hst with h1 h2; subst h2
      rw [k2.1]; exact mapped k2.2.1
    · change mapPageInt c w.s d' v' _ nt = _ at hst
      rw [k1] at hst; injection hst with hst; injection hst with h1 h2; subst h2
      rcases k2.1 with e | e <;> rw [e] <;> exact ⟨b, hp⟩
  | mapShared d' v' f rw' nt =>
    obtain ⟨s2, ev2, k1, k2 | k2⟩ := map_inv (x := ⟨f, rw', false, true⟩) hI hok.1 hok.2.1
      hok.2.2.2 (Or.inl ⟨rfl, rfl, hok.2.2.1⟩)
    · change mapPageInt c w.s d' v' _ nt = _ at hst
      rw [k1] at hst; injection hst with hst; injection hst with h1 h2; subst h2
      rw [k2.1]; exact mapped k2.2.1
    · change mapPageInt c w.s d' v' _ nt = _ at hst
      rw [k1] at hst; injection hst with hst; injection hst with h1 h2; subst h2
      rcases k2.1 with e | e <;> rw [e] <;> exact ⟨b, hp⟩
  | holeFault d' v' nt => exact absurd trivial hav
  | setRo d' v' =>
    have hne : ¬ (d = d' ∧ v = v') := fun k => free haw k.1
    cases ev with
    | ok => exact ⟨b, by rw [show m.step (.setRo d' v') .ok = m.setPage d' v' ((m.page d' v').map Page.ro) from rfl, setPage_other hne]; exact hp⟩
    | _ => exact ⟨b, hp⟩
  | unmap d' v' f =>
    have hne : ¬ (d = d' ∧ v = v') := by
      rintro ⟨rfl, rfl⟩
      rcases haw with h | h
      · omega
      · exact free h rfl
    cases ev with
    | ok => exact ⟨b, by rw [show m.step (.unmap d' v' f) .ok = m.setPage d' v' none from rfl, setPage_other hne]; exact hp⟩
    | _ => exact ⟨b, hp⟩
  | store d' v' off b' pg =>
    cases ev with
    | ok =>
      show ∃ b2, (m.write d' v' off b').page d v = some (.priv b2 true)
      unfold Mem.write
      cases hq : m.page d' v' with
      | none => exact ⟨b, hp⟩
      | some q =>
        cases q with
        | priv bytes wr =>
          dsimp only
          by_cases hne : d = d' ∧ v = v'
          · obtain ⟨rfl, rfl⟩ := hne
            rw [hp] at hq
            injection hq with hq; injection hq with h1 h2
            subst h1; subst h2
            exact ⟨_, setPage_same⟩
          · exact ⟨b, by rw [setPage_other hne]; exact hp⟩
        | shr o wr => exact ⟨b, hp⟩
    | _ => exact ⟨b, hp⟩
  | load d' v' off => exact ⟨b, by cases ev <;> exact hp⟩
  | fork d' n pts =>
    cases n with
    | none => exact ⟨b, by cases ev <;> exact hp⟩
    | some n =>
      cases ev with
      | ok =>
        refine ⟨b, ?_⟩
        show upd m.page n _ d v = _
        rw [upd_other (free haw)]; exact hp
      | _ => exact ⟨b, hp⟩
  | destroy d' =>
    cases ev with
    | ok =>
      refine ⟨b, ?_⟩
      show upd m.page d' _ d v = _
      rw [upd_other (free haw)]; exact hp
    | _ => exact ⟨b, hp⟩
  | newObj f => exact ⟨b, by cases ev <;> exact hp⟩
  | freeObj f => exact ⟨b, by cases ev <;> exact hp⟩
  | objWrite f off b' => exact ⟨b, by cases ev <;> exact hp⟩

theorem keep_live {w : W} {m : Mem} {op : Op} (ev : Ev) (haw : Away w op) {p : Nat} {x : Proc}
    (hx : w.procs p = some x) (hl : m.live x.space = true) : (m.step op ev).live x.space = true := by
  have free : ∀ {d'}, Unused w d' → x.space ≠ d' := fun h e => h p x hx e
  cases op with
  | new n =>
    cases n with
    | none => cases ev <;> exact hl
    | some n =>
      cases ev <;> first | exact hl | skip
      show upd m.live n true x.space = true
      rw [upd_other (free haw)]; exact hl
  | fork d' n pts =>
    cases n with
    | none => cases ev <;> exact hl
    | some n =>
      cases ev <;> first | exact hl | skip
      show upd m.live n true x.space = true
      rw [upd_other (free haw)]; exact hl
  | destroy d' =>
    cases ev <;> first | exact hl | skip
    show upd m.live d' false x.space = true
    rw [upd_other (free haw)]; exact hl
  | store d' v off b pg =>
    cases ev <;> first | exact hl | skip
    show (m.write d' v off b).live x.space = true
    unfold Mem.write
    cases m.page d' v with
    | none => exact hl
    | some q => cases q <;> exact hl
  | _ => cases ev <;> exact hl

theorem avoid_unmap {c : Cfg} {s : St} {d v : Nat} {f : Bool} : ¬ Avoid c s (.unmap d v f) := fun h => h

/-- `shrinkLoop` on pages that are there. -/
theorem shrink_spec {c : Cfg} {d : Nat} : ∀ (n v : Nat) {s : St} {m : Mem}, Run c s m →
    m.live d = true → (∀ i, i < n → ∃ b, m.page d (v + i) = some (.priv b true)) →
    ∃ s' ops, shrinkLoop c d n v s = some (s', ops) ∧ Run c s' (doneOps m ops) ∧
      (doneOps m ops).live = m.live ∧ (doneOps m ops).obj = m.obj ∧
      (doneOps m ops).isObj = m.isObj ∧
      (∀ d' u, (doneOps m ops).page d' u =
        if d' = d ∧ v ≤ u ∧ u < v + n then none else m.page d' u)
  | 0, v, s, m, hr, _, _ => by
    refine ⟨s, [], rfl, hr, rfl, rfl, rfl, fun d' u => ?_⟩
    rw [if_neg (by omega)]; rfl
  | n + 1, v, s, m, hr, hl, hp => by
    have hI := run_inv hr
    have hd : (s.pd d).isSome = true := by rw [← hI.live]; exact hl
    obtain ⟨b0, hb0⟩ := hp 0 (by omega)
    rw [Nat.add_zero] at hb0
    have hfree : ∀ x, look s d v = some x → true = !x.shared := by
      intro x hx
      have := hI.page d v
      rw [hb0, hx] at this
      cases hs : x.shared with
      | false => rfl
      | true =>
        injection this with this
        unfold view at this
        rw [hs, if_pos rfl] at this
        cases this
    have hok : Ok c s m (.unmap d v true) := ⟨hd, hfree⟩
    obtain ⟨s1, ev, k1, k2, k3⟩ := unmap_inv hI hd hfree
    have hev : ev = .ok := by
      rcases k3 with k | k
      · exact k.1
      · rw [hb0] at k; exact absurd k.2 (by simp)
    subst hev
    have hr1 : Run c s1 (m.setPage d v none) := Run.step hr hok avoid_unmap k1
    obtain ⟨s', ops, j1, j2, j3, j4, j5, j6⟩ := shrink_spec n (v + 1) hr1
      (show (m.setPage d v none).live d = true from hl) (fun i hi => by
        obtain ⟨b, hb⟩ := hp (i + 1) (by omega)
        refine ⟨b, ?_⟩
        rw [setPage_other (by omega), show v + 1 + i = v + (i + 1) from by omega]; exact hb)
    refine ⟨s', .unmap d v true :: ops, ?_, j2, j3, j4, j5, fun d' u => ?_⟩
    · unfold shrinkLoop
      rw [k1]; dsimp only; rw [j1]; rfl
    · refine (j6 d' u).trans ?_
      by_cases h1 : d' = d ∧ v + 1 ≤ u ∧ u < v + 1 + n
      · rw [if_pos h1, if_pos (by omega)]
      · rw [if_neg h1]
        by_cases h2 : d' = d ∧ u = v
        · rw [if_pos (by omega), h2.1, h2.2, setPage_same]
        · rw [if_neg (by omega), setPage_other h2]

theorem anyMapped_iff {c : Cfg} {s : St} {m : Mem} (hI : Inv c s m) {d : Nat} : ∀ (n v : Nat),
    anyMapped s d n v = true ↔ ∃ i, i < n ∧ m.page d (v + i) ≠ none
  | 0, v => ⟨(fun h => by cases h), fun ⟨i, hi, _⟩ => by omega⟩
  | n + 1, v => by
    have hp : (look s d v).isSome = true ↔ m.page d v ≠ none := by
      rw [hI.page]
      cases look s d v <;> simp
    unfold anyMapped
    rw [Bool.or_eq_true, hp, anyMapped_iff hI n (v + 1)]
    constructor
    · rintro (h | ⟨i, hi, h⟩)
      · exact ⟨0, by omega, h⟩
      · exact ⟨i + 1, by omega, by rw [show v + (i + 1) = v + 1 + i from by omega]; exact h⟩
    · rintro ⟨i, hi, h⟩
      cases i with
      | zero => exact Or.inl h
      | succ i =>
        exact Or.inr ⟨i, by omega, by rw [show v + 1 + i = v + (i + 1) from by omega]; exact h⟩

/-- A page that is not there can be mapped when memory is there. -/
theorem mapNew_works {c : Cfg} {s : St} {m : Mem} (hI : Inv c s m) {d v : Nat} {b : Nat → Nat}
    {g t : Nat} (hd : (s.pd d).isSome = true) (hn : m.page d v = none) {s' : St} {ev : Ev}
    (h : mapNew c s d v true b (some g) (some t) = some (s', ev)) : ev = .ok := by
  have hl : look s d v = none := by
    have := hI.page d v
    rw [hn] at this
    cases hk : look s d v with
    | none => rfl
    | some x => rw [hk] at this; cases this
  unfold mapNew mapPageInt at h
  dsimp only at h
  cases he : s.pd d with
  | none => rw [he] at hd; cases hd
  | some e =>
    rw [he] at h
    unfold look lookIJ at hl
    rw [he] at hl
    dsimp only at h hl
    cases hi : e (v / 1024) with
    | none =>
      rw [hi] at h
      dsimp only at h
      unfold mapIn at h
      dsimp only at h
      rw [upd_same] at h
      dsimp only at h
      rw [if_neg (by decide)] at h
      injection h with h; injection h with _ h; exact h.symm
    | some t' =>
      rw [hi] at h hl
      dsimp only at h hl
      unfold mapIn at h
      dsimp only at h
      cases hp : s.pt t' with
      | none => rw [hp] at h; cases h
      | some q =>
        rw [hp] at h hl
        dsimp only at h hl
        rw [hl, if_neg (by decide)] at h
        injection h with h; injection h with _ h; exact h.symm

/-- `growLoop` on pages that are not there. -/
theorem grow_spec {c : Cfg} {e : Env} (he : Sound c e) {d : Nat} : ∀ (n v : Nat) {s : St} {m : Mem},
    Run c s m → m.live d = true → (∀ i, i < n → m.page d (v + i) = none) →
    (∀ i, i < n → (v + i) / 1024 < c.nd) →
    ∃ s' v' ops, growLoop c e d n v s = some (s', v', ops) ∧ Run c s' (doneOps m ops) ∧
      v ≤ v' ∧ v' ≤ v + n ∧
      (doneOps m ops).live = m.live ∧ (doneOps m ops).obj = m.obj ∧
      (doneOps m ops).isObj = m.isObj ∧
      (∀ u, v ≤ u → u < v' → ∃ b, (doneOps m ops).page d u = some (.priv b true)) ∧
      (∀ d' u, ¬ (d' = d ∧ v ≤ u ∧ u < v') → (doneOps m ops).page d' u = m.page d' u) ∧
      ((∀ s, (e.pg s).isSome = true ∧ (e.nt s).isSome = true) → v' = v + n)
  | 0, v, s, m, hr, _, _, _ =>
    ⟨s, v, [], rfl, hr, Nat.le_refl _, Nat.le_refl _, rfl, rfl, rfl, fun u h1 h2 => by omega,
      fun _ _ _ => rfl, fun _ => rfl⟩
  | n + 1, v, s, m, hr, hl, hp, hv => by
    have hI := run_inv hr
    have hd : (s.pd d).isSome = true := by rw [← hI.live]; exact hl
    have hn : m.page d v = none := hp 0 (by omega)
    have hok : Ok c s m (.mapNew d v true (old s (e.pg s)) (e.pg s) (e.nt s)) :=
      ⟨hd, hv 0 (by omega), fun g hg => he.1 s g hg, fun t ht => he.2 s t ht⟩
    have hav : ¬ Avoid c s (.mapNew d v true (old s (e.pg s)) (e.pg s) (e.nt s)) := fun h => h
    obtain ⟨s1, ev, k1, k2⟩ := mapNew_inv (rw := true) (bytes := old s (e.pg s)) hI hok.1 hok.2.1
      hok.2.2.1 hok.2.2.2
    have hr1 := Run.step hr hok hav k1
    by_cases hev : ev = .ok
    · subst hev
      change Run c s1 (m.setPage d v (some (.priv (old s (e.pg s)) true))) at hr1
      obtain ⟨s', v', ops, j1, j2, j3, j4, j5, j6, j7, j8, j9, j10⟩ := grow_spec he n (v + 1) hr1
        (show (m.setPage d v _).live d = true from hl)
        (fun i hi => by
          rw [setPage_other (by omega), show v + 1 + i = v + (i + 1) from by omega]
          exact hp (i + 1) (by omega))
        (fun i hi => by rw [show v + 1 + i = v + (i + 1) from by omega]; exact hv (i + 1) (by omega))
      refine ⟨s', v', .mapNew d v true (old s (e.pg s)) (e.pg s) (e.nt s) :: ops, ?_, j2, by omega,
        by omega, j5, j6, j7, fun u h1 h2 => ?_, fun d' u hne => ?_, fun ha => by rw [j10 ha]; omega⟩
      · unfold growLoop
        rw [k1]; dsimp only; rw [j1]; rfl
      · by_cases hu : u = v
        · refine ⟨old s (e.pg s), (j9 d u (by omega)).trans ?_⟩
          rw [hu]; exact setPage_same
        · exact j8 u (by omega) h2
      · refine (j9 d' u (by omega)).trans ?_
        exact setPage_other (by omega)
    · have hm : m.step (.mapNew d v true (old s (e.pg s)) (e.pg s) (e.nt s)) ev = m := by
        rcases k2 with k | k
        · exact absurd k.1 hev
        · rcases k.1 with e | e <;> rw [e] <;> rfl
      rw [hm] at hr1
      refine ⟨s1, v, [], ?_, hr1, Nat.le_refl _, by omega, rfl, rfl, rfl, fun u h1 h2 => by omega,
        fun _ _ _ => rfl, fun ha => ?_⟩
      · unfold growLoop
        rw [k1]
        cases ev <;> first | rfl | exact absurd rfl hev
      · exfalso
        apply hev
        have h1 := (ha s).1
        have h2 := (ha s).2
        cases hg : e.pg s with
        | none => rw [hg] at h1; cases h1
        | some g =>
          cases ht : e.nt s with
          | none => rw [ht] at h2; cases h2
          | some t =>
            rw [hg, ht] at k1
            exact mapNew_works hI hd hn k1

/-- The heap of a process is there. -/
structure HeapOk (m : Mem) (x : Proc) : Prop where
  live : m.live x.space = true
  le : x.init ≤ x.brk
  ini : x.init % 4096 = 0
  al : x.brk % 4096 = 0
  max : x.brk ≤ MAX ∨ x.brk = x.init
  use : Usable m x.space x.init x.brk

theorem same_refl (m : Mem) (d a b : Nat) : SameBut m m d a b :=
  ⟨rfl, rfl, rfl, fun _ _ _ => rfl⟩

/-- All that `brk` does. -/
theorem brk_all {c : Cfg} {e : Env} (hc : 256 ≤ c.nd) (he : Sound c e) {s : St} {m : Mem} {x : Proc}
    (hr : Run c s m) (hx : HeapOk m x) (new : Nat) :
    ∃ s' r ops, sysBrk c e s x new = some (s', r, ops) ∧ Run c s' (doneOps m ops) ∧
      ((Valid x new ∧ new < x.brk ∧ r = new ∧ SameBut m (doneOps m ops) x.space new x.brk ∧
          ∀ v, new ≤ 4096 * v → 4096 * v < x.brk → (doneOps m ops).page x.space v = none) ∨
       (Valid x new ∧ x.brk < new ∧
          (∀ v, x.brk ≤ 4096 * v → 4096 * v < new → m.page x.space v = none) ∧
          x.brk ≤ r ∧ r ≤ new ∧ r % 4096 = 0 ∧ SameBut m (doneOps m ops) x.space x.brk r ∧
          Usable (doneOps m ops) x.space x.brk r ∧
          ((∀ s, (e.pg s).isSome = true ∧ (e.nt s).isSome = true) → r = new)) ∨
       (¬ (Valid x new ∧ (new < x.brk ∨ (x.brk < new ∧
            ∀ v, x.brk ≤ 4096 * v → 4096 * v < new → m.page x.space v = none))) ∧
          s' = s ∧ r = x.brk ∧ ops = [])) := by
  have hI := run_inv hr
  have hno : ∀ {P : Prop}, sysBrk c e s x new = some (s, x.brk, []) → (Valid x new → ¬ P) →
      ∃ s' r ops, sysBrk c e s x new = some (s', r, ops) ∧ Run c s' (doneOps m ops) ∧
        (¬ (Valid x new ∧ P) ∧ s' = s ∧ r = x.brk ∧ ops = []) := fun h1 h2 =>
    ⟨s, x.brk, [], h1, hr, fun k => h2 k.1 k.2, rfl, rfl, rfl⟩
  have lift : ∀ {A B C : St → Nat → List Op → Prop}, (∃ s' r ops, A s' r ops ∧ B s' r ops ∧ C s' r ops) →
      ∀ {D E : St → Nat → List Op → Prop},
      ∃ s' r ops, A s' r ops ∧ B s' r ops ∧ (D s' r ops ∨ E s' r ops ∨ C s' r ops) :=
    fun ⟨s', r, ops, a, b, k⟩ => ⟨s', r, ops, a, b, Or.inr (Or.inr k)⟩
  by_cases h0 : new = 0
  · exact lift (hno (if_pos h0) (fun k => absurd h0 k.1))
  by_cases h1 : new % 4096 ≠ 0
  · exact lift (hno (by unfold sysBrk; rw [if_neg h0, if_pos h1]) (fun k => absurd k.2.1 h1))
  by_cases h2 : new < x.init
  · exact lift (hno (by unfold sysBrk; rw [if_neg h0, if_neg h1, if_pos h2])
      (fun k => absurd k.2.2.1 (by omega)))
  by_cases h3 : MAX ≤ new
  · exact lift (hno (by unfold sysBrk; rw [if_neg h0, if_neg h1, if_neg h2, if_pos h3])
      (fun k => absurd k.2.2.2 (by unfold MAX at h3; omega)))
  by_cases h4 : new = x.brk
  · exact lift (hno (by unfold sysBrk; rw [if_neg h0, if_neg h1, if_neg h2, if_neg h3, if_pos h4])
      (fun _ k => by omega))
  have hb : sysBrk c e s x new = brkInt c e s x new := by
    unfold sysBrk; rw [if_neg h0, if_neg h1, if_neg h2, if_neg h3, if_neg h4]
  have hval : Valid x new := ⟨h0, by omega, by omega, by unfold MAX at h3; omega⟩
  rw [hb]
  have hal := hx.al
  by_cases h5 : new < x.brk
  · obtain ⟨s', ops, k1, k2, k3, k4, k5, k6⟩ := shrink_spec ((x.brk - new) / 4096) (new / 4096) hr
      hx.live (fun i hi => hx.use (new / 4096 + i) (by omega) (by omega))
    refine ⟨s', new, ops, ?_, k2, Or.inl ⟨hval, h5, rfl, ⟨k3, k4, k5, fun d' v hne => ?_⟩,
      fun v a b => ?_⟩⟩
    · unfold brkInt; rw [if_pos h5, k1]; rfl
    · rw [k6, if_neg]
      intro q; exact hne ⟨q.1, by omega, by omega⟩
    · rw [k6, if_pos ⟨rfl, by omega, by omega⟩]
  · by_cases h6 : anyMapped s x.space ((new - x.brk) / 4096) (x.brk / 4096) = true
    · have hb2 : brkInt c e s x new = some (s, x.brk, []) := by
        unfold brkInt; rw [if_neg h5, if_pos h6]
      rw [← hb] at hb2
      rw [← hb]
      refine lift (hno hb2 (fun _ k => ?_))
      obtain ⟨i, hi, hp⟩ := (anyMapped_iff hI _ _).mp h6
      rcases k with k | k
      · exact h5 k
      · exact hp (k.2 _ (by omega) (by omega))
    · have hfree : ∀ i, i < (new - x.brk) / 4096 → m.page x.space (x.brk / 4096 + i) = none := by
        intro i hi
        cases hp : m.page x.space (x.brk / 4096 + i) with
        | none => rfl
        | some q =>
          exact absurd ((anyMapped_iff hI _ _).mpr ⟨i, hi, by rw [hp]; simp⟩) h6
      obtain ⟨s', v', ops, k1, k2, k3, k4, k5, k6, k7, k8, k9, k10⟩ :=
        grow_spec he ((new - x.brk) / 4096) (x.brk / 4096) hr hx.live hfree
          (fun i hi => by unfold MAX at h3; omega)
      refine ⟨s', 4096 * v', ops, ?_, k2, Or.inr (Or.inl ⟨hval, by omega, fun v a b => ?_, by omega,
        by omega, by omega, ⟨k5, k6, k7, fun d' v hne => k9 d' v ?_⟩, fun v a b => k8 v (by omega) (by omega),
        fun ha => by rw [k10 ha]; omega⟩)⟩
      · unfold brkInt; rw [if_neg h5, if_neg h6, k1]; rfl
      · have := hfree (v - x.brk / 4096) (by omega)
        rw [show x.brk / 4096 + (v - x.brk / 4096) = v from by omega] at this
        exact this
      · intro q; exact hne ⟨q.1, by omega, by omega⟩

theorem heapOk_of_same {m m' : Mem} {x : Proc} (h : HeapOk m x) {d a b : Nat}
    (hs : SameBut m m' d a b) (hd : x.space ≠ d) : HeapOk m' x :=
  ⟨by rw [hs.1]; exact h.live, h.le, h.ini, h.al, h.max, fun v h1 h2 => by
    rw [hs.2.2.2 _ _ (fun k => hd k.1)]; exact h.use v h1 h2⟩

/-- The invariant. -/
theorem reach_inv {c : Cfg} {e : Env} (hc : 256 ≤ c.nd) (he : Sound c e) {w : W} {m : Mem}
    (h : Reach c e true w m) : Run c w.s m ∧ ∀ p x, w.procs p = some x → HeapOk m x := by
  induction h with
  | boot junk => exact ⟨Run.boot junk, fun p x hx => by cases hx⟩
  | @mem w m op s' ev hr hok hav haw hst ih =>
    refine ⟨Run.step ih.1 hok hav hst, fun p x hx => ?_⟩
    have hx' : w.procs p = some x := hx
    have H := ih.2 p x hx'
    refine ⟨keep_live ev haw hx' H.live, H.le, H.ini, H.al, H.max, fun v h1 h2 => ?_⟩
    obtain ⟨b, hb⟩ := H.use v h1 h2
    have hm := H.max
    exact keep (run_inv ih.1) hok hav haw hst hb ⟨⟨p, x, hx', rfl⟩, by omega⟩
  | @exec w m p d a hr hl hu ha ih =>
    refine ⟨ih.1, fun q x hx => ?_⟩
    change upd w.procs p _ q = some x at hx
    by_cases hq : q = p
    · rw [hq, upd_same] at hx
      injection hx with hx; subst hx
      exact ⟨hl, Nat.le_refl _, ha, ha, Or.inr rfl, fun v h1 h2 => by
        change a ≤ 4096 * v at h1; change 4096 * v < a at h2; omega⟩
    · rw [upd_other hq] at hx; exact ih.2 q x hx
  | @fork w m p q x n pts s' hr hp hq hok hav hu hst ih =>
    have haw : Away w (.fork x.space (some n) pts) := hu
    refine ⟨Run.step ih.1 hok hav hst, fun r y hy => ?_⟩
    change upd w.procs q _ r = some y at hy
    by_cases hr' : r = q
    · rw [hr', upd_same] at hy
      injection hy with hy; subst hy
      have H := ih.2 p x hp
      refine ⟨upd_same, H.le, H.ini, H.al, H.max, fun v h1 h2 => ?_⟩
      obtain ⟨b, hb⟩ := H.use v h1 h2
      refine ⟨b, ?_⟩
      show upd m.page n (m.page x.space) n v = _
      rw [upd_same]; exact hb
    · rw [upd_other hr'] at hy
      have H := ih.2 r y hy
      refine ⟨keep_live .ok haw hy H.live, H.le, H.ini, H.al, H.max, fun v h1 h2 => ?_⟩
      obtain ⟨b, hb⟩ := H.use v h1 h2
      have hm := H.max
      exact keep (run_inv ih.1) hok hav haw hst hb ⟨⟨r, y, hy, rfl⟩, by omega⟩
  | @vfork w m p q x hr hp hq ih =>
    refine ⟨ih.1, fun r y hy => ?_⟩
    change upd w.procs q _ r = some y at hy
    by_cases hr' : r = q
    · rw [hr', upd_same] at hy
      injection hy with hy; subst hy
      exact ih.2 p x hp
    · rw [upd_other hr'] at hy; exact ih.2 r y hy
  | @exit w m p hr ih =>
    refine ⟨ih.1, fun r y hy => ?_⟩
    change upd w.procs p _ r = some y at hy
    by_cases hr' : r = p
    · rw [hr', upd_same] at hy; cases hy
    · rw [upd_other hr'] at hy; exact ih.2 r y hy
  | @brk w m p x new s' r ops hr hp hal hst ih =>
    have H := ih.2 p x hp
    obtain ⟨s1, r1, ops1, k1, k2, k3⟩ := brk_all hc he ih.1 H new
    rw [hst] at k1
    injection k1 with k1; injection k1 with e1 k1; injection k1 with e2 e3
    subst e1; subst e2; subst e3
    refine ⟨k2, fun q y hy => ?_⟩
    change upd w.procs p _ q = some y at hy
    have hmax : MAX = 0x40000000 := rfl
    by_cases hq : q = p
    · rw [hq, upd_same] at hy
      injection hy with hy; subst hy
      rcases k3 with ⟨hv, hlt, hre, hsame, hgone⟩ | ⟨hv, hlt, hfree, h1, h2, h3, hsame, huse, -⟩ | ⟨-, -, h2, h3⟩
      · refine ⟨by show (doneOps m ops).live x.space = true; rw [hsame.1]; exact H.live,
          by show x.init ≤ r; rw [hre]; exact hv.2.2.1, H.ini, by show r % 4096 = 0; rw [hre]; exact hv.2.1,
          Or.inl (by show r ≤ MAX; have := hv.2.2.2; omega), fun v a b => ?_⟩
        change x.init ≤ 4096 * v at a
        change 4096 * v < r at b
        show ∃ bytes, (doneOps m ops).page x.space v = _
        rw [hsame.2.2.2 _ _ (by omega)]
        exact H.use v a (by omega)
      · refine ⟨by show (doneOps m ops).live x.space = true; rw [hsame.1]; exact H.live,
          by show x.init ≤ r; have := H.le; omega, H.ini, h3,
          Or.inl (by show r ≤ MAX; have := hv.2.2.2; omega), fun v a b => ?_⟩
        change x.init ≤ 4096 * v at a
        change 4096 * v < r at b
        show ∃ bytes, (doneOps m ops).page x.space v = _
        by_cases hb : x.brk ≤ 4096 * v
        · exact huse v hb b
        · rw [hsame.2.2.2 _ _ (by omega)]
          exact H.use v a (by omega)
      · subst h2; subst h3
        exact H
    · rw [upd_other hq] at hy
      have Hy := ih.2 q y hy
      have hne : y.space ≠ x.space := fun k => hq (hal rfl q y hy k)
      rcases k3 with ⟨-, -, -, hsame, -⟩ | ⟨-, -, -, -, -, -, hsame, -⟩ | ⟨-, -, -, h3⟩
      · exact heapOk_of_same Hy hsame hne
      · exact heapOk_of_same Hy hsame hne
      · subst h3; exact Hy

/-! ## Theorems -/

/-- C142: whatever the processes do, the addresses from the initial break to the break are memory
of the process that can be read and written (`Run` and `process_memory_partial` of `Paging` say that
loads and stores there work).  Partial: the child of a `vfork` must not call `brk`; see
`vfork_violated`. -/
theorem heap_there_partial {c : Cfg} {e : Env} (hc : 256 ≤ c.nd) (he : Sound c e) {w : W} {m : Mem}
    (h : Reach c e true w m) {p : Nat} {x : Proc} (hp : w.procs p = some x) :
    Run c w.s m ∧ m.live x.space = true ∧ x.init ≤ x.brk ∧ x.brk % 4096 = 0 ∧
      Usable m x.space x.init x.brk :=
  have H := (reach_inv hc he h).2 p x hp
  ⟨(reach_inv hc he h).1, H.live, H.le, H.al, H.use⟩

/-- C142: `brk` never touches memory it must not (`none`), and what follows is again an execution
of the memory manager (so no reference is lost and no frame is freed that is in use).  Partial: as
above. -/
theorem brk_defined_partial {c : Cfg} {e : Env} (hc : 256 ≤ c.nd) (he : Sound c e) {w : W} {m : Mem}
    (h : Reach c e true w m) {p : Nat} {x : Proc} (hp : w.procs p = some x) (new : Nat) :
    ∃ s' r ops, sysBrk c e w.s x new = some (s', r, ops) ∧ Run c s' (doneOps m ops) :=
  have ⟨s', r, ops, h1, h2, _⟩ := brk_all hc he (reach_inv hc he h).1 ((reach_inv hc he h).2 p x hp) new
  ⟨s', r, ops, h1, h2⟩

/-- C143: giving back: the break is the address asked for, the pages between are gone, nothing else
changes for any process.  Partial: as above. -/
theorem brk_shrinks_partial {c : Cfg} {e : Env} (hc : 256 ≤ c.nd) (he : Sound c e) {w : W} {m : Mem}
    (h : Reach c e true w m) {p : Nat} {x : Proc} (hp : w.procs p = some x) {new : Nat}
    (hv : Valid x new) (hn : new < x.brk) :
    ∃ s' ops, sysBrk c e w.s x new = some (s', new, ops) ∧ Run c s' (doneOps m ops) ∧
      SameBut m (doneOps m ops) x.space new x.brk ∧
      ∀ v, new ≤ 4096 * v → 4096 * v < x.brk → (doneOps m ops).page x.space v = none := by
  obtain ⟨s', r, ops, h1, h2, k | k | k⟩ :=
    brk_all hc he (reach_inv hc he h).1 ((reach_inv hc he h).2 p x hp) new
  · obtain ⟨-, -, rfl, k1, k2⟩ := k
    exact ⟨s', ops, h1, h2, k1, k2⟩
  · omega
  · exact absurd ⟨hv, Or.inl hn⟩ k.1

/-- C143: asking for more: the break moves up, at most to the address asked for; what it passes is
new private memory, nothing else changes for any process.  If memory is there, the break is the
address asked for.  Partial: as above. -/
theorem brk_grows_partial {c : Cfg} {e : Env} (hc : 256 ≤ c.nd) (he : Sound c e) {w : W} {m : Mem}
    (h : Reach c e true w m) {p : Nat} {x : Proc} (hp : w.procs p = some x) {new : Nat}
    (hv : Valid x new) (hn : x.brk < new)
    (hf : ∀ v, x.brk ≤ 4096 * v → 4096 * v < new → m.page x.space v = none) :
    ∃ s' r ops, sysBrk c e w.s x new = some (s', r, ops) ∧ Run c s' (doneOps m ops) ∧
      x.brk ≤ r ∧ r ≤ new ∧ SameBut m (doneOps m ops) x.space x.brk r ∧
      Usable (doneOps m ops) x.space x.brk r ∧
      ((∀ s, (e.pg s).isSome = true ∧ (e.nt s).isSome = true) → r = new) := by
  obtain ⟨s', r, ops, h1, h2, k | k | k⟩ :=
    brk_all hc he (reach_inv hc he h).1 ((reach_inv hc he h).2 p x hp) new
  · omega
  · obtain ⟨-, -, -, k1, k2, -, k3, k4, k5⟩ := k
    exact ⟨s', r, ops, h1, h2, k1, k2, k3, k4, k5⟩
  · exact absurd ⟨hv, Or.inr ⟨hn, hf⟩⟩ k.1

/-- C145: an address that cannot be the break (0, not the beginning of a page, below the initial
break, 1 GB or more, or with mapped pages before it) and the present break leave everything as it
is; the break is returned.  Partial: as above. -/
theorem brk_refused_partial {c : Cfg} {e : Env} (hc : 256 ≤ c.nd) (he : Sound c e) {w : W} {m : Mem}
    (h : Reach c e true w m) {p : Nat} {x : Proc} (hp : w.procs p = some x) {new : Nat}
    (hn : ¬ Valid x new ∨ new = x.brk ∨
      (x.brk < new ∧ ∃ v, x.brk ≤ 4096 * v ∧ 4096 * v < new ∧ m.page x.space v ≠ none)) :
    sysBrk c e w.s x new = some (w.s, x.brk, []) := by
  obtain ⟨s', r, ops, h1, h2, k | k | k⟩ :=
    brk_all hc he (reach_inv hc he h).1 ((reach_inv hc he h).2 p x hp) new
  · rcases hn with q | q | q
    · exact absurd k.1 q
    · omega
    · omega
  · rcases hn with q | q | ⟨q, v, a, b, d⟩
    · exact absurd k.1 q
    · omega
    · exact absurd (k.2.2.1 v a b) d
  · obtain ⟨-, rfl, rfl, rfl⟩ := k
    exact h1

/-! ## Concrete executions -/

/-- A process asks for a break. -/
def doBrk (c : Cfg) (e : Env) (w : W × Mem) (p new : Nat) : W × Mem :=
  match w.1.procs p with
  | none => w
  | some x =>
    match sysBrk c e w.1.s x new with
    | none => w
    | some (s', r, ops) => (⟨s', upd w.1.procs p (some { x with brk := r })⟩, doneOps w.2 ops)

theorem Reach.doBrk {c : Cfg} {e : Env} {al : Bool} {w : W × Mem} (h : Reach c e al w.1 w.2)
    {p new : Nat} (ha : ∀ x, w.1.procs p = some x → al = true → Alone w.1 p x) :
    Reach c e al (Brk.doBrk c e w p new).1 (Brk.doBrk c e w p new).2 := by
  unfold Brk.doBrk
  cases hp : w.1.procs p with
  | none => exact h
  | some x =>
    dsimp only
    cases hs : sysBrk c e w.1.s x new with
    | none => exact h
    | some o => exact Reach.brk h hp (ha x hp) hs

/-- An operation of the memory manager. -/
def doMem (c : Cfg) (w : W × Mem) (op : Op) : W × Mem :=
  (⟨(next c (w.1.s, w.2) op).1, w.1.procs⟩, (next c (w.1.s, w.2) op).2)

theorem Reach.doMem {c : Cfg} {e : Env} {al : Bool} {w : W × Mem} (h : Reach c e al w.1 w.2)
    {op : Op} (hok : Ok c w.1.s w.2 op) (hav : ¬ Avoid c w.1.s op) (haw : Away w.1 op) :
    Reach c e al (Brk.doMem c w op).1 (Brk.doMem c w op).2 := by
  unfold Brk.doMem next
  cases hq : Paging.step c w.1.s op with
  | none => exact h
  | some o => exact Reach.mem h hok hav haw hq

def exC : Cfg := ⟨256, 8, 0, by decide⟩

/-- Two pages and two page tables are there. -/
def exE : Env where
  pg := fun s => if s.alloc 3 = false then some 3 else if s.alloc 4 = false then some 4 else none
  nt := fun s => if (s.pt 10).isNone then some 10 else if (s.pt 11).isNone then some 11 else none

theorem exE_sound : Sound exC exE := by
  refine ⟨fun s g h => ?_, fun s t h => ?_⟩
  · change (if s.alloc 3 = false then some 3 else if s.alloc 4 = false then some 4 else none) = some g at h
    split at h
    · rename_i k; injection h with h; subst h; exact ⟨by decide, by decide, k⟩
    · split at h
      · rename_i k; injection h with h; subst h; exact ⟨by decide, by decide, k⟩
      · cases h
  · change (if (s.pt 10).isNone then some 10 else if (s.pt 11).isNone then some 11 else none) = some t at h
    split at h
    · rename_i k; injection h with h; subst h; exact isNone_eq k
    · split at h
      · rename_i k; injection h with h; subst h; exact isNone_eq k
      · cases h

/-- After boot; two spaces; processes 1 and 2 in them, with the break at 4096. -/
def ex0 : W × Mem := (⟨boot exC fun _ _ => 0, fun _ => none⟩, Mem.boot exC fun _ _ => 0)
def ex1 := doMem exC (doMem exC ex0 (.new (some 1))) (.new (some 2))
def ex2 : W × Mem := (⟨ex1.1.s, upd ex1.1.procs 1 (some ⟨1, 4096, 4096⟩)⟩, ex1.2)
def ex3 : W × Mem := (⟨ex2.1.s, upd ex2.1.procs 2 (some ⟨2, 4096, 4096⟩)⟩, ex2.2)

theorem ex0_none (p : Nat) : ex0.1.procs p = none := rfl

theorem ex1_reach (al : Bool) : Reach exC exE al ex1.1 ex1.2 := by
  refine Reach.doMem (op := .new (some 2)) (Reach.doMem (w := ex0) (op := .new (some 1))
    (Reach.boot _) ?_ (fun h => h) ?_) ?_ (fun h => h) ?_
  · intro k hk; injection hk with hk; subst hk; rfl
  · intro p x hx; cases hx
  · intro k hk; injection hk with hk; subst hk; exact isNone_eq (by decide +kernel)
  · intro p x hx; cases hx

theorem ex2_reach (al : Bool) : Reach exC exE al ex2.1 ex2.2 :=
  Reach.exec (ex1_reach al) (by decide +kernel) (fun p x hx => by cases hx) (by decide)

theorem ex3_reach (al : Bool) : Reach exC exE al ex3.1 ex3.2 := by
  refine Reach.exec (ex2_reach al) (by decide +kernel) (fun p x hx => ?_) (by decide)
  change upd ex1.1.procs 1 _ p = some x at hx
  by_cases hp : p = 1
  · rw [hp, upd_same] at hx; injection hx with hx; subst hx; decide
  · rw [upd_other hp] at hx; cases hx

/-- Process 1 gets a page of heap, writes 65 at its beginning and gives it back. -/
def ex4 := doBrk exC exE ex3 1 8192
def ex5 := doMem exC ex4 (.store 1 1 0 65 none)
def ex6 := doBrk exC exE ex5 1 4096

/-- The two processes of the example do not share their spaces. -/
def Two (w : W) : Prop := ∀ p x, w.procs p = some x → p = x.space

theorem two_alone {w : W} (h : Two w) : ∀ {p : Nat} {x : Proc}, w.procs p = some x → Alone w p x := by
  intro p x hx q y hy e
  rw [h q y hy, h p x hx, e]

theorem two_ex3 : Two ex3.1 := by
  intro p x hx
  change upd ex2.1.procs 2 _ p = some x at hx
  by_cases hp : p = 2
  · rw [hp, upd_same] at hx; injection hx with hx; subst hx; exact hp
  · rw [upd_other hp] at hx
    change upd ex1.1.procs 1 _ p = some x at hx
    by_cases hp : p = 1
    · rw [hp, upd_same] at hx; injection hx with hx; subst hx; exact hp
    · rw [upd_other hp] at hx; cases hx

theorem two_doBrk {w : W × Mem} (h : Two w.1) (p new : Nat) : Two (doBrk exC exE w p new).1 := by
  unfold doBrk
  cases hp : w.1.procs p with
  | none => exact h
  | some x =>
    dsimp only
    cases hs : sysBrk exC exE w.1.s x new with
    | none => exact h
    | some o =>
      intro q y hy
      change upd w.1.procs p _ q = some y at hy
      by_cases hq : q = p
      · rw [hq, upd_same] at hy; injection hy with hy; subst hy
        rw [hq]; exact h p x hp
      · rw [upd_other hq] at hy; exact h q y hy

theorem ex4_reach (al : Bool) : Reach exC exE al ex4.1 ex4.2 :=
  Reach.doBrk (ex3_reach al) (fun _ hx _ => two_alone two_ex3 hx)

theorem ex6_reach (al : Bool) : Reach exC exE al ex6.1 ex6.2 := by
  refine Reach.doBrk (Reach.doMem (op := .store 1 1 0 65 none) (ex4_reach al) ?_ (fun h => h) trivial) (fun x hx _ => ?_)
  · exact ⟨by decide +kernel, fun g hg => by cases hg⟩
  · exact two_alone (two_doBrk two_ex3 1 8192) hx

/-- The theorems above apply: process 1 has a heap of one page. -/
example : ex4.1.procs 1 = some ⟨1, 4096, 8192⟩ ∧ Valid ⟨1, 4096, 8192⟩ 4096 ∧
    ex5.2.read 1 1 0 = .byte 65 := by
  refine ⟨by decide +kernel, ⟨by decide, by decide, by decide, by decide⟩, by decide +kernel⟩

/-- C144 is violated: the page that process 2 gets contains what process 1 wrote. -/
theorem stale_data_violated :
    ∃ (w : W) (m : Mem) (s' : St) (ops : List Op), Reach exC exE true w m ∧
      w.procs 2 = some ⟨2, 4096, 4096⟩ ∧ m.read 2 1 0 = .fault ∧
      sysBrk exC exE w.s ⟨2, 4096, 4096⟩ 8192 = some (s', 8192, ops) ∧
      (doneOps m ops).read 2 1 0 = .byte 65 := by
  have h : (sysBrk exC exE ex6.1.s ⟨2, 4096, 4096⟩ 8192).map (fun x => (x.2.1, (doneOps ex6.2 x.2.2).read 2 1 0)) =
      some (8192, .byte 65) := by decide +kernel
  cases hs : sysBrk exC exE ex6.1.s ⟨2, 4096, 4096⟩ 8192 with
  | none => rw [hs] at h; cases h
  | some o =>
    obtain ⟨s', r, ops⟩ := o
    rw [hs] at h
    injection h with h
    injection h with h1 h2
    change r = 8192 at h1
    subst h1
    exact ⟨ex6.1, ex6.2, s', ops, ex6_reach true, by decide +kernel, by decide +kernel, hs, h2⟩

/-- C145 is violated: when memory runs out the break has moved, although not to the address asked
for, and the memory it passed stays allocated. -/
theorem partial_growth_violated :
    ∃ (w : W) (m : Mem) (s' : St) (ops : List Op), Reach exC exE true w m ∧
      w.procs 1 = some ⟨1, 4096, 4096⟩ ∧ w.s.alloc 3 = false ∧
      sysBrk exC exE w.s ⟨1, 4096, 4096⟩ 16384 = some (s', 12288, ops) ∧ s'.alloc 3 = true := by
  have h : (sysBrk exC exE ex3.1.s ⟨1, 4096, 4096⟩ 16384).map (fun x => (x.2.1, x.1.alloc 3)) =
      some (12288, true) := by decide +kernel
  cases hs : sysBrk exC exE ex3.1.s ⟨1, 4096, 4096⟩ 16384 with
  | none => rw [hs] at h; cases h
  | some o =>
    obtain ⟨s', r, ops⟩ := o
    rw [hs] at h
    injection h with h
    injection h with h1 h2
    change r = 12288 at h1
    subst h1
    exact ⟨ex3.1, ex3.2, s', ops, ex3_reach true, by decide +kernel, by decide +kernel, hs, h2⟩

/-- C143 is violated for addresses within a page: the break stays although memory is there. -/
theorem unaligned_violated :
    ∃ (w : W) (m : Mem), Reach exC exE true w m ∧ w.procs 1 = some ⟨1, 4096, 4096⟩ ∧
      (sysBrk exC exE w.s ⟨1, 4096, 4096⟩ 5000).map (fun x => x.2.1) = some 4096 ∧
      (sysBrk exC exE w.s ⟨1, 4096, 4096⟩ 8192).map (fun x => x.2.1) = some 8192 :=
  ⟨ex3.1, ex3.2, ex3_reach true, by decide +kernel, by decide +kernel, by decide +kernel⟩

/-- Process 1 has a page of heap and makes the child 5 with `vfork`; the child gives the page back
and ends. -/
def ex7 : W × Mem := (⟨ex4.1.s, upd ex4.1.procs 5 (some ⟨1, 4096, 8192⟩)⟩, ex4.2)
def ex8 := doBrk exC exE ex7 5 4096
def ex9 : W × Mem := (⟨ex8.1.s, upd ex8.1.procs 5 none⟩, ex8.2)

theorem ex9_reach : Reach exC exE false ex9.1 ex9.2 :=
  Reach.exit (Reach.doBrk (Reach.vfork (ex4_reach false) (p := 1) (by decide +kernel)
    (by decide +kernel)) (fun _ _ h => by cases h))

/-- C142 is violated when the child of a `vfork` calls `brk`: the page of the parent's heap is
gone, and the parent's `brk` removes a page that is not there (it drops a reference of the page
frame 0). -/
theorem vfork_violated :
    ∃ (w : W) (m : Mem), Reach exC exE false w m ∧ w.procs 1 = some ⟨1, 4096, 8192⟩ ∧
      w.procs 5 = none ∧ m.page 1 1 = none ∧ sysBrk exC exE w.s ⟨1, 4096, 8192⟩ 4096 = none := by
  refine ⟨ex9.1, ex9.2, ex9_reach, by decide +kernel, by decide +kernel, ?_, ?_⟩
  · have h : ex9.2.read 1 1 0 = .fault := by decide +kernel
    unfold Mem.read at h
    cases hp : ex9.2.page 1 1 with
    | none => rfl
    | some q => rw [hp] at h; cases q <;> cases h
  · exact isNone_eq (by decide +kernel)


end Verif.Brk
