/-
Mount points.

Modelled code (vvaltchev/tilck):
  kernel/vfs/vfs_mp.c.h 9-139                   the table of mount points, mp_add
  kernel/vfs/vfs_resolve.c.h 66-91, 93-99,      how path resolution crosses mount points
    178-243, 246-277

Simplifications: the directories of the file systems do not change; names are abstract, a path is the list of its
components; symbolic links are left out (module Resolve has them); the locks of the file systems are left out (they
are taken and dropped around the steps below).
-/
import Mathlib.Data.List.Basic
import Mathlib.Tactic.Common

namespace Verif.MountPt

abbrev Fs := Nat
abbrev Ino := Nat
abbrev Name := Nat

/-! ## Model -/

/-- The directories: the entry `name` of a directory, whether an inode is a directory, the parent of a directory.
The root directory of each file system is its inode 0. -/
structure World where
  entry : Fs → Ino → Name → Option Ino
  isDir : Fs → Ino → Bool
  parent : Fs → Ino → Ino
  /-- vfs_mp.c.h:7, `mp_root`. -/
  root : Fs

/-- `struct mountpoint`. -/
structure Mp where
  host : Fs
  ino : Ino
  target : Fs
  deriving DecidableEq

/-- config_kernel.h:46, `MAX_MOUNTPOINTS`. -/
def MAX : Nat := 16

/-- vfs_mp.c.h:6: the table `mps2` (`none`: `host_fs` is NULL); the reference counts of file systems and inodes; the
calls of `mp_add` that have resolved their path and not yet taken `mp_mutex`. -/
structure St where
  tab : List (Option Mp)
  refs : Fs → Int
  irefs : Fs → Ino → Int
  pend : List Mp

/-- vfs_mp.c.h:29-38, `mp_get_at_nolock`. -/
def getAt : List (Option Mp) → Fs → Ino → Option Fs
  | [], _, _ => none
  | some m :: r, h, i => if m.ino = i ∧ m.host = h then some m.target else getAt r h i
  | none :: r, h, i => getAt r h i

/-- vfs_mp.c.h:52-70, `mp_get_retained_mp_of`, the search. -/
def mpOf : List (Option Mp) → Fs → Option Mp
  | [], _ => none
  | some m :: r, t => if m.target = t then some m else mpOf r t
  | none :: r, t => mpOf r t

/-- vfs_resolve.c.h:66-91, `__vfs_resolve_get_entry`: an entry that is a mount point is replaced by the root of the file
system mounted there. -/
def enter (tab : List (Option Mp)) (h : Fs) (i : Ino) : Fs × Ino :=
  match getAt tab h i with
  | some t => (t, 0)
  | none => (h, i)

/-- A component of a path. -/
inductive Comp | name (n : Name) | up
  deriving DecidableEq

/-- vfs_resolve.c.h:246-277 with 178-243: one component. `none`: there is no such entry. -/
def walk1 (w : World) (tab : List (Option Mp)) (x : Fs × Ino) : Comp → Option (Fs × Ino)
  | .name n =>
    match w.entry x.1 x.2 n with
    | none => none
    | some j => some (enter tab x.1 j)
  | .up =>
    if x.2 = 0 then
      if x.1 = w.root then some x
      else
        match mpOf tab x.1 with
        | none => none
        | some m => some (m.host, w.parent m.host m.ino)
    else some (enter tab x.1 (w.parent x.1 x.2))

/-- The resolution of a path that starts at `x`. -/
def walk (w : World) (tab : List (Option Mp)) (x : Fs × Ino) : List Comp → Option (Fs × Ino)
  | [] => some x
  | c :: r =>
    match walk1 w tab x c with
    | none => none
    | some y => walk w tab y r

/-- vfs_resolve.c.h:93-99, `get_locked_retained_root`: absolute paths start at the root of the root file system. -/
def resolve (w : World) (tab : List (Option Mp)) (p : List Comp) : Option (Fs × Ino) := walk w tab (w.root, 0) p

inductive Errno | enoent | enotdir | ebusy | eperm | emfile
  deriving DecidableEq

def addRef (f : Fs → Int) (x : Fs) (d : Int) : Fs → Int := fun y => if y = x then f y + d else f y
def addIref (f : Fs → Ino → Int) (x : Fs) (i : Ino) (d : Int) : Fs → Ino → Int :=
  fun y j => if y = x ∧ j = i then f y j + d else f y j

/-- The first free slot (vfs_mp.c.h:117-120) is used, if there is one. -/
def putFree (tab : List (Option Mp)) (m : Mp) : Option (List (Option Mp)) :=
  match tab with
  | [] => none
  | none :: r => some (some m :: r)
  | some x :: r => (putFree r m).map (some x :: ·)

/-- vfs_mp.c.h:111-116: is the target already mounted? -/
def mounted (tab : List (Option Mp)) (t : Fs) : Bool := (mpOf tab t).isSome

/-- vfs_mp.c.h:72-95, the first half of `mp_add`: the path is resolved (the host file system is retained by
`vfs_resolve`), its inode is retained, the host is unlocked. -/
def begin (w : World) (s : St) (target : Fs) (p : List Comp) : St × Option (Option Errno) :=
  match resolve w s.tab p with
  | none => (s, some (some .enoent))
  | some (h, i) =>
    if w.isDir h i = false then (s, some (some .enotdir))
    else ({ s with refs := addRef s.refs h 1, irefs := addIref s.irefs h i 1,
                   pend := ⟨h, i, target⟩ :: s.pend }, none)

/-- vfs_mp.c.h:96-139, the second half, under `mp_mutex`. -/
def finish (s : St) (k : Nat) (m : Mp) : St × Option (Option Errno) :=
  if (getAt s.tab m.host m.ino).isSome then
    ({ s with irefs := addIref s.irefs m.host m.ino (-1), pend := s.pend.eraseIdx k },
      some (some .ebusy))
  else if mounted s.tab m.target then
    ({ s with irefs := addIref s.irefs m.host m.ino (-1), pend := s.pend.eraseIdx k },
      some (some .eperm))
  else
    match putFree s.tab m with
    | some tab =>
      ({ s with tab := tab, refs := addRef s.refs m.target 1, pend := s.pend.eraseIdx k },
        some none)
    | none =>
      ({ s with irefs := addIref s.irefs m.host m.ino (-1), refs := addRef s.refs m.host (-1),
                pend := s.pend.eraseIdx k },
        some (some .emfile))

/-- A call of `mp_add` begins; the `k`-th call that waits goes on and ends. -/
inductive Ev | begin (target : Fs) (p : List Comp) | finish (k : Nat)

/-- A step of a task that mounts; the second component is the result of `mp_add`, if it returns (`some none` is 0). -/
def step (w : World) (s : St) : Ev → Option (St × Option (Option Errno))
  | .begin t p => some (begin w s t p)
  | .finish k =>
    match s.pend[k]? with
    | none => none
    | some m => some (finish s k m)

/-- vfs_mp.c.h:9-21, `mp_init`: the root file system is retained. Other references exist from before. -/
def init (w : World) (refs : Fs → Int) (irefs : Fs → Ino → Int) : St :=
  ⟨List.replicate MAX none, addRef refs w.root 1, irefs, []⟩

/-! ## Specification -/

/-- What has been mounted, the latest first: which file system, on which directory. -/
abbrev Hist := List Mp

/-- The histories: the successful calls are recorded. -/
inductive Reach (w : World) (r0 : Fs → Int) (i0 : Fs → Ino → Int) (ok : St → Mp → Prop) : St → Hist → Prop
  | init : Reach w r0 i0 ok (init w r0 i0) []
  | begin {s H s' o} (t p) : Reach w r0 i0 ok s H → step w s (.begin t p) = some (s', o) →
      Reach w r0 i0 ok s' H
  | finish {s H s' o m} (k) : Reach w r0 i0 ok s H → s.pend[k]? = some m → ok s m →
      step w s (.finish k) = some (s', o) →
      Reach w r0 i0 ok s' (if o = some none then m :: H else H)

/-- A path of plain names inside one file system. -/
def inside (w : World) (f : Fs) : Ino → List Name → Option (Fs × Ino)
  | i, [] => some (f, i)
  | i, n :: r =>
    match w.entry f i n with
    | none => none
    | some j => inside w f j r

/-- What is seen at a path after a list of mounts (latest first) at given paths: a mount covers its path and everything
below, also what was mounted there before. -/
def view (w : World) : List (List Name × Fs) → List Name → Option (Fs × Ino)
  | [], r => inside w w.root 0 r
  | (p, t) :: M, r => if p <+: r then inside w t 0 (r.drop p.length) else view w M r

/-- The directories form trees: an entry is nobody else's entry and is not a root. -/
def Tree (w : World) : Prop :=
  (∀ f i n i' n' j, w.entry f i n = some j → w.entry f i' n' = some j → i = i' ∧ n = n') ∧
  (∀ f i n, w.entry f i n ≠ some 0)

def names (p : List Name) : List Comp := p.map .name

/-- A mount without interruption: the two halves of `mp_add`. -/
def mount (w : World) (s : St) (t : Fs) (p : List Comp) : St × Option (Option Errno) :=
  match begin w s t p with
  | (s', none) =>
    match s'.pend with
    | m :: _ => finish s' 0 m
    | [] => (s', none)
  | r => r

/-- The mounts made so far, each at a path, one after the other. -/
inductive Mounts (w : World) (r0 : Fs → Int) (i0 : Fs → Ino → Int) (ok : St → List Name → Fs → Prop) :
    St → List (List Name × Fs) → Prop
  | init : Mounts w r0 i0 ok (init w r0 i0) []
  | mount {s M s' o} (t p) : Mounts w r0 i0 ok s M → ok s p t → mount w s t (names p) = (s', o) →
      Mounts w r0 i0 ok s' (if o = some none then (p, t) :: M else M)

/-! ## Proofs -/

/-- The entries that are in use. -/
def live (tab : List (Option Mp)) : List Mp := tab.filterMap id

theorem getAt_live : ∀ (tab : List (Option Mp)) (h : Fs) (i : Ino),
    getAt tab h i = ((live tab).find? fun m => decide (m.ino = i ∧ m.host = h)).map Mp.target
  | [], _, _ => rfl
  | none :: r, h, i => by
    rw [getAt, getAt_live r]; rfl
  | some m :: r, h, i => by
    rw [getAt, show live (some m :: r) = m :: live r from rfl, List.find?_cons]
    by_cases hc : m.ino = i ∧ m.host = h
    · rw [if_pos hc, show decide (m.ino = i ∧ m.host = h) = true from decide_eq_true hc]; rfl
    · rw [if_neg hc, show decide (m.ino = i ∧ m.host = h) = false from decide_eq_false hc, getAt_live r]

theorem mpOf_live : ∀ (tab : List (Option Mp)) (t : Fs), mpOf tab t = (live tab).find? fun m => decide (m.target = t)
  | [], _ => rfl
  | none :: r, t => by rw [mpOf, mpOf_live r]; rfl
  | some m :: r, t => by
    rw [mpOf, show live (some m :: r) = m :: live r from rfl, List.find?_cons]
    by_cases hc : m.target = t
    · rw [if_pos hc, show decide (m.target = t) = true from decide_eq_true hc]
    · rw [if_neg hc, show decide (m.target = t) = false from decide_eq_false hc, mpOf_live r]

theorem getAt_none (tab : List (Option Mp)) (h : Fs) (i : Ino) :
    getAt tab h i = none ↔ ∀ m ∈ live tab, ¬ (m.host = h ∧ m.ino = i) := by
  rw [getAt_live]
  simp only [Option.map_eq_none_iff, List.find?_eq_none, decide_eq_true_eq]
  constructor
  · intro a m hm b; exact a m hm ⟨b.2, b.1⟩
  · intro a m hm b; exact a m hm ⟨b.2, b.1⟩

theorem mounted_iff (tab : List (Option Mp)) (t : Fs) : mounted tab t = true ↔ ∃ m ∈ live tab, m.target = t := by
  rw [mounted, mpOf_live]
  simp

theorem putFree_some : ∀ (tab : List (Option Mp)) (m : Mp) (tab' : List (Option Mp)), putFree tab m = some tab' →
    (live tab').Perm (m :: live tab) ∧ tab'.length = tab.length
  | [], m, tab', h => by cases h
  | none :: r, m, tab', h => by
    cases h; exact ⟨List.Perm.refl _, rfl⟩
  | some x :: r, m, tab', h => by
    rw [putFree, Option.map_eq_some_iff] at h
    obtain ⟨r', h1, rfl⟩ := h
    obtain ⟨h2, h3⟩ := putFree_some r m r' h1
    refine ⟨?_, by simp [h3]⟩
    show (x :: live r').Perm (m :: x :: live r)
    exact (h2.cons x).trans (List.Perm.swap _ _ _)

theorem putFree_none : ∀ (tab : List (Option Mp)) (m : Mp), putFree tab m = none → (live tab).length = tab.length
  | [], _, _ => rfl
  | none :: r, m, h => by cases h
  | some x :: r, m, h => by
    rw [putFree, Option.map_eq_none_iff] at h
    show (x :: live r).length = _
    simp [putFree_none r m h]

theorem putFree_some_of_room (tab : List (Option Mp)) (m : Mp) (h : (live tab).length < tab.length) :
    ∃ tab', putFree tab m = some tab' := by
  cases hp : putFree tab m with
  | none => have := putFree_none tab m hp; omega
  | some t => exact ⟨t, rfl⟩

/-- The invariant of the table. -/
structure Inv (s : St) (H : Hist) : Prop where
  len : s.tab.length = 16
  perm : (live s.tab).Perm H
  hosts : H.Pairwise fun a b => ¬ (a.host = b.host ∧ a.ino = b.ino)
  targets : H.Pairwise fun a b => a.target ≠ b.target

theorem inv_init (w : World) (r0 : Fs → Int) (i0 : Fs → Ino → Int) : Inv (init w r0 i0) [] := by
  refine ⟨by simp [init, MAX], ?_, List.Pairwise.nil, List.Pairwise.nil⟩
  have : live (List.replicate MAX none) = [] := by decide
  rw [init, this]

theorem begin_tab (w : World) (s : St) (t : Fs) (p : List Comp) : (begin w s t p).1.tab = s.tab := by
  unfold begin
  split
  · rfl
  split <;> rfl

theorem inv_mem {s : St} {H : Hist} (h : Inv s H) (m : Mp) : m ∈ live s.tab ↔ m ∈ H := h.perm.mem_iff

/-- The outcome of the second half. -/
inductive Out (s : St) (H : Hist) (k : Nat) (m : Mp) : St × Option (Option Errno) → Prop
  | busy (h : ∃ x ∈ H, x.host = m.host ∧ x.ino = m.ino) : Out s H k m
      ({ s with irefs := addIref s.irefs m.host m.ino (-1), pend := s.pend.eraseIdx k }, some (some .ebusy))
  | perm (h0 : ∀ x ∈ H, ¬ (x.host = m.host ∧ x.ino = m.ino)) (h : ∃ x ∈ H, x.target = m.target) : Out s H k m
      ({ s with irefs := addIref s.irefs m.host m.ino (-1), pend := s.pend.eraseIdx k }, some (some .eperm))
  | full (h0 : ∀ x ∈ H, ¬ (x.host = m.host ∧ x.ino = m.ino)) (h1 : ∀ x ∈ H, x.target ≠ m.target)
      (h : H.length = 16) : Out s H k m
      ({ s with irefs := addIref s.irefs m.host m.ino (-1), refs := addRef s.refs m.host (-1),
                pend := s.pend.eraseIdx k }, some (some .emfile))
  | ok (tab : List (Option Mp)) (h0 : ∀ x ∈ H, ¬ (x.host = m.host ∧ x.ino = m.ino)) (h1 : ∀ x ∈ H, x.target ≠ m.target)
      (h : H.length < 16) (hl : tab.length = 16) (hp : (live tab).Perm (m :: H)) : Out s H k m
      ({ s with tab := tab, refs := addRef s.refs m.target 1, pend := s.pend.eraseIdx k }, some none)

theorem finish_out {s : St} {H : Hist} (h : Inv s H) (k : Nat) (m : Mp) : Out s H k m (finish s k m) := by
  unfold finish
  by_cases c1 : (getAt s.tab m.host m.ino).isSome = true
  · rw [if_pos c1]
    refine .busy ?_
    by_contra hc
    have : getAt s.tab m.host m.ino = none := by
      rw [getAt_none]
      intro x hx hh
      exact hc ⟨x, (inv_mem h x).1 hx, hh⟩
    rw [this] at c1; cases c1
  rw [if_neg c1]
  have h0 : ∀ x ∈ H, ¬ (x.host = m.host ∧ x.ino = m.ino) := by
    have : getAt s.tab m.host m.ino = none := by simpa using c1
    rw [getAt_none] at this
    intro x hx
    exact this x ((inv_mem h x).2 hx)
  by_cases c2 : mounted s.tab m.target = true
  · rw [if_pos c2]
    refine .perm h0 ?_
    obtain ⟨x, hx, ht⟩ := (mounted_iff _ _).1 c2
    exact ⟨x, (inv_mem h x).1 hx, ht⟩
  rw [if_neg c2]
  have h1 : ∀ x ∈ H, x.target ≠ m.target := fun x hx ht => c2 ((mounted_iff _ _).2 ⟨x, (inv_mem h x).2 hx, ht⟩)
  have hlen := h.perm.length_eq
  cases hp : putFree s.tab m with
  | none =>
    have := putFree_none _ _ hp
    refine .full h0 h1 ?_
    rw [← hlen, this, h.len]
  | some tab =>
    obtain ⟨q1, q2⟩ := putFree_some _ _ _ hp
    refine .ok tab h0 h1 ?_ (by rw [q2, h.len]) (q1.trans (h.perm.cons m))
    have hb : ∀ l : List (Option Mp), (live l).length ≤ l.length := fun l => List.length_filterMap_le _ _
    have := hb tab
    have hq := q1.length_eq
    simp only [List.length_cons] at hq
    rw [q2, h.len] at this
    omega

theorem inv_finish {s : St} {H : Hist} (h : Inv s H) (k : Nat) (m : Mp) {r : St × Option (Option Errno)}
    (ho : Out s H k m r) : Inv r.1 (if r.2 = some none then m :: H else H) := by
  cases ho with
  | busy _ => exact ⟨h.len, h.perm, h.hosts, h.targets⟩
  | perm _ _ => exact ⟨h.len, h.perm, h.hosts, h.targets⟩
  | full _ _ _ => exact ⟨h.len, h.perm, h.hosts, h.targets⟩
  | ok tab h0 h1 _ hl hp =>
    rw [if_pos rfl]
    refine ⟨hl, hp, ?_, ?_⟩
    · exact List.pairwise_cons.2 ⟨fun x hx hh => h0 x hx ⟨hh.1.symm, hh.2.symm⟩, h.hosts⟩
    · exact List.pairwise_cons.2 ⟨fun x hx hh => h1 x hx hh.symm, h.targets⟩

theorem step_finish {w : World} {s s' : St} {k : Nat} {m : Mp} {o} (hm : s.pend[k]? = some m)
    (h : step w s (.finish k) = some (s', o)) : finish s k m = (s', o) := by
  simp only [step, hm] at h
  exact Option.some.inj h

theorem reach_inv {w : World} {r0 i0 ok} {s : St} {H : Hist} (h : Reach w r0 i0 ok s H) : Inv s H := by
  induction h with
  | init => exact inv_init w r0 i0
  | @begin s0 _ _ _ t p _ hs ih =>
    have e := Option.some.inj hs
    have et := begin_tab w s0 t p
    rw [e] at et
    exact ⟨by rw [et]; exact ih.len, by rw [et]; exact ih.perm, ih.hosts, ih.targets⟩
  | @finish s0 H0 s1 o m k _ hm _ hs ih =>
    have e := step_finish hm hs
    have := inv_finish ih k m (finish_out ih k m)
    rw [e] at this
    exact this

theorem pairwise_find {α : Type} {P : α → Prop} [DecidablePred P] : ∀ {l : List α}, (l.Pairwise fun a b => ¬ (P a ∧ P b)) →
    ∀ {a}, a ∈ l → P a → l.find? (fun x => decide (P x)) = some a
  | [], _, a, ha, _ => by cases ha
  | x :: r, h, a, ha, hp => by
    rw [List.find?_cons]
    rcases List.mem_cons.1 ha with rfl | ha
    · rw [decide_eq_true hp]
    · have : ¬ P x := fun hx => (List.pairwise_cons.1 h).1 a ha ⟨hx, hp⟩
      rw [decide_eq_false this]
      exact pairwise_find (List.pairwise_cons.1 h).2 ha hp

theorem pairwise_live {s : St} {H : Hist} (h : Inv s H) {R : Mp → Mp → Prop} (hs : ∀ a b, R a b → R b a)
    (hp : H.Pairwise R) : (live s.tab).Pairwise R := by
  exact (List.Perm.pairwise_iff (fun {a b} => hs a b) h.perm).2 hp

theorem getAt_some {s : St} {H : Hist} (h : Inv s H) (f : Fs) (i : Ino) (t : Fs) :
    getAt s.tab f i = some t ↔ ⟨f, i, t⟩ ∈ H := by
  rw [getAt_live]
  constructor
  · intro hh
    obtain ⟨m, h1, rfl⟩ := Option.map_eq_some_iff.1 hh
    have hm := List.mem_of_find?_eq_some h1
    have := List.find?_some h1
    have : m.ino = i ∧ m.host = f := by simpa using this
    obtain ⟨rfl, rfl⟩ := this
    exact (inv_mem h m).1 hm
  · intro hh
    have hm := (inv_mem h _).2 hh
    have hp := pairwise_live h (R := fun a b => ¬ (a.host = b.host ∧ a.ino = b.ino)) (fun a b q r => q ⟨r.1.symm, r.2.symm⟩) h.hosts
    have := pairwise_find (P := fun m : Mp => m.ino = i ∧ m.host = f)
      (hp.imp (fun {a b} q r => q ⟨r.1.2.trans r.2.2.symm, r.1.1.trans r.2.1.symm⟩)) hm ⟨rfl, rfl⟩
    rw [this]; rfl

theorem mpOf_some {s : St} {H : Hist} (h : Inv s H) (t : Fs) (m : Mp) :
    mpOf s.tab t = some m ↔ m ∈ H ∧ m.target = t := by
  rw [mpOf_live]
  constructor
  · intro hh
    have hm := List.mem_of_find?_eq_some hh
    have := List.find?_some hh
    exact ⟨(inv_mem h m).1 hm, by simpa using this⟩
  · rintro ⟨hh, ht⟩
    have hm := (inv_mem h _).2 hh
    have hp := pairwise_live h (R := fun a b => a.target ≠ b.target) (fun a b q r => q r.symm) h.targets
    exact pairwise_find (P := fun m : Mp => m.target = t) (hp.imp (fun {a b} q r => q (r.1.trans r.2.symm))) hm ht

/-! ### Which file systems can be reached -/

/-- A file system one gets to from the root: the root itself, or mounted on one that is. -/
inductive Up (w : World) (H : Hist) : Fs → Prop
  | root : Up w H w.root
  | mounted {m : Mp} : m ∈ H → Up w H m.host → Up w H m.target

theorem Up.mono {w : World} {H : Hist} {m : Mp} {f : Fs} (h : Up w H f) : Up w (m :: H) f := by
  induction h with
  | root => exact .root
  | mounted hm _ ih => exact .mounted (List.mem_cons_of_mem _ hm) ih

theorem enter_up {w : World} {s : St} {H : Hist} (h : Inv s H) (hh : ∀ m ∈ H, Up w H m.host) {f : Fs} {i : Ino}
    (hf : Up w H f) : Up w H (enter s.tab f i).1 := by
  unfold enter
  cases hg : getAt s.tab f i with
  | none => exact hf
  | some t =>
    have := (getAt_some h f i t).1 hg
    exact Up.mounted this (hh _ this)

theorem walk1_up {w : World} {s : St} {H : Hist} (h : Inv s H) (hh : ∀ m ∈ H, Up w H m.host) {x y : Fs × Ino} {c : Comp}
    (hx : Up w H x.1) (hw : walk1 w s.tab x c = some y) : Up w H y.1 := by
  cases c with
  | name n =>
    simp only [walk1] at hw
    cases he : w.entry x.1 x.2 n with
    | none => rw [he] at hw; cases hw
    | some j =>
      rw [he] at hw
      cases hw
      exact enter_up h hh hx
  | up =>
    simp only [walk1] at hw
    split at hw
    · split at hw
      · cases hw; exact hx
      · cases hm : mpOf s.tab x.1 with
        | none => rw [hm] at hw; cases hw
        | some m =>
          rw [hm] at hw
          cases hw
          exact hh m ((mpOf_some h _ _).1 hm).1
    · cases hw
      exact enter_up h hh hx

theorem walk_up {w : World} {s : St} {H : Hist} (h : Inv s H) (hh : ∀ m ∈ H, Up w H m.host) : ∀ (p : List Comp)
    {x y : Fs × Ino}, Up w H x.1 → walk w s.tab x p = some y → Up w H y.1
  | [], x, y, hx, hw => by cases hw; exact hx
  | c :: r, x, y, hx, hw => by
    rw [walk] at hw
    cases h1 : walk1 w s.tab x c with
    | none => rw [h1] at hw; cases hw
    | some z =>
      rw [h1] at hw
      exact walk_up h hh r (walk1_up h hh hx h1) hw

/-- What `begin` does. -/
inductive BOut (w : World) (s : St) (t : Fs) (p : List Comp) : St × Option (Option Errno) → Prop
  | noent (h : resolve w s.tab p = none) : BOut w s t p (s, some (some .enoent))
  | notdir (h : Fs) (i : Ino) (hr : resolve w s.tab p = some (h, i)) (hd : w.isDir h i = false) :
      BOut w s t p (s, some (some .enotdir))
  | ok (h : Fs) (i : Ino) (hr : resolve w s.tab p = some (h, i)) (hd : w.isDir h i = true) :
      BOut w s t p ({ s with refs := addRef s.refs h 1, irefs := addIref s.irefs h i 1,
                             pend := ⟨h, i, t⟩ :: s.pend }, none)

theorem begin_out (w : World) (s : St) (t : Fs) (p : List Comp) : BOut w s t p (begin w s t p) := by
  unfold begin
  cases hr : resolve w s.tab p with
  | none => exact .noent hr
  | some x =>
    obtain ⟨h, i⟩ := x
    cases hd : w.isDir h i with
    | false => simp only [hd]; exact .notdir h i hr hd
    | true => simp only [hd]; exact .ok h i hr hd

theorem mem_eraseIdx {α : Type} {l : List α} {k : Nat} {a : α} (h : a ∈ l.eraseIdx k) : a ∈ l :=
  List.mem_of_mem_eraseIdx h

theorem reach_up {w : World} {r0 i0 ok} {s : St} {H : Hist} (h : Reach w r0 i0 ok s H) :
    (∀ m ∈ H, Up w H m.host) ∧ (∀ m ∈ s.pend, Up w H m.host) := by
  induction h with
  | init => exact ⟨fun m hm => absurd hm List.not_mem_nil, fun m hm => absurd hm List.not_mem_nil⟩
  | @begin s0 H0 s1 o t p hr hs ih =>
    have e := Option.some.inj hs
    have hb := begin_out w s0 t p
    rw [e] at hb
    cases hb with
    | noent _ => exact ih
    | notdir _ _ _ _ => exact ih
    | ok h i hrs hd =>
      refine ⟨ih.1, fun m hm => ?_⟩
      rcases List.mem_cons.1 hm with rfl | hm
      · exact walk_up (reach_inv hr) ih.1 p Up.root hrs
      · exact ih.2 m hm
  | @finish s0 H0 s1 o m k hr hm _ hs ih =>
    have e := step_finish hm hs
    have ho := finish_out (reach_inv hr) k m
    rw [e] at ho
    have hmem : m ∈ s0.pend := List.mem_of_getElem? hm
    cases ho with
    | busy _ => exact ⟨ih.1, fun x hx => ih.2 x (mem_eraseIdx hx)⟩
    | perm _ _ => exact ⟨ih.1, fun x hx => ih.2 x (mem_eraseIdx hx)⟩
    | full _ _ _ => exact ⟨ih.1, fun x hx => ih.2 x (mem_eraseIdx hx)⟩
    | ok tab h0 h1 _ hl hp =>
      rw [if_pos rfl]
      refine ⟨fun x hx => ?_, fun x hx => (ih.2 x (mem_eraseIdx hx)).mono⟩
      rcases List.mem_cons.1 hx with rfl | hx
      · exact (ih.2 _ hmem).mono
      · exact (ih.1 x hx).mono

/-! ### Reference counts -/

/-- How many have the property. -/
def cnt (l : List Mp) (P : Mp → Bool) : Int := ((l.filter P).length : Int)

theorem cnt_cons (m : Mp) (l : List Mp) (P : Mp → Bool) : cnt (m :: l) P = cnt l P + (if P m then 1 else 0) := by
  unfold cnt
  rw [List.filter_cons]
  cases P m <;> simp

theorem cnt_erase : ∀ {l : List Mp} {k : Nat} {m : Mp} (_ : l[k]? = some m) (P : Mp → Bool),
    cnt l P = cnt (l.eraseIdx k) P + (if P m then 1 else 0)
  | [], k, m, h, P => by simp at h
  | x :: l, 0, m, h, P => by
    have : x = m := by simpa using h
    subst this
    exact cnt_cons x l P
  | x :: l, k + 1, m, h, P => by
    rw [List.eraseIdx_cons_succ, cnt_cons, cnt_cons, cnt_erase (k := k) (m := m) (by simpa using h) P]
    omega

/-- References to an inode: of mount points on it, and of calls in progress. -/
theorem reach_irefs {w : World} {r0 i0 ok} {s : St} {H : Hist} (h : Reach w r0 i0 ok s H) (f : Fs) (i : Ino) :
    s.irefs f i = i0 f i + cnt H (fun m => m.host = f ∧ m.ino = i) + cnt s.pend (fun m => m.host = f ∧ m.ino = i) := by
  induction h with
  | init => simp [init, cnt]
  | @begin s0 H0 s1 o t p hr hs ih =>
    have e := Option.some.inj hs
    have hb := begin_out w s0 t p
    rw [e] at hb
    cases hb with
    | noent _ => exact ih
    | notdir _ _ _ _ => exact ih
    | ok h j hrs hd =>
      show addIref s0.irefs h j 1 f i = _ + cnt (_ :: s0.pend) _
      rw [cnt_cons]
      simp only [addIref, ih, decide_eq_true_eq]
      by_cases hc : f = h ∧ i = j
      · rw [if_pos hc, if_pos ⟨hc.1.symm, hc.2.symm⟩]; omega
      · rw [if_neg hc, if_neg (fun q => hc ⟨q.1.symm, q.2.symm⟩)]; omega
  | @finish s0 H0 s1 o m k hr hm _ hs ih =>
    have e := step_finish hm hs
    have ho := finish_out (reach_inv hr) k m
    rw [e] at ho
    rw [cnt_erase hm] at ih
    have key : addIref s0.irefs m.host m.ino (-1) f i = i0 f i + cnt H0 (fun m => m.host = f ∧ m.ino = i)
        + cnt (s0.pend.eraseIdx k) (fun m => m.host = f ∧ m.ino = i) := by
      simp only [addIref, ih, decide_eq_true_eq]
      by_cases hc : f = m.host ∧ i = m.ino
      · rw [if_pos hc, if_pos ⟨hc.1.symm, hc.2.symm⟩]; omega
      · rw [if_neg hc, if_neg (fun q => hc ⟨q.1.symm, q.2.symm⟩)]; omega
    cases ho with
    | busy _ => exact key
    | perm _ _ => exact key
    | full _ _ _ => exact key
    | ok tab h0 h1 _ hl hp =>
      rw [if_pos rfl, cnt_cons]
      show s0.irefs f i = _ + cnt (s0.pend.eraseIdx k) _
      rw [ih]; omega

/-- A call that will not fail with EBUSY or EPERM. -/
def Clean (s : St) (m : Mp) : Prop := getAt s.tab m.host m.ino = none ∧ mounted s.tab m.target = false

theorem reach_refs {w : World} {r0 i0} {s : St} {H : Hist} (h : Reach w r0 i0 Clean s H) (f : Fs) :
    s.refs f = r0 f + (if f = w.root then 1 else 0) + cnt H (fun m => m.host = f) + cnt H (fun m => m.target = f)
      + cnt s.pend (fun m => m.host = f) := by
  induction h with
  | init => by_cases hf : f = w.root <;> simp [init, cnt, addRef, hf]
  | @begin s0 H0 s1 o t p hr hs ih =>
    have e := Option.some.inj hs
    have hb := begin_out w s0 t p
    rw [e] at hb
    cases hb with
    | noent _ => exact ih
    | notdir _ _ _ _ => exact ih
    | ok h j hrs hd =>
      show addRef s0.refs h 1 f = _ + cnt (_ :: s0.pend) _
      rw [cnt_cons]
      simp only [addRef, ih, decide_eq_true_eq]
      by_cases hc : f = h
      · rw [if_pos hc, if_pos (show h = f from hc.symm)]; omega
      · rw [if_neg hc, if_neg (show ¬ h = f from fun q => hc q.symm)]; omega
  | @finish s0 H0 s1 o m k hr hm hcl hs ih =>
    have e := step_finish hm hs
    have hi := reach_inv hr
    have ho := finish_out hi k m
    rw [e] at ho
    rw [cnt_erase hm] at ih
    cases ho with
    | busy hx =>
      exfalso
      obtain ⟨x, hx, hh, hj⟩ := hx
      exact (getAt_none _ _ _).1 hcl.1 x ((inv_mem hi x).2 hx) ⟨hh, hj⟩
    | perm _ hx =>
      exfalso
      obtain ⟨x, hx, ht⟩ := hx
      have := (mounted_iff s0.tab m.target).2 ⟨x, (inv_mem hi x).2 hx, ht⟩
      rw [hcl.2] at this; cases this
    | full _ _ _ =>
      rw [if_neg (show ¬ (some (some Errno.emfile) = (some none : Option (Option Errno))) by decide)]
      show addRef s0.refs m.host (-1) f = _ + cnt (s0.pend.eraseIdx k) _
      simp only [addRef, ih, decide_eq_true_eq]
      by_cases hc : f = m.host
      · rw [if_pos hc, if_pos (show m.host = f from hc.symm)]; omega
      · rw [if_neg hc, if_neg (show ¬ m.host = f from fun q => hc q.symm)]; omega
    | ok tab h0 h1 _ hl hp =>
      rw [if_pos rfl, cnt_cons, cnt_cons]
      show addRef s0.refs m.target 1 f = _ + cnt (s0.pend.eraseIdx k) _
      simp only [addRef, ih, decide_eq_true_eq]
      by_cases hc : f = m.target
      · rw [if_pos hc, if_pos (show m.target = f from hc.symm)]; omega
      · rw [if_neg hc, if_neg (show ¬ m.target = f from fun q => hc q.symm)]; omega

/-! ### Paths of plain names -/

/-- The resolution of plain names. -/
def res (w : World) (tab : List (Option Mp)) (r : List Name) : Option (Fs × Ino) := resolve w tab (names r)

theorem walk_append (w : World) (tab : List (Option Mp)) : ∀ (p q : List Comp) (x : Fs × Ino),
    walk w tab x (p ++ q) = (walk w tab x p).bind fun y => walk w tab y q
  | [], q, x => rfl
  | c :: p, q, x => by
    show walk w tab x (c :: (p ++ q)) = _
    rw [walk, walk]
    cases walk1 w tab x c with
    | none => rfl
    | some y => exact walk_append w tab p q y

theorem res_nil (w : World) (tab : List (Option Mp)) : res w tab [] = some (w.root, 0) := rfl

theorem res_snoc (w : World) (tab : List (Option Mp)) (r : List Name) (n : Name) :
    res w tab (r ++ [n]) = (res w tab r).bind fun y => (w.entry y.1 y.2 n).map fun j => enter tab y.1 j := by
  unfold res resolve names
  rw [List.map_append, walk_append]
  congr 1
  funext y
  simp only [List.map_cons, List.map_nil, walk, walk1]
  cases w.entry y.1 y.2 n <;> rfl

theorem inside_snoc (w : World) (f : Fs) : ∀ (i : Ino) (r : List Name) (n : Name),
    inside w f i (r ++ [n]) = (inside w f i r).bind fun y => (w.entry y.1 y.2 n).map fun j => (f, j)
  | i, [], n => by
    show inside w f i (n :: []) = _
    simp only [inside, Option.bind_some]
    cases w.entry f i n <;> rfl
  | i, a :: r, n => by
    show inside w f i (a :: (r ++ [n])) = _
    simp only [inside]
    cases w.entry f i a with
    | none => rfl
    | some j => exact inside_snoc w f j r n

theorem inside_fs (w : World) (f : Fs) : ∀ (i : Ino) (r : List Name) {y : Fs × Ino}, inside w f i r = some y → y.1 = f
  | i, [], y, h => by cases h; rfl
  | i, a :: r, y, h => by
    simp only [inside] at h
    cases he : w.entry f i a with
    | none => rw [he] at h; cases h
    | some j => rw [he] at h; exact inside_fs w f j r h

theorem snoc_cases {α : Type} (l : List α) : l = [] ∨ ∃ r a, l = r ++ [a] := by
  rcases List.eq_nil_or_concat l with h | ⟨r, a, h⟩
  · exact Or.inl h
  · exact Or.inr ⟨r, a, by rw [h, List.concat_eq_append]⟩

theorem enter_inj {s : St} {H : Hist} (h : Inv s H) {f f' : Fs} {j j' : Ino} (h0 : j ≠ 0) (h0' : j' ≠ 0)
    (he : enter s.tab f j = enter s.tab f' j') : f = f' ∧ j = j' := by
  unfold enter at he
  cases hg : getAt s.tab f j with
  | none =>
    rw [hg] at he
    cases hg' : getAt s.tab f' j' with
    | none => rw [hg'] at he; simpa using he
    | some t' => rw [hg'] at he; exact absurd (congrArg Prod.snd he) h0
  | some t =>
    rw [hg] at he
    cases hg' : getAt s.tab f' j' with
    | none => rw [hg'] at he; exact absurd (congrArg Prod.snd he).symm h0'
    | some t' =>
      rw [hg'] at he
      have ht : t = t' := congrArg Prod.fst he
      subst ht
      have m1 := (getAt_some h _ _ _).1 hg
      have m2 := (getAt_some h _ _ _).1 hg'
      have q1 := (mpOf_some h t _).2 ⟨m1, rfl⟩
      have q2 := (mpOf_some h t _).2 ⟨m2, rfl⟩
      rw [q1] at q2
      have := Option.some.inj q2
      exact ⟨congrArg Mp.host this, congrArg Mp.ino this⟩

/-- Two different paths do not lead to the same inode. -/
theorem res_inj {w : World} (tr : Tree w) {s : St} {H : Hist} (h : Inv s H) (hr : ∀ m ∈ H, m.target ≠ w.root) :
    ∀ (n : Nat) (p q : List Name) (x : Fs × Ino), p.length ≤ n → res w s.tab p = some x → res w s.tab q = some x → p = q := by
  have nr : ∀ (r : List Name) (a : Name), res w s.tab (r ++ [a]) ≠ some (w.root, 0) := by
    intro r a he
    rw [res_snoc] at he
    cases h1 : res w s.tab r with
    | none => rw [h1] at he; cases he
    | some y =>
      rw [h1] at he
      simp only [Option.bind_some, Option.map_eq_some_iff] at he
      obtain ⟨j, hj, he⟩ := he
      unfold enter at he
      cases hg : getAt s.tab y.1 j with
      | none =>
        rw [hg] at he
        have : j = 0 := congrArg Prod.snd he
        subst this
        exact tr.2 _ _ _ hj
      | some t =>
        rw [hg] at he
        exact hr _ ((getAt_some h _ _ _).1 hg) (congrArg Prod.fst he)
  intro n
  induction n with
  | zero =>
    intro p q x hp h1 h2
    have : p = [] := List.length_eq_zero_iff.1 (by omega)
    subst this
    rw [res_nil] at h1
    cases h1
    rcases snoc_cases q with rfl | ⟨r, a, rfl⟩
    · rfl
    · exact absurd h2 (nr r a)
  | succ n ih =>
    intro p q x hp h1 h2
    rcases snoc_cases p with rfl | ⟨p', a, rfl⟩
    · rw [res_nil] at h1
      cases h1
      rcases snoc_cases q with rfl | ⟨r, a, rfl⟩
      · rfl
      · exact absurd h2 (nr r a)
    · rcases snoc_cases q with rfl | ⟨q', b, rfl⟩
      · rw [res_nil] at h2
        cases h2
        exact absurd h1 (nr p' a)
      · rw [res_snoc] at h1 h2
        cases e1 : res w s.tab p' with
        | none => rw [e1] at h1; cases h1
        | some y =>
          cases e2 : res w s.tab q' with
          | none => rw [e2] at h2; cases h2
          | some z =>
            rw [e1] at h1; rw [e2] at h2
            simp only [Option.bind_some, Option.map_eq_some_iff] at h1 h2
            obtain ⟨j, hj, h1⟩ := h1
            obtain ⟨k, hk, h2⟩ := h2
            have j0 : j ≠ 0 := by intro e; subst e; exact tr.2 _ _ _ hj
            have k0 : k ≠ 0 := by intro e; subst e; exact tr.2 _ _ _ hk
            obtain ⟨ef, ej⟩ := enter_inj h j0 k0 (h1.trans h2.symm)
            subst ej
            rw [← ef] at hk
            obtain ⟨ei, en⟩ := tr.1 _ _ _ _ _ _ hj hk
            have : y = z := Prod.ext ef ei
            subst this
            rw [ih p' q' y (by simp at hp; omega) e1 e2, en]

/-- The effect of one more mount point on what paths lead to. -/
theorem res_mount {w : World} (tr : Tree w) {s s' : St} {H : Hist} {h : Fs} {i : Ino} {t : Fs} (hi : Inv s H) (hi' : Inv s' (⟨h, i, t⟩ :: H))
    (hr : ∀ m ∈ H, m.target ≠ w.root) (hh : ∀ m ∈ H, m.host ≠ t) (ht : h ≠ t) (h0 : ∀ x ∈ H, ¬ (x.host = h ∧ x.ino = i)) (i0 : i ≠ 0)
    {p : List Name} (hp : res w s.tab p = some (h, i)) : ∀ (n : Nat) (r : List Name), r.length ≤ n →
    res w s'.tab r = if p <+: r then inside w t 0 (r.drop p.length) else res w s.tab r := by
  have pne : p ≠ [] := by
    rintro rfl
    rw [res_nil] at hp
    cases hp; exact i0 rfl
  have ent : ∀ f j, enter s'.tab f j = if f = h ∧ j = i then (t, 0) else enter s.tab f j := by
    intro f j
    unfold enter
    by_cases c : f = h ∧ j = i
    · obtain ⟨rfl, rfl⟩ := c
      rw [(getAt_some hi' _ _ t).2 (List.mem_cons_self ..), if_pos ⟨rfl, rfl⟩]
    · rw [if_neg c]
      have : getAt s'.tab f j = getAt s.tab f j := by
        cases hg : getAt s.tab f j with
        | some u => exact (getAt_some hi' _ _ _).2 (List.mem_cons_of_mem _ ((getAt_some hi _ _ _).1 hg))
        | none =>
          cases hg' : getAt s'.tab f j with
          | none => rfl
          | some u =>
            rcases List.mem_cons.1 ((getAt_some hi' _ _ _).1 hg') with e | hm
            · cases e; exact absurd ⟨rfl, rfl⟩ c
            · rw [(getAt_some hi _ _ _).2 hm] at hg; cases hg
      rw [this]
  have entt : ∀ j, enter s'.tab t j = (t, j) := by
    intro j
    rw [ent, if_neg (fun q => ht q.1.symm)]
    unfold enter
    cases hg : getAt s.tab t j with
    | none => rfl
    | some u => exact absurd rfl (hh _ ((getAt_some hi _ _ _).1 hg))
  have enh : enter s.tab h i = (h, i) := by
    unfold enter
    cases hg : getAt s.tab h i with
    | none => rfl
    | some u => exact absurd ⟨rfl, rfl⟩ (h0 _ ((getAt_some hi _ _ _).1 hg))
  intro n
  induction n with
  | zero =>
    intro r hr'
    have : r = [] := List.length_eq_zero_iff.1 (by omega)
    subst this
    rw [if_neg (fun q => pne (List.prefix_nil.1 q))]
    rfl
  | succ n ih =>
    intro r hl
    rcases snoc_cases r with rfl | ⟨r', a, rfl⟩
    · rw [if_neg (fun q => pne (List.prefix_nil.1 q))]
      rfl
    have ihr := ih r' (by simp at hl; omega)
    by_cases c1 : p <+: r'
    · rw [if_pos c1] at ihr
      rw [if_pos (c1.trans (List.prefix_append _ _)), res_snoc, ihr, List.drop_append_of_le_length c1.length_le, inside_snoc]
      cases hin : inside w t 0 (r'.drop p.length) with
      | none => rfl
      | some y =>
        have hy := inside_fs w t 0 _ hin
        simp only [Option.bind_some]
        congr 1
        funext j
        rw [hy, entt]
    · rw [if_neg c1] at ihr
      by_cases c2 : p = r' ++ [a]
      · rw [if_pos (c2 ▸ List.prefix_rfl), res_snoc, ihr, c2, List.drop_length]
        rw [c2, res_snoc] at hp
        cases hin : res w s.tab r' with
        | none => rw [hin] at hp; cases hp
        | some y =>
          rw [hin] at hp
          simp only [Option.bind_some, Option.map_eq_some_iff] at hp ⊢
          obtain ⟨j, hj, he⟩ := hp
          rw [hj]
          have : y.1 = h ∧ j = i := by
            unfold enter at he
            cases hg : getAt s.tab y.1 j with
            | none => rw [hg] at he; exact ⟨congrArg Prod.fst he, congrArg Prod.snd he⟩
            | some u => rw [hg] at he; exact absurd (congrArg Prod.snd he).symm i0
          rw [Option.map_some, ent, if_pos this]
          rfl
      · have c3 : ¬ p <+: r' ++ [a] := fun q => (List.prefix_concat_iff.1 q).elim c2 c1
        rw [if_neg c3, res_snoc, ihr]
        have hrs := res_snoc w s.tab r' a
        rw [hrs]
        cases hin : res w s.tab r' with
        | none => rfl
        | some y =>
          rw [hin] at hrs
          simp only [Option.bind_some] at hrs ⊢
          cases hj : w.entry y.1 y.2 a with
          | none => rfl
          | some j =>
            rw [hj] at hrs
            rw [Option.map_some] at hrs
            rw [Option.map_some, Option.map_some, ent]
            by_cases c4 : y.1 = h ∧ j = i
            · rw [c4.1, c4.2, enh] at hrs
              exact absurd (res_inj tr hi hr _ _ _ _ (Nat.le_refl _) hp hrs) c2
            · rw [if_neg c4]

/-! ### Mounts one after the other -/

/-- What an uninterrupted `mount` does to the table. -/
theorem mount_tab {w : World} {s s' : St} {H : Hist} (hi : Inv s H) {t : Fs} {p : List Comp} {o}
    (hm : mount w s t p = (s', o)) :
    (o ≠ some none ∧ s'.tab = s.tab) ∨
    (∃ h i, o = some none ∧ resolve w s.tab p = some (h, i) ∧ w.isDir h i = true ∧ Inv s' (⟨h, i, t⟩ :: H) ∧
      (∀ x ∈ H, ¬ (x.host = h ∧ x.ino = i)) ∧ (∀ x ∈ H, x.target ≠ t)) := by
  unfold mount at hm
  have hb := begin_out w s t p
  generalize hbe : begin w s t p = b at hb hm
  cases hb with
  | noent _ => cases hm; exact Or.inl ⟨by simp, rfl⟩
  | notdir _ _ _ _ => cases hm; exact Or.inl ⟨by simp, rfl⟩
  | ok h i hrs hd =>
    have hi2 : Inv ({ s with refs := addRef s.refs h 1, irefs := addIref s.irefs h i 1,
                             pend := ⟨h, i, t⟩ :: s.pend }) H := ⟨hi.len, hi.perm, hi.hosts, hi.targets⟩
    have ho := finish_out hi2 0 ⟨h, i, t⟩
    have hv := inv_finish hi2 0 ⟨h, i, t⟩ ho
    dsimp only at hm
    rw [hm] at ho hv
    cases ho with
    | busy _ => exact Or.inl ⟨by simp, rfl⟩
    | perm _ _ => exact Or.inl ⟨by simp, rfl⟩
    | full _ _ _ => exact Or.inl ⟨by simp, rfl⟩
    | ok tab h0 h1 _ hl hp =>
      rw [if_pos rfl] at hv
      exact Or.inr ⟨h, i, rfl, hrs, hd, hv, h0, h1⟩

/-- Plain use: not on the root of a file system, and not the root file system again. -/
def Plain (w : World) (s : St) (p : List Name) (t : Fs) : Prop :=
  t ≠ w.root ∧ ∀ h i, resolve w s.tab (names p) = some (h, i) → i ≠ 0

theorem mounts_view {w : World} (tr : Tree w) {r0 i0} {s : St} {M : List (List Name × Fs)} (h : Mounts w r0 i0 (Plain w) s M) :
    ∃ H, Inv s H ∧ (∀ m ∈ H, m.target ≠ w.root) ∧ (∀ m ∈ H, Up w H m.host) ∧ (∀ f, Up w H f → f = w.root ∨ ∃ m ∈ H, m.target = f) ∧
      ∀ r, res w s.tab r = view w M r := by
  induction h with
  | init =>
    refine ⟨[], inv_init w r0 i0, fun m hm => absurd hm List.not_mem_nil, fun m hm => absurd hm List.not_mem_nil, ?_, ?_⟩
    · intro f hf
      cases hf with
      | root => exact Or.inl rfl
      | mounted hm _ => exact absurd hm List.not_mem_nil
    · intro r
      have hg : ∀ f i, getAt (init w r0 i0).tab f i = none := by
        intro f i
        rw [getAt_none]
        intro m hm
        exact absurd ((inv_mem (inv_init w r0 i0) m).1 hm) List.not_mem_nil
      have key : ∀ (r : List Name) (i : Ino), walk w (init w r0 i0).tab (w.root, i) (names r) = inside w w.root i r := by
        intro r
        induction r with
        | nil => intro i; rfl
        | cons a r ih =>
          intro i
          show walk w _ _ (.name a :: names r) = _
          simp only [walk, walk1, inside]
          cases w.entry w.root i a with
          | none => rfl
          | some j =>
            simp only [enter, hg]
            exact ih j
      exact key r 0
  | @mount s0 M0 s1 o t p hr hok hm ih =>
    obtain ⟨H, hi, q1, q2, q3, q4⟩ := ih
    rcases mount_tab hi hm with ⟨ho, ht⟩ | ⟨h, i, ho, hrs, hd, hi', h0, h1⟩
    · rw [if_neg ho]
      refine ⟨H, ⟨by rw [ht]; exact hi.len, by rw [ht]; exact hi.perm, hi.hosts, hi.targets⟩, q1, q2, q3, fun r => ?_⟩
      rw [ht]; exact q4 r
    · rw [if_pos ho]
      have hu : Up w H h := walk_up hi q2 (names p) Up.root hrs
      have nt : ∀ f, Up w H f → f ≠ t := by
        intro f hf e
        rcases q3 f hf with rfl | ⟨m, hm', e'⟩
        · exact hok.1 e.symm
        · exact h1 m hm' (e'.trans e)
      refine ⟨⟨h, i, t⟩ :: H, hi', ?_, ?_, ?_, ?_⟩
      · intro m hm'
        rcases List.mem_cons.1 hm' with rfl | hm'
        · exact hok.1
        · exact q1 m hm'
      · intro m hm'
        rcases List.mem_cons.1 hm' with rfl | hm'
        · exact hu.mono
        · exact (q2 m hm').mono
      · intro f hf
        cases hf with
        | root => exact Or.inl rfl
        | mounted hm' _ => exact Or.inr ⟨_, hm', rfl⟩
      · intro r
        rw [res_mount tr hi hi' q1 (fun m hm' => nt _ (q2 m hm')) (nt h hu) h0 (hok.2 h i hrs) hrs _ r (Nat.le_refl _), view, q4 r]

/-! ## Claims -/

/-- A world to show that the hypotheses can be met: in every directory there are nine directories. -/
def w1 : World where
  entry := fun _ i n => if 1 ≤ n ∧ n ≤ 9 then some (10 * i + n) else none
  isDir := fun _ _ => true
  parent := fun _ i => i / 10
  root := 0

theorem digit (i n i' n' : Nat) (h1 : 1 ≤ n) (h2 : n ≤ 9) (h3 : 1 ≤ n') (h4 : n' ≤ 9) (h : 10 * i + n = 10 * i' + n') :
    i = i' ∧ n = n' := by omega

theorem digit_div (i n : Nat) (h1 : 1 ≤ n) (h2 : n ≤ 9) : (10 * i + n) / 10 = i ∧ 10 * i + n ≠ 0 := by omega

theorem w1_entry {f : Fs} {i : Ino} {n : Name} {j : Ino} (h : w1.entry f i n = some j) :
    1 ≤ n ∧ n ≤ 9 ∧ j = 10 * i + n := by
  simp only [w1] at h
  split at h
  · rename_i hc
    exact ⟨hc.1, hc.2, (Option.some.inj h).symm⟩
  · cases h

theorem w1_tree : Tree w1 := by
  constructor
  · intro f i n i' n' j h h'
    obtain ⟨a, b, c⟩ := w1_entry h
    obtain ⟨a', b', c'⟩ := w1_entry h'
    exact digit i n i' n' a b a' b' (c.symm.trans c')
  · intro f i n h
    obtain ⟨a, b, c⟩ := w1_entry h
    exact (digit_div i n a b).2 c.symm

/-- Runs events. -/
def run (w : World) (s : St) : List Ev → Option (St × List (Option (Option Errno)))
  | [] => some (s, [])
  | e :: r =>
    match step w s e with
    | none => none
    | some (s', o) =>
      match run w s' r with
      | none => none
      | some (s'', os) => some (s'', o :: os)

/-- The table after any number of tasks have mounted file systems in any interleaving: the lookups that path resolution
makes find exactly what was mounted, a directory has one file system on it, a file system is mounted once, and there are
at most 16. -/
theorem table_exact {w : World} {r0 i0 ok} {s : St} {H : Hist} (h : Reach w r0 i0 ok s H) :
    (∀ f i t, getAt s.tab f i = some t ↔ ⟨f, i, t⟩ ∈ H) ∧
    (∀ t m, mpOf s.tab t = some m ↔ m ∈ H ∧ m.target = t) ∧
    (∀ a ∈ H, ∀ b ∈ H, a.host = b.host → a.ino = b.ino → a = b) ∧
    (∀ a ∈ H, ∀ b ∈ H, a.target = b.target → a = b) ∧
    H.Nodup ∧ H.length ≤ 16 := by
  have hi := reach_inv h
  refine ⟨getAt_some hi, mpOf_some hi, ?_, ?_, ?_, ?_⟩
  · intro a ha b hb e1 e2
    have q1 := (getAt_some hi a.host a.ino a.target).2 ha
    have q2 := (getAt_some hi b.host b.ino b.target).2 hb
    rw [e1, e2, q2] at q1
    have := Option.some.inj q1
    cases a; cases b; simp_all
  · intro a ha b hb e
    have q1 := (mpOf_some hi _ a).2 ⟨ha, rfl⟩
    have q2 := (mpOf_some hi _ b).2 ⟨hb, rfl⟩
    rw [e, q2] at q1
    exact (Option.some.inj q1).symm
  · exact hi.targets.imp (fun {a b} q e => q (congrArg Mp.target e))
  · have h1 := hi.perm.length_eq
    have h2 : (live s.tab).length ≤ s.tab.length := List.length_filterMap_le _ _
    have := hi.len
    omega

/-- The result of a call, given what was mounted when it takes the lock. -/
theorem result_exact {w : World} {r0 i0 ok} {s s' : St} {H : Hist} (h : Reach w r0 i0 ok s H) {k : Nat} {m : Mp} {o}
    (hm : s.pend[k]? = some m) (hs : step w s (.finish k) = some (s', o)) :
    (o = some (some .ebusy) ↔ ∃ x ∈ H, x.host = m.host ∧ x.ino = m.ino) ∧
    (o = some (some .eperm) ↔ (¬ ∃ x ∈ H, x.host = m.host ∧ x.ino = m.ino) ∧ ∃ x ∈ H, x.target = m.target) ∧
    (o = some (some .emfile) ↔ (¬ ∃ x ∈ H, x.host = m.host ∧ x.ino = m.ino) ∧ (¬ ∃ x ∈ H, x.target = m.target) ∧
      H.length = 16) ∧
    (o = some none ↔ (¬ ∃ x ∈ H, x.host = m.host ∧ x.ino = m.ino) ∧ (¬ ∃ x ∈ H, x.target = m.target) ∧
      H.length < 16) ∧
    (o ≠ some none → s'.tab = s.tab) := by
  have e := step_finish hm hs
  have ho := finish_out (reach_inv h) k m
  rw [e] at ho
  cases ho with
  | busy q => exact ⟨⟨fun _ => q, fun _ => rfl⟩, ⟨fun h => (by simp at h), fun h => absurd q h.1⟩,
      ⟨fun h => (by simp at h), fun h => absurd q h.1⟩, ⟨fun h => (by simp at h), fun h => absurd q h.1⟩, fun _ => rfl⟩
  | perm q0 q =>
    have n0 : ¬ ∃ x ∈ H, x.host = m.host ∧ x.ino = m.ino := fun ⟨x, hx, hh⟩ => q0 x hx hh
    exact ⟨⟨fun h => (by simp at h), fun h => absurd h n0⟩, ⟨fun _ => ⟨n0, q⟩, fun _ => rfl⟩,
      ⟨fun h => (by simp at h), fun h => absurd q h.2.1⟩, ⟨fun h => (by simp at h), fun h => absurd q h.2.1⟩, fun _ => rfl⟩
  | full q0 q1 q =>
    have n0 : ¬ ∃ x ∈ H, x.host = m.host ∧ x.ino = m.ino := fun ⟨x, hx, hh⟩ => q0 x hx hh
    have n1 : ¬ ∃ x ∈ H, x.target = m.target := fun ⟨x, hx, hh⟩ => q1 x hx hh
    exact ⟨⟨fun h => (by simp at h), fun h => absurd h n0⟩, ⟨fun h => (by simp at h), fun h => absurd h.2 n1⟩,
      ⟨fun _ => ⟨n0, n1, q⟩, fun _ => rfl⟩, ⟨fun h => (by simp at h), fun h => by have := h.2.2; omega⟩, fun _ => rfl⟩
  | ok tab q0 q1 q hl hp =>
    have n0 : ¬ ∃ x ∈ H, x.host = m.host ∧ x.ino = m.ino := fun ⟨x, hx, hh⟩ => q0 x hx hh
    have n1 : ¬ ∃ x ∈ H, x.target = m.target := fun ⟨x, hx, hh⟩ => q1 x hx hh
    exact ⟨⟨fun h => (by simp at h), fun h => absurd h n0⟩, ⟨fun h => (by simp at h), fun h => absurd h.2 n1⟩,
      ⟨fun h => (by simp at h), fun h => by have := h.2.2; omega⟩, ⟨fun _ => ⟨n0, n1, q⟩, fun _ => rfl⟩,
      fun h => absurd rfl h⟩

/-- Two tasks race for the same directory: one gets 0, the other EBUSY; then an attempt to mount the first file system a
second time gets EPERM. -/
example : (run w1 (init w1 (fun _ => 1) (fun _ _ => 0))
    [.begin 1 [.name 5], .begin 2 [.name 5], .finish 1, .finish 0, .begin 1 [.name 6], .finish 0]).map (·.2) =
    some [none, none, some none, some (some .ebusy), none, some (some .eperm)] := by decide +kernel

/-- Path names see the mounts: whatever was mounted, in sequence, on directories that are not roots of file systems,
every path leads to what the list of mounts says. -/
theorem visible_partial {w : World} (tr : Tree w) {r0 i0} {s : St} {M : List (List Name × Fs)}
    (h : Mounts w r0 i0 (Plain w) s M) (r : List Name) : resolve w s.tab (names r) = view w M r := by
  obtain ⟨_, _, _, _, _, q⟩ := mounts_view tr h
  exact q r

/-- Three file systems, one of them inside another, one hidden by a later mount. -/
theorem mounts_example : ∃ s, Mounts w1 (fun _ => 1) (fun _ _ => 0) (Plain w1) s [([5], 3), ([5, 6, 7], 2), ([5, 6], 1)] ∧
    resolve w1 s.tab (names [5, 6, 7, 8]) = some (3, 678) ∧ resolve w1 s.tab (names [6]) = some (0, 6) := by
  refine ⟨_, @Mounts.mount w1 _ _ _ _ [([5, 6, 7], 2), ([5, 6], 1)] _ (some none) 3 [5]
    (@Mounts.mount w1 _ _ _ _ [([5, 6], 1)] _ (some none) 2 [5, 6, 7]
      (@Mounts.mount w1 _ _ _ _ [] _ (some none) 1 [5, 6] .init ⟨by decide, ?_⟩ rfl) ⟨by decide, ?_⟩ rfl)
    ⟨by decide, ?_⟩ rfl, by decide +kernel, by decide +kernel⟩
  · intro h i hr
    have : some (h, i) = some (0, 56) := hr.symm.trans (by decide +kernel)
    cases this; decide
  · intro h i hr
    have : some (h, i) = some (1, 7) := hr.symm.trans (by decide +kernel)
    cases this; decide
  · intro h i hr
    have : some (h, i) = some (0, 5) := hr.symm.trans (by decide +kernel)
    cases this; decide

/-- A second file system mounted at the same path: the call returns 0, but the path still shows the first one. And one
mounted at "/": the call returns 0, but "/" still shows the old root, whereas "/5/.." shows the new one. -/
theorem visible_violated :
    (∃ s, Mounts w1 (fun _ => 1) (fun _ _ => 0) (fun _ _ t => t ≠ w1.root) s [([5], 2), ([5], 1)] ∧
      resolve w1 s.tab (names [5]) = some (1, 0) ∧ view w1 [([5], 2), ([5], 1)] [5] = some (2, 0)) ∧
    (∃ s, Mounts w1 (fun _ => 1) (fun _ _ => 0) (fun _ _ t => t ≠ w1.root) s [([], 1)] ∧
      resolve w1 s.tab (names []) = some (0, 0) ∧ view w1 [([], 1)] [] = some (1, 0) ∧
      resolve w1 s.tab [.name 5, .up] = some (1, 0)) := by
  refine ⟨⟨_, @Mounts.mount w1 _ _ _ _ [([5], 1)] _ (some none) 2 [5]
      (@Mounts.mount w1 _ _ _ _ [] _ (some none) 1 [5] .init (by decide) rfl) (by decide) rfl,
      by decide +kernel, by decide +kernel⟩,
    ⟨_, @Mounts.mount w1 _ _ _ _ [] _ (some none) 1 [] .init (by decide) rfl,
      by decide +kernel, by decide +kernel, by decide +kernel⟩⟩

/-- References: the inodes that are mount points are held once by the table, and once by each call in progress; nothing
else is kept, whatever the outcome of the calls. -/
theorem inode_refs_exact {w : World} {r0 i0 ok} {s : St} {H : Hist} (h : Reach w r0 i0 ok s H) (f : Fs) (i : Ino) :
    s.irefs f i = i0 f i + ((H.filter fun m => m.host = f ∧ m.ino = i).length : Int)
      + ((s.pend.filter fun m => m.host = f ∧ m.ino = i).length : Int) := reach_irefs h f i

/-- The file systems: held once by each mount point on them, once where they are mounted, once by each call in progress,
and once as the root, as long as no call fails with EBUSY or EPERM. -/
theorem fs_refs_partial {w : World} {r0 i0} {s : St} {H : Hist} (h : Reach w r0 i0 Clean s H) (f : Fs) :
    s.refs f = r0 f + (if f = w.root then 1 else 0) + ((H.filter fun m => m.host = f).length : Int)
      + ((H.filter fun m => m.target = f).length : Int) + ((s.pend.filter fun m => m.host = f).length : Int) :=
  reach_refs h f

/-- A failed call leaves a reference behind: the host file system can never be unmounted or freed. -/
theorem fs_refs_violated : ∃ s s' M, Mounts w1 (fun _ => 1) (fun _ _ => 0) (Plain w1) s M ∧
    mount w1 s 1 (names [6]) = (s', some (some .eperm)) ∧ s.pend = [] ∧ s'.pend = [] ∧ s'.tab = s.tab ∧
    s'.refs 0 = s.refs 0 + 1 := by
  refine ⟨_, _, [([5], 1)], @Mounts.mount w1 _ _ _ _ [] _ (some none) 1 [5] .init ⟨by decide, ?_⟩ rfl, rfl, rfl, rfl, rfl, ?_⟩
  · intro h i hr
    have : some (h, i) = some (0, 5) := hr.symm.trans (by decide +kernel)
    cases this; decide
  · decide +kernel

example : ∃ s H, Reach w1 (fun _ => 1) (fun _ _ => 0) Clean s H ∧ H = [⟨0, 5, 1⟩] ∧ s.refs 0 = 3 ∧ s.refs 1 = 2 ∧
    s.irefs 0 5 = 1 := by
  refine ⟨_, _, @Reach.finish w1 _ _ _ _ [] _ (some none) ⟨0, 5, 1⟩ 0
    (@Reach.begin w1 _ _ _ _ [] _ none 1 [.name 5] .init rfl) rfl ⟨by decide +kernel, by decide +kernel⟩ rfl,
    rfl, by decide +kernel, by decide +kernel, by decide +kernel⟩

theorem reach_ok {w : World} {r0 i0} {P : Mp → Prop} {s : St} {H : Hist} (h : Reach w r0 i0 (fun _ m => P m) s H) :
    ∀ m ∈ H, P m := by
  induction h with
  | init => exact fun m hm => absurd hm List.not_mem_nil
  | begin _ _ _ _ ih => exact ih
  | @finish s0 H0 s1 o m k hr hm hok hs ih =>
    split
    · intro x hx
      rcases List.mem_cons.1 hx with rfl | hx
      · exact hok
      · exact ih x hx
    · exact ih

/-- The name space stays a tree: no two paths lead to the same directory, so no path comes back to where it was. -/
theorem tree_partial {w : World} (tr : Tree w) {r0 i0} {s : St} {H : Hist}
    (h : Reach w r0 i0 (fun _ m => m.target ≠ w.root) s H) {p q : List Name} {x : Fs × Ino}
    (hp : resolve w s.tab (names p) = some x) (hq : resolve w s.tab (names q) = some x) : p = q :=
  res_inj tr (reach_inv h) (reach_ok h) _ p q x (Nat.le_refl _) hp hq

theorem replicate_walk {w : World} {tab : List (Option Mp)} {x : Fs × Ino} {c : Comp} (h : walk1 w tab x c = some x) :
    ∀ n, walk w tab x (List.replicate n c) = some x
  | 0 => rfl
  | n + 1 => by
    rw [List.replicate_succ, walk, h]
    exact replicate_walk h n

/-- The root file system can be mounted inside itself: then "/5/5/5/..." never ends. -/
theorem tree_violated : ∃ s, Mounts w1 (fun _ => 1) (fun _ _ => 0) (fun _ _ _ => True) s [([5], 0)] ∧
    ∀ n, resolve w1 s.tab (names (List.replicate n 5)) = some (0, 0) := by
  refine ⟨_, @Mounts.mount w1 _ _ _ _ [] _ (some none) 0 [5] .init trivial rfl, fun n => ?_⟩
  unfold names resolve
  rw [List.map_replicate]
  exact replicate_walk (by decide +kernel) n

/-- ".." leads back: from a directory reached by a name, into a mounted file system or not, ".." is where one came from. -/
theorem dotdot_partial {w : World} (par : ∀ f i n j, w.entry f i n = some j → w.parent f j = i ∧ j ≠ 0) {r0 i0} {s : St} {H : Hist}
    (h : Reach w r0 i0 (fun _ m => m.target ≠ w.root ∧ m.ino ≠ 0) s H) {r : List Name} {n : Name} {x y : Fs × Ino}
    (hr : resolve w s.tab (names r) = some x) (hn : resolve w s.tab (names r ++ [.name n]) = some y) :
    resolve w s.tab (names r ++ [.name n, .up]) = some x := by
  have hi := reach_inv h
  have hok := reach_ok h
  -- what is reached is not covered
  have hx : getAt s.tab x.1 x.2 = none := by
    cases hg : getAt s.tab x.1 x.2 with
    | none => rfl
    | some t =>
      exfalso
      have hm := (getAt_some hi _ _ _).1 hg
      have x0 : x.2 ≠ 0 := (hok _ hm).2
      have hr' : res w s.tab r = some x := hr
      rcases snoc_cases r with rfl | ⟨r', a, rfl⟩
      · rw [res_nil] at hr'; cases hr'; exact x0 rfl
      · rw [res_snoc] at hr'
        cases h1 : res w s.tab r' with
        | none => rw [h1] at hr'; cases hr'
        | some z =>
          rw [h1] at hr'
          simp only [Option.bind_some, Option.map_eq_some_iff] at hr'
          obtain ⟨j, hj, he⟩ := hr'
          unfold enter at he
          cases hg2 : getAt s.tab z.1 j with
          | none => rw [hg2] at he; subst he; dsimp only at hg; rw [hg2] at hg; cases hg
          | some u => rw [hg2] at he; subst he; exact x0 rfl
  have hr2 : walk w s.tab (w.root, 0) (names r) = some x := hr
  unfold resolve at hn ⊢
  rw [walk_append, hr2] at hn ⊢
  simp only [Option.bind_some, walk, walk1] at hn ⊢
  cases hj : w.entry x.1 x.2 n with
  | none => rw [hj] at hn; cases hn
  | some j =>
    obtain ⟨p1, p2⟩ := par _ _ _ _ hj
    dsimp only
    unfold enter
    cases hg : getAt s.tab x.1 j with
    | none =>
      dsimp only
      rw [if_neg p2, p1, hx]
    | some t =>
      have hm := (getAt_some hi _ _ _).1 hg
      dsimp only
      rw [if_pos rfl, if_neg (hok _ hm).1, (mpOf_some hi t _).2 ⟨hm, rfl⟩]
      dsimp only
      rw [p1]

theorem w1_par : ∀ f i n j, w1.entry f i n = some j → w1.parent f j = i ∧ j ≠ 0 := by
  intro f i n j h
  obtain ⟨a, b, c⟩ := w1_entry h
  subst c
  exact digit_div i n a b

/-- With a file system on "/", "/5/.." is not "/". -/
theorem dotdot_violated : ∃ s, Mounts w1 (fun _ => 1) (fun _ _ => 0) (fun _ _ t => t ≠ w1.root) s [([], 1)] ∧
    resolve w1 s.tab [] = some (0, 0) ∧ resolve w1 s.tab [.name 5] = some (0, 5) ∧
    resolve w1 s.tab [.name 5, .up] = some (1, 0) := by
  refine ⟨_, @Mounts.mount w1 _ _ _ _ [] _ (some none) 1 [] .init (by decide) rfl, by decide +kernel, by decide +kernel,
    by decide +kernel⟩

example : ∃ s H, Reach w1 (fun _ => 1) (fun _ _ => 0) (fun _ m => m.target ≠ w1.root ∧ m.ino ≠ 0) s H ∧ H = [⟨0, 5, 1⟩] ∧
    resolve w1 s.tab (names [5, 6]) = some (1, 6) ∧ resolve w1 s.tab [.name 5, .name 6, .up, .up] = some (0, 0) := by
  refine ⟨_, _, @Reach.finish w1 _ _ _ _ [] _ (some none) ⟨0, 5, 1⟩ 0
    (@Reach.begin w1 _ _ _ _ [] _ none 1 [.name 5] .init rfl) rfl ⟨by decide, by decide⟩ rfl,
    rfl, by decide +kernel, by decide +kernel⟩

end Verif.MountPt
