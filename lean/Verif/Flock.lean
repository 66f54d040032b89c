/-!
# Locks on files, and running programs

Model of the locks that keep the file system code and the process management from using a file at the same time
(kernel/fs/flock.c), and of their users: opening, duplicating and closing files (kernel/vfs/vfs.c,
kernel/fs/ramfs/open.c.h), `execve`, `fork`, `vfork` and `exit` (kernel/elf.c, kernel/execve.c, kernel/process.c,
kernel/exit.c).

The first part is concurrent: the calls of `acquire_subsys_flock` and `release_subsys_flock` by any number of threads
are split in their atomic steps, in any interleaving. The tree of locks of a file system is a map from inodes to
objects (`Verif.Avl` proves that of `bintree`). No file system in the repository implements `exlock_noblk`, so
`vfs_exlock_noblock` and `vfs_exunlock` only return 0 or -ENOLCK (kernel/vfs/vfs.c:947-1001), which both mean to go on.
-/

namespace Verif.Flock

/-- `enum subsystem` (include/tilck/kernel/subsystems.h:6-10). -/
inductive Sub | vfs | procmgnt
deriving DecidableEq, Repr

/-- `struct locked_file` (flock.c:10-19). -/
structure Obj where
  owner : Sub
  inode : Nat
  refs : Nat
deriving DecidableEq, Repr

/-- Where a thread is: outside, in `acquire_subsys_flock` after it has found nothing (line 52), after it has allocated
the object and before it inserts it (line 87), or in `release_subsys_flock` after the reference count has become 0 and
before the object is removed (line 116). -/
inductive Pc
  | idle
  | missed (i : Nat) (s : Sub)
  | made (id i : Nat) (s : Sub)
  | dropped (id i : Nat)
deriving DecidableEq, Repr

/-- The state. Objects that are freed are `none`. `held` is not in the code: the references that callers have, which are
those that successful calls gave them and that they have not released. -/
structure St where
  objs : Nat → Option Obj
  tree : Nat → Option Nat
  next : Nat
  pc : Nat → Pc
  held : List (Nat × Nat × Sub)

def init : St := ⟨fun _ => none, fun _ => none, 0, fun _ => .idle, []⟩

def set {α : Type} (f : Nat → α) (k : Nat) (v : α) : Nat → α := fun x => if x = k then v else f x

/-- The steps of thread `t`. -/
inductive Op
  | find (t i : Nat) (s : Sub)
  | alloc (t : Nat) (ok : Bool)
  | insert (t : Nat)
  | retain (id i : Nat) (s : Sub)
  | drop (t id i : Nat) (s : Sub)
  | remove (t : Nat)

/-- What a call returns: nothing yet, a reference, -ETXTBSY or -ENOMEM. -/
inductive Ret | none | ok (id : Nat) | busy | nomem
deriving DecidableEq, Repr

/-- Outcomes: use of a freed object, or the next state and what is returned. -/
inductive Out
  | ub
  | ok (st : St) (r : Ret)

/-- Lines 29-50: the look-up, with preemption disabled. -/
def stepFind (st : St) (t i : Nat) (s : Sub) : Out :=
  match st.tree i with
  | none => .ok { st with pc := set st.pc t (.missed i s) } .none
  | some id =>
    match st.objs id with
    | none => .ub
    | some o =>
      if o.owner = s then
        .ok { st with objs := set st.objs id (some { o with refs := o.refs + 1 }), held := (id, i, s) :: st.held } (.ok id)
      else .ok st .busy

/-- Lines 53-85: allocation. -/
def stepAlloc (st : St) (t : Nat) (ok : Bool) : Option Out :=
  match st.pc t with
  | .missed i s =>
    if ok then some (.ok { st with objs := set st.objs st.next (some ⟨s, i, 1⟩), next := st.next + 1, pc := set st.pc t (.made st.next i s) } .none)
    else some (.ok { st with pc := set st.pc t .idle } .nomem)
  | _ => none

/-- Lines 87-99: insertion; `bintree_insert_ptr` does nothing if the inode has a lock, and its result is ignored. -/
def stepInsert (st : St) (t : Nat) : Option Out :=
  match st.pc t with
  | .made id i s =>
    some (.ok { st with tree := (if st.tree i = none then set st.tree i (some id) else st.tree), pc := set st.pc t .idle, held := (id, i, s) :: st.held } (.ok id))
  | _ => none

/-- `retain_subsys_flock` (flock.c:102-106). -/
def stepRetain (st : St) (id i : Nat) (s : Sub) : Out :=
  match st.objs id with
  | none => .ub
  | some o => .ok { st with objs := set st.objs id (some { o with refs := o.refs + 1 }), held := (id, i, s) :: st.held } .none

/-- Lines 111-115: the reference is dropped. -/
def stepDrop (st : St) (t id i : Nat) (s : Sub) : Out :=
  match st.objs id with
  | none => .ub
  | some o =>
    .ok { st with objs := set st.objs id (some { o with refs := o.refs - 1 }), held := st.held.erase (id, i, s),
                  pc := (if o.refs - 1 > 0 then st.pc else set st.pc t (.dropped id o.inode)) } .none

/-- Lines 117-153: the lock of the inode is removed from the tree (`bintree_remove_ptr` compares inodes) and the object
is freed. -/
def stepRemove (st : St) (t : Nat) : Option Out :=
  match st.pc t with
  | .dropped id _ =>
    match st.objs id with
    | none => some .ub
    | some o => some (.ok { st with tree := set st.tree o.inode none, objs := set st.objs id none, pc := set st.pc t .idle } .none)
  | _ => none

/-- One step; `none` if the thread is not there. -/
def step (st : St) : Op → Option Out
  | .find t i s => if st.pc t = .idle then some (stepFind st t i s) else none
  | .alloc t ok => stepAlloc st t ok
  | .insert t => stepInsert st t
  | .retain id i s => some (stepRetain st id i s)
  | .drop t id i s => if st.pc t = .idle then some (stepDrop st t id i s) else none
  | .remove t => stepRemove st t

/-! ### Specification -/

/-- A thread is in the middle of an operation on the lock of a file. -/
def Pc.on (i : Nat) : Pc → Prop
  | .idle => False
  | .missed j _ => j = i
  | .made _ j _ => j = i
  | .dropped _ j => j = i

/-- Callers retain and release only references they have. -/
def Fair (st : St) : Op → Prop
  | .retain id i s => (id, i, s) ∈ st.held
  | .drop _ id i s => (id, i, s) ∈ st.held
  | _ => True

/-- A look-up of the lock of a file does not begin while another call is creating or destroying it. -/
def Quiet (st : St) : Op → Prop
  | .find _ i _ => ∀ t, ¬ (st.pc t).on i
  | _ => True

/-- The states that are reachable by steps of any threads. -/
inductive Reach (P : St → Op → Prop) : St → Prop
  | init : Reach P init
  | step {st st' op r} : Reach P st → Fair st op → P st op → step st op = some (.ok st' r) → Reach P st'

/-- A subsystem holds the lock of a file. -/
def Holds (st : St) (s : Sub) (i : Nat) : Prop := ∃ id, (id, i, s) ∈ st.held

/-! ### Invariant -/

theorem set_eq {α : Type} {f : Nat → α} {k : Nat} {v : α} : set f k v k = v := if_pos rfl

theorem set_ne {α : Type} {f : Nat → α} {k x : Nat} {v : α} (h : x ≠ k) : set f k v x = f x := if_neg h

def refsOf (id : Nat) (held : List (Nat × Nat × Sub)) : Nat := (held.filter (fun h => h.1 == id)).length

theorem refsOf_cons (id : Nat) (h : Nat × Nat × Sub) (l : List (Nat × Nat × Sub)) :
    refsOf id (h :: l) = refsOf id l + if h.1 = id then 1 else 0 := by
  unfold refsOf
  by_cases e : h.1 = id
  · simp [e]
  · simp [e]

theorem refsOf_erase (id : Nat) (h : Nat × Nat × Sub) : ∀ (l : List (Nat × Nat × Sub)), h ∈ l →
    refsOf id l = refsOf id (l.erase h) + if h.1 = id then 1 else 0
  | [], hm => by cases hm
  | g :: l, hm => by
    by_cases e : g = h
    · subst e
      rw [List.erase_cons_head, refsOf_cons]
    · rw [List.erase_cons_tail (by simpa using e), refsOf_cons, refsOf_cons,
        refsOf_erase id h l (by rcases List.mem_cons.mp hm with r | r; exact absurd r.symm e; exact r)]
      omega

theorem refsOf_pos {id i : Nat} {s : Sub} {l : List (Nat × Nat × Sub)} (h : (id, i, s) ∈ l) : 0 < refsOf id l := by
  unfold refsOf
  exact List.length_pos_of_mem (List.mem_filter.mpr ⟨h, by simp⟩)

theorem refsOf_mem {id : Nat} {l : List (Nat × Nat × Sub)} (h : 0 < refsOf id l) : ∃ i s, (id, i, s) ∈ l := by
  unfold refsOf at h
  obtain ⟨⟨a, i, s⟩, hg⟩ := List.exists_mem_of_length_pos h
  rw [List.mem_filter] at hg
  have : a = id := by simpa using hg.2
  exact ⟨i, s, this ▸ hg.1⟩

structure Inv (st : St) : Prop where
  tree : ∀ i id, st.tree i = some id → ∃ o, st.objs id = some o ∧ o.inode = i ∧ o.refs = refsOf id st.held ∧
    (o.refs = 0 → ∃ t, st.pc t = .dropped id i)
  held : ∀ id i s, (id, i, s) ∈ st.held → st.tree i = some id ∧ ∃ o, st.objs id = some o ∧ o.owner = s
  fresh : ∀ id, st.next ≤ id → st.objs id = none
  one : ∀ t t' i, (st.pc t).on i → (st.pc t').on i → t = t'
  missed : ∀ t i s, st.pc t = .missed i s → st.tree i = none
  made : ∀ t id i s, st.pc t = .made id i s → st.tree i = none ∧ st.objs id = some ⟨s, i, 1⟩ ∧ refsOf id st.held = 0
  dropped : ∀ t id i, st.pc t = .dropped id i → st.tree i = some id ∧ refsOf id st.held = 0

theorem inv_init : Inv init := by
  constructor <;> intros <;> simp_all [init, Pc.on]

section
variable {st : St}

theorem Inv.inode (h : Inv st) {j id : Nat} {o : Obj} (ht : st.tree j = some id) (ho : st.objs id = some o) : o.inode = j := by
  obtain ⟨o', h1, h2, _⟩ := h.tree j id ht
  rw [ho] at h1
  cases h1
  exact h2

theorem Inv.refs (h : Inv st) {j id : Nat} {o : Obj} (ht : st.tree j = some id) (ho : st.objs id = some o) :
    o.refs = refsOf id st.held := by
  obtain ⟨o', h1, _, h2, _⟩ := h.tree j id ht
  rw [ho] at h1
  cases h1
  exact h2

theorem Inv.same (h : Inv st) {j i id : Nat} (ht : st.tree j = some id) (hi : st.tree i = some id) : j = i := by
  obtain ⟨o, h1, h2, _⟩ := h.tree j id ht
  rw [← h2, h.inode hi h1]

/-- An object that has a thread about to insert it is not in the tree. -/
theorem Inv.made_ne (h : Inv st) {t id i j id' : Nat} {s : Sub} (hm : st.pc t = .made id i s) (ht : st.tree j = some id') : id' ≠ id := by
  intro e
  subst e
  obtain ⟨h1, h2, _⟩ := h.made _ _ _ _ hm
  have := h.inode ht h2
  dsimp only at this
  rw [← this, h1] at ht
  cases ht

theorem refsOf_none (h : Inv st) {id : Nat} (ho : st.objs id = none) : refsOf id st.held = 0 := by
  by_cases hz : refsOf id st.held = 0
  · exact hz
  · obtain ⟨i, s, hm⟩ := refsOf_mem (Nat.pos_of_ne_zero hz)
    obtain ⟨_, o, h2, _⟩ := h.held id i s hm
    rw [ho] at h2
    cases h2

/-- One more reference to an object in the tree that has one or is not being destroyed. -/
theorem inv_more (h : Inv st) {id i : Nat} {s : Sub} {o : Obj} (ht : st.tree i = some id) (ho : st.objs id = some o) (hs : o.owner = s)
    (hd : ∀ t, st.pc t ≠ .dropped id i) :
    Inv { st with objs := set st.objs id (some { o with refs := o.refs + 1 }), held := (id, i, s) :: st.held } := by
  constructor <;> dsimp only
  · intro j id' hj
    obtain ⟨o', h1, h2, h3, h4⟩ := h.tree j id' hj
    by_cases e : id' = id
    · subst e
      rw [ho] at h1
      cases h1
      refine ⟨_, set_eq, h2, ?_, fun hz => by simp at hz⟩
      dsimp only
      rw [refsOf_cons, if_pos rfl, h3]
    · refine ⟨o', by rw [set_ne e]; exact h1, h2, ?_, h4⟩
      rw [refsOf_cons, if_neg (fun x => e x.symm), h3]
      rfl
  · intro id' j s' hm
    rcases List.mem_cons.mp hm with e | hm
    · cases e
      exact ⟨ht, _, set_eq, hs⟩
    · obtain ⟨h1, o', h2, h3⟩ := h.held id' j s' hm
      refine ⟨h1, ?_⟩
      by_cases e : id' = id
      · subst e
        rw [ho] at h2
        cases h2
        exact ⟨_, set_eq, h3⟩
      · exact ⟨o', by rw [set_ne e]; exact h2, h3⟩
  · intro id' hn
    have := h.fresh id' hn
    rw [set_ne (fun e => by rw [e, ho] at this; cases this)]
    exact this
  · exact h.one
  · exact h.missed
  · intro t id' j s' hm
    obtain ⟨h1, h2, h3⟩ := h.made t id' j s' hm
    have hne : id ≠ id' := h.made_ne hm ht
    refine ⟨h1, by rw [set_ne (Ne.symm hne)]; exact h2, ?_⟩
    rw [refsOf_cons, if_neg hne, h3]
  · intro t id' j hdr
    obtain ⟨h1, h2⟩ := h.dropped t id' j hdr
    have hne : id ≠ id' := by
      intro e
      subst e
      have := h.same h1 ht
      subst this
      exact hd t hdr
    refine ⟨h1, ?_⟩
    rw [refsOf_cons, if_neg hne, h2]

theorem set_pc {pc : Nat → Pc} {t x : Nat} {v w : Pc} (h : set pc t v x = w) : (x = t ∧ v = w) ∨ (x ≠ t ∧ pc x = w) := by
  unfold set at h
  split at h
  · exact Or.inl ⟨‹_›, h⟩
  · exact Or.inr ⟨‹_›, h⟩

theorem set_on {pc : Nat → Pc} {t x i : Nat} {v : Pc} (h : (set pc t v x).on i) : (x = t ∧ v.on i) ∨ (x ≠ t ∧ (pc x).on i) := by
  unfold set at h
  split at h
  · exact Or.inl ⟨‹_›, h⟩
  · exact Or.inr ⟨‹_›, h⟩

theorem inv_find (h : Inv st) {t i : Nat} {s : Sub} (hidle : st.pc t = .idle) (hq : ∀ t, ¬ (st.pc t).on i) :
    ∃ st' r, stepFind st t i s = .ok st' r ∧ Inv st' := by
  unfold stepFind
  cases ht : st.tree i with
  | none =>
    refine ⟨_, _, rfl, ?_⟩
    constructor <;> dsimp only
    · intro j id hj
      obtain ⟨o, h1, h2, h3, h4⟩ := h.tree j id hj
      refine ⟨o, h1, h2, h3, fun hz => ?_⟩
      obtain ⟨t', ht'⟩ := h4 hz
      have hne : t' ≠ t := fun e => by rw [e, hidle] at ht'; cases ht'
      exact ⟨t', by rw [set_ne hne]; exact ht'⟩
    · exact h.held
    · exact h.fresh
    · intro a b j xa xb
      rcases set_on xa with ⟨rfl, ha⟩ | ⟨na, ha⟩ <;> rcases set_on xb with ⟨rfl, hb⟩ | ⟨nb, hb⟩
      · rfl
      · have e : i = j := ha
        subst e
        exact absurd hb (hq _)
      · have e : i = j := hb
        subst e
        exact absurd ha (hq _)
      · exact h.one _ _ _ ha hb
    · intro a j s' ha
      rcases set_pc ha with ⟨_, e⟩ | ⟨_, e⟩
      · cases e; exact ht
      · exact h.missed _ _ _ e
    · intro a id j s' ha
      rcases set_pc ha with ⟨_, e⟩ | ⟨_, e⟩
      · cases e
      · exact h.made _ _ _ _ e
    · intro a id j ha
      rcases set_pc ha with ⟨_, e⟩ | ⟨_, e⟩
      · cases e
      · exact h.dropped _ _ _ e
  | some id =>
    obtain ⟨o, h1, h2, h3, h4⟩ := h.tree i id ht
    dsimp only
    rw [h1]
    dsimp only
    by_cases e : o.owner = s
    · rw [if_pos e]
      exact ⟨_, _, rfl, inv_more h ht h1 e (fun t' ht' => hq t' (by rw [ht']; rfl))⟩
    · rw [if_neg e]
      exact ⟨_, _, rfl, h⟩

theorem inv_alloc (h : Inv st) {t : Nat} {ok : Bool} {out : Out} (hs : stepAlloc st t ok = some out) :
    ∃ st' r, out = .ok st' r ∧ Inv st' := by
  unfold stepAlloc at hs
  split at hs
  case h_2 => cases hs
  case h_1 i s hpc =>
  have hnext : st.objs st.next = none := h.fresh _ (Nat.le_refl _)
  cases ok
  · cases hs
    refine ⟨_, _, rfl, ?_⟩
    constructor <;> dsimp only
    · intro j id hj
      obtain ⟨o, h1, h2, h3, h4⟩ := h.tree j id hj
      refine ⟨o, h1, h2, h3, fun hz => ?_⟩
      obtain ⟨t', ht'⟩ := h4 hz
      have hne : t' ≠ t := fun e => by rw [e, hpc] at ht'; cases ht'
      exact ⟨t', by rw [set_ne hne]; exact ht'⟩
    · exact h.held
    · exact h.fresh
    · intro a b j xa xb
      rcases set_on xa with ⟨rfl, ha⟩ | ⟨na, ha⟩ <;> rcases set_on xb with ⟨rfl, hb⟩ | ⟨nb, hb⟩
      · rfl
      · cases ha
      · cases hb
      · exact h.one _ _ _ ha hb
    · intro a j s' ha
      rcases set_pc ha with ⟨_, e⟩ | ⟨_, e⟩
      · cases e
      · exact h.missed _ _ _ e
    · intro a id j s' ha
      rcases set_pc ha with ⟨_, e⟩ | ⟨_, e⟩
      · cases e
      · exact h.made _ _ _ _ e
    · intro a id j ha
      rcases set_pc ha with ⟨_, e⟩ | ⟨_, e⟩
      · cases e
      · exact h.dropped _ _ _ e
  · cases hs
    have hne0 : ∀ {id o}, st.objs id = some o → id ≠ st.next := fun {id o} ho e => by rw [e, hnext] at ho; cases ho
    refine ⟨_, _, rfl, ?_⟩
    constructor <;> dsimp only
    · intro j id hj
      obtain ⟨o, h1, h2, h3, h4⟩ := h.tree j id hj
      refine ⟨o, by rw [set_ne (hne0 h1)]; exact h1, h2, h3, fun hz => ?_⟩
      obtain ⟨t', ht'⟩ := h4 hz
      have hne : t' ≠ t := fun e => by rw [e, hpc] at ht'; cases ht'
      exact ⟨t', by rw [set_ne hne]; exact ht'⟩
    · intro id j s' hm
      obtain ⟨h1, o, h2, h3⟩ := h.held id j s' hm
      exact ⟨h1, o, by rw [set_ne (hne0 h2)]; exact h2, h3⟩
    · intro id hn
      rw [set_ne (by omega)]
      exact h.fresh id (by omega)
    · intro a b j xa xb
      rcases set_on xa with ⟨rfl, ha⟩ | ⟨na, ha⟩ <;> rcases set_on xb with ⟨rfl, hb⟩ | ⟨nb, hb⟩
      · rfl
      · exact h.one _ _ j (by rw [hpc]; exact ha) hb
      · exact h.one _ _ j ha (by rw [hpc]; exact hb)
      · exact h.one _ _ _ ha hb
    · intro a j s' ha
      rcases set_pc ha with ⟨_, e⟩ | ⟨_, e⟩
      · cases e
      · exact h.missed _ _ _ e
    · intro a id j s' ha
      rcases set_pc ha with ⟨_, e⟩ | ⟨_, e⟩
      · cases e
        exact ⟨h.missed _ _ _ hpc, set_eq, refsOf_none h hnext⟩
      · obtain ⟨h1, h2, h3⟩ := h.made _ _ _ _ e
        exact ⟨h1, by rw [set_ne (hne0 h2)]; exact h2, h3⟩
    · intro a id j ha
      rcases set_pc ha with ⟨_, e⟩ | ⟨_, e⟩
      · cases e
      · exact h.dropped _ _ _ e

theorem inv_insert (h : Inv st) {t : Nat} {out : Out} (hs : stepInsert st t = some out) :
    ∃ st' r, out = .ok st' r ∧ Inv st' := by
  unfold stepInsert at hs
  split at hs
  case h_2 => cases hs
  case h_1 id i s hpc =>
  obtain ⟨hi1, hi2, hi3⟩ := h.made _ _ _ _ hpc
  rw [if_pos hi1] at hs
  cases hs
  have hon : (st.pc t).on i := by rw [hpc]; rfl
  refine ⟨_, _, rfl, ?_⟩
  constructor <;> dsimp only
  · intro j id' hj
    by_cases e : j = i
    · subst e
      rw [set_eq] at hj
      cases hj
      refine ⟨_, hi2, rfl, ?_, fun hz => by simp at hz⟩
      rw [refsOf_cons, if_pos rfl, hi3]
    · rw [set_ne e] at hj
      obtain ⟨o, h1, h2, h3, h4⟩ := h.tree j id' hj
      have hne := h.made_ne hpc hj
      refine ⟨o, h1, h2, ?_, fun hz => ?_⟩
      · rw [refsOf_cons, if_neg (Ne.symm hne), h3]
        rfl
      · obtain ⟨t', ht'⟩ := h4 hz
        have hne : t' ≠ t := fun e => by rw [e, hpc] at ht'; cases ht'
        exact ⟨t', by rw [set_ne hne]; exact ht'⟩
  · intro id' j s' hm
    rcases List.mem_cons.mp hm with e | hm
    · cases e
      exact ⟨set_eq, _, hi2, rfl⟩
    · obtain ⟨h1, o', h2, h3⟩ := h.held id' j s' hm
      have e : j ≠ i := fun e => by rw [e, hi1] at h1; cases h1
      exact ⟨by rw [set_ne e]; exact h1, o', h2, h3⟩
  · exact h.fresh
  · intro a b j xa xb
    rcases set_on xa with ⟨rfl, ha⟩ | ⟨na, ha⟩ <;> rcases set_on xb with ⟨rfl, hb⟩ | ⟨nb, hb⟩
    · rfl
    · cases ha
    · cases hb
    · exact h.one _ _ _ ha hb
  · intro a j s' ha
    rcases set_pc ha with ⟨_, e⟩ | ⟨na, e⟩
    · cases e
    · have hj : j ≠ i := fun ej => na (h.one a t i (by rw [e]; exact ej) hon)
      rw [set_ne hj]
      exact h.missed _ _ _ e
  · intro a id' j s' ha
    rcases set_pc ha with ⟨_, e⟩ | ⟨na, e⟩
    · cases e
    · have hj : j ≠ i := fun ej => na (h.one a t i (by rw [e]; exact ej) hon)
      obtain ⟨h1, h2, h3⟩ := h.made _ _ _ _ e
      refine ⟨by rw [set_ne hj]; exact h1, h2, ?_⟩
      have hne : id ≠ id' := fun x => by
        subst x
        rw [hi2] at h2
        cases h2
        exact hj rfl
      rw [refsOf_cons, if_neg hne, h3]
  · intro a id' j ha
    rcases set_pc ha with ⟨_, e⟩ | ⟨na, e⟩
    · cases e
    · obtain ⟨h1, h2⟩ := h.dropped _ _ _ e
      have hj : j ≠ i := fun ej => by rw [ej, hi1] at h1; cases h1
      refine ⟨by rw [set_ne hj]; exact h1, ?_⟩
      rw [refsOf_cons, if_neg (Ne.symm (h.made_ne hpc h1)), h2]

theorem inv_retain (h : Inv st) {id i : Nat} {s : Sub} (hm : (id, i, s) ∈ st.held) :
    ∃ st' r, stepRetain st id i s = .ok st' r ∧ Inv st' := by
  obtain ⟨h1, o, h2, h3⟩ := h.held _ _ _ hm
  unfold stepRetain
  rw [h2]
  refine ⟨_, _, rfl, inv_more h h1 h2 h3 ?_⟩
  intro t ht
  have := (h.dropped _ _ _ ht).2
  have := refsOf_pos hm
  omega

theorem inv_drop (h : Inv st) {t id i : Nat} {s : Sub} (hidle : st.pc t = .idle) (hm : (id, i, s) ∈ st.held) :
    ∃ st' r, stepDrop st t id i s = .ok st' r ∧ Inv st' := by
  obtain ⟨hT, o, hO, hS⟩ := h.held _ _ _ hm
  have hino := h.inode hT hO
  have hrefs := h.refs hT hO
  have hpos := refsOf_pos hm
  have hme := refsOf_erase id (id, i, s) st.held hm
  rw [if_pos rfl] at hme
  have hother : ∀ id', id' ≠ id → refsOf id' (st.held.erase (id, i, s)) = refsOf id' st.held := by
    intro id' hne
    have := refsOf_erase id' (id, i, s) st.held hm
    rw [if_neg (Ne.symm hne)] at this
    omega
  unfold stepDrop
  rw [hO]
  refine ⟨_, _, rfl, ?_⟩
  have hpc : ∀ a v, (if o.refs - 1 > 0 then st.pc else set st.pc t (.dropped id o.inode)) a = v →
      (st.pc a = v) ∨ (o.refs = 1 ∧ a = t ∧ v = .dropped id i) := by
    intro a v hv
    split at hv
    · exact Or.inl hv
    · rcases set_pc hv with ⟨e1, e2⟩ | ⟨_, e⟩
      · exact Or.inr ⟨by omega, e1, by rw [← e2, hino]⟩
      · exact Or.inl e
  have hnon : ∀ a, ¬ (st.pc a).on i := by
    intro a ha
    cases hp : st.pc a with
    | idle => rw [hp] at ha; exact ha
    | missed j s' =>
      rw [hp] at ha
      have e : j = i := ha
      have := h.missed _ _ _ hp
      rw [e, hT] at this
      cases this
    | made id' j s' =>
      rw [hp] at ha
      have e : j = i := ha
      have := (h.made _ _ _ _ hp).1
      rw [e, hT] at this
      cases this
    | dropped id' j =>
      rw [hp] at ha
      have e : j = i := ha
      have := h.dropped _ _ _ hp
      rw [e, hT] at this
      have e2 := this.1
      cases e2
      omega
  constructor <;> dsimp only
  · intro j id' hj
    obtain ⟨o', h1, h2, h3, h4⟩ := h.tree j id' hj
    by_cases e : id' = id
    · subst e
      rw [hO] at h1
      cases h1
      refine ⟨_, set_eq, h2, ?_, fun hz => ?_⟩
      · dsimp only
        omega
      · dsimp only at hz
        refine ⟨t, ?_⟩
        rw [if_neg (by omega), set_eq, h2]
    · refine ⟨o', by rw [set_ne e]; exact h1, h2, by rw [hother _ e]; exact h3, fun hz => ?_⟩
      obtain ⟨t', ht'⟩ := h4 hz
      have hne : t' ≠ t := fun e => by rw [e, hidle] at ht'; cases ht'
      refine ⟨t', ?_⟩
      split
      · exact ht'
      · rw [set_ne hne]; exact ht'
  · intro id' j s' hm'
    obtain ⟨h1, o', h2, h3⟩ := h.held id' j s' (List.mem_of_mem_erase hm')
    refine ⟨h1, ?_⟩
    by_cases e : id' = id
    · subst e
      rw [hO] at h2
      cases h2
      exact ⟨_, set_eq, h3⟩
    · exact ⟨o', by rw [set_ne e]; exact h2, h3⟩
  · intro id' hn
    have := h.fresh id' hn
    rw [set_ne (fun e => by rw [e, hO] at this; cases this)]
    exact this
  · intro a b j ha hb
    rcases hpc a _ rfl with ea | ⟨-, ea, va⟩ <;> rcases hpc b _ rfl with eb | ⟨-, eb, vb⟩
    · rw [← ea] at ha
      rw [← eb] at hb
      exact h.one _ _ _ ha hb
    · rw [← ea] at ha
      rw [vb] at hb
      have e : i = j := hb
      subst e
      exact absurd ha (hnon a)
    · rw [← eb] at hb
      rw [va] at ha
      have e : i = j := ha
      subst e
      exact absurd hb (hnon b)
    · rw [ea, eb]
  · intro a j s' ha
    rcases hpc a _ ha with e | ⟨_, _, e⟩
    · exact h.missed _ _ _ e
    · cases e
  · intro a id' j s' ha
    rcases hpc a _ ha with e | ⟨_, _, e⟩
    · obtain ⟨h1, h2, h3⟩ := h.made _ _ _ _ e
      have hne : id' ≠ id := Ne.symm (h.made_ne e hT)
      exact ⟨h1, by rw [set_ne hne]; exact h2, by rw [hother _ hne]; exact h3⟩
    · cases e
  · intro a id' j ha
    rcases hpc a _ ha with e | ⟨e1, _, e⟩
    · obtain ⟨h1, h2⟩ := h.dropped _ _ _ e
      have hne : id' ≠ id := fun x => by rw [x] at h2; omega
      exact ⟨h1, by rw [hother _ hne]; exact h2⟩
    · cases e
      exact ⟨hT, by omega⟩

theorem inv_remove (h : Inv st) {t : Nat} {out : Out} (hs : stepRemove st t = some out) :
    ∃ st' r, out = .ok st' r ∧ Inv st' := by
  unfold stepRemove at hs
  split at hs
  case h_2 => cases hs
  case h_1 id i hpc =>
  obtain ⟨hT, hz⟩ := h.dropped _ _ _ hpc
  obtain ⟨o, hO, hino, _⟩ := h.tree _ _ hT
  rw [hO] at hs
  cases hs
  have hon : (st.pc t).on i := by rw [hpc]; rfl
  refine ⟨_, _, rfl, ?_⟩
  rw [hino]
  constructor <;> dsimp only
  · intro j id' hj
    have e : j ≠ i := fun e => by rw [e, set_eq] at hj; cases hj
    rw [set_ne e] at hj
    obtain ⟨o', h1, h2, h3, h4⟩ := h.tree j id' hj
    have hne : id' ≠ id := fun x => e (h.same hj (x ▸ hT))
    refine ⟨o', by rw [set_ne hne]; exact h1, h2, h3, fun hz => ?_⟩
    obtain ⟨t', ht'⟩ := h4 hz
    have hne : t' ≠ t := fun x => by
      rw [x, hpc] at ht'
      cases ht'
      exact e rfl
    exact ⟨t', by rw [set_ne hne]; exact ht'⟩
  · intro id' j s' hm
    obtain ⟨h1, o', h2, h3⟩ := h.held id' j s' hm
    have hne : id' ≠ id := fun x => by
      have := refsOf_pos hm
      rw [x] at this
      omega
    have e : j ≠ i := fun e => by
      rw [e, hT] at h1
      cases h1
      exact hne rfl
    exact ⟨by rw [set_ne e]; exact h1, o', by rw [set_ne hne]; exact h2, h3⟩
  · intro id' hn
    unfold set
    split
    · rfl
    · exact h.fresh _ hn
  · intro a b j xa xb
    rcases set_on xa with ⟨rfl, ha⟩ | ⟨na, ha⟩ <;> rcases set_on xb with ⟨rfl, hb⟩ | ⟨nb, hb⟩
    · rfl
    · cases ha
    · cases hb
    · exact h.one _ _ _ ha hb
  · intro a j s' ha
    rcases set_pc ha with ⟨_, e⟩ | ⟨na, e⟩
    · cases e
    · unfold set
      split
      · rfl
      · exact h.missed _ _ _ e
  · intro a id' j s' ha
    rcases set_pc ha with ⟨_, e⟩ | ⟨na, e⟩
    · cases e
    · obtain ⟨h1, h2, h3⟩ := h.made _ _ _ _ e
      refine ⟨?_, by rw [set_ne (Ne.symm (h.made_ne e hT))]; exact h2, h3⟩
      unfold set
      split
      · rfl
      · exact h1
  · intro a id' j ha
    rcases set_pc ha with ⟨_, e⟩ | ⟨na, e⟩
    · cases e
    · obtain ⟨h1, h2⟩ := h.dropped _ _ _ e
      have hj : j ≠ i := fun ej => na (h.one a t i (by rw [e]; exact ej) hon)
      exact ⟨by rw [set_ne hj]; exact h1, h2⟩

theorem inv_step (h : Inv st) {op : Op} {out : Out} (hf : Fair st op) (hq : Quiet st op) (hs : step st op = some out) :
    ∃ st' r, out = .ok st' r ∧ Inv st' := by
  cases op with
  | find t i s =>
    unfold step at hs
    dsimp only at hs
    split at hs
    · cases hs; exact inv_find h ‹_› hq
    · cases hs
  | alloc t ok => exact inv_alloc h hs
  | insert t => exact inv_insert h hs
  | retain id i s => cases hs; exact inv_retain h hf
  | drop t id i s =>
    unfold step at hs
    dsimp only at hs
    split at hs
    · cases hs; exact inv_drop h ‹_› hf
    · cases hs
  | remove t => exact inv_remove h hs

end

theorem reach_inv {st : St} (h : Reach Quiet st) : Inv st := by
  induction h with
  | init => exact inv_init
  | step _ hf hq hs ih =>
    obtain ⟨st', r, e, hi⟩ := inv_step ih hf hq hs
    cases e
    exact hi

/-! ### Theorems about the locks -/

/-- **C45.** No call uses a lock object that has been freed. Partial: a look-up must not overlap with the creation or
destruction of the lock of the same file, see `use_after_free_violated`. -/
theorem flock_safe_partial {st : St} (h : Reach Quiet st) {op : Op} {out : Out} (hf : Fair st op) (hq : Quiet st op)
    (hs : step st op = some out) : out ≠ .ub := by
  obtain ⟨_, _, e, _⟩ := inv_step (reach_inv h) hf hq hs
  rw [e]
  simp

/-- **C45.** Never do two subsystems hold the lock of a file. Partial: as above, see `two_owners_violated`. -/
theorem flock_exclusive_partial {st : St} (h : Reach Quiet st) {s s' : Sub} {i : Nat} (h1 : Holds st s i) (h2 : Holds st s' i) :
    s = s' := by
  obtain ⟨id, h1⟩ := h1
  obtain ⟨id', h2⟩ := h2
  have hI := reach_inv h
  obtain ⟨a1, o, a2, a3⟩ := hI.held _ _ _ h1
  obtain ⟨b1, o', b2, b3⟩ := hI.held _ _ _ h2
  rw [a1] at b1
  cases b1
  rw [a2] at b2
  cases b2
  rw [← a3, b3]

/-- **C45.** The answer to a call: it is -ETXTBSY exactly if another subsystem holds the lock; a subsystem that holds it
already gets it again, and if nobody holds it, the call goes on to create it. Partial: as above. -/
theorem flock_answer_partial {st st' : St} (h : Reach Quiet st) {t i : Nat} {s : Sub} {r : Ret} (hq : ∀ t, ¬ (st.pc t).on i)
    (hs : step st (.find t i s) = some (.ok st' r)) :
    (r = .busy ↔ ∃ s', s' ≠ s ∧ Holds st s' i) ∧
    ((∃ id, r = .ok id ∧ st'.held = (id, i, s) :: st.held) ↔ Holds st s i) ∧
    (r = .none ↔ ∀ s', ¬ Holds st s' i) ∧ (r = .none → st'.pc t = .missed i s) := by
  have hI := reach_inv h
  unfold step at hs
  dsimp only at hs
  split at hs
  case isFalse => cases hs
  case isTrue hidle =>
  unfold stepFind at hs
  cases ht : st.tree i with
  | none =>
    rw [ht] at hs
    cases hs
    have hno : ∀ s', ¬ Holds st s' i := fun s' ⟨id, hm⟩ => by
      have := (hI.held _ _ _ hm).1
      rw [ht] at this
      cases this
    refine ⟨⟨fun e => (by cases e), fun ⟨s', _, hh⟩ => absurd hh (hno s')⟩, ⟨fun ⟨_, e, _⟩ => (by cases e), fun hh => absurd hh (hno s)⟩,
      ⟨fun _ => hno, fun _ => rfl⟩, fun _ => set_eq⟩
  | some id =>
    obtain ⟨o, h1, h2, h3, h4⟩ := hI.tree i id ht
    have hpos : 0 < refsOf id st.held := by
      apply Nat.pos_of_ne_zero
      intro hz
      obtain ⟨t', ht'⟩ := h4 (by omega)
      exact hq t' (by rw [ht']; rfl)
    obtain ⟨j, s0, hm⟩ := refsOf_mem hpos
    obtain ⟨k1, o', k2, k3⟩ := hI.held _ _ _ hm
    have hj := hI.same k1 ht
    subst hj
    rw [h1] at k2
    cases k2
    have hall : ∀ s', Holds st s' j ↔ s' = s0 := fun s' =>
      ⟨fun hh => flock_exclusive_partial h hh ⟨id, hm⟩, fun e => e ▸ ⟨id, hm⟩⟩
    rw [ht] at hs
    dsimp only at hs
    rw [h1] at hs
    dsimp only at hs
    by_cases e : o.owner = s
    · rw [if_pos e] at hs
      cases hs
      have e0 : s0 = s := by rw [← k3, e]
      refine ⟨⟨fun x => (by cases x), fun ⟨s', hne, hh⟩ => absurd (((hall s').mp hh).trans e0) hne⟩,
        ⟨fun _ => (hall s).mpr e0.symm, fun _ => ⟨id, rfl, rfl⟩⟩,
        ⟨fun x => (by cases x), fun hn => absurd ⟨id, hm⟩ (hn s0)⟩, fun x => (by cases x)⟩
    · rw [if_neg e] at hs
      cases hs
      have e0 : s0 ≠ s := by rw [← k3]; exact e
      refine ⟨⟨fun _ => ⟨s0, e0, ⟨id, hm⟩⟩, fun _ => rfl⟩,
        ⟨fun ⟨_, x, _⟩ => (by cases x), fun hh => absurd ((hall s).mp hh).symm e0⟩,
        ⟨fun x => (by cases x), fun hn => absurd ⟨id, hm⟩ (hn s0)⟩, fun x => (by cases x)⟩

/-- **C45.** A call that goes on to create the lock ends with a reference to it or with -ENOMEM, whatever the other threads
do meanwhile. -/
theorem flock_created {st : St} {t : Nat} :
    (∀ i s, st.pc t = .missed i s → ∀ ok, ∃ st' r, step st (.alloc t ok) = some (.ok st' r) ∧
      (ok = false → r = .nomem) ∧ (ok = true → ∃ id, st'.pc t = .made id i s)) ∧
    (∀ id i s, st.pc t = .made id i s → ∃ st', step st (.insert t) = some (.ok st' (.ok id)) ∧ st'.held = (id, i, s) :: st.held) := by
  constructor
  · intro i s h ok
    have e : step st (.alloc t ok) = stepAlloc st t ok := rfl
    rw [e]
    unfold stepAlloc
    rw [h]
    cases ok
    · exact ⟨_, _, rfl, fun _ => rfl, fun x => (by cases x)⟩
    · exact ⟨_, _, rfl, fun x => (by cases x), fun _ => ⟨_, set_eq⟩⟩
  · intro id i s h
    have e : step st (.insert t) = stepInsert st t := rfl
    rw [e]
    unfold stepInsert
    rw [h]
    exact ⟨_, rfl, rfl⟩

/-- **C45.** After as many releases as acquisitions, the lock is free: the other subsystem gets it. Partial: as above; the
reference count and the tree agree with the references given out in every reachable state. -/
theorem flock_free_partial {st : St} (h : Reach Quiet st) {i : Nat} (hq : ∀ t, ¬ (st.pc t).on i) :
    (st.tree i = none ↔ ∀ s, ¬ Holds st s i) ∧
    ∀ id, st.tree i = some id → ∃ o, st.objs id = some o ∧ Holds st o.owner i ∧ o.refs = (st.held.filter (fun x => x.2.1 == i)).length := by
  have hI := reach_inv h
  have key : ∀ id, st.tree i = some id → ∃ o, st.objs id = some o ∧ Holds st o.owner i ∧ o.refs = refsOf id st.held := by
    intro id ht
    obtain ⟨o, h1, h2, h3, h4⟩ := hI.tree i id ht
    have hpos : 0 < refsOf id st.held := by
      apply Nat.pos_of_ne_zero
      intro hz
      obtain ⟨t', ht'⟩ := h4 (by omega)
      exact hq t' (by rw [ht']; rfl)
    obtain ⟨j, s0, hm⟩ := refsOf_mem hpos
    obtain ⟨k1, o', k2, k3⟩ := hI.held _ _ _ hm
    have hj := hI.same k1 ht
    subst hj
    rw [h1] at k2
    cases k2
    exact ⟨o, h1, ⟨id, by rw [k3]; exact hm⟩, h3⟩
  refine ⟨⟨fun ht s ⟨id, hm⟩ => ?_, fun hn => ?_⟩, fun id ht => ?_⟩
  · have := (hI.held _ _ _ hm).1
    rw [ht] at this
    cases this
  · cases ht : st.tree i with
    | none => rfl
    | some id =>
      obtain ⟨o, _, hh, _⟩ := key id ht
      exact absurd hh (hn _)
  · obtain ⟨o, h1, h2, h3⟩ := key id ht
    refine ⟨o, h1, h2, ?_⟩
    rw [h3]
    unfold refsOf
    congr 1
    apply List.filter_congr
    rintro ⟨a, b, c⟩ hx
    have hb := (hI.held _ _ _ hx).1
    by_cases e : a = id
    · subst e
      have := hI.same hb ht
      simp [this]
    · have : b ≠ i := fun x => by
        rw [x, ht] at hb
        cases hb
        exact e rfl
      show (a == id) = (b == i)
      rw [beq_false_of_ne e, beq_false_of_ne this]

/-- Runs steps one after the other. -/
def runOps (st : St) : List Op → Option Out
  | [] => some (.ok st .none)
  | op :: l =>
    match step st op with
    | some (.ok st' _) => runOps st' l
    | r => r

theorem reach_run {st : St} (h : Reach (fun _ _ => True) st) : ∀ {l : List Op} {st' : St} {r : Ret},
    (∀ op ∈ l, ∀ st, Fair st op) → runOps st l = some (.ok st' r) → Reach (fun _ _ => True) st'
  | [], st', r, _, hr => by
    cases hr
    exact h
  | op :: l, st', r, hf, hr => by
    unfold runOps at hr
    split at hr
    · next st1 r1 e => exact reach_run (h.step (hf op (by simp) _) trivial e) (fun o ho => hf o (by simp [ho])) hr
    · next hne => exact absurd hr (hne _ _)

/-- **C45, violated.** Two threads that lock a file at the same time both get the lock, although they belong to different
subsystems: thread 0 (`execve`) has found no lock when thread 1 (`open` for writing) creates one; the failure of the
insertion by thread 0 is ignored. So a program runs while its file is open for writing. -/
theorem two_owners_violated : ∃ st, Reach (fun _ _ => True) st ∧ Holds st .procmgnt 7 ∧ Holds st .vfs 7 :=
  ⟨_, reach_run .init (l := [.find 0 7 .procmgnt, .find 1 7 .vfs, .alloc 1 true, .insert 1, .alloc 0 true, .insert 0])
    (r := .none) (by simp [Fair]) rfl, ⟨1, by decide⟩, ⟨0, by decide⟩⟩

/-- **C45, violated.** While thread 0 is releasing the last reference, thread 1 finds the lock and takes a reference; then
thread 0 frees the object, and when thread 1 releases its reference, it uses freed memory. -/
theorem use_after_free_violated : ∃ st op, Reach (fun _ _ => True) st ∧ Fair st op ∧ step st op = some .ub := by
  have r1 : Reach (fun _ _ => True) _ := reach_run .init (l := [.find 0 7 .vfs, .alloc 0 true, .insert 0]) (r := .none) (by simp [Fair]) rfl
  have r2 : Reach (fun _ _ => True) _ := r1.step (op := .drop 0 0 7 .vfs) (List.Mem.head _) trivial rfl
  have r3 : Reach (fun _ _ => True) _ := reach_run r2 (l := [.find 1 7 .vfs, .remove 0]) (r := .none) (by simp [Fair]) rfl
  exact ⟨_, .drop 1 0 7 .vfs, r3, List.Mem.head _, rfl⟩

/-- Two files, both subsystems: a reachable state that meets the hypotheses, with a call in the middle. -/
example : ∃ st, Reach Quiet st ∧ Holds st .procmgnt 7 ∧ Holds st .vfs 8 ∧ (st.pc 2).on 9 ∧ (st.held.filter (fun x => x.2.1 == 7)).length = 2 := by
  have q0 : ∀ t i s, Quiet init (.find t i s) := fun t i s t' h => h
  have r1 : Reach Quiet _ := Reach.init.step (op := .find 0 7 .procmgnt) trivial (q0 _ _ _) rfl
  have r2 : Reach Quiet _ := r1.step (op := .alloc 0 true) trivial trivial rfl
  have r3 : Reach Quiet _ := r2.step (op := .insert 0) trivial trivial rfl
  have idle3 : ∀ (f : Nat → Pc) (a b : Pc), (∀ t, f t = .idle) → ∀ t, set (set (set f 0 a) 0 b) 0 .idle t = .idle := by
    intro f a b h t
    unfold set
    split
    · rfl
    · exact h t
  have r4 : Reach Quiet _ := r3.step (op := .find 1 7 .procmgnt) trivial (fun t h => by
    have e := idle3 init.pc (.missed 7 .procmgnt) (.made 0 7 .procmgnt) (fun _ => rfl) t
    exact absurd h (by show ¬ Pc.on 7 (set (set (set init.pc 0 (.missed 7 .procmgnt)) 0 (.made 0 7 .procmgnt)) 0 .idle t); rw [e]; exact id)) rfl
  have r5 : Reach Quiet _ := r4.step (op := .find 1 8 .vfs) trivial (fun t h => by
    have e := idle3 init.pc (.missed 7 .procmgnt) (.made 0 7 .procmgnt) (fun _ => rfl) t
    exact absurd h (by show ¬ Pc.on 8 (set (set (set init.pc 0 (.missed 7 .procmgnt)) 0 (.made 0 7 .procmgnt)) 0 .idle t); rw [e]; exact id)) rfl
  have r6 : Reach Quiet _ := r5.step (op := .find 2 9 .vfs) trivial (fun t h => by
    have e := idle3 init.pc (.missed 7 .procmgnt) (.made 0 7 .procmgnt) (fun _ => rfl) t
    revert h
    show ¬ Pc.on 9 (set (set (set (set init.pc 0 (.missed 7 .procmgnt)) 0 (.made 0 7 .procmgnt)) 0 .idle) 1 (.missed 8 .vfs) t)
    intro h
    rcases set_on h with ⟨_, h⟩ | ⟨_, h⟩
    · exact absurd h (by simp [Pc.on])
    · rw [e] at h; exact h) rfl
  have r7 : Reach Quiet _ := r6.step (op := .alloc 1 true) trivial trivial rfl
  have r8 : Reach Quiet _ := r7.step (op := .insert 1) trivial trivial rfl
  exact ⟨_, r8, ⟨0, by decide⟩, ⟨1, by decide⟩, rfl, by decide⟩

/-! ### The users of the locks

The second part is about system calls as a whole; locks behave as the theorems above say: a lock is the list of the
references to it, and a call fails exactly if another subsystem has a reference. -/

/-- Who has a reference: a file handle (`hb->lf`), a process (`pi->elf`), or nobody any more. -/
inductive Tok | h (n : Nat) | p (n : Nat) | lost
deriving DecidableEq, Repr

def Tok.sub : Tok → Sub
  | .h _ => .vfs
  | _ => .procmgnt

/-- A process: its program, the parent whose memory it uses since `vfork`, the child it waits for since `vfork`
(`pi->elf`, `pi->vforked`, `curr->vfork_stopped`). -/
structure Proc where
  elf : Option Nat := none
  lender : Option Nat := none
  waits : Option Nat := none
deriving DecidableEq, Repr

/-- The references, the handles for files that are open for writing, and the processes. -/
structure Sys where
  locks : List (Tok × Nat)
  hdl : Nat → Option Nat
  proc : Nat → Option Proc
  next : Nat

/-- One process, without a program. -/
def Sys.init : Sys := ⟨[], fun _ => none, fun n => if n = 0 then some {} else none, 1⟩

/-- Where `execve` fails after it has locked the file, if it does: in `load_elf_headers` (kernel/elf.c:437-440), later in
`load_elf_program`, or in `setup_process`. -/
inductive Exec | headers | load | setup | done
deriving DecidableEq, Repr

inductive Call
  | openW (h i : Nat) (ok : Bool)
  | dup (h h' : Nat)
  | close (h : Nat)
  | truncate (i : Nat)
  | exec (p i : Nat) (e : Exec)
  | fork (p : Nat)
  | vfork (p : Nat)
  | exit (p : Nat)

/-- What a call returns: success, -ETXTBSY, another error. -/
inductive Res | ok | txtbsy | err
deriving DecidableEq, Repr

/-- `acquire_subsys_flock` fails with -ETXTBSY. -/
def busy (st : Sys) (s : Sub) (i : Nat) : Bool := st.locks.any (fun x => x.2 == i && x.1.sub != s)

/-- `ramfs_open` for writing (kernel/fs/ramfs/open.c.h:126-157) of an existing file, or of a new one whose directory entry
could be added; `ok` is whether `ramfs_open_int` succeeds. -/
def openW (st : Sys) (h i : Nat) (ok : Bool) : Option (Sys × Res) :=
  if st.hdl h ≠ none then none
  else if busy st .vfs i then some (st, .txtbsy)
  else if ok then some ({ st with locks := (.h h, i) :: st.locks, hdl := set st.hdl h (some i) }, .ok)
  else some (st, .err)

/-- `vfs_dup` (kernel/vfs/vfs.c:74-116). -/
def dup (st : Sys) (h h' : Nat) : Option (Sys × Res) :=
  if st.hdl h' ≠ none then none
  else
    match st.hdl h with
    | none => none
    | some i => some ({ st with locks := (.h h', i) :: st.locks, hdl := set st.hdl h' (some i) }, .ok)

/-- `vfs_close` (kernel/vfs/vfs.c:27-64). -/
def close (st : Sys) (h : Nat) : Option (Sys × Res) :=
  match st.hdl h with
  | none => none
  | some i => some ({ st with locks := st.locks.filter (fun x => x != (.h h, i)), hdl := set st.hdl h none }, .ok)

/-- `vfs_truncate_impl` (kernel/vfs/vfs.c:472-503): the lock is taken and released. -/
def truncate (st : Sys) (i : Nat) : Option (Sys × Res) :=
  if busy st .vfs i then some (st, .txtbsy) else some (st, .ok)

/-- The reference of a process to its program is released, unless it is the one of its parent (kernel/process.c:824-825,
kernel/exit.c:279-280). -/
def release (locks : List (Tok × Nat)) (p : Nat) (P : Proc) : List (Tok × Nat) :=
  match P.lender, P.elf with
  | none, some i => locks.filter (fun x => x != (.p p, i))
  | _, _ => locks

/-- The parent of a child made by `vfork` goes on (`unblock_parent_of_vforked_child`). -/
def wake (proc : Nat → Option Proc) (q : Option Nat) : Nat → Option Proc :=
  match q with
  | none => proc
  | some q => fun n => if n = q then (proc n).map (fun P => { P with waits := none }) else proc n

/-- `load_elf_program` (kernel/elf.c:413-590) and `do_execve_int` (kernel/execve.c:335-377) with `setup_process`
(kernel/process.c:760-868). -/
def exec (st : Sys) (p i : Nat) (e : Exec) : Option (Sys × Res) :=
  match st.proc p with
  | none => none
  | some P =>
    if P.waits ≠ none then none
    else if busy st .procmgnt i then some (st, .txtbsy)
    else
      match e with
      | .headers => some ({ st with locks := (.lost, i) :: st.locks }, .err)
      | .load => some (st, .err)
      | .setup => some ({ st with locks := (.lost, i) :: st.locks }, .err)
      | .done => some ({ st with locks := (.p p, i) :: release st.locks p P,
                                 proc := set (wake st.proc P.lender) p (some { elf := some i }) }, .ok)

/-- `allocate_new_process` for `fork` (kernel/process.c:192-292, line 252), when nothing fails. -/
def fork (st : Sys) (p : Nat) : Option (Sys × Res) :=
  match st.proc p with
  | none => none
  | some P =>
    if P.waits ≠ none then none
    else some ({ st with locks := (match P.elf with | none => st.locks | some i => (.p st.next, i) :: st.locks),
                         proc := set st.proc st.next (some { elf := P.elf }), next := st.next + 1 }, .ok)

/-- `allocate_new_process` for `vfork`, and the parent is stopped (kernel/fork.c:110-121). -/
def vfork (st : Sys) (p : Nat) : Option (Sys × Res) :=
  match st.proc p with
  | none => none
  | some P =>
    if P.waits ≠ none then none
    else some ({ st with proc := set (set st.proc p (some { P with waits := some st.next })) st.next (some { elf := P.elf, lender := some p }),
                         next := st.next + 1 }, .ok)

/-- `terminate_process` (kernel/exit.c:250-290). A process that waits for a child of `vfork` cannot be killed
(kernel/signal.c). -/
def exit (st : Sys) (p : Nat) : Option (Sys × Res) :=
  match st.proc p with
  | none => none
  | some P =>
    if P.waits ≠ none then none
    else some ({ st with locks := release st.locks p P, proc := set (wake st.proc P.lender) p none }, .ok)

/-- One system call. `none`: it cannot be made. -/
def call (st : Sys) : Call → Option (Sys × Res)
  | .openW h i ok => openW st h i ok
  | .dup h h' => dup st h h'
  | .close h => close st h
  | .truncate i => truncate st i
  | .exec p i e => exec st p i e
  | .fork p => fork st p
  | .vfork p => vfork st p
  | .exit p => exit st p

/-- Calls, one after the other. -/
inductive Calls (P : Call → Prop) : Sys → Sys → Prop
  | nil {st} : Calls P st st
  | snoc {st st' st'' c r} : Calls P st st' → P c → call st' c = some (st'', r) → Calls P st st''

/-- Not one of the failures of `execve` that lose the lock. -/
def NoLoss : Call → Prop
  | .exec _ _ e => e ≠ .headers ∧ e ≠ .setup
  | _ => True

/-! ### Specification -/

/-- Some handle for the file is open for writing. -/
def Written (st : Sys) (i : Nat) : Prop := ∃ h, st.hdl h = some i

/-- Some process executes the file. -/
def Runs (st : Sys) (i : Nat) : Prop := ∃ p P, st.proc p = some P ∧ P.elf = some i

/-! ### Invariant -/

structure SInv (st : Sys) : Prop where
  h : ∀ n i, (Tok.h n, i) ∈ st.locks ↔ st.hdl n = some i
  p : ∀ n i, (Tok.p n, i) ∈ st.locks ↔ ∃ P, st.proc n = some P ∧ P.elf = some i ∧ P.lender = none
  lost : ∀ i, (Tok.lost, i) ∉ st.locks
  excl : ∀ a b i, (a, i) ∈ st.locks → (b, i) ∈ st.locks → a.sub = b.sub
  fresh : ∀ n, st.next ≤ n → st.proc n = none
  lend : ∀ n P q, st.proc n = some P → P.lender = some q → q < n ∧ ∃ Q, st.proc q = some Q ∧ Q.elf = P.elf ∧ Q.waits = some n

theorem SInv.runs {st : Sys} (h : SInv st) : ∀ (n : Nat) {i : Nat} {P : Proc}, st.proc n = some P → P.elf = some i → ∃ m, (Tok.p m, i) ∈ st.locks := by
  intro n
  induction n using Nat.strongRecOn with
  | ind n ih =>
    intro i P hp he
    cases hl : P.lender with
    | none => exact ⟨n, (h.p n i).mpr ⟨P, hp, he, hl⟩⟩
    | some q =>
      obtain ⟨hq, Q, h1, h2, _⟩ := h.lend n P q hp hl
      exact ih q hq h1 (by rw [h2]; exact he)

theorem SInv.runs_iff {st : Sys} (h : SInv st) (i : Nat) : Runs st i ↔ ∃ m, (Tok.p m, i) ∈ st.locks := by
  constructor
  · rintro ⟨n, P, h1, h2⟩
    exact h.runs n h1 h2
  · rintro ⟨m, hm⟩
    obtain ⟨P, h1, h2, _⟩ := (h.p m i).mp hm
    exact ⟨m, P, h1, h2⟩

theorem busy_iff {st : Sys} {s : Sub} {i : Nat} : busy st s i = true ↔ ∃ a, (a, i) ∈ st.locks ∧ a.sub ≠ s := by
  unfold busy
  rw [List.any_eq_true]
  constructor
  · rintro ⟨⟨a, j⟩, hm, hx⟩
    simp at hx
    exact ⟨a, hx.1 ▸ hm, hx.2⟩
  · rintro ⟨a, hm, hx⟩
    exact ⟨_, hm, by simp [hx]⟩

theorem SInv.busy_vfs {st : Sys} (h : SInv st) (i : Nat) : busy st .vfs i = true ↔ Runs st i := by
  rw [busy_iff, h.runs_iff]
  constructor
  · rintro ⟨a, hm, hx⟩
    cases a with
    | h n => exact absurd rfl hx
    | p n => exact ⟨n, hm⟩
    | lost => exact absurd hm (h.lost i)
  · rintro ⟨m, hm⟩
    exact ⟨_, hm, by simp [Tok.sub]⟩

theorem SInv.busy_proc {st : Sys} (h : SInv st) (i : Nat) : busy st .procmgnt i = true ↔ Written st i := by
  rw [busy_iff]
  constructor
  · rintro ⟨a, hm, hx⟩
    cases a with
    | h n => exact ⟨n, (h.h n i).mp hm⟩
    | p n => exact absurd rfl hx
    | lost => exact absurd hm (h.lost i)
  · rintro ⟨m, hm⟩
    exact ⟨_, (h.h m i).mpr hm, by simp [Tok.sub]⟩

theorem sinv_init : SInv .init := by
  have hp : ∀ n P, Sys.init.proc n = some P → P = {} := by
    intro n P h
    unfold Sys.init at h
    dsimp only at h
    split at h
    · cases h; rfl
    · cases h
  constructor
  · intro n i; simp [Sys.init]
  · intro n i
    constructor
    · intro h; cases h
    · rintro ⟨P, h1, h2, _⟩
      rw [hp n P h1] at h2
      cases h2
  · intro i h; cases h
  · intro a b i h; cases h
  · intro n hn
    have : 1 ≤ n := hn
    unfold Sys.init
    exact if_neg (by omega)
  · intro n P q h1 h2
    rw [hp n P h1] at h2
    cases h2

section
variable {st : Sys}

/-- A handle is added. -/
theorem sinv_addh (h : SInv st) {n i : Nat} (hn : st.hdl n = none) (hr : ¬ Runs st i) :
    SInv { st with locks := (.h n, i) :: st.locks, hdl := set st.hdl n (some i) } := by
  constructor <;> dsimp only
  · intro m j
    rw [List.mem_cons, h.h m j]
    by_cases e : m = n
    · subst e
      rw [set_eq, hn]
      simp only [reduceCtorEq, or_false, Prod.mk.injEq, true_and, Option.some.injEq]
      exact ⟨Eq.symm, Eq.symm⟩
    · rw [set_ne e]
      simp [e]
  · intro m j
    rw [List.mem_cons, ← h.p m j]
    simp
  · intro j hm
    rcases List.mem_cons.mp hm with e | hm
    · cases e
    · exact h.lost j hm
  · intro a b j ha hb
    have key : ∀ c, (c, i) ∈ st.locks → c.sub = .vfs := by
      intro c hc
      cases c with
      | h _ => rfl
      | p m => exact absurd ((h.runs_iff i).mpr ⟨m, hc⟩) hr
      | lost => exact absurd hc (h.lost i)
    rcases List.mem_cons.mp ha with e | ha <;> rcases List.mem_cons.mp hb with e' | hb
    · cases e; cases e'; rfl
    · cases e; exact (key b hb).symm
    · cases e'; exact key a ha
    · exact h.excl a b j ha hb
  · exact h.fresh
  · exact h.lend

theorem sinv_close (h : SInv st) {n i : Nat} (hn : st.hdl n = some i) :
    SInv { st with locks := st.locks.filter (fun x => x != (.h n, i)), hdl := set st.hdl n none } := by
  constructor <;> dsimp only
  · intro m j
    rw [List.mem_filter, h.h m j]
    by_cases e : m = n
    · subst e
      rw [set_eq, hn]
      simp
      exact fun e => e.symm
    · rw [set_ne e]
      simp [e]
  · intro m j
    rw [List.mem_filter, ← h.p m j]
    simp
  · intro j hm
    exact h.lost j (List.mem_filter.mp hm).1
  · intro a b j ha hb
    exact h.excl a b j (List.mem_filter.mp ha).1 (List.mem_filter.mp hb).1
  · exact h.fresh
  · exact h.lend

theorem mem_release {locks : List (Tok × Nat)} {p : Nat} {P : Proc} {x : Tok × Nat} :
    x ∈ release locks p P ↔ x ∈ locks ∧ ¬ (P.lender = none ∧ ∃ i, P.elf = some i ∧ x = (.p p, i)) := by
  unfold release
  cases hl : P.lender with
  | some q => simp
  | none =>
    cases he : P.elf with
    | none => simp
    | some i => simp [List.mem_filter]

theorem wake_some {proc : Nat → Option Proc} {q : Option Nat} {n : Nat} {P : Proc} (h : wake proc q n = some P) :
    ∃ P', proc n = some P' ∧ P.elf = P'.elf ∧ P.lender = P'.lender ∧ (q ≠ some n → P = P') := by
  unfold wake at h
  cases q with
  | none => exact ⟨P, h, rfl, rfl, fun _ => rfl⟩
  | some q =>
    dsimp only at h
    split at h
    · next e =>
      obtain ⟨P', h1, h2⟩ := Option.map_eq_some_iff.mp h
      exact ⟨P', h1, by rw [← h2], by rw [← h2], fun hne => absurd (by rw [e]) hne⟩
    · exact ⟨P, h, rfl, rfl, fun _ => rfl⟩

theorem wake_of {proc : Nat → Option Proc} {q : Option Nat} {n : Nat} {P' : Proc} (h : proc n = some P') :
    ∃ P, wake proc q n = some P ∧ P.elf = P'.elf ∧ P.lender = P'.lender ∧ (q ≠ some n → P = P') := by
  unfold wake
  cases q with
  | none => exact ⟨P', h, rfl, rfl, fun _ => rfl⟩
  | some q =>
    dsimp only
    split
    · next e =>
      rw [h]
      exact ⟨_, rfl, rfl, rfl, fun hne => absurd (by rw [e]) hne⟩
    · exact ⟨P', h, rfl, rfl, fun _ => rfl⟩

theorem wake_none {proc : Nat → Option Proc} {q : Option Nat} {n : Nat} (h : proc n = none) : wake proc q n = none := by
  unfold wake
  cases q with
  | none => exact h
  | some q =>
    dsimp only
    rw [h]
    split <;> rfl

/-- The process leaves its program: for another one, or for good. -/
theorem sinv_leave (h : SInv st) {p : Nat} {P : Proc} (hp : st.proc p = some P) (hw : P.waits = none) {new : Option Nat}
    (hr : ∀ i, new = some i → ¬ Written st i) :
    SInv { st with
      locks := (match new with | none => [] | some i => [(Tok.p p, i)]) ++ release st.locks p P,
      proc := set (wake st.proc P.lender) p (match new with | none => none | some i => some { elf := some i }) } := by
  have hmem : ∀ x : Tok × Nat, x ∈ (match new with | none => [] | some i => [(Tok.p p, i)]) ++ release st.locks p P ↔
      (∃ i, new = some i ∧ x = (.p p, i)) ∨ x ∈ release st.locks p P := by
    intro x
    cases new with
    | none => simp
    | some i => simp
  have hsub : ∀ x ∈ release st.locks p P, x ∈ st.locks := fun x hx => (mem_release.mp hx).1
  constructor <;> dsimp only
  · intro m j
    rw [hmem, mem_release, h.h m j]
    simp
  · intro m j
    rw [hmem, mem_release, h.p m j]
    by_cases e : m = p
    · subst e
      rw [set_eq]
      cases new with
      | none =>
        constructor
        · rintro (⟨_, e, _⟩ | ⟨⟨P', h1, h2, h3⟩, hn⟩)
          · cases e
          · rw [hp] at h1
            cases h1
            exact absurd ⟨h3, j, h2, rfl⟩ hn
        · rintro ⟨P', h1, _⟩
          cases h1
      | some i =>
        constructor
        · rintro (⟨_, e, e2⟩ | ⟨⟨P', h1, h2, h3⟩, hn⟩)
          · cases e
            cases e2
            exact ⟨_, rfl, rfl, rfl⟩
          · rw [hp] at h1
            cases h1
            exact absurd ⟨h3, j, h2, rfl⟩ hn
        · rintro ⟨P', h1, h2, h3⟩
          cases h1
          cases h2
          exact Or.inl ⟨_, rfl, rfl⟩
    · rw [set_ne e]
      constructor
      · rintro (⟨_, _, e2⟩ | ⟨⟨P', h1, h2, h3⟩, _⟩)
        · cases e2
          exact absurd rfl e
        · obtain ⟨P2, k1, k2, k3, _⟩ := wake_of (q := P.lender) h1
          exact ⟨P2, k1, by rw [k2]; exact h2, by rw [k3]; exact h3⟩
      · rintro ⟨P', h1, h2, h3⟩
        obtain ⟨P2, k1, k2, k3, _⟩ := wake_some h1
        refine Or.inr ⟨⟨P2, k1, by rw [← k2]; exact h2, by rw [← k3]; exact h3⟩, ?_⟩
        rintro ⟨_, _, _, e2⟩
        cases e2
        exact e rfl
  · intro j hm
    rcases (hmem _).mp hm with ⟨_, _, e⟩ | hm
    · cases e
    · exact h.lost j (hsub _ hm)
  · intro a b j ha hb
    have key : ∀ c i, new = some i → (c, i) ∈ st.locks → c.sub = .procmgnt := by
      intro c i hi hc
      cases c with
      | h m => exact absurd ⟨m, (h.h m i).mp hc⟩ (hr i hi)
      | p m => rfl
      | lost => rfl
    rcases (hmem _).mp ha with ⟨i, e, e2⟩ | ha <;> rcases (hmem _).mp hb with ⟨i', e', e2'⟩ | hb
    · cases e2; cases e2'; rfl
    · cases e2; exact (key b _ e (hsub _ hb)).symm
    · cases e2'; exact key a _ e' (hsub _ ha)
    · exact h.excl a b j (hsub _ ha) (hsub _ hb)
  · intro n hn
    have e : n ≠ p := fun e => by
      have := h.fresh n hn
      rw [e, hp] at this
      cases this
    rw [set_ne e]
    exact wake_none (h.fresh n hn)
  · intro n N q hN hq
    have e : n ≠ p := fun e => by
      rw [e, set_eq] at hN
      cases new with
      | none => cases hN
      | some i =>
        cases hN
        cases hq
    rw [set_ne e] at hN
    obtain ⟨N', k1, k2, k3, _⟩ := wake_some hN
    obtain ⟨hlt, Q, l1, l2, l3⟩ := h.lend n N' q k1 (by rw [← k3]; exact hq)
    refine ⟨hlt, ?_⟩
    have hqp : q ≠ p := fun x => by
      subst x
      rw [hp] at l1
      cases l1
      rw [hw] at l3
      cases l3
    have hlq : P.lender ≠ some q := fun x => by
      obtain ⟨_, Q', m1, _, m3⟩ := h.lend p P q hp x
      rw [l1] at m1
      cases m1
      rw [l3] at m3
      cases m3
      exact e rfl
    obtain ⟨Q2, m1, m2, _, m4⟩ := wake_of (q := P.lender) l1
    refine ⟨Q2, by rw [set_ne hqp]; exact m1, by rw [m2, l2, k2], ?_⟩
    rw [m4 hlq]
    exact l3

theorem sinv_fork (h : SInv st) {p : Nat} {P : Proc} (hp : st.proc p = some P) :
    SInv { st with locks := (match P.elf with | none => st.locks | some i => (.p st.next, i) :: st.locks),
                   proc := set st.proc st.next (some { elf := P.elf }), next := st.next + 1 } := by
  have hmem : ∀ x : Tok × Nat, x ∈ (match P.elf with | none => st.locks | some i => (Tok.p st.next, i) :: st.locks) ↔
      (∃ i, P.elf = some i ∧ x = (.p st.next, i)) ∨ x ∈ st.locks := by
    intro x
    cases P.elf with
    | none => simp
    | some i => simp
  have hnx : st.proc st.next = none := h.fresh _ (Nat.le_refl _)
  constructor <;> dsimp only
  · intro m j
    rw [hmem, h.h m j]
    simp
  · intro m j
    rw [hmem, h.p m j]
    by_cases e : m = st.next
    · subst e
      rw [set_eq]
      constructor
      · rintro (⟨_, e, e2⟩ | ⟨P', h1, _⟩)
        · cases e2
          exact ⟨_, rfl, e, rfl⟩
        · rw [hnx] at h1
          cases h1
      · rintro ⟨P', h1, h2, _⟩
        cases h1
        exact Or.inl ⟨j, h2, rfl⟩
    · rw [set_ne e]
      constructor
      · rintro (⟨_, _, e2⟩ | hx)
        · cases e2
          exact absurd rfl e
        · exact hx
      · exact Or.inr
  · intro j hm
    rcases (hmem _).mp hm with ⟨_, _, e⟩ | hm
    · cases e
    · exact h.lost j hm
  · intro a b j ha hb
    have key : ∀ c i, P.elf = some i → (c, i) ∈ st.locks → c.sub = .procmgnt := by
      intro c i hi hc
      obtain ⟨m, hm⟩ := h.runs p hp hi
      exact h.excl _ _ _ hc hm
    rcases (hmem _).mp ha with ⟨i, e, e2⟩ | ha <;> rcases (hmem _).mp hb with ⟨i', e', e2'⟩ | hb
    · cases e2; cases e2'; rfl
    · cases e2; exact (key b _ e hb).symm
    · cases e2'; exact key a _ e' ha
    · exact h.excl a b j ha hb
  · intro n hn
    rw [set_ne (by omega)]
    exact h.fresh n (by omega)
  · intro n N q hN hq
    have e : n ≠ st.next := fun e => by
      rw [e, set_eq] at hN
      cases hN
      cases hq
    rw [set_ne e] at hN
    obtain ⟨hlt, Q, l1, l2, l3⟩ := h.lend n N q hN hq
    have hqn : q ≠ st.next := fun x => by rw [x, hnx] at l1; cases l1
    exact ⟨hlt, Q, by rw [set_ne hqn]; exact l1, l2, l3⟩

theorem sinv_vfork (h : SInv st) {p : Nat} {P : Proc} (hp : st.proc p = some P) (hw : P.waits = none) :
    SInv { st with proc := set (set st.proc p (some { P with waits := some st.next })) st.next (some { elf := P.elf, lender := some p }),
                   next := st.next + 1 } := by
  have hnx : st.proc st.next = none := h.fresh _ (Nat.le_refl _)
  have hpn : p ≠ st.next := fun x => by rw [x, hnx] at hp; cases hp
  have hlt : p < st.next := by
    apply Nat.lt_of_not_le
    intro hle
    have := h.fresh p hle
    rw [hp] at this
    cases this
  constructor <;> dsimp only
  · exact h.h
  · intro m j
    rw [h.p m j]
    by_cases e : m = st.next
    · subst e
      rw [set_eq, hnx]
      constructor
      · rintro ⟨_, h1, _⟩
        cases h1
      · rintro ⟨_, h1, _, h3⟩
        cases h1
        cases h3
    · rw [set_ne e]
      by_cases e2 : m = p
      · subst e2
        rw [set_eq, hp]
        constructor
        · rintro ⟨P', h1, h2, h3⟩
          cases h1
          exact ⟨_, rfl, h2, h3⟩
        · rintro ⟨P', h1, h2, h3⟩
          cases h1
          exact ⟨_, rfl, h2, h3⟩
      · rw [set_ne e2]
  · exact h.lost
  · exact h.excl
  · intro n hn
    rw [set_ne (by omega), set_ne (by omega)]
    exact h.fresh n (by omega)
  · intro n N q hN hq
    by_cases e : n = st.next
    · subst e
      rw [set_eq] at hN
      cases hN
      cases hq
      exact ⟨hlt, { P with waits := some st.next }, by rw [set_ne hpn, set_eq], rfl, rfl⟩
    · rw [set_ne e] at hN
      have hN' : ∃ N', st.proc n = some N' ∧ N'.elf = N.elf ∧ N'.lender = N.lender := by
        by_cases e2 : n = p
        · subst e2
          rw [set_eq] at hN
          cases hN
          exact ⟨P, hp, rfl, rfl⟩
        · rw [set_ne e2] at hN
          exact ⟨N, hN, rfl, rfl⟩
      obtain ⟨N', k1, k2, k3⟩ := hN'
      obtain ⟨hl, Q, l1, l2, l3⟩ := h.lend n N' q k1 (by rw [k3]; exact hq)
      have hqn : q ≠ st.next := fun x => by rw [x, hnx] at l1; cases l1
      have hqp : q ≠ p := fun x => by
        subst x
        rw [hp] at l1
        cases l1
        rw [hw] at l3
        cases l3
      exact ⟨hl, Q, by rw [set_ne hqn, set_ne hqp]; exact l1, by rw [l2, k2], l3⟩

theorem sinv_call (h : SInv st) {c : Call} (hc : NoLoss c) {st' : Sys} {r : Res} (hs : call st c = some (st', r)) : SInv st' := by
  cases c with
  | openW n i ok =>
    change openW st n i ok = _ at hs
    unfold openW at hs
    split at hs
    · cases hs
    · next hn =>
      split at hs
      · cases hs; exact h
      · next hb =>
        split at hs
        · cases hs
          exact sinv_addh h (by simpa using hn) (fun hr => hb ((h.busy_vfs i).mpr hr))
        · cases hs; exact h
  | dup n n' =>
    change dup st n n' = _ at hs
    unfold dup at hs
    split at hs
    · cases hs
    · next hn =>
      cases hd : st.hdl n with
      | none => rw [hd] at hs; cases hs
      | some i =>
        rw [hd] at hs
        cases hs
        refine sinv_addh h (by simpa using hn) ?_
        intro hr
        obtain ⟨m, hm⟩ := (h.runs_iff i).mp hr
        have := h.excl _ _ _ hm ((h.h n i).mpr hd)
        cases this
  | close n =>
    change close st n = _ at hs
    unfold close at hs
    cases hd : st.hdl n with
    | none => rw [hd] at hs; cases hs
    | some i =>
      rw [hd] at hs
      cases hs
      exact sinv_close h hd
  | truncate i =>
    change truncate st i = _ at hs
    unfold truncate at hs
    split at hs <;> (cases hs; exact h)
  | exec p i e =>
    change exec st p i e = _ at hs
    unfold exec at hs
    cases hp : st.proc p with
    | none => rw [hp] at hs; cases hs
    | some P =>
      rw [hp] at hs
      dsimp only at hs
      split at hs
      · cases hs
      · next hw =>
        split at hs
        · cases hs; exact h
        · next hb =>
          cases e with
          | headers => exact absurd rfl hc.1
          | setup => exact absurd rfl hc.2
          | load => cases hs; exact h
          | done =>
            cases hs
            exact sinv_leave h hp (by simpa using hw) (new := some i) (fun j hj hwr => by
              cases hj
              exact hb ((h.busy_proc i).mpr hwr))
  | fork p =>
    change fork st p = _ at hs
    unfold fork at hs
    cases hp : st.proc p with
    | none => rw [hp] at hs; cases hs
    | some P =>
      rw [hp] at hs
      dsimp only at hs
      split at hs
      · cases hs
      · cases hs
        exact sinv_fork h hp
  | vfork p =>
    change vfork st p = _ at hs
    unfold vfork at hs
    cases hp : st.proc p with
    | none => rw [hp] at hs; cases hs
    | some P =>
      rw [hp] at hs
      dsimp only at hs
      split at hs
      · cases hs
      · next hw =>
        cases hs
        exact sinv_vfork h hp (by simpa using hw)
  | exit p =>
    change exit st p = _ at hs
    unfold exit at hs
    cases hp : st.proc p with
    | none => rw [hp] at hs; cases hs
    | some P =>
      rw [hp] at hs
      dsimp only at hs
      split at hs
      · cases hs
      · next hw =>
        cases hs
        exact sinv_leave h hp (by simpa using hw) (new := none) (fun j hj => by cases hj)

end

theorem calls_inv {st : Sys} (h : Calls NoLoss .init st) : SInv st := by
  generalize hi : Sys.init = s0 at h
  induction h with
  | nil => rw [← hi]; exact sinv_init
  | snoc _ hc hs ih => exact sinv_call ih hc hs

/-! ### Theorems about the system calls -/

/-- C76: a file is never open for writing and executed at the same time. -/
theorem text_never_written_partial {st : Sys} (h : Calls NoLoss .init st) (i : Nat) : ¬ (Written st i ∧ Runs st i) := by
  rintro ⟨hw, hr⟩
  have hi := calls_inv h
  obtain ⟨m, hm⟩ := (hi.runs_iff i).mp hr
  obtain ⟨n, hn⟩ := hw
  have := hi.excl _ _ _ hm ((hi.h n i).mpr hn)
  cases this

/-- C76: `open` for writing answers -ETXTBSY exactly if some process executes the file; else it succeeds, or fails for
another reason. -/
theorem open_answer_partial {st : Sys} (h : Calls NoLoss .init st) {n i : Nat} {ok : Bool} {st' : Sys} {r : Res}
    (hs : call st (.openW n i ok) = some (st', r)) :
    (r = .txtbsy ↔ Runs st i) ∧ (r = .ok ↔ ok = true ∧ ¬ Runs st i) ∧ (r = .ok → Written st' i) ∧ (r ≠ .ok → st' = st) := by
  have hi := calls_inv h
  have hb := hi.busy_vfs i
  change openW st n i ok = _ at hs
  unfold openW at hs
  split at hs
  · cases hs
  · split at hs
    · next hx =>
      cases hs
      have := hb.mp hx
      simp [this]
    · next hx =>
      have hnr : ¬ Runs st i := fun hr => hx (hb.mpr hr)
      split at hs
      · next ho =>
        cases hs
        refine ⟨by simp [hnr], by simp [hnr, ho], fun _ => ⟨n, ?_⟩, by simp⟩
        dsimp only
        rw [set_eq]
      · next ho =>
        cases hs
        simp [hnr, ho]

/-- C76: so does `truncate`. -/
theorem truncate_answer_partial {st : Sys} (h : Calls NoLoss .init st) {i : Nat} {st' : Sys} {r : Res}
    (hs : call st (.truncate i) = some (st', r)) : (r = .txtbsy ↔ Runs st i) ∧ (r = .ok ↔ ¬ Runs st i) ∧ st' = st := by
  have hb := (calls_inv h).busy_vfs i
  change truncate st i = _ at hs
  unfold truncate at hs
  split at hs
  · next hx =>
    cases hs
    simp [hb.mp hx]
  · next hx =>
    cases hs
    have hnr : ¬ Runs st i := fun hr => hx (hb.mpr hr)
    simp [hnr]

/-- C76: `execve` answers -ETXTBSY exactly if some handle for the file is open for writing; if it succeeds, the process
executes the file. -/
theorem exec_answer_partial {st : Sys} (h : Calls NoLoss .init st) {p i : Nat} {e : Exec} {st' : Sys} {r : Res}
    (hs : call st (.exec p i e) = some (st', r)) :
    (r = .txtbsy ↔ Written st i) ∧ (r = .ok ↔ e = .done ∧ ¬ Written st i) ∧
    (r = .ok → ∃ P, st'.proc p = some P ∧ P.elf = some i) := by
  have hb := (calls_inv h).busy_proc i
  change exec st p i e = _ at hs
  unfold exec at hs
  cases hp : st.proc p with
  | none => rw [hp] at hs; cases hs
  | some P =>
    rw [hp] at hs
    dsimp only at hs
    split at hs
    · cases hs
    · split at hs
      · next hx =>
        cases hs
        simp [hb.mp hx]
      · next hx =>
        have hnr : ¬ Written st i := fun hr => hx (hb.mpr hr)
        cases e with
        | done =>
          cases hs
          refine ⟨by simp [hnr], by simp [hnr], fun _ => ⟨{ elf := some i }, ?_, rfl⟩⟩
          dsimp only
          rw [set_eq]
        | headers => cases hs; simp [hnr]
        | load => cases hs; simp [hnr]
        | setup => cases hs; simp [hnr]

/-- C76: a handle is a handle for the file it was opened for until it is closed, and a process executes its program until
it executes another or exits: no call of another process changes that. -/
theorem users_stay {st : Sys} {c : Call} {st' : Sys} {r : Res} (hs : call st c = some (st', r)) :
    (∀ n i, st.hdl n = some i → c ≠ .close n → st'.hdl n = some i) ∧
    (∀ n P, st.proc n = some P → n < st.next → (∀ i, c ≠ .exec n i .done) → c ≠ .exit n →
      ∃ P', st'.proc n = some P' ∧ P'.elf = P.elf) := by
  cases c with
  | openW m i ok =>
    change openW st m i ok = _ at hs
    unfold openW at hs
    split at hs
    · cases hs
    · next hn =>
      split at hs
      · cases hs; exact ⟨fun n i h _ => h, fun n P h _ _ _ => ⟨P, h, rfl⟩⟩
      · split at hs
        · cases hs
          refine ⟨fun n j h _ => ?_, fun n P h _ _ _ => ⟨P, h, rfl⟩⟩
          dsimp only
          rw [set_ne (fun e => hn (by rw [← e, h]; simp))]
          exact h
        · cases hs; exact ⟨fun n i h _ => h, fun n P h _ _ _ => ⟨P, h, rfl⟩⟩
  | dup m m' =>
    change dup st m m' = _ at hs
    unfold dup at hs
    split at hs
    · cases hs
    · next hn =>
      cases hd : st.hdl m with
      | none => rw [hd] at hs; cases hs
      | some i =>
        rw [hd] at hs
        cases hs
        refine ⟨fun n j h _ => ?_, fun n P h _ _ _ => ⟨P, h, rfl⟩⟩
        dsimp only
        rw [set_ne (fun e => hn (by rw [← e, h]; simp))]
        exact h
  | close m =>
    change close st m = _ at hs
    unfold close at hs
    cases hd : st.hdl m with
    | none => rw [hd] at hs; cases hs
    | some i =>
      rw [hd] at hs
      cases hs
      refine ⟨fun n j h hne => ?_, fun n P h _ _ _ => ⟨P, h, rfl⟩⟩
      dsimp only
      rw [set_ne (fun e => hne (by rw [e]))]
      exact h
  | truncate i =>
    change truncate st i = _ at hs
    unfold truncate at hs
    split at hs <;> (cases hs; exact ⟨fun n i h _ => h, fun n P h _ _ _ => ⟨P, h, rfl⟩⟩)
  | exec p i e =>
    change exec st p i e = _ at hs
    unfold exec at hs
    cases hp : st.proc p with
    | none => rw [hp] at hs; cases hs
    | some Q =>
      rw [hp] at hs
      dsimp only at hs
      split at hs
      · cases hs
      · split at hs
        · cases hs; exact ⟨fun n i h _ => h, fun n P h _ _ _ => ⟨P, h, rfl⟩⟩
        · cases e with
          | headers => cases hs; exact ⟨fun n i h _ => h, fun n P h _ _ _ => ⟨P, h, rfl⟩⟩
          | load => cases hs; exact ⟨fun n i h _ => h, fun n P h _ _ _ => ⟨P, h, rfl⟩⟩
          | setup => cases hs; exact ⟨fun n i h _ => h, fun n P h _ _ _ => ⟨P, h, rfl⟩⟩
          | done =>
            cases hs
            refine ⟨fun n i h _ => h, fun n P h _ hx _ => ?_⟩
            dsimp only
            rw [set_ne (fun e => hx i (by rw [e]))]
            obtain ⟨P', k1, k2, _⟩ := wake_of (q := Q.lender) h
            exact ⟨P', k1, k2⟩
  | fork p =>
    change fork st p = _ at hs
    unfold fork at hs
    cases hp : st.proc p with
    | none => rw [hp] at hs; cases hs
    | some Q =>
      rw [hp] at hs
      dsimp only at hs
      split at hs
      · cases hs
      · cases hs
        refine ⟨fun n i h _ => h, fun n P h hl _ _ => ⟨P, ?_, rfl⟩⟩
        dsimp only
        rw [set_ne (by omega)]
        exact h
  | vfork p =>
    change vfork st p = _ at hs
    unfold vfork at hs
    cases hp : st.proc p with
    | none => rw [hp] at hs; cases hs
    | some Q =>
      rw [hp] at hs
      dsimp only at hs
      split at hs
      · cases hs
      · cases hs
        refine ⟨fun n i h _ => h, fun n P h hl _ _ => ?_⟩
        dsimp only
        rw [set_ne (by omega)]
        by_cases e : n = p
        · subst e
          rw [set_eq]
          rw [hp] at h
          cases h
          exact ⟨_, rfl, rfl⟩
        · rw [set_ne e]
          exact ⟨P, h, rfl⟩
  | exit p =>
    change exit st p = _ at hs
    unfold exit at hs
    cases hp : st.proc p with
    | none => rw [hp] at hs; cases hs
    | some Q =>
      rw [hp] at hs
      dsimp only at hs
      split at hs
      · cases hs
      · cases hs
        refine ⟨fun n i h _ => h, fun n P h _ _ hx => ?_⟩
        dsimp only
        rw [set_ne (fun e => hx (by rw [e]))]
        obtain ⟨P', k1, k2, _⟩ := wake_of (q := Q.lender) h
        exact ⟨P', k1, k2⟩

/-- C76: a child of `fork` or `vfork` executes the program of its parent, a process that has exited nothing, and a closed
handle is a handle for no file. -/
theorem users_change {st st' : Sys} {r : Res} :
    (∀ p P, st.proc p = some P → (call st (.fork p) = some (st', r) ∨ call st (.vfork p) = some (st', r)) →
      ∃ C, st'.proc st.next = some C ∧ C.elf = P.elf) ∧
    (∀ p, call st (.exit p) = some (st', r) → st'.proc p = none) ∧
    (∀ n, call st (.close n) = some (st', r) → st'.hdl n = none) ∧
    (∀ n n', call st (.dup n n') = some (st', r) → st'.hdl n' = st.hdl n ∧ st.hdl n ≠ none) := by
  refine ⟨?_, ?_, ?_, ?_⟩
  · rintro p P hp (hs | hs)
    · change fork st p = _ at hs
      unfold fork at hs
      rw [hp] at hs
      dsimp only at hs
      split at hs
      · cases hs
      · cases hs
        exact ⟨{ elf := P.elf }, by dsimp only; rw [set_eq], rfl⟩
    · change vfork st p = _ at hs
      unfold vfork at hs
      rw [hp] at hs
      dsimp only at hs
      split at hs
      · cases hs
      · cases hs
        exact ⟨{ elf := P.elf, lender := some p }, by dsimp only; rw [set_eq], rfl⟩
  · intro p hs
    change exit st p = _ at hs
    unfold exit at hs
    cases hp : st.proc p with
    | none => rw [hp] at hs; cases hs
    | some Q =>
      rw [hp] at hs
      dsimp only at hs
      split at hs
      · cases hs
      · cases hs
        dsimp only
        rw [set_eq]
  · intro n hs
    change close st n = _ at hs
    unfold close at hs
    cases hd : st.hdl n with
    | none => rw [hd] at hs; cases hs
    | some i =>
      rw [hd] at hs
      cases hs
      dsimp only
      rw [set_eq]
  · intro n n' hs
    change dup st n n' = _ at hs
    unfold dup at hs
    split at hs
    · cases hs
    · cases hd : st.hdl n with
      | none => rw [hd] at hs; cases hs
      | some i =>
        rw [hd] at hs
        cases hs
        dsimp only
        rw [set_eq]
        simp

/-- A lost reference stays. -/
theorem lost_stays {st st' : Sys} {i : Nat} (h : Calls (fun _ => True) st st') (hl : (Tok.lost, i) ∈ st.locks) : (Tok.lost, i) ∈ st'.locks := by
  induction h with
  | nil => exact hl
  | @snoc st1 st2 c r _ _ hs ih =>
    cases c with
    | openW m j ok =>
      change openW _ m j ok = _ at hs
      unfold openW at hs
      split at hs
      · cases hs
      · split at hs
        · cases hs; exact ih
        · split at hs
          · cases hs; exact List.mem_cons_of_mem _ ih
          · cases hs; exact ih
    | dup m m' =>
      change dup _ m m' = _ at hs
      unfold dup at hs
      split at hs
      · cases hs
      · split at hs
        · cases hs
        · cases hs; exact List.mem_cons_of_mem _ ih
    | close m =>
      change close _ m = _ at hs
      unfold close at hs
      split at hs
      · cases hs
      · cases hs
        exact List.mem_filter.mpr ⟨ih, by simp⟩
    | truncate j =>
      change truncate _ j = _ at hs
      unfold truncate at hs
      split at hs <;> (cases hs; exact ih)
    | exec p j e =>
      change exec _ p j e = _ at hs
      unfold exec at hs
      split at hs
      · cases hs
      · split at hs
        · cases hs
        · split at hs
          · cases hs; exact ih
          · cases e with
            | headers => cases hs; exact List.mem_cons_of_mem _ ih
            | load => cases hs; exact ih
            | setup => cases hs; exact List.mem_cons_of_mem _ ih
            | done =>
              cases hs
              refine List.mem_cons_of_mem _ (mem_release.mpr ⟨ih, ?_⟩)
              rintro ⟨_, _, _, e⟩
              cases e
    | fork p =>
      change fork _ p = _ at hs
      unfold fork at hs
      split at hs
      · cases hs
      · next P _ =>
        split at hs
        · cases hs
        · cases hs
          dsimp only
          cases P.elf with
          | none => exact ih
          | some j => exact List.mem_cons_of_mem _ ih
    | vfork p =>
      change vfork _ p = _ at hs
      unfold vfork at hs
      split at hs
      · cases hs
      · split at hs
        · cases hs
        · cases hs; exact ih
    | exit p =>
      change exit _ p = _ at hs
      unfold exit at hs
      split at hs
      · cases hs
      · split at hs
        · cases hs
        · cases hs
          refine mem_release.mpr ⟨ih, ?_⟩
          rintro ⟨_, _, _, e⟩
          cases e

/-- C76 fails: once a file that is not an ELF program, such as a script, has been executed, it can never be opened for
writing again, although nobody executes it (kernel/elf.c:437-440 returns with the lock; `execve_handle_script` then goes on
with the interpreter). The same follows when `setup_process` fails. -/
theorem script_violated (e : Exec) (he : e = .headers ∨ e = .setup) : ∃ st r, call .init (.exec 0 7 e) = some (st, r) ∧ r = .err ∧ ¬ Runs st 7 ∧
    ∀ st', Calls (fun _ => True) st st' → ∀ n ok st'' r', call st' (.openW n 7 ok) = some (st'', r') → r' = .txtbsy := by
  refine ⟨{ Sys.init with locks := [(.lost, 7)] }, .err, ?_, rfl, ?_, ?_⟩
  · rcases he with rfl | rfl <;> rfl
  · rintro ⟨p, P, h1, h2⟩
    change (if p = 0 then some ({} : Proc) else none) = some P at h1
    split at h1
    · cases h1; cases h2
    · cases h1
  · intro st' hc n ok st'' r' hs
    have hl := lost_stays hc (List.Mem.head _)
    have hb : busy st' .vfs 7 = true := busy_iff.mpr ⟨_, hl, by simp [Tok.sub]⟩
    change openW st' n 7 ok = _ at hs
    unfold openW at hs
    split at hs
    · cases hs
    · first
        | (rw [if_pos hb] at hs; cases hs; rfl)
        | (cases hs; rfl)

/-- A history that meets the hypotheses: a process executes file 7, makes a child with `vfork` and one with `fork`, and
exits; the file cannot be opened for writing before the other is gone too. -/
example : ∃ st, Calls NoLoss .init st ∧ Runs st 7 ∧ (call st (.openW 0 7 true)).map (·.2) = some .txtbsy ∧
    ∃ st', Calls NoLoss st st' ∧ (call st' (.openW 0 7 true)).map (·.2) = some .ok := by
  let s1 : Option (Sys × Res) := call .init (.exec 0 7 .done)
  have h1 : s1 = some (s1.get rfl) := rfl
  let s2 : Option (Sys × Res) := call (s1.get rfl).1 (.vfork 0)
  have h2 : s2 = some (s2.get rfl) := rfl
  let s3 : Option (Sys × Res) := call (s2.get rfl).1 (.fork 1)
  have h3 : s3 = some (s3.get rfl) := rfl
  let s4 : Option (Sys × Res) := call (s3.get rfl).1 (.exit 1)
  have h4 : s4 = some (s4.get rfl) := rfl
  let s5 : Option (Sys × Res) := call (s4.get rfl).1 (.exit 0)
  have h5 : s5 = some (s5.get rfl) := rfl
  let s6 : Option (Sys × Res) := call (s5.get rfl).1 (.exit 2)
  have h6 : s6 = some (s6.get rfl) := rfl
  exact ⟨(s5.get rfl).1, (((((Calls.nil (P := NoLoss)).snoc (c := .exec 0 7 .done) ⟨by decide, by decide⟩ h1).snoc (c := .vfork 0) trivial h2).snoc
      (c := .fork 1) trivial h3).snoc (c := .exit 1) trivial h4).snoc (c := .exit 0) trivial h5,
    ⟨2, { elf := some 7 }, rfl, rfl⟩, rfl, (s6.get rfl).1, (Calls.nil (P := NoLoss)).snoc (c := .exit 2) trivial h6, rfl⟩

end Verif.Flock
