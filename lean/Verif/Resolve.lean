/-!
# Path resolution (kernel/vfs/vfs_resolve.c.h)

Properties C47, C79, C80, C81.

The resolver is modelled with everything it does to the rest of the kernel: it appends to a log each lock and unlock of a file
system, each change of a reference count, each directory lookup. Other tasks may change directories, symbolic links and mount
points while it runs: what a lookup answers is a function of the log so far, which is arbitrary.

Not modelled: the sizes of the buffers for symbolic links (`sym_paths`, all `MAX_PATH`), and the kind `VFS_DIR` of the mount
points' hosts (asserted by the code).
-/
namespace Verif.Resolve

abbrev FsId := Nat
abbrev Ino := Nat
abbrev Bytes := List UInt8

/-- `enum vfs_entry_type` (include/tilck/kernel/fs/vfs_base.h); `VFS_NONE` is the absence of an entry. -/
inductive Kind | file | dir | symlink | dev
deriving DecidableEq, Repr

/-- What the resolver does to the rest of the kernel. `lock`/`unlock` carry the mode (true: exclusive). `link d s e ok` is
history: a symbolic link found on file system `d` has been followed, the walk of its target began on `s` and ended on `e`, and
succeeded if `ok`. -/
inductive Ev
  | lock (f : FsId) (ex : Bool)
  | unlock (f : FsId) (ex : Bool)
  | retain (f : FsId)
  | release (f : FsId)
  | retainI (f : FsId) (i : Ino)
  | releaseI (f : FsId) (i : Ino)
  | retainMp (f : FsId)
  | releaseMp (f : FsId)
  | lookup (f : FsId) (i : Ino) (name : Bytes)
  | getRoot (f : FsId)
  | readlink (f : FsId) (i : Ino)
  | link (d s e : FsId) (ok : Bool)
deriving DecidableEq, Repr

abbrev Log := List Ev

/-- `struct vfs_path` (include/tilck/kernel/fs/vfs_base.h): the file system, the inode with its type (none: no such entry), the
directory that was searched, and the text from `last_comp` to the end of the string it points into. -/
structure VPath where
  fs : FsId
  ent : Option (Ino × Kind)
  dir : Ino
  lc : Bytes
deriving DecidableEq, Repr

/-- What the resolver sees of the rest of the kernel: `mp_get_root()`; the root directory of each file system (`get_entry` with
no inode); `get_entry`; `readlink` (`error e` stands for the negative return code `-(e + 1)`); `mp_get_at_nolock` (vfs_mp.c.h:29-38); the mount point of a
file system, found by `mp_get_retained_mp_of` (vfs_mp.c.h:52-70; a file system other than the root one is only reached through
its mount point, and mount points are never removed: `mp_remove` is not implemented); the current directory. The answers of
`lookup`, `target`, `mountAt` may change with time. -/
structure World where
  rootFs : FsId
  rootIno : FsId → Ino
  lookup : Log → FsId → Ino → Bytes → Option (Ino × Kind)
  target : Log → FsId → Ino → Except Nat Bytes
  mountAt : Log → FsId → Ino → Option FsId
  mountOf : FsId → FsId × Ino
  cwd : VPath

def ENOENT : Int := 2
def ENOTDIR : Int := 20
def ELOOP : Int := 40

/-- `'/'`. -/
def slash : UInt8 := 47
/-- `'.'`. -/
def dot : UInt8 := 46

/-- Return code, `struct vfs_path`, log. -/
abbrev Res := Int × VPath × Log

/-- `if (p->fs_path.inode) vfs_retain_inode_at(p)` (vfs_resolve.c.h:40-41). -/
def retainIno (p : VPath) : Log :=
  match p.ent with
  | none => []
  | some (i, _) => [.retainI p.fs i]

/-- `if (p->fs_path.inode) vfs_release_inode_at(p)` (vfs_resolve.c.h:59-60, 161-162, 413-414). -/
def releaseIno (p : VPath) : Log :=
  match p.ent with
  | none => []
  | some (i, _) => [.releaseI p.fs i]

/-- `get_locked_retained_root` (vfs_resolve.c.h:93-99). -/
def rootPath (w : World) : VPath := ⟨w.rootFs, some (w.rootIno w.rootFs, .dir), w.rootIno w.rootFs, []⟩

def rootLog (w : World) (ex : Bool) : Log := [.retain w.rootFs, .lock w.rootFs ex, .getRoot w.rootFs]

/-- `path - pc` bytes from `pc`, where both point into the same string: the component between them. -/
def compOf (lc path : Bytes) : Bytes := lc.take (lc.length - path.length)

/-- `vfs_get_entry` (vfs.h:257-265) on an inode or on none, which stands for the root directory (as in ramfs.c:124-134). -/
def getEntryAt (w : World) (l : Log) (p : VPath) (name : Bytes) : VPath × Log :=
  match p.ent with
  | none => ({ p with ent := some (w.rootIno p.fs, .dir), dir := w.rootIno p.fs }, l ++ [.getRoot p.fs])
  | some (i, _) => ({ p with ent := w.lookup l p.fs i name, dir := i }, l ++ [.lookup p.fs i name])

/-- `__vfs_resolve_get_entry` (vfs_resolve.c.h:66-91), called with the frame's own inode. -/
def enterMount (w : World) (ex : Bool) (p : VPath) (l : Log) : VPath × Log :=
  match p.ent with
  | none => (p, l)
  | some (i, _) =>
    match w.mountAt l p.fs i with
    | none => (p, l)
    | some t =>
      ({ p with fs := t, ent := some (w.rootIno t, .dir), dir := w.rootIno t },
       l ++ [.retain t, .unlock p.fs ex, .release p.fs, .lock t ex, .getRoot t])

/-- `vfs_is_path_dotdot` (vfs_resolve.c.h:171-175). -/
def isDotdot (p : Bytes) : Bool :=
  p.getD 0 0 == dot && p.getD 1 0 == dot && (p.getD 2 0 == slash || p.getD 2 0 == 0)

/-- `vfs_handle_cross_fs_dotdot` (vfs_resolve.c.h:177-244): the new path if the component has been completely handled, and the
log. -/
def crossDotdot (w : World) (ex : Bool) (top : VPath) (l : Log) : Option VPath × Log :=
  if isDotdot top.lc then
    if top.ent.map Prod.fst ≠ some (w.rootIno top.fs) then (none, l ++ [.getRoot top.fs])
    else if top.fs = w.rootFs then (some top, l ++ [.getRoot top.fs])
    else
      let h := w.mountOf top.fs
      let l1 := l ++ [.getRoot top.fs, .retainMp top.fs, .retain h.1, .unlock top.fs ex, .lock h.1 ex, .release top.fs,
        .releaseMp top.fs]
      (some { top with fs := h.1, ent := w.lookup l1 h.1 h.2 [dot, dot], dir := h.2 }, l1 ++ [.lookup h.1 h.2 [dot, dot]])
  else (none, l)

/-- A way to follow a symbolic link: the frame, the link's path, the log. -/
abbrev Follow := VPath → VPath → Log → Res

/-- `vfs_resolve_get_entry` (vfs_resolve.c.h:246-277); `path` is the text from the end of the component. -/
def getEntry (w : World) (ex : Bool) (follow : Follow) (top : VPath) (path : Bytes) (resSl : Bool) (l : Log) : Res :=
  match crossDotdot w ex top l with
  | (some np, l1) => (0, np, l1)
  | (none, l1) =>
    if top.lc.length = path.length then (0, top, l1)
    else
      let e := getEntryAt w l1 top (compOf top.lc path)
      let m := enterMount w ex e.1 e.2
      if m.1.ent.map Prod.snd = some .symlink ∧ resSl then follow top m.1 m.2
      else (0, m.1, m.2)

/-- `vfs_resolve_have_to_stop` (vfs_resolve.c.h:279-304): the return code if the walk stops. `path` begins at a slash. -/
def haveToStop (path : Bytes) (np : VPath) : Option Int :=
  match np.ent with
  | none => some (if path.getD 1 0 ≠ 0 then -ENOENT else 0)
  | some (_, k) => if path.getD 1 0 = 0 then some (if k ≠ .dir then -ENOTDIR else 0) else none

/-- `vfs_resolve_stack_replace_top` (vfs_resolve.c.h:50-64): what it logs. -/
def replaceLog (top np : VPath) : Log := releaseIno top ++ retainIno np

/-- The loop of `__vfs_resolve` (vfs_resolve.c.h:321-341) from a position in the path. The result is the return code and the
frame that is left on top of the stack. -/
def walk (w : World) (ex : Bool) (follow : Follow) (resLast : Bool) : VPath → Bytes → Log → Res
  | top, [], l =>
    let r := getEntry w ex follow top [] resLast l
    (r.1, r.2.1, r.2.2 ++ replaceLog top r.2.1)
  | top, c :: rest, l =>
    if c ≠ slash then walk w ex follow resLast top rest l
    else
      let r := getEntry w ex follow top (c :: rest) true l
      if r.1 ≠ 0 then (r.1, top, r.2.2)
      else
        match haveToStop (c :: rest) r.2.1 with
        | some rc => (rc, r.2.1, r.2.2 ++ replaceLog top r.2.1)
        | none => walk w ex follow resLast { r.2.1 with lc := rest } rest (r.2.2 ++ replaceLog top r.2.1)

/-- `__vfs_resolve` (vfs_resolve.c.h:306-342); the frame's `lc` is the whole path. -/
def resolveStr (w : World) (ex : Bool) (follow : Follow) (top : VPath) (resLast : Bool) (l : Log) : Res :=
  if top.lc = [] then (-ENOENT, top, l) else walk w ex follow resLast top top.lc l

/-- `vfs_resolve_symlink` (vfs_resolve.c.h:104-169). `sub` is `__vfs_resolve` one frame deeper, none if the stack is full. -/
def followLink (w : World) (ex : Bool) (sub : Option (VPath → Bool → Log → Res)) : Follow := fun top np l =>
  match np.ent with
  | none => (0, np, l)
  | some (i, _) =>
    match w.target l np.fs i with
    | .error e => (-(e + 1 : Nat), np, l ++ [.readlink np.fs i])
    | .ok tgt =>
      let abs := tgt.getD 0 0 == slash
      let rp := if abs then rootPath w else top
      let l2 := l ++ [.readlink np.fs i] ++ (if abs then [.unlock top.fs ex, .release top.fs] ++ rootLog w ex else [])
      match sub with
      | none => (-ELOOP, np, l2 ++ [.link top.fs rp.fs rp.fs false])
      | some f =>
        let r := f { rp with lc := tgt } true (l2 ++ retainIno rp)
        let np' := { r.2.1 with lc := np.lc }
        (r.1, np', r.2.2 ++ releaseIno np' ++ (if np'.fs ≠ rp.fs then [.unlock np'.fs ex] else []) ++
          [.link top.fs rp.fs np'.fs (r.1 == 0)])

/-- `__vfs_resolve` with room for that many more frames on the stack. -/
def resolveAt (w : World) (ex : Bool) : Nat → VPath → Bool → Log → Res
  | 0 => resolveStr w ex (followLink w ex none)
  | n + 1 => resolveStr w ex (followLink w ex (some (resolveAt w ex n)))

/-- `for (; rp->last_comp > path && *--rp->last_comp == '/'; ) { }` (vfs_resolve.c.h:424): the text before `last_comp`,
reversed, and the text from it. -/
def backUp : Bytes → Bytes → Bytes
  | [], lc => lc
  | c :: r, lc => if c = slash then backUp r (c :: lc) else c :: lc

/-- Lines 423-425. -/
def fixLast (path lc : Bytes) : Bytes :=
  if lc.getD 0 0 = slash then backUp (path.take (path.length - lc.length)).reverse lc else lc

/-- The first frame of `vfs_resolve`: lines 397-400. -/
def startPath (w : World) (path : Bytes) : VPath := if path.getD 0 0 = slash then rootPath w else w.cwd

def startLog (w : World) (ex : Bool) (path : Bytes) : Log :=
  if path.getD 0 0 = slash then rootLog w ex else [.retain w.cwd.fs, .lock w.cwd.fs ex]

/-- `vfs_resolve` (vfs_resolve.c.h:371-436): `RESOLVE_STACK_SIZE` is 4 (kernel/fs/fs_int.h:15). On failure the `struct
vfs_path` is zeroed; here it is left as it was, nobody reads it. `l0` is what the task has done before. -/
def resolve (w : World) (l0 : Log) (path : Bytes) (ex resLast : Bool) : Res :=
  let sp := startPath w path
  let r := resolveAt w ex 3 { sp with lc := path } resLast (l0 ++ startLog w ex path ++ retainIno sp)
  let l := r.2.2 ++ releaseIno r.2.1
  if r.1 = 0 then (0, { r.2.1 with lc := fixLast path r.2.1.lc }, l)
  else (r.1, r.2.1, l ++ [.unlock r.2.1.fs ex, .release r.2.1.fs])

/-! The callers. -/

def EXDEV : Int := 18
def EBUSY : Int := 16
def EPERM : Int := 1
def EMFILE : Int := 24

/-- `__vfs_path_funcs_wrapper` (vfs.c:280-301): all the calls on one path (open, stat, mkdir, rmdir, unlink, truncate, symlink,
readlink, chown, chmod, utimens). `func` is the file system's function, on what was found. -/
def pathCall (w : World) (path : Bytes) (ex resLast : Bool) (func : VPath → Int) : Int × Log :=
  let r := resolve w [] path ex resLast
  if r.1 < 0 then (r.1, r.2.2) else (func r.2.1, r.2.2 ++ [.unlock r.2.1.fs ex, .release r.2.1.fs])

/-- `vfs_rename_or_link` (vfs.c:655-736). -/
def renameOrLink (w : World) (old new : Bytes) (func : VPath → VPath → Int) : Int × Log :=
  let o := resolve w [] old false false
  if o.1 < 0 then (o.1, o.2.2)
  else if o.2.1.ent = none then (-ENOENT, o.2.2 ++ [.unlock o.2.1.fs false, .release o.2.1.fs])
  else
    let n := resolve w (o.2.2 ++ retainIno o.2.1 ++ [.unlock o.2.1.fs false]) new true false
    if n.1 < 0 then (n.1, n.2.2 ++ releaseIno o.2.1 ++ [.release o.2.1.fs])
    else if n.2.1.fs ≠ o.2.1.fs then
      (-EXDEV, n.2.2 ++ [.unlock n.2.1.fs true, .release n.2.1.fs] ++ releaseIno o.2.1 ++ [.release o.2.1.fs])
    else
      (func o.2.1 n.2.1, n.2.2 ++ [.release o.2.1.fs] ++ releaseIno o.2.1 ++
        [.unlock o.2.1.fs true, .release o.2.1.fs])

/-- `mp_add` (vfs_mp.c.h:72-148): `dup` tells whether the file system `t` is already mounted somewhere (line 111), `full`
whether the table has no free slot. The mutex of the table is not modelled. -/
def mpAdd (w : World) (t : FsId) (path : Bytes) (dup full : Bool) : Int × Log :=
  let r := resolve w [] path false true
  if r.1 ≠ 0 then (r.1, r.2.2)
  else
    match r.2.1.ent with
    | none => (-ENOTDIR, r.2.2 ++ [.unlock r.2.1.fs false, .release r.2.1.fs])
    | some (i, k) =>
      if k ≠ .dir then (-ENOTDIR, r.2.2 ++ [.unlock r.2.1.fs false, .release r.2.1.fs])
      else
        let l1 := r.2.2 ++ retainIno r.2.1 ++ [.unlock r.2.1.fs false]
        if (w.mountAt l1 r.2.1.fs i).isSome then (-EBUSY, l1 ++ releaseIno r.2.1)
        else if dup then (-EPERM, l1 ++ releaseIno r.2.1)
        else if full then (-EMFILE, l1 ++ releaseIno r.2.1 ++ [.release r.2.1.fs])
        else (0, l1 ++ [.retain t])

/-- `RAMFS_ENTRY_MAX_LEN` (kernel/fs/ramfs/ramfs_int.h:45-51) on i386: 256 minus 12 bytes of tree node, 8 of list node, 4 of
pointer and 1 of length. -/
def ramfsNameMax : Nat := 256 - 12 - 8 - 4 - 1

/-- The copy of the name in `ramfs_dir_get_entry_by_name` (kernel/fs/ramfs/dir_entries.c.h:103-105), which every lookup on ramfs
does: `memcpy(buf, name, len); buf[len] = 0`. None: it writes past the end of `buf`. -/
def nameCopy (name : Bytes) : Option Bytes := if name.length + 1 ≤ ramfsNameMax then some (name ++ [0]) else none

/-! ## Specification: locks and references (C47)

What a task holds: the file system it has locked, with the mode; the references to file systems and to inodes. -/

structure Held where
  locked : Option (FsId × Bool)
  refs : List FsId
  inos : List (FsId × Ino)
  mps : List FsId
deriving DecidableEq, Repr

def Held.empty : Held := ⟨none, [], [], []⟩

/-- The rules: at most one file system is locked at a time, and only one that is referenced; what is unlocked is locked, in
that mode; what is released is held, and a locked file system keeps a reference; directories and links are read under the lock of
their file system. None: a rule is broken. -/
def Held.step (h : Held) : Ev → Option Held
  | .lock f ex => if h.locked = none ∧ f ∈ h.refs then some { h with locked := some (f, ex) } else none
  | .unlock f ex => if h.locked = some (f, ex) then some { h with locked := none } else none
  | .retain f => some { h with refs := f :: h.refs }
  | .release f =>
    if f ∈ h.refs ∧ (h.locked.map Prod.fst = some f → f ∈ h.refs.erase f) then some { h with refs := h.refs.erase f }
    else none
  | .retainI f i => some { h with inos := (f, i) :: h.inos }
  | .releaseI f i => if (f, i) ∈ h.inos then some { h with inos := h.inos.erase (f, i) } else none
  | .retainMp f => some { h with mps := f :: h.mps }
  | .releaseMp f => if f ∈ h.mps then some { h with mps := h.mps.erase f } else none
  | .lookup f _ _ => if h.locked.map Prod.fst = some f then some h else none
  | .getRoot f => if h.locked.map Prod.fst = some f then some h else none
  | .readlink f _ => if h.locked.map Prod.fst = some f then some h else none
  | .link _ _ _ _ => some h

def Held.run : Held → Log → Option Held
  | h, [] => some h
  | h, e :: l =>
    match h.step e with
    | none => none
    | some h' => h'.run l

/-- No symbolic link that has been followed led to another file system than the one its walk began on, nor, if the walk
failed, began on another one than the link's own. -/
def NoCross (l : Log) : Prop := ∀ d s e ok, Ev.link d s e ok ∈ l → s = e ∧ (ok = false → d = s)

/-! ## Specification: what a path means (C79)

A fixed tree of directories with symbolic links and mounted file systems, and what a path denotes in it, component by
component. No text positions, no locks. -/

structure Tree where
  rootFs : FsId
  rootIno : FsId → Ino
  lookup : FsId → Ino → Bytes → Option (Ino × Kind)
  target : FsId → Ino → Bytes
  mountAt : FsId → Ino → Option FsId
  mountOf : FsId → FsId × Ino
  cwdFs : FsId
  cwdIno : Ino

/-- The kernel over a tree that nobody changes. -/
def Tree.world (t : Tree) : World where
  rootFs := t.rootFs
  rootIno := t.rootIno
  lookup := fun _ => t.lookup
  target := fun _ f i => .ok (t.target f i)
  mountAt := fun _ => t.mountAt
  mountOf := t.mountOf
  cwd := ⟨t.cwdFs, some (t.cwdIno, .dir), t.cwdIno, []⟩

/-- What a path denotes: an error, in particular `notDir` (`ENOTDIR`) if something else than a directory is used as one;
something that exists; or a place where it could be created: a
directory and a name. -/
inductive Den
  | err (e : Int)
  | notDir
  | found (f : FsId) (i : Ino) (k : Kind)
  | missing (f : FsId) (dir : Ino) (name : Bytes)
deriving DecidableEq, Repr

/-- The components of a path: the maximal pieces without slashes, empty ones dropped. -/
def pieces : Bytes → List Bytes
  | [] => [[]]
  | c :: p =>
    if c = 47 then [] :: pieces p
    else
      match pieces p with
      | [] => [[c]]
      | x :: xs => (c :: x) :: xs

def components (p : Bytes) : List Bytes := (pieces p).filter (fun x => x ≠ [])

def isAbsolute (p : Bytes) : Bool := p.head? == some 47
def endsWithSlash (p : Bytes) : Bool := p.getLast? == some 47

/-- One component from a directory: `..` at the root of a mounted file system leads out of it, at the root of all stays there;
a mount point is replaced by the root of what is mounted there. -/
def Tree.child (t : Tree) (f : FsId) (i : Ino) (name : Bytes) : Den :=
  if name = [46, 46] ∧ i = t.rootIno f then
    if f = t.rootFs then .found f i .dir
    else
      match t.lookup (t.mountOf f).1 (t.mountOf f).2 [46, 46] with
      | none => .missing (t.mountOf f).1 (t.mountOf f).2 name
      | some (j, k) => .found (t.mountOf f).1 j k
  else
    match t.lookup f i name with
    | none => .missing f i name
    | some (j, k) =>
      match t.mountAt f j with
      | none => .found f j k
      | some g => .found g (t.rootIno g) .dir

/-- The value of a symbolic link: `val f i tgt` is what the path `tgt` denotes from directory `i` of `f`. Only a link found by its
name is one. -/
def Tree.deref (t : Tree) (val : FsId → Ino → Bytes → Den) (f : FsId) (i : Ino) : Den → Den
  | .found g j .symlink => val f i (t.target g j)
  | d => d

/-- The components from a directory. All links are followed, the last one only if `follow`; what is not last, or is followed by
a slash, must be a directory. -/
def Tree.go (t : Tree) (val : FsId → Ino → Bytes → Den) (follow slashEnd : Bool) : FsId → Ino → List Bytes → Den
  | f, i, [] => .found f i .dir
  | f, i, [c] =>
    let d := t.child f i c
    let d := if follow || slashEnd then t.deref val f i d else d
    match d with
    | .found g j k => if slashEnd && decide (k ≠ .dir) then .err 20 else .found g j k
    | d => d
  | f, i, c :: c' :: cs =>
    match t.deref val f i (t.child f i c) with
    | .err e => .err e
    | .notDir => .notDir
    | .missing _ _ _ => .err 2
    | .found g j k => if k = .dir then t.go val follow slashEnd g j (c' :: cs) else .notDir

/-- What a path denotes from a directory, if at most `n` links may be nested. -/
def Tree.den (t : Tree) : Nat → Bool → FsId → Ino → Bytes → Den
  | n, follow, f, i, p =>
    if p = [] then .err 2
    else
      let val := match n with
        | 0 => fun _ _ _ => Den.err 40
        | n + 1 => t.den n true
      if isAbsolute p then t.go val follow (endsWithSlash p) t.rootFs (t.rootIno t.rootFs) (components p)
      else t.go val follow (endsWithSlash p) f i (components p)

/-- The result of a resolution is what the path denotes (about the name of what is missing see `resolve_creates_partial`). -/
def Den.Is (d : Den) (r : Res) : Prop :=
  match d with
  | .err e => r.1 = -e ∧ r.1 ≠ 0
  | .notDir => r.1 = -20
  | .found f i k => r.1 = 0 ∧ r.2.1.fs = f ∧ r.2.1.ent = some (i, k)
  | .missing f dir _ => r.1 = 0 ∧ r.2.1.fs = f ∧ r.2.1.ent = none ∧ r.2.1.dir = dir

/-- Text that can be a path here: no zero byte, and no two slashes at the end. -/
def PathText (p : Bytes) : Prop := (0 : UInt8) ∉ p ∧ ∀ q, p ≠ q ++ [47, 47]

/-- A tree: the mount points' directories have a parent; symbolic links hold paths; what is mounted has a directory as
root. -/
structure Tree.OK (t : Tree) : Prop where
  up : ∀ f, f ≠ t.rootFs → ∃ j, t.lookup (t.mountOf f).1 (t.mountOf f).2 [46, 46] = some (j, .dir)
  links : ∀ f i, PathText (t.target f i)

/-! ## Proofs: locks and references -/

theorem run_cons (h : Held) (e : Ev) (l : Log) : h.run (e :: l) = (h.step e).bind (fun h' => h'.run l) := by
  conv => lhs; unfold Held.run
  cases h.step e <;> rfl

theorem run_append (h : Held) (a b : Log) : h.run (a ++ b) = (h.run a).bind (fun h' => h'.run b) := by
  induction a generalizing h with
  | nil => rfl
  | cons e a ih =>
    rw [List.cons_append, run_cons, run_cons]
    cases h.step e with
    | none => rfl
    | some h' => exact ih h'

/-- File system `f` is locked and referenced, on top of the references `b`; these inodes are referenced. -/
def At (b : List FsId) (ex : Bool) (l : Log) (f : FsId) (s : List (FsId × Ino)) : Prop :=
  Held.empty.run l = some ⟨some (f, ex), f :: b, s, []⟩

theorem At.app {b ex l f s x g t} (h : At b ex l f s)
    (hx : Held.run ⟨some (f, ex), f :: b, s, []⟩ x = some ⟨some (g, ex), g :: b, t, []⟩) : At b ex (l ++ x) g t := by
  unfold At at h ⊢
  rw [run_append, h]
  exact hx

def inoStack (p : VPath) : List (FsId × Ino) :=
  match p.ent with
  | none => []
  | some (i, _) => [(p.fs, i)]

theorem retainIno_run (h : Held) (p : VPath) : h.run (retainIno p) = some { h with inos := inoStack p ++ h.inos } := by
  unfold retainIno inoStack
  cases p.ent with
  | none => rfl
  | some x => rfl

theorem releaseIno_run (a : Option (FsId × Bool)) (b : List FsId) (m : List FsId) (p : VPath) (s : List (FsId × Ino)) :
    Held.run ⟨a, b, inoStack p ++ s, m⟩ (releaseIno p) = some ⟨a, b, s, m⟩ := by
  unfold releaseIno inoStack
  cases p.ent with
  | none => rfl
  | some x => simp [Held.run, Held.step]

theorem At.retainI {b ex l f s} (h : At b ex l f s) (p : VPath) : At b ex (l ++ retainIno p) f (inoStack p ++ s) :=
  h.app (retainIno_run _ p)

theorem At.releaseI {b ex l f s} (p : VPath) (h : At b ex l f (inoStack p ++ s)) : At b ex (l ++ releaseIno p) f s :=
  h.app (releaseIno_run _ _ _ p s)

theorem At.replace {b ex l f s} (top np : VPath) (h : At b ex l f (inoStack top ++ s)) :
    At b ex (l ++ replaceLog top np) f (inoStack np ++ s) := by
  unfold replaceLog
  rw [← List.append_assoc]
  exact (h.releaseI top).retainI np

theorem At.link {b ex l f s} (d a e ok) (h : At b ex l f s) : At b ex (l ++ [.link d a e ok]) f s := h.app rfl

theorem NoCross.pre {l l' : Log} (h : NoCross l') (hp : l <+: l') : NoCross l :=
  fun d s e ok hm => h d s e ok (hp.subset hm)

/-! The log only grows. -/

theorem getEntryAt_pre (w : World) (l : Log) (p : VPath) (name : Bytes) : l <+: (getEntryAt w l p name).2 := by
  unfold getEntryAt
  split <;> exact List.prefix_append _ _

theorem enterMount_pre (w : World) (ex : Bool) (p : VPath) (l : Log) : l <+: (enterMount w ex p l).2 := by
  unfold enterMount
  split
  · exact List.prefix_rfl
  · split
    · exact List.prefix_rfl
    · exact List.prefix_append _ _

theorem crossDotdot_pre (w : World) (ex : Bool) (top : VPath) (l : Log) : l <+: (crossDotdot w ex top l).2 := by
  unfold crossDotdot
  split
  · split
    · exact List.prefix_append _ _
    · split
      · exact List.prefix_append _ _
      · dsimp only
        rw [List.append_assoc]
        exact List.prefix_append _ _
  · exact List.prefix_rfl

theorem getEntry_pre (w : World) (ex : Bool) (follow : Follow) (hf : ∀ a b l, l <+: (follow a b l).2.2) (top : VPath)
    (path : Bytes) (rs : Bool) (l : Log) : l <+: (getEntry w ex follow top path rs l).2.2 := by
  unfold getEntry
  have h1 := crossDotdot_pre w ex top l
  split
  · rename_i np l1 he
    rw [he] at h1
    exact h1
  · rename_i l1 he
    rw [he] at h1
    split
    · exact h1
    · have h2 := getEntryAt_pre w l1 top (compOf top.lc path)
      have h3 := enterMount_pre w ex (getEntryAt w l1 top (compOf top.lc path)).1
        (getEntryAt w l1 top (compOf top.lc path)).2
      dsimp only
      split
      · exact ((h1.trans h2).trans h3).trans (hf _ _ _)
      · exact (h1.trans h2).trans h3

theorem walk_pre (w : World) (ex : Bool) (follow : Follow) (hf : ∀ a b l, l <+: (follow a b l).2.2) (rl : Bool)
    (path : Bytes) : ∀ (top : VPath) (l : Log), l <+: (walk w ex follow rl top path l).2.2 := by
  induction path with
  | nil =>
    intro top l
    unfold walk
    exact (getEntry_pre w ex follow hf top [] rl l).trans (List.prefix_append _ _)
  | cons c rest ih =>
    intro top l
    unfold walk
    split
    · exact ih top l
    · have h := getEntry_pre w ex follow hf top (c :: rest) true l
      dsimp only
      split
      · exact h
      · split
        · exact h.trans (List.prefix_append _ _)
        · exact (h.trans (List.prefix_append _ _)).trans (ih _ _)

theorem resolveStr_pre (w : World) (ex : Bool) (follow : Follow) (hf : ∀ a b l, l <+: (follow a b l).2.2) (top : VPath)
    (rl : Bool) (l : Log) : l <+: (resolveStr w ex follow top rl l).2.2 := by
  unfold resolveStr
  split
  · exact List.prefix_rfl
  · exact walk_pre w ex follow hf rl _ _ _

theorem followLink_pre (w : World) (ex : Bool) (sub : Option (VPath → Bool → Log → Res))
    (hs : ∀ f, sub = some f → ∀ a b l, l <+: (f a b l).2.2) (top np : VPath) (l : Log) :
    l <+: (followLink w ex sub top np l).2.2 := by
  unfold followLink
  split
  · exact List.prefix_rfl
  · split
    · exact List.prefix_append _ _
    · split
      · simp only [List.append_assoc]
        exact List.prefix_append _ _
      · rename_i f
        simp only [List.append_assoc]
        refine List.IsPrefix.trans ?_ (List.prefix_append _ _)
        refine List.IsPrefix.trans ?_ (hs f rfl _ _ _)
        exact List.prefix_append _ _

theorem resolveAt_pre (w : World) (ex : Bool) (n : Nat) : ∀ (top : VPath) (rl : Bool) (l : Log),
    l <+: (resolveAt w ex n top rl l).2.2 := by
  induction n with
  | zero =>
    intro top rl l
    exact resolveStr_pre w ex _ (followLink_pre w ex none (fun f h => by cases h)) top rl l
  | succ n ih =>
    intro top rl l
    refine resolveStr_pre w ex _ (followLink_pre w ex _ (fun f h => ?_)) top rl l
    cases h
    exact ih

theorem getEntryAt_at {w : World} {b : List FsId} {ex : Bool} {l : Log} {p : VPath} {s} (name : Bytes) (h : At b ex l p.fs s) :
    At b ex (getEntryAt w l p name).2 (getEntryAt w l p name).1.fs s ∧ (getEntryAt w l p name).1.fs = p.fs := by
  unfold getEntryAt
  split
  · exact ⟨h.app (by simp [Held.run, Held.step]), rfl⟩
  · exact ⟨h.app (by simp [Held.run, Held.step]), rfl⟩

theorem enterMount_at {w : World} {b : List FsId} {ex : Bool} {l : Log} {p : VPath} {s} (h : At b ex l p.fs s) :
    At b ex (enterMount w ex p l).2 (enterMount w ex p l).1.fs s ∧
      ((enterMount w ex p l).1.ent.map Prod.snd = some .symlink → (enterMount w ex p l).1.fs = p.fs) := by
  unfold enterMount
  split
  · exact ⟨h, fun _ => rfl⟩
  · split
    · exact ⟨h, fun _ => rfl⟩
    · rename_i i k he t ht
      refine ⟨h.app ?_, fun hk => by cases hk⟩
      by_cases hp : t = p.fs
      · subst hp
        simp [Held.run, Held.step]
      · simp [Held.run, Held.step, hp]

theorem crossDotdot_at {w : World} {b : List FsId} {ex : Bool} {l : Log} {top : VPath} {s} (h : At b ex l top.fs s) :
    (∀ np, (crossDotdot w ex top l).1 = some np → At b ex (crossDotdot w ex top l).2 np.fs s) ∧
      ((crossDotdot w ex top l).1 = none → At b ex (crossDotdot w ex top l).2 top.fs s) := by
  unfold crossDotdot
  split
  · split
    · exact ⟨fun np hn => (by cases hn), fun _ => h.app (by simp [Held.run, Held.step])⟩
    · split
      · refine ⟨fun np hn => ?_, fun hn => by cases hn⟩
        cases hn
        exact h.app (by simp [Held.run, Held.step])
      · refine ⟨fun np hn => ?_, fun hn => by cases hn⟩
        cases hn
        dsimp only
        rw [List.append_assoc]
        refine h.app ?_
        by_cases hp : (w.mountOf top.fs).1 = top.fs
        · rw [hp]
          simp [Held.run, Held.step]
        · simp [Held.run, Held.step, hp]
  · exact ⟨fun np hn => (by cases hn), fun _ => h⟩

/-- What following a link must preserve. -/
def FollowOK (b : List FsId) (ex : Bool) (follow : Follow) : Prop :=
  ∀ top np l s, np.fs = top.fs → At b ex l top.fs (inoStack top ++ s) → NoCross (follow top np l).2.2 →
    At b ex (follow top np l).2.2 (follow top np l).2.1.fs (inoStack top ++ s) ∧
      ((follow top np l).1 ≠ 0 → (follow top np l).2.1.fs = top.fs)

theorem getEntry_at {w : World} {b : List FsId} {ex : Bool} {follow : Follow} (hf : FollowOK b ex follow) {top : VPath} {path : Bytes}
    {rs : Bool} {l : Log} {s} (h : At b ex l top.fs (inoStack top ++ s))
    (hn : NoCross (getEntry w ex follow top path rs l).2.2) :
    At b ex (getEntry w ex follow top path rs l).2.2 (getEntry w ex follow top path rs l).2.1.fs (inoStack top ++ s) ∧
      ((getEntry w ex follow top path rs l).1 ≠ 0 → (getEntry w ex follow top path rs l).2.1.fs = top.fs) := by
  unfold getEntry at hn ⊢
  have h1 := crossDotdot_at (w := w) h
  split
  · rename_i np l1 he
    rw [he] at h1
    exact ⟨h1.1 np rfl, fun hc => absurd rfl hc⟩
  · rename_i l1 he
    rw [he] at h1 hn
    have h1 := h1.2 rfl
    dsimp only at hn
    by_cases hl : top.lc.length = path.length
    · rw [if_pos hl]
      exact ⟨h1, fun hc => absurd rfl hc⟩
    · rw [if_neg hl] at hn ⊢
      dsimp only at hn ⊢
      obtain ⟨h2, h2f⟩ := getEntryAt_at (w := w) (compOf top.lc path) h1
      obtain ⟨h3, h3f⟩ := enterMount_at (w := w) h2
      generalize hm : enterMount w ex (getEntryAt w l1 top (compOf top.lc path)).1
        (getEntryAt w l1 top (compOf top.lc path)).2 = m at *
      by_cases hk : m.1.ent.map Prod.snd = some .symlink ∧ rs = true
      · rw [if_pos hk] at hn ⊢
        have hfs : m.1.fs = top.fs := (h3f hk.1).trans h2f
        rw [hfs] at h3
        exact hf top m.1 m.2 s hfs h3 hn
      · rw [if_neg hk] at hn ⊢
        exact ⟨h3, fun hc => absurd rfl hc⟩

theorem walk_at {w : World} {b : List FsId} {ex : Bool} {follow : Follow} (hf : FollowOK b ex follow)
    (hp : ∀ a b l, l <+: (follow a b l).2.2) (rl : Bool) (path : Bytes) :
    ∀ (top : VPath) (l : Log) (s), At b ex l top.fs (inoStack top ++ s) → NoCross (walk w ex follow rl top path l).2.2 →
      At b ex (walk w ex follow rl top path l).2.2 (walk w ex follow rl top path l).2.1.fs
        (inoStack (walk w ex follow rl top path l).2.1 ++ s) := by
  induction path with
  | nil =>
    intro top l s h hn
    unfold walk at hn ⊢
    have hg := getEntry_at (w := w) hf (path := []) (rs := rl) h (hn.pre (List.prefix_append _ _))
    exact hg.1.replace top _
  | cons c rest ih =>
    intro top l s h hn
    unfold walk at hn ⊢
    by_cases hc : c = slash
    case neg =>
      rw [if_pos hc] at hn ⊢
      exact ih top l s h hn
    rw [if_neg (not_not_intro hc)] at hn ⊢
    dsimp only at hn ⊢
    generalize hr : getEntry w ex follow top (c :: rest) true l = r at hn ⊢
    have hg : NoCross r.2.2 → At b ex r.2.2 r.2.1.fs (inoStack top ++ s) ∧ (r.1 ≠ 0 → r.2.1.fs = top.fs) := by
      rw [← hr]
      exact fun hn' => getEntry_at hf h hn'
    by_cases hrc : r.1 = 0
    case neg =>
      rw [if_pos hrc] at hn ⊢
      obtain ⟨ha, hb⟩ := hg hn
      rw [hb hrc] at ha
      exact ha
    rw [if_neg (not_not_intro hrc)] at hn ⊢
    cases hs : haveToStop (c :: rest) r.2.1 with
    | some rc =>
      rw [hs] at hn
      exact ((hg (hn.pre (List.prefix_append _ _))).1).replace top _
    | none =>
      rw [hs] at hn
      have hpre : r.2.2 ++ replaceLog top r.2.1 <+: (walk w ex follow rl { r.2.1 with lc := rest } rest
        (r.2.2 ++ replaceLog top r.2.1)).2.2 := walk_pre w ex follow hp rl rest _ _
      have hn1 := hn.pre hpre
      exact ih { r.2.1 with lc := rest } _ s
        (((hg (hn1.pre (List.prefix_append _ _))).1).replace top _) hn

theorem resolveStr_at {w : World} {b : List FsId} {ex : Bool} {follow : Follow} (hf : FollowOK b ex follow)
    (hp : ∀ a b l, l <+: (follow a b l).2.2) (rl : Bool) (top : VPath) (l : Log) (s)
    (h : At b ex l top.fs (inoStack top ++ s)) (hn : NoCross (resolveStr w ex follow top rl l).2.2) :
    At b ex (resolveStr w ex follow top rl l).2.2 (resolveStr w ex follow top rl l).2.1.fs
        (inoStack (resolveStr w ex follow top rl l).2.1 ++ s) := by
  unfold resolveStr at hn ⊢
  split
  · exact h
  · rename_i hc
    rw [if_neg hc] at hn
    exact walk_at hf hp rl _ _ _ _ h hn

theorem inoStack_lc (p : VPath) (x : Bytes) : inoStack { p with lc := x } = inoStack p := rfl
theorem releaseIno_lc (p : VPath) (x : Bytes) : releaseIno { p with lc := x } = releaseIno p := rfl

theorem followLink_at {w : World} {b : List FsId} {ex : Bool} {sub : Option (VPath → Bool → Log → Res)}
    (hs : ∀ f, sub = some f → (∀ a b l, l <+: (f a b l).2.2) ∧ ∀ top rl l s, At b ex l top.fs (inoStack top ++ s) →
      NoCross (f top rl l).2.2 → At b ex (f top rl l).2.2 (f top rl l).2.1.fs (inoStack (f top rl l).2.1 ++ s)) :
    FollowOK b ex (followLink w ex sub) := by
  intro top np l s hfs h hn
  have h1 : ∀ i, At b ex (l ++ [.readlink np.fs i]) top.fs (inoStack top ++ s) := by
    intro i
    refine h.app ?_
    rw [hfs]
    simp [Held.run, Held.step]
  unfold followLink at hn ⊢
  split
  · rename_i he
    rw [hfs]
    exact ⟨h, fun _ => rfl⟩
  · rename_i i k he
    rw [he] at hn
    dsimp only at hn
    cases ht : w.target l np.fs i with
    | error e =>
      rw [hfs]
      dsimp only
      rw [← hfs]
      exact ⟨by rw [hfs]; rw [← hfs]; exact hfs ▸ h1 i, fun _ => rfl⟩
    | ok tgt =>
      rw [ht] at hn
      dsimp only at hn ⊢
      have h2 : At b ex (l ++ [.readlink np.fs i] ++
          (if (tgt.getD 0 0 == slash) = true then [.unlock top.fs ex, .release top.fs] ++ rootLog w ex else []))
          (if (tgt.getD 0 0 == slash) = true then rootPath w else top).fs (inoStack top ++ s) := by
        split
        · refine (h1 i).app ?_
          simp [Held.run, Held.step, rootLog, rootPath]
        · rw [List.append_nil]
          exact h1 i
      generalize (if (tgt.getD 0 0 == slash) = true then rootPath w else top) = rp at *
      generalize l ++ [.readlink np.fs i] ++
          (if (tgt.getD 0 0 == slash) = true then [Ev.unlock top.fs ex, .release top.fs] ++ rootLog w ex else []) = l2 at *
      cases sub with
      | none =>
        dsimp only at hn ⊢
        have hc := hn top.fs rp.fs rp.fs false (by simp)
        rw [hfs, hc.2 rfl]
        exact ⟨h2.link _ _ _ _, fun _ => rfl⟩
      | some f =>
        dsimp only at hn ⊢
        have hr := (hs f rfl).2 { rp with lc := tgt } true (l2 ++ retainIno rp) (inoStack top ++ s) (h2.retainI rp)
        generalize hg : f { rp with lc := tgt } true (l2 ++ retainIno rp) = r at *
        have hc := hn top.fs rp.fs r.2.1.fs (r.1 == 0) (by simp)
        rw [if_neg (not_not_intro hc.1.symm)] at hn ⊢
        rw [List.append_nil] at hn ⊢
        have hr := hr (hn.pre ((List.prefix_append _ _).trans (List.prefix_append _ _)))
        have ha := (hr.releaseI r.2.1).link top.fs rp.fs r.2.1.fs (r.1 == 0)
        refine ⟨ha, fun hne => ?_⟩
        have : (r.1 == 0) = false := by simpa using hne
        rw [hc.2 this]
        exact hc.1.symm

theorem resolveAt_at (w : World) (b : List FsId) (ex : Bool) (n : Nat) : ∀ top rl l s, At b ex l top.fs (inoStack top ++ s) →
    NoCross (resolveAt w ex n top rl l).2.2 →
    At b ex (resolveAt w ex n top rl l).2.2 (resolveAt w ex n top rl l).2.1.fs
      (inoStack (resolveAt w ex n top rl l).2.1 ++ s) := by
  induction n with
  | zero =>
    intro top rl l s h hn
    exact resolveStr_at (followLink_at (fun f h => by cases h)) (followLink_pre w ex none (fun f h => by cases h)) rl top l s
      h hn
  | succ n ih =>
    intro top rl l s h hn
    refine resolveStr_at (followLink_at (fun f h => ?_)) (followLink_pre w ex _ (fun f h => ?_)) rl top l s h hn
    · cases h
      exact ⟨resolveAt_pre w ex n, ih⟩
    · cases h
      exact resolveAt_pre w ex n

theorem rc_le {w : World} {ex : Bool} (n : Nat) : ∀ top rl l, (resolveAt w ex n top rl l).1 ≤ 0 := by
  have key : ∀ (follow : Follow), (∀ a b l, (follow a b l).1 ≤ 0) → ∀ top rl l, (resolveStr w ex follow top rl l).1 ≤ 0 := by
    intro follow hf top rl l
    have hg : ∀ top path rs l, (getEntry w ex follow top path rs l).1 ≤ 0 := by
      intro top path rs l
      unfold getEntry
      split
      · exact Int.le_refl 0
      · split
        · exact Int.le_refl 0
        · dsimp only
          split
          · exact hf _ _ _
          · exact Int.le_refl 0
    have hw : ∀ path top l, (walk w ex follow rl top path l).1 ≤ 0 := by
      intro path
      induction path with
      | nil => intro top l; exact hg _ _ _ _
      | cons c rest ih =>
        intro top l
        unfold walk
        split
        · exact ih _ _
        · dsimp only
          split
          · exact hg _ _ _ _
          · split
            · rename_i rc hrc
              unfold haveToStop at hrc
              split at hrc
              · cases hrc
                split <;> (dsimp only; decide)
              · split at hrc
                · cases hrc
                  split <;> (dsimp only; decide)
                · cases hrc
            · exact ih _ _
    unfold resolveStr
    split
    · dsimp only; decide
    · exact hw _ _ _
  have hfl : ∀ sub, (∀ f, sub = some f → ∀ a b l, (f a b l).1 ≤ 0) → ∀ a b l, (followLink w ex sub a b l).1 ≤ 0 := by
    intro sub hs a b l
    unfold followLink
    split
    · exact Int.le_refl 0
    · split
      · rename_i e he
        show (-((e + 1 : Nat) : Int)) ≤ 0
        omega
      · split
        · dsimp only; decide
        · exact hs _ rfl _ _ _
  induction n with
  | zero => exact key _ (hfl _ (fun f h => by cases h))
  | succ n ih =>
    refine key _ (hfl _ (fun f h => ?_))
    cases h
    exact ih

theorem resolve_rc (w : World) (l0 : Log) (path : Bytes) (ex rl : Bool) : (resolve w l0 path ex rl).1 ≤ 0 := by
  unfold resolve
  dsimp only
  split
  · exact Int.le_refl 0
  · exact rc_le 3 _ _ _

theorem resolve_pre (w : World) (l0 : Log) (path : Bytes) (ex rl : Bool) : l0 <+: (resolve w l0 path ex rl).2.2 := by
  have h : l0 <+: _ := (List.prefix_append l0 (startLog w ex path ++ retainIno (startPath w path))).trans
    (resolveAt_pre w ex 3 { startPath w path with lc := path } rl _)
  rw [← List.append_assoc] at h
  unfold resolve
  dsimp only
  split
  · exact h.trans (List.prefix_append _ _)
  · exact (h.trans (List.prefix_append _ _)).trans (List.prefix_append _ _)

theorem resolve_balanced_from (w : World) (l0 : Log) (b : List FsId) (s : List (FsId × Ino))
    (hb : Held.empty.run l0 = some ⟨none, b, s, []⟩) (path : Bytes) (ex rl : Bool)
    (hn : NoCross (resolve w l0 path ex rl).2.2) :
    ((resolve w l0 path ex rl).1 = 0 → At b ex (resolve w l0 path ex rl).2.2 (resolve w l0 path ex rl).2.1.fs s) ∧
    ((resolve w l0 path ex rl).1 ≠ 0 → Held.empty.run (resolve w l0 path ex rl).2.2 = some ⟨none, b, s, []⟩) := by
  unfold resolve at hn ⊢
  dsimp only at hn ⊢
  have h0 : At b ex (l0 ++ startLog w ex path) (startPath w path).fs s := by
    unfold At startLog startPath
    rw [run_append, hb]
    split <;> simp [rootLog, rootPath, Held.run, Held.step]
  have h1 := resolveAt_at w b ex 3 { startPath w path with lc := path } rl
    (l0 ++ startLog w ex path ++ retainIno (startPath w path)) s (h0.retainI _)
  generalize resolveAt w ex 3 { startPath w path with lc := path } rl
    (l0 ++ startLog w ex path ++ retainIno (startPath w path)) = r at *
  by_cases hr : r.1 = 0
  · rw [if_pos hr] at hn ⊢
    have h1 := h1 (hn.pre (List.prefix_append _ _))
    exact ⟨fun _ => h1.releaseI r.2.1, fun hc => absurd rfl hc⟩
  · rw [if_neg hr] at hn ⊢
    have h1 := h1 (hn.pre ((List.prefix_append _ _).trans (List.prefix_append _ _)))
    refine ⟨fun hc => absurd hc hr, fun _ => ?_⟩
    have h2 := h1.releaseI r.2.1
    unfold At at h2
    rw [run_append, h2]
    simp [Held.run, Held.step]

/-- C47. Whatever other tasks do to directories, links and mount points meanwhile, a resolution that follows no symbolic link
into another file system keeps the rules, and at its end holds exactly the lock of, and one reference to, the file system it
returns if it succeeds, and nothing if it fails. -/
theorem resolve_balanced_partial (w : World) (path : Bytes) (ex rl : Bool) (hn : NoCross (resolve w [] path ex rl).2.2) :
    ((resolve w [] path ex rl).1 = 0 → Held.empty.run (resolve w [] path ex rl).2.2 =
      some ⟨some ((resolve w [] path ex rl).2.1.fs, ex), [(resolve w [] path ex rl).2.1.fs], [], []⟩) ∧
    ((resolve w [] path ex rl).1 ≠ 0 → Held.empty.run (resolve w [] path ex rl).2.2 = some Held.empty) :=
  resolve_balanced_from w [] [] [] rfl path ex rl hn

/-- C47. So every call on one path ends holding nothing. -/
theorem pathCall_balanced_partial (w : World) (path : Bytes) (ex rl : Bool) (func : VPath → Int)
    (hn : NoCross (pathCall w path ex rl func).2) : Held.empty.run (pathCall w path ex rl func).2 = some Held.empty := by
  have h := resolve_balanced_partial w path ex rl
  have hrc := resolve_rc w [] path ex rl
  unfold pathCall at hn ⊢
  dsimp only at hn ⊢
  by_cases hr : (resolve w [] path ex rl).1 < 0
  · rw [if_pos hr] at hn ⊢
    exact (h hn).2 (by omega)
  · rw [if_neg hr] at hn ⊢
    have h1 := (h (hn.pre (List.prefix_append _ _))).1 (by omega)
    dsimp only
    rw [run_append, h1]
    simp [Held.run, Held.step, Held.empty]

/-- C47. And so do `rename` and `link`. -/
theorem rename_balanced_partial (w : World) (old new : Bytes) (func : VPath → VPath → Int)
    (hn : NoCross (renameOrLink w old new func).2) : Held.empty.run (renameOrLink w old new func).2 = some Held.empty := by
  have h := resolve_balanced_partial w old false false
  have hrc := resolve_rc w [] old false false
  unfold renameOrLink at hn ⊢
  dsimp only at hn ⊢
  generalize resolve w [] old false false = o at *
  by_cases hr : o.1 < 0
  · rw [if_pos hr] at hn ⊢
    exact (h hn).2 (by omega)
  rw [if_neg hr] at hn ⊢
  by_cases he : o.2.1.ent = none
  · rw [if_pos he] at hn ⊢
    have h1 := (h (hn.pre (List.prefix_append _ _))).1 (by omega)
    dsimp only
    rw [run_append, h1]
    simp [Held.run, Held.step, Held.empty]
  rw [if_neg he] at hn ⊢
  have hpre := resolve_pre w (o.2.2 ++ retainIno o.2.1 ++ [.unlock o.2.1.fs false]) new true false
  have h2 := resolve_balanced_from w (o.2.2 ++ retainIno o.2.1 ++ [.unlock o.2.1.fs false]) [o.2.1.fs] (inoStack o.2.1)
  have hrc2 := resolve_rc w (o.2.2 ++ retainIno o.2.1 ++ [.unlock o.2.1.fs false]) new true false
  have hmid : NoCross o.2.2 → Held.empty.run (o.2.2 ++ retainIno o.2.1 ++ [.unlock o.2.1.fs false]) =
      some ⟨none, [o.2.1.fs], inoStack o.2.1, []⟩ := by
    intro hn'
    have h1 := (h hn').1 (by omega)
    rw [run_append, run_append, h1]
    dsimp only [Option.bind]
    rw [retainIno_run]
    simp [Held.run, Held.step]
  have hpo : o.2.2 <+: (resolve w (o.2.2 ++ retainIno o.2.1 ++ [.unlock o.2.1.fs false]) new true false).2.2 :=
    ((List.prefix_append _ _).trans (List.prefix_append _ _)).trans hpre
  generalize hnr : resolve w (o.2.2 ++ retainIno o.2.1 ++ [.unlock o.2.1.fs false]) new true false = n at *
  have fin : NoCross n.2.2 → (n.1 = 0 → At [o.2.1.fs] true n.2.2 n.2.1.fs (inoStack o.2.1)) ∧
      (n.1 ≠ 0 → Held.empty.run n.2.2 = some ⟨none, [o.2.1.fs], inoStack o.2.1, []⟩) := by
    intro hn'
    have := h2 (hmid (hn'.pre hpo)) new true false
    rw [hnr] at this
    exact this hn'
  have hrel : ∀ a c m, Held.run ⟨a, c, inoStack o.2.1, m⟩ (releaseIno o.2.1) = some ⟨a, c, [], m⟩ := by
    intro a c m
    have := releaseIno_run a c m o.2.1 []
    rwa [List.append_nil] at this
  by_cases hr2 : n.1 < 0
  · rw [if_pos hr2] at hn ⊢
    have h3 := (fin (hn.pre ((List.prefix_append _ _).trans (List.prefix_append _ _)))).2 (by omega)
    dsimp only
    rw [run_append, run_append, h3]
    dsimp only [Option.bind]
    rw [hrel]
    simp [Held.run, Held.step, Held.empty]
  rw [if_neg hr2] at hn ⊢
  by_cases hx : n.2.1.fs ≠ o.2.1.fs
  · rw [if_pos hx] at hn ⊢
    have h3 := (fin (hn.pre (((List.prefix_append _ _).trans (List.prefix_append _ _)).trans (List.prefix_append _ _)))).1
      (by omega)
    unfold At at h3
    dsimp only
    rw [run_append, run_append, run_append, h3]
    have : Held.run ⟨some (n.2.1.fs, true), [n.2.1.fs, o.2.1.fs], inoStack o.2.1, []⟩
        [.unlock n.2.1.fs true, .release n.2.1.fs] = some ⟨none, [o.2.1.fs], inoStack o.2.1, []⟩ := by
      simp [Held.run, Held.step]
    dsimp only [Option.bind]
    rw [this]
    dsimp only
    rw [hrel]
    simp [Held.run, Held.step, Held.empty]
  · rw [if_neg hx] at hn ⊢
    have hx' : n.2.1.fs = o.2.1.fs := Classical.not_not.mp hx
    have h3 := (fin (hn.pre (((List.prefix_append _ _).trans (List.prefix_append _ _)).trans (List.prefix_append _ _)))).1
      (by omega)
    unfold At at h3
    dsimp only
    rw [run_append, run_append, run_append, h3, hx']
    have : Held.run ⟨some (o.2.1.fs, true), [o.2.1.fs, o.2.1.fs], inoStack o.2.1, []⟩
        [.release o.2.1.fs] = some ⟨some (o.2.1.fs, true), [o.2.1.fs], inoStack o.2.1, []⟩ := by
      simp [Held.run, Held.step]
    dsimp only [Option.bind]
    rw [this]
    dsimp only
    rw [hrel]
    simp [Held.run, Held.step, Held.empty]

/-- C47. A mount that succeeds keeps references to the host file system and to the directory, and one to the mounted file
system; one that fails keeps nothing, except when the directory is a mount point already or the file system is already
mounted. -/
theorem mount_balanced_partial (w : World) (t : FsId) (path : Bytes) (dup full : Bool)
    (hn : NoCross (mpAdd w t path dup full).2) (hb : (mpAdd w t path dup full).1 ≠ -EBUSY)
    (hp : (mpAdd w t path dup full).1 ≠ -EPERM) :
    ((mpAdd w t path dup full).1 = 0 → ∃ f i, Held.empty.run (mpAdd w t path dup full).2 = some ⟨none, [t, f], [(f, i)], []⟩ ∧
      (resolve w [] path false true).2.1.fs = f ∧ (resolve w [] path false true).2.1.ent = some (i, .dir)) ∧
    ((mpAdd w t path dup full).1 ≠ 0 → Held.empty.run (mpAdd w t path dup full).2 = some Held.empty) := by
  have h := resolve_balanced_partial w path false true
  unfold mpAdd at hn hb hp ⊢
  dsimp only at hn hb hp ⊢
  generalize resolve w [] path false true = r at *
  by_cases hr : r.1 ≠ 0
  · rw [if_pos hr] at hn ⊢
    exact ⟨fun hc => absurd hc hr, fun _ => (h hn).2 hr⟩
  rw [if_neg hr] at hn hb hp ⊢
  have hr := Classical.not_not.mp hr
  have hfail : NoCross r.2.2 → Held.empty.run (r.2.2 ++ [.unlock r.2.1.fs false, .release r.2.1.fs]) = some Held.empty := by
    intro hn'
    rw [run_append, (h hn').1 hr]
    simp [Held.run, Held.step, Held.empty]
  have hl1 : NoCross r.2.2 → Held.empty.run (r.2.2 ++ retainIno r.2.1 ++ [.unlock r.2.1.fs false]) =
      some ⟨none, [r.2.1.fs], inoStack r.2.1, []⟩ := by
    intro hn'
    rw [run_append, run_append, (h hn').1 hr]
    dsimp only [Option.bind]
    rw [retainIno_run]
    simp [Held.run, Held.step]
  cases he : r.2.1.ent with
  | none =>
    rw [he] at hn
    dsimp only at hn ⊢
    exact ⟨fun hc => absurd hc (by first | decide | (dsimp only; decide)), fun _ => hfail (hn.pre (List.prefix_append _ _))⟩
  | some ik =>
    obtain ⟨i, k⟩ := ik
    rw [he] at hn hb hp
    dsimp only at hn hb hp ⊢
    by_cases hk : k ≠ .dir
    · rw [if_pos hk] at hn ⊢
      exact ⟨fun hc => absurd hc (by first | decide | (dsimp only; decide)), fun _ => hfail (hn.pre (List.prefix_append _ _))⟩
    rw [if_neg hk] at hn hb hp ⊢
    have hk := Classical.not_not.mp hk
    by_cases h1 : (w.mountAt (r.2.2 ++ retainIno r.2.1 ++ [.unlock r.2.1.fs false]) r.2.1.fs i).isSome = true
    · rw [if_pos h1] at hb
      exact absurd rfl hb
    rw [if_neg h1] at hn hb hp ⊢
    by_cases h2 : dup = true
    · rw [if_pos h2] at hp
      exact absurd rfl hp
    rw [if_neg h2] at hn hb hp ⊢
    have hst : inoStack r.2.1 = [(r.2.1.fs, i)] := by
      unfold inoStack
      rw [he]
    by_cases h3 : full = true
    · rw [if_pos h3] at hn ⊢
      refine ⟨fun hc => absurd hc (by first | decide | (dsimp only; decide)), fun _ => ?_⟩
      have := hl1 (hn.pre ((((List.prefix_append _ _).trans (List.prefix_append _ _)).trans (List.prefix_append _ _)).trans
        (List.prefix_append _ _)))
      dsimp only
      rw [run_append, run_append, this]
      have hrel := releaseIno_run none [r.2.1.fs] [] r.2.1 []
      rw [List.append_nil] at hrel
      dsimp only [Option.bind]
      rw [hrel]
      simp [Held.run, Held.step, Held.empty]
    · rw [if_neg h3] at hn ⊢
      refine ⟨fun _ => ⟨r.2.1.fs, i, ?_, rfl, by rw [hk]⟩, fun hc => absurd rfl hc⟩
      have := hl1 (hn.pre (((List.prefix_append _ _).trans (List.prefix_append _ _)).trans (List.prefix_append _ _)))
      dsimp only
      rw [run_append, this, hst]
      simp [Held.run, Held.step]

/-! Where nothing is mounted, nothing crosses. -/

/-- All links of this log are on file system `f` and stay there. -/
def AllOn (f : FsId) (l : Log) : Prop := ∀ d s e ok, Ev.link d s e ok ∈ l → d = f ∧ s = f ∧ e = f

theorem AllOn.app {f : FsId} {l x : Log} (h : AllOn f l) (hx : AllOn f x) : AllOn f (l ++ x) := by
  intro d s e ok hm
  rcases List.mem_append.mp hm with hm | hm
  · exact h d s e ok hm
  · exact hx d s e ok hm

theorem AllOn.releaseI (f : FsId) (p : VPath) : AllOn f (releaseIno p) := by
  unfold releaseIno
  split <;> intro d s e ok hm <;> simp at hm

theorem AllOn.retainI (f : FsId) (p : VPath) : AllOn f (retainIno p) := by
  unfold retainIno
  split <;> intro d s e ok hm <;> simp at hm

theorem AllOn.replace (f : FsId) (p q : VPath) : AllOn f (replaceLog p q) :=
  (AllOn.releaseI f p).app (AllOn.retainI f q)

theorem getEntry_on {w : World} (hm : ∀ l f i, w.mountAt l f i = none) {ex : Bool} {follow : Follow}
    (hf : ∀ top np l, top.fs = w.rootFs → np.fs = w.rootFs → AllOn w.rootFs l →
      (follow top np l).2.1.fs = w.rootFs ∧ AllOn w.rootFs (follow top np l).2.2)
    (top : VPath) (path : Bytes) (rs : Bool) (l : Log) (ht : top.fs = w.rootFs) (hl : AllOn w.rootFs l) :
    (getEntry w ex follow top path rs l).2.1.fs = w.rootFs ∧ AllOn w.rootFs (getEntry w ex follow top path rs l).2.2 := by
  have hone : ∀ e : Ev, (∀ d s a ok, e ≠ .link d s a ok) → AllOn w.rootFs (l ++ [e]) := by
    intro e he
    refine hl.app ?_
    intro d s a ok hm
    simp only [List.mem_singleton] at hm
    exact absurd hm.symm (he _ _ _ _)
  have hcd : (∀ np, (crossDotdot w ex top l).1 = some np → np.fs = w.rootFs) ∧ AllOn w.rootFs (crossDotdot w ex top l).2 := by
    unfold crossDotdot
    split
    · split
      · exact ⟨fun np h => (by cases h), hone _ (by intros; simp)⟩
      · refine ⟨fun np h => ?_, hone _ (by intros; simp)⟩
        cases h
        exact ht
    · exact ⟨fun np h => (by cases h), hl⟩
  unfold getEntry
  split
  · rename_i np l1 he
    rw [he] at hcd
    exact ⟨hcd.1 np rfl, hcd.2⟩
  · rename_i l1 he
    rw [he] at hcd
    split
    · exact ⟨ht, hcd.2⟩
    · have hga : (getEntryAt w l1 top (compOf top.lc path)).1.fs = w.rootFs ∧
          AllOn w.rootFs (getEntryAt w l1 top (compOf top.lc path)).2 := by
        unfold getEntryAt
        split <;> refine ⟨ht, hcd.2.app ?_⟩ <;> intro d s a ok hm <;> simp at hm
      have hem : ∀ p l', enterMount w ex p l' = (p, l') := by
        intro p l'
        unfold enterMount
        split
        · rfl
        · rw [hm]
      dsimp only
      rw [hem]
      dsimp only
      split
      · exact hf _ _ _ ht hga.1 hga.2
      · exact hga

theorem walk_on {w : World} (hm : ∀ l f i, w.mountAt l f i = none) {ex : Bool} {follow : Follow}
    (hf : ∀ top np l, top.fs = w.rootFs → np.fs = w.rootFs → AllOn w.rootFs l →
      (follow top np l).2.1.fs = w.rootFs ∧ AllOn w.rootFs (follow top np l).2.2) (rl : Bool)
    (path : Bytes) : ∀ (top : VPath) (l : Log) (_ : top.fs = w.rootFs) (_ : AllOn w.rootFs l),
    (walk w ex follow rl top path l).2.1.fs = w.rootFs ∧ AllOn w.rootFs (walk w ex follow rl top path l).2.2 := by
  induction path with
  | nil =>
    intro top l ht hl
    have hg := getEntry_on hm (ex := ex) hf top [] rl l ht hl
    unfold walk
    exact ⟨hg.1, hg.2.app (AllOn.replace _ _ _)⟩
  | cons c rest ih =>
    intro top l ht hl
    have hg := getEntry_on hm (ex := ex) hf top (c :: rest) true l ht hl
    unfold walk
    split
    · exact ih top l ht hl
    · dsimp only
      split
      · exact ⟨ht, hg.2⟩
      · split
        · exact ⟨hg.1, hg.2.app (AllOn.replace _ _ _)⟩
        · exact ih _ _ hg.1 (hg.2.app (AllOn.replace _ _ _))

theorem resolveAt_on {w : World} (hm : ∀ l f i, w.mountAt l f i = none) {ex : Bool} (n : Nat) :
    ∀ (top : VPath) (rl : Bool) (l : Log) (_ : top.fs = w.rootFs) (_ : AllOn w.rootFs l),
    (resolveAt w ex n top rl l).2.1.fs = w.rootFs ∧ AllOn w.rootFs (resolveAt w ex n top rl l).2.2 := by
  have key : ∀ follow : Follow, (∀ top np l, top.fs = w.rootFs → np.fs = w.rootFs → AllOn w.rootFs l →
      (follow top np l).2.1.fs = w.rootFs ∧ AllOn w.rootFs (follow top np l).2.2) →
      ∀ top rl l, top.fs = w.rootFs → AllOn w.rootFs l → (resolveStr w ex follow top rl l).2.1.fs = w.rootFs ∧
        AllOn w.rootFs (resolveStr w ex follow top rl l).2.2 := by
    intro follow hf top rl l ht hl
    unfold resolveStr
    split
    · exact ⟨ht, hl⟩
    · exact walk_on hm hf rl _ _ _ ht hl
  have hfl : ∀ sub : Option (VPath → Bool → Log → Res), (∀ f, sub = some f → ∀ top rl l, top.fs = w.rootFs →
      AllOn w.rootFs l → (f top rl l).2.1.fs = w.rootFs ∧ AllOn w.rootFs (f top rl l).2.2) →
      ∀ top np l, top.fs = w.rootFs → np.fs = w.rootFs → AllOn w.rootFs l →
      (followLink w ex sub top np l).2.1.fs = w.rootFs ∧ AllOn w.rootFs (followLink w ex sub top np l).2.2 := by
    intro sub hs top np l ht hnp hl
    have hone : ∀ i, AllOn w.rootFs (l ++ [.readlink np.fs i]) := by
      intro i
      refine hl.app ?_
      intro d s a ok hm
      simp at hm
    unfold followLink
    split
    · exact ⟨hnp, hl⟩
    · rename_i i k he
      split
      · exact ⟨hnp, hone i⟩
      · rename_i e tgt htg
        have hrp : (if (tgt.getD 0 0 == slash) = true then rootPath w else top).fs = w.rootFs := by
          split
          · rfl
          · exact ht
        have h2 : AllOn w.rootFs (l ++ [.readlink np.fs i] ++
            (if (tgt.getD 0 0 == slash) = true then [Ev.unlock top.fs ex, .release top.fs] ++ rootLog w ex else [])) := by
          refine (hone i).app ?_
          intro d s a ok hm
          split at hm <;> simp [rootLog] at hm
        dsimp only
        generalize (if (tgt.getD 0 0 == slash) = true then rootPath w else top) = rp at *
        generalize l ++ [.readlink np.fs i] ++
            (if (tgt.getD 0 0 == slash) = true then [Ev.unlock top.fs ex, .release top.fs] ++ rootLog w ex else []) = l2 at *
        split
        · refine ⟨hnp, h2.app ?_⟩
          intro d s a ok hm
          simp only [List.mem_singleton, Ev.link.injEq] at hm
          obtain ⟨h1, h2, h3, _⟩ := hm
          exact ⟨h1.trans ht, h2.trans hrp, h3.trans hrp⟩
        · rename_i f
          have hr := hs f rfl { rp with lc := tgt } true (l2 ++ retainIno rp) hrp (h2.app (AllOn.retainI _ _))
          generalize f { rp with lc := tgt } true (l2 ++ retainIno rp) = r at *
          refine ⟨hr.1, ((hr.2.app (AllOn.releaseI _ _)).app ?_).app ?_⟩
          · intro d s a ok hm
            split at hm <;> simp at hm
          · intro d s a ok hm
            simp only [List.mem_singleton, Ev.link.injEq] at hm
            obtain ⟨h1, h2, h3, _⟩ := hm
            exact ⟨h1.trans ht, h2.trans hrp, h3.trans hr.1⟩
  induction n with
  | zero => exact fun top rl l => key _ (hfl none (fun f h => by cases h)) top rl l
  | succ n ih =>
    refine fun top rl l => key _ (hfl _ (fun f h => ?_)) top rl l
    cases h
    exact ih

/-- C47. Where nothing is mounted on the root file system, whatever the symbolic links, every path, every mode and every
interference: exactly the lock and the reference of the result after success, nothing after failure. -/
theorem resolve_balanced_no_mounts (w : World) (hm : ∀ l f i, w.mountAt l f i = none) (hc : w.cwd.fs = w.rootFs)
    (path : Bytes) (ex rl : Bool) :
    ((resolve w [] path ex rl).1 = 0 → Held.empty.run (resolve w [] path ex rl).2.2 =
      some ⟨some ((resolve w [] path ex rl).2.1.fs, ex), [(resolve w [] path ex rl).2.1.fs], [], []⟩) ∧
    ((resolve w [] path ex rl).1 ≠ 0 → Held.empty.run (resolve w [] path ex rl).2.2 = some Held.empty) := by
  refine resolve_balanced_partial w path ex rl ?_
  have hs : (startPath w path).fs = w.rootFs := by
    unfold startPath
    split
    · rfl
    · exact hc
  have hsl : AllOn w.rootFs (startLog w ex path) := by
    intro d s e ok hmem
    unfold startLog at hmem
    split at hmem <;> simp [rootLog] at hmem
  have hr := resolveAt_on hm (ex := ex) 3 { startPath w path with lc := path } rl
    ([] ++ startLog w ex path ++ retainIno (startPath w path)) hs (hsl.app (AllOn.retainI _ _))
  have hall : AllOn w.rootFs (resolve w [] path ex rl).2.2 := by
    unfold resolve
    dsimp only
    generalize resolveAt w ex 3 { startPath w path with lc := path } rl
      ([] ++ startLog w ex path ++ retainIno (startPath w path)) = r at *
    split
    · exact hr.2.app (AllOn.releaseI _ _)
    · refine (hr.2.app (AllOn.releaseI _ _)).app ?_
      intro d s e ok hmem
      simp at hmem
  intro d s e ok hmem
  obtain ⟨h1, h2, h3⟩ := hall d s e ok hmem
  exact ⟨h2.trans h3.symm, fun _ => h1.trans h2.symm⟩

/-! Where lookups find no symbolic links, none is followed. -/

def NoLinks (l : Log) : Prop := ∀ d s e ok, Ev.link d s e ok ∉ l

theorem NoLinks.app {l x : Log} (h : NoLinks l) (hx : NoLinks x) : NoLinks (l ++ x) := by
  intro d s e ok hm
  rcases List.mem_append.mp hm with hm | hm
  · exact h d s e ok hm
  · exact hx d s e ok hm

theorem NoLinks.replace (p q : VPath) : NoLinks (replaceLog p q) := by
  unfold replaceLog releaseIno retainIno
  intro d s e ok hm
  split at hm <;> split at hm <;> simp at hm

theorem getEntry_nolinks {w : World} (hk : ∀ l f i n j, w.lookup l f i n ≠ some (j, .symlink)) {ex : Bool} {follow : Follow}
    (top : VPath) (path : Bytes) (rs : Bool) (l : Log) (hl : NoLinks l) :
    NoLinks (getEntry w ex follow top path rs l).2.2 := by
  have hcd : NoLinks (crossDotdot w ex top l).2 := by
    unfold crossDotdot
    split
    · split
      · exact hl.app (by intro d s e ok hm; simp at hm)
      · split
        · exact hl.app (by intro d s e ok hm; simp at hm)
        · exact (hl.app (by intro d s e ok hm; simp at hm)).app (by intro d s e ok hm; simp at hm)
    · exact hl
  unfold getEntry
  split
  · rename_i np l1 he
    rw [he] at hcd
    exact hcd
  · rename_i l1 he
    rw [he] at hcd
    split
    · exact hcd
    · have hga : (∀ j, (getEntryAt w l1 top (compOf top.lc path)).1.ent ≠ some (j, .symlink)) ∧
          NoLinks (getEntryAt w l1 top (compOf top.lc path)).2 := by
        unfold getEntryAt
        split
        · exact ⟨by intro j; simp, hcd.app (by intro d s e ok hm; simp at hm)⟩
        · exact ⟨hk _ _ _ _, hcd.app (by intro d s e ok hm; simp at hm)⟩
      have hem : ∀ p l', (∀ j, p.ent ≠ some (j, .symlink)) → NoLinks l' →
          (∀ j, (enterMount w ex p l').1.ent ≠ some (j, .symlink)) ∧ NoLinks (enterMount w ex p l').2 := by
        intro p l' hp hl'
        unfold enterMount
        split
        · exact ⟨hp, hl'⟩
        · split
          · exact ⟨hp, hl'⟩
          · exact ⟨by intro j; simp, hl'.app (by intro d s e ok hm; simp at hm)⟩
      have := hem _ _ hga.1 hga.2
      dsimp only
      split
      · rename_i hc
        obtain ⟨hc, _⟩ := hc
        cases he2 : (enterMount w ex (getEntryAt w l1 top (compOf top.lc path)).1
            (getEntryAt w l1 top (compOf top.lc path)).2).1.ent with
        | none =>
          rw [he2] at hc
          cases hc
        | some jk =>
          rw [he2] at hc
          obtain ⟨j, k⟩ := jk
          have hkk : k = .symlink := by simpa using hc
          rw [hkk] at he2
          exact absurd he2 (this.1 j)
      · exact this.2

theorem walk_nolinks {w : World} (hk : ∀ l f i n j, w.lookup l f i n ≠ some (j, .symlink)) {ex : Bool} {follow : Follow}
    (rl : Bool) (path : Bytes) : ∀ (top : VPath) (l : Log), NoLinks l → NoLinks (walk w ex follow rl top path l).2.2 := by
  induction path with
  | nil =>
    intro top l hl
    unfold walk
    exact (getEntry_nolinks hk top [] rl l hl).app (NoLinks.replace _ _)
  | cons c rest ih =>
    intro top l hl
    have hg := getEntry_nolinks hk (ex := ex) (follow := follow) top (c :: rest) true l hl
    unfold walk
    split
    · exact ih top l hl
    · dsimp only
      split
      · exact hg
      · split
        · exact hg.app (NoLinks.replace _ _)
        · exact ih _ _ (hg.app (NoLinks.replace _ _))

/-- C47. Where there are no symbolic links, whatever is mounted: the same, for every path, mode and interference. -/
theorem resolve_balanced_no_symlinks (w : World) (hk : ∀ l f i n j, w.lookup l f i n ≠ some (j, .symlink))
    (path : Bytes) (ex rl : Bool) :
    ((resolve w [] path ex rl).1 = 0 → Held.empty.run (resolve w [] path ex rl).2.2 =
      some ⟨some ((resolve w [] path ex rl).2.1.fs, ex), [(resolve w [] path ex rl).2.1.fs], [], []⟩) ∧
    ((resolve w [] path ex rl).1 ≠ 0 → Held.empty.run (resolve w [] path ex rl).2.2 = some Held.empty) := by
  refine resolve_balanced_partial w path ex rl ?_
  have hret : ∀ p, NoLinks (retainIno p) := by
    intro p d s e ok hm
    unfold retainIno at hm
    split at hm <;> simp at hm
  have hrel : ∀ p, NoLinks (releaseIno p) := by
    intro p d s e ok hm
    unfold releaseIno at hm
    split at hm <;> simp at hm
  have hsl : NoLinks (startLog w ex path) := by
    intro d s e ok hmem
    unfold startLog at hmem
    split at hmem <;> simp [rootLog] at hmem
  have hst : ∀ follow top rl l, NoLinks l → NoLinks (resolveStr w ex follow top rl l).2.2 := by
    intro follow top rl l hl
    unfold resolveStr
    split
    · exact hl
    · exact walk_nolinks hk rl _ _ _ hl
  have hr : NoLinks (resolveAt w ex 3 { startPath w path with lc := path } rl
      ([] ++ startLog w ex path ++ retainIno (startPath w path))).2.2 := hst _ _ _ _ (hsl.app (hret _))
  have hall : NoLinks (resolve w [] path ex rl).2.2 := by
    unfold resolve
    dsimp only
    split
    · exact hr.app (hrel _)
    · exact (hr.app (hrel _)).app (by intro d s e ok hmem; simp at hmem)
  intro d s e ok hmem
  exact absurd hmem (hall d s e ok)

/-! ## Proofs: what a path means -/

theorem Is_congr {d : Den} {r r' : Res} (h : d.Is r) (h1 : r'.1 = r.1) (h2 : r'.2.1.fs = r.2.1.fs)
    (h3 : r'.2.1.ent = r.2.1.ent) (h4 : r'.2.1.dir = r.2.1.dir) : d.Is r' := by
  cases d with
  | err e => exact ⟨h1.trans h.1, by rw [h1]; exact h.2⟩
  | notDir => exact h1.trans h
  | found f i k => exact ⟨h1.trans h.1, h2.trans h.2.1, h3.trans h.2.2⟩
  | missing f i nm => exact ⟨h1.trans h.1, h2.trans h.2.1, h3.trans h.2.2.1, h4.trans h.2.2.2⟩

theorem pieces_ne (p : Bytes) : pieces p ≠ [] := by
  cases p with
  | nil => simp [pieces]
  | cons c p =>
    unfold pieces
    split
    · simp
    · split <;> simp

theorem pieces_app (comp rest : Bytes) (h : (47 : UInt8) ∉ comp) : ∃ x xs, pieces rest = x :: xs ∧
    pieces (comp ++ rest) = (comp ++ x) :: xs := by
  induction comp with
  | nil =>
    cases hp : pieces rest with
    | nil => exact absurd hp (pieces_ne rest)
    | cons x xs => exact ⟨x, xs, rfl, hp⟩
  | cons c comp ih =>
    obtain ⟨x, xs, h1, h2⟩ := ih (fun hm => h (List.mem_cons_of_mem _ hm))
    refine ⟨x, xs, h1, ?_⟩
    have hc : ¬ c = 47 := fun hc => h (hc ▸ List.mem_cons_self)
    show pieces (c :: (comp ++ rest)) = _
    unfold pieces
    rw [if_neg hc, h2]
    rfl

theorem components_end (comp : Bytes) (h : (47 : UInt8) ∉ comp) (hne : comp ≠ []) : components comp = [comp] := by
  obtain ⟨x, xs, h1, h2⟩ := pieces_app comp [] h
  rw [List.append_nil] at h2
  unfold pieces at h1
  cases h1
  unfold components
  rw [h2]
  simp [hne]

theorem components_slash (rest : Bytes) : components (47 :: rest) = components rest := by
  unfold components
  conv => lhs; unfold pieces
  rw [if_pos rfl]
  simp

theorem components_mid (comp rest : Bytes) (h : (47 : UInt8) ∉ comp) (hne : comp ≠ []) :
    components (comp ++ 47 :: rest) = comp :: components rest := by
  obtain ⟨x, xs, h1, h2⟩ := pieces_app comp (47 :: rest) h
  unfold pieces at h1
  rw [if_pos rfl] at h1
  cases h1
  rw [List.append_nil] at h2
  unfold components
  rw [h2]
  simp [hne]

theorem components_nil (p : Bytes) (hne : p ≠ []) (h : components p = []) : ∃ q, p = q ++ [47] := by
  induction p with
  | nil => exact absurd rfl hne
  | cons c p ih =>
    by_cases hc : c = 47
    · subst hc
      rw [components_slash] at h
      by_cases hp : p = []
      · subst hp
        exact ⟨[], rfl⟩
      · obtain ⟨q, hq⟩ := ih hp h
        exact ⟨47 :: q, by rw [hq]; rfl⟩
    · exfalso
      unfold components pieces at h
      rw [if_neg hc] at h
      split at h <;> simp at h

theorem endsWithSlash_cons (c : UInt8) (p : Bytes) (h : p ≠ []) : endsWithSlash (c :: p) = endsWithSlash p := by
  unfold endsWithSlash
  cases p with
  | nil => exact absurd rfl h
  | cons d q => rw [List.getLast?_cons_cons]

theorem endsWithSlash_app (a p : Bytes) (h : p ≠ []) : endsWithSlash (a ++ p) = endsWithSlash p := by
  induction a with
  | nil => rfl
  | cons c a ih =>
    show endsWithSlash (c :: (a ++ p)) = _
    rw [endsWithSlash_cons _ _ (by simp [h]), ih]

theorem endsWithSlash_no (p : Bytes) (h : (47 : UInt8) ∉ p) : endsWithSlash p = false := by
  unfold endsWithSlash
  cases hl : p.getLast? with
  | none => rfl
  | some c =>
    have : c ∈ p := List.mem_of_getLast? hl
    simp only [beq_eq_false_iff_ne, ne_eq, Option.some.injEq]
    exact fun hc => h (hc ▸ this)

theorem isDotdot_iff (comp rest : Bytes) (hs : (47 : UInt8) ∉ comp) (h0 : (0 : UInt8) ∉ comp)
    (hr : rest = [] ∨ ∃ q, rest = 47 :: q) : isDotdot (comp ++ rest) = true ↔ comp = [46, 46] := by
  unfold isDotdot dot slash
  match comp, hs, h0 with
  | [], _, _ =>
    rcases hr with rfl | ⟨q, rfl⟩ <;> simp
  | [a], _, _ =>
    rcases hr with rfl | ⟨q, rfl⟩ <;> simp
  | [a, b], _, _ =>
    rcases hr with rfl | ⟨q, rfl⟩ <;> simp
  | a :: b :: c :: d, hs, h0 =>
    simp only [List.mem_cons, not_or] at hs h0
    have h1 : c ≠ 47 := fun h => hs.2.2.1 h.symm
    have h2 : c ≠ 0 := fun h => h0.2.2.1 h.symm
    simp [h1, h2]

/-- Following a link gives what the link denotes. -/
def FollowIs (t : Tree) (val : FsId → Ino → Bytes → Den) (follow : Follow) : Prop :=
  ∀ top np l i j, top.ent = some (i, .dir) → np.ent = some (j, .symlink) → np.fs = top.fs →
    val top.fs i (t.target np.fs j) ≠ .notDir → (val top.fs i (t.target np.fs j)).Is (follow top np l)

theorem getEntry_is {t : Tree} (ht : t.OK) {val : FsId → Ino → Bytes → Den} {follow : Follow} {ex : Bool}
    (hf : FollowIs t val follow) {comp rest : Bytes} (hs : (47 : UInt8) ∉ comp) (h0 : (0 : UInt8) ∉ comp) (hne : comp ≠ [])
    (hr : rest = [] ∨ ∃ q, rest = 47 :: q) {top : VPath} {i : Ino} (hlc : top.lc = comp ++ rest)
    (he : top.ent = some (i, .dir)) (rs : Bool) (l : Log)
    (hd : (if rs then t.deref val top.fs i (t.child top.fs i comp) else t.child top.fs i comp) ≠ .notDir) :
    (if rs then t.deref val top.fs i (t.child top.fs i comp) else t.child top.fs i comp).Is
      (getEntry t.world ex follow top rest rs l) := by
  have hdd := isDotdot_iff comp rest hs h0 hr
  unfold getEntry
  by_cases hc : comp = [46, 46] ∧ i = t.rootIno top.fs
  · -- handled by `crossDotdot`
    have hc1 : isDotdot top.lc = true := by rw [hlc]; exact hdd.mpr hc.1
    have hc2 : ¬ (top.ent.map Prod.fst ≠ some (t.world.rootIno top.fs)) := by
      rw [he, hc.2]
      simp [Tree.world]
    have hch : t.child top.fs i comp = if top.fs = t.rootFs then .found top.fs i .dir
        else match t.lookup (t.mountOf top.fs).1 (t.mountOf top.fs).2 [46, 46] with
          | none => .missing (t.mountOf top.fs).1 (t.mountOf top.fs).2 comp
          | some (j, k) => .found (t.mountOf top.fs).1 j k := by
      unfold Tree.child
      rw [if_pos hc]
    unfold crossDotdot
    rw [if_pos hc1, if_neg hc2]
    by_cases hroot : top.fs = t.rootFs
    · rw [if_pos hroot] at hch
      have hroot' : top.fs = t.world.rootFs := hroot
      rw [hch, if_pos hroot']
      have hsame : (if rs = true then t.deref val top.fs i (.found top.fs i .dir) else .found top.fs i .dir) =
          Den.found top.fs i .dir := by
        cases rs <;> rfl
      rw [hsame]
      exact ⟨rfl, rfl, he⟩
    · rw [if_neg hroot] at hch
      have hroot' : ¬ top.fs = t.world.rootFs := hroot
      obtain ⟨j, hj⟩ := ht.up top.fs hroot
      rw [hj] at hch
      dsimp only at hch
      rw [hch, if_neg hroot']
      have hsame : (if rs = true then t.deref val top.fs i (.found (t.mountOf top.fs).1 j .dir)
          else .found (t.mountOf top.fs).1 j .dir) = Den.found (t.mountOf top.fs).1 j .dir := by
        cases rs <;> rfl
      rw [hsame]
      exact ⟨rfl, rfl, hj⟩
  · -- an ordinary lookup
    have hcd : ∃ l1, crossDotdot t.world ex top l = (none, l1) := by
      unfold crossDotdot
      by_cases hd1 : isDotdot top.lc = true
      · rw [if_pos hd1]
        have hcomp : comp = [46, 46] := hdd.mp (hlc ▸ hd1)
        have hi : i ≠ t.rootIno top.fs := fun h => hc ⟨hcomp, h⟩
        rw [if_pos (by rw [he]; simpa [Tree.world] using hi)]
        exact ⟨_, rfl⟩
      · rw [if_neg hd1]
        exact ⟨_, rfl⟩
    obtain ⟨l1, hl1⟩ := hcd
    rw [hl1]
    have hlen : ¬ top.lc.length = rest.length := by
      rw [hlc, List.length_append]
      have : 0 < comp.length := List.length_pos_iff.mpr hne
      omega
    have hname : compOf top.lc rest = comp := by
      unfold compOf
      rw [hlc, List.length_append, Nat.add_sub_cancel, List.take_left]
    dsimp only
    rw [if_neg hlen, hname]
    have hch : t.child top.fs i comp = match t.lookup top.fs i comp with
        | none => .missing top.fs i comp
        | some (j, k) =>
          match t.mountAt top.fs j with
          | none => .found top.fs j k
          | some g => .found g (t.rootIno g) .dir := by
      unfold Tree.child
      rw [if_neg hc]
    have hga : getEntryAt t.world l1 top comp = ({ top with ent := t.lookup top.fs i comp, dir := i },
        l1 ++ [.lookup top.fs i comp]) := by
      unfold getEntryAt
      rw [he]
      rfl
    rw [hga]
    dsimp only
    cases hlk : t.lookup top.fs i comp with
    | none =>
      rw [hlk] at hch
      dsimp only at hch
      have hsame : (if rs = true then t.deref val top.fs i (.missing top.fs i comp) else .missing top.fs i comp) =
          Den.missing top.fs i comp := by
        cases rs <;> rfl
      rw [hch, hsame]
      have : enterMount t.world ex { top with ent := none, dir := i } (l1 ++ [.lookup top.fs i comp]) =
          ({ top with ent := none, dir := i }, l1 ++ [.lookup top.fs i comp]) := rfl
      rw [this]
      dsimp only
      rw [if_neg (by simp)]
      exact ⟨rfl, rfl, rfl, rfl⟩
    | some jk =>
      obtain ⟨j, k⟩ := jk
      rw [hlk] at hch
      dsimp only at hch
      cases hmt : t.mountAt top.fs j with
      | none =>
        rw [hmt] at hch
        dsimp only at hch
        have hem : enterMount t.world ex { top with ent := some (j, k), dir := i } (l1 ++ [.lookup top.fs i comp]) =
            ({ top with ent := some (j, k), dir := i }, l1 ++ [.lookup top.fs i comp]) := by
          unfold enterMount
          dsimp only
          have : t.world.mountAt (l1 ++ [.lookup top.fs i comp]) top.fs j = none := hmt
          rw [this]
        rw [hem]
        dsimp only
        rw [hch] at hd ⊢
        by_cases hsl : k = .symlink ∧ rs = true
        · obtain ⟨rfl, rfl⟩ := hsl
          rw [if_pos rfl] at hd ⊢
          rw [if_pos (⟨rfl, rfl⟩ : Option.map Prod.snd (some (j, Kind.symlink)) = some Kind.symlink ∧ true = true)]
          exact hf top { top with ent := some (j, .symlink), dir := i } _ i j he rfl rfl hd
        · have hsl2 : ¬ (Option.map Prod.snd (some (j, k)) = some Kind.symlink ∧ rs = true) := fun h =>
            hsl ⟨by simpa using h.1, h.2⟩
          have hsame : (if rs = true then t.deref val top.fs i (.found top.fs j k) else .found top.fs j k) =
              Den.found top.fs j k := by
            cases rs with
            | false => rfl
            | true =>
              cases k with
              | symlink => exact absurd ⟨rfl, rfl⟩ hsl
              | _ => rfl
          rw [hsame, if_neg hsl2]
          exact ⟨rfl, rfl, rfl⟩
      | some g =>
        rw [hmt] at hch
        dsimp only at hch
        have hem : enterMount t.world ex { top with ent := some (j, k), dir := i } (l1 ++ [.lookup top.fs i comp]) =
            ({ top with fs := g, ent := some (t.rootIno g, .dir), dir := t.rootIno g },
              l1 ++ [.lookup top.fs i comp] ++ [.retain g, .unlock top.fs ex, .release top.fs, .lock g ex, .getRoot g]) := by
          unfold enterMount
          dsimp only
          have : t.world.mountAt (l1 ++ [.lookup top.fs i comp]) top.fs j = some g := hmt
          rw [this]
          rfl
        rw [hem]
        dsimp only
        rw [hch]
        have hsame : (if rs = true then t.deref val top.fs i (.found g (t.rootIno g) .dir)
            else .found g (t.rootIno g) .dir) = Den.found g (t.rootIno g) .dir := by
          cases rs <;> rfl
        rw [hsame, if_neg (by simp)]
        exact ⟨rfl, rfl, rfl⟩

theorem getEntry_empty {w : World} {ex : Bool} {follow : Follow} {top : VPath} {rest : Bytes} (rs : Bool) (l : Log)
    (hlc : top.lc = 47 :: rest) : getEntry w ex follow top (47 :: rest) rs l = (0, top, l) := by
  unfold getEntry crossDotdot
  have h : ¬ isDotdot top.lc = true := by
    rw [hlc]
    unfold isDotdot dot
    simp
  rw [if_neg h]
  dsimp only
  rw [if_pos (by rw [hlc])]

theorem PathText.tail {a p : Bytes} (h : PathText (a ++ p)) : PathText p :=
  ⟨fun hm => h.1 (List.mem_append_right _ hm), fun q hq => h.2 (a ++ q) (by rw [hq, List.append_assoc])⟩

theorem go_one {t : Tree} (val : FsId → Ino → Bytes → Den) (follow se : Bool) (f : FsId) (i : Ino) (c : Bytes) :
    t.go val follow se f i [c] =
      match (if (follow || se) = true then t.deref val f i (t.child f i c) else t.child f i c) with
      | .found g j k => if (se && decide (k ≠ .dir)) = true then .err 20 else .found g j k
      | d => d := by
  conv => lhs; unfold Tree.go

theorem go_more {t : Tree} (val : FsId → Ino → Bytes → Den) (follow se : Bool) (f : FsId) (i : Ino) (c c' : Bytes)
    (cs : List Bytes) : t.go val follow se f i (c :: c' :: cs) =
      match t.deref val f i (t.child f i c) with
      | .err e => .err e
      | .notDir => .notDir
      | .missing _ _ _ => .err 2
      | .found g j k => if k = .dir then t.go val follow se g j (c' :: cs) else .notDir := by
  conv => lhs; unfold Tree.go

theorem walk_is {t : Tree} (ht : t.OK) {val : FsId → Ino → Bytes → Den} {follow : Follow} {ex : Bool}
    (hf : FollowIs t val follow) (rl : Bool) (rest : Bytes) :
    ∀ (comp : Bytes) (top : VPath) (i : Ino) (l : Log), (47 : UInt8) ∉ comp → comp ++ rest ≠ [] → PathText (comp ++ rest) →
      top.lc = comp ++ rest → top.ent = some (i, .dir) →
      t.go val rl (endsWithSlash (comp ++ rest)) top.fs i (components (comp ++ rest)) ≠ .notDir →
      (t.go val rl (endsWithSlash (comp ++ rest)) top.fs i (components (comp ++ rest))).Is
        (walk t.world ex follow rl top rest l) := by
  induction rest with
  | nil =>
    intro comp top i l hs hne hp hlc he hd
    rw [List.append_nil] at hne hp hd ⊢
    have h0 : (0 : UInt8) ∉ comp := hp.1
    rw [components_end comp hs hne, endsWithSlash_no comp hs, go_one] at hd ⊢
    rw [Bool.or_false] at hd ⊢
    have hg := getEntry_is ht (ex := ex) hf hs h0 hne (Or.inl rfl) hlc he rl l
    generalize (if rl = true then t.deref val top.fs i (t.child top.fs i comp) else t.child top.fs i comp) = d at *
    unfold walk
    cases d with
    | err e => exact hg hd
    | notDir => exact absurd rfl hd
    | found g j k => exact hg (fun h => by cases h)
    | missing g j nm => exact hg (fun h => by cases h)
  | cons c rest ih =>
    intro comp top i l hs hne hp hlc he hd
    unfold walk
    by_cases hc : c = slash
    case neg =>
      rw [if_pos hc]
      have h1 : comp ++ c :: rest = (comp ++ [c]) ++ rest := by simp
      rw [h1] at hne hp hlc hd ⊢
      refine ih (comp ++ [c]) top i l ?_ hne hp hlc he hd
      intro hm
      rcases List.mem_append.mp hm with hm | hm
      · exact hs hm
      · simp only [List.mem_singleton] at hm
        exact hc hm.symm
    rw [if_neg (not_not_intro hc)]
    have hc' : c = 47 := hc
    subst hc'
    have h0 : (0 : UInt8) ∉ comp := fun hm => hp.1 (List.mem_append_left _ hm)
    have hp' : PathText rest := (PathText.tail (a := comp) hp).tail (a := [47])
    have hnz : rest ≠ [] → (47 :: rest).getD 1 0 ≠ 0 := by
      intro hr
      cases rest with
      | nil => exact absurd rfl hr
      | cons x xs =>
        intro h
        have hx : x = 0 := h
        exact hp'.1 (hx ▸ List.mem_cons_self)
    dsimp only
    by_cases hcomp : comp = []
    · -- an empty component
      subst hcomp
      rw [List.nil_append] at hlc hd ⊢
      rw [getEntry_empty true l hlc]
      dsimp only
      rw [if_neg (by simp)]
      by_cases hr : rest = []
      · subst hr
        have : haveToStop [47] top = some 0 := by
          unfold haveToStop
          rw [he]
          rfl
        rw [this]
        exact ⟨rfl, rfl, he⟩
      · have : haveToStop (47 :: rest) top = none := by
          unfold haveToStop
          rw [he]
          dsimp only
          rw [if_neg (hnz hr)]
        rw [this]
        dsimp only
        rw [components_slash, endsWithSlash_cons _ _ hr] at hd ⊢
        exact ih [] { top with lc := rest } i _ (by simp) (by simpa using hr) (by simpa using hp') rfl he hd
    · have hg := getEntry_is ht (ex := ex) hf hs h0 hcomp (Or.inr ⟨rest, rfl⟩) hlc he true l
      rw [components_mid comp rest hs hcomp] at hd ⊢
      rw [if_pos rfl] at hg
      by_cases hr : rest = []
      · subst hr
        have hes : endsWithSlash (comp ++ [47]) = true := by
          rw [endsWithSlash_app _ _ (by simp)]
          rfl
        have hnil : components [] = [] := rfl
        rw [hes, hnil, go_one, Bool.or_true, if_pos rfl] at hd ⊢
        generalize t.deref val top.fs i (t.child top.fs i comp) = d at *
        generalize getEntry t.world ex follow top [47] true l = r at *
        cases d with
        | err e =>
          have hg := hg hd
          rw [if_pos hg.2]
          exact hg
        | notDir => exact absurd rfl hd
        | missing g j nm =>
          have hg := hg (fun h => by cases h)
          rw [if_neg (by rw [hg.1]; simp)]
          have : haveToStop [47] r.2.1 = some 0 := by
            unfold haveToStop
            rw [hg.2.2.1]
            rfl
          rw [this]
          exact ⟨rfl, hg.2⟩
        | found g j k =>
          have hg := hg (fun h => by cases h)
          rw [if_neg (by rw [hg.1]; simp)]
          dsimp only at hd ⊢
          by_cases hk : k = .dir
          · subst hk
            have : haveToStop [47] r.2.1 = some 0 := by
              unfold haveToStop
              rw [hg.2.2]
              rfl
            rw [this]
            exact ⟨rfl, hg.2⟩
          · rw [if_pos (by simpa using hk)]
            have : haveToStop [47] r.2.1 = some (-ENOTDIR) := by
              unfold haveToStop
              rw [hg.2.2]
              dsimp only
              rw [if_pos (by rfl), if_pos hk]
            rw [this]
            exact ⟨rfl, (by decide : (-ENOTDIR : Int) ≠ 0)⟩
      · have hes : endsWithSlash (comp ++ 47 :: rest) = endsWithSlash rest := by
          rw [endsWithSlash_app _ _ (by simp), endsWithSlash_cons _ _ hr]
        rw [hes] at hd ⊢
        cases hcr : components rest with
        | nil =>
          obtain ⟨q, hq⟩ := components_nil rest hr hcr
          exfalso
          cases hqq : q.reverse with
          | nil =>
            have : q = [] := by simpa using hqq
            subst this
            exact hp.2 comp (by rw [hq]; rfl)
          | cons x xs =>
            -- `rest` is made of slashes only
            have hall : ∀ p : Bytes, components p = [] → ∀ x ∈ p, x = 47 := by
              intro p
              induction p with
              | nil => intro _ x hx; cases hx
              | cons y p ih2 =>
                intro hcp z hz
                by_cases hy : y = 47
                · subst hy
                  rw [components_slash] at hcp
                  rcases List.mem_cons.mp hz with rfl | hz
                  · rfl
                  · exact ih2 hcp z hz
                · exfalso
                  unfold components pieces at hcp
                  rw [if_neg hy] at hcp
                  split at hcp <;> simp at hcp
            have hqe : q = xs.reverse ++ [x] := by
              have := congrArg List.reverse hqq
              simpa using this
            have hx : x = 47 := hall rest hcr x (by rw [hq, hqe]; simp)
            exact hp'.2 xs.reverse (by rw [hq, hqe, hx]; simp)
        | cons c' cs =>
          rw [hcr, go_more] at hd
          rw [go_more]
          generalize t.deref val top.fs i (t.child top.fs i comp) = d at *
          generalize getEntry t.world ex follow top (47 :: rest) true l = r at *
          cases d with
          | err e =>
            have hg := hg (fun h => by cases h)
            rw [if_pos hg.2]
            exact hg
          | notDir => exact absurd rfl hd
          | missing g j nm =>
            have hg := hg (fun h => by cases h)
            rw [if_neg (by rw [hg.1]; simp)]
            have : haveToStop (47 :: rest) r.2.1 = some (-ENOENT) := by
              unfold haveToStop
              rw [hg.2.2.1]
              dsimp only
              rw [if_pos (hnz hr)]
            rw [this]
            exact ⟨rfl, (by decide : (-ENOENT : Int) ≠ 0)⟩
          | found g j k =>
            have hg := hg (fun h => by cases h)
            rw [if_neg (by rw [hg.1]; simp)]
            dsimp only at hd ⊢
            by_cases hk : k = .dir
            · subst hk
              rw [if_pos rfl] at hd ⊢
              have : haveToStop (47 :: rest) r.2.1 = none := by
                unfold haveToStop
                rw [hg.2.2]
                dsimp only
                rw [if_neg (hnz hr)]
              rw [this]
              dsimp only
              rw [← hcr] at hd ⊢
              have := ih [] { r.2.1 with lc := rest } j (r.2.2 ++ replaceLog top r.2.1) (by simp) (by simpa using hr)
                (by simpa using hp') rfl hg.2.2
              rw [List.nil_append] at this
              have hfs : ({ r.2.1 with lc := rest } : VPath).fs = g := hg.2.1
              rw [hfs] at this
              exact this hd
            · rw [if_neg hk] at hd
              exact absurd rfl hd

/-- What a link denotes when `n` more may be nested. -/
def valOf (t : Tree) : Nat → FsId → Ino → Bytes → Den
  | 0 => fun _ _ _ => Den.err 40
  | n + 1 => t.den n true

theorem den_eq (t : Tree) (n : Nat) (follow : Bool) (f : FsId) (i : Ino) (p : Bytes) : t.den n follow f i p =
    if p = [] then .err 2
    else if isAbsolute p = true then
      t.go (valOf t n) follow (endsWithSlash p) t.rootFs (t.rootIno t.rootFs) (components p)
    else t.go (valOf t n) follow (endsWithSlash p) f i (components p) := by
  cases n <;> rfl

def subOf (w : World) (ex : Bool) : Nat → Option (VPath → Bool → Log → Res)
  | 0 => none
  | n + 1 => some (resolveAt w ex n)

theorem resolveAt_eq (w : World) (ex : Bool) (n : Nat) (top : VPath) (rl : Bool) (l : Log) :
    resolveAt w ex n top rl l = resolveStr w ex (followLink w ex (subOf w ex n)) top rl l := by
  cases n <;> rfl

theorem isAbsolute_iff (p : Bytes) : isAbsolute p = true ↔ p.getD 0 0 = slash := by
  unfold isAbsolute slash
  cases p with
  | nil => simp
  | cons c p => simp

/-- A resolution from a frame that is already at the right place. -/
theorem resolveAt_is {t : Tree} (ht : t.OK) (ex : Bool) (n : Nat) : ∀ (rl : Bool) (top : VPath) (i : Ino) (l : Log),
    PathText top.lc → top.ent = some (i, .dir) →
    (isAbsolute top.lc = true → top.fs = t.rootFs ∧ i = t.rootIno t.rootFs) →
    t.den n rl top.fs i top.lc ≠ .notDir → (t.den n rl top.fs i top.lc).Is (resolveAt t.world ex n top rl l) := by
  have key : ∀ n, FollowIs t (valOf t n) (followLink t.world ex (subOf t.world ex n)) →
      ∀ (rl : Bool) (top : VPath) (i : Ino) (l : Log),
      PathText top.lc → top.ent = some (i, .dir) →
      (isAbsolute top.lc = true → top.fs = t.rootFs ∧ i = t.rootIno t.rootFs) →
      t.den n rl top.fs i top.lc ≠ .notDir → (t.den n rl top.fs i top.lc).Is (resolveAt t.world ex n top rl l) := by
    intro n hf rl top i l hp he habs hd
    rw [resolveAt_eq]
    unfold resolveStr
    rw [den_eq] at hd ⊢
    by_cases hemp : top.lc = []
    · rw [if_pos hemp, if_pos hemp]
      exact ⟨rfl, (by decide : (-ENOENT : Int) ≠ 0)⟩
    · rw [if_neg hemp] at hd ⊢
      rw [if_neg hemp]
      have hsame : (if isAbsolute top.lc = true then
          t.go (valOf t n) rl (endsWithSlash top.lc) t.rootFs (t.rootIno t.rootFs) (components top.lc)
          else t.go (valOf t n) rl (endsWithSlash top.lc) top.fs i (components top.lc)) =
          t.go (valOf t n) rl (endsWithSlash top.lc) top.fs i (components top.lc) := by
        split
        · rename_i ha
          obtain ⟨h1, h2⟩ := habs ha
          rw [h1, h2]
        · rfl
      rw [hsame] at hd ⊢
      exact walk_is ht hf rl top.lc [] top i l (by simp) hemp hp rfl he hd
  have hfol : ∀ n, (∀ m, n = m + 1 → ∀ (rl : Bool) (top : VPath) (i : Ino) (l : Log),
      PathText top.lc → top.ent = some (i, .dir) →
      (isAbsolute top.lc = true → top.fs = t.rootFs ∧ i = t.rootIno t.rootFs) →
      t.den m rl top.fs i top.lc ≠ .notDir → (t.den m rl top.fs i top.lc).Is (resolveAt t.world ex m top rl l)) →
      FollowIs t (valOf t n) (followLink t.world ex (subOf t.world ex n)) := by
    intro n ih top np l i j he hnp hfs hd
    unfold followLink
    rw [hnp]
    dsimp only
    have htg : t.world.target l np.fs j = .ok (t.target np.fs j) := rfl
    rw [htg]
    dsimp only
    cases n with
    | zero => exact ⟨rfl, (by decide : (-ELOOP : Int) ≠ 0)⟩
    | succ m =>
      dsimp only [subOf, valOf] at hd ⊢
      by_cases ha : isAbsolute (t.target np.fs j) = true
      · have hb : ((t.target np.fs j).getD 0 0 == slash) = true := by
          rw [beq_iff_eq]
          exact (isAbsolute_iff _).mp ha
        have hden : t.den m true top.fs i (t.target np.fs j) =
            t.den m true t.rootFs (t.rootIno t.rootFs) (t.target np.fs j) := by
          rw [den_eq, den_eq, if_pos ha, if_pos ha]
        rw [hden] at hd ⊢
        simp only [hb, if_true]
        have := ih m rfl true { rootPath t.world with lc := t.target np.fs j } (t.rootIno t.rootFs)
          (l ++ [Ev.readlink np.fs j] ++ ([Ev.unlock top.fs ex, Ev.release top.fs] ++ rootLog t.world ex) ++
            retainIno (rootPath t.world)) (ht.links _ _) rfl (fun _ => ⟨rfl, rfl⟩) hd
        exact Is_congr this rfl rfl rfl rfl
      · have hb : ((t.target np.fs j).getD 0 0 == slash) = false := by
          rw [beq_eq_false_iff_ne]
          exact fun h => ha ((isAbsolute_iff _).mpr h)
        simp only [hb]
        have := ih m rfl true { top with lc := t.target np.fs j } i
          (l ++ [Ev.readlink np.fs j] ++ [] ++ retainIno top) (ht.links _ _) he (fun h => absurd h ha) hd
        exact Is_congr this rfl rfl rfl rfl
  induction n with
  | zero => exact key 0 (hfol 0 (fun m h => by cases h))
  | succ n ih =>
    refine key (n + 1) (hfol (n + 1) (fun m h => ?_))
    cases h
    exact ih

/-- C79. On a tree that nobody changes, resolving a path gives what the path denotes, with up to three nested links, unless
something that is not a directory is used as one in the middle of a path. -/
theorem resolve_correct_partial (t : Tree) (ht : t.OK) (l0 : Log) (path : Bytes) (hp : PathText path) (ex rl : Bool)
    (hd : t.den 3 rl t.cwdFs t.cwdIno path ≠ .notDir) :
    (t.den 3 rl t.cwdFs t.cwdIno path).Is (resolve t.world l0 path ex rl) := by
  unfold resolve
  dsimp only
  by_cases ha : isAbsolute path = true
  · have hb := (isAbsolute_iff _).mp ha
    have hden : t.den 3 rl t.cwdFs t.cwdIno path = t.den 3 rl t.rootFs (t.rootIno t.rootFs) path := by
      rw [den_eq, den_eq, if_pos ha, if_pos ha]
    rw [hden] at hd ⊢
    have hsp : startPath t.world path = rootPath t.world := if_pos hb
    rw [hsp]
    have := resolveAt_is ht ex 3 rl { rootPath t.world with lc := path } (t.rootIno t.rootFs)
      (l0 ++ startLog t.world ex path ++ retainIno (rootPath t.world)) hp rfl (fun _ => ⟨rfl, rfl⟩) hd
    split
    · rename_i h0
      exact Is_congr this h0.symm rfl rfl rfl
    · exact Is_congr this rfl rfl rfl rfl
  · have hb : ¬ path.getD 0 0 = slash := fun h => ha ((isAbsolute_iff _).mpr h)
    have hsp : startPath t.world path = t.world.cwd := if_neg hb
    rw [hsp]
    have := resolveAt_is ht ex 3 rl { t.world.cwd with lc := path } t.cwdIno
      (l0 ++ startLog t.world ex path ++ retainIno t.world.cwd) hp rfl (fun h => absurd h ha) hd
    split
    · rename_i h0
      exact Is_congr this h0.symm rfl rfl rfl
    · exact Is_congr this rfl rfl rfl rfl

/-! The name at the end of the path. -/

theorem followLink_lc (w : World) (ex : Bool) (sub) (top np : VPath) (l : Log) :
    (followLink w ex sub top np l).2.1.lc = np.lc := by
  unfold followLink
  split
  · rfl
  · split
    · rfl
    · split <;> rfl

theorem enterMount_lc (w : World) (ex : Bool) (p : VPath) (l : Log) : (enterMount w ex p l).1.lc = p.lc := by
  unfold enterMount
  split
  · rfl
  · split <;> rfl

theorem getEntryAt_lc (w : World) (l : Log) (p : VPath) (n : Bytes) : (getEntryAt w l p n).1.lc = p.lc := by
  unfold getEntryAt
  split <;> rfl

theorem getEntry_lc {w : World} {ex : Bool} {follow : Follow} (hf : ∀ a b l, (follow a b l).2.1.lc = b.lc) (top : VPath)
    (path : Bytes) (rs : Bool) (l : Log) : (getEntry w ex follow top path rs l).2.1.lc = top.lc := by
  unfold getEntry
  split
  · rename_i np l1 he
    unfold crossDotdot at he
    split at he
    · split at he
      · cases he
      · split at he
        · cases he
          rfl
        · cases he
          rfl
    · cases he
  · split
    · rfl
    · dsimp only
      split
      · rw [hf, enterMount_lc, getEntryAt_lc]
      · dsimp only
        rw [enterMount_lc, getEntryAt_lc]

theorem walk_lc {w : World} {ex : Bool} {follow : Follow} (hf : ∀ a b l, (follow a b l).2.1.lc = b.lc) (rl : Bool)
    (rest : Bytes) : ∀ (comp : Bytes) (top : VPath) (l : Log), (47 : UInt8) ∉ comp → PathText (comp ++ rest) →
      top.lc = comp ++ rest → components (comp ++ rest) ≠ [] → (walk w ex follow rl top rest l).1 = 0 →
      ∃ pre c, components (comp ++ rest) = pre ++ [c] ∧
        (walk w ex follow rl top rest l).2.1.lc = c ++ (if endsWithSlash (comp ++ rest) then [47] else []) := by
  induction rest with
  | nil =>
    intro comp top l hs hp hlc hne h0
    rw [List.append_nil] at hp hlc hne ⊢
    have hcn : comp ≠ [] := by
      rintro rfl
      exact hne rfl
    refine ⟨[], comp, components_end comp hs hcn, ?_⟩
    unfold walk
    dsimp only
    rw [getEntry_lc hf, hlc, endsWithSlash_no comp hs]
    simp
  | cons c rest ih =>
    intro comp top l hs hp hlc hne h0
    unfold walk at h0 ⊢
    by_cases hc : c = slash
    case neg =>
      rw [if_pos hc] at h0 ⊢
      have h1 : comp ++ c :: rest = (comp ++ [c]) ++ rest := by simp
      rw [h1] at hne hp hlc ⊢
      refine ih (comp ++ [c]) top l ?_ hp hlc hne h0
      intro hm
      rcases List.mem_append.mp hm with hm | hm
      · exact hs hm
      · simp only [List.mem_singleton] at hm
        exact hc hm.symm
    rw [if_neg (not_not_intro hc)] at h0 ⊢
    have hc' : c = 47 := hc
    subst hc'
    have hp' : PathText rest := (PathText.tail (a := comp) hp).tail (a := [47])
    dsimp only at h0 ⊢
    have hlc2 := getEntry_lc hf (w := w) (ex := ex) top (47 :: rest) true l
    generalize getEntry w ex follow top (47 :: rest) true l = r at *
    by_cases hr : r.1 ≠ 0
    · rw [if_pos hr] at h0
      exact absurd h0 hr
    rw [if_neg hr] at h0 ⊢
    have hnz : rest ≠ [] → (47 :: rest).getD 1 0 ≠ 0 := by
      intro hr
      cases rest with
      | nil => exact absurd rfl hr
      | cons x xs =>
        intro h
        have hx : x = 0 := h
        exact hp'.1 (hx ▸ List.mem_cons_self)
    by_cases hre : rest = []
    · subst hre
      have hcn : comp ≠ [] := by
        rintro rfl
        exact hne rfl
      have hst : ∃ rc, haveToStop [47] r.2.1 = some rc := by
        unfold haveToStop
        split
        · exact ⟨_, rfl⟩
        · exact ⟨_, rfl⟩
      obtain ⟨rc, hst⟩ := hst
      rw [hst]
      dsimp only
      refine ⟨[], comp, components_mid comp [] hs hcn, ?_⟩
      rw [hlc2, hlc, endsWithSlash_app _ _ (by simp)]
      rfl
    · have hes : endsWithSlash (comp ++ 47 :: rest) = endsWithSlash rest := by
        rw [endsWithSlash_app _ _ (by simp), endsWithSlash_cons _ _ hre]
      cases hst : haveToStop (47 :: rest) r.2.1 with
      | some rc =>
        rw [hst] at h0
        dsimp only at h0
        unfold haveToStop at hst
        split at hst
        · rw [if_pos (hnz hre)] at hst
          cases hst
          exact absurd h0 (by decide)
        · rw [if_neg (hnz hre)] at hst
          cases hst
      | none =>
        rw [hst] at h0
        dsimp only at h0 ⊢
        have hcomps : ∃ pre0, components (comp ++ 47 :: rest) = pre0 ++ components rest := by
          by_cases hcn : comp = []
          · subst hcn
            exact ⟨[], components_slash rest⟩
          · exact ⟨[comp], components_mid comp rest hs hcn⟩
        obtain ⟨pre0, hcomps⟩ := hcomps
        have hner : components rest ≠ [] := by
          intro hnil
          have hrest := components_nil rest hre hnil
          by_cases hcn : comp = []
          · subst hcn
            exact hne (by rw [List.nil_append, components_slash]; exact hnil)
          · -- then the path ends with two slashes
            obtain ⟨q, hq⟩ := hrest
            have hall : ∀ p : Bytes, components p = [] → ∀ x ∈ p, x = 47 := by
              intro p
              induction p with
              | nil => intro _ x hx; cases hx
              | cons y p ih2 =>
                intro hcp z hz
                by_cases hy : y = 47
                · subst hy
                  rw [components_slash] at hcp
                  rcases List.mem_cons.mp hz with rfl | hz
                  · rfl
                  · exact ih2 hcp z hz
                · exfalso
                  unfold components pieces at hcp
                  rw [if_neg hy] at hcp
                  split at hcp <;> simp at hcp
            cases hqq : q.reverse with
            | nil =>
              have : q = [] := by simpa using hqq
              subst this
              exact hp.2 comp (by rw [hq]; rfl)
            | cons x xs =>
              have hqe : q = xs.reverse ++ [x] := by
                have := congrArg List.reverse hqq
                simpa using this
              have hx : x = 47 := hall rest hnil x (by rw [hq, hqe]; simp)
              exact hp'.2 xs.reverse (by rw [hq, hqe, hx]; simp)
        obtain ⟨pre, c, h1, h2⟩ := ih [] { r.2.1 with lc := rest } (r.2.2 ++ replaceLog top r.2.1) (by simp)
          (by simpa using hp') rfl (by simpa using hner) h0
        rw [List.nil_append] at h1 h2
        refine ⟨pre0 ++ pre, c, ?_, ?_⟩
        · rw [hcomps, h1, List.append_assoc]
        · rw [h2, hes]

theorem components_mem {p c : Bytes} (h : c ∈ components p) : c ≠ [] ∧ (47 : UInt8) ∉ c := by
  have hps : ∀ p : Bytes, ∀ x ∈ pieces p, (47 : UInt8) ∉ x := by
    intro p
    induction p with
    | nil =>
      intro x hx
      simp [pieces] at hx
      subst hx
      simp
    | cons d p ih =>
      intro x hx
      unfold pieces at hx
      split at hx
      · rcases List.mem_cons.mp hx with rfl | hx
        · simp
        · exact ih x hx
      · rename_i hd
        split at hx
        · rename_i hnil
          exact absurd hnil (pieces_ne p)
        · rename_i y ys hy
          rcases List.mem_cons.mp hx with rfl | hx
          · intro hm
            rcases List.mem_cons.mp hm with hm | hm
            · exact hd hm.symm
            · exact ih y (by rw [hy]; exact List.mem_cons_self) hm
          · exact ih x (by rw [hy]; exact List.mem_cons_of_mem _ hx)
  unfold components at h
  rw [List.mem_filter] at h
  exact ⟨by simpa using h.2, hps p c h.1⟩

/-- C81. For every path with a component that does not end with two slashes: the last component is what a successful resolution
reports, with the slash that follows it, if any. -/
theorem last_component_partial (w : World) (l0 : Log) (path : Bytes) (hp : PathText path) (ex rl : Bool)
    (hc : components path ≠ []) (h0 : (resolve w l0 path ex rl).1 = 0) :
    ∃ pre c, components path = pre ++ [c] ∧
      (resolve w l0 path ex rl).2.1.lc = c ++ (if endsWithSlash path then [47] else []) := by
  have hpne : path ≠ [] := by
    rintro rfl
    exact hc rfl
  unfold resolve at h0 ⊢
  dsimp only at h0 ⊢
  have key := walk_lc (w := w) (ex := ex) (followLink_lc w ex (subOf w ex 3)) rl path [] { startPath w path with lc := path }
    (l0 ++ startLog w ex path ++ retainIno (startPath w path)) (by simp) hp rfl hc
  have heq : resolveAt w ex 3 { startPath w path with lc := path } rl
      (l0 ++ startLog w ex path ++ retainIno (startPath w path)) =
      walk w ex (followLink w ex (subOf w ex 3)) rl { startPath w path with lc := path } path
        (l0 ++ startLog w ex path ++ retainIno (startPath w path)) := by
    rw [resolveAt_eq]
    unfold resolveStr
    rw [if_neg hpne]
  rw [heq] at h0 ⊢
  generalize walk w ex (followLink w ex (subOf w ex 3)) rl { startPath w path with lc := path } path
        (l0 ++ startLog w ex path ++ retainIno (startPath w path)) = r at *
  by_cases hr : r.1 = 0
  · rw [if_pos hr]
    obtain ⟨pre, c, h1, h2⟩ := key hr
    rw [List.nil_append] at h1 h2
    refine ⟨pre, c, h1, ?_⟩
    have hcm := components_mem (p := path) (c := c) (by rw [h1]; simp)
    dsimp only
    unfold fixLast
    have hhd : ¬ r.2.1.lc.getD 0 0 = slash := by
      rw [h2]
      cases c with
      | nil => exact absurd rfl hcm.1
      | cons x xs =>
        intro hx
        have hx : x = 47 := hx
        exact hcm.2 (hx ▸ List.mem_cons_self)
    rw [if_neg hhd, h2]
  · rw [if_neg hr] at h0
    exact absurd h0 hr

theorem go_missing {t : Tree} {val} : ∀ (cs : List Bytes) (f i g d name), t.go val false false f i cs = .missing g d name →
    (∀ rl, t.go val rl false f i cs = .missing g d name) ∧ t.go val false true f i cs = .missing g d name ∧
      t.go val true true f i cs = .missing g d name ∧ ∃ pre, cs = pre ++ [name] := by
  intro cs
  induction cs with
  | nil =>
    intro f i g d name h
    unfold Tree.go at h
    cases h
  | cons c cs ih =>
    intro f i g d name h
    cases cs with
    | nil =>
      rw [go_one] at h
      rw [if_neg (by simp)] at h
      have hch : t.child f i c = .missing g d name := by
        cases hcc : t.child f i c with
        | err e => rw [hcc] at h; cases h
        | notDir => rw [hcc] at h; cases h
        | found a b k => rw [hcc] at h; simp at h
        | missing a b nm => rw [hcc] at h; exact h
      have hname : name = c := by
        unfold Tree.child at hch
        split at hch
        · split at hch
          · cases hch
          · split at hch
            · cases hch; rfl
            · cases hch
        · split at hch
          · cases hch; rfl
          · split at hch <;> cases hch
      subst hname
      refine ⟨fun rl => ?_, ?_, ?_, [], rfl⟩
      · rw [go_one, hch]
        cases rl <;> rfl
      · rw [go_one, hch]
        rfl
      · rw [go_one, hch]
        rfl
    | cons c' cs =>
      rw [go_more] at h
      cases hdd : t.deref val f i (t.child f i c) with
      | err e => rw [hdd] at h; cases h
      | notDir => rw [hdd] at h; cases h
      | missing a b nm => rw [hdd] at h; cases h
      | found a b k =>
        rw [hdd] at h
        dsimp only at h
        by_cases hk : k = .dir
        · rw [if_pos hk] at h
          obtain ⟨h1, h2, h3, pre, h4⟩ := ih a b g d name h
          refine ⟨fun rl => ?_, ?_, ?_, c :: pre, by rw [h4]; rfl⟩
          · rw [go_more, hdd]
            dsimp only
            rw [if_pos hk]
            exact h1 rl
          · rw [go_more, hdd]
            dsimp only
            rw [if_pos hk]
            exact h2
          · rw [go_more, hdd]
            dsimp only
            rw [if_pos hk]
            exact h3
        · rw [if_neg hk] at h
          cases h

/-- C81. If the last component of a path names nothing, not even a link, then every call that may create it is given exactly the
directory and the name the path denotes. -/
theorem resolve_creates_partial (t : Tree) (ht : t.OK) (l0 : Log) (path : Bytes) (hp : PathText path)
    (hns : endsWithSlash path = false) (f : FsId) (d : Ino) (name : Bytes)
    (hd : t.den 3 false t.cwdFs t.cwdIno path = .missing f d name) (ex rl : Bool) :
    (resolve t.world l0 path ex rl).1 = 0 ∧ (resolve t.world l0 path ex rl).2.1 = ⟨f, none, d, name⟩ := by
  have hpne : path ≠ [] := by
    rintro rfl
    cases hd
  have hgo : t.den 3 rl t.cwdFs t.cwdIno path = .missing f d name ∧ ∃ pre, components path = pre ++ [name] := by
    rw [den_eq, if_neg hpne] at hd ⊢
    rw [hns] at hd ⊢
    split
    · rename_i ha
      rw [if_pos ha] at hd
      obtain ⟨h1, _, _, h4⟩ := go_missing _ _ _ _ _ _ hd
      exact ⟨h1 rl, h4⟩
    · rename_i ha
      rw [if_neg ha] at hd
      obtain ⟨h1, _, _, h4⟩ := go_missing _ _ _ _ _ _ hd
      exact ⟨h1 rl, h4⟩
  obtain ⟨hgo, pre, hpre⟩ := hgo
  have h := resolve_correct_partial t ht l0 path hp ex rl (by rw [hgo]; intro h; cases h)
  rw [hgo] at h
  obtain ⟨pre2, c, h1, h2⟩ := last_component_partial t.world l0 path hp ex rl (by rw [hpre]; simp) h.1
  rw [hpre] at h1
  have hcn : c = name := by
    have := congrArg List.getLast? h1
    simpa using this.symm
  rw [hns] at h2
  have h2' : (resolve t.world l0 path ex rl).2.1.lc = name := by
    rw [h2, hcn]
    simp
  refine ⟨h.1, ?_⟩
  have h3 := h.2
  generalize (resolve t.world l0 path ex rl).2.1 = v at *
  obtain ⟨vf, ve, vd, vl⟩ := v
  dsimp only at h3 h2'
  rw [h3.1, h3.2.1, h3.2.2, h2']

/-! The names that reach the file systems. -/

/-- Names from this path, from the target of some link, or `..`. -/
def Named (w : World) (path : Bytes) (n : Bytes) : Prop :=
  n ∈ components path ∨ (∃ l f i tgt, w.target l f i = .ok tgt ∧ n ∈ components tgt) ∨ n = [46, 46]

def NamesOK (P : Bytes → Prop) (l : Log) : Prop := ∀ f i n, Ev.lookup f i n ∈ l → P n

theorem NamesOK.app {P} {l x : Log} (h : NamesOK P l) (hx : NamesOK P x) : NamesOK P (l ++ x) := by
  intro f i n hm
  rcases List.mem_append.mp hm with hm | hm
  · exact h f i n hm
  · exact hx f i n hm

theorem NamesOK.ret (P) (p : VPath) : NamesOK P (retainIno p) := by
  unfold retainIno
  split <;> intro f i n hm <;> simp at hm

theorem NamesOK.rel (P) (p : VPath) : NamesOK P (releaseIno p) := by
  unfold releaseIno
  split <;> intro f i n hm <;> simp at hm

theorem NamesOK.replace (P) (p q : VPath) : NamesOK P (replaceLog p q) := (NamesOK.rel P p).app (NamesOK.ret P q)

theorem getEntry_names {w : World} {P : Bytes → Prop} (hdd : P [46, 46]) {ex : Bool} {follow : Follow}
    (hf : ∀ a b l, NamesOK P l → NamesOK P (follow a b l).2.2) {comp rest : Bytes} (hP : comp ≠ [] → P comp) {top : VPath}
    (hlc : top.lc = comp ++ rest) (rs : Bool) (l : Log) (hl : NamesOK P l) :
    NamesOK P (getEntry w ex follow top rest rs l).2.2 := by
  have hcd : NamesOK P (crossDotdot w ex top l).2 := by
    unfold crossDotdot
    split
    · split
      · exact hl.app (by intro f i n hm; simp at hm)
      · split
        · exact hl.app (by intro f i n hm; simp at hm)
        · refine (hl.app (by intro f i n hm; simp at hm)).app ?_
          intro f i n hm
          simp only [List.mem_singleton, Ev.lookup.injEq] at hm
          rw [hm.2.2]
          exact hdd
    · exact hl
  unfold getEntry
  split
  · rename_i np l1 he
    rw [he] at hcd
    exact hcd
  · rename_i l1 he
    rw [he] at hcd
    split
    · exact hcd
    · rename_i hlen
      have hcne : comp ≠ [] := by
        rintro rfl
        exact hlen (by rw [hlc]; rfl)
      have hname : compOf top.lc rest = comp := by
        unfold compOf
        rw [hlc, List.length_append, Nat.add_sub_cancel, List.take_left]
      rw [hname]
      have hga : NamesOK P (getEntryAt w l1 top comp).2 := by
        unfold getEntryAt
        split
        · exact hcd.app (by intro f i n hm; simp at hm)
        · refine hcd.app ?_
          intro f i n hm
          simp only [List.mem_singleton, Ev.lookup.injEq] at hm
          rw [hm.2.2]
          exact hP hcne
      have hem : ∀ p l', NamesOK P l' → NamesOK P (enterMount w ex p l').2 := by
        intro p l' hl'
        unfold enterMount
        split
        · exact hl'
        · split
          · exact hl'
          · exact hl'.app (by intro f i n hm; simp at hm)
      dsimp only
      split
      · exact hf _ _ _ (hem _ _ hga)
      · exact hem _ _ hga

theorem walk_names {w : World} {P : Bytes → Prop} (hdd : P [46, 46]) {ex : Bool} {follow : Follow}
    (hf : ∀ a b l, NamesOK P l → NamesOK P (follow a b l).2.2) (rl : Bool) (rest : Bytes) :
    ∀ (comp : Bytes) (top : VPath) (l : Log), (47 : UInt8) ∉ comp → top.lc = comp ++ rest →
      (∀ c ∈ components (comp ++ rest), P c) → NamesOK P l → NamesOK P (walk w ex follow rl top rest l).2.2 := by
  induction rest with
  | nil =>
    intro comp top l hs hlc hc hl
    unfold walk
    refine (getEntry_names hdd hf (comp := comp) (fun hne => ?_) hlc rl l hl).app (NamesOK.replace P _ _)
    refine hc comp ?_
    rw [List.append_nil, components_end comp hs hne]
    simp
  | cons c rest ih =>
    intro comp top l hs hlc hc hl
    unfold walk
    by_cases hcs : c = slash
    case neg =>
      rw [if_pos hcs]
      have h1 : comp ++ c :: rest = (comp ++ [c]) ++ rest := by simp
      rw [h1] at hlc hc
      refine ih (comp ++ [c]) top l ?_ hlc hc hl
      intro hm
      rcases List.mem_append.mp hm with hm | hm
      · exact hs hm
      · simp only [List.mem_singleton] at hm
        exact hcs hm.symm
    rw [if_neg (not_not_intro hcs)]
    have hc' : c = 47 := hcs
    subst hc'
    have hg := getEntry_names hdd hf (w := w) (ex := ex) (comp := comp) (rest := 47 :: rest) (fun hne => hc comp (by
      rw [components_mid comp rest hs hne]; simp)) hlc true l hl
    have hsub : ∀ x ∈ components rest, P x := by
      intro x hx
      refine hc x ?_
      by_cases hne : comp = []
      · subst hne
        rw [List.nil_append, components_slash]
        exact hx
      · rw [components_mid comp rest hs hne]
        exact List.mem_cons_of_mem _ hx
    dsimp only
    split
    · exact hg
    · split
      · exact hg.app (NamesOK.replace P _ _)
      · exact ih [] _ _ (by simp) rfl (by simpa using hsub) (hg.app (NamesOK.replace P _ _))

theorem resolveAt_names {w : World} {P : Bytes → Prop} (hdd : P [46, 46])
    (ht : ∀ l f i tgt, w.target l f i = .ok tgt → ∀ c ∈ components tgt, P c) {ex : Bool} (n : Nat) :
    ∀ top rl l, (∀ c ∈ components top.lc, P c) → NamesOK P l → NamesOK P (resolveAt w ex n top rl l).2.2 := by
  have hfl : ∀ sub, (∀ f, sub = some f → ∀ top rl l, (∀ c ∈ components top.lc, P c) → NamesOK P l →
      NamesOK P (f top rl l).2.2) → ∀ a b l, NamesOK P l → NamesOK P (followLink w ex sub a b l).2.2 := by
    intro sub hs a b l hl
    unfold followLink
    split
    · exact hl
    · split
      · exact hl.app (by intro f i n hm; simp at hm)
      · rename_i i k he r0 tgt htg
        have h2 : NamesOK P (l ++ [.readlink b.fs i] ++
            (if (tgt.getD 0 0 == slash) = true then [Ev.unlock a.fs ex, .release a.fs] ++ rootLog w ex else [])) := by
          refine (hl.app (by intro f i n hm; simp at hm)).app ?_
          intro f i n hm
          split at hm <;> simp [rootLog] at hm
        dsimp only
        generalize (if (tgt.getD 0 0 == slash) = true then rootPath w else a) = rp at *
        generalize l ++ [.readlink b.fs i] ++
            (if (tgt.getD 0 0 == slash) = true then [Ev.unlock a.fs ex, .release a.fs] ++ rootLog w ex else []) = l2 at *
        split
        · exact h2.app (by intro f i n hm; simp at hm)
        · rename_i f
          have hr := hs f rfl { rp with lc := tgt } true (l2 ++ retainIno rp) (ht _ _ _ _ htg) (h2.app (NamesOK.ret P _))
          refine ((hr.app (NamesOK.rel P _)).app ?_).app (by intro f i n hm; simp at hm)
          intro f i n hm
          split at hm <;> simp at hm
  have key : ∀ follow : Follow, (∀ a b l, NamesOK P l → NamesOK P (follow a b l).2.2) → ∀ top rl l,
      (∀ c ∈ components top.lc, P c) → NamesOK P l → NamesOK P (resolveStr w ex follow top rl l).2.2 := by
    intro follow hf top rl l hc hl
    unfold resolveStr
    split
    · exact hl
    · exact walk_names hdd hf rl top.lc [] top l (by simp) rfl hc hl
  induction n with
  | zero => exact key _ (hfl none (fun f h => by cases h))
  | succ n ih =>
    refine key _ (hfl _ (fun f h => ?_))
    cases h
    exact ih

/-- C80. The only names that a file system is asked for are the components of the path and of links' targets, and `..`. -/
theorem lookup_names (w : World) (path : Bytes) (ex rl : Bool) (f : FsId) (i : Ino) (n : Bytes)
    (h : Ev.lookup f i n ∈ (resolve w [] path ex rl).2.2) : Named w path n := by
  have hr := resolveAt_names (w := w) (P := Named w path) (Or.inr (Or.inr rfl))
    (fun l f i tgt ht c hc => Or.inr (Or.inl ⟨l, f, i, tgt, ht, hc⟩)) (ex := ex) 3
    { startPath w path with lc := path } rl ([] ++ startLog w ex path ++ retainIno (startPath w path))
    (fun c hc => Or.inl hc) (by
      refine NamesOK.app ?_ (NamesOK.ret _ _)
      intro f i n hm
      unfold startLog at hm
      split at hm <;> simp [rootLog] at hm)
  have hall : NamesOK (Named w path) (resolve w [] path ex rl).2.2 := by
    unfold resolve
    dsimp only
    split
    · exact hr.app (NamesOK.rel _ _)
    · exact (hr.app (NamesOK.rel _ _)).app (by intro f i n hm; simp at hm)
  exact hall f i n h

/-- C80. If all the components, of the path and of the links, are at most 230 bytes long, every name fits where the file system
copies it. -/
theorem names_fit_partial (w : World) (path : Bytes) (hp : ∀ c ∈ components path, c.length ≤ 230)
    (ht : ∀ l f i tgt, w.target l f i = .ok tgt → ∀ c ∈ components tgt, c.length ≤ 230) (ex rl : Bool) (f : FsId) (i : Ino)
    (n : Bytes) (h : Ev.lookup f i n ∈ (resolve w [] path ex rl).2.2) : nameCopy n = some (n ++ [0]) := by
  have hn : n.length ≤ 230 := by
    rcases lookup_names w path ex rl f i n h with h | ⟨l, f', i', tgt, h1, h2⟩ | rfl
    · exact hp n h
    · exact ht l f' i' tgt h1 n h2
    · decide
  unfold nameCopy ramfsNameMax
  rw [if_pos (by omega)]

/-- C80, violated: for every name longer than that, without slashes, up to any length, looking it up from the current directory
writes past the end of the buffer on the kernel's stack. -/
theorem long_name_violated (t : Tree) (name : Bytes) (hs : (47 : UInt8) ∉ name) (h0 : (0 : UInt8) ∉ name) (hl : 231 ≤ name.length) (ex rl : Bool) :
    Ev.lookup t.cwdFs t.cwdIno name ∈ (resolve t.world [] name ex rl).2.2 ∧ nameCopy name = none := by
  have hne : name ≠ [] := by
    rintro rfl
    simp at hl
  have hhd : ¬ name.getD 0 0 = slash := by
    intro h
    cases name with
    | nil => exact hne rfl
    | cons c n =>
      have hc : c = 47 := h
      exact hs (hc ▸ List.mem_cons_self)
  refine ⟨?_, by unfold nameCopy ramfsNameMax; rw [if_neg (by omega)]⟩
  have hwalk : ∀ (rest comp : Bytes) (follow : Follow) (top : VPath) (l : Log), (47 : UInt8) ∉ rest →
      walk t.world ex follow rl top rest l = walk t.world ex follow rl top [] l := by
    intro rest
    induction rest with
    | nil => intros; rfl
    | cons c rest ih =>
      intro comp follow top l hc
      conv => lhs; unfold walk
      rw [if_pos (by
        intro h
        have h : c = 47 := h
        exact hc (h ▸ List.mem_cons_self))]
      exact ih comp follow top l (fun hm => hc (List.mem_cons_of_mem _ hm))
  have hpre : ∀ l, Ev.lookup t.cwdFs t.cwdIno name ∈
      (resolveAt t.world ex 3 { t.world.cwd with lc := name } rl l).2.2 := by
    intro l
    rw [resolveAt_eq]
    unfold resolveStr
    rw [if_neg hne]
    dsimp only
    rw [hwalk name [] _ _ _ hs]
    unfold walk
    dsimp only
    refine List.mem_append_left _ ?_
    have hnd : ¬ isDotdot name = true := by
      intro h
      have := (isDotdot_iff name [] hs h0 (Or.inl rfl)).mp (by rw [List.append_nil]; exact h)
      rw [this] at hl
      simp at hl
    unfold getEntry crossDotdot
    dsimp only
    rw [if_neg hnd]
    dsimp only
    rw [if_neg (by simpa using hne)]
    have hname : compOf name [] = name := by simp [compOf]
    rw [hname]
    have hga : getEntryAt t.world l { t.world.cwd with lc := name } name =
        ({ t.world.cwd with lc := name, ent := t.lookup t.cwdFs t.cwdIno name, dir := t.cwdIno },
          l ++ [.lookup t.cwdFs t.cwdIno name]) := rfl
    have hin : Ev.lookup t.cwdFs t.cwdIno name ∈ (getEntryAt t.world l { t.world.cwd with lc := name } name).2 := by
      rw [hga]
      simp
    have hem := (enterMount_pre t.world ex (getEntryAt t.world l { t.world.cwd with lc := name } name).1 _).subset hin
    split
    · refine (followLink_pre t.world ex _ ?_ _ _ _).subset hem
      intro f hf
      cases hf
      exact resolveAt_pre t.world ex 2
    · exact hem
  have hsp : startPath t.world name = t.world.cwd := if_neg hhd
  unfold resolve
  dsimp only
  rw [hsp]
  split
  · exact List.mem_append_left _ (hpre _)
  · exact List.mem_append_left _ (List.mem_append_left _ (hpre _))

/-! ## A tree with everything in it -/

/-- File system 0 is the root one. In its root directory: the directory `ab`, with the file `q`; the file `f`; the directory `m`,
where file system 1 is mounted; the link `l` to `m`; the link `d` to `ab/n`, which does not exist; the link `k` to `ab`; the link
`self` to itself. In the root directory of file system 1: the file `x`, the link `b` to `/nope/y`, the link `up` to `../ab/q`. -/
def demo : Tree where
  rootFs := 0
  rootIno := fun _ => 1
  lookup := fun f i n =>
    if n = [46] then some (i, .dir)
    else if n = [46, 46] then some (1, .dir)
    else if (f, i) = (0, 1) then
      if n = [97, 98] then some (2, .dir)
      else if n = [102] then some (3, .file)
      else if n = [109] then some (4, .dir)
      else if n = [108] then some (5, .symlink)
      else if n = [100] then some (6, .symlink)
      else if n = [107] then some (7, .symlink)
      else if n = [115] then some (8, .symlink)
      else none
    else if (f, i) = (0, 2) then if n = [113] then some (9, .file) else none
    else if (f, i) = (1, 1) then
      if n = [120] then some (2, .file)
      else if n = [98] then some (3, .symlink)
      else if n = [117] then some (4, .symlink)
      else none
    else none
  target := fun f i =>
    if (f, i) = (0, 5) then [109]
    else if (f, i) = (0, 6) then [97, 98, 47, 110]
    else if (f, i) = (0, 7) then [97, 98]
    else if (f, i) = (0, 8) then [115]
    else if (f, i) = (1, 3) then [47, 110, 47, 121]
    else if (f, i) = (1, 4) then [46, 46, 47, 97, 98, 47, 113]
    else [97]
  mountAt := fun f i => if (f, i) = (0, 4) then some 1 else none
  mountOf := fun _ => (0, 4)
  cwdFs := 0
  cwdIno := 1

theorem demo_ok : demo.OK := by
  refine ⟨fun f _ => ⟨1, rfl⟩, fun f i => ?_⟩
  have hpt : ∀ p : Bytes, (0 : UInt8) ∉ p → ¬ [47, 47] <:+ p → PathText p := by
    intro p h0 h
    exact ⟨h0, fun q hq => h ⟨q, hq.symm⟩⟩
  show PathText (demo.target f i)
  unfold demo
  dsimp only
  split
  · exact hpt _ (by decide) (by decide)
  split
  · exact hpt _ (by decide) (by decide)
  split
  · exact hpt _ (by decide) (by decide)
  split
  · exact hpt _ (by decide) (by decide)
  split
  · exact hpt _ (by decide) (by decide)
  split
  · exact hpt _ (by decide) (by decide)
  · exact hpt _ (by decide) (by decide)

/-- `/m/../k/q` goes into a mounted file system, out of it, through a link; no link leads elsewhere. -/
example : let r := resolve demo.world [] [47, 109, 47, 46, 46, 47, 107, 47, 113] true true
    r.1 = 0 ∧ r.2.1.fs = 0 ∧ r.2.1.ent = some (9, .file) ∧ NoCross r.2.2 ∧
      demo.den 3 true 0 1 [47, 109, 47, 46, 46, 47, 107, 47, 113] = .found 0 9 .file := by
  refine ⟨by decide +kernel, by decide +kernel, by decide +kernel, ?_, by decide +kernel⟩
  have h : ∀ x ∈ (resolve demo.world [] [47, 109, 47, 46, 46, 47, 107, 47, 113] true true).2.2,
      (match x with | .link d s e ok => decide (s = e ∧ (ok = false → d = s)) | _ => true) = true := by decide +kernel
  intro d s e ok hm
  exact of_decide_eq_true (h _ hm)

/-- `m/x/`: an error at the end. `s`: nested links. `zz/y`: nothing there. -/
example : (resolve demo.world [] [109, 47, 120, 47] false true).1 = -20 ∧
    demo.den 3 true 0 1 [109, 47, 120, 47] = .err 20 ∧
    (resolve demo.world [] [115] false true).1 = -40 ∧ demo.den 3 true 0 1 [115] = .err 40 ∧
    (resolve demo.world [] [122, 122, 47, 121] false true).1 = -2 ∧ demo.den 3 true 0 1 [122, 122, 47, 121] = .err 2 := by
  decide +kernel

/-- `ab/new`: something that can be created. -/
example : demo.den 3 false 0 1 [97, 98, 47, 110] = .missing 0 2 [110] ∧
    (resolve demo.world [] [97, 98, 47, 110] true true).2.1 = ⟨0, none, 2, [110]⟩ := by decide +kernel

/-- Rename of `ab/q` to `n`, and a mount on `ab`: nothing is left but what the mount keeps. -/
example : Held.empty.run (renameOrLink demo.world [97, 98, 47, 113] [110] (fun _ _ => 0)).2 = some Held.empty ∧
    (renameOrLink demo.world [97, 98, 47, 113] [109, 47, 110] (fun _ _ => 0)).1 = -18 ∧
    mpAdd demo.world 2 [97, 98] false false =
      (0, [.retain 0, .lock 0 false, .retainI 0 1, .lookup 0 1 [97, 98], .releaseI 0 1, .retainI 0 2, .releaseI 0 2,
        .retainI 0 2, .unlock 0 false, .retain 2]) := by decide +kernel

/-! ## Violations -/

/-- C47, violated: resolving a link whose target is on another file system (`l` to `m`) succeeds, and returns that file system
without its lock; going on from there (`l/x`) reads its directories without a lock; the caller then unlocks what is not
locked. -/
theorem cross_link_violated :
    (resolve demo.world [] [108] true true).1 = 0 ∧ (resolve demo.world [] [108] true true).2.1.fs = 1 ∧
    Held.empty.run (resolve demo.world [] [108] true true).2.2 = some ⟨none, [1], [], []⟩ ∧
    Held.empty.run (resolve demo.world [] [108, 47, 120] true true).2.2 = none ∧
    Held.empty.run (pathCall demo.world [108] true true (fun _ => 0)).2 = none := by decide +kernel

/-- C47, violated: an absolute link on a mounted file system (`m/b` to `/n/y`) that leads nowhere: the failing call unlocks a file
system that it has unlocked before. -/
theorem failing_link_violated :
    (resolve demo.world [] [109, 47, 98] false true).1 = -2 ∧
    (resolve demo.world [] [109, 47, 98, 47, 122] false true).1 = -2 ∧
    Held.empty.run (resolve demo.world [] [109, 47, 98, 47, 122] false true).2.2 = none := by decide +kernel

/-- C47, violated: a mount of a file system that is mounted already fails and keeps a reference to the host file system. -/
theorem failed_mount_violated :
    (mpAdd demo.world 1 [97, 98] true false).1 = -EPERM ∧
    Held.empty.run (mpAdd demo.world 1 [97, 98] true false).2 = some ⟨none, [0], [], []⟩ := by decide +kernel

/-- C79, violated: a file used as a directory (`f/z`) is not refused: the file system is asked to search a file, and if it finds
nothing the call may create an entry in the file. -/
theorem file_as_directory_violated :
    demo.den 3 true 0 1 [102, 47, 122] = .notDir ∧ (resolve demo.world [] [102, 47, 122] true true).1 = 0 ∧
    (resolve demo.world [] [102, 47, 122] true true).2.1 = ⟨0, none, 3, [122]⟩ ∧
    Ev.lookup 0 3 [122] ∈ (resolve demo.world [] [102, 47, 122] true true).2.2 := by decide +kernel

/-- C79, violated: `n/` can be created, `n//` is an error, though both denote the same. -/
theorem two_slashes_violated :
    demo.den 3 false 0 1 [110, 47, 47] = .missing 0 1 [110] ∧ demo.den 3 false 0 1 [110, 47] = .missing 0 1 [110] ∧
    (resolve demo.world [] [110, 47] true false).1 = 0 ∧ (resolve demo.world [] [110, 47, 47] true false).1 = -2 := by
  decide +kernel

/-- C81, violated: the last component of `ab//` is reported as `b//`, so that renaming a directory to the empty directory `ab//`
creates `b/`. -/
theorem last_component_violated :
    (resolve demo.world [] [97, 98, 47, 47] true false).1 = 0 ∧
    (resolve demo.world [] [97, 98, 47, 47] true false).2.1 = ⟨0, some (2, .dir), 1, [98, 47, 47]⟩ := by decide +kernel

/-- C81, violated: what is created through a link to nothing (`d` to `ab/n`) gets the name of the link, not the name the link
holds. -/
theorem create_through_link_violated :
    demo.den 3 true 0 1 [100] = .missing 0 2 [110] ∧ (resolve demo.world [] [100] true true).1 = 0 ∧
    (resolve demo.world [] [100] true true).2.1 = ⟨0, none, 2, [100]⟩ := by decide +kernel

/-- The hypothesis of `long_name_violated` is met by names that `MAX_PATH` (256) admits. -/
example : (47 : UInt8) ∉ List.replicate 255 (97 : UInt8) ∧ (0 : UInt8) ∉ List.replicate 255 (97 : UInt8) ∧
    231 ≤ (List.replicate 255 (97 : UInt8)).length := by decide +kernel

/-- The hypotheses of the other theorems: a tree without mounts, a tree without links. -/
example : (∀ l f i, ({ demo with mountAt := fun _ _ => none } : Tree).world.mountAt l f i = none) ∧
    ({ demo with mountAt := fun _ _ => none } : Tree).world.cwd.fs = 0 ∧
    ∀ l f i n j, ({ demo with lookup := fun _ _ _ => some (1, .dir) } : Tree).world.lookup l f i n ≠ some (j, .symlink) :=
  ⟨fun _ _ _ => rfl, rfl, fun _ _ _ _ _ h => by cases h⟩

/-! What the callers answer. -/

theorem Is_err_neg {e : Int} {r : Res} (h : (Den.err e).Is r) (hr : r.1 ≤ 0) : r.1 < 0 := by
  have := h.2
  omega

/-- C79. A call on one path fails with what is wrong with the path, or else acts on what the path denotes. -/
theorem pathCall_answer_partial (t : Tree) (ht : t.OK) (path : Bytes) (hp : PathText path) (ex rl : Bool)
    (func : VPath → Int) (hd : t.den 3 rl t.cwdFs t.cwdIno path ≠ .notDir) :
    match t.den 3 rl t.cwdFs t.cwdIno path with
    | .err e => (pathCall t.world path ex rl func).1 = -e
    | .found f i k => ∃ v : VPath, v.fs = f ∧ v.ent = some (i, k) ∧ (pathCall t.world path ex rl func).1 = func v
    | .missing f d _ => ∃ v : VPath, v.fs = f ∧ v.ent = none ∧ v.dir = d ∧ (pathCall t.world path ex rl func).1 = func v
    | .notDir => True := by
  have h := resolve_correct_partial t ht [] path hp ex rl hd
  have hrc := resolve_rc t.world [] path ex rl
  unfold pathCall
  dsimp only
  generalize resolve t.world [] path ex rl = r at *
  cases hden : t.den 3 rl t.cwdFs t.cwdIno path with
  | err e =>
    rw [hden] at h
    dsimp only
    rw [if_pos (Is_err_neg h hrc)]
    exact h.1
  | notDir => trivial
  | found f i k =>
    rw [hden] at h
    dsimp only
    rw [if_neg (by rw [h.1]; decide)]
    exact ⟨r.2.1, h.2.1, h.2.2, rfl⟩
  | missing f d n =>
    rw [hden] at h
    dsimp only
    rw [if_neg (by rw [h.1]; decide)]
    exact ⟨r.2.1, h.2.1, h.2.2.1, h.2.2.2, rfl⟩

/-- The file system of what a path denotes. -/
def Den.fs? : Den → Option FsId
  | .found f _ _ => some f
  | .missing f _ _ => some f
  | _ => none

/-- C79. Rename and link: the first path must denote something, the second a place on the same file system. -/
theorem rename_answer_partial (t : Tree) (ht : t.OK) (old new : Bytes) (hpo : PathText old) (hpn : PathText new)
    (func : VPath → VPath → Int) (ho : t.den 3 false t.cwdFs t.cwdIno old ≠ .notDir)
    (hn : t.den 3 false t.cwdFs t.cwdIno new ≠ .notDir) :
    match t.den 3 false t.cwdFs t.cwdIno old, t.den 3 false t.cwdFs t.cwdIno new with
    | .err e, _ => (renameOrLink t.world old new func).1 = -e
    | .missing _ _ _, _ => (renameOrLink t.world old new func).1 = -2
    | .found _ _ _, .err e => (renameOrLink t.world old new func).1 = -e
    | .found f i k, d =>
      (d.fs? = some f → ∃ v n : VPath, v.fs = f ∧ v.ent = some (i, k) ∧ d.Is (0, n, []) ∧
        (renameOrLink t.world old new func).1 = func v n) ∧
      (d.fs? ≠ some f → (renameOrLink t.world old new func).1 = -18)
    | .notDir, _ => True := by
  have h := resolve_correct_partial t ht [] old hpo false false ho
  have hrc := resolve_rc t.world [] old false false
  unfold renameOrLink
  dsimp only
  generalize resolve t.world [] old false false = o at *
  have h2 := resolve_correct_partial t ht (o.2.2 ++ retainIno o.2.1 ++ [.unlock o.2.1.fs false]) new hpn true false hn
  have hrc2 := resolve_rc t.world (o.2.2 ++ retainIno o.2.1 ++ [.unlock o.2.1.fs false]) new true false
  generalize resolve t.world (o.2.2 ++ retainIno o.2.1 ++ [.unlock o.2.1.fs false]) new true false = n at *
  cases hden : t.den 3 false t.cwdFs t.cwdIno old with
  | err e =>
    rw [hden] at h
    dsimp only
    rw [if_pos (Is_err_neg h hrc)]
    exact h.1
  | notDir => trivial
  | missing f d nm =>
    rw [hden] at h
    dsimp only
    rw [if_neg (by rw [h.1]; decide), if_pos h.2.2.1]
    rfl
  | found f i k =>
    rw [hden] at h
    have hg : ∀ (x : Int × Log) , (if o.1 < 0 then (o.1, o.2.2)
        else if o.2.1.ent = none then (-ENOENT, o.2.2 ++ [.unlock o.2.1.fs false, .release o.2.1.fs]) else x) = x := by
      intro x
      rw [if_neg (by rw [h.1]; decide), if_neg (by rw [h.2.2]; simp)]
    rw [hg]
    cases hden2 : t.den 3 false t.cwdFs t.cwdIno new with
    | err e =>
      rw [hden2] at h2
      dsimp only
      rw [if_pos (Is_err_neg h2 hrc2)]
      exact h2.1
    | notDir => exact absurd hden2 hn
    | missing g d nm =>
      rw [hden2] at h2
      dsimp only [Den.fs?]
      rw [if_neg (by rw [h2.1]; decide)]
      by_cases hfg : g = f
      · have hne : ¬ n.2.1.fs ≠ o.2.1.fs := by rw [h2.2.1, h.2.1, hfg]; simp
        rw [if_neg hne]
        exact ⟨fun _ => ⟨o.2.1, n.2.1, h.2.1, h.2.2, ⟨rfl, h2.2⟩, rfl⟩, fun hx => absurd (by rw [hfg]) hx⟩
      · have hne : n.2.1.fs ≠ o.2.1.fs := by rw [h2.2.1, h.2.1]; exact hfg
        rw [if_pos hne]
        exact ⟨fun hx => absurd (Option.some.inj hx) hfg, fun _ => rfl⟩
    | found g j k2 =>
      rw [hden2] at h2
      dsimp only [Den.fs?]
      rw [if_neg (by rw [h2.1]; decide)]
      by_cases hfg : g = f
      · have hne : ¬ n.2.1.fs ≠ o.2.1.fs := by rw [h2.2.1, h.2.1, hfg]; simp
        rw [if_neg hne]
        exact ⟨fun _ => ⟨o.2.1, n.2.1, h.2.1, h.2.2, ⟨rfl, h2.2⟩, rfl⟩, fun hx => absurd (by rw [hfg]) hx⟩
      · have hne : n.2.1.fs ≠ o.2.1.fs := by rw [h2.2.1, h.2.1]; exact hfg
        rw [if_pos hne]
        exact ⟨fun hx => absurd (Option.some.inj hx) hfg, fun _ => rfl⟩

/-- Both theorems apply: `ab/q` renamed to `m/n` is on another file system, to `n` it is not. -/
example : demo.den 3 false 0 1 [97, 98, 47, 113] = .found 0 9 .file ∧ demo.den 3 false 0 1 [109, 47, 110] = .missing 1 1 [110] ∧
    (renameOrLink demo.world [97, 98, 47, 113] [109, 47, 110] (fun _ _ => 7)).1 = -18 ∧
    (renameOrLink demo.world [97, 98, 47, 113] [110] (fun _ _ => 7)).1 = 7 := by decide +kernel

end Verif.Resolve
