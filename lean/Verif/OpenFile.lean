/-!
# Open files (kernel/vfs/vfs.c, kernel/fs/ramfs/open.c.h)

Properties C146 (descriptors and offsets), C147 (what `open` does), C148 (access modes), C149
(writers and programs).

The files of one directory of ramfs and the file handles of all processes.  A descriptor is a
number; descriptors of different processes are different numbers (`fork` duplicates every handle,
kernel/fork.c:14-57, as `dup` does).  The contents of a file are the list of its bytes: how they
are kept, and what goes wrong there, is the subject of `RamFile`; how paths lead to the directory
is that of `Resolve`.  A lock of a file (kernel/fs/flock.c) is counted there by references; here it
exists while a handle has it (the counting is the subject of `Flock`).  Not modelled: removal of
names, `O_CLOEXEC` (see `Fd`), file systems other than ramfs.
-/
namespace Verif.OpenFile

def ENOENT : Nat := 2
def ENOMEM : Nat := 12
def EACCES : Nat := 13
def EEXIST : Nat := 17
def ENOTDIR : Nat := 20
def EISDIR : Nat := 21
def EINVAL : Nat := 22
def ETXTBSY : Nat := 26
def ENOSPC : Nat := 28
def EBADF : Nat := 9
def EBUSY : Nat := 16
def ENOTEMPTY : Nat := 39

/-! ## Model -/

/-- The flags of `open`: the bits `O_WRONLY`, `O_RDWR`, `O_CREAT`, `O_EXCL`, `O_TRUNC`, `O_APPEND`,
`O_DIRECTORY`. -/
structure Flags where
  wr : Bool
  rw : Bool
  creat : Bool
  excl : Bool
  trunc : Bool
  app : Bool
  dir : Bool
  deriving DecidableEq, Repr

/-- `struct ramfs_inode` (ramfs_int.h:65-108): the permissions of the owner (0400, 0200), whether it
is a directory, the contents of a file, the number of entries of a directory (`num_entries`, in the
same place as the size of a file, 82-103). -/
structure Inode where
  r : Bool
  w : Bool
  isDir : Bool
  data : List Nat
  num : Nat
  deriving DecidableEq, Repr

/-- A file handle: inode, `h_fpos`, `fl_flags`, and whether it holds the lock of the file (`lf`). -/
structure Handle where
  ino : Nat
  pos : Nat
  fl : Flags
  lf : Bool
  deriving DecidableEq, Repr

/-- The state: permissions of the directory, its entries, the inodes, the handles (below `top`),
the number of processes that run a file, the files whose lock has been lost. -/
structure W where
  dirR : Bool
  dirW : Bool
  dirX : Bool
  name : Nat → Option Nat
  inode : Nat → Option Inode
  h : Nat → Option Handle
  top : Nat
  running : Nat → Nat
  lost : Nat → Bool

/-- Results of calls. -/
inductive Ret
  | err (e : Nat)
  | fd (n : Nat)
  | count (n : Nat)
  | bytes (l : List Nat)
  | done
  deriving DecidableEq, Repr

/-- What the allocator does: the inode it returns, whether there is memory for a lock, for a
directory entry, for a handle. -/
structure Env where
  ino : Option Nat
  lock : Bool
  entry : Bool
  handle : Bool

def upd {β : Type} (f : Nat → β) (k : Nat) (x : β) : Nat → β := fun i => if i = k then x else f i

/-- Does the file system have the lock of the file (`acquire_subsys_flock` finds it)? -/
def W.vfsLock (w : W) (i : Nat) : Bool :=
  w.lost i || (List.range w.top).any fun fd =>
    match w.h fd with
    | none => false
    | some x => x.lf && x.ino == i

/-- kernel/fs/ramfs/open.c.h:60-89 `ramfs_open_existing_checks`. -/
def existing (fl : Flags) (x : Inode) : Nat :=
  if fl.wr = false ∧ x.r = false then EACCES
  else if fl.wr = true ∧ x.w = false then EACCES
  else if fl.rw = true ∧ ¬ (x.r = true ∧ x.w = true) then EACCES
  else if fl.dir = true ∧ x.isDir = false then ENOTDIR
  else if fl.creat = true ∧ fl.excl = true then EEXIST
  else if (fl.wr = true ∨ fl.rw = true) ∧ x.isDir = true then EISDIR
  else if fl.trunc = true ∧ ¬ (fl.wr = true ∨ fl.rw = true) then EINVAL
  else 0

/-- A new file and the handle for it (open.c.h:103-122, 141-146). -/
def W.create (w : W) (fd n i : Nat) (fl : Flags) (mr mw : Bool) : W :=
  { w with
    name := upd w.name n (some i), inode := upd w.inode i (some ⟨mr, mw, false, [], 0⟩),
    h := upd w.h fd (some ⟨i, 0, fl, true⟩) }

/-- kernel/fs/ramfs/open.c.h:91-157 `ramfs_open` for a name that is not there; `none` stands for a
failing assertion of debug builds (open.c.h:47-53: `O_TRUNC` on an inode that may not be
written). -/
def openNew (dbg : Bool) (w : W) (fd n : Nat) (fl : Flags) (mr mw : Bool) (e : Env) :
    Option (W × Ret) :=
  if fl.creat = false then some (w, .err ENOENT)
  else if ¬ (w.dirW = true ∧ w.dirX = true) then some (w, .err EACCES)
  else
    match e.ino with
    | none => some (w, .err ENOSPC)
    | some i =>
      if w.lost i = false ∧ e.lock = false then some (w, .err ENOMEM)
      else if e.entry = false then some ({ w with lost := upd w.lost i true }, .err ENOSPC)
      else if e.handle = false then
        some ({ w with name := upd w.name n (some i),
                       inode := upd w.inode i (some ⟨mr, mw, false, [], 0⟩) }, .err ENOMEM)
      else if fl.trunc = true ∧ mw = false ∧ dbg = true then none
      else some (w.create fd n i fl mr mw, .fd fd)

/-- `O_TRUNC` in `ramfs_open_int` (open.c.h:45-54). -/
def W.trunc0 (w : W) (i : Nat) (x : Inode) (fl : Flags) : Nat → Option Inode :=
  if fl.trunc = true ∧ x.isDir = false then upd w.inode i (some { x with data := [] }) else w.inode

/-- kernel/fs/ramfs/open.c.h:124-157 `ramfs_open` for a name that is there. -/
def openOld (w : W) (fd i : Nat) (x : Inode) (fl : Flags) (e : Env) : W × Ret :=
  if ¬ (w.dirR = true ∧ w.dirX = true) then (w, .err EACCES)
  else if existing fl x ≠ 0 then (w, .err (existing fl x))
  else
    if (x.isDir = false ∧ (fl.wr = true ∨ fl.rw = true)) ∧ 0 < w.running i then (w, .err ETXTBSY)
    else if (x.isDir = false ∧ (fl.wr = true ∨ fl.rw = true)) ∧ w.vfsLock i = false ∧ e.lock = false then (w, .err ENOMEM)
    else if e.handle = false then (w, .err ENOMEM)
    else
      ({ w with
          inode := w.trunc0 i x fl,
          h := upd w.h fd (some ⟨i, 0, fl, x.isDir == false && (fl.wr || fl.rw)⟩) }, .fd fd)

/-- Inode of a name. -/
def W.find (w : W) (n : Nat) : Option (Nat × Inode) :=
  match w.name n with
  | none => none
  | some i =>
    match w.inode i with
    | none => none
    | some y => some (i, y)

/-- kernel/vfs/vfs.c:310-344 `vfs_open_impl`. -/
def openF (dbg : Bool) (w : W) (fd n : Nat) (fl : Flags) (mr mw : Bool) (e : Env) :
    Option (W × Ret) :=
  match w.find n with
  | none => if fl.dir = true then some (w, .err ENOTDIR) else openNew dbg w fd n fl mr mw e
  | some (i, x) =>
    if fl.dir = true ∧ x.isDir = false then some (w, .err ENOTDIR) else some (openOld w fd i x fl e)

/-- Contents after a write at `pos` (rw_ops.c.h:317-370; holes read as zeros). -/
def putAt (d : List Nat) (pos : Nat) (b : List Nat) : List Nat :=
  if b = [] then d
  else (d ++ List.replicate (pos - d.length) 0).take pos ++ b ++ d.drop (pos + b.length)

/-- Contents after a change of the size (rw_ops.c.h:178-223, blocks.c.h:54-61). -/
def resize (d : List Nat) (n : Nat) : List Nat := d.take n ++ List.replicate (n - d.length) 0

/-- kernel/fs/ramfs/rw_ops.c.h:178-246 `ramfs_inode_truncate_safe`: the inode afterwards, or an error.
The size of a directory is the number of its entries. -/
def setSize (y : Inode) (k : Nat) : Inode ⊕ Nat :=
  if y.w = false then .inr EACCES
  else if y.isDir = true then if k < y.num then .inr EISDIR else .inl { y with num := k }
  else .inl { y with data := resize y.data k }

/-- The calls. -/
inductive Op
  | open (fd n : Nat) (fl : Flags) (mr mw : Bool) (e : Env)
  | close (fd : Nat)
  | dup (fd fd' : Nat)
  | read (fd k : Nat)
  | write (fd : Nat) (b : List Nat)
  | seek (fd p : Nat)
  | ftruncate (fd k : Nat)
  | truncate (n k : Nat) (lock : Bool)
  | mkdir (n : Nat) (mr mw : Bool) (ino : Option Nat) (entry : Bool)
  | rmdir (n : Nat)
  | exec (n : Nat)
  | stop (i : Nat)

/-- Handle and inode of a descriptor. -/
def W.look (w : W) (fd : Nat) : Option (Handle × Inode) :=
  match w.h fd with
  | none => none
  | some x =>
    match w.inode x.ino with
    | none => none
    | some y => some (x, y)

/-- Is there a handle of the inode (its reference count is not zero)? -/
def W.opened (w : W) (i : Nat) : Bool :=
  (List.range w.top).any fun fd =>
    match w.h fd with
    | none => false
    | some x => x.ino == i

/-- One call. `read`, `write`: vfs.c:118-148 and rw_ops.c.h:253-370; `lseek` with `SEEK_SET` on a file:
30-74; `ftruncate`: vfs.c:210-219; `truncate`: vfs.c:472-503; `dup`: vfs.c:75-116; `mkdir`, `rmdir`:
mkdir.c.h:5-78 (the directories have no files in them); `execve` takes the lock of the file for itself
(kernel/elf.c:325-352, 432, flock.c:20-97; it opens the file for reading; the permission to
execute it is not modelled) until the program ends. -/
def step (dbg : Bool) (w : W) : Op → Option (W × Ret)
  | .open fd n fl mr mw e => openF dbg w fd n fl mr mw e
  | .close fd =>
    match w.h fd with
    | none => some (w, .err EBADF)
    | some _ => some ({ w with h := upd w.h fd none }, .done)
  | .dup fd fd' =>
    match w.h fd with
    | none => some (w, .err EBADF)
    | some x => some ({ w with h := upd w.h fd' (some x) }, .fd fd')
  | .read fd k =>
    match w.look fd with
    | none => some (w, .err EBADF)
    | some (x, y) =>
      if x.fl.wr = true ∧ x.fl.rw = false then some (w, .err EBADF)
      else if y.isDir = true then some (w, .err EISDIR)
      else
        let l := (y.data.drop x.pos).take k
        some ({ w with h := upd w.h fd (some { x with pos := x.pos + l.length }) }, .bytes l)
  | .write fd b =>
    match w.look fd with
    | none => some (w, .err EBADF)
    | some (x, y) =>
      if ¬ (x.fl.wr = true ∨ x.fl.rw = true) then some (w, .err EBADF)
      else
        let p := if x.fl.app then y.data.length else x.pos
        some ({ w with
          inode := upd w.inode x.ino (some { y with data := putAt y.data p b }),
          h := upd w.h fd (some { x with pos := p + b.length }) }, .count b.length)
  | .seek fd p =>
    match w.look fd with
    | none => some (w, .err EBADF)
    | some (x, _) => some ({ w with h := upd w.h fd (some { x with pos := p }) }, .count p)
  | .ftruncate fd k =>
    match w.look fd with
    | none => some (w, .err EBADF)
    | some (x, y) =>
      match setSize y k with
      | .inr c => some (w, .err c)
      | .inl y' => some ({ w with inode := upd w.inode x.ino (some y') }, .done)
  | .truncate n k lock =>
    match w.find n with
    | none => some (w, .err ENOENT)
    | some (i, y) =>
      if 0 < w.running i then some (w, .err ETXTBSY)
      else if w.vfsLock i = false ∧ lock = false then some (w, .err ENOMEM)
      else
        match setSize y k with
        | .inr c => some (w, .err c)
        | .inl y' => some ({ w with inode := upd w.inode i (some y') }, .done)
  | .mkdir n mr mw ino entry =>
    match w.find n with
    | some _ => some (w, .err EEXIST)
    | none =>
      if ¬ (w.dirW = true ∧ w.dirX = true) then some (w, .err EACCES)
      else
        match ino with
        | none => some (w, .err ENOSPC)
        | some i =>
          if entry = false then some (w, .err ENOSPC)
          else some ({ w with name := upd w.name n (some i),
                              inode := upd w.inode i (some ⟨mr, mw, true, [], 2⟩) }, .done)
  | .rmdir n =>
    match w.find n with
    | none => some (w, .err ENOENT)
    | some (i, y) =>
      if y.isDir = false then some (w, .err ENOTDIR)
      else if w.dirW = false then some (w, .err EACCES)
      else if 2 < y.num then some (w, .err ENOTEMPTY)
      else if w.opened i = true then some (w, .err EBUSY)
      else some ({ w with name := upd w.name n none, inode := upd w.inode i none }, .done)
  | .exec n =>
    match w.find n with
    | none => some (w, .err ENOENT)
    | some (i, y) =>
      if ¬ (w.dirR = true ∧ w.dirX = true) ∨ y.r = false then some (w, .err EACCES)
      else if y.isDir = true then some (w, .err EISDIR)
      else if w.vfsLock i = true then some (w, .err ETXTBSY)
      else some ({ w with running := upd w.running i (w.running i + 1) }, .done)
  | .stop i => some ({ w with running := upd w.running i (w.running i - 1) }, .done)

/-- An empty directory. -/
def new (dirR dirW dirX : Bool) (top : Nat) : W :=
  ⟨dirR, dirW, dirX, fun _ => none, fun _ => none, fun _ => none, top, fun _ => 0, fun _ => false⟩

/-! ## Specification (POSIX)

Descriptors refer to open file descriptions; `dup` and `fork` make another descriptor for the same
description. -/

/-- An open file description. -/
structure Desc where
  ino : Nat
  pos : Nat
  fl : Flags
  deriving DecidableEq, Repr

/-- The state POSIX speaks about. -/
structure P where
  dirR : Bool
  dirW : Bool
  dirX : Bool
  name : Nat → Option Nat
  inode : Nat → Option Inode
  desc : Nat → Option Desc
  fd : Nat → Option Nat
  running : Nat → Nat

/-- Open for reading, for writing. -/
def wantR (fl : Flags) : Prop := fl.wr = false ∨ fl.rw = true
def wantW (fl : Flags) : Prop := fl.wr = true ∨ fl.rw = true

/-- The errors of `open` other than for lack of memory: each with its condition. -/
inductive Refuse (p : P) (n : Nat) (fl : Flags) : Nat → Prop
  | search : p.dirX = false → Refuse p n fl EACCES
  | missing : p.name n = none → fl.creat = false → Refuse p n fl ENOENT
  | noWrite : p.name n = none → fl.creat = true → p.dirW = false → Refuse p n fl EACCES
  | noRead (i x) : p.name n = some i → p.inode i = some x → wantR fl → x.r = false →
      Refuse p n fl EACCES
  | noChange (i x) : p.name n = some i → p.inode i = some x → wantW fl → x.w = false →
      Refuse p n fl EACCES
  | exists (i) : p.name n = some i → fl.creat = true → fl.excl = true → Refuse p n fl EEXIST
  | notDir (i x) : p.name n = some i → p.inode i = some x → fl.dir = true → x.isDir = false →
      Refuse p n fl ENOTDIR
  | isDir (i x) : p.name n = some i → p.inode i = some x → wantW fl → x.isDir = true →
      Refuse p n fl EISDIR
  | busy (i) : p.name n = some i → wantW fl → 0 < p.running i → Refuse p n fl ETXTBSY

/-- A file is open for writing. -/
def Written (p : P) (i : Nat) : Prop :=
  ∃ fd k d, p.fd fd = some k ∧ p.desc k = some d ∧ d.ino = i ∧ wantW d.fl

/-- A file is open. -/
def Opened (p : P) (i : Nat) : Prop :=
  ∃ fd k d, p.fd fd = some k ∧ p.desc k = some d ∧ d.ino = i

/-- Bytes `l` are what is at `pos` of `d`, at most `k` of them and no fewer than there are. -/
def ReadOk (d : List Nat) (pos k : Nat) (l : List Nat) : Prop :=
  l.length = min k (d.length - pos) ∧ ∀ j, j < l.length → l[j]? = d[pos + j]?

/-- `d'` is `d` with `b` at `pos`. -/
def WriteOk (d : List Nat) (pos : Nat) (b d' : List Nat) : Prop :=
  (b = [] → d' = d) ∧
  (b ≠ [] → d'.length = max d.length (pos + b.length) ∧
    (∀ j, j < b.length → d'[pos + j]? = b[j]?) ∧
    ∀ j, j < d'.length → ¬ (pos ≤ j ∧ j < pos + b.length) → d'.getD j 0 = d.getD j 0)

/-- `d'` is `d` cut or filled with zeros to `k` bytes. -/
def SizeOk (d : List Nat) (k : Nat) (d' : List Nat) : Prop :=
  d'.length = k ∧ ∀ j, j < k → d'.getD j 0 = d.getD j 0

/-- Description and file of a descriptor. -/
def At (p : P) (fd k : Nat) (d : Desc) (x : Inode) : Prop :=
  p.fd fd = some k ∧ p.desc k = some d ∧ p.inode d.ino = some x

/-- No such descriptor. -/
def Closed (p : P) (fd : Nat) : Prop := p.fd fd = none

/-- What a call may return and do. -/
inductive Spec (p : P) : Op → Ret → P → Prop
  /-- `open` fails for a reason that holds, or for lack of memory, or because of `O_TRUNC` without
  the right to write (undefined in POSIX); nothing changes. -/
  | refuse (fd n fl mr mw e c) : Refuse p n fl c → Spec p (.open fd n fl mr mw e) (.err c) p
  | memory (fd n fl mr mw e c) : c = ENOMEM ∨ c = ENOSPC →
      (e.ino = none ∨ e.lock = false ∨ e.entry = false ∨ e.handle = false) →
      Spec p (.open fd n fl mr mw e) (.err c) p
  | undef (fd n fl mr mw e) : fl.trunc = true → ¬ wantW fl →
      Spec p (.open fd n fl mr mw e) (.err EINVAL) p
  /-- `open` of a file that is there: at its beginning; emptied by `O_TRUNC`. -/
  | old (fd n fl mr mw e i x k) : (∀ c, ¬ Refuse p n fl c) → p.name n = some i →
      p.inode i = some x → p.desc k = none →
      Spec p (.open fd n fl mr mw e) (.fd fd)
        { p with
          inode := fun j => if j = i ∧ fl.trunc = true then some { x with data := [] } else p.inode j,
          desc := upd p.desc k (some ⟨i, 0, fl⟩), fd := upd p.fd fd (some k) }
  /-- `open` of a file that is not there makes an empty one. -/
  | create (fd n fl mr mw e i k) : (∀ c, ¬ Refuse p n fl c) → p.name n = none →
      p.inode i = none → p.desc k = none →
      Spec p (.open fd n fl mr mw e) (.fd fd)
        { p with
          name := upd p.name n (some i), inode := upd p.inode i (some ⟨mr, mw, false, [], 0⟩),
          desc := upd p.desc k (some ⟨i, 0, fl⟩), fd := upd p.fd fd (some k) }
  | badClose (fd) : Closed p fd → Spec p (.close fd) (.err EBADF) p
  | close (fd k) : p.fd fd = some k → Spec p (.close fd) .done { p with fd := upd p.fd fd none }
  | badDup (fd fd') : Closed p fd → Spec p (.dup fd fd') (.err EBADF) p
  | dup (fd fd' k) : p.fd fd = some k →
      Spec p (.dup fd fd') (.fd fd') { p with fd := upd p.fd fd' (some k) }
  | badRead (fd k') : Closed p fd → Spec p (.read fd k') (.err EBADF) p
  | noRead (fd k' k d x) : At p fd k d x → ¬ wantR d.fl → Spec p (.read fd k') (.err EBADF) p
  | readDir (fd k' k d x) : At p fd k d x → x.isDir = true → Spec p (.read fd k') (.err EISDIR) p
  | read (fd k' k d x l) : At p fd k d x → wantR d.fl → x.isDir = false →
      ReadOk x.data d.pos k' l →
      Spec p (.read fd k') (.bytes l)
        { p with desc := upd p.desc k (some { d with pos := d.pos + l.length }) }
  | badWrite (fd b) : Closed p fd → Spec p (.write fd b) (.err EBADF) p
  | noWrite (fd b k d x) : At p fd k d x → ¬ wantW d.fl → Spec p (.write fd b) (.err EBADF) p
  | write (fd b k d x q d') : At p fd k d x → wantW d.fl →
      q = (if d.fl.app = true then x.data.length else d.pos) → WriteOk x.data q b d' →
      Spec p (.write fd b) (.count b.length)
        { p with
          inode := upd p.inode d.ino (some { x with data := d' }),
          desc := upd p.desc k (some { d with pos := q + b.length }) }
  | badSeek (fd q) : Closed p fd → Spec p (.seek fd q) (.err EBADF) p
  | seek (fd q k d) : p.fd fd = some k → p.desc k = some d →
      Spec p (.seek fd q) (.count q) { p with desc := upd p.desc k (some { d with pos := q }) }
  | badTrunc (fd q) : Closed p fd → Spec p (.ftruncate fd q) (.err EBADF) p
  | noTrunc (fd q k d x) : At p fd k d x → ¬ wantW d.fl → Spec p (.ftruncate fd q) (.err EINVAL) p
  | trunc (fd q k d x d') : At p fd k d x → wantW d.fl → SizeOk x.data q d' →
      Spec p (.ftruncate fd q) .done { p with inode := upd p.inode d.ino (some { x with data := d' }) }
  | noName (n k) (l) : p.name n = none → Spec p (.truncate n k l) (.err ENOENT) p
  | busyTrunc (n k i) (l) : p.name n = some i → 0 < p.running i →
      Spec p (.truncate n k l) (.err ETXTBSY) p
  | memTrunc (n k) : Spec p (.truncate n k false) (.err ENOMEM) p
  | refTrunc (n k i x) (l) : p.name n = some i → p.inode i = some x → x.w = false →
      Spec p (.truncate n k l) (.err EACCES) p
  | dirTrunc (n k i x) (l) : p.name n = some i → p.inode i = some x → x.isDir = true →
      Spec p (.truncate n k l) (.err EISDIR) p
  | truncate (n k i x d') (l) : p.name n = some i → p.inode i = some x → p.running i = 0 →
      p.dirX = true → x.w = true → x.isDir = false → SizeOk x.data k d' →
      Spec p (.truncate n k l) .done { p with inode := upd p.inode i (some { x with data := d' }) }
  | oldDir (n mr mw i e) (j) : p.name n = some j → Spec p (.mkdir n mr mw i e) (.err EEXIST) p
  | refDir (n mr mw i e) : ¬ (p.dirW = true ∧ p.dirX = true) →
      Spec p (.mkdir n mr mw i e) (.err EACCES) p
  | memDir (n mr mw i e) : i = none ∨ e = false → Spec p (.mkdir n mr mw i e) (.err ENOSPC) p
  | mkdir (n mr mw i e) (j) : p.name n = none → p.dirW = true → p.dirX = true → p.inode j = none →
      Spec p (.mkdir n mr mw i e) .done
        { p with name := upd p.name n (some j), inode := upd p.inode j (some ⟨mr, mw, true, [], 2⟩) }
  | noDir (n) : p.name n = none → Spec p (.rmdir n) (.err ENOENT) p
  | rmFile (n i x) : p.name n = some i → p.inode i = some x → x.isDir = false →
      Spec p (.rmdir n) (.err ENOTDIR) p
  | refRm (n) : p.dirW = false → Spec p (.rmdir n) (.err EACCES) p
  | busyRm (n i) : p.name n = some i → Opened p i → Spec p (.rmdir n) (.err EBUSY) p
  | rmdir (n i x) : p.name n = some i → p.inode i = some x → x.isDir = true → p.dirW = true →
      p.dirX = true → ¬ Opened p i →
      Spec p (.rmdir n) .done { p with name := upd p.name n none, inode := upd p.inode i none }
  | noExec (n) : p.name n = none → Spec p (.exec n) (.err ENOENT) p
  | refExec (n) : p.dirX = false → Spec p (.exec n) (.err EACCES) p
  | dirExec (n i x) : p.name n = some i → p.inode i = some x → x.isDir = true →
      Spec p (.exec n) (.err EISDIR) p
  | busyExec (n i) : p.name n = some i → Written p i → Spec p (.exec n) (.err ETXTBSY) p
  | exec (n i x) : p.name n = some i → p.inode i = some x → x.isDir = false → p.dirX = true → ¬ Written p i →
      Spec p (.exec n) .done { p with running := upd p.running i (p.running i + 1) }
  | stop (i) : Spec p (.stop i) .done { p with running := upd p.running i (p.running i - 1) }

/-- Histories POSIX allows. -/
inductive PHist (p0 : P) : P → List (Op × Ret) → Prop
  | nil : PHist p0 p0 []
  | snoc (p p' op r l) : PHist p0 p l → Spec p op r p' → PHist p0 p' (l ++ [(op, r)])

/-- An empty directory, nothing open. -/
def pnew (dirR dirW dirX : Bool) : P :=
  ⟨dirR, dirW, dirX, fun _ => none, fun _ => none, fun _ => none, fun _ => none, fun _ => 0⟩

/-- The descriptors that were made by `dup` or duplicated since they were opened. -/
def share (S : Nat → Bool) : Op → Ret → Nat → Bool
  | .dup fd fd', .fd _ => upd (upd S fd true) fd' true
  | .open fd _ _ _ _ _, .fd _ => upd S fd false
  | _, _ => S

/-- What the proved histories leave out; each has a counterexample below. -/
def Avoids (dbg : Bool) (w : W) (S : Nat → Bool) : Op → Prop
  | .open fd n fl _ mw e =>
    fd < w.top ∧ w.h fd = none ∧ (∀ i, e.ino = some i → w.inode i = none) ∧
    (w.name n ≠ none → w.dirR = true) ∧
    (w.name n = none → fl.dir = false ∧
      (fl.creat = true → e.entry = true ∧ e.handle = true ∧ wantW fl ∧
        (dbg = true → fl.trunc = true → mw = true)))
  | .dup _ fd' => fd' < w.top ∧ w.h fd' = none
  | .read fd _ => S fd = false
  | .seek fd _ => S fd = false ∧ ∀ x y, w.look fd = some (x, y) → y.isDir = false
  | .write fd _ => S fd = false ∨ ∀ x, w.h fd = some x → x.fl.app = true
  | .ftruncate fd _ => ∀ x y, w.look fd = some (x, y) → wantW x.fl ∧ y.w = true
  | .truncate n _ _ => w.dirX = true ∧ ∀ i y, w.find n = some (i, y) → y.isDir = false
  | .mkdir _ _ _ ino _ => ∀ i, ino = some i → w.inode i = none
  | .rmdir _ => w.dirX = true
  | .exec n => w.dirR = true ∧ ∀ i y, w.find n = some (i, y) → y.r = true
  | .close _ => True
  | .stop _ => True

/-- Histories of the code that avoid them. -/
inductive Hist (dbg : Bool) (w0 : W) : W → (Nat → Bool) → List (Op × Ret) → Prop
  | nil : Hist dbg w0 w0 (fun _ => false) []
  | snoc (w S op w' r l) : Hist dbg w0 w S l → Avoids dbg w S op → step dbg w op = some (w', r) →
      Hist dbg w0 w' (share S op r) (l ++ [(op, r)])

/-! ## Proofs -/

theorem upd_eq {β : Type} (f : Nat → β) (k : Nat) (x : β) : upd f k x k = x := by simp [upd]
theorem upd_ne {β : Type} (f : Nat → β) (k i : Nat) (x : β) (h : i ≠ k) : upd f k x i = f i := by
  simp [upd, h]

theorem readOk (d : List Nat) (pos k : Nat) : ReadOk d pos k ((d.drop pos).take k) := by
  constructor
  · simp
  · intro j hj
    have : j < k := by
      have := List.length_take_le k (d.drop pos)
      omega
    simp [List.getElem?_take, List.getElem?_drop, this]

theorem writeOk (d : List Nat) (pos : Nat) (b : List Nat) : WriteOk d pos b (putAt d pos b) := by
  refine ⟨fun h => by simp [putAt, h], fun h => ?_⟩
  have hb : 0 < b.length := List.length_pos_iff.mpr h
  have hp : putAt d pos b =
      (d ++ List.replicate (pos - d.length) 0).take pos ++ b ++ d.drop (pos + b.length) := if_neg h
  have hl : ((d ++ List.replicate (pos - d.length) 0).take pos).length = pos := by
    simp; omega
  refine ⟨?_, ?_, ?_⟩
  · rw [hp, List.length_append, List.length_append, hl, List.length_drop]; omega
  · intro j hj
    rw [hp, List.append_assoc, List.getElem?_append_right (by omega), hl,
      List.getElem?_append_left (by omega)]
    congr 1; omega
  · intro j hj hn
    rw [List.getD_eq_getElem?_getD, List.getD_eq_getElem?_getD]
    by_cases h1 : j < pos
    · rw [hp, List.append_assoc, List.getElem?_append_left (by omega), List.getElem?_take, if_pos h1]
      by_cases h2 : j < d.length
      · rw [List.getElem?_append_left h2]
      · rw [List.getElem?_append_right (by omega), List.getElem?_replicate,
          List.getElem?_eq_none (by omega : d.length ≤ j)]
        split <;> rfl
    · rw [hp, List.getElem?_append_right (by rw [List.length_append, hl]; omega),
        List.length_append, hl, List.getElem?_drop]
      congr 2; omega

theorem sizeOk (d : List Nat) (k : Nat) : SizeOk d k (resize d k) := by
  constructor
  · simp [resize]; omega
  · intro j hj
    rw [List.getD_eq_getElem?_getD, List.getD_eq_getElem?_getD]
    unfold resize
    by_cases h : j < d.length
    · rw [List.getElem?_append_left (by simp; omega), List.getElem?_take, if_pos hj]
    · rw [List.getElem?_append_right (by simp; omega), List.getElem?_replicate,
        List.getElem?_eq_none (by omega : d.length ≤ j)]
      split <;> rfl

/-- The description behind a handle. -/
structure Link (w : W) (p : P) (S : Nat → Bool) (fd : Nat) (x : Handle) (k : Nat) (d : Desc) :
    Prop where
  top : fd < w.top
  ofd : p.fd fd = some k
  desc : p.desc k = some d
  ino : d.ino = x.ino
  fl : d.fl = x.fl
  pos : S fd = false → d.pos = x.pos
  lf : x.lf = true ↔ wantW x.fl
  file : ∃ y, w.inode x.ino = some y ∧ (wantW x.fl → y.isDir = false)

/-- The code's state represents POSIX's. -/
structure Sim (w : W) (p : P) (S : Nat → Bool) : Prop where
  dirR : p.dirR = w.dirR
  dirW : p.dirW = w.dirW
  dirX : p.dirX = w.dirX
  name : p.name = w.name
  inode : p.inode = w.inode
  running : p.running = w.running
  shut : ∀ fd, w.h fd = none → p.fd fd = none
  link : ∀ fd x, w.h fd = some x → ∃ k d, Link w p S fd x k d
  alone : ∀ fd fd' k, p.fd fd = some k → p.fd fd' = some k → fd ≠ fd' → S fd = true
  fresh : ∃ N, ∀ k, N ≤ k → p.desc k = none
  exist : ∀ n i, w.name n = some i → ∃ y, w.inode i = some y
  inj : ∀ n m i, w.name n = some i → w.name m = some i → n = m
  lost : ∀ i, w.lost i = false
  num : ∀ i y, w.inode i = some y → y.isDir = true → y.num = 2

theorem sim_new (a b c : Bool) (top : Nat) : Sim (new a b c top) (pnew a b c) (fun _ => false) where
  dirR := rfl
  dirW := rfl
  dirX := rfl
  name := rfl
  inode := rfl
  running := rfl
  shut := fun _ _ => rfl
  link := fun _ _ h => by simp [new] at h
  alone := fun _ _ _ h => by simp [pnew] at h
  fresh := ⟨0, fun _ _ => rfl⟩
  exist := fun _ _ h => by simp [new] at h
  inj := fun _ _ _ h => by simp [new] at h
  lost := fun _ => rfl
  num := fun _ _ h => by simp [new] at h

theorem Sim.find_none {w : W} {p : P} {S} (s : Sim w p S) {n : Nat} (h : w.find n = none) :
    w.name n = none := by
  unfold W.find at h
  cases e : w.name n with
  | none => rfl
  | some i =>
    obtain ⟨y, hy⟩ := s.exist n i e
    simp [e, hy] at h

theorem find_some {w : W} {n i : Nat} {y : Inode} (h : w.find n = some (i, y)) :
    w.name n = some i ∧ w.inode i = some y := by
  unfold W.find at h
  cases e : w.name n with
  | none => simp [e] at h
  | some j =>
    cases e2 : w.inode j with
    | none => simp [e, e2] at h
    | some z =>
      simp [e, e2] at h
      obtain ⟨rfl, rfl⟩ := h
      exact ⟨rfl, e2⟩

theorem look_some {w : W} {fd : Nat} {x : Handle} {y : Inode} (h : w.look fd = some (x, y)) :
    w.h fd = some x ∧ w.inode x.ino = some y := by
  unfold W.look at h
  cases e : w.h fd with
  | none => simp [e] at h
  | some j =>
    cases e2 : w.inode j.ino with
    | none => simp [e, e2] at h
    | some z =>
      simp [e, e2] at h
      obtain ⟨rfl, rfl⟩ := h
      exact ⟨rfl, e2⟩

theorem Sim.look_none {w : W} {p : P} {S} (s : Sim w p S) {fd : Nat} (h : w.look fd = none) :
    Closed p fd := by
  unfold W.look at h
  cases e : w.h fd with
  | none => exact s.shut fd e
  | some j =>
    obtain ⟨k, d, l⟩ := s.link fd j e
    obtain ⟨y, hy, _⟩ := l.file
    simp [e, hy] at h

theorem Sim.written {w : W} {p : P} {S} (s : Sim w p S) (i : Nat) :
    w.vfsLock i = true ↔ Written p i := by
  unfold W.vfsLock Written
  rw [s.lost i, Bool.false_or, List.any_eq_true]
  constructor
  · rintro ⟨fd, _, h⟩
    cases e : w.h fd with
    | none => simp [e] at h
    | some x =>
      simp [e] at h
      obtain ⟨k, d, l⟩ := s.link fd x e
      exact ⟨fd, k, d, l.ofd, l.desc, l.ino.trans h.2, l.fl ▸ l.lf.mp h.1⟩
  · rintro ⟨fd, k, d, h1, h2, h3, h4⟩
    cases e : w.h fd with
    | none => have := s.shut fd e; rw [h1] at this; simp at this
    | some x =>
      obtain ⟨k', d', l⟩ := s.link fd x e
      have e1 : k' = k := by have := l.ofd; rw [h1] at this; exact (Option.some.inj this).symm
      subst e1
      have e2 : d' = d := by have := l.desc; rw [h2] at this; exact (Option.some.inj this).symm
      subst e2
      refine ⟨fd, List.mem_range.mpr l.top, ?_⟩
      have : x.lf = true := l.lf.mpr (l.fl ▸ h4)
      have h5 : x.ino = i := l.ino ▸ h3
      simp [e, this, h5]

theorem Sim.opened {w : W} {p : P} {S} (s : Sim w p S) (i : Nat) :
    w.opened i = true ↔ Opened p i := by
  unfold W.opened Opened
  rw [List.any_eq_true]
  constructor
  · rintro ⟨fd, _, h⟩
    cases e : w.h fd with
    | none => simp [e] at h
    | some x =>
      simp [e] at h
      obtain ⟨k, d, l⟩ := s.link fd x e
      exact ⟨fd, k, d, l.ofd, l.desc, l.ino.trans h⟩
  · rintro ⟨fd, k, d, h1, h2, h3⟩
    cases e : w.h fd with
    | none => have := s.shut fd e; rw [h1] at this; simp at this
    | some x =>
      obtain ⟨k', d', l⟩ := s.link fd x e
      have e1 : k' = k := by have := l.ofd; rw [h1] at this; exact (Option.some.inj this).symm
      subst e1
      have e2 : d' = d := by have := l.desc; rw [h2] at this; exact (Option.some.inj this).symm
      subst e2
      refine ⟨fd, List.mem_range.mpr l.top, ?_⟩
      have h5 : x.ino = i := l.ino ▸ h3
      simp [e, h5]

/-- A file is changed. -/
theorem sim_inode {w : W} {p : P} {S} (s : Sim w p S) {i : Nat} {y y' : Inode}
    (h : w.inode i = some y) (hd : y'.isDir = y.isDir) (hn : y'.num = y.num) :
    Sim { w with inode := upd w.inode i (some y') } { p with inode := upd p.inode i (some y') } S where
  dirR := s.dirR
  dirW := s.dirW
  dirX := s.dirX
  name := s.name
  inode := by show upd p.inode i _ = upd w.inode i _; rw [s.inode]
  running := s.running
  shut := s.shut
  link := fun fd x hx => by
    obtain ⟨k, d, l⟩ := s.link fd x hx
    refine ⟨k, d, ⟨l.top, l.ofd, l.desc, l.ino, l.fl, l.pos, l.lf, ?_⟩⟩
    obtain ⟨z, hz, hw⟩ := l.file
    show ∃ y, upd w.inode i (some y') x.ino = some y ∧ _
    by_cases e : x.ino = i
    · rw [e, upd_eq]
      rw [e, h] at hz
      cases Option.some.inj hz
      exact ⟨y', rfl, fun hh => hd ▸ hw hh⟩
    · rw [upd_ne _ _ _ _ e]
      exact ⟨z, hz, hw⟩
  alone := s.alone
  fresh := s.fresh
  exist := fun n j hj => by
    show ∃ z, upd w.inode i (some y') j = some z
    by_cases e : j = i
    · rw [e, upd_eq]; exact ⟨_, rfl⟩
    · rw [upd_ne _ _ _ _ e]; exact s.exist n j hj
  inj := s.inj
  lost := s.lost
  num := fun j z hz hb => by
    have hz : upd w.inode i (some y') j = some z := hz
    by_cases e : j = i
    · rw [e, upd_eq] at hz
      cases Option.some.inj hz
      rw [hn]
      exact s.num i y h (hd ▸ hb)
    · rw [upd_ne _ _ _ _ e] at hz
      exact s.num j z hz hb

/-- The position of a handle is changed. -/
theorem sim_pos {w : W} {p : P} {S} (s : Sim w p S) {fd k a b : Nat} {x : Handle} {d : Desc}
    (hx : w.h fd = some x) (l : Link w p S fd x k d) (ha : S fd = false → b = a) :
    Sim { w with h := upd w.h fd (some { x with pos := a }) }
      { p with desc := upd p.desc k (some { d with pos := b }) } S where
  dirR := s.dirR
  dirW := s.dirW
  dirX := s.dirX
  name := s.name
  inode := s.inode
  running := s.running
  shut := fun f hf => by
    have hf : upd w.h fd (some { x with pos := a }) f = none := hf
    by_cases e : f = fd
    · rw [e, upd_eq] at hf; simp at hf
    · rw [upd_ne _ _ _ _ e] at hf; exact s.shut f hf
  link := fun f z hz => by
    have hz : upd w.h fd (some { x with pos := a }) f = some z := hz
    by_cases e : f = fd
    · rw [e, upd_eq] at hz
      cases Option.some.inj hz
      subst e
      exact ⟨k, { d with pos := b }, ⟨l.top, l.ofd, upd_eq _ _ _, l.ino, l.fl, ha, l.lf, l.file⟩⟩
    · rw [upd_ne _ _ _ _ e] at hz
      obtain ⟨k', d', l'⟩ := s.link f z hz
      by_cases ek : k' = k
      · subst ek
        have hs := s.alone f fd k' l'.ofd l.ofd e
        have ed : d' = d := by
          have := l'.desc; rw [l.desc] at this; exact (Option.some.inj this).symm
        subst ed
        exact ⟨k', { d' with pos := b }, ⟨l'.top, l'.ofd, upd_eq _ _ _, l'.ino, l'.fl,
          fun h => absurd (hs.symm.trans h) (by decide), l'.lf, l'.file⟩⟩
      · exact ⟨k', d', ⟨l'.top, l'.ofd, (upd_ne _ _ _ _ ek).trans l'.desc, l'.ino, l'.fl, l'.pos,
          l'.lf, l'.file⟩⟩
  alone := s.alone
  fresh := by
    obtain ⟨N, hN⟩ := s.fresh
    refine ⟨N, fun j hj => ?_⟩
    show upd p.desc k _ j = none
    by_cases e : j = k
    · have := hN j hj; rw [e, l.desc] at this; simp at this
    · rw [upd_ne _ _ _ _ e]; exact hN j hj
  exist := s.exist
  inj := s.inj
  lost := s.lost
  num := s.num

/-- A handle is made. -/
theorem sim_open {w : W} {p : P} {S : Nat → Bool} (s : Sim w p S) {fd i k : Nat} {fl : Flags}
    {lf : Bool} (ht : fd < w.top) (hn : w.h fd = none) (hk : p.desc k = none)
    (hl : lf = true ↔ wantW fl)
    (hf : ∃ y, w.inode i = some y ∧ (wantW fl → y.isDir = false)) :
    Sim { w with h := upd w.h fd (some ⟨i, 0, fl, lf⟩) }
      { p with desc := upd p.desc k (some ⟨i, 0, fl⟩), fd := upd p.fd fd (some k) }
      (upd S fd false) where
  dirR := s.dirR
  dirW := s.dirW
  dirX := s.dirX
  name := s.name
  inode := s.inode
  running := s.running
  shut := fun f hf => by
    have hf : upd w.h fd (some _) f = none := hf
    show upd p.fd fd _ f = none
    by_cases e : f = fd
    · rw [e, upd_eq] at hf; simp at hf
    · rw [upd_ne _ _ _ _ e] at hf ⊢; exact s.shut f hf
  link := fun f z hz => by
    have hz : upd w.h fd (some _) f = some z := hz
    by_cases e : f = fd
    · rw [e, upd_eq] at hz
      cases Option.some.inj hz
      subst e
      exact ⟨k, _, ⟨ht, upd_eq _ _ _, upd_eq _ _ _, rfl, rfl, fun _ => rfl, hl, hf⟩⟩
    · rw [upd_ne _ _ _ _ e] at hz
      obtain ⟨k', d', l'⟩ := s.link f z hz
      have ek : k' ≠ k := by
        intro e2; have := l'.desc; rw [e2, hk] at this; simp at this
      exact ⟨k', d', ⟨l'.top, (upd_ne _ _ _ _ e).trans l'.ofd, (upd_ne _ _ _ _ ek).trans l'.desc,
        l'.ino, l'.fl, fun h => l'.pos ((upd_ne _ _ _ _ e).symm.trans h), l'.lf, l'.file⟩⟩
  alone := fun f f' j h1 h2 hne => by
    have key : ∀ g, g ≠ fd → p.fd g ≠ some k := by
      intro g _ hg
      cases e : w.h g with
      | none => have := s.shut g e; rw [hg] at this; simp at this
      | some x =>
        obtain ⟨k', d', l'⟩ := s.link g x e
        have : k' = k := by have := l'.ofd; rw [hg] at this; exact (Option.some.inj this).symm
        have hd := l'.desc; rw [this, hk] at hd; simp at hd
    have g1 : upd p.fd fd (some k) f = some j := h1
    have g2 : upd p.fd fd (some k) f' = some j := h2
    by_cases e : f = fd
    · rw [e, upd_eq] at g1
      have e' : f' ≠ fd := fun h => hne (e.trans h.symm)
      rw [upd_ne _ _ _ _ e', ← g1] at g2
      exact absurd g2 (key f' e')
    · rw [upd_ne _ _ _ _ e] at g1 ⊢
      by_cases e' : f' = fd
      · rw [e', upd_eq] at g2
        rw [← g2] at g1
        exact absurd g1 (key f e)
      · rw [upd_ne _ _ _ _ e'] at g2
        exact s.alone f f' j g1 g2 hne
  fresh := by
    obtain ⟨N, hN⟩ := s.fresh
    refine ⟨max N (k + 1), fun j hj => ?_⟩
    show upd p.desc k _ j = none
    rw [upd_ne _ _ _ _ (by omega)]; exact hN j (by omega)
  exist := s.exist
  inj := s.inj
  lost := s.lost
  num := s.num

/-- A name is made. -/
theorem sim_name {w : W} {p : P} {S : Nat → Bool} (s : Sim w p S) {n i : Nat} {y : Inode}
    (hn : w.name n = none) (hi : w.inode i = none) (hy : y.isDir = true → y.num = 2) :
    Sim { w with name := upd w.name n (some i), inode := upd w.inode i (some y) }
      { p with name := upd p.name n (some i), inode := upd p.inode i (some y) } S where
  dirR := s.dirR
  dirW := s.dirW
  dirX := s.dirX
  name := by show upd p.name n _ = upd w.name n _; rw [s.name]
  inode := by show upd p.inode i _ = upd w.inode i _; rw [s.inode]
  running := s.running
  shut := s.shut
  link := fun f z hz => by
    obtain ⟨k, d, l⟩ := s.link f z hz
    refine ⟨k, d, ⟨l.top, l.ofd, l.desc, l.ino, l.fl, l.pos, l.lf, ?_⟩⟩
    obtain ⟨x, hx, hw⟩ := l.file
    have e : z.ino ≠ i := by intro e; rw [e, hi] at hx; simp at hx
    exact ⟨x, (upd_ne _ _ _ _ e).trans hx, hw⟩
  alone := s.alone
  fresh := s.fresh
  exist := fun m j hj => by
    show ∃ z, upd w.inode i (some y) j = some z
    have hj : upd w.name n (some i) m = some j := hj
    by_cases e : j = i
    · rw [e, upd_eq]; exact ⟨_, rfl⟩
    · rw [upd_ne _ _ _ _ e]
      by_cases e2 : m = n
      · rw [e2, upd_eq] at hj; exact absurd (Option.some.inj hj).symm e
      · rw [upd_ne _ _ _ _ e2] at hj; exact s.exist m j hj
  inj := fun m m' j h1 h2 => by
    have h1 : upd w.name n (some i) m = some j := h1
    have h2 : upd w.name n (some i) m' = some j := h2
    have key : ∀ a, w.name a ≠ some i := by
      intro a ha; obtain ⟨z, hz⟩ := s.exist a i ha; rw [hi] at hz; simp at hz
    by_cases e : m = n
    · by_cases e' : m' = n
      · rw [e, e']
      · rw [e, upd_eq] at h1
        rw [upd_ne _ _ _ _ e', ← h1] at h2
        exact absurd h2 (key m')
    · rw [upd_ne _ _ _ _ e] at h1
      by_cases e' : m' = n
      · rw [e', upd_eq] at h2
        rw [← h2] at h1
        exact absurd h1 (key m)
      · rw [upd_ne _ _ _ _ e'] at h2
        exact s.inj m m' j h1 h2
  lost := s.lost
  num := fun j z hz hb => by
    have hz : upd w.inode i (some y) j = some z := hz
    by_cases e : j = i
    · rw [e, upd_eq] at hz
      cases Option.some.inj hz
      exact hy hb
    · rw [upd_ne _ _ _ _ e] at hz
      exact s.num j z hz hb

/-- A handle is duplicated. -/
theorem sim_dup {w : W} {p : P} {S : Nat → Bool} (s : Sim w p S) {fd fd' k : Nat} {x : Handle}
    {d : Desc} (hx : w.h fd = some x) (l : Link w p S fd x k d) (ht : fd' < w.top)
    (hn : w.h fd' = none) :
    Sim { w with h := upd w.h fd' (some x) } { p with fd := upd p.fd fd' (some k) }
      (upd (upd S fd true) fd' true) where
  dirR := s.dirR
  dirW := s.dirW
  dirX := s.dirX
  name := s.name
  inode := s.inode
  running := s.running
  shut := fun f hf => by
    have hf : upd w.h fd' (some _) f = none := hf
    show upd p.fd fd' _ f = none
    by_cases e : f = fd'
    · rw [e, upd_eq] at hf; simp at hf
    · rw [upd_ne _ _ _ _ e] at hf ⊢; exact s.shut f hf
  link := fun f z hz => by
    have hz : upd w.h fd' (some x) f = some z := hz
    by_cases e : f = fd'
    · rw [e, upd_eq] at hz
      cases Option.some.inj hz
      rw [e]
      exact ⟨k, d, ⟨ht, upd_eq _ _ _, l.desc, l.ino, l.fl,
        fun h => absurd ((upd_eq _ _ _).symm.trans h) (by decide), l.lf, l.file⟩⟩
    · rw [upd_ne _ _ _ _ e] at hz
      obtain ⟨k', d', l'⟩ := s.link f z hz
      refine ⟨k', d', ⟨l'.top, (upd_ne _ _ _ _ e).trans l'.ofd, l'.desc, l'.ino, l'.fl, fun h => ?_,
        l'.lf, l'.file⟩⟩
      rw [upd_ne _ _ _ _ e] at h
      by_cases e2 : f = fd
      · rw [e2, upd_eq] at h; exact absurd h (by decide)
      · rw [upd_ne _ _ _ _ e2] at h; exact l'.pos h
  alone := fun f f' j h1 h2 hne => by
    have g1 : upd p.fd fd' (some k) f = some j := h1
    have g2 : upd p.fd fd' (some k) f' = some j := h2
    by_cases e : f = fd'
    · rw [e, upd_eq]
    · rw [upd_ne _ _ _ _ e] at g1 ⊢
      by_cases e2 : f = fd
      · rw [e2, upd_eq]
      · rw [upd_ne _ _ _ _ e2]
        by_cases e' : f' = fd'
        · rw [e', upd_eq] at g2
          rw [← g2] at g1
          exact s.alone f fd k g1 l.ofd e2
        · rw [upd_ne _ _ _ _ e'] at g2
          exact s.alone f f' j g1 g2 hne
  fresh := s.fresh
  exist := s.exist
  inj := s.inj
  lost := s.lost
  num := s.num

/-- A handle is closed. -/
theorem sim_close {w : W} {p : P} {S : Nat → Bool} (s : Sim w p S) (fd : Nat) :
    Sim { w with h := upd w.h fd none } { p with fd := upd p.fd fd none } S where
  dirR := s.dirR
  dirW := s.dirW
  dirX := s.dirX
  name := s.name
  inode := s.inode
  running := s.running
  shut := fun f hf => by
    have hf : upd w.h fd none f = none := hf
    show upd p.fd fd _ f = none
    by_cases e : f = fd
    · rw [e, upd_eq]
    · rw [upd_ne _ _ _ _ e] at hf ⊢; exact s.shut f hf
  link := fun f z hz => by
    have hz : upd w.h fd none f = some z := hz
    by_cases e : f = fd
    · rw [e, upd_eq] at hz; simp at hz
    · rw [upd_ne _ _ _ _ e] at hz
      obtain ⟨k', d', l'⟩ := s.link f z hz
      exact ⟨k', d', ⟨l'.top, (upd_ne _ _ _ _ e).trans l'.ofd, l'.desc, l'.ino, l'.fl, l'.pos,
        l'.lf, l'.file⟩⟩
  alone := fun f f' j h1 h2 hne => by
    have g1 : upd p.fd fd none f = some j := h1
    have g2 : upd p.fd fd none f' = some j := h2
    by_cases e : f = fd
    · rw [e, upd_eq] at g1; simp at g1
    · rw [upd_ne _ _ _ _ e] at g1
      by_cases e' : f' = fd
      · rw [e', upd_eq] at g2; simp at g2
      · rw [upd_ne _ _ _ _ e'] at g2
        exact s.alone f f' j g1 g2 hne
  fresh := s.fresh
  exist := s.exist
  inj := s.inj
  lost := s.lost
  num := s.num

/-- A directory is removed. -/
theorem sim_rmdir {w : W} {p : P} {S : Nat → Bool} (s : Sim w p S) {n i : Nat}
    (hn : w.name n = some i) (ho : ¬ Opened p i) :
    Sim { w with name := upd w.name n none, inode := upd w.inode i none }
      { p with name := upd p.name n none, inode := upd p.inode i none } S where
  dirR := s.dirR
  dirW := s.dirW
  dirX := s.dirX
  name := by show upd p.name n _ = upd w.name n _; rw [s.name]
  inode := by show upd p.inode i _ = upd w.inode i _; rw [s.inode]
  running := s.running
  shut := s.shut
  link := fun f z hz => by
    obtain ⟨k, d, l⟩ := s.link f z hz
    refine ⟨k, d, ⟨l.top, l.ofd, l.desc, l.ino, l.fl, l.pos, l.lf, ?_⟩⟩
    obtain ⟨x, hx, hw⟩ := l.file
    have e : z.ino ≠ i := fun e => ho ⟨f, k, d, l.ofd, l.desc, l.ino.trans e⟩
    exact ⟨x, (upd_ne _ _ _ _ e).trans hx, hw⟩
  alone := s.alone
  fresh := s.fresh
  exist := fun m j hj => by
    show ∃ z, upd w.inode i none j = some z
    have hj : upd w.name n none m = some j := hj
    by_cases e : m = n
    · rw [e, upd_eq] at hj; simp at hj
    · rw [upd_ne _ _ _ _ e] at hj
      have : j ≠ i := fun e2 => e (s.inj m n j hj (e2 ▸ hn))
      rw [upd_ne _ _ _ _ this]
      exact s.exist m j hj
  inj := fun m m' j h1 h2 => by
    have h1 : upd w.name n none m = some j := h1
    have h2 : upd w.name n none m' = some j := h2
    by_cases e : m = n
    · rw [e, upd_eq] at h1; simp at h1
    · rw [upd_ne _ _ _ _ e] at h1
      by_cases e' : m' = n
      · rw [e', upd_eq] at h2; simp at h2
      · rw [upd_ne _ _ _ _ e'] at h2
        exact s.inj m m' j h1 h2
  lost := s.lost
  num := fun j z hz hb => by
    have hz : upd w.inode i none j = some z := hz
    by_cases e : j = i
    · rw [e, upd_eq] at hz; simp at hz
    · rw [upd_ne _ _ _ _ e] at hz
      exact s.num j z hz hb

/-- A program starts or stops. -/
theorem sim_run {w : W} {p : P} {S : Nat → Bool} (s : Sim w p S) (i a : Nat) :
    Sim { w with running := upd w.running i a } { p with running := upd p.running i a } S where
  dirR := s.dirR
  dirW := s.dirW
  dirX := s.dirX
  name := s.name
  inode := s.inode
  running := by show upd p.running i _ = upd w.running i _; rw [s.running]
  shut := s.shut
  link := fun f z hz => by
    obtain ⟨k, d, l⟩ := s.link f z hz
    exact ⟨k, d, ⟨l.top, l.ofd, l.desc, l.ino, l.fl, l.pos, l.lf, l.file⟩⟩
  alone := s.alone
  fresh := s.fresh
  exist := s.exist
  inj := s.inj
  lost := s.lost
  num := s.num

theorem existing_zero {fl : Flags} {x : Inode} (h : existing fl x = 0) :
    (wantR fl → x.r = true) ∧ (wantW fl → x.w = true) ∧ (fl.dir = true → x.isDir = true) ∧
    ¬ (fl.creat = true ∧ fl.excl = true) ∧ (wantW fl → x.isDir = false) ∧
    (fl.trunc = true → wantW fl) := by
  unfold existing at h
  split at h
  · cases h
  next c1 =>
  split at h
  · cases h
  next c2 =>
  split at h
  · cases h
  next c3 =>
  split at h
  · cases h
  next c4 =>
  split at h
  · cases h
  next c5 =>
  split at h
  · cases h
  next c6 =>
  split at h
  · cases h
  next c7 =>
  unfold wantR wantW
  refine ⟨fun hw => ?_, fun hw => ?_, fun hd => ?_, c5, fun hw => ?_, fun ht => ?_⟩
  · cases hr : x.r with
    | true => rfl
    | false =>
      rcases hw with hw | hw
      · exact absurd ⟨hw, hr⟩ c1
      · exact absurd ⟨hw, fun a => by rw [hr] at a; cases a.1⟩ c3
  · cases hr : x.w with
    | true => rfl
    | false =>
      rcases hw with hw | hw
      · exact absurd ⟨hw, hr⟩ c2
      · exact absurd ⟨hw, fun a => by rw [hr] at a; cases a.2⟩ c3
  · cases hr : x.isDir with
    | true => rfl
    | false => exact absurd ⟨hd, hr⟩ c4
  · cases hr : x.isDir with
    | false => rfl
    | true => exact absurd ⟨hw, hr⟩ c6
  · exact Decidable.not_not.mp fun hn => c7 ⟨ht, hn⟩

theorem existing_err {fl : Flags} {x : Inode} {p : P} {n i : Nat} (hn : p.name n = some i)
    (hx : p.inode i = some x) (h : existing fl x ≠ 0) :
    Refuse p n fl (existing fl x) ∨ (existing fl x = EINVAL ∧ fl.trunc = true ∧ ¬ wantW fl) := by
  unfold existing at h ⊢
  split
  · next c => exact .inl (.noRead i x hn hx (.inl c.1) c.2)
  split
  · next c => exact .inl (.noChange i x hn hx (.inl c.1) c.2)
  split
  · next c =>
    left
    cases hr : x.r with
    | false => exact .noRead i x hn hx (.inr c.1) hr
    | true =>
      refine .noChange i x hn hx (.inr c.1) ?_
      cases hw : x.w with
      | false => rfl
      | true => exact absurd ⟨hr, hw⟩ c.2
  split
  · next c => exact .inl (.notDir i x hn hx c.1 c.2)
  split
  · next c => exact .inl (.exists i hn c.1 c.2)
  split
  · next c => exact .inl (.isDir i x hn hx c.1 c.2)
  split
  · next c => exact .inr ⟨rfl, c.1, c.2⟩
  · next c1 c2 c3 c4 c5 c6 c7 =>
    rw [if_neg c1, if_neg c2, if_neg c3, if_neg c4, if_neg c5, if_neg c6, if_neg c7] at h
    exact absurd rfl h

theorem none_of_some {α} {o : Option α} {a : α} (h : o = some a) : o ≠ none := by rw [h]; simp

theorem bool_ne {b : Bool} (h : ¬ b = true) : b = false := by cases b <;> simp_all

/-- The call does what POSIX says. -/
def Good (p : P) (S : Nat → Bool) (op : Op) (o : W × Ret) : Prop :=
  ∃ p', Spec p op o.2 p' ∧ Sim o.1 p' (share S op o.2)

theorem out_ite {c : Prop} [Decidable c] {a b : W × Ret} {Q : W × Ret → Prop} (h1 : c → Q a)
    (h2 : ¬ c → Q b) : Q (if c then a else b) := by
  split
  · next h => exact h1 h
  · next h => exact h2 h

/-- `open` of a name that is there. -/
theorem sim_openOld {w : W} {p : P} {S : Nat → Bool} (s : Sim w p S) {fd n i : Nat} {x : Inode}
    {fl : Flags} {mr mw : Bool} {e : Env} (hn : w.name n = some i) (hx : w.inode i = some x)
    (ht : fd < w.top) (hfd : w.h fd = none) (hr : w.dirR = true)
    (hd : ¬ (fl.dir = true ∧ x.isDir = false)) :
    Good p S (.open fd n fl mr mw e) (openOld w fd i x fl e) := by
  have pn : p.name n = some i := by rw [s.name]; exact hn
  have px : p.inode i = some x := by rw [s.inode]; exact hx
  unfold openOld
  refine out_ite (Q := Good p S (.open fd n fl mr mw e)) (fun c => ?_) (fun cdir => ?_)
  · refine ⟨p, .refuse _ _ _ _ _ _ _ (.search ?_), s⟩
    rw [s.dirX]
    exact bool_ne fun h => c ⟨hr, h⟩
  have cdir : w.dirR = true ∧ w.dirX = true := Decidable.not_not.mp cdir
  refine out_ite (Q := Good p S (.open fd n fl mr mw e)) (fun c => ?_) (fun c0 => ?_)
  · rcases existing_err pn px c with h | ⟨h1, h2, h3⟩
    · exact ⟨p, .refuse _ _ _ _ _ _ _ h, s⟩
    · rw [h1]
      exact ⟨p, .undef _ _ _ _ _ _ h2 h3, s⟩
  obtain ⟨e1, e2, e3, e4, e5, e6⟩ := existing_zero (Decidable.not_not.mp c0)
  refine out_ite (Q := Good p S (.open fd n fl mr mw e)) (fun c => ?_) (fun cb => ?_)
  · exact ⟨p, .refuse _ _ _ _ _ _ _ (.busy i pn c.1.2 (by rw [s.running]; exact c.2)), s⟩
  refine out_ite (Q := Good p S (.open fd n fl mr mw e)) (fun c => ?_) (fun _ => ?_)
  · exact ⟨p, .memory _ _ _ _ _ _ _ (.inl rfl) (.inr (.inl c.2.2)), s⟩
  refine out_ite (Q := Good p S (.open fd n fl mr mw e)) (fun c => ?_) (fun _ => ?_)
  · exact ⟨p, .memory _ _ _ _ _ _ _ (.inl rfl) (.inr (.inr (.inr c))), s⟩
  obtain ⟨N, hN⟩ := s.fresh
  have noref : ∀ c, ¬ Refuse p n fl c := by
    intro c hc
    cases hc with
    | search h => rw [s.dirX, cdir.2] at h; cases h
    | missing h _ => rw [pn] at h; cases h
    | noWrite h _ _ => rw [pn] at h; cases h
    | noRead j y h1 h2 h3 h4 =>
      cases Option.some.inj (pn.symm.trans h1)
      cases Option.some.inj (px.symm.trans h2)
      rw [e1 h3] at h4; cases h4
    | noChange j y h1 h2 h3 h4 =>
      cases Option.some.inj (pn.symm.trans h1)
      cases Option.some.inj (px.symm.trans h2)
      rw [e2 h3] at h4; cases h4
    | «exists» j h1 h2 h3 => exact e4 ⟨h2, h3⟩
    | notDir j y h1 h2 h3 h4 =>
      cases Option.some.inj (pn.symm.trans h1)
      cases Option.some.inj (px.symm.trans h2)
      rw [e3 h3] at h4; cases h4
    | isDir j y h1 h2 h3 h4 =>
      cases Option.some.inj (pn.symm.trans h1)
      cases Option.some.inj (px.symm.trans h2)
      rw [e5 h3] at h4; cases h4
    | busy j h1 h2 h3 =>
      cases Option.some.inj (pn.symm.trans h1)
      exact cb ⟨⟨e5 h2, h2⟩, s.running ▸ h3⟩
  refine ⟨_, .old fd n fl mr mw e i x N noref pn px (hN N (Nat.le_refl _)), ?_⟩
  have hlk : (x.isDir == false && (fl.wr || fl.rw)) = true ↔ wantW fl := by
    rw [Bool.and_eq_true, Bool.or_eq_true, beq_iff_eq]
    exact ⟨fun h => h.2, fun h => ⟨e5 h, h⟩⟩
  by_cases htr : fl.trunc = true
  · have hf : x.isDir = false := e5 (e6 htr)
    have s1 : Sim { w with inode := upd w.inode i (some { x with data := [] }) }
        { p with inode := upd p.inode i (some { x with data := [] }) } S := sim_inode s hx rfl rfl
    have s2 := sim_open s1 (fd := fd) (i := i) (k := N) (fl := fl) ht hfd (hN N (Nat.le_refl _)) hlk
      ⟨_, upd_eq _ _ _, fun _ => hf⟩
    have hw : w.trunc0 i x fl = upd w.inode i (some { x with data := [] }) := if_pos ⟨htr, hf⟩
    have hp : (fun j => if j = i ∧ fl.trunc = true then some { x with data := [] } else p.inode j) =
        upd p.inode i (some { x with data := [] }) := by
      funext j
      simp [upd, htr]
    rw [hp]
    show Sim { w with inode := w.trunc0 i x fl, h := _ } _ _
    rw [hw]
    exact s2
  · have s2 := sim_open s (fd := fd) (i := i) (k := N) (fl := fl) ht hfd (hN N (Nat.le_refl _)) hlk
      ⟨_, hx, e5⟩
    have hw : w.trunc0 i x fl = w.inode := if_neg fun h => htr h.1
    have hp : (fun j => if j = i ∧ fl.trunc = true then some { x with data := [] } else p.inode j) =
        p.inode := by
      funext j
      simp [htr]
    rw [hp]
    show Sim { w with inode := w.trunc0 i x fl, h := _ } _ _
    rw [hw]
    exact s2

theorem opt_ite {c : Prop} [Decidable c] {a b : Option (W × Ret)} {Q : Option (W × Ret) → Prop}
    (h1 : c → Q a) (h2 : ¬ c → Q b) : Q (if c then a else b) := by
  split
  · next h => exact h1 h
  · next h => exact h2 h

/-- The call is defined and does what POSIX says. -/
def GoodO (p : P) (S : Nat → Bool) (op : Op) (o : Option (W × Ret)) : Prop :=
  ∃ x, o = some x ∧ Good p S op x

/-- `open` of a name that is not there. -/
theorem sim_openNew {dbg : Bool} {w : W} {p : P} {S : Nat → Bool} (s : Sim w p S) {fd n : Nat}
    {fl : Flags} {mr mw : Bool} {e : Env} (hn : w.name n = none)
    (ht : fd < w.top) (hfd : w.h fd = none) (hi : ∀ i, e.ino = some i → w.inode i = none)
    (hd : fl.dir = false)
    (ha : fl.creat = true → e.entry = true ∧ e.handle = true ∧ wantW fl ∧
        (dbg = true → fl.trunc = true → mw = true)) :
    GoodO p S (.open fd n fl mr mw e) (openNew dbg w fd n fl mr mw e) := by
  have pn : p.name n = none := by rw [s.name]; exact hn
  unfold openNew
  refine opt_ite (Q := GoodO p S (.open fd n fl mr mw e)) (fun c => ?_) (fun c => ?_)
  · exact ⟨_, rfl, p, .refuse _ _ _ _ _ _ _ (.missing pn c), s⟩
  have hc : fl.creat = true := by cases h : fl.creat <;> simp_all
  obtain ⟨h1, h2, h3, h4⟩ := ha hc
  refine opt_ite (Q := GoodO p S (.open fd n fl mr mw e)) (fun c => ?_) (fun cd => ?_)
  · refine ⟨_, rfl, p, .refuse _ _ _ _ _ _ _ ?_, s⟩
    by_cases hw : w.dirW = true
    · exact .search (s.dirX ▸ bool_ne fun h => c ⟨hw, h⟩)
    · exact .noWrite pn hc (s.dirW ▸ bool_ne hw)
  have cd : w.dirW = true ∧ w.dirX = true := Decidable.not_not.mp cd
  cases he : e.ino with
  | none => exact ⟨_, rfl, p, .memory _ _ _ _ _ _ _ (.inr rfl) (.inl he), s⟩
  | some i =>
    have wi := hi i he
    have pi : p.inode i = none := by rw [s.inode]; exact wi
    refine opt_ite (Q := GoodO p S (.open fd n fl mr mw e)) (fun c => ?_) (fun _ => ?_)
    · exact ⟨_, rfl, p, .memory _ _ _ _ _ _ _ (.inl rfl) (.inr (.inl c.2)), s⟩
    refine opt_ite (Q := GoodO p S (.open fd n fl mr mw e)) (fun c => ?_) (fun _ => ?_)
    · rw [h1] at c; cases c
    refine opt_ite (Q := GoodO p S (.open fd n fl mr mw e)) (fun c => ?_) (fun _ => ?_)
    · rw [h2] at c; cases c
    refine opt_ite (Q := GoodO p S (.open fd n fl mr mw e)) (fun c => ?_) (fun _ => ?_)
    · have := h4 c.2.2 c.1
      rw [c.2.1] at this; cases this
    obtain ⟨N, hN⟩ := s.fresh
    have noref : ∀ c, ¬ Refuse p n fl c := by
      intro c hc'
      cases hc' with
      | search h => rw [s.dirX, cd.2] at h; cases h
      | missing _ h => rw [hc] at h; cases h
      | noWrite _ _ h => rw [s.dirW, cd.1] at h; cases h
      | noRead j y g => rw [pn] at g; cases g
      | noChange j y g => rw [pn] at g; cases g
      | «exists» j g => rw [pn] at g; cases g
      | notDir j y g => rw [pn] at g; cases g
      | isDir j y g => rw [pn] at g; cases g
      | busy j g => rw [pn] at g; cases g
    refine ⟨_, rfl, _, .create fd n fl mr mw e i N noref pn pi (hN N (Nat.le_refl _)), ?_⟩
    have s1 := sim_name s (y := ⟨mr, mw, false, [], 0⟩) hn wi (fun h => by cases h)
    exact sim_open s1 (fd := fd) (i := i) (k := N) (fl := fl) (lf := true) ht hfd
      (hN N (Nat.le_refl _)) ⟨fun _ => h3, fun _ => rfl⟩ ⟨_, upd_eq _ _ _, fun _ => rfl⟩

theorem Link.at {w : W} {p : P} {S : Nat → Bool} (s : Sim w p S) {fd k : Nat} {x : Handle}
    {d : Desc} {y : Inode} (l : Link w p S fd x k d) (hy : w.inode x.ino = some y) :
    At p fd k d y := ⟨l.ofd, l.desc, by rw [s.inode, l.ino]; exact hy⟩

theorem setSize_file {y : Inode} (hw : y.w = true) (hd : y.isDir = false) (k : Nat) :
    setSize y k = .inl { y with data := resize y.data k } := by
  unfold setSize
  rw [if_neg (by rw [hw]; simp), if_neg (by rw [hd]; simp)]

/-- Every call avoiding the exceptions is defined and does what POSIX says. -/
theorem step_good {dbg : Bool} {w : W} {p : P} {S : Nat → Bool} (s : Sim w p S) (op : Op)
    (a : Avoids dbg w S op) : GoodO p S op (step dbg w op) := by
  cases op with
  | «open» fd n fl mr mw e =>
    obtain ⟨a1, a2, a3, a4, a5⟩ := a
    show GoodO p S _ (openF dbg w fd n fl mr mw e)
    unfold openF
    cases hf : w.find n with
    | none =>
      have hn := s.find_none hf
      obtain ⟨b1, b2⟩ := a5 hn
      refine opt_ite (Q := GoodO p S (.open fd n fl mr mw e)) (fun c => ?_) (fun _ => ?_)
      · rw [b1] at c; cases c
      · exact sim_openNew s hn a1 a2 a3 b1 b2
    | some q =>
      obtain ⟨i, x⟩ := q
      obtain ⟨hn, hx⟩ := find_some hf
      refine opt_ite (Q := GoodO p S (.open fd n fl mr mw e)) (fun c => ?_) (fun c => ?_)
      · exact ⟨_, rfl, p, .refuse _ _ _ _ _ _ _ (.notDir i x (s.name ▸ hn) (s.inode ▸ hx) c.1 c.2), s⟩
      · exact ⟨_, rfl, sim_openOld s hn hx a1 a2 (a4 (none_of_some hn)) c⟩
  | close fd =>
    show GoodO p S _ (match w.h fd with | none => _ | some _ => _)
    cases hx : w.h fd with
    | none => exact ⟨_, rfl, p, .badClose fd (s.shut fd hx), s⟩
    | some x =>
      obtain ⟨k, d, l⟩ := s.link fd x hx
      exact ⟨_, rfl, _, .close fd k l.ofd, sim_close s fd⟩
  | dup fd fd' =>
    show GoodO p S _ (match w.h fd with | none => _ | some x => _)
    cases hx : w.h fd with
    | none => exact ⟨_, rfl, p, .badDup fd fd' (s.shut fd hx), s⟩
    | some x =>
      obtain ⟨k, d, l⟩ := s.link fd x hx
      exact ⟨_, rfl, _, .dup fd fd' k l.ofd, sim_dup s hx l a.1 a.2⟩
  | read fd k' =>
    show GoodO p S (.read fd k') (match w.look fd with | none => _ | some (x, y) => _)
    cases hl : w.look fd with
    | none => exact ⟨_, rfl, p, .badRead fd k' (s.look_none hl), s⟩
    | some q =>
      obtain ⟨x, y⟩ := q
      obtain ⟨hx, hy⟩ := look_some hl
      obtain ⟨k, d, l⟩ := s.link fd x hx
      refine opt_ite (Q := GoodO p S (.read fd k')) (fun c => ?_) (fun c => ?_)
      · refine ⟨_, rfl, p, .noRead fd k' k d y (l.at s hy) ?_, s⟩
        rw [l.fl]
        rintro (h | h)
        · rw [c.1] at h; cases h
        · rw [c.2] at h; cases h
      refine opt_ite (Q := GoodO p S (.read fd k')) (fun c2 => ?_) (fun c2 => ?_)
      · exact ⟨_, rfl, p, .readDir fd k' k d y (l.at s hy) c2, s⟩
      have hr : wantR d.fl := by
        rw [l.fl]
        by_cases h : x.fl.wr = true
        · exact .inr (by
            cases hh : x.fl.rw with
            | true => rfl
            | false => exact absurd ⟨h, hh⟩ c)
        · exact .inl (bool_ne h)
      have hp := l.pos a
      refine ⟨_, rfl, _, .read fd k' k d y _ (l.at s hy) hr (bool_ne c2) (hp ▸ readOk y.data d.pos k'), ?_⟩
      exact sim_pos s hx l (fun _ => by rw [hp])
  | write fd b =>
    show GoodO p S (.write fd b) (match w.look fd with | none => _ | some (x, y) => _)
    cases hl : w.look fd with
    | none => exact ⟨_, rfl, p, .badWrite fd b (s.look_none hl), s⟩
    | some q =>
      obtain ⟨x, y⟩ := q
      obtain ⟨hx, hy⟩ := look_some hl
      obtain ⟨k, d, l⟩ := s.link fd x hx
      refine opt_ite (Q := GoodO p S (.write fd b)) (fun c => ?_) (fun c => ?_)
      · exact ⟨_, rfl, p, .noWrite fd b k d y (l.at s hy) (l.fl ▸ c), s⟩
      have hq : (if d.fl.app = true then y.data.length else d.pos) =
          (if x.fl.app = true then y.data.length else x.pos) := by
        rw [l.fl]
        rcases a with a | a
        · rw [l.pos a]
        · rw [if_pos (a x hx), if_pos (a x hx)]
      have hw : wantW x.fl := by
        unfold wantW
        exact Decidable.not_not.mp c
      refine ⟨_, rfl, _, .write fd b k d y _ _ (l.at s hy) (l.fl ▸ hw) rfl
        (writeOk y.data _ b), ?_⟩
      rw [hq]
      have s1 : Sim _ _ S := sim_inode s hy (y' := { y with
        data := putAt y.data (if x.fl.app = true then y.data.length else x.pos) b }) rfl rfl
      have l1 : Link { w with inode := upd w.inode x.ino (some { y with
          data := putAt y.data (if x.fl.app = true then y.data.length else x.pos) b }) }
          { p with inode := upd p.inode x.ino (some { y with
          data := putAt y.data (if x.fl.app = true then y.data.length else x.pos) b }) } S fd x k d := by
        refine ⟨l.top, l.ofd, l.desc, l.ino, l.fl, l.pos, l.lf, ?_⟩
        obtain ⟨z, hz, hh⟩ := l.file
        cases Option.some.inj (hz.symm.trans hy)
        exact ⟨_, upd_eq _ _ _, hh⟩
      have := sim_pos s1 hx l1
        (a := (if x.fl.app = true then y.data.length else x.pos) + b.length)
        (b := (if x.fl.app = true then y.data.length else x.pos) + b.length) (fun _ => rfl)
      rw [← l.ino] at this
      rw [← l.ino]
      exact this
  | seek fd q =>
    show GoodO p S (.seek fd q) (match w.look fd with | none => _ | some (x, _) => _)
    cases hl : w.look fd with
    | none => exact ⟨_, rfl, p, .badSeek fd q (s.look_none hl), s⟩
    | some z =>
      obtain ⟨x, y⟩ := z
      obtain ⟨hx, hy⟩ := look_some hl
      obtain ⟨k, d, l⟩ := s.link fd x hx
      exact ⟨_, rfl, _, .seek fd q k d l.ofd l.desc, sim_pos s hx l (fun _ => rfl)⟩
  | ftruncate fd q =>
    show GoodO p S (.ftruncate fd q) (match w.look fd with | none => _ | some (x, y) => _)
    cases hl : w.look fd with
    | none => exact ⟨_, rfl, p, .badTrunc fd q (s.look_none hl), s⟩
    | some z =>
      obtain ⟨x, y⟩ := z
      obtain ⟨hx, hy⟩ := look_some hl
      obtain ⟨k, d, l⟩ := s.link fd x hx
      obtain ⟨a1, a2⟩ := a x y hl
      have hd : y.isDir = false := by
        obtain ⟨z, hz, hh⟩ := l.file
        cases Option.some.inj (hz.symm.trans hy)
        exact hh a1
      dsimp only
      rw [setSize_file a2 hd]
      refine ⟨_, rfl, _, .trunc fd q k d y _ (l.at s hy) (l.fl ▸ a1) (sizeOk y.data q), ?_⟩
      rw [l.ino]
      exact sim_inode s hy rfl rfl
  | truncate n k lock =>
    show GoodO p S (.truncate n k lock) (match w.find n with | none => _ | some (i, y) => _)
    cases hf : w.find n with
    | none => exact ⟨_, rfl, p, .noName n k lock (s.name ▸ s.find_none hf), s⟩
    | some z =>
      obtain ⟨i, y⟩ := z
      obtain ⟨hn, hy⟩ := find_some hf
      have hd := a.2 i y hf
      refine opt_ite (Q := GoodO p S (.truncate n k lock)) (fun c => ?_) (fun c => ?_)
      · exact ⟨_, rfl, p, .busyTrunc n k i lock (s.name ▸ hn) (s.running ▸ c), s⟩
      refine opt_ite (Q := GoodO p S (.truncate n k lock)) (fun c2 => ?_) (fun c2 => ?_)
      · rw [c2.2]
        exact ⟨_, rfl, p, .memTrunc n k, s⟩
      cases hw : y.w with
      | false =>
        have : setSize y k = .inr EACCES := if_pos hw
        rw [this]
        exact ⟨_, rfl, p, .refTrunc n k i y lock (s.name ▸ hn) (s.inode ▸ hy) hw, s⟩
      | true =>
        rw [setSize_file hw hd]
        refine ⟨_, rfl, _, .truncate n k i y _ lock (s.name ▸ hn) (s.inode ▸ hy) ?_ (s.dirX ▸ a.1) hw
          hd (sizeOk y.data k), sim_inode s hy rfl rfl⟩
        rw [s.running]; omega
  | mkdir n mr mw ino entry =>
    show GoodO p S (.mkdir n mr mw ino entry) (match w.find n with | some _ => _ | none => _)
    cases hf : w.find n with
    | some z => 
      obtain ⟨i, y⟩ := z
      exact ⟨_, rfl, p, .oldDir n mr mw ino entry i (s.name ▸ (find_some hf).1), s⟩
    | none =>
      have hn := s.find_none hf
      refine opt_ite (Q := GoodO p S (.mkdir n mr mw ino entry)) (fun c => ?_) (fun c => ?_)
      · exact ⟨_, rfl, p, .refDir n mr mw ino entry (by rw [s.dirW, s.dirX]; exact c), s⟩
      have c : w.dirW = true ∧ w.dirX = true := Decidable.not_not.mp c
      cases hi : ino with
      | none => exact ⟨_, rfl, p, .memDir n mr mw none entry (.inl rfl), s⟩
      | some i =>
        refine opt_ite (Q := GoodO p S (.mkdir n mr mw (some i) entry)) (fun c2 => ?_) (fun c2 => ?_)
        · exact ⟨_, rfl, p, .memDir n mr mw (some i) entry (.inr c2), s⟩
        · exact ⟨_, rfl, _, .mkdir n mr mw (some i) entry i (s.name ▸ hn) (s.dirW ▸ c.1) (s.dirX ▸ c.2)
            (s.inode ▸ a i hi), sim_name s hn (a i hi) (fun _ => rfl)⟩
  | rmdir n =>
    show GoodO p S (.rmdir n) (match w.find n with | none => _ | some (i, y) => _)
    cases hf : w.find n with
    | none => exact ⟨_, rfl, p, .noDir n (s.name ▸ s.find_none hf), s⟩
    | some z =>
      obtain ⟨i, y⟩ := z
      obtain ⟨hn, hy⟩ := find_some hf
      refine opt_ite (Q := GoodO p S (.rmdir n)) (fun c => ?_) (fun c => ?_)
      · exact ⟨_, rfl, p, .rmFile n i y (s.name ▸ hn) (s.inode ▸ hy) c, s⟩
      have hd : y.isDir = true := by cases h : y.isDir <;> simp_all
      refine opt_ite (Q := GoodO p S (.rmdir n)) (fun c2 => ?_) (fun c2 => ?_)
      · exact ⟨_, rfl, p, .refRm n (s.dirW ▸ c2), s⟩
      refine opt_ite (Q := GoodO p S (.rmdir n)) (fun c3 => ?_) (fun c3 => ?_)
      · have := s.num i y hy hd; omega
      refine opt_ite (Q := GoodO p S (.rmdir n)) (fun c4 => ?_) (fun c4 => ?_)
      · exact ⟨_, rfl, p, .busyRm n i (s.name ▸ hn) ((s.opened i).mp c4), s⟩
      · have ho : ¬ Opened p i := fun h => c4 ((s.opened i).mpr h)
        refine ⟨_, rfl, _, .rmdir n i y (s.name ▸ hn) (s.inode ▸ hy) hd ?_ (s.dirX ▸ a) ho,
          sim_rmdir s hn ho⟩
        rw [s.dirW]
        cases h : w.dirW <;> simp_all
  | exec n =>
    show GoodO p S (.exec n) (match w.find n with | none => _ | some (i, y) => _)
    cases hf : w.find n with
    | none => exact ⟨_, rfl, p, .noExec n (s.name ▸ s.find_none hf), s⟩
    | some z =>
      obtain ⟨i, y⟩ := z
      obtain ⟨hn, hy⟩ := find_some hf
      have hr := a.2 i y hf
      refine opt_ite (Q := GoodO p S (.exec n)) (fun c => ?_) (fun c => ?_)
      · refine ⟨_, rfl, p, .refExec n ?_, s⟩
        rw [s.dirX]
        rcases c with c | c
        · exact bool_ne fun h => c ⟨a.1, h⟩
        · rw [hr] at c; cases c
      have hX : w.dirX = true := by
        cases h : w.dirX with
        | true => rfl
        | false => exact absurd (Or.inl fun hh => by rw [h] at hh; cases hh.2) c
      refine opt_ite (Q := GoodO p S (.exec n)) (fun c2 => ?_) (fun c2 => ?_)
      · exact ⟨_, rfl, p, .dirExec n i y (s.name ▸ hn) (s.inode ▸ hy) c2, s⟩
      refine opt_ite (Q := GoodO p S (.exec n)) (fun c3 => ?_) (fun c3 => ?_)
      · exact ⟨_, rfl, p, .busyExec n i (s.name ▸ hn) ((s.written i).mp c3), s⟩
      · have ho : ¬ Written p i := fun h => c3 ((s.written i).mpr h)
        refine ⟨_, rfl, _, .exec n i y (s.name ▸ hn) (s.inode ▸ hy) (bool_ne c2) (s.dirX ▸ hX) ho, ?_⟩
        rw [s.running]
        have := sim_run s i (w.running i + 1)
        rw [s.running] at this
        exact this
  | stop i =>
    refine ⟨_, rfl, _, .stop i, ?_⟩
    have := sim_run s i (w.running i - 1)
    rw [s.running] at this ⊢
    exact this

/-- Who runs a file excludes who writes it. -/
def Excl (p : P) : Prop :=
  ∀ i, 0 < p.running i → (∃ x, p.inode i = some x ∧ x.isDir = false) ∧ ¬ Written p i

theorem excl_spec {p p' : P} {op r} (e : Excl p) (h : Spec p op r p') : Excl p' := by
  cases h with
  | old fd n fl mr mw en j y k g1 g2 g3 g4 =>
    intro i hr
    obtain ⟨⟨x, hx, hd⟩, hw⟩ := e i hr
    constructor
    · show ∃ x, (if i = j ∧ fl.trunc = true then _ else p.inode i) = some x ∧ _
      split
      · next c =>
        rw [c.1] at hx
        cases Option.some.inj (hx.symm.trans g3)
        exact ⟨_, rfl, hd⟩
      · exact ⟨x, hx, hd⟩
    · rintro ⟨f, k', d, q1, q2, q3, q4⟩
      have q1 : upd p.fd fd (some k) f = some k' := q1
      have q2 : upd p.desc k (some ⟨j, 0, fl⟩) k' = some d := q2
      by_cases ek : k' = k
      · rw [ek, upd_eq] at q2
        cases Option.some.inj q2
        have q3 : j = i := q3
        exact g1 _ (.busy j g2 q4 (q3 ▸ hr))
      · rw [upd_ne _ _ _ _ ek] at q2
        by_cases ef : f = fd
        · rw [ef, upd_eq] at q1; exact ek (Option.some.inj q1).symm
        · rw [upd_ne _ _ _ _ ef] at q1
          exact hw ⟨f, k', d, q1, q2, q3, q4⟩
  | create fd n fl mr mw en j k g1 g2 g3 g4 =>
    intro i hr
    obtain ⟨⟨x, hx, hd⟩, hw⟩ := e i hr
    have ne : i ≠ j := fun h => by rw [h, g3] at hx; cases hx
    constructor
    · exact ⟨x, (upd_ne _ _ _ _ ne).trans hx, hd⟩
    · rintro ⟨f, k', d, q1, q2, q3, q4⟩
      have q1 : upd p.fd fd (some k) f = some k' := q1
      have q2 : upd p.desc k (some ⟨j, 0, fl⟩) k' = some d := q2
      by_cases ek : k' = k
      · rw [ek, upd_eq] at q2
        cases Option.some.inj q2
        exact ne q3.symm
      · rw [upd_ne _ _ _ _ ek] at q2
        by_cases ef : f = fd
        · rw [ef, upd_eq] at q1; exact ek (Option.some.inj q1).symm
        · rw [upd_ne _ _ _ _ ef] at q1
          exact hw ⟨f, k', d, q1, q2, q3, q4⟩
  | close fd k g1 =>
    intro i hr
    obtain ⟨hx, hw⟩ := e i hr
    refine ⟨hx, ?_⟩
    rintro ⟨f, k', d, q1, q2, q3, q4⟩
    have q1 : upd p.fd fd none f = some k' := q1
    by_cases ef : f = fd
    · rw [ef, upd_eq] at q1; cases q1
    · rw [upd_ne _ _ _ _ ef] at q1
      exact hw ⟨f, k', d, q1, q2, q3, q4⟩
  | dup fd fd' k g1 =>
    intro i hr
    obtain ⟨hx, hw⟩ := e i hr
    refine ⟨hx, ?_⟩
    rintro ⟨f, k', d, q1, q2, q3, q4⟩
    have q1 : upd p.fd fd' (some k) f = some k' := q1
    by_cases ef : f = fd'
    · rw [ef, upd_eq] at q1
      cases Option.some.inj q1
      exact hw ⟨fd, k, d, g1, q2, q3, q4⟩
    · rw [upd_ne _ _ _ _ ef] at q1
      exact hw ⟨f, k', d, q1, q2, q3, q4⟩
  | read fd k' k d x l g1 g2 g3 g4 =>
    intro i hr
    obtain ⟨hx, hw⟩ := e i hr
    refine ⟨hx, ?_⟩
    rintro ⟨f, k2, d2, q1, q2, q3, q4⟩
    have q2 : upd p.desc k (some { d with pos := d.pos + l.length }) k2 = some d2 := q2
    by_cases ek : k2 = k
    · rw [ek, upd_eq] at q2
      cases Option.some.inj q2
      exact hw ⟨f, k2, d, q1, ek ▸ g1.2.1, q3, q4⟩
    · rw [upd_ne _ _ _ _ ek] at q2
      exact hw ⟨f, k2, d2, q1, q2, q3, q4⟩
  | write fd b k d x q d' g1 g2 g3 g4 =>
    intro i hr
    obtain ⟨⟨y, hx, hd⟩, hw⟩ := e i hr
    have ne : i ≠ d.ino := fun h => hw ⟨fd, k, d, g1.1, g1.2.1, h.symm, g2⟩
    refine ⟨⟨y, (upd_ne _ _ _ _ ne).trans hx, hd⟩, ?_⟩
    rintro ⟨f, k2, d2, q1, q2, q3, q4⟩
    have q2 : upd p.desc k (some { d with pos := q + b.length }) k2 = some d2 := q2
    by_cases ek : k2 = k
    · rw [ek, upd_eq] at q2
      cases Option.some.inj q2
      exact hw ⟨f, k2, d, q1, ek ▸ g1.2.1, q3, q4⟩
    · rw [upd_ne _ _ _ _ ek] at q2
      exact hw ⟨f, k2, d2, q1, q2, q3, q4⟩
  | seek fd q k d g1 g2 =>
    intro i hr
    obtain ⟨hx, hw⟩ := e i hr
    refine ⟨hx, ?_⟩
    rintro ⟨f, k2, d2, q1, q2, q3, q4⟩
    have q2 : upd p.desc k (some { d with pos := q }) k2 = some d2 := q2
    by_cases ek : k2 = k
    · rw [ek, upd_eq] at q2
      cases Option.some.inj q2
      exact hw ⟨f, k2, d, q1, ek ▸ g2, q3, q4⟩
    · rw [upd_ne _ _ _ _ ek] at q2
      exact hw ⟨f, k2, d2, q1, q2, q3, q4⟩
  | trunc fd q k d x d' g1 g2 g3 =>
    intro i hr
    obtain ⟨⟨y, hx, hd⟩, hw⟩ := e i hr
    have ne : i ≠ d.ino := fun h => hw ⟨fd, k, d, g1.1, g1.2.1, h.symm, g2⟩
    exact ⟨⟨y, (upd_ne _ _ _ _ ne).trans hx, hd⟩, hw⟩
  | truncate n k j x d' l g1 g2 g3 g4 g5 g6 g7 =>
    intro i hr
    obtain ⟨⟨y, hx, hd⟩, hw⟩ := e i hr
    have hr : 0 < p.running i := hr
    have ne : i ≠ j := fun h => by rw [h, g3] at hr; omega
    exact ⟨⟨y, (upd_ne _ _ _ _ ne).trans hx, hd⟩, hw⟩
  | mkdir n mr mw ii en j g1 g2 g3 g4 =>
    intro i hr
    obtain ⟨⟨y, hx, hd⟩, hw⟩ := e i hr
    have ne : i ≠ j := fun h => by rw [h, g4] at hx; cases hx
    exact ⟨⟨y, (upd_ne _ _ _ _ ne).trans hx, hd⟩, hw⟩
  | rmdir n j x g1 g2 g3 g4 g5 g6 =>
    intro i hr
    obtain ⟨⟨y, hx, hd⟩, hw⟩ := e i hr
    have ne : i ≠ j := fun h => by
      rw [h] at hx
      cases Option.some.inj (hx.symm.trans g2)
      rw [hd] at g3; cases g3
    exact ⟨⟨y, (upd_ne _ _ _ _ ne).trans hx, hd⟩, hw⟩
  | exec n j x g1 g2 g3 g4 g5 =>
    intro i hr
    have hr : 0 < upd p.running j (p.running j + 1) i := hr
    by_cases ne : i = j
    · rw [ne]; exact ⟨⟨x, g2, g3⟩, g5⟩
    · rw [upd_ne _ _ _ _ ne] at hr
      exact e i hr
  | stop j =>
    intro i hr
    have hr : 0 < upd p.running j (p.running j - 1) i := hr
    by_cases ne : i = j
    · rw [ne, upd_eq] at hr
      rw [ne]; exact e j (by omega)
    · rw [upd_ne _ _ _ _ ne] at hr
      exact e i hr
  | _ => exact e

theorem hist_excl {dbg a b c top w S l} (h : Hist dbg (new a b c top) w S l) :
    ∃ p, PHist (pnew a b c) p l ∧ Sim w p S ∧ Excl p := by
  induction h with
  | nil => exact ⟨_, .nil, sim_new a b c top, fun i h => absurd h (by simp [pnew])⟩
  | snoc w S op w' r l _ ha hs ih =>
    obtain ⟨p, hp, s, e⟩ := ih
    obtain ⟨x, hx, p', h1, h2⟩ := step_good s op ha
    rw [hs] at hx
    cases Option.some.inj hx
    exact ⟨p', .snoc p p' op r l hp h1, h2, excl_spec e h1⟩

theorem hist_sim {dbg a b c top w S l} (h : Hist dbg (new a b c top) w S l) :
    ∃ p, PHist (pnew a b c) p l ∧ Sim w p S := by
  obtain ⟨p, hp, s, _⟩ := hist_excl h
  exact ⟨p, hp, s⟩

/-! ## C146-C149 -/

/-- **C146-C149.** Every history that avoids the exceptions is one POSIX allows: the results of its
calls are results of a POSIX history, which leaves the same names and the same files with the same
contents.  (Missing: the exceptions in `Avoids`, shown below.) -/
theorem posix_partial {dbg a b c top w S l} (h : Hist dbg (new a b c top) w S l) :
    ∃ p, PHist (pnew a b c) p l ∧ p.name = w.name ∧ p.inode = w.inode := by
  obtain ⟨p, hp, s⟩ := hist_sim h
  exact ⟨p, hp, s.name, s.inode⟩

/-- **C147.** No such call stops the kernel. -/
theorem defined_partial {dbg a b c top w S l} (h : Hist dbg (new a b c top) w S l) (op : Op)
    (ha : Avoids dbg w S op) : ∃ w' r, step dbg w op = some (w', r) := by
  obtain ⟨p, _, s⟩ := hist_sim h
  obtain ⟨x, hx, _⟩ := step_good s op ha
  exact ⟨x.1, x.2, hx⟩

/-- **C147.** An `open` that fails leaves names, files and descriptors as they are. -/
theorem open_failed_partial {dbg a b c top w S l} (h : Hist dbg (new a b c top) w S l)
    {fd n fl mr mw e w' r} (ha : Avoids dbg w S (.open fd n fl mr mw e))
    (hs : step dbg w (.open fd n fl mr mw e) = some (w', .err r)) :
    w'.name = w.name ∧ w'.inode = w.inode ∧ w'.h fd = none := by
  obtain ⟨p, _, s⟩ := hist_sim h
  obtain ⟨x, hx, p', h1, h2⟩ := step_good s _ ha
  rw [hs] at hx
  cases Option.some.inj hx
  have hp : p' = p := by cases h1 <;> rfl
  subst hp
  refine ⟨h2.name.symm.trans s.name, h2.inode.symm.trans s.inode, ?_⟩
  cases e : w'.h fd with
  | none => rfl
  | some x =>
    obtain ⟨k, d, l⟩ := h2.link fd x e
    have := s.shut fd ha.2.1
    rw [l.ofd] at this
    cases this

/-- **C149.** While a program runs, no call changes the contents of its file. -/
theorem running_kept_partial {dbg a b c top w S l} (h : Hist dbg (new a b c top) w S l) {op w' r}
    (ha : Avoids dbg w S op) (hs : step dbg w op = some (w', r)) {i : Nat} {x : Inode}
    (hi : w.inode i = some x) (hr : 0 < w.running i) : w'.inode i = some x := by
  obtain ⟨p, _, s, ex⟩ := hist_excl h
  obtain ⟨z, hz, p', h1, h2⟩ := step_good s op ha
  rw [hs] at hz
  cases Option.some.inj hz
  rw [← h2.inode]
  have pi : p.inode i = some x := by rw [s.inode]; exact hi
  have pr : 0 < p.running i := by rw [s.running]; exact hr
  have pw : ∀ fd k d, p.fd fd = some k → p.desc k = some d → d.ino = i → ¬ wantW d.fl :=
    fun fd k d g1 g2 g3 g4 => (ex i pr).2 ⟨fd, k, d, g1, g2, g3, g4⟩
  have hd : x.isDir = false := by
    obtain ⟨y, hy, hd⟩ := (ex i pr).1
    cases Option.some.inj (hy.symm.trans pi)
    exact hd
  cases h1 with
  | old fd n fl mr mw e j y k g1 g2 g3 g4 =>
    show (if i = j ∧ fl.trunc = true then _ else p.inode i) = some x
    split
    · next c =>
      exfalso
      rw [c.1] at pi pr
      by_cases hww : wantW fl
      · exact g1 _ (.busy j g2 hww pr)
      · -- the code refuses `O_TRUNC` without the right to write
        have hf : w.find n = some (j, y) := by
          unfold W.find; rw [← s.name, g2]; dsimp only; rw [← s.inode, g3]
        have hs' : openF dbg w fd n fl mr mw e = some (w', .fd fd) := hs
        unfold openF at hs'
        rw [hf] at hs'
        dsimp only at hs'
        split at hs'
        · cases hs'
        · have hs' := Option.some.inj hs'
          unfold openOld at hs'
          split at hs'
          · cases hs'
          · split at hs'
            · cases hs'
            · next c0 =>
              exact hww ((existing_zero (Decidable.not_not.mp c0)).2.2.2.2.2 c.2)
    · exact pi
  | create fd n fl mr mw e j k g1 g2 g3 g4 =>
    show upd p.inode j _ i = some x
    rw [upd_ne _ _ _ _ (fun e => by rw [e, g3] at pi; cases pi)]; exact pi
  | write fd b k d y q d' g1 g2 g3 g4 =>
    show upd p.inode d.ino _ i = some x
    rw [upd_ne _ _ _ _ (fun e => pw fd k d g1.1 g1.2.1 e.symm g2)]; exact pi
  | trunc fd q k d y d' g1 g2 g3 =>
    show upd p.inode d.ino _ i = some x
    rw [upd_ne _ _ _ _ (fun e => pw fd k d g1.1 g1.2.1 e.symm g2)]; exact pi
  | truncate n k j y d' l g1 g2 g3 g4 g5 g6 g7 =>
    show upd p.inode j _ i = some x
    rw [upd_ne _ _ _ _ (fun e => by rw [e, g3] at pr; omega)]; exact pi
  | mkdir n mr mw ii e j g1 g2 g3 g4 =>
    show upd p.inode j _ i = some x
    rw [upd_ne _ _ _ _ (fun e => by rw [e, g4] at pi; cases pi)]; exact pi
  | rmdir n j y g1 g2 g3 =>
    show upd p.inode j _ i = some x
    rw [upd_ne _ _ _ _ (fun e => by
      rw [e] at pi
      cases Option.some.inj (pi.symm.trans g2)
      rw [hd] at g3; cases g3)]
    exact pi
  | _ => exact pi

/-- The results of a sequence of calls. -/
def run (dbg : Bool) : W → List Op → Option (List Ret)
  | _, [] => some []
  | w, op :: l =>
    match step dbg w op with
    | none => none
    | some (w', r) => (run dbg w' l).map (r :: ·)

def F (wr rw creat trunc : Bool) : Flags := ⟨wr, rw, creat, false, trunc, false, false⟩
def env (i : Nat) : Env := ⟨some i, true, true, true⟩

/-- A directory with all rights; 16 descriptors. -/
def w0 : W := new true true true 16

/-- The hypotheses are met: files are made, written, read back, truncated, run; directories made and
removed. -/
example : run true w0
    [.open 3 1 (F true false true true) true true (env 7), .write 3 [1, 2, 3], .exec 1, .close 3, .exec 1,
     .open 3 1 (F false true false false) true true (env 8), .stop 7,
     .open 3 1 (F false true false false) true true (env 8), .read 3 2, .write 3 [9], .seek 3 1,
     .read 3 9, .ftruncate 3 1, .seek 3 0, .read 3 9, .mkdir 2 true true (some 9) true, .rmdir 2] =
    some [.fd 3, .count 3, .err ETXTBSY, .done, .done, .err ETXTBSY, .done, .fd 3, .bytes [1, 2],
      .count 1, .count 1, .bytes [2, 9], .done, .count 0, .bytes [1], .done, .done] := by
  decide +kernel

/-- And such a history is one of those of the theorem (here its beginning). -/
example : ∃ w, Hist true w0 w (share (fun _ => false)
    (.open 3 1 (F true false true true) true true (env 7)) (.fd 3))
    ([] ++ [(.open 3 1 (F true false true true) true true (env 7), .fd 3)]) :=
  ⟨_, .snoc _ _ (.open 3 1 (F true false true true) true true (env 7)) _ _ _ .nil
    ⟨by decide, rfl, fun _ _ => rfl, fun h => absurd rfl h,
      fun _ => ⟨rfl, fun _ => ⟨rfl, rfl, .inl rfl, fun _ _ => rfl⟩⟩⟩ rfl⟩

/-- **C146, violated.** After `dup` (or `fork`), reading through one descriptor does not move the
other: the second reads the first bytes again. -/
theorem dup_offset_violated :
    run false w0 [.open 3 1 (F false true true false) true true (env 7), .write 3 [1, 2, 3, 4],
      .seek 3 0, .dup 3 4, .read 3 2, .read 4 2] =
    some [.fd 3, .count 4, .count 0, .fd 4, .bytes [1, 2], .bytes [1, 2]] := by decide +kernel

/-- The output of two processes that share a descriptor overwrites itself. -/
theorem dup_write_violated :
    run false w0 [.open 3 1 (F false true true false) true true (env 7), .dup 3 4, .write 3 [1, 2],
      .write 4 [3], .seek 3 0, .read 3 9] =
    some [.fd 3, .fd 4, .count 2, .count 1, .count 0, .bytes [3, 2]] := by decide +kernel

/-- **C148, violated.** A file is emptied through a descriptor that is open for reading only. -/
theorem ftruncate_readonly_violated :
    run false w0 [.open 3 1 (F true false true false) true true (env 7), .write 3 [1, 2, 3], .close 3,
      .open 3 1 (F false false false false) true true (env 8), .write 3 [5], .ftruncate 3 0, .read 3 9] =
    some [.fd 3, .count 3, .done, .fd 3, .err EBADF, .done, .bytes []] := by decide +kernel

/-- **C149, violated.** So the contents of a program that is running change. -/
theorem ftruncate_running_violated :
    run false w0 [.open 3 1 (F true false true false) true true (env 7), .write 3 [1, 2, 3], .close 3,
      .exec 1, .open 3 1 (F true false false false) true true (env 8),
      .open 3 1 (F false false false false) true true (env 8), .ftruncate 3 0, .read 3 9] =
    some [.fd 3, .count 3, .done, .done, .err ETXTBSY, .fd 3, .done, .bytes []] := by decide +kernel

/-- **C148, violated.** A descriptor open for writing cannot be used to change the size when the file
was made read-only. -/
theorem ftruncate_refused_violated :
    run false w0 [.open 3 1 (F true false true false) true false (env 7), .write 3 [1, 2, 3],
      .ftruncate 3 1] = some [.fd 3, .count 3, .err EACCES] := by decide +kernel

/-- **C147, violated.** In debug builds `creat("f", 0444)` stops the kernel. -/
theorem creat_stops_violated :
    run true w0 [.open 3 1 (F true false true true) true false (env 7)] = none ∧
    run false w0 [.open 3 1 (F true false true true) true false (env 7), .write 3 [1]] =
      some [.fd 3, .count 1] := by decide +kernel

/-- **C147, violated.** An `open` that fails for lack of memory leaves the new file behind. -/
theorem failed_creates_violated :
    run false w0 [.open 3 1 (F true false true false) true true ⟨some 7, true, true, false⟩,
      .open 3 1 (F false false false false) true true (env 8)] = some [.err ENOMEM, .fd 3] := by
  decide +kernel

/-- **C147, violated.** A directory that is not there is reported as not being a directory. -/
theorem missing_dir_violated :
    run false w0 [.open 3 1 ⟨false, false, false, false, false, false, true⟩ true true (env 7),
      .open 3 1 (F false false false false) true true (env 7)] =
    some [.err ENOTDIR, .err ENOENT] := by decide +kernel

/-- **C147, violated.** Files of a directory that may be searched but not read cannot be opened. -/
theorem search_only_violated :
    run false (new false true true 16)
      [.open 3 1 (F true false true false) true true (env 7), .close 3,
       .open 3 1 (F true false false false) true true (env 8)] =
    some [.fd 3, .done, .err EACCES] := by decide +kernel

/-- **C147, violated.** In a directory that may not be searched, an existing file cannot be opened,
but it can be emptied by name, and a directory removed. -/
theorem no_search_violated :
    (let w := { new true true false 16 with
        name := fun n => if n = 1 then some 7 else if n = 2 then some 8 else none
        inode := fun i => if i = 7 then some ⟨true, true, false, [1, 2], 0⟩ else
          if i = 8 then some ⟨true, true, true, [], 2⟩ else none }
     run false w [.open 3 1 (F true false false false) true true (env 9), .truncate 1 0 true, .rmdir 2]) =
    some [.err EACCES, .done, .done] := by decide +kernel

/-- **C149, violated.** When there is no memory for the directory entry of a new file, its lock is
lost: the file that gets the inode's address later cannot be run, although nobody writes to it. -/
theorem lock_lost_violated :
    run false w0 [.open 3 1 (F true false true false) true true ⟨some 7, true, false, true⟩,
      .open 3 1 (F true false true false) true true (env 7), .write 3 [1], .close 3, .exec 1] =
    some [.err ENOSPC, .fd 3, .count 1, .done, .err ETXTBSY] := by decide +kernel

/-- **C149, violated.** A new file opened for reading only cannot be run while it is open. -/
theorem reader_blocks_violated :
    run false w0 [.open 3 1 (F false false true false) true true (env 7), .exec 1, .close 3,
      .open 3 1 (F false false true false) true true (env 8), .exec 1] =
    some [.fd 3, .err ETXTBSY, .done, .fd 3, .done] := by decide +kernel

/-- **C150, violated.** `truncate` and `ftruncate` of a directory succeed and change the number of its
entries: the directory, empty, can no longer be removed. -/
theorem truncate_dir_violated :
    run false w0 [.mkdir 2 true true (some 9) true, .truncate 2 100 true, .rmdir 2] =
      some [.done, .done, .err ENOTEMPTY] ∧
    run false w0 [.mkdir 2 true true (some 9) true,
      .open 3 2 ⟨false, false, false, false, false, false, true⟩ true true (env 7), .ftruncate 3 100,
      .close 3, .rmdir 2] = some [.done, .fd 3, .done, .done, .err ENOTEMPTY] := by decide +kernel

/-- **C150.** Without this, an empty directory that is not open can be removed, whatever was done
before. -/
theorem rmdir_partial {dbg a b c top w S l} (h : Hist dbg (new a b c top) w S l) {n i : Nat}
    {y : Inode} (hn : w.name n = some i) (hy : w.inode i = some y) (hd : y.isDir = true)
    (hX : w.dirX = true) (hW : w.dirW = true) (ho : ∀ fd x, w.h fd = some x → x.ino ≠ i) :
    ∃ w', step dbg w (.rmdir n) = some (w', .done) ∧ w'.name n = none := by
  obtain ⟨p, _, s⟩ := hist_sim h
  have hf : w.find n = some (i, y) := by unfold W.find; rw [hn]; dsimp only; rw [hy]
  have hnum := s.num i y hy hd
  have hop : ¬ w.opened i = true := by
    intro h
    rw [W.opened, List.any_eq_true] at h
    obtain ⟨fd, _, h⟩ := h
    cases e : w.h fd with
    | none => simp [e] at h
    | some x => simp [e] at h; exact ho fd x e h
  have : step dbg w (.rmdir n) =
      some ({ w with name := upd w.name n none, inode := upd w.inode i none }, .done) := by
    show (match w.find n with | none => _ | some (i, y) => _) = _
    rw [hf]
    dsimp only
    rw [if_neg (by rw [hd]; simp), if_neg (by rw [hW]; simp), if_neg (by omega), if_neg hop]
  exact ⟨_, this, upd_eq _ _ _⟩


end Verif.OpenFile
