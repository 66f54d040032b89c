import Verif.AbsPath
import Verif.Resolve

/-!
# The current directory (kernel/cwd.c)

Properties C128, C129, C130.

A process keeps its current directory twice: as an inode, from which relative paths are resolved, and as a text, which `getcwd`
returns and which `chdir` computes from the old text and the path it was given.  The resolution is the one of `Verif.Resolve`
(kernel/vfs/vfs_resolve.c.h), the computation of the text the one of `Verif.AbsPath` (kernel/fs/vfs_util.c).

Not modelled: references and locks (see `Verif.Resolve`), paths and buffers at addresses that cannot be read or written.
-/
namespace Verif.Cwd
open Verif.Resolve (Bytes FsId Ino Kind Tree Den PathText components isAbsolute endsWithSlash)

/-- `struct process` (include/tilck/kernel/process.h:86-87): `cwd`, and `str_cwd` up to its zero byte. -/
structure Proc where
  fs : FsId
  ino : Ino
  str : List Nat
  deriving DecidableEq, Repr

/-- The bytes as numbers, for `Verif.AbsPath`. -/
def nats (p : Bytes) : List Nat := p.map UInt8.toNat

/-- config/config_global.h:94. -/
def MAX_PATH : Nat := 256

/-- kernel/cwd.c:11-29 `set_process_str_cwd`; none: a store outside of the array (`str_cwd` has
`MAX_PATH` bytes). -/
def setStr (path : List Nat) : Option (List Nat) :=
  if MAX_PATH < path.length + 1 then none
  else if 1 < path.length then
    let q := if path.getLast? = some 47 then path.dropLast else path
    if q.length + 1 < MAX_PATH then some (q ++ [47]) else none
  else some path

/-- kernel/cwd.c:136-145: the new text. `stale` is what the second half of the buffer `args_copybuf` holds from earlier calls:
`compute_abs_path` does not touch it when it fails, and its result is not looked at (with debug checks, the kernel stops). -/
def newStr (str : List Nat) (path : Bytes) (stale : List Nat) : Option (List Nat) :=
  match AbsPath.computeAbsPath (nats path) str MAX_PATH with
  | none => none
  | some (.ok p) => setStr p
  | some _ => setStr stale

/-- The tree as the process sees it. -/
def view (t : Tree) (s : Proc) : Tree := { t with cwdFs := s.fs, cwdIno := s.ino }

/-- kernel/cwd.c:88-151 `sys_chdir`; none: a store outside of an array, or an assertion. -/
def chdir (t : Tree) (s : Proc) (path : Bytes) (stale : List Nat) : Option (Int × Proc) :=
  if MAX_PATH ≤ path.length then some (-36, s)
  else
    let r := Resolve.resolve (view t s).world [] path false true
    if r.1 ≠ 0 then some (r.1, s)
    else match r.2.1.ent with
      | none => some (-2, s)
      | some (i, k) =>
        if k ≠ .dir then some (-20, s)
        else (newStr s.str path stale).map (fun q => (0, ⟨r.2.1.fs, i, q⟩))

/-- kernel/cwd.c:31-53 `getcwd_nolock`, 153-164 `sys_getcwd`: the result and the bytes stored from the start of the buffer on. -/
def getcwd (s : Proc) (size : Nat) : Int × List Nat :=
  let cl := s.str.length + 1
  if size = 0 then (-22, [])
  else if size < cl then (-34, [])
  else (cl, if 2 < cl then (s.str ++ [0]).set (cl - 2) 0 else s.str ++ [0])

/-- kernel/process.c:719-742: the first process. -/
def first (t : Tree) : Proc := ⟨t.rootFs, t.rootIno t.rootFs, [47]⟩

/-! ## Specification -/

/-- A name of a directory entry. -/
def Name (n : Bytes) : Prop := n ≠ [] ∧ (47 : UInt8) ∉ n ∧ (0 : UInt8) ∉ n ∧ n ≠ [46] ∧ n ≠ [46, 46]

/-- The directory `g`, `j` is reached from `f`, `i` by these names, all of directories. -/
inductive Chain (t : Tree) : FsId → Ino → List Bytes → FsId → Ino → Prop
  | nil {f i} : Chain t f i [] f i
  | cons {f i n f' i' ns g j} : Name n → t.child f i n = .found f' i' .dir → Chain t f' i' ns g j → Chain t f i (n :: ns) g j

/-- The names on the way from the root to a directory. -/
def Dir (t : Tree) (ns : List Bytes) (f : FsId) (i : Ino) : Prop := Chain t t.rootFs (t.rootIno t.rootFs) ns f i

/-- In every directory below the root, `.` is itself and `..` the one it is in. -/
structure Tidy (t : Tree) : Prop where
  ok : t.OK
  dot : ∀ ns f i, Dir t ns f i → t.child f i [46] = .found f i .dir
  dotdot : ∀ ns f i n g j, Dir t ns f i → Name n → t.child f i n = .found g j .dir → t.child g j [46, 46] = .found f i .dir

/-- No symbolic link is met on the way through these components. -/
def NoLink (t : Tree) : FsId → Ino → List Bytes → Prop
  | _, _, [] => True
  | f, i, c :: cs =>
    match t.child f i c with
    | .found g j k => k ≠ .symlink ∧ NoLink t g j cs
    | _ => True

/-- What a path denotes for the process. -/
def denotes (t : Tree) (s : Proc) (path : Bytes) : Den := t.den 3 true s.fs s.ino path

/-- The string at the start of a buffer. -/
def cstr (b : List Nat) : List Nat := b.takeWhile (· ≠ 0)

/-- The text that `getcwd` returns in a buffer that is large enough. -/
def pwd (s : Proc) : List Nat := cstr (getcwd s 4096).2

/-- The calls for which the text is kept right: no symbolic links, no file in the place of a directory, no `.//` (see C08), no
`//` at the end (see C79), and room for the text. -/
structure Calm (t : Tree) (s : Proc) (path : Bytes) : Prop where
  text : PathText path
  dots : ¬ [46, 47, 47] <:+: path
  dirs : denotes t s path ≠ .notDir
  links : if isAbsolute path = true then NoLink t t.rootFs (t.rootIno t.rootFs) (components path)
    else NoLink t s.fs s.ino (components path)
  room : if isAbsolute path = true then path.length ≤ 254 else path.length + (pwd s).length ≤ 253

/-- What processes and the rest of the system do: calls of `chdir` by this process, and changes to the tree which leave the
directories on the way to the current one in place, under their names. -/
inductive Reach : Tree → Proc → Prop
  | first {t} : Tidy t → Reach t (first t)
  | chdir {t s path stale rc s'} : Reach t s → Calm t s path → chdir t s path stale = some (rc, s') → Reach t s'
  | change {t s t'} : Reach t s → Tidy t' → (∀ ns, Dir t ns s.fs s.ino → Dir t' ns s.fs s.ino) → Reach t' s

/-! ## Proofs -/

theorem Chain.snoc {t : Tree} {f i ns g j n g' j'} (h : Chain t f i ns g j) (hn : Name n) (hc : t.child g j n = .found g' j' .dir) :
    Chain t f i (ns ++ [n]) g' j' := by
  induction h with
  | nil => exact .cons hn hc .nil
  | cons a b _ ih => exact .cons a b (ih hc)

theorem Chain.unsnoc {t : Tree} {f i ns n g' j'} (h : Chain t f i (ns ++ [n]) g' j') :
    ∃ g j, Chain t f i ns g j ∧ Name n ∧ t.child g j n = .found g' j' .dir := by
  induction ns generalizing f i with
  | nil =>
    cases h with
    | cons a b c => cases c; exact ⟨f, i, .nil, a, b⟩
  | cons m ms ih =>
    cases h with
    | cons a b c =>
      obtain ⟨g, j, h1, h2, h3⟩ := ih c
      exact ⟨g, j, .cons a b h1, h2, h3⟩

theorem Chain.names {t : Tree} {f i ns g j} (h : Chain t f i ns g j) : ∀ n ∈ ns, Name n := by
  induction h with
  | nil => intro n hn; cases hn
  | cons a _ _ ih =>
    intro n hn
    rcases List.mem_cons.mp hn with rfl | hn
    · exact a
    · exact ih n hn

/-- Enter a component, by names. -/
def enter (st : List Bytes) (c : Bytes) : List Bytes :=
  if c = [] ∨ c = [46] then st else if c = [46, 46] then st.dropLast else st ++ [c]

theorem go_dirs {t : Tree} (ht : Tidy t) (val : FsId → Ino → Bytes → Den) (se : Bool) : ∀ (cs : List Bytes) (ns : List Bytes) (f i g j),
    (∀ c ∈ cs, c ≠ [] ∧ (47 : UInt8) ∉ c ∧ (0 : UInt8) ∉ c) → Dir t ns f i → NoLink t f i cs →
    t.go val true se f i cs = .found g j .dir → Dir t (cs.foldl enter ns) g j := by
  have one : ∀ (c : Bytes) (ns : List Bytes) (f i g j), (c ≠ [] ∧ (47 : UInt8) ∉ c ∧ (0 : UInt8) ∉ c) → Dir t ns f i →
      t.child f i c = .found g j .dir → Dir t (enter ns c) g j := by
    intro c ns f i g j hc hd h
    unfold enter
    by_cases h1 : c = [46]
    · subst h1
      rw [if_pos (Or.inr rfl)]
      rw [ht.dot ns f i hd] at h
      cases h
      exact hd
    · rw [if_neg (fun h => h.elim hc.1 h1)]
      by_cases h2 : c = [46, 46]
      · subst h2
        rw [if_pos rfl]
        rcases List.eq_nil_or_concat ns with rfl | ⟨l, n, rfl⟩
        · cases hd
          rw [Tree.child, if_pos ⟨rfl, rfl⟩, if_pos rfl] at h
          cases h
          exact .nil
        · rw [List.concat_eq_append] at hd ⊢
          obtain ⟨f', i', h3, h4, h5⟩ := Chain.unsnoc hd
          rw [ht.dotdot l f' i' n f i h3 h4 h5] at h
          cases h
          rw [List.dropLast_concat]
          exact h3
      · rw [if_neg h2]
        exact Chain.snoc hd ⟨hc.1, hc.2.1, hc.2.2, h1, h2⟩ h
  intro cs
  induction cs with
  | nil =>
    intro ns f i g j _ hd _ h
    rw [Tree.go] at h
    cases h
    exact hd
  | cons c cs ih =>
    intro ns f i g j hc hd hl h
    rw [List.foldl_cons]
    rw [NoLink] at hl
    cases cs with
    | nil =>
      rw [Tree.go] at h
      simp only [Bool.true_or, if_true] at h
      cases hk : t.child f i c with
      | found g' j' k =>
        rw [hk] at h hl
        have : t.deref val f i (Den.found g' j' k) = Den.found g' j' k := by
          cases k <;> first | rfl | exact absurd rfl hl.1
        rw [this] at h
        dsimp only at h
        split at h
        · cases h
        · cases h
          exact one c ns f i g j (hc c List.mem_cons_self) hd hk
      | err e => rw [hk] at h; cases h
      | notDir => rw [hk] at h; cases h
      | missing a b d => rw [hk] at h; cases h
    | cons c' cs =>
      rw [Tree.go] at h
      cases hk : t.child f i c with
      | found g' j' k =>
        rw [hk] at h hl
        have : t.deref val f i (Den.found g' j' k) = Den.found g' j' k := by
          cases k <;> first | rfl | exact absurd rfl hl.1
        rw [this] at h
        dsimp only at h
        split at h
        · rename_i hkd
          subst hkd
          exact ih (enter ns c) g' j' g j (fun x hx => hc x (List.mem_cons_of_mem _ hx))
            (one c ns f i g' j' (hc c List.mem_cons_self) hd hk) hl.2 h
        · cases h
      | err e => rw [hk] at h; cases h
      | notDir => rw [hk] at h; cases h
      | missing a b d => rw [hk] at h; cases h

/-- The names of a directory lead to it. -/
theorem go_chain {t : Tree} (val : FsId → Ino → Bytes → Den) {f i ns g j} (h : Chain t f i ns g j) (se : Bool) :
    t.go val true se f i ns = .found g j .dir := by
  induction h with
  | nil => rw [Tree.go]
  | @cons f i n f' i' ns g j hn hc h ih =>
    cases ns with
    | nil =>
      cases h
      rw [Tree.go, hc]
      simp [Tree.deref]
    | cons m ms =>
      rw [Tree.go, hc]
      exact ih

theorem noLink_chain {t : Tree} {f i ns g j} (h : Chain t f i ns g j) : NoLink t f i ns := by
  induction h with
  | nil => trivial
  | cons hn hc h ih =>
    rw [NoLink, hc]
    exact ⟨by decide, ih⟩

/-! The texts. -/

theorem nats_inj {a b : Bytes} (h : nats a = nats b) : a = b :=
  List.map_inj_right (fun _ _ h => UInt8.toNat_inj.mp h) |>.mp h

theorem nats_enter (st : List Bytes) (c : Bytes) : (enter st c).map nats = AbsPath.enter (st.map nats) (nats c) := by
  have e : ∀ x : Bytes, nats c = nats x ↔ c = x := fun x => ⟨nats_inj, fun h => by rw [h]⟩
  have e0 : nats c = [] ↔ c = [] := e []
  have e1 : nats c = [46] ↔ c = [46] := e [46]
  have e2 : nats c = [46, 46] ↔ c = [46, 46] := e [46, 46]
  unfold enter AbsPath.enter
  simp only [e0, e1, e2]
  by_cases h : c = [] ∨ c = [46]
  · rw [if_pos h, if_pos h]
  · rw [if_neg h, if_neg h]
    by_cases h2 : c = [46, 46]
    · rw [if_pos h2, if_pos h2, List.map_dropLast]
    · rw [if_neg h2, if_neg h2, List.map_append]
      rfl

theorem foldl_filter_enter (cs : List Bytes) (st : List Bytes) :
    (cs.filter (fun x => x ≠ [])).foldl enter st = cs.foldl enter st := by
  induction cs generalizing st with
  | nil => rfl
  | cons c cs ih =>
    by_cases h : c = []
    · subst h
      rw [List.filter_cons_of_neg (by simp), List.foldl_cons, ih]
      rfl
    · rw [List.filter_cons_of_pos (by simp [h]), List.foldl_cons, List.foldl_cons, ih]

theorem pieces_cons (p : Bytes) : ∃ x xs, Resolve.pieces p = x :: xs := by
  cases h : Resolve.pieces p with
  | nil => exact absurd h (Resolve.pieces_ne p)
  | cons x xs => exact ⟨x, xs, rfl⟩

theorem walk_pieces (p : Bytes) : ∀ (st : List Bytes) (cur : Bytes), ∀ x xs, Resolve.pieces p = x :: xs →
    AbsPath.walk (st.map nats) (nats cur) (nats p) = (((cur ++ x) :: xs).foldl enter st).map nats := by
  induction p with
  | nil =>
    intro st cur x xs h
    rw [Resolve.pieces] at h
    cases h
    rw [List.append_nil]
    exact (nats_enter st cur).symm
  | cons c p ih =>
    intro st cur x xs h
    obtain ⟨y, ys, hy⟩ := pieces_cons p
    have hn : (c.toNat = 47) ↔ c = 47 := ⟨fun h => UInt8.toNat_inj.mp h, fun h => by rw [h]; rfl⟩
    show AbsPath.walk _ _ (c.toNat :: nats p) = _
    rw [AbsPath.walk]
    by_cases hc : c = 47
    · rw [Resolve.pieces, if_pos hc, hy] at h
      cases h
      rw [if_pos (hn.mpr hc), ← nats_enter]
      have := ih (enter st cur) [] y ys hy
      rw [List.append_nil, List.foldl_cons]
      exact this
    · rw [Resolve.pieces, if_neg hc, hy] at h
      dsimp only at h
      cases h
      rw [if_neg (fun h => hc (hn.mp h))]
      have := ih st (cur ++ [c]) y xs hy
      rw [List.append_assoc] at this
      have e : nats (cur ++ [c]) = nats cur ++ [c.toNat] := by simp [nats]
      rw [e] at this
      exact this

theorem walk_components (p : Bytes) (st : List Bytes) :
    AbsPath.walk (st.map nats) [] (nats p) = ((components p).foldl enter st).map nats := by
  obtain ⟨x, xs, h⟩ := pieces_cons p
  rw [components, foldl_filter_enter, h]
  exact walk_pieces p st [] x xs h

theorem good_names {ns : List Bytes} (h : ∀ n ∈ ns, Name n) : AbsPath.Good (ns.map nats) := by
  intro c hc
  obtain ⟨n, hn, rfl⟩ := List.mem_map.mp hc
  obtain ⟨h0, h1, _, h2, h3⟩ := h n hn
  refine ⟨fun e => h0 (nats_inj (b := []) e), ?_, fun e => h2 (nats_inj (b := [46]) e), fun e => h3 (nats_inj (b := [46, 46]) e)⟩
  intro hm
  obtain ⟨b, hb, e⟩ := List.mem_map.mp hm
  exact h1 ((UInt8.toNat_inj.mp e : b = 47) ▸ hb)

/-- The absolute path with these components. -/
def slashed (ns : List Bytes) : Bytes := if ns = [] then [47] else ns.flatMap (fun n => 47 :: n)

theorem render_cons (n : Bytes) (ns : List Bytes) :
    AbsPath.render ((n :: ns).map nats) = nats ((n :: ns).flatMap (fun n => 47 :: n)) ++ [47] := by
  induction ns generalizing n with
  | nil => simp [AbsPath.render, nats]
  | cons m ms ih =>
    have := ih m
    rw [List.flatMap_cons]
    have e : nats ((47 :: n) ++ (m :: ms).flatMap (fun n => 47 :: n)) ++ [47] =
        47 :: nats n ++ (nats ((m :: ms).flatMap (fun n => 47 :: n)) ++ [47]) := by simp [nats]
    rw [e, ← this]
    simp [AbsPath.render]

theorem components_slashed : ∀ (ns : List Bytes), (∀ n ∈ ns, n ≠ [] ∧ (47 : UInt8) ∉ n) →
    components (ns.flatMap (fun n => 47 :: n)) = ns := by
  intro ns
  induction ns with
  | nil => intro _; rfl
  | cons n ns ih =>
    intro h
    have hn := h n List.mem_cons_self
    have hns := ih (fun m hm => h m (List.mem_cons_of_mem _ hm))
    rw [List.flatMap_cons, List.cons_append, Resolve.components_slash]
    cases ns with
    | nil =>
      rw [List.flatMap_nil, List.append_nil]
      exact Resolve.components_end n hn.2 hn.1
    | cons m ms =>
      rw [List.flatMap_cons, List.cons_append] at hns ⊢
      have := Resolve.components_mid n (m ++ ms.flatMap (fun n => 47 :: n)) hn.2 hn.1
      rw [this]
      rw [Resolve.components_slash] at hns
      rw [hns]

structure Inv (t : Tree) (s : Proc) : Prop where
  tidy : Tidy t
  dir : ∃ ns, Dir t ns s.fs s.ino ∧ s.str = AbsPath.render (ns.map nats) ∧ s.str.length ≤ 255

theorem cstr_append (a b : List Nat) (h : 0 ∉ a) : cstr (a ++ 0 :: b) = a := by
  unfold cstr
  induction a with
  | nil => rfl
  | cons x a ih =>
    rw [List.cons_append, List.takeWhile_cons, if_pos (by simp; intro e; exact h (e ▸ List.mem_cons_self)),
      ih (fun hm => h (List.mem_cons_of_mem _ hm))]

theorem zero_slashed {ns : List Bytes} (h : ∀ n ∈ ns, Name n) : (0 : UInt8) ∉ ns.flatMap (fun n => 47 :: n) := by
  intro hm
  obtain ⟨n, hn, h1⟩ := List.mem_flatMap.mp hm
  rcases List.mem_cons.mp h1 with h2 | h2
  · cases h2
  · exact (h n hn).2.2.1 h2

theorem zero_nats {p : Bytes} (h : (0 : UInt8) ∉ p) : 0 ∉ nats p := by
  intro hm
  obtain ⟨b, hb, e⟩ := List.mem_map.mp hm
  exact h ((UInt8.toNat_inj.mp e : b = 0) ▸ hb)

theorem set_end (a : List Nat) (x y : Nat) : (a ++ [x] ++ [y]).set a.length 0 = a ++ 0 :: [y] := by
  simp

/-- What `getcwd` does when the text is that of `ns`. -/
theorem getcwd_names {s : Proc} {ns : List Bytes} (hs : s.str = AbsPath.render (ns.map nats)) (hn : ∀ n ∈ ns, Name n)
    (size : Nat) (h : s.str.length < size) : (getcwd s size).1 = s.str.length + 1 ∧
      (∃ pad, (getcwd s size).2 = nats (slashed ns) ++ 0 :: pad ∧ pad = if ns = [] then [] else [0]) ∧
      cstr (getcwd s size).2 = nats (slashed ns) := by
  have hsize : size ≠ 0 := by omega
  unfold getcwd
  dsimp only
  rw [if_neg hsize, if_neg (by omega)]
  refine ⟨by simp, ?_⟩
  cases ns with
  | nil =>
    rw [hs]
    exact ⟨⟨[], rfl, rfl⟩, rfl⟩
  | cons n ns =>
    have e := render_cons n ns
    have hl : s.str.length = (nats ((n :: ns).flatMap (fun n => 47 :: n))).length + 1 := by rw [hs, e]; simp
    have hp : 0 < (nats ((n :: ns).flatMap (fun n => 47 :: n))).length := by simp [nats]
    have h2 : (if 2 < s.str.length + 1 then (s.str ++ [0]).set (s.str.length + 1 - 2) 0 else s.str ++ [0]) =
        nats (slashed (n :: ns)) ++ 0 :: [0] := by
      rw [if_pos (by omega), show s.str.length + 1 - 2 = (nats ((n :: ns).flatMap (fun n => 47 :: n))).length by omega, hs, e]
      exact set_end _ _ _
    rw [h2]
    exact ⟨⟨[0], rfl, rfl⟩, cstr_append _ _ (zero_nats (zero_slashed hn))⟩

theorem pwd_names {s : Proc} {ns : List Bytes} (hs : s.str = AbsPath.render (ns.map nats)) (hn : ∀ n ∈ ns, Name n)
    (h : s.str.length ≤ 255) : pwd s = nats (slashed ns) := (getcwd_names hs hn 4096 (by omega)).2.2

theorem pwd_length {s : Proc} {ns : List Bytes} (hs : s.str = AbsPath.render (ns.map nats)) (hn : ∀ n ∈ ns, Name n)
    (h : s.str.length ≤ 255) : s.str.length ≤ (pwd s).length + 1 ∧ (ns ≠ [] → s.str.length = (pwd s).length + 1) ∧
      (ns = [] → s.str.length = 1 ∧ (pwd s).length = 1) := by
  rw [pwd_names hs hn h, hs]
  cases ns with
  | nil => exact ⟨by decide, fun h => absurd rfl h, fun _ => ⟨rfl, rfl⟩⟩
  | cons n ns =>
    rw [render_cons]
    have : (nats (slashed (n :: ns)) ).length = (nats ((n :: ns).flatMap (fun n => 47 :: n))).length := rfl
    rw [List.length_append, this]
    exact ⟨Nat.le_refl _, fun _ => rfl, fun h => by cases h⟩

/-! The length of the text. -/

theorem enter_len (st : List (List Nat)) (c : List Nat) :
    (AbsPath.render (AbsPath.enter st c)).length ≤ (AbsPath.render st).length + c.length + 1 := by
  unfold AbsPath.enter
  split
  · omega
  · split
    · rcases AbsPath.nil_or_snoc st with rfl | ⟨l, x, rfl⟩
      · simp; omega
      · rw [List.dropLast_concat, AbsPath.render_concat, List.length_append]; omega
    · rw [AbsPath.render_concat, List.length_append, List.length_append]; simp; omega

theorem walk_len (p : List Nat) : ∀ (st : List (List Nat)) (cur : List Nat),
    (AbsPath.render (AbsPath.walk st cur p)).length ≤ (AbsPath.render st).length + cur.length + p.length + 1 := by
  induction p with
  | nil => intro st cur; exact enter_len st cur
  | cons c p ih =>
    intro st cur
    rw [AbsPath.walk]
    split
    · have := ih (AbsPath.enter st cur) []
      have := enter_len st cur
      simp at *
      omega
    · have := ih st (cur ++ [c])
      simp at *
      omega

theorem setStr_text (st : List (List Nat)) (hg : AbsPath.Good st) (b : Bool) (h : (AbsPath.render st).length ≤ 255) :
    setStr (AbsPath.text st b) = some (AbsPath.render st) := by
  rcases AbsPath.nil_or_snoc st with rfl | ⟨l, x, rfl⟩
  · have : AbsPath.text [] b = [47] := if_pos (Or.inr rfl)
    rw [this]
    rfl
  · obtain ⟨hx0, hx1, _, _⟩ := hg x (by simp)
    have hq : AbsPath.render (l ++ [x]) = (AbsPath.render l ++ x) ++ [47] := by rw [AbsPath.render_concat, List.append_assoc]
    have hpos := AbsPath.render_len_pos l
    have hxp : 0 < x.length := List.length_pos_iff.mpr hx0
    rw [hq] at h ⊢
    have hlast : (AbsPath.render l ++ x).getLast? ≠ some 47 := by
      rw [List.getLast?_append]
      intro e
      cases hxl : x.getLast? with
      | none => exact hx0 (List.getLast?_eq_none_iff.mp hxl)
      | some y =>
        rw [hxl] at e
        cases e
        exact hx1 (List.mem_of_getLast? hxl)
    have htext : AbsPath.text (l ++ [x]) b = if b = true then (AbsPath.render l ++ x) ++ [47] else AbsPath.render l ++ x := by
      unfold AbsPath.text
      by_cases hb : b = true
      · rw [if_pos (Or.inl hb), if_pos hb, hq]
      · rw [if_neg (by simp [hb]), if_neg hb, hq, List.dropLast_concat]
    rw [htext]
    generalize hqq : AbsPath.render l ++ x = q at *
    have hql : 1 < q.length := by rw [← hqq, List.length_append]; omega
    unfold setStr MAX_PATH
    rw [List.length_append] at h
    have h1 : ([47] : List Nat).length = 1 := rfl
    by_cases hb : b = true
    · rw [if_pos hb, if_neg (by rw [List.length_append]; omega), if_pos (by rw [List.length_append]; omega)]
      dsimp only
      have e : (if (q ++ [47]).getLast? = some 47 then (q ++ [47]).dropLast else q ++ [47]) = q := by
        rw [List.dropLast_concat]
        exact if_pos (by simp)
      rw [e, if_pos (by omega)]
    · rw [if_neg hb, if_neg (by omega), if_pos hql]
      dsimp only
      rw [if_neg hlast, if_pos (by omega)]

theorem nats_head (p : Bytes) : (nats p).head? = some 47 ↔ isAbsolute p = true := by
  cases p with
  | nil => simp [nats, isAbsolute]
  | cons c p =>
    simp [nats, isAbsolute]
    exact ⟨fun h => UInt8.toNat_inj.mp h, fun h => by rw [h]; rfl⟩

theorem nats_infix {a b : Bytes} (h : nats a <:+: nats b) : a <:+: b := by
  obtain ⟨x, y, e⟩ := h
  have e' := e.symm
  unfold nats at e'
  obtain ⟨l1, l2, h1, h2, h3⟩ := List.map_eq_append_iff.mp e'
  obtain ⟨l3, l4, h4, h5, h6⟩ := List.map_eq_append_iff.mp h2
  refine ⟨l3, l2, ?_⟩
  rw [h1, h4, nats_inj h6]

/-- The new text, when the old one is right and there is room. -/
theorem newStr_names {ns : List Bytes} (hn : ∀ n ∈ ns, Name n) {path : Bytes} (stale : List Nat) (hne : path ≠ [])
    (hd : ¬ [46, 47, 47] <:+: path)
    (hr : if isAbsolute path = true then path.length ≤ 254
      else path.length + (AbsPath.render (ns.map nats)).length ≤ 254) :
    ∃ q, q = AbsPath.render (((components path).foldl enter (if isAbsolute path = true then [] else ns)).map nats) ∧
      newStr (AbsPath.render (ns.map nats)) path stale = some q ∧ q.length ≤ 255 := by
  have hg := good_names hn
  have hlen : (nats path).length = path.length := by simp [nats]
  have hnd : AbsPath.NoDotSlashSlash (nats path) := fun h => hd (nats_infix (a := [46, 47, 47]) h)
  have hc := AbsPath.compute_abs_path_correct_partial (nats path) (ns.map nats) 256 hg hnd
  have hne' : nats path ≠ [] := fun e => hne (nats_inj (b := []) e)
  rw [if_neg hne'] at hc
  dsimp only at hc
  refine ⟨_, rfl, ?_⟩
  unfold newStr MAX_PATH
  rw [hc]
  by_cases ha : isAbsolute path = true
  · have hh := (nats_head path).mpr ha
    rw [if_pos ha] at hr ⊢
    simp only [hh, ne_eq, not_true_eq_false, if_false]
    rw [if_neg (by omega)]
    dsimp only
    have hw := walk_components path []
    rw [List.map_nil] at hw
    rw [hw]
    have hgw : AbsPath.Good (AbsPath.walk [] [] (nats path)) := AbsPath.walk_good _ _ _ (by intro c hc; cases hc) (by simp)
    rw [hw] at hgw
    have hl : (AbsPath.render (((components path).foldl enter []).map nats)).length ≤ 255 := by
      rw [← hw]
      cases path with
      | nil => exact absurd rfl hne
      | cons c p =>
        have hc47 : c = 47 := by simpa [isAbsolute] using ha
        subst hc47
        have : AbsPath.walk [] [] (nats (47 :: p)) = AbsPath.walk [] [] (nats p) := rfl
        rw [this]
        have h3 := walk_len (nats p) [] []
        have h4 : (AbsPath.render []).length = 1 := rfl
        have h5 : (nats p).length = p.length := by simp [nats]
        rw [h4, h5] at h3
        simp at h3 hr
        omega
    exact ⟨setStr_text _ hgw _ hl, hl⟩
  · have hh : ¬ (nats path).head? = some 47 := fun h => ha ((nats_head path).mp h)
    rw [if_neg ha] at hr ⊢
    simp only [hh, ne_eq, not_false_eq_true, if_true]
    rw [if_neg (by omega)]
    dsimp only
    have hw := walk_components path ns
    rw [hw]
    have hgw : AbsPath.Good (AbsPath.walk (ns.map nats) [] (nats path)) := AbsPath.walk_good _ _ _ hg (by simp)
    rw [hw] at hgw
    have hl : (AbsPath.render (((components path).foldl enter ns).map nats)).length ≤ 255 := by
      rw [← hw]
      have h3 := walk_len (nats path) (ns.map nats) []
      rw [hlen] at h3
      simp at h3
      omega
    exact ⟨setStr_text _ hgw _ hl, hl⟩

theorem view_go (t : Tree) (s : Proc) (val) (fo se : Bool) : ∀ cs f i, (view t s).go val fo se f i cs = t.go val fo se f i cs
  | [], _, _ => rfl
  | [_], _, _ => rfl
  | c :: c' :: cs, f, i => by
    rw [Tree.go, Tree.go]
    show (match t.deref val f i (t.child f i c) with
      | .err e => Den.err e
      | .notDir => .notDir
      | .missing _ _ _ => .err 2
      | .found g j k => if k = Kind.dir then (view t s).go val fo se g j (c' :: cs) else .notDir) = _
    cases t.deref val f i (t.child f i c) with
    | found g j k =>
      dsimp only
      rw [view_go t s val fo se (c' :: cs) g j]
    | _ => rfl

theorem view_den (t : Tree) (s : Proc) : ∀ n fo f i p, (view t s).den n fo f i p = t.den n fo f i p := by
  have key : ∀ n, Resolve.valOf (view t s) n = Resolve.valOf t n → ∀ fo f i p, (view t s).den n fo f i p = t.den n fo f i p := by
    intro n h fo f i p
    rw [Resolve.den_eq, Resolve.den_eq, h, view_go, view_go]
    rfl
  intro n
  induction n with
  | zero => exact key 0 rfl
  | succ n ih =>
    refine key (n + 1) ?_
    funext f i p
    exact ih true f i p

/-- The resolution, as `chdir` uses it. -/
theorem resolve_denotes {t : Tree} (ht : t.OK) {s : Proc} {path : Bytes} (hp : PathText path) (hd : denotes t s path ≠ .notDir) :
    (denotes t s path).Is (Resolve.resolve (view t s).world [] path false true) := by
  have h := Resolve.resolve_correct_partial (view t s) ⟨ht.up, ht.links⟩ [] path hp false true
  rw [show (view t s).den 3 true (view t s).cwdFs (view t s).cwdIno path = denotes t s path from view_den t s 3 true s.fs s.ino path] at h
  exact h hd

theorem components_ok {path c : Bytes} (hp : PathText path) (h : c ∈ components path) :
    c ≠ [] ∧ (47 : UInt8) ∉ c ∧ (0 : UInt8) ∉ c := by
  obtain ⟨h1, h2⟩ := Resolve.components_mem h
  refine ⟨h1, h2, fun h0 => hp.1 ?_⟩
  have key : ∀ (p : Bytes) (x : Bytes), x ∈ Resolve.pieces p → ∀ b ∈ x, b ∈ p := by
    intro p
    induction p with
    | nil =>
      intro x hx b hb
      rw [Resolve.pieces] at hx
      rw [List.mem_singleton.mp hx] at hb
      cases hb
    | cons d p ih =>
      intro x hx b hb
      obtain ⟨y, ys, hy⟩ := pieces_cons p
      rw [Resolve.pieces] at hx
      split at hx
      · rcases List.mem_cons.mp hx with rfl | hx
        · cases hb
        · exact List.mem_cons_of_mem _ (ih x hx b hb)
      · rw [hy] at hx
        dsimp only at hx
        rcases List.mem_cons.mp hx with rfl | hx
        · rcases List.mem_cons.mp hb with rfl | hb
          · exact List.mem_cons_self
          · exact List.mem_cons_of_mem _ (ih y (by rw [hy]; exact List.mem_cons_self) b hb)
        · exact List.mem_cons_of_mem _ (ih x (by rw [hy]; exact List.mem_cons_of_mem _ hx) b hb)
  exact key path c (List.mem_filter.mp h).1 0 h0

/-- The calm calls, from a state in which the text is right. -/
theorem calm_step {t : Tree} {s : Proc} (h : Inv t s) {path : Bytes} (hc : Calm t s path) (stale : List Nat) :
    ∃ rc s', chdir t s path stale = some (rc, s') ∧ Inv t s' := by
  obtain ⟨ht, ns, hdir, hstr, hlen⟩ := h
  have hnames := Chain.names hdir
  have hlenp : ¬ MAX_PATH ≤ path.length := by
    have := hc.room
    unfold MAX_PATH
    split at this <;> omega
  have hres := resolve_denotes ht.ok hc.text hc.dirs
  have hstay : Inv t s := ⟨ht, ns, hdir, hstr, hlen⟩
  unfold chdir
  rw [if_neg hlenp]
  dsimp only
  cases hden : denotes t s path with
  | err e =>
    rw [hden] at hres
    rw [if_pos hres.2]
    exact ⟨_, _, rfl, hstay⟩
  | notDir => exact absurd hden hc.dirs
  | missing a b c =>
    rw [hden] at hres
    rw [if_neg (fun x => x hres.1), hres.2.2.1]
    exact ⟨_, _, rfl, hstay⟩
  | found g j k =>
    rw [hden] at hres
    rw [if_neg (fun x => x hres.1), hres.2.2]
    dsimp only
    by_cases hk : k = .dir
    · rw [if_neg (fun x => x hk)]
      subst hk
      have hne : path ≠ [] := by
        intro e
        rw [e] at hden
        cases hden
      have hroom : if isAbsolute path = true then path.length ≤ 254
          else path.length + (AbsPath.render (ns.map nats)).length ≤ 254 := by
        have h1 := hc.room
        have h2 := (pwd_length hstr hnames hlen).1
        rw [hstr] at h2
        split
        · rename_i ha; rw [if_pos ha] at h1; exact h1
        · rename_i ha; rw [if_neg ha] at h1; omega
      obtain ⟨q, hq, hnew, hql⟩ := newStr_names hnames stale hne hc.dots hroom
      rw [hstr, hnew]
      refine ⟨_, _, rfl, ht, _, ?_, hq, hql⟩
      rw [hres.2.1]
      have hl := hc.links
      unfold denotes at hden
      rw [Resolve.den_eq, if_neg hne] at hden
      by_cases ha : isAbsolute path = true
      · rw [if_pos ha] at hl hden ⊢
        exact go_dirs ht _ _ _ _ _ _ _ _ (fun c h => components_ok hc.text h) .nil hl hden
      · rw [if_neg ha] at hl hden ⊢
        exact go_dirs ht _ _ _ _ _ _ _ _ (fun c h => components_ok hc.text h) hdir hl hden
    · rw [if_pos hk]
      exact ⟨_, _, rfl, hstay⟩

theorem reach_inv {t : Tree} {s : Proc} (h : Reach t s) : Inv t s := by
  induction h with
  | first ht => exact ⟨ht, [], .nil, rfl, (by decide : ([47] : List Nat).length ≤ 255)⟩
  | chdir _ hc he ih =>
    obtain ⟨rc, s', h1, h2⟩ := calm_step ih hc _
    rw [h1] at he
    cases he
    exact h2
  | change _ ht hd ih =>
    obtain ⟨_, ns, h1, h2, h3⟩ := ih
    exact ⟨ht, ns, hd ns h1, h2, h3⟩

/-- C128. After any history of calls of `chdir` that meet no symbolic link and for which there is room, and of changes
elsewhere in the tree, `getcwd` returns an absolute path, without `.`, `..` or symbolic links, which denotes the current
directory: the one from which relative paths are resolved. -/
theorem getcwd_denotes_partial {t : Tree} {s : Proc} (h : Reach t s) (size : Nat) (hs : 256 ≤ size) :
    ∃ p : Bytes, cstr (getcwd s size).2 = nats p ∧ 0 < (getcwd s size).1 ∧ isAbsolute p = true ∧
      t.den 3 true t.rootFs (t.rootIno t.rootFs) p = .found s.fs s.ino .dir ∧
      (∀ c ∈ components p, c ≠ [46] ∧ c ≠ [46, 46]) ∧ NoLink t t.rootFs (t.rootIno t.rootFs) (components p) := by
  obtain ⟨ht, ns, hdir, hstr, hlen⟩ := reach_inv h
  have hnames := Chain.names hdir
  obtain ⟨h1, _, h3⟩ := getcwd_names hstr hnames size (by omega)
  have hcomp : components (slashed ns) = ns := by
    unfold slashed
    by_cases e : ns = []
    · rw [if_pos e, e]; rfl
    · rw [if_neg e]
      exact components_slashed ns (fun n hn => ⟨(hnames n hn).1, (hnames n hn).2.1⟩)
  have habs : isAbsolute (slashed ns) = true := by
    cases ns with
    | nil => rfl
    | cons n ns => rfl
  refine ⟨slashed ns, h3, by rw [h1]; omega, habs, ?_, ?_, ?_⟩
  · rw [Resolve.den_eq, if_neg (by intro e; rw [e] at habs; cases habs), if_pos habs, hcomp]
    exact go_chain _ hdir _
  · rw [hcomp]
    exact fun c hc => ⟨(hnames c hc).2.2.2.1, (hnames c hc).2.2.2.2⟩
  · rw [hcomp]
    exact noLink_chain hdir

/-- C129. In such histories every call of `chdir` is carried out, without stores outside of its buffers. -/
theorem chdir_defined_partial {t : Tree} {s : Proc} (h : Reach t s) {path : Bytes} (hc : Calm t s path) (stale : List Nat) :
    ∃ rc s', chdir t s path stale = some (rc, s') := by
  obtain ⟨rc, s', h1, _⟩ := calm_step (reach_inv h) hc stale
  exact ⟨rc, s', h1⟩

/-- C129. A `chdir` that returns changes the current directory to the directory that the path denotes, links included, or
fails with what is wrong and changes nothing, neither the directory nor the text. -/
theorem chdir_effect_partial {t : Tree} (ht : t.OK) {s : Proc} {path : Bytes} (hp : PathText path) (hd : denotes t s path ≠ .notDir)
    (hl : path.length < 256) {stale : List Nat} {rc : Int} {s' : Proc} (h : chdir t s path stale = some (rc, s')) :
    match denotes t s path with
    | .found f i .dir => rc = 0 ∧ s'.fs = f ∧ s'.ino = i
    | .found _ _ _ => rc = -20 ∧ s' = s
    | .missing _ _ _ => rc = -2 ∧ s' = s
    | .err e => rc = -e ∧ rc ≠ 0 ∧ s' = s
    | .notDir => False := by
  have hres := resolve_denotes ht hp hd
  unfold chdir MAX_PATH at h
  rw [if_neg (by omega)] at h
  dsimp only at h
  cases hden : denotes t s path with
  | err e =>
    rw [hden] at hres
    rw [if_pos hres.2] at h
    cases h
    exact ⟨hres.1, hres.2, rfl⟩
  | notDir => exact absurd hden hd
  | missing a b c =>
    rw [hden] at hres
    rw [if_neg (fun x => x hres.1), hres.2.2.1] at h
    cases h
    exact ⟨rfl, rfl⟩
  | found g j k =>
    rw [hden] at hres
    rw [if_neg (fun x => x hres.1), hres.2.2] at h
    dsimp only at h
    by_cases hk : k = .dir
    · rw [if_neg (fun x => x hk)] at h
      subst hk
      dsimp only
      obtain ⟨q, _, e⟩ := Option.map_eq_some_iff.mp h
      cases e
      exact ⟨rfl, hres.2.1, rfl⟩
    · rw [if_pos hk] at h
      cases h
      cases k with
      | dir => exact absurd rfl hk
      | _ => exact ⟨rfl, rfl⟩

/-- C129. A path of 256 bytes or more is too long (ENAMETOOLONG). -/
theorem chdir_too_long (t : Tree) (s : Proc) (path : Bytes) (stale : List Nat) (h : 256 ≤ path.length) :
    chdir t s path stale = some (-36, s) := if_pos h

/-- C129. A failed `chdir`, of any path in any state, changes nothing. -/
theorem chdir_failed (t : Tree) (s : Proc) (path : Bytes) (stale : List Nat) {rc : Int} {s' : Proc}
    (h : chdir t s path stale = some (rc, s')) (hrc : rc ≠ 0) : s' = s := by
  unfold chdir at h
  dsimp only at h
  split at h
  · cases h; rfl
  · split at h
    · cases h; rfl
    · split at h
      · cases h; rfl
      · split at h
        · cases h; rfl
        · obtain ⟨q, _, e⟩ := Option.map_eq_some_iff.mp h
          cases e
          exact absurd rfl hrc

/-- C130. What `getcwd` answers for a buffer of `size` bytes: `EINVAL` for none, `ERANGE` if the text with a slash after it and
a zero byte does not fit, or else the text, ended by a zero byte, with at most one byte after it, inside the buffer. -/
theorem getcwd_buffer_partial {t : Tree} {s : Proc} (h : Reach t s) (size : Nat) :
    (size = 0 → getcwd s size = (-22, [])) ∧
    (0 < size → (pwd s).length + 1 > size → getcwd s size = (-34, [])) ∧
    ((pwd s).length + 2 ≤ size → 0 < (getcwd s size).1 ∧ cstr (getcwd s size).2 = pwd s ∧
      (pwd s).length < (getcwd s size).2.length ∧ (getcwd s size).2.length ≤ size) := by
  obtain ⟨ht, ns, hdir, hstr, hlen⟩ := reach_inv h
  have hnames := Chain.names hdir
  obtain ⟨hl1, hl2, hl3⟩ := pwd_length hstr hnames hlen
  have hge : (pwd s).length ≤ s.str.length := by
    by_cases e : ns = []
    · have := hl3 e; omega
    · have := hl2 e; omega
  refine ⟨fun e => ?_, fun h1 h2 => ?_, fun h1 => ?_⟩
  · unfold getcwd; rw [if_pos e]
  · unfold getcwd
    dsimp only
    rw [if_neg (by omega), if_pos (by omega)]
  · obtain ⟨h2, ⟨pad, h3, h4⟩, h5⟩ := getcwd_names hstr hnames size (by omega)
    have h6 := pwd_names hstr hnames hlen
    refine ⟨by rw [h2]; omega, by rw [h5, h6], ?_, ?_⟩
    · rw [h3, h6, List.length_append]; simp
    · rw [h3, ← h6, List.length_append, h4]
      split
      · rename_i e; simp; omega
      · simp; omega

/-! ## A tree -/

def longX : Bytes := List.replicate 127 120
def longY : Bytes := List.replicate 126 121
def longZ : Bytes := List.replicate 200 122

/-- In the root directory (1): the directory `a` (2) with the directory `b` (3), the link `l` to `a/b`, and a directory (5) with a
name of 127 bytes, with two directories with names of 126 (6) and 200 (7) bytes. -/
def demo : Tree where
  rootFs := 0
  rootIno := fun _ => 1
  lookup := fun _ i n =>
    if n = [46] then some (i, .dir)
    else if n = [46, 46] then some (if i = 3 then 2 else if i = 6 ∨ i = 7 then 5 else 1, .dir)
    else if i = 1 then
      if n = [97] then some (2, .dir)
      else if n = [108] then some (4, .symlink)
      else if n = longX then some (5, .dir)
      else none
    else if i = 2 then if n = [98] then some (3, .dir) else none
    else if i = 5 then
      if n = longY then some (6, .dir) else if n = longZ then some (7, .dir) else none
    else none
  target := fun _ _ => [97, 47, 98]
  mountAt := fun _ _ => none
  mountOf := fun _ => (0, 1)
  cwdFs := 0
  cwdIno := 1

/-- The same after the directory `a` has been renamed to `c`. -/
def renamed : Tree :=
  { demo with lookup := fun f i n => if n = [97] then none else demo.lookup f i (if n = [99] then [97] else n) }

theorem demo_child (f : FsId) (i : Ino) (n : Bytes) (hn : Name n) : demo.child f i n =
    match demo.lookup f i n with
    | none => .missing f i n
    | some (j, k) => .found f j k := by
  rw [Tree.child, if_neg (fun h => hn.2.2.2.2 h.1)]
  rfl

theorem demo_up (f : FsId) (i : Ino) (h : i ≠ 1) : demo.child f i [46, 46] =
    .found f (if i = 3 then 2 else if i = 6 ∨ i = 7 then 5 else 1) .dir := by
  rw [Tree.child, if_neg (fun x => h x.2)]
  rfl

theorem demo_lookup {f i n j} (hn : Name n) (h : demo.lookup f i n = some (j, .dir)) :
    (i = 1 ∧ (j = 2 ∨ j = 5)) ∨ (i = 2 ∧ j = 3) ∨ (i = 5 ∧ (j = 6 ∨ j = 7)) := by
  unfold demo at h
  dsimp only at h
  rw [if_neg hn.2.2.2.1, if_neg hn.2.2.2.2] at h
  split at h
  · rename_i h1
    split at h
    · cases h; exact Or.inl ⟨h1, Or.inl rfl⟩
    · split at h
      · cases h
      · split at h
        · cases h; exact Or.inl ⟨h1, Or.inr rfl⟩
        · cases h
  · split at h
    · rename_i h1
      split at h
      · cases h; exact Or.inr (Or.inl ⟨h1, rfl⟩)
      · cases h
    · split at h
      · rename_i h1
        split at h
        · cases h; exact Or.inr (Or.inr ⟨h1, Or.inl rfl⟩)
        · split at h
          · cases h; exact Or.inr (Or.inr ⟨h1, Or.inr rfl⟩)
          · cases h
      · cases h

theorem demo_tidy : Tidy demo := by
  have hdot : ∀ f i, demo.child f i [46] = .found f i .dir := by
    intro f i
    rw [Tree.child, if_neg (by intro h; cases h.1)]
    rfl
  refine ⟨⟨fun f _ => ⟨1, rfl⟩, fun f i => ⟨(by decide : (0 : UInt8) ∉ ([97, 47, 98] : Bytes)), ?_⟩⟩, fun ns f i _ => hdot f i, ?_⟩
  · intro q h
    have h' : ([97, 47, 98] : Bytes) = q ++ [47, 47] := h
    have := congrArg List.getLast? h'
    rw [List.getLast?_append] at this
    exact absurd (show (some 98 : Option UInt8) = some 47 from this) (by decide)
  · intro ns f i n g j hd hn h
    rw [demo_child f i n hn] at h
    cases hl : demo.lookup f i n with
    | none => rw [hl] at h; cases h
    | some x =>
      obtain ⟨x, k⟩ := x
      rw [hl] at h
      cases h
      rcases demo_lookup hn hl with ⟨rfl, rfl | rfl⟩ | ⟨rfl, rfl⟩ | ⟨rfl, rfl | rfl⟩ <;> exact demo_up _ _ (by decide)

/-- The state after `chdir("a")`, `chdir("./b/")`, `chdir("..")`: the current directory is `a`. -/
def inA : Proc := ⟨0, 2, [47, 97, 47]⟩

theorem calm_demo (s : Proc) (path : Bytes) (h0 : (0 : UInt8) ∉ path) (h1 : ¬ [47, 47] <:+ path) (h2 : ¬ [46, 47, 47] <:+: path)
    (h3 : denotes demo s path ≠ .notDir)
    (h4 : if isAbsolute path = true then NoLink demo 0 1 (components path) else NoLink demo s.fs s.ino (components path))
    (h5 : if isAbsolute path = true then path.length ≤ 254 else path.length + (pwd s).length ≤ 253) : Calm demo s path :=
  ⟨⟨h0, fun q e => h1 ⟨q, e.symm⟩⟩, h2, h3, h4, h5⟩

theorem reach_inA : Reach demo inA := by
  have r0 : Reach demo (first demo) := .first demo_tidy
  have c1 : Calm demo (first demo) [97] :=
    calm_demo _ _ (by decide) (by decide) (by decide) (by decide +kernel)
      (by rw [if_neg (by decide)]; exact ⟨by decide, trivial⟩) (by decide +kernel)
  have r1 : Reach demo inA := .chdir (stale := []) r0 c1 (show chdir demo (first demo) [97] [] = some (0, inA) by decide +kernel)
  have c2 : Calm demo inA [46, 47, 98, 47] :=
    calm_demo _ _ (by decide) (by decide) (by decide) (by decide +kernel)
      (by rw [if_neg (by decide)]; exact ⟨by decide, by decide, trivial⟩) (by decide +kernel)
  have r2 : Reach demo ⟨0, 3, [47, 97, 47, 98, 47]⟩ :=
    .chdir (stale := []) r1 c2 (show chdir demo inA [46, 47, 98, 47] [] = some (0, ⟨0, 3, [47, 97, 47, 98, 47]⟩) by decide +kernel)
  have c3 : Calm demo ⟨0, 3, [47, 97, 47, 98, 47]⟩ [46, 46] :=
    calm_demo _ _ (by decide) (by decide) (by decide) (by decide +kernel)
      (by rw [if_neg (by decide)]; exact ⟨by decide, trivial⟩) (by decide +kernel)
  exact .chdir (stale := []) r2 c3
    (show chdir demo ⟨0, 3, [47, 97, 47, 98, 47]⟩ [46, 46] [] = some (0, inA) by decide +kernel)

example : ∃ s, Reach demo s ∧ s.ino = 2 ∧ getcwd s 4096 = (4, [47, 97, 0, 0]) := ⟨inA, reach_inA, rfl, by decide +kernel⟩

example : chdir demo inA [98, 47, 120] [] = some (-2, inA) ∧ denotes demo inA [98, 47, 120] = .missing 0 3 [120] := by decide +kernel

/-! ## Violations -/

/-- C128, violated: after `chdir("l")`, `getcwd` returns a path that ends in a symbolic link. -/
theorem link_in_text_violated :
    chdir demo (first demo) [108] [] = some (0, ⟨0, 3, [47, 108, 47]⟩) ∧ pwd ⟨0, 3, [47, 108, 47]⟩ = [47, 108] ∧
    demo.child 0 1 [108] = .found 0 4 .symlink := by decide +kernel

/-- C128, violated: after `chdir("l/..")`, where `l` is a link to `a/b`, the current directory is `a`, but `getcwd` returns `/`,
which is another directory. -/
theorem dotdot_after_link_violated :
    denotes demo (first demo) [108, 47, 46, 46] = .found 0 2 .dir ∧
    chdir demo (first demo) [108, 47, 46, 46] [] = some (0, ⟨0, 2, [47]⟩) ∧ pwd ⟨0, 2, [47]⟩ = [47] ∧
    demo.den 3 true 0 1 [47] = .found 0 1 .dir := by decide +kernel

/-- C128, violated: going down into a directory with a long path, one name after the other, works, but `getcwd` then returns
what an earlier system call has left in a buffer of the kernel, here `hi`. -/
theorem long_path_violated :
    chdir demo (first demo) longX [] = some (0, ⟨0, 5, 47 :: nats longX ++ [47]⟩) ∧
    chdir demo ⟨0, 5, 47 :: nats longX ++ [47]⟩ longZ [104, 105] = some (0, ⟨0, 7, [104, 105, 47]⟩) ∧
    pwd ⟨0, 7, [104, 105, 47]⟩ = [104, 105] := by decide +kernel

/-- C129, violated: if the absolute path of the new directory has 255 bytes, a zero byte is stored after the end of the
array for the text. -/
theorem text_overflow_violated :
    denotes demo ⟨0, 5, 47 :: nats longX ++ [47]⟩ longY = .found 0 6 .dir ∧
    chdir demo ⟨0, 5, 47 :: nats longX ++ [47]⟩ longY [] = none := by decide +kernel

/-- C128, violated: after the current directory has been renamed, `getcwd` returns its old name, which denotes nothing. -/
theorem renamed_violated :
    pwd inA = [47, 97] ∧ renamed.den 3 true 0 1 [47, 97] = .missing 0 1 [97] ∧
    renamed.den 3 true 0 1 [47, 99] = .found 0 2 .dir := by decide +kernel

/-- C130, violated: `/a` and its zero byte take three bytes, but a buffer of three bytes is refused, and with a larger one the
result is 4, not 3. -/
theorem exact_buffer_violated :
    pwd inA = [47, 97] ∧ getcwd inA 3 = (-34, []) ∧ (getcwd inA 4).1 = 4 := by decide +kernel

end Verif.Cwd
