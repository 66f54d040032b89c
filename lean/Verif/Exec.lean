/-!
# Scripts, and the command line kept for a process

Models kernel/execve.c: `save_cmdline`, `execve_handle_script`, `execve_load_elf`,
`do_execve_int` and `do_execve`, up to the point where the image of the program is set up.
Characters are numbers: 35 '#', 33 '!', 32 ' ', 10 newline.
-/

namespace Verif.Exec

/-! ## The first line of a script -/

/-- `ELF_RAW_HEADER_SIZE` (include/tilck/kernel/elf_loader.h:8). -/
def HDR : Nat := 128

/-- `USERAPP_MAX_ARGS_COUNT` (config/config_userlim.h:29). -/
def MAXARGS : Nat := 32

/-- `MAX_SCRIPT_REC` (config/config_userlim.h:36). -/
def MAXREC : Nat := 2

def E2BIG : Nat := 7
def ENOEXEC : Nat := 8
def ELOOP : Nat := 40

/-- Memory with `v` at `a`. -/
def put (m : Nat → Nat) (a v : Nat) : Nat → Nat := fun b => if b = a then v else m b

/-- The C string at index `a` (as the code that receives the pointer sees it); at most `fuel`
characters. -/
def cstr (m : Nat → Nat) (a : Nat) : Nat → List Nat
  | 0 => []
  | f + 1 => if m a = 0 then [] else m a :: cstr m (a + 1) f

/-- `while (*hdr == ' ') hdr++` (kernel/execve.c:183). -/
def skipSpaces (m : Nat → Nat) (a : Nat) : Nat → Nat
  | 0 => a
  | f + 1 => if m a = 32 then skipSpaces m (a + 1) f else a

/-- What reading the first line gives: was a byte beyond the 128-byte buffer touched, and
interpreter and optional argument, if the line is complete. -/
structure Scan where
  oob : Bool
  res : Option (List Nat × Option (List Nat))

/-- The loop over the line (kernel/execve.c:189-210).  `h` is `hdr` after the skipped spaces, `l`
the start of the argument.  Bytes at index 128 and above are whatever follows the buffer. -/
def scanLoop (h : Nat) : Nat → (Nat → Nat) → Nat → Option Nat → Bool → Scan
  | 0, _, _, _, oob => ⟨oob, none⟩
  | f + 1, m, p, l, oob =>
    if m p = 0 ∨ h + HDR ≤ p then ⟨oob || decide (HDR ≤ p), none⟩
    else
      let sp := m p = 32 ∧ l = none
      let m1 := if sp then put m p 0 else m
      let p1 := if sp then p + 1 else p
      let l1 := if sp then some (p + 1) else l
      let oob1 := oob || decide (HDR ≤ p1)
      if m1 p1 = 10 then
        let m2 := put m1 p1 0
        ⟨oob1, some (cstr m2 h 256, l1.map fun a => cstr m2 a 256)⟩
      else scanLoop h f m1 (p1 + 1) l1 oob1

/-- Reading the first line (kernel/execve.c:173-213): `hdr[127] = 0`, the two characters
of `#!` and the spaces after them are skipped. -/
def scan (m : Nat → Nat) : Scan :=
  let m0 := put m (HDR - 1) 0
  let h := skipSpaces m0 2 HDR
  if m0 h = 0 then ⟨false, none⟩ else scanLoop h 256 m0 h none false

/-- An array of pointers to strings; `none` is NULL. -/
abbrev PArr := Nat → Option (List Nat)

def PArr.put (a : PArr) (i : Nat) (v : Option (List Nat)) : PArr :=
  fun j => if j = i then v else a j

/-- `for (i = 0; argv[i]; i++) na[i] = argv[i]` (kernel/execve.c:202-203). -/
def copyArgs (a : PArr) (i : Nat) : List (List Nat) → PArr
  | [] => a
  | s :: r => copyArgs (a.put i (some s)) (i + 1) r

/-- Result of `execve_handle_script`. -/
inductive HRes
  | err (e : Nat)
  /-- Run `interp` with the array; `oob`: something outside a buffer was accessed. -/
  | run (interp : List Nat) (arr : PArr) (oob : Bool)

/-- The new array of arguments (kernel/execve.c:194-207).  `stale` is what the array holds from
earlier calls; the highest index written is that of the final NULL. -/
def newArgv (stale : PArr) (interp : List Nat) (arg : Option (List Nat)) (path : List Nat)
    (argv : List (List Nat)) : PArr × Bool :=
  let a0 := stale.put 0 (some interp)
  let a1 := match arg with
    | none => a0
    | some x => a0.put 1 (some x)
  let b := if arg.isSome then 2 else 1
  let a2 := (copyArgs a1 b argv).put (b + argv.length) none
  (a2.put b (some path), decide (MAXARGS ≤ b + argv.length))

/-- `execve_handle_script` (kernel/execve.c:163-214). -/
def handleScript (stale : PArr) (m : Nat → Nat) (path : List Nat) (argv : List (List Nat)) : HRes :=
  if argv.length > MAXARGS - 2 then .err E2BIG
  else
    match (scan m).res with
    | none => .err ENOEXEC
    | some (i, a) =>
      .run i (newArgv stale i a path argv).1 ((scan m).oob || (newArgv stale i a path argv).2)

/-- Reading an array of pointers up to its NULL (bounded by the size of the array). -/
def toList (a : PArr) (i : Nat) : Nat → List (List Nat)
  | 0 => []
  | f + 1 =>
    match a i with
    | none => []
    | some s => s :: toList a (i + 1) f

/-- What a path leads to. -/
inductive File
  | elf
  | script (hdr : Nat → Nat)
  | bad (e : Nat)

/-- Result of `execve`. -/
inductive XRes
  /-- The program at `path` runs with these arguments. -/
  | ran (path : List Nat) (argv : List (List Nat))
  | err (e : Nat)
  /-- A buffer was left. -/
  | broken
  deriving DecidableEq

/-- `do_execve_int` and `execve_load_elf` (kernel/execve.c:247-270, 328-371).  `lvl` is
`ctx->reclvl`; levels above `MAX_SCRIPT_REC` cannot occur, so three rounds are enough. -/
def execInt (fs : List Nat → File) (stale : Nat → PArr) : Nat → Nat → List Nat →
    List (List Nat) → XRes
  | 0, _, _, _ => .broken
  | f + 1, lvl, path, argv =>
    match fs path with
    | .elf => .ran path argv
    | .bad e => .err e
    | .script m =>
      if lvl = MAXREC then .err ELOOP
      else
        match handleScript (stale lvl) m path argv with
        | .err e => .err e
        | .run i arr oob =>
          if oob then .broken else execInt fs stale f (lvl + 1) i (toList arr 0 MAXARGS)

/-- `do_execve` (kernel/execve.c:373-390): without an `argv` the path is the only argument. -/
def exec (fs : List Nat → File) (stale : Nat → PArr) (path : List Nat)
    (argv : Option (List (List Nat))) : XRes :=
  execInt fs stale 3 0 path (argv.getD [path])

/-! ## The command line kept for a process -/

/-- `PROCESS_CMDLINE_BUF_SIZE` (config/kernel/config_kernel.h:45). -/
def CMDSZ : Nat := 256

/-- The copy of one argument (kernel/execve.c:109-110). -/
def putChars (b : Nat → Nat) (p : Nat) : List Nat → (Nat → Nat) × Nat
  | [] => (b, p)
  | c :: s => if p < CMDSZ then putChars (put b p c) (p + 1) s else (b, p)

/-- The loop over the arguments (kernel/execve.c:107-116). -/
def putArgs (b : Nat → Nat) (p : Nat) : List (List Nat) → (Nat → Nat) × Nat
  | [] => (b, p)
  | s :: r =>
    let q := putChars b p s
    if q.2 = CMDSZ then q else putArgs (put q.1 q.2 32) (q.2 + 1) r

/-- `save_cmdline` (kernel/execve.c:100-122). -/
def saveCmdline (b : Nat → Nat) (argv : List (List Nat)) : Nat → Nat :=
  let q := putArgs b 0 argv
  if q.2 < CMDSZ then put q.1 q.2 0
  else put (put (put (put q.1 (q.2 - 4) 46) (q.2 - 3) 46) (q.2 - 2) 46) (q.2 - 1) 0

/-! ## Specification -/

/-- Text at the start of a file. -/
def Starts (m : Nat → Nat) (t : List Nat) : Prop := ∀ i (h : i < t.length), m i = t[i]

/-- The first line of a script: `#!`, blanks, the interpreter's path, optionally one blank and an
argument, a newline; all of it within 127 bytes. -/
def ScriptLine (m : Nat → Nat) (interp : List Nat) (arg : Option (List Nat)) : Prop :=
  ∃ k, Starts m ([35, 33] ++ List.replicate k 32 ++ interp ++
      (match arg with | none => [] | some a => 32 :: a) ++ [10]) ∧
    2 + k + interp.length + (match arg with | none => 0 | some a => 1 + a.length) < 127 ∧
    interp ≠ [] ∧ (∀ c ∈ interp, c ≠ 0 ∧ c ≠ 32 ∧ c ≠ 10) ∧
    (∀ a, arg = some a → a ≠ [] ∧ a.head? ≠ some 32 ∧ a.getLast? ≠ some 32 ∧
      ∀ c ∈ a, c ≠ 0 ∧ c ≠ 10)

/-- A pointer array that ends with a NULL. -/
def Denotes (a : PArr) (l : List (List Nat)) : Prop :=
  (∀ i (h : i < l.length), a i = some l[i]) ∧ a l.length = none

/-- The arguments of the interpreter: its own path, the argument of the first line, the path of
the script, and the arguments of the script. -/
def scriptArgs (interp : List Nat) (arg : Option (List Nat)) (path : List Nat)
    (argv : List (List Nat)) : List (List Nat) :=
  interp :: (arg.toList ++ path :: argv.drop 1)

/-- One step: `path` is a script, and the kernel has room for the arguments. -/
def Step (fs : List Nat → File) (path : List Nat) (argv : List (List Nat)) (path' : List Nat)
    (argv' : List (List Nat)) : Prop :=
  ∃ m a, fs path = .script m ∧ ScriptLine m path' a ∧ argv ≠ [] ∧
    argv.length + a.toList.length ≤ 30 ∧ argv' = scriptArgs path' a path argv

/-- A chain of scripts. -/
inductive Steps (fs : List Nat → File) : Nat → List Nat → List (List Nat) → List Nat →
    List (List Nat) → Prop
  | refl (p v) : Steps fs 0 p v p v
  | step {n p v p1 v1 p2 v2} : Step fs p v p1 v1 → Steps fs n p1 v1 p2 v2 →
      Steps fs (n + 1) p v p2 v2

/-- The command line: the arguments, each followed by a blank. -/
def cmdline (argv : List (List Nat)) : List Nat := (argv.map (· ++ [32])).flatten

/-- Memory holds this C string. -/
def HasStr (m : Nat → Nat) (s : List Nat) : Prop :=
  (∀ i (h : i < s.length), m i = s[i]) ∧ m s.length = 0

/-! ## The first line -/

theorem put_same (m : Nat → Nat) (a v : Nat) : put m a v a = v := by simp [put]

theorem put_other (m : Nat → Nat) (a v b : Nat) (h : b ≠ a) : put m a v b = m b := by
  simp [put, h]

theorem cstr_eq (m : Nat → Nat) (s : List Nat) : ∀ (a f : Nat), s.length < f →
    (∀ i (h : i < s.length), m (a + i) = s[i] ∧ s[i] ≠ 0) → m (a + s.length) = 0 →
    cstr m a f = s := by
  induction s with
  | nil =>
    intro a f hf _ h0
    obtain ⟨g, rfl⟩ : ∃ g, f = g + 1 := ⟨f - 1, by simp at hf; omega⟩
    unfold cstr; exact if_pos h0
  | cons c s ih =>
    intro a f hf h h0
    rw [List.length_cons] at hf h0
    obtain ⟨g, rfl⟩ : ∃ g, f = g + 1 := ⟨f - 1, by omega⟩
    have hc := h 0 (by simp)
    rw [Nat.add_zero, List.getElem_cons_zero] at hc
    unfold cstr
    have e1 : ∀ i (h : i < s.length), m (a + 1 + i) = s[i] ∧ s[i] ≠ 0 := by
      intro i hi
      have := h (i + 1) (by simp; omega)
      rwa [List.getElem_cons_succ, show a + (i + 1) = a + 1 + i by omega] at this
    have e2 : m (a + 1 + s.length) = 0 := by
      rwa [show a + 1 + s.length = a + (s.length + 1) by omega]
    rw [if_neg (by rw [hc.1]; exact hc.2), hc.1, ih (a + 1) g (by omega) e1 e2]

theorem skipSpaces_eq (m : Nat → Nat) (k : Nat) : ∀ (a f : Nat), k < f →
    (∀ i, i < k → m (a + i) = 32) → m (a + k) ≠ 32 → skipSpaces m a f = a + k := by
  induction k with
  | zero =>
    intro a f hf _ h
    obtain ⟨g, rfl⟩ : ∃ g, f = g + 1 := ⟨f - 1, by omega⟩
    unfold skipSpaces; exact if_neg h
  | succ k ih =>
    intro a f hf h h'
    obtain ⟨g, rfl⟩ : ∃ g, f = g + 1 := ⟨f - 1, by omega⟩
    unfold skipSpaces
    have e0 : m a = 32 := h 0 (by omega)
    have e1 : ∀ i, i < k → m (a + 1 + i) = 32 := by
      intro i hi
      have := h (i + 1) (by omega); rwa [show a + (i + 1) = a + 1 + i by omega] at this
    have e2 : m (a + 1 + k) ≠ 32 := by rwa [show a + 1 + k = a + (k + 1) by omega]
    rw [if_pos e0, ih (a + 1) g (by omega) e1 e2]
    omega

/-- Characters that are not the first blank, a newline or NUL are passed over. -/
theorem scan_skip (h : Nat) (l : Option Nat) (n : Nat) : ∀ (f : Nat) (m : Nat → Nat) (p : Nat),
    p + n ≤ 127 → h ≤ p →
    (∀ i, i < n → m (p + i) ≠ 0 ∧ m (p + i) ≠ 10 ∧ (l = none → m (p + i) ≠ 32)) →
    scanLoop h (f + n) m p l false = scanLoop h f m (p + n) l false := by
  induction n with
  | zero => intro f m p _ _ _; rfl
  | succ n ih =>
    intro f m p hp hh hc
    obtain ⟨c1, c2, c3⟩ := hc 0 (by omega)
    rw [Nat.add_zero] at c1 c2 c3
    have hsp : ¬ (m p = 32 ∧ l = none) := fun g => c3 g.2 g.1
    conv => lhs; rw [show f + (n + 1) = f + n + 1 by omega]; unfold scanLoop
    have hH : HDR = 128 := rfl
    rw [if_neg (by omega)]
    dsimp only
    rw [if_neg hsp, if_neg hsp, if_neg hsp, if_neg c2, show (false || decide (HDR ≤ p)) = false by simp; omega,
      ih f m (p + 1) (by omega) (by omega) (fun i hi => ?_)]
    · rw [show p + (n + 1) = p + 1 + n by omega]
    · have := hc (i + 1) (by omega)
      rwa [show p + (i + 1) = p + 1 + i by omega] at this

theorem getElem_text {a b : List Nat} (i : Nat) (h : i < b.length) :
    (a ++ b)[a.length + i]'(by simp; omega) = b[i] := by
  rw [List.getElem_append_right (by omega)]
  congr 1
  omega

/-- Reading a well-formed line, in terms of positions. -/
theorem scan_text (m : Nat → Nat) (k : Nat) (interp : List Nat) (arg : Option (List Nat))
    (hlen : 2 + k + interp.length + (match arg with | none => 0 | some a => 1 + a.length) < 127)
    (hk : ∀ i, i < k → m (2 + i) = 32) (hne : interp ≠ [])
    (hi : ∀ i (h : i < interp.length), m (2 + k + i) = interp[i])
    (hic : ∀ c ∈ interp, c ≠ 0 ∧ c ≠ 32 ∧ c ≠ 10)
    (hn : arg = none → m (2 + k + interp.length) = 10)
    (ha : ∀ a, arg = some a → (∀ c ∈ a, c ≠ 0 ∧ c ≠ 10) ∧ m (2 + k + interp.length) = 32 ∧
      (∀ i (h : i < a.length), m (2 + k + interp.length + 1 + i) = a[i]) ∧
      m (2 + k + interp.length + 1 + a.length) = 10) :
    scan m = ⟨false, some (interp, arg)⟩ := by
  have hH : HDR = 128 := rfl
  have hlen0 : 2 + k + interp.length < 127 := by omega
  unfold scan
  dsimp only
  have hm0 : ∀ i, i < 127 → put m (HDR - 1) 0 i = m i := fun i hi => put_other _ _ _ _ (by omega)
  generalize put m (HDR - 1) 0 = m0 at hm0
  have hpos : 0 < interp.length := by
    cases interp with
    | nil => exact absurd rfl hne
    | cons => simp
  have hchar : ∀ i, i < interp.length → m0 (2 + k + i) ≠ 0 ∧ m0 (2 + k + i) ≠ 10 ∧
      m0 (2 + k + i) ≠ 32 := by
    intro i h
    have := hic _ (List.getElem_mem h)
    rw [hm0 _ (by omega), hi i h]
    exact ⟨this.1, this.2.2, this.2.1⟩
  have h0 := hchar 0 hpos
  rw [Nat.add_zero] at h0
  rw [skipSpaces_eq m0 k 2 HDR (by omega) (fun i h => by rw [hm0 _ (by omega)]; exact hk i h) h0.2.2,
    if_neg h0.1]
  obtain ⟨F, hF⟩ : ∃ F, 256 = F + interp.length := ⟨256 - interp.length, by omega⟩
  rw [hF, scan_skip (2 + k) none interp.length F m0 (2 + k) (by omega) (Nat.le_refl _)
    (fun i h => ⟨(hchar i h).1, (hchar i h).2.1, fun _ => (hchar i h).2.2⟩)]
  generalize hP : 2 + k + interp.length = P at *
  obtain ⟨G, rfl⟩ : ∃ G, F = G + 1 := ⟨F - 1, by omega⟩
  cases arg with
  | none =>
    have hnl : m0 P = 10 := by rw [hm0 _ (by omega)]; exact hn rfl
    conv => lhs; unfold scanLoop
    rw [if_neg (by rw [hnl]; omega)]
    have hsp : ¬ (m0 P = 32 ∧ (none : Option Nat) = none) := fun g => by rw [hnl] at g; omega
    dsimp only
    rw [if_neg hsp, if_neg hsp, if_neg hsp, if_pos hnl]
    have e1 : ∀ i (h : i < interp.length), put m0 P 0 (2 + k + i) = interp[i] ∧ interp[i] ≠ 0 := by
      intro i h
      rw [put_other _ _ _ _ (by omega), hm0 _ (by omega), hi i h]
      exact ⟨rfl, (hic _ (List.getElem_mem h)).1⟩
    have e2 : put m0 P 0 (2 + k + interp.length) = 0 := by rw [hP]; exact put_same _ _ _
    have hoob : (false || decide (HDR ≤ P)) = false := by simp; omega
    rw [cstr_eq _ interp (2 + k) 256 (by omega) e1 e2, hoob]
    rfl
  | some a =>
    obtain ⟨ac, asp, ai, anl⟩ := ha a rfl
    have hlena : P + (1 + a.length) < 127 := hlen
    have hspc : m0 P = 32 := by rw [hm0 _ (by omega)]; exact asp
    conv => lhs; unfold scanLoop
    rw [if_neg (by rw [hspc]; omega)]
    have hsp : (m0 P = 32 ∧ (none : Option Nat) = none) := ⟨hspc, rfl⟩
    dsimp only
    rw [if_pos hsp, if_pos hsp, if_pos hsp]
    have hoob : (false || decide (HDR ≤ P + 1)) = false := by simp; omega
    rw [hoob]
    -- the result, whichever round ends it
    have hfin : ∀ Q, Q = P + 1 + a.length →
        (⟨false, some (cstr (put (put m0 P 0) Q 0) (2 + k) 256,
          Option.map (fun a => cstr (put (put m0 P 0) Q 0) a 256) (some (P + 1)))⟩ : Scan) =
        ⟨false, some (interp, some a)⟩ := by
      intro Q hQ
      subst hQ
      have e1 : ∀ i (h : i < interp.length),
          put (put m0 P 0) (P + 1 + a.length) 0 (2 + k + i) = interp[i] ∧ interp[i] ≠ 0 := by
        intro i h
        rw [put_other _ _ _ _ (by omega), put_other _ _ _ _ (by omega), hm0 _ (by omega), hi i h]
        exact ⟨rfl, (hic _ (List.getElem_mem h)).1⟩
      have e2 : put (put m0 P 0) (P + 1 + a.length) 0 (2 + k + interp.length) = 0 := by
        rw [hP, put_other _ _ _ _ (by omega)]; exact put_same _ _ _
      have e3 : ∀ i (h : i < a.length),
          put (put m0 P 0) (P + 1 + a.length) 0 (P + 1 + i) = a[i] ∧ a[i] ≠ 0 := by
        intro i h
        rw [put_other _ _ _ _ (by omega), put_other _ _ _ _ (by omega), hm0 _ (by omega), ai i h]
        exact ⟨rfl, (ac _ (List.getElem_mem h)).1⟩
      rw [cstr_eq _ interp (2 + k) 256 (by omega) e1 e2, Option.map_some,
        cstr_eq _ a (P + 1) 256 (by omega) e3 (put_same _ _ _)]
    have hpn : put m0 P 0 (P + 1 + a.length) = 10 := by
      rw [put_other _ _ _ _ (by omega), hm0 _ (by omega)]; exact anl
    by_cases hz : a.length = 0
    · rw [hz, Nat.add_zero] at hpn
      rw [if_pos hpn]
      exact hfin (P + 1) (by omega)
    · have hch : ∀ i, i < a.length → put m0 P 0 (P + 1 + i) ≠ 0 ∧ put m0 P 0 (P + 1 + i) ≠ 10 := by
        intro i h
        rw [put_other _ _ _ _ (by omega), hm0 _ (by omega), ai i h]
        exact ac _ (List.getElem_mem h)
      have hf := hch 0 (by omega)
      rw [Nat.add_zero] at hf
      rw [if_neg hf.2]
      obtain ⟨K, hK⟩ : ∃ K, G = K + 1 + (a.length - 1) := ⟨G - a.length, by omega⟩
      have hsk : ∀ i, i < a.length - 1 → put m0 P 0 (P + 1 + 1 + i) ≠ 0 ∧
          put m0 P 0 (P + 1 + 1 + i) ≠ 10 ∧ (some (P + 1) = none → put m0 P 0 (P + 1 + 1 + i) ≠ 32) := by
        intro i h
        have := hch (i + 1) (by omega)
        rw [show P + 1 + (i + 1) = P + 1 + 1 + i by omega] at this
        exact ⟨this.1, this.2, fun g => by cases g⟩
      rw [hK, scan_skip (2 + k) (some (P + 1)) (a.length - 1) (K + 1) (put m0 P 0) (P + 1 + 1)
        (by omega) (by omega) hsk]
      rw [show P + 1 + 1 + (a.length - 1) = P + 1 + a.length by omega]
      · conv => lhs; unfold scanLoop
        rw [if_neg (by rw [hpn]; omega)]
        have hs2 : ¬ (put m0 P 0 (P + 1 + a.length) = 32 ∧ some (P + 1) = none) := fun g => by
          cases g.2
        dsimp only
        rw [if_neg hs2, if_neg hs2, if_neg hs2, if_pos hpn]
        have hoob2 : (false || decide (HDR ≤ P + 1 + a.length)) = false := by simp; omega
        rw [hoob2]
        exact hfin _ rfl

theorem Starts.left {m : Nat → Nat} {a b : List Nat} (h : Starts m (a ++ b)) : Starts m a :=
  fun i hi => by
    rw [h i (by simp; omega), List.getElem_append_left hi]

theorem Starts.right {m : Nat → Nat} {a b : List Nat} (h : Starts m (a ++ b)) :
    Starts (fun i => m (a.length + i)) b := fun i hi => by
  show m (a.length + i) = _
  rw [h (a.length + i) (by simp; omega), List.getElem_append_right (by omega)]
  congr 1
  omega

/-- **C100.** The first line of a script is read as documented: for every line made of `#!`,
blanks, a path, an optional argument and a newline within the first 127 bytes, the interpreter is
that path and its argument is that argument (all of it, inner blanks included); no byte outside
the buffer is touched. -/
theorem script_line_correct {m : Nat → Nat} {interp : List Nat} {arg : Option (List Nat)}
    (h : ScriptLine m interp arg) : scan m = ⟨false, some (interp, arg)⟩ := by
  obtain ⟨k, hs, hlen, hne, hic, ha⟩ := h
  have h1 := hs.left.left.left.right
  have h2 := hs.left.left.right
  have h3 := hs.left.right
  have h4 := hs.right
  unfold Starts at h1 h2 h3 h4
  simp only [List.length_append, List.length_replicate, List.length_cons, List.length_nil] at h1 h2 h3 h4
  refine scan_text m k interp arg hlen (fun i hi => ?_) hne (fun i hi => ?_) hic (fun hn => ?_)
    (fun a e => ?_)
  · have := h1 i hi
    rw [List.getElem_replicate] at this; exact this
  · exact h2 i hi
  · subst hn
    have := h4 0 (by simp)
    simpa using this
  · subst e
    refine ⟨(ha a rfl).2.2.2, ?_, fun i hi => ?_, ?_⟩
    · have := h3 0 (by simp)
      simpa using this
    · have := h3 (i + 1) (by simpa using hi)
      rw [List.getElem_cons_succ] at this
      rw [show 2 + k + interp.length + 1 + i = 0 + 1 + 1 + k + interp.length + (i + 1) by omega]
      exact this
    · have := h4 0 (by simp)
      simp only [List.length_cons, Nat.add_zero, List.getElem_cons_zero] at this
      rw [show 2 + k + interp.length + 1 + a.length =
        0 + 1 + 1 + k + interp.length + (a.length + 1) by omega]
      exact this

example : ScriptLine (fun i => ([35, 33, 32, 47, 115, 104, 32, 45, 120, 32, 121, 10] : List Nat).getD i 0)
    [47, 115, 104] (some [45, 120, 32, 121]) := by
  refine ⟨1, ?_, by decide, by decide, by decide, ?_⟩
  · intro i hi
    have : i < 12 := hi
    revert i; decide
  · intro a e; cases e; decide

/-! ### Every header -/

theorem skipSpaces_le (m : Nat → Nat) (h : m 127 ≠ 32) : ∀ (f a : Nat), a ≤ 127 →
    skipSpaces m a f ≤ 127 := by
  intro f
  induction f with
  | zero => intro a ha; exact ha
  | succ f ih =>
    intro a ha
    unfold skipSpaces
    split
    next e =>
      have : a ≠ 127 := fun g => h (g ▸ e)
      exact ih (a + 1) (by omega)
    next => exact ha

theorem scanLoop_in (h : Nat) : ∀ (f : Nat) (m : Nat → Nat) (p : Nat) (l : Option Nat), p ≤ 127 →
    m 127 = 0 → m 126 ≠ 32 → (scanLoop h f m p l false).oob = false := by
  intro f
  induction f with
  | zero => intro m p l _ _ _; rfl
  | succ f ih =>
    intro m p l hp h7 h6
    have hH : HDR = 128 := rfl
    unfold scanLoop
    split
    next => simp; omega
    next hc =>
      have hp7 : p ≠ 127 := fun g => hc (.inl (g ▸ h7))
      dsimp only
      by_cases hs : m p = 32 ∧ l = none
      · have hp6 : p ≠ 126 := fun g => h6 (g ▸ hs.1)
        rw [if_pos hs, if_pos hs, if_pos hs, show (false || decide (HDR ≤ p + 1)) = false by
          simp; omega]
        split
        · rfl
        · exact ih _ _ _ (by omega) (by rw [put_other _ _ _ _ (by omega)]; exact h7)
            (by rw [put_other _ _ _ _ (by omega)]; exact h6)
      · rw [if_neg hs, if_neg hs, if_neg hs, show (false || decide (HDR ≤ p)) = false by
          simp; omega]
        split
        · rfl
        · exact ih _ _ _ (by omega) h7 h6

/-- **C100 (partial).** Reading the first line of *any* file never leaves the 128-byte buffer,
provided the byte at index 126 is not a blank (missing: that case, see
`blank_at_end_violated`). -/
theorem scan_in_bounds_partial (m : Nat → Nat) (h : m 126 ≠ 32) : (scan m).oob = false := by
  unfold scan
  dsimp only
  split
  · rfl
  · refine scanLoop_in _ _ _ _ _ (skipSpaces_le _ ?_ _ _ (by omega)) (put_same _ _ _) ?_
    · rw [show put m (HDR - 1) 0 127 = 0 from put_same _ _ _]; omega
    · rw [put_other _ _ _ _ (show 126 ≠ HDR - 1 by decide)]; exact h

example : (fun i => ([35, 33, 47, 115, 10] : List Nat).getD i 0) 126 ≠ 32 := by decide

theorem scanLoop_none (h : Nat) : ∀ (f : Nat) (m : Nat → Nat) (p : Nat) (l : Option Nat), p ≤ 127 →
    m 127 = 0 → m 126 ≠ 32 → (∀ i, i < 127 → m i ≠ 10) → (scanLoop h f m p l false).res = none := by
  intro f
  induction f with
  | zero => intro m p l _ _ _ _; rfl
  | succ f ih =>
    intro m p l hp h7 h6 hn
    unfold scanLoop
    split
    next => rfl
    next hc =>
      have hp7 : p ≠ 127 := fun g => hc (.inl (g ▸ h7))
      have hH : HDR = 128 := rfl
      dsimp only
      by_cases hs : m p = 32 ∧ l = none
      · have hp6 : p ≠ 126 := fun g => h6 (g ▸ hs.1)
        rw [if_pos hs, if_pos hs, if_pos hs, show (false || decide (HDR ≤ p + 1)) = false by
          simp; omega]
        have hput : ∀ i, i < 127 → put m p 0 i ≠ 10 := by
          intro i hi
          by_cases e : i = p
          · subst e; rw [put_same]; omega
          · rw [put_other _ _ _ _ e]; exact hn i hi
        rw [if_neg (hput _ (by omega))]
        exact ih _ _ _ (by omega) (by rw [put_other _ _ _ _ (by omega)]; exact h7)
          (by rw [put_other _ _ _ _ (by omega)]; exact h6) hput
      · rw [if_neg hs, if_neg hs, if_neg hs, show (false || decide (HDR ≤ p)) = false by
          simp; omega, if_neg (hn _ (by omega))]
        exact ih _ _ _ (by omega) h7 h6 hn

theorem scan_none {m : Nat → Nat} (h : m 126 ≠ 32) (hn : ∀ i, i < 127 → m i ≠ 10) :
    (scan m).res = none := by
  unfold scan
  dsimp only
  have hp : ∀ i, i < 127 → put m (HDR - 1) 0 i = m i := fun i hi =>
    put_other _ _ _ _ (by have hH : HDR = 128 := rfl; omega)
  split
  · rfl
  · refine scanLoop_none _ _ _ _ _ (skipSpaces_le _ ?_ _ _ (by omega)) (put_same _ _ _) ?_ ?_
    · rw [show put m (HDR - 1) 0 127 = 0 from put_same _ _ _]; omega
    · rw [hp _ (by omega)]; exact h
    · intro i hi; rw [hp i hi]; exact hn i hi

/-! ### The arguments of the interpreter -/

theorem PArr.put_same (a : PArr) (i : Nat) (v : Option (List Nat)) : a.put i v i = v := by
  simp [PArr.put]

theorem PArr.put_other (a : PArr) (i j : Nat) (v : Option (List Nat)) (h : j ≠ i) :
    a.put i v j = a j := by simp [PArr.put, h]

theorem copyArgs_lt (l : List (List Nat)) : ∀ (a : PArr) (i j : Nat), j < i →
    copyArgs a i l j = a j := by
  induction l with
  | nil => intro a i j _; rfl
  | cons s r ih =>
    intro a i j h
    show copyArgs (a.put i (some s)) (i + 1) r j = _
    rw [ih _ _ _ (by omega), PArr.put_other _ _ _ _ (by omega)]

theorem copyArgs_at (l : List (List Nat)) : ∀ (a : PArr) (i k : Nat) (h : k < l.length),
    copyArgs a i l (i + k) = some l[k] := by
  induction l with
  | nil => intro a i k h; cases h
  | cons s r ih =>
    intro a i k h
    show copyArgs (a.put i (some s)) (i + 1) r (i + k) = _
    cases k with
    | zero =>
      rw [copyArgs_lt _ _ _ _ (by omega)]; exact PArr.put_same _ _ _
    | succ k =>
      rw [show i + (k + 1) = i + 1 + k by omega, ih _ _ _ (by simpa using h)]; rfl

theorem newArgv_ok (stale : PArr) (interp : List Nat) (arg : Option (List Nat)) (path : List Nat)
    (argv : List (List Nat)) (h1 : argv ≠ []) :
    Denotes (newArgv stale interp arg path argv).1 (scriptArgs interp arg path argv) := by
  cases argv with
  | nil => exact absurd rfl h1
  | cons s r =>
    unfold newArgv scriptArgs
    cases arg with
    | none =>
      dsimp only
      simp only [Option.isSome_none, Bool.false_eq_true, if_false, List.drop_succ_cons,
        List.drop_zero, List.nil_append, Option.toList]
      refine ⟨fun i hi => ?_, ?_⟩
      · match i with
        | 0 =>
          rw [PArr.put_other _ _ _ _ (by omega), PArr.put_other _ _ _ _ (by simp),
            copyArgs_lt _ _ _ _ (by omega), PArr.put_same]; rfl
        | 1 => rw [PArr.put_same]; rfl
        | i + 2 =>
          simp only [List.length_cons] at hi
          rw [PArr.put_other _ _ _ _ (by omega), PArr.put_other _ _ _ _ (by simp; omega),
            congrArg (copyArgs _ 1 (s :: r)) (show i + 2 = 1 + (i + 1) by omega),
            copyArgs_at _ _ _ _ (by simp; omega)]
          rfl
      · rw [PArr.put_other _ _ _ _ (by simp)]
        simp only [List.length_cons]
        rw [show 1 + (r.length + 1) = r.length + 1 + 1 by omega, PArr.put_same]
    | some x =>
      dsimp only
      simp only [Option.isSome_some, if_true, List.drop_succ_cons,
        List.drop_zero, Option.toList, List.cons_append, List.nil_append]
      refine ⟨fun i hi => ?_, ?_⟩
      · match i with
        | 0 =>
          rw [PArr.put_other _ _ _ _ (by omega), PArr.put_other _ _ _ _ (by simp),
            copyArgs_lt _ _ _ _ (by omega), PArr.put_other _ _ _ _ (by omega), PArr.put_same]; rfl
        | 1 =>
          rw [PArr.put_other _ _ _ _ (by omega), PArr.put_other _ _ _ _ (by simp; omega),
            copyArgs_lt _ _ _ _ (by omega), PArr.put_same]; rfl
        | 2 => rw [PArr.put_same]; rfl
        | i + 3 =>
          simp only [List.length_cons] at hi
          rw [PArr.put_other _ _ _ _ (by omega), PArr.put_other _ _ _ _ (by simp; omega),
            congrArg (copyArgs _ 2 (s :: r)) (show i + 3 = 2 + (i + 1) by omega),
            copyArgs_at _ _ _ _ (by simp; omega)]
          rfl
      · rw [PArr.put_other _ _ _ _ (by simp)]
        simp only [List.length_cons]
        rw [show 2 + (r.length + 1) = r.length + 1 + 1 + 1 by omega, PArr.put_same]

theorem toList_eq (a : PArr) (l : List (List Nat)) : ∀ (i f : Nat),
    (∀ k (h : k < l.length), a (i + k) = some l[k]) → a (i + l.length) = none → l.length < f →
    toList a i f = l := by
  induction l with
  | nil =>
    intro i f _ h0 hf
    obtain ⟨g, rfl⟩ : ∃ g, f = g + 1 := ⟨f - 1, by simp at hf; omega⟩
    unfold toList
    rw [show a i = none from h0]
  | cons s r ih =>
    intro i f h h0 hf
    simp only [List.length_cons] at hf h0
    obtain ⟨g, rfl⟩ : ∃ g, f = g + 1 := ⟨f - 1, by omega⟩
    unfold toList
    rw [show a i = some s from h 0 (by simp)]
    show s :: _ = _
    rw [ih (i + 1) g (fun k hk => ?_) ?_ (by omega)]
    · rw [show i + 1 + r.length = i + (r.length + 1) by omega]; exact h0
    · have := h (k + 1) (by simpa using hk)
      rw [show i + 1 + k = i + (k + 1) by omega]; exact this

theorem Denotes.toList {a : PArr} {l : List (List Nat)} (h : Denotes a l) (hl : l.length < MAXARGS) :
    toList a 0 MAXARGS = l :=
  toList_eq a l 0 MAXARGS (fun k hk => by rw [Nat.zero_add]; exact h.1 k hk)
    (by rw [Nat.zero_add]; exact h.2) hl

theorem scriptArgs_length (interp : List Nat) (arg : Option (List Nat)) (path : List Nat)
    (argv : List (List Nat)) (h : argv ≠ []) : (scriptArgs interp arg path argv).length =
    argv.length + arg.toList.length + 1 := by
  cases argv with
  | nil => exact absurd rfl h
  | cons s r => cases arg <;> simp [scriptArgs]

theorem newArgv_oob (stale : PArr) (interp : List Nat) (arg : Option (List Nat)) (path : List Nat)
    (argv : List (List Nat))
    (h : argv.length + arg.toList.length ≤ 30) :
    (newArgv stale interp arg path argv).2 = false := by
  cases arg <;> simp [newArgv, MAXARGS] at h ⊢ <;> omega

/-- **C100 (partial).** The interpreter of a script gets exactly: its own path, the argument of
the first line if there is one, the path of the script, the script's own arguments; the array is
terminated and stays within its 32 slots.  Missing: more than 30 arguments in total
(`arg_overflow_violated`) and a caller that passes no `argv[0]` (`empty_argv_violated`). -/
theorem script_args_partial (stale : PArr) (m : Nat → Nat) (path interp : List Nat)
    (arg : Option (List Nat)) (argv : List (List Nat)) (hl : ScriptLine m interp arg)
    (h0 : argv ≠ [])
    (h : argv.length + arg.toList.length ≤ 30) :
    ∃ arr, handleScript stale m path argv = .run interp arr false ∧
      Denotes arr (interp :: (arg.toList ++
        path :: argv.drop 1)) := by
  refine ⟨_, ?_, newArgv_ok stale interp arg path argv h0⟩
  unfold handleScript
  rw [if_neg (by simp [MAXARGS]; omega), script_line_correct hl]
  dsimp only
  rw [newArgv_oob _ _ _ _ _ h]
  rfl

theorem exec_step {fs : List Nat → File} {stale : Nat → PArr} {p v p1 v1} (h : Step fs p v p1 v1)
    (f lvl : Nat) (hl : lvl ≠ MAXREC) :
    execInt fs stale (f + 1) lvl p v = execInt fs stale f (lvl + 1) p1 v1 := by
  obtain ⟨m, a, hf, hs, h0, hn, rfl⟩ := h
  obtain ⟨arr, e, hd⟩ := script_args_partial (stale lvl) m p p1 a v hs h0 hn
  conv => lhs; unfold execInt
  rw [hf]
  dsimp only
  rw [if_neg hl, e]
  dsimp only
  rw [if_neg (by simp), Denotes.toList (l := scriptArgs p1 a p v) hd
    (by rw [scriptArgs_length _ _ _ _ h0]; simp only [MAXARGS]; omega)]

/-- **C100 (partial).** A program, or a script whose interpreter is a script, and so on at most
two levels deep, runs the program at the end of the chain with the arguments of the whole chain. -/
theorem exec_chain_partial {fs : List Nat → File} {stale : Nat → PArr} {n : Nat} {path p : List Nat}
    {argv v : List (List Nat)} (h : Steps fs n path argv p v) (hn : n ≤ 2) (hp : fs p = .elf) :
    exec fs stale path (some argv) = .ran p v := by
  suffices H : ∀ f lvl, lvl + n = 2 ∨ lvl + n ≤ 2 → n < f →
      execInt fs stale f lvl path argv = .ran p v from H 3 0 (by omega) (by omega)
  induction h with
  | refl p v =>
    intro f lvl _ hf
    obtain ⟨g, rfl⟩ : ∃ g, f = g + 1 := ⟨f - 1, by omega⟩
    unfold execInt
    rw [hp]
  | step hs _ ih =>
    intro f lvl hl hf
    obtain ⟨g, rfl⟩ : ∃ g, f = g + 1 := ⟨f - 1, by omega⟩
    rw [exec_step hs g lvl (by simp [MAXREC]; omega)]
    exact ih (by omega) hp g (lvl + 1) (by omega) (by omega)

/-- **C100.** Scripts do not nest without end: when the chain reaches a third script the call
fails with `ELOOP`, whatever the files (scripts that name themselves as interpreter included). -/
theorem exec_loop_ends {fs : List Nat → File} {stale : Nat → PArr} {path p : List Nat}
    {argv v : List (List Nat)} {m : Nat → Nat} (h : Steps fs 2 path argv p v)
    (hp : fs p = .script m) : exec fs stale path (some argv) = .err ELOOP := by
  cases h with
  | step h1 h =>
    cases h with
    | step h2 h =>
      cases h
      show execInt fs stale 3 0 path argv = _
      rw [exec_step h1 2 0 (by decide), exec_step h2 1 1 (by decide)]
      unfold execInt
      rw [hp]
      rfl

/-- **C100.** Without an `argv`, the path is the only argument. -/
theorem exec_default_argv {fs : List Nat → File} {stale : Nat → PArr} {path : List Nat}
    (h : fs path = .elf) : exec fs stale path none = .ran path [path] := by
  unfold exec execInt
  rw [h]; rfl

/-- **C100.** A script is refused with `E2BIG` when it gets more than 30 arguments. -/
theorem script_too_many {fs : List Nat → File} {stale : Nat → PArr} {path : List Nat}
    {m : Nat → Nat} {argv : List (List Nat)} (h : fs path = .script m) (hl : 30 < argv.length) :
    exec fs stale path (some argv) = .err E2BIG := by
  show execInt fs stale 3 0 path argv = _
  unfold execInt
  rw [h]
  dsimp only
  rw [if_neg (by decide)]
  unfold handleScript
  rw [if_pos (by simpa [MAXARGS] using hl)]

/-- **C100 (partial).** A script whose first line does not end within its first 127 bytes is
refused (missing: a blank at index 126). -/
theorem long_line_refused_partial {fs : List Nat → File} {stale : Nat → PArr} {path : List Nat}
    {m : Nat → Nat} {argv : List (List Nat)} (h : fs path = .script m) (hl : argv.length ≤ 30)
    (h6 : m 126 ≠ 32) (hn : ∀ i, i < 127 → m i ≠ 10) :
    exec fs stale path (some argv) = .err ENOEXEC := by
  show execInt fs stale 3 0 path argv = _
  unfold execInt
  rw [h]
  dsimp only
  rw [if_neg (by decide)]
  unfold handleScript
  rw [if_neg (by simp [MAXARGS]; omega), scan_none h6 hn]

/-- **C100 (partial).** Whatever the files contain, `execve` leaves none of its buffers: for at
most 27 arguments, `argv[0]` among them, and first lines without a blank at index 126. -/
theorem exec_in_bounds_partial {fs : List Nat → File} {stale : Nat → PArr} {path : List Nat}
    {argv : List (List Nat)} (h0 : argv ≠ []) (hl : argv.length ≤ 27)
    (h6 : ∀ p m, fs p = .script m → m 126 ≠ 32) : exec fs stale path (some argv) ≠ .broken := by
  suffices H : ∀ f lvl path argv, argv ≠ [] → 3 = f + lvl → 1 ≤ f → argv.length ≤ 27 + 2 * lvl →
      execInt fs stale f lvl path argv ≠ .broken from H 3 0 path argv h0 rfl (by omega) hl
  intro f
  induction f with
  | zero => intro lvl path argv _ _ h; omega
  | succ f ih =>
    intro lvl path argv h0 hf _ hl
    unfold execInt
    cases hp : fs path with
    | elf => simp
    | bad e => simp
    | script m =>
      dsimp only
      by_cases hm : lvl = MAXREC
      · rw [if_pos hm]; simp
      · rw [if_neg hm]
        have hlv : lvl < 2 := by simp only [MAXREC] at hm; omega
        unfold handleScript
        rw [if_neg (by simp only [MAXARGS]; omega), scan_in_bounds_partial m (h6 path m hp)]
        cases (scan m).res with
        | none => simp
        | some ia =>
          obtain ⟨i, a⟩ := ia
          dsimp only
          have hla : argv.length + a.toList.length ≤ 30 := by
            cases a <;> simp <;> omega
          rw [newArgv_oob _ _ _ _ _ hla]
          rw [if_neg (by simp), Denotes.toList (newArgv_ok (stale lvl) i a path argv h0)
            (by rw [scriptArgs_length _ _ _ _ h0]; simp only [MAXARGS]; omega)]
          refine ih (lvl + 1) i _ (by simp [scriptArgs]) (by omega) (by omega) ?_
          rw [scriptArgs_length _ _ _ _ h0]
          cases a <;> simp <;> omega

/-! ### Examples and violations -/

/-- A file with this text. -/
def text (t : List Nat) : Nat → Nat := fun i => t.getD i 0

/-- `/a`: script run by `/b -e`; `/b`: script run by `/c`; `/c`: a program; `/s`: a script that
names itself. -/
def demoFs : List Nat → File := fun p =>
  if p = [47, 97] then .script (text [35, 33, 47, 98, 32, 45, 101, 10])
  else if p = [47, 98] then .script (text [35, 33, 32, 47, 99, 10])
  else if p = [47, 99] then .elf
  else if p = [47, 115] then .script (text [35, 33, 47, 115, 10])
  else .bad 2

theorem demo_a : Step demoFs [47, 97] [[120], [121]] [47, 98] [[47, 98], [45, 101], [47, 97], [121]] := by
  refine ⟨_, some [45, 101], rfl, ⟨0, ?_, by decide, by decide, by decide, ?_⟩, by decide,
    by decide, rfl⟩
  · intro i hi
    have : i < 8 := hi
    revert i; decide
  · intro a e; cases e; decide

theorem demo_b : Step demoFs [47, 98] [[47, 98], [45, 101], [47, 97], [121]] [47, 99]
    [[47, 99], [47, 98], [45, 101], [47, 97], [121]] := by
  refine ⟨_, none, rfl, ⟨1, ?_, by decide, by decide, by decide, nofun⟩, by decide,
    by decide, rfl⟩
  intro i hi
  have : i < 6 := hi
  revert i; decide

example : Steps demoFs 2 [47, 97] [[120], [121]] [47, 99]
    [[47, 99], [47, 98], [45, 101], [47, 97], [121]] :=
  .step demo_a (.step demo_b (.refl _ _))

example : exec demoFs (fun _ _ => none) [47, 97] (some [[120], [121]]) =
    .ran [47, 99] [[47, 99], [47, 98], [45, 101], [47, 97], [121]] :=
  exec_chain_partial (.step demo_a (.step demo_b (.refl _ _))) (by omega) rfl

theorem demo_s (r : List (List Nat)) (h : r.length ≤ 28) : Step demoFs [47, 115] ([0] :: r) [47, 115]
    ([47, 115] :: [47, 115] :: r) := by
  refine ⟨_, none, rfl, ⟨0, ?_, by decide, by decide, by decide, nofun⟩, by simp,
    by simp; omega, rfl⟩
  intro i hi
  have : i < 5 := hi
  revert i; decide

example : exec demoFs (fun _ _ => none) [47, 115] (some [[47, 115]]) = .err ELOOP := by
  decide +kernel

example : exec demoFs (fun _ _ => none) [47, 97] (some (List.replicate 31 [120])) = .err E2BIG :=
  script_too_many rfl (by decide)

/-- The text of an unterminated first line. -/
def longFs : List Nat → File := fun _ => .script (fun i => if i = 0 then 35 else if i = 1 then 33 else 97)

example : exec longFs (fun _ _ => none) [47] (some [[47]]) = .err ENOEXEC :=
  long_line_refused_partial rfl (by decide) (by decide) (by
    intro i _
    show (if i = 0 then 35 else if i = 1 then 33 else 97) ≠ 10
    split
    · decide
    · split <;> decide)

/-- **C100, violated.** A script whose first line has an argument, called with 30 arguments,
makes the kernel write the terminating NULL one slot behind its array of 32 pointers. -/
theorem arg_overflow_violated :
    exec demoFs (fun _ _ => none) [47, 97] (some (List.replicate 30 [120])) = .broken := by
  decide +kernel

/-- **C100, violated.** A caller that passes an empty `argv` loses the terminator: the interpreter
receives whatever arguments an earlier `execve` left in the kernel's array. -/
theorem empty_argv_violated :
    exec demoFs (fun _ i => if i = 2 then some [115, 101, 99, 114, 101, 116] else none) [47, 98]
      (some []) = .ran [47, 99] [[47, 99], [47, 98], [115, 101, 99, 114, 101, 116]] := by
  decide +kernel

/-- The text of a first line with a blank at index 126. -/
def blankHdr : Nat → Nat := fun i =>
  if i = 0 then 35 else if i = 1 then 33 else if i = 126 then 32 else if i = 130 then 10 else 97

/-- **C100, violated.** A blank at index 126 makes the reading of the first line continue behind
the 128-byte buffer, and even write there. -/
theorem blank_at_end_violated : (scan blankHdr).oob = true := by decide +kernel

/-- **C100, violated.** A blank at the end of the first line is passed on as an empty argument:
`#!/c ` runs `/c` with the arguments `/c`, ``, path; so a shell would try to run the script named
by the empty string. -/
theorem trailing_blank_violated :
    scan (text [35, 33, 47, 99, 32, 10]) = ⟨false, some ([47, 99], some [])⟩ := by
  exact scan_text _ 0 [47, 99] (some []) (by decide) (by omega) (by decide)
    (by intro i hi; have : i < 2 := hi; revert i; decide) (by decide) nofun
    (by intro a e; cases e; exact ⟨nofun, by decide, nofun, by decide⟩)

/-- **C100, violated.** Of several blanks before the argument, all but one become part of it. -/
theorem two_blanks_violated :
    scan (text [35, 33, 47, 99, 32, 32, 45, 120, 10]) = ⟨false, some ([47, 99], some [32, 45, 120])⟩ := by
  exact scan_text _ 0 [47, 99] (some [32, 45, 120]) (by decide) (by omega) (by decide)
    (by intro i hi; have : i < 2 := hi; revert i; decide) (by decide) nofun
    (by intro a e; cases e
        exact ⟨by decide, by decide, by intro i hi; have : i < 3 := hi; revert i; decide, by decide⟩)

/-! ### The command line kept for a process -/

/-- `b` with `t` written from `p` on, as far as the buffer reaches. -/
def wr (b : Nat → Nat) (p : Nat) (t : List Nat) : Nat → Nat := fun j =>
  if p ≤ j ∧ j < CMDSZ ∧ j < p + t.length then t.getD (j - p) 0 else b j

theorem wr_nil (b : Nat → Nat) (p : Nat) : wr b p [] = b := by
  funext j
  unfold wr
  exact if_neg (by simp; omega)

theorem wr_full (b : Nat → Nat) (p : Nat) (t : List Nat) (h : CMDSZ ≤ p) : wr b p t = b := by
  funext j
  unfold wr
  exact if_neg (by omega)

theorem wr_append (b : Nat → Nat) (p : Nat) (s t : List Nat) :
    wr (wr b p s) (p + s.length) t = wr b p (s ++ t) := by
  funext j
  unfold wr
  by_cases h1 : p + s.length ≤ j ∧ j < CMDSZ ∧ j < p + s.length + t.length
  · rw [if_pos h1, if_pos ⟨by omega, h1.2.1, by simp; omega⟩]
    rw [List.getD_eq_getElem?_getD, List.getD_eq_getElem?_getD,
      List.getElem?_append_right (by omega)]
    congr 2; omega
  · rw [if_neg h1]
    by_cases h2 : p ≤ j ∧ j < CMDSZ ∧ j < p + s.length
    · rw [if_pos h2, if_pos ⟨h2.1, h2.2.1, by simp; omega⟩, List.getD_eq_getElem?_getD,
        List.getD_eq_getElem?_getD, List.getElem?_append_left (by omega)]
    · rw [if_neg h2, if_neg (by simp; omega)]

theorem wr_one (b : Nat → Nat) (p c : Nat) (h : p < CMDSZ) : put b p c = wr b p [c] := by
  funext j
  unfold wr put
  by_cases e : j = p
  · subst e; rw [if_pos rfl, if_pos ⟨Nat.le_refl _, h, by simp⟩]; simp
  · rw [if_neg e, if_neg (by simp; omega)]

theorem putChars_eq (s : List Nat) : ∀ (b : Nat → Nat) (p : Nat), p ≤ CMDSZ →
    putChars b p s = (wr b p s, min (p + s.length) CMDSZ) := by
  induction s with
  | nil => intro b p h; rw [wr_nil]; simp [putChars]; omega
  | cons c s ih =>
    intro b p h
    unfold putChars
    split
    next hp =>
      rw [ih _ _ (by omega), wr_one b p c hp, show p + 1 = p + [c].length from rfl, wr_append]
      simp only [List.length_cons, List.length_nil, List.cons_append, List.nil_append]
      congr 2; omega
    next hp =>
      rw [wr_full _ _ _ (by omega)]
      simp only [List.length_cons]
      congr 1; omega

theorem putArgs_eq (l : List (List Nat)) : ∀ (b : Nat → Nat) (p : Nat), p ≤ CMDSZ →
    putArgs b p l = (wr b p (cmdline l), min (p + (cmdline l).length) CMDSZ) := by
  induction l with
  | nil => intro b p h; show (b, p) = (wr b p [], min (p + 0) CMDSZ); rw [wr_nil]; congr 1; omega
  | cons s r ih =>
    intro b p h
    have hc : cmdline (s :: r) = s ++ ([32] ++ cmdline r) := by simp [cmdline]
    unfold putArgs
    dsimp only
    rw [putChars_eq s b p h, hc]
    dsimp only
    split
    next he =>
      rw [← wr_append, wr_full _ (p + s.length) _ (by omega)]
      congr 1
      simp only [List.length_append]
      omega
    next he =>
      have hm : min (p + s.length) CMDSZ = p + s.length := by omega
      rw [hm, wr_one _ _ _ (by omega), ih _ _ (by omega), ← wr_append, ← wr_append]
      congr 1
      simp only [List.length_append, List.length_cons, List.length_nil]
      congr 1; omega

/-- **C101.** The command line kept for a process is its arguments, each followed by a blank; if
that does not fit, the first 252 characters and "...".  Nothing but the 256 bytes of the buffer is
written. -/
theorem cmdline_correct (b : Nat → Nat) (argv : List (List Nat)) :
    HasStr (saveCmdline b argv)
      (if (cmdline argv).length < 256 then cmdline argv
       else (cmdline argv).take 252 ++ [46, 46, 46]) ∧
    ∀ i, 256 ≤ i → saveCmdline b argv i = b i := by
  have hC : CMDSZ = 256 := rfl
  unfold saveCmdline
  dsimp only
  rw [putArgs_eq argv b 0 (by omega)]
  dsimp only
  generalize cmdline argv = t
  have hwr : ∀ i (h : i < t.length), i < 256 → wr b 0 t i = t[i] := by
    intro i h hi
    unfold wr
    rw [if_pos ⟨by omega, by omega, by omega⟩]
    simp [h]
  have hout : ∀ i, 256 ≤ i → wr b 0 t i = b i := by
    intro i hi; unfold wr; exact if_neg (by omega)
  by_cases ht : t.length < 256
  · rw [if_pos (by omega), if_pos ht, show min (0 + t.length) CMDSZ = t.length by omega]
    refine ⟨⟨fun i hi => ?_, put_same _ _ _⟩, fun i hi => ?_⟩
    · rw [put_other _ _ _ _ (by omega)]; exact hwr i hi (by omega)
    · rw [put_other _ _ _ _ (by omega)]; exact hout i hi
  · rw [if_neg (by omega), if_neg ht, show min (0 + t.length) CMDSZ = 256 by omega]
    have hl : (t.take 252).length = 252 := by rw [List.length_take]; omega
    refine ⟨⟨fun i hi => ?_, ?_⟩, fun i hi => ?_⟩
    · rw [List.length_append, hl] at hi
      simp only [List.length_cons, List.length_nil] at hi
      by_cases h2 : i < 252
      · rw [put_other _ _ _ _ (by omega), put_other _ _ _ _ (by omega),
          put_other _ _ _ _ (by omega), put_other _ _ _ _ (by omega),
          List.getElem_append_left (by omega), List.getElem_take]
        exact hwr i (by omega) (by omega)
      · rw [List.getElem_append_right (by omega)]
        have : i = 252 ∨ i = 253 ∨ i = 254 := by omega
        rcases this with rfl | rfl | rfl <;> simp [put, hl]
    · rw [List.length_append, hl]
      exact put_same _ _ _
    · rw [put_other _ _ _ _ (by omega), put_other _ _ _ _ (by omega),
        put_other _ _ _ _ (by omega), put_other _ _ _ _ (by omega)]
      exact hout i hi

example : cmdline [[108, 115], [45, 108]] = [108, 115, 32, 45, 108, 32] := rfl

end Verif.Exec
