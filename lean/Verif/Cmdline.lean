import Mathlib.Data.List.Forall2
import Mathlib.Tactic.Tauto
/-!
# The kernel's command line (kernel/cmdline.c)

Properties C153 to C155.  Characters are numbers; the line is the string up to its terminating zero.
`num` is the number parser (`tilck_strtol`, properties of `Itoa`), `sym` the lookup of a symbol of
the kernel (`find_addr_of_symbol`), `dflt` is `TTY_COUNT`.  Messages (`printk`) are not modelled.
-/
namespace Verif.Cmdline

abbrev Word := List Nat

/-- The characters of a string. -/
def str (s : String) : Word := s.toList.map Char.toNat

/-! ## Model -/

/-- include/tilck/common/cmdline_types.h:6-11 `enum kopt_type`; no option has type `ulong`. -/
inductive Ty | bool | long | wordstr
  deriving DecidableEq, Repr

/-- include/tilck/common/cmdline_types.h:14-19 `struct kopt`; `data` is the position in the table. -/
structure Opt where
  name : Word
  short : Word
  ty : Ty

/-- include/tilck/common/cmdline_opts.h:17-32, kernel/cmdline.c:108-110 `all_kopts`. -/
def kopts : List Opt :=
  [⟨str "ttys", [], .long⟩, ⟨str "selftest", [], .wordstr⟩,
   ⟨str "sched_alive_thread", str "sat", .bool⟩, ⟨str "sercon", [], .bool⟩, ⟨str "noacpi", [], .bool⟩,
   ⟨str "fb_no_opt", [], .bool⟩, ⟨str "fb_no_wc", [], .bool⟩, ⟨str "no_fpu_memcpy", [], .bool⟩,
   ⟨str "panic_kb", str "pk", .bool⟩, ⟨str "panic_nobt", str "nobt", .bool⟩,
   ⟨str "panic_regs", str "pr", .bool⟩, ⟨str "panic_mmap", str "pm", .bool⟩,
   ⟨str "big_scroll_buf", str "bb", .bool⟩, ⟨str "ps2_log", str "plg", .bool⟩,
   ⟨str "ps2_selftest", str "pse", .bool⟩]

/-- kernel/cmdline.c:154-158 `enum arg_state`. -/
inductive Mode | initial | waiting | final
  deriving DecidableEq, Repr

/-- kernel/cmdline.c:24, 30-32, 102, 160-163: the options' variables, `args_buf` as far as it is used,
`cmd_args` (offsets in `args_buf`) as far as it is set, the state of the parser. -/
structure St where
  bools : Nat → Bool
  longs : Nat → Int
  strs : Nat → Option Nat
  mem : List Nat
  args : List Nat
  mode : Mode
  last : Option (Nat × Ty)

/-- Outcomes: `panic`; `ub`: a write outside of a buffer, or through a null pointer. -/
inductive Res (α : Type) | ok (a : α) | panic | ub

def Res.bind {α β : Type} : Res α → (α → Res β) → Res β
  | .ok a, f => f a
  | .panic, _ => .panic
  | .ub, _ => .ub

def upd {α : Type} (f : Nat → α) (i : Nat) (v : α) : Nat → α := fun j => if j = i then v else f j

/-- The `memcpy` to `args_buf` (PAGE_SIZE bytes) of kernel/cmdline.c:97-99, 125-127. -/
def push (s : St) (w : Word) : Res St :=
  if s.mem.length + w.length + 1 ≤ 4096 then .ok { s with mem := s.mem ++ w ++ [0] } else .ub

/-- kernel/cmdline.c:41-51 `kopt_handle_bool`. -/
def handleBool (s : St) (i : Nat) (w : Word) : St :=
  if w.head? = some 45 then { s with bools := upd s.bools i true }
  else if w = str "0" ∨ w = str "false" then { s with bools := upd s.bools i false }
  else if w = str "1" ∨ w = str "true" then { s with bools := upd s.bools i true }
  else s

/-- kernel/cmdline.c:53-66 `kopt_handle_long`. -/
def handleLong (num : Word → Option Int) (s : St) (i : Nat) (w : Word) : St :=
  match num w with
  | none => s
  | some n => { s with longs := upd s.longs i n }

/-- kernel/cmdline.c:88-100 `kopt_handle_wordstr`. -/
def handleStr (s : St) (i : Nat) (w : Word) : Res St :=
  if 4096 ≤ s.mem.length + w.length + 1 then .ok s
  else (push s w).bind fun t => .ok { t with strs := upd s.strs i (some s.mem.length) }

/-- kernel/cmdline.c:165-189 `handle_arg_generic`. -/
def generic (num : Word → Option Int) (s : St) (o : Nat × Ty) (w : Word) : Res St :=
  match o.2 with
  | .bool => .ok (handleBool s o.1 w)
  | .long => .ok (handleLong num s o.1 w)
  | .wordstr => handleStr s o.1 w

/-- kernel/cmdline.c:114-128 `handle_cmdline_arg`; `cmd_args` has 16 elements. -/
def cmdArg (s : St) (w : Word) : Res St :=
  if s.args.length = 15 then .panic
  else if 4096 ≤ s.mem.length + w.length + 1 then .panic
  else (push s w).bind fun t =>
    if s.args.length < 16 then .ok { t with args := s.args ++ [s.mem.length] } else .ub

/-- kernel/cmdline.c:34-38 `kopt_is_bool_value`. -/
def isBool (w : Word) : Bool :=
  decide (w = str "0" ∨ w = str "false" ∨ w = str "1" ∨ w = str "true")

/-- kernel/cmdline.c:242-253: the search of the table. -/
def find (w : Word) : Nat → List Opt → Option (Nat × Ty)
  | _, [] => none
  | i, o :: r =>
    if w.head? ≠ some 45 then find w (i + 1) r
    else if w.drop 1 = o.name then some (i, o.ty)
    else if o.short ≠ [] ∧ w.drop 1 = o.short then some (i, o.ty)
    else find w (i + 1) r

/-- kernel/cmdline.c:191-275 `use_kernel_arg`. -/
def useArg (num : Word → Option Int) (s : St) (w : Word) : Res St :=
  match s.mode with
  | .final => cmdArg s w
  | .waiting =>
    match s.last with
    | none => .ub
    | some o => (generic num s o w).bind fun t => .ok { t with mode := .initial }
  | .initial =>
    if isBool w then
      match s.last with
      | some (i, .bool) => (generic num s (i, .bool) w).bind fun t => .ok { t with last := none }
      | _ => .ok s
    else if w = str "-cmd" ∨ w = str "--" then .ok { s with mode := .final }
    else
      match find w 0 kopts with
      | none => .ok s
      | some (i, ty) =>
        if ty = .bool then generic num { s with last := some (i, ty) } (i, ty) w
        else .ok { s with last := some (i, ty), mode := .waiting }

/-- kernel/cmdline.c:300-309 `end_arg`: the terminating zero goes to `buf`, of 256 characters. -/
def endArg (num : Word → Option Int) (s : St) (buf : Word) : Res St :=
  if buf.length < 256 then useArg num s buf else .ub

/-- kernel/cmdline.c:489-511: the loop over the characters. -/
def go (num : Word → Option Int) (s : St) (buf : Word) : List Nat → Res St
  | [] => if buf = [] then .ok s else endArg num s buf
  | c :: r =>
    if c = 32 then
      if buf = [] then go num s [] r else (endArg num s buf).bind fun t => go num t [] r
    else if 255 ≤ buf.length then
      (endArg num s buf).bind fun t => go num t [] (r.dropWhile (· ≠ 32))
    else if buf.length < 256 then go num s (buf ++ [c]) r
    else .ub
  termination_by l => l.length
  decreasing_by
    all_goals simp only [List.length_cons]
    all_goals first
      | omega
      | exact Nat.lt_succ_of_le (List.dropWhile_suffix _).length_le

/-- The string that starts at an offset of `args_buf`. -/
def cstr (mem : List Nat) (off : Nat) : Word := (mem.drop off).takeWhile (· ≠ 0)

/-- What the line has set. -/
structure Boot where
  flags : Nat → Bool
  ttys : Int
  test : Option Nat
  cmd : List Word

/-- kernel/cmdline.c:277-298 `do_args_validation`; 130-152 `handle_selftest_kopt`: the `strcat` goes to
a buffer of 256 characters. -/
def finish (sym : Word → Option Nat) (dflt : Int) (s : St) : Res Boot :=
  let t0 := if s.bools 3 then 1 else s.longs 0
  let t := if t0 ≤ 0 ∨ 9 < t0 then dflt else t0
  let cmd := if s.args = [] then [str "/initrd/bin/init"] else s.args.map (cstr s.mem)
  match s.strs 1 with
  | none => .ok ⟨s.bools, t, none, cmd⟩
  | some off =>
    if (str "selftest_").length + (cstr s.mem off).length + 1 ≤ 256 then
      .ok ⟨s.bools, t, sym (str "selftest_" ++ cstr s.mem off), cmd⟩
    else .ub

/-- The state at boot: the options have their defaults. -/
def init (bools : Nat → Bool) (dflt : Int) : St :=
  ⟨bools, fun i => if i = 0 then dflt else 0, fun _ => none, [], [], .initial, none⟩

/-- kernel/cmdline.c:476-515 `parse_kernel_cmdline`. -/
def parse (num : Word → Option Int) (sym : Word → Option Nat) (bools : Nat → Bool) (dflt : Int)
    (line : List Nat) : Res Boot :=
  (go num (init bools dflt) [] line).bind (finish sym dflt)

/-! ## Specification -/

/-- The words of a line: separated by spaces, at most 255 characters of each. -/
def words (l : List Nat) : List Word :=
  if h : l.dropWhile (· = 32) = [] then []
  else ((l.dropWhile (· = 32)).takeWhile (· ≠ 32)).take 255 ::
    words ((l.dropWhile (· = 32)).dropWhile (· ≠ 32))
  termination_by l.length
  decreasing_by
    have h1 : (l.dropWhile (· = 32)).length ≤ l.length := (List.dropWhile_suffix _).length_le
    have h2 : ((l.dropWhile (· = 32)).dropWhile (· ≠ 32)).length < (l.dropWhile (· = 32)).length := by
      cases e : l.dropWhile (· = 32) with
      | nil => exact absurd e h
      | cons c r =>
        have hc : ¬ c = 32 := by
          have := List.head?_dropWhile_not (· = 32) l
          rw [e] at this; simpa using this
        rw [List.dropWhile_cons_of_pos (by simpa using hc)]
        exact Nat.lt_succ_of_le (List.dropWhile_suffix _).length_le
    omega

inductive Key | ttys | selftest | flag (i : Nat)
  deriving DecidableEq, Repr

/-- How the options are written. -/
def spellings : List (Word × Key) :=
  [(str "-ttys", .ttys), (str "-selftest", .selftest), (str "-sched_alive_thread", .flag 2),
   (str "-sat", .flag 2), (str "-sercon", .flag 3), (str "-noacpi", .flag 4),
   (str "-fb_no_opt", .flag 5), (str "-fb_no_wc", .flag 6), (str "-no_fpu_memcpy", .flag 7),
   (str "-panic_kb", .flag 8), (str "-pk", .flag 8), (str "-panic_nobt", .flag 9),
   (str "-nobt", .flag 9), (str "-panic_regs", .flag 10), (str "-pr", .flag 10),
   (str "-panic_mmap", .flag 11), (str "-pm", .flag 11), (str "-big_scroll_buf", .flag 12),
   (str "-bb", .flag 12), (str "-ps2_log", .flag 13), (str "-plg", .flag 13),
   (str "-ps2_selftest", .flag 14), (str "-pse", .flag 14)]

def key (w : Word) : Option Key := (spellings.find? fun p => p.1 = w).map (·.2)

def truth (w : Word) : Option Bool :=
  if w = str "true" ∨ w = str "1" then some true
  else if w = str "false" ∨ w = str "0" then some false else none

def Marks (w : Word) : Prop := w = str "-cmd" ∨ w = str "--"
instance (w : Word) : Decidable (Marks w) := by unfold Marks; infer_instance

/-- What a line says. -/
structure Cfg where
  flags : Nat → Bool
  ttys : Int
  selftest : Option Word
  command : List Word

/-- The meaning of the words: a flag can have a truth value as its argument and is set without one,
`-ttys` and `-selftest` have an argument, `-cmd` or `--` is followed by the command to run.  Other words
mean nothing. -/
def interp (num : Word → Option Int) (c : Cfg) : List Word → Cfg
  | [] => c
  | [w] =>
    match key w with
    | some (.flag i) => { c with flags := fun j => if j = i then true else c.flags j }
    | _ => c
  | w :: v :: r =>
    if Marks w then { c with command := v :: r }
    else match key w with
      | some (.flag i) =>
        match truth v with
        | some b => interp num { c with flags := fun j => if j = i then b else c.flags j } r
        | none => interp num { c with flags := fun j => if j = i then true else c.flags j } (v :: r)
      | some .ttys => interp num { c with ttys := (num v).getD c.ttys } r
      | some .selftest => interp num { c with selftest := some v } r
      | none => interp num c (v :: r)

/-- A truth value stands where an option is expected. -/
def Stray : List Word → Prop
  | [] => False
  | [w] => truth w ≠ none
  | w :: v :: r =>
    if Marks w then False
    else truth w ≠ none ∨ match key w with
      | some (.flag _) =>
        match truth v with
        | some _ => Stray r
        | none => Stray (v :: r)
      | some _ => Stray r
      | none => Stray (v :: r)

/-- What the kernel does with it: one console with `-sercon`, 1 to 9 consoles otherwise; the test
`selftest_...`; the command, /initrd/bin/init if there is none. -/
def boot (sym : Word → Option Nat) (dflt : Int) (c : Cfg) : Boot :=
  { flags := c.flags
    ttys := if c.flags 3 = true then (1 : Int) else if 1 ≤ c.ttys ∧ c.ttys ≤ 9 then c.ttys else dflt
    test := c.selftest.bind fun w => sym (str "selftest_" ++ w)
    cmd := if c.command = [] then [str "/initrd/bin/init"] else c.command }

/-! ## The words -/

def run (num : Word → Option Int) (s : St) : List Word → Res St
  | [] => .ok s
  | w :: r => (useArg num s w).bind fun t => run num t r

/-- The words of the rest of a line, part of the first being read. -/
def toks (buf : Word) (l : List Nat) : List Word :=
  if buf = [] then words l
  else (buf ++ l.takeWhile (· ≠ 32)).take 255 :: words (l.dropWhile (· ≠ 32))

theorem words_nil : words [] = [] := by rw [words]; simp

theorem words_space (r : List Nat) : words (32 :: r) = words r := by
  rw [words.eq_1 (32 :: r), words.eq_1 r]
  have : (32 :: r).dropWhile (· = 32) = r.dropWhile (· = 32) := by
    rw [List.dropWhile_cons_of_pos (by simp)]
  rw [this]

theorem words_cons {c : Nat} (hc : c ≠ 32) (r : List Nat) :
    words (c :: r) = (c :: r.takeWhile (· ≠ 32)).take 255 :: words (r.dropWhile (· ≠ 32)) := by
  rw [words]
  have h1 : (c :: r).dropWhile (· = 32) = c :: r := by
    rw [List.dropWhile_cons_of_neg (by simpa using hc)]
  have h2 : (c :: r).takeWhile (· ≠ 32) = c :: r.takeWhile (· ≠ 32) := by
    rw [List.takeWhile_cons_of_pos (by simpa using hc)]
  have h3 : (c :: r).dropWhile (· ≠ 32) = r.dropWhile (· ≠ 32) := by
    rw [List.dropWhile_cons_of_pos (by simpa using hc)]
  rw [h1, h2, h3]
  simp

theorem ok_bind {α β : Type} (a : α) (f : α → Res β) : (Res.ok a).bind f = f a := rfl

theorem bind_ok {α : Type} (r : Res α) : (r.bind fun t => .ok t) = r := by cases r <;> rfl

theorem go_run (num : Word → Option Int) (n : Nat) : ∀ (l : List Nat) (s : St) (buf : Word),
    l.length ≤ n → buf.length ≤ 255 → go num s buf l = run num s (toks buf l) := by
  induction n with
  | zero =>
    intro l s buf hl hb
    have : l = [] := List.eq_nil_of_length_eq_zero (by omega)
    subst this
    rw [go]
    by_cases h : buf = []
    · rw [if_pos h, toks, if_pos h, words_nil]; rfl
    · rw [if_neg h, toks, if_neg h, endArg, if_pos (by omega)]
      simp only [List.takeWhile_nil, List.append_nil, List.dropWhile_nil, words_nil]
      rw [List.take_of_length_le (by omega), run]
      exact (bind_ok _).symm
  | succ n ih =>
    intro l s buf hl hb
    cases l with
    | nil => exact (by
        rw [go]
        by_cases h : buf = []
        · rw [if_pos h, toks, if_pos h, words_nil]; rfl
        · rw [if_neg h, toks, if_neg h, endArg, if_pos (by omega)]
          simp only [List.takeWhile_nil, List.append_nil, List.dropWhile_nil, words_nil]
          rw [List.take_of_length_le (by omega), run]
          exact (bind_ok _).symm)
    | cons c r =>
      have hr : r.length ≤ n := by simpa using hl
      have hi : ∀ t : St, go num t [] r = run num t (words r) := by
        intro t; rw [ih r t [] hr (by simp), toks, if_pos rfl]
      rw [go]
      by_cases hc : c = 32
      · subst hc
        rw [if_pos rfl]
        by_cases h : buf = []
        · rw [if_pos h, toks, if_pos h, words_space, hi]
        · rw [if_neg h, toks, if_neg h, endArg, if_pos (by omega)]
          rw [List.takeWhile_cons_of_neg (by simp), List.dropWhile_cons_of_neg (by simp), words_space,
            List.append_nil, List.take_of_length_le (by omega), run]
          congr 1; funext t; exact hi t
      · rw [if_neg hc]
        by_cases h255 : 255 ≤ buf.length
        · have hne : buf ≠ [] := by intro h; rw [h] at h255; simp at h255
          rw [if_pos h255, toks, if_neg hne, endArg, if_pos (by omega)]
          have h3 : (c :: r).dropWhile (· ≠ 32) = r.dropWhile (· ≠ 32) := by
            rw [List.dropWhile_cons_of_pos (by simpa using hc)]
          have h4 : (buf ++ (c :: r).takeWhile (· ≠ 32)).take 255 = buf := by
            rw [List.take_append_of_le_length h255, List.take_of_length_le (by omega)]
          rw [h3, h4, run]
          congr 1; funext t
          rw [ih _ t [] (Nat.le_trans (List.dropWhile_suffix _).length_le hr) (by simp), toks, if_pos rfl]
        · rw [if_neg h255, if_pos (by omega),
            ih r s (buf ++ [c]) hr (by simp only [List.length_append, List.length_singleton]; omega)]
          congr 1
          have h0 : buf ++ [c] ≠ [] := by simp
          have h2 : (c :: r).takeWhile (· ≠ 32) = c :: r.takeWhile (· ≠ 32) := by
            rw [List.takeWhile_cons_of_pos (by simpa using hc)]
          have h3 : (c :: r).dropWhile (· ≠ 32) = r.dropWhile (· ≠ 32) := by
            rw [List.dropWhile_cons_of_pos (by simpa using hc)]
          rw [toks, if_neg h0]
          by_cases h : buf = []
          · rw [toks, if_pos h, words_cons hc, h]; rfl
          · rw [toks, if_neg h, h2, h3]; simp

theorem parse_eq (num : Word → Option Int) (sym : Word → Option Nat) (bools : Nat → Bool) (dflt : Int)
    (line : List Nat) :
    parse num sym bools dflt line =
      (run num (init bools dflt) (words line)).bind (finish sym dflt) := by
  unfold parse
  rw [go_run num _ line _ [] (Nat.le_refl _) (by simp), toks, if_pos rfl]

def tot (ws : List Word) : Nat := (ws.map fun w => w.length + 1).sum

theorem words_tot (n : Nat) : ∀ l : List Nat, l.length ≤ n → tot (words l) ≤ l.length + 1 := by
  induction n with
  | zero =>
    intro l hl
    have : l = [] := List.eq_nil_of_length_eq_zero (by omega)
    subst this; rw [words_nil]; simp [tot]
  | succ n ih =>
    intro l hl
    cases l with
    | nil => rw [words_nil]; simp [tot]
    | cons c r =>
      have hr : r.length ≤ n := by simpa using hl
      by_cases hc : c = 32
      · subst hc; rw [words_space]; have := ih r hr; simp only [List.length_cons]; omega
      · rw [words_cons hc]
        have hsum : (r.takeWhile (· ≠ 32)).length + (r.dropWhile (· ≠ 32)).length = r.length := by
          rw [← List.length_append, List.takeWhile_append_dropWhile]
        have ht : ((c :: r.takeWhile (· ≠ 32)).take 255).length ≤ (r.takeWhile (· ≠ 32)).length + 1 := by
          simp only [List.length_take, List.length_cons]; omega
        show _ + tot (words (r.dropWhile (· ≠ 32))) ≤ _
        have hd : tot (words (r.dropWhile (· ≠ 32))) ≤ (r.dropWhile (· ≠ 32)).length := by
          cases e : r.dropWhile (· ≠ 32) with
          | nil => rw [words_nil]; simp [tot]
          | cons d q =>
            have hd : d = 32 := by
              have := List.head?_dropWhile_not (· ≠ 32) r
              rw [e] at this; simpa using this
            subst hd
            rw [words_space]
            have hq : q.length + 1 ≤ r.length := by
              have := (List.dropWhile_suffix (l := r) (fun x : Nat => decide (x ≠ 32))).length_le
              rw [e] at this; simpa using this
            have := ih q (by omega)
            simpa using this
        simp only [List.length_cons]
        omega

theorem words_nz (n : Nat) : ∀ l : List Nat, l.length ≤ n → 0 ∉ l → ∀ w ∈ words l, 0 ∉ w := by
  induction n with
  | zero =>
    intro l hl _
    have : l = [] := List.eq_nil_of_length_eq_zero (by omega)
    subst this; rw [words_nil]; simp
  | succ n ih =>
    intro l hl h0
    cases l with
    | nil => rw [words_nil]; simp
    | cons c r =>
      have hr : r.length ≤ n := by simpa using hl
      have h0r : 0 ∉ r := fun h => h0 (List.mem_cons_of_mem _ h)
      by_cases hc : c = 32
      · subst hc; rw [words_space]; exact ih r hr h0r
      · rw [words_cons hc]
        intro w hw
        rcases List.mem_cons.mp hw with g | g
        · subst g
          intro h
          rcases List.mem_cons.mp (List.mem_of_mem_take h) with k | k
          · exact h0 (k ▸ List.mem_cons_self ..)
          · exact h0r ((List.takeWhile_prefix _).subset k)
        · exact ih _ (Nat.le_trans (List.dropWhile_suffix _).length_le hr)
            (fun h => h0r ((List.dropWhile_suffix _).subset h)) w g

/-! ## The options -/

def toOpt : Key → Nat × Ty
  | .ttys => (0, .long)
  | .selftest => (1, .wordstr)
  | .flag i => (i, .bool)

def flat : Nat → List Opt → List (Word × (Nat × Ty))
  | _, [] => []
  | i, o :: r =>
    (45 :: o.name, (i, o.ty)) ::
      ((if o.short = [] then [] else [(45 :: o.short, (i, o.ty))]) ++ flat (i + 1) r)

theorem find_flat (w : Word) (l : List Opt) (i : Nat) :
    find w i l = ((flat i l).find? fun p => p.1 = w).map (·.2) := by
  induction l generalizing i with
  | nil => rfl
  | cons o r ih =>
    rw [find, flat]
    by_cases h : w.head? = some 45
    · rw [if_neg (by simp [h])]
      obtain ⟨v, rfl⟩ : ∃ v, w = 45 :: v := by
        cases w with
        | nil => simp at h
        | cons c v => simp at h; exact ⟨v, by rw [h]⟩
      simp only [List.drop_one, List.tail_cons]
      by_cases h1 : v = o.name
      · rw [if_pos h1, List.find?_cons_of_pos (by simp [h1])]; rfl
      · rw [if_neg h1, List.find?_cons_of_neg (by simp; exact fun e => h1 e.symm)]
        by_cases h2 : o.short = []
        · rw [if_neg (by simp [h2]), if_pos h2, List.nil_append]; exact ih _
        · rw [if_neg h2]
          by_cases h3 : v = o.short
          · rw [if_pos ⟨h2, h3⟩, List.singleton_append, List.find?_cons_of_pos (by simp [h3])]; rfl
          · rw [if_neg (by simp [h3]), List.singleton_append,
              List.find?_cons_of_neg (by simp; exact fun e => h3 e.symm)]; exact ih _
    · rw [if_pos h, ih]
      rw [List.find?_cons_of_neg (by simp; intro e; subst e; simp at h)]
      by_cases h2 : o.short = []
      · rw [if_pos h2, List.nil_append]
      · rw [if_neg h2, List.singleton_append,
          List.find?_cons_of_neg (by simp; intro e; subst e; simp at h)]

theorem flat_kopts : flat 0 kopts = spellings.map fun p => (p.1, toOpt p.2) := by decide +kernel

theorem find_key (w : Word) : find w 0 kopts = (key w).map toOpt := by
  rw [find_flat, flat_kopts, key, List.find?_map]
  have : (fun p : Word × (Nat × Ty) => decide (p.1 = w)) ∘ (fun p : Word × Key => (p.1, toOpt p.2))
      = fun p => decide (p.1 = w) := by funext p; rfl
  rw [this]
  cases spellings.find? fun p => decide (p.1 = w) <;> rfl

theorem key_head {w : Word} {k : Key} (h : key w = some k) : w.head? = some 45 := by
  unfold key at h
  have hall : (spellings.all fun p => p.1.head? == some 45) = true := by decide +kernel
  cases e : spellings.find? (fun p => p.1 = w) with
  | none => rw [e] at h; simp at h
  | some p =>
    have h1 := List.find?_some e
    have h2 := List.mem_of_find?_eq_some e
    have h3 := List.all_eq_true.mp hall p h2
    simp at h1 h3
    rw [← h1]; exact h3

theorem isBool_truth (w : Word) : isBool w = true ↔ truth w ≠ none := by
  unfold isBool truth
  by_cases h1 : w = str "true" ∨ w = str "1"
  · rw [if_pos h1]; simp; tauto
  · rw [if_neg h1]
    by_cases h2 : w = str "false" ∨ w = str "0"
    · rw [if_pos h2]; simp; tauto
    · rw [if_neg h2]; simp; tauto

theorem truth_head {w : Word} {b : Bool} (h : truth w = some b) : w.head? ≠ some 45 ∧
    (b = false → w = str "0" ∨ w = str "false") ∧
    (b = true → ¬ (w = str "0" ∨ w = str "false") ∧ (w = str "1" ∨ w = str "true")) := by
  unfold truth at h
  by_cases h1 : w = str "true" ∨ w = str "1"
  · rw [if_pos h1] at h
    have := Option.some.inj h
    subst this
    rcases h1 with h1 | h1 <;> subst h1 <;> exact ⟨by decide +kernel, by decide +kernel, by decide +kernel⟩
  · rw [if_neg h1] at h
    by_cases h2 : w = str "false" ∨ w = str "0"
    · rw [if_pos h2] at h
      have := Option.some.inj h
      subst this
      rcases h2 with h2 | h2 <;> subst h2 <;> exact ⟨by decide +kernel, by decide +kernel, by decide +kernel⟩
    · rw [if_neg h2] at h; exact absurd h (by simp)

/-! ## The buffer of the arguments -/

def Stored (mem : List Nat) (off : Nat) (w : Word) : Prop :=
  ∃ pre post, mem = pre ++ (w ++ 0 :: post) ∧ pre.length = off

theorem stored_new (mem : List Nat) (w : Word) : Stored (mem ++ w ++ [0]) mem.length w :=
  ⟨mem, [], by simp, rfl⟩

theorem stored_mono {mem : List Nat} {off : Nat} {w : Word} (x : List Nat) (h : Stored mem off w) :
    Stored (mem ++ x) off w := by
  obtain ⟨pre, post, h1, h2⟩ := h
  exact ⟨pre, post ++ x, by rw [h1]; simp, h2⟩

theorem stored_read {mem : List Nat} {off : Nat} {w : Word} (h : Stored mem off w) (h0 : 0 ∉ w) :
    cstr mem off = w := by
  obtain ⟨pre, post, h1, h2⟩ := h
  unfold cstr
  rw [h1, ← h2, List.drop_left, List.takeWhile_append_of_pos]
  · simp
  · intro a ha
    simp only [decide_eq_true_eq]
    intro e; subst e; exact h0 ha

theorem stored_len {mem : List Nat} {off : Nat} {w : Word} (h : Stored mem off w) :
    (cstr mem off).length ≤ w.length := by
  obtain ⟨pre, post, h1, h2⟩ := h
  unfold cstr
  rw [h1, ← h2, List.drop_left]
  clear h1
  induction w with
  | nil => simp
  | cons c w ih =>
    rw [List.cons_append]
    by_cases hc : c = 0
    · rw [List.takeWhile_cons_of_neg (by simp [hc])]; simp
    · rw [List.takeWhile_cons_of_pos (by simpa using hc)]; simpa using ih

/-! ## Simulation -/

def TestR (mem : List Nat) : Option Nat → Option Word → Prop
  | none, none => True
  | some off, some w => Stored mem off w ∧ 0 ∉ w
  | _, _ => False

structure R (s : St) (c : Cfg) : Prop where
  flags : s.bools = c.flags
  ttys : s.longs 0 = c.ttys
  test : TestR s.mem (s.strs 1) c.selftest
  cmd : List.Forall₂ (fun off w => Stored s.mem off w ∧ 0 ∉ w) s.args c.command

theorem forall2_mono {mem x : List Nat} {a : List Nat} {b : List Word}
    (h : List.Forall₂ (fun off w => Stored mem off w ∧ 0 ∉ w) a b) :
    List.Forall₂ (fun off w => Stored (mem ++ x) off w ∧ 0 ∉ w) a b :=
  h.imp fun _ _ ⟨h1, h2⟩ => ⟨stored_mono x h1, h2⟩

theorem test_mono {mem x : List Nat} {a : Option Nat} {b : Option Word} (h : TestR mem a b) :
    TestR (mem ++ x) a b := by
  cases a <;> cases b <;> first | exact h | exact ⟨stored_mono x h.1, h.2⟩

theorem forall2_snoc {α β : Type} {P : α → β → Prop} {a : List α} {b : List β} {x : α} {y : β}
    (h : List.Forall₂ P a b) (hxy : P x y) : List.Forall₂ P (a ++ [x]) (b ++ [y]) := by
  induction h with
  | nil => exact .cons hxy .nil
  | cons h1 _ ih => exact .cons h1 ih

theorem forall2_len {α β : Type} {P : α → β → Prop} {a : List α} {b : List β}
    (h : List.Forall₂ P a b) : a.length = b.length := by
  induction h with
  | nil => rfl
  | cons _ _ ih => simp [ih]

theorem tot_cons (w : Word) (r : List Word) : tot (w :: r) = w.length + 1 + tot r := rfl

def Outcome (r : Res St) (c : Cfg) : Prop :=
  if c.command.length ≤ 15 then ∃ s, r = .ok s ∧ R s c else r = .panic

theorem sim_final (num : Word → Option Int) : ∀ (ws : List Word) (s : St) (c : Cfg), R s c →
    s.mode = .final → s.args.length ≤ 15 → (∀ w ∈ ws, 0 ∉ w) → s.mem.length + tot ws ≤ 4095 →
    Outcome (run num s ws) { c with command := c.command ++ ws } := by
  intro ws
  induction ws with
  | nil =>
    intro s c h hm ha _ _
    unfold Outcome
    have hl := forall2_len h.cmd
    rw [if_pos (by simp; omega)]
    exact ⟨s, rfl, ⟨h.flags, h.ttys, h.test, by simpa using h.cmd⟩⟩
  | cons w ws ih =>
    intro s c h hm ha h0 ht
    rw [tot_cons] at ht
    have hl := forall2_len h.cmd
    rw [run, useArg, hm]
    dsimp only
    unfold cmdArg
    by_cases h15 : s.args.length = 15
    · rw [if_pos h15]
      unfold Outcome
      rw [if_neg (by simp; omega)]; rfl
    · rw [if_neg h15, if_neg (by omega), push, if_pos (by omega)]
      show Outcome ((if s.args.length < 16 then _ else _ : Res St).bind _) _
      rw [if_pos (by omega)]
      have := ih { s with mem := s.mem ++ w ++ [0], args := s.args ++ [s.mem.length] }
        { c with command := c.command ++ [w] }
        ⟨h.flags, h.ttys, by
          have := test_mono (x := w ++ [0]) h.test
          rw [← List.append_assoc] at this; exact this, by
          refine forall2_snoc ?_ ⟨stored_new s.mem w, h0 w (by simp)⟩
          have := forall2_mono (x := w ++ [0]) h.cmd
          rw [← List.append_assoc] at this; exact this⟩
        hm (by simp only [List.length_append, List.length_singleton]; omega)
        (fun v hv => h0 v (List.mem_cons_of_mem _ hv))
        (by simp only [List.length_append, List.length_singleton]; omega)
      have e : ({ c with command := c.command ++ [w] } : Cfg).command ++ ws = c.command ++ w :: ws := by simp
      rw [e] at this
      exact this

theorem marks_facts {w : Word} (h : Marks w) : truth w = none ∧ key w = none := by
  rcases h with h | h <;> subst h <;> exact ⟨by decide +kernel, by decide +kernel⟩

theorem isBool_false {w : Word} (h : truth w = none) : isBool w = false := by
  cases e : isBool w with
  | false => rfl
  | true => exact absurd h ((isBool_truth w).mp e)

/-- One flag. -/
theorem use_flag (num : Word → Option Int) {s : St} {w : Word} {i : Nat} (hm : s.mode = .initial)
    (ht : truth w = none) (hk : key w = some (.flag i)) :
    useArg num s w = .ok { s with last := some (i, .bool), bools := upd s.bools i true } := by
  have hnm : ¬ (w = str "-cmd" ∨ w = str "--") := by
    intro h; have := (marks_facts h).2; rw [this] at hk; exact absurd hk (by simp)
  rw [useArg, hm]
  dsimp only
  rw [isBool_false ht, if_neg (by simp), if_neg hnm, find_key, hk]
  show (if Ty.bool = Ty.bool then _ else _) = _
  rw [if_pos rfl]
  show Res.ok (handleBool _ i w) = _
  unfold handleBool
  rw [if_pos (key_head hk)]

theorem use_valued (num : Word → Option Int) {s : St} {w : Word} {k : Key} (hm : s.mode = .initial)
    (ht : truth w = none) (hk : key w = some k) (hb : (toOpt k).2 ≠ .bool) :
    useArg num s w = .ok { s with last := some (toOpt k), mode := .waiting } := by
  have hnm : ¬ (w = str "-cmd" ∨ w = str "--") := by
    intro h; have := (marks_facts h).2; rw [this] at hk; exact absurd hk (by simp)
  rw [useArg, hm]
  dsimp only
  rw [isBool_false ht, if_neg (by simp), if_neg hnm, find_key, hk]
  show (if (toOpt k).2 = Ty.bool then _ else _) = _
  rw [if_neg hb]
  cases k <;> rfl

theorem use_none (num : Word → Option Int) {s : St} {w : Word} (hm : s.mode = .initial)
    (ht : truth w = none) (hk : key w = none) (hnm : ¬ Marks w) :
    useArg num s w = .ok s := by
  rw [useArg, hm]
  dsimp only
  rw [isBool_false ht, if_neg (by simp), if_neg (show ¬ (w = str "-cmd" ∨ w = str "--") from hnm), find_key, hk]
  rfl

theorem use_mark (num : Word → Option Int) {s : St} {w : Word} (hm : s.mode = .initial)
    (h : Marks w) : useArg num s w = .ok { s with mode := .final } := by
  rw [useArg, hm]
  dsimp only
  rw [isBool_false (marks_facts h).1, if_neg (by simp), if_pos (show w = str "-cmd" ∨ w = str "--" from h)]

theorem use_truth (num : Word → Option Int) {s : St} {v : Word} {i : Nat} {b : Bool}
    (hm : s.mode = .initial) (hl : s.last = some (i, .bool)) (ht : truth v = some b) :
    useArg num s v = .ok { s with last := none, bools := upd s.bools i b } := by
  rw [useArg, hm]
  dsimp only
  have hb : isBool v = true := (isBool_truth v).mpr (by rw [ht]; simp)
  rw [if_pos hb, hl]
  show (Res.ok (handleBool s i v)).bind _ = _
  obtain ⟨g1, g2, g3⟩ := truth_head ht
  unfold handleBool
  cases b with
  | false => rw [if_neg g1, if_pos (g2 rfl)]; simp only [Res.bind, hm]
  | true => rw [if_neg g1, if_neg (g3 rfl).1, if_pos (g3 rfl).2]; simp only [Res.bind, hm]

theorem sim (num : Word → Option Int) (n : Nat) : ∀ (ws : List Word) (s : St) (c : Cfg),
    ws.length ≤ n → R s c → s.mode = .initial → c.command = [] → (∀ w ∈ ws, 0 ∉ w) →
    s.mem.length + tot ws ≤ 4095 → ¬ Stray ws → Outcome (run num s ws) (interp num c ws) := by
  induction n with
  | zero =>
    intro ws s c hn h hm hc _ _ _
    have : ws = [] := List.eq_nil_of_length_eq_zero (by omega)
    subst this
    rw [interp, run]; unfold Outcome; rw [if_pos (by rw [hc]; simp)]
    exact ⟨s, rfl, h⟩
  | succ n ih =>
    intro ws s c hn h hm hc h0 ht hs
    match ws with
    | [] =>
      rw [interp, run]; unfold Outcome; rw [if_pos (by rw [hc]; simp)]
      exact ⟨s, rfl, h⟩
    | [w] =>
      have htr : truth w = none := Decidable.not_not.mp hs
      rw [run, interp]
      unfold Outcome
      have base : ∀ (x : St), R x c → ∃ s', (Res.ok x).bind (fun t => run num t []) = .ok s' ∧ R s' c :=
        fun x hx => ⟨x, rfl, hx⟩
      by_cases hmk : Marks w
      · rw [use_mark num hm hmk, (marks_facts hmk).2]
        rw [if_pos (by rw [hc]; simp)]
        exact base _ ⟨h.flags, h.ttys, h.test, h.cmd⟩
      · cases hk : key w with
        | none =>
          rw [use_none num hm htr hk hmk]
          dsimp only
          rw [if_pos (by rw [hc]; simp)]
          exact base _ h
        | some k =>
          cases k with
          | flag i =>
            rw [use_flag num hm htr hk]
            dsimp only
            rw [if_pos (by rw [hc]; simp)]
            refine ⟨_, rfl, ⟨?_, h.ttys, h.test, h.cmd⟩⟩
            show upd s.bools i true = _
            rw [h.flags]; rfl
          | ttys =>
            rw [use_valued num hm htr hk (by simp [toOpt])]
            dsimp only
            rw [if_pos (by rw [hc]; simp)]
            exact base _ ⟨h.flags, h.ttys, h.test, h.cmd⟩
          | selftest =>
            rw [use_valued num hm htr hk (by simp [toOpt])]
            dsimp only
            rw [if_pos (by rw [hc]; simp)]
            exact base _ ⟨h.flags, h.ttys, h.test, h.cmd⟩
    | w :: v :: r =>
      have h0r : ∀ x ∈ r, 0 ∉ x := fun x hx => h0 x (by simp [hx])
      have h0v : ∀ x ∈ v :: r, 0 ∉ x := fun x hx => h0 x (List.mem_cons_of_mem _ hx)
      rw [tot_cons] at ht
      simp only [List.length_cons] at hn
      rw [run, interp]
      rw [Stray] at hs
      by_cases hmk : Marks w
      · rw [use_mark num hm hmk, if_pos hmk]
        have := sim_final num (v :: r) { s with mode := .final } c ⟨h.flags, h.ttys, h.test, h.cmd⟩ rfl
          (by show s.args.length ≤ 15; rw [forall2_len h.cmd, hc]; simp) h0v
          (by show s.mem.length + tot (v :: r) ≤ 4095; omega)
        rw [hc, List.nil_append] at this
        exact this
      · rw [if_neg hmk]
        rw [if_neg hmk] at hs
        have htr : truth w = none := Decidable.not_not.mp (fun e => hs (Or.inl e))
        have hs2 := fun e => hs (Or.inr e)
        cases hk : key w with
        | none =>
          rw [hk] at hs2
          rw [use_none num hm htr hk hmk]
          exact ih (v :: r) s c (by simp only [List.length_cons]; omega) h hm hc h0v (by omega) hs2
        | some k =>
          rw [hk] at hs2
          cases k with
          | flag i =>
            dsimp only at hs2 ⊢
            rw [use_flag num hm htr hk]
            rw [ok_bind]
            cases hv : truth v with
            | none =>
              rw [hv] at hs2
              refine ih (v :: r) _ _ (by simp only [List.length_cons]; omega)
                ⟨?_, h.ttys, h.test, h.cmd⟩ hm hc h0v (by show s.mem.length + _ ≤ _; omega) hs2
              show upd s.bools i true = _
              rw [h.flags]; rfl
            | some b =>
              rw [hv] at hs2
              rw [run, use_truth num (s := { s with last := some (i, .bool), bools := upd s.bools i true })
                (i := i) (b := b) hm rfl hv]
              rw [tot_cons] at ht
              refine ih r _ _ (by omega)
                ⟨?_, h.ttys, h.test, h.cmd⟩ hm hc h0r (by show s.mem.length + _ ≤ _; omega) hs2
              show upd (upd s.bools i true) i b = fun j => if j = i then b else c.flags j
              rw [h.flags]
              funext j
              unfold upd
              by_cases hj : j = i
              · rw [if_pos hj, if_pos hj]
              · rw [if_neg hj, if_neg hj, if_neg hj]
          | ttys =>
            dsimp only at hs2 ⊢
            rw [use_valued num hm htr hk (by simp [toOpt])]
            rw [ok_bind, run, useArg]
            show Outcome (((Res.ok (handleLong num _ 0 v)).bind _).bind _) _
            rw [tot_cons] at ht
            unfold handleLong
            cases hnv : num v with
            | none =>
              exact ih r { s with last := some (toOpt .ttys), mode := .initial } c (by omega)
                ⟨h.flags, h.ttys, h.test, h.cmd⟩ rfl hc h0r (by show s.mem.length + _ ≤ _; omega) hs2
            | some x =>
              exact ih r { s with longs := upd s.longs 0 x, last := some (toOpt .ttys), mode := .initial }
                { c with ttys := x } (by omega)
                ⟨h.flags, rfl, h.test, h.cmd⟩ rfl hc h0r (by show s.mem.length + _ ≤ _; omega) hs2
          | selftest =>
            dsimp only at hs2 ⊢
            rw [use_valued num hm htr hk (by simp [toOpt])]
            rw [ok_bind, run, useArg]
            show Outcome (((handleStr _ 1 v).bind _).bind _) _
            rw [tot_cons] at ht
            unfold handleStr
            rw [if_neg (by show ¬ 4096 ≤ s.mem.length + v.length + 1; omega), push,
              if_pos (by show s.mem.length + v.length + 1 ≤ 4096; omega)]
            refine ih r (St.mk s.bools s.longs (upd s.strs 1 (some s.mem.length)) (s.mem ++ v ++ [0])
              s.args .initial (some (toOpt .selftest))) { c with selftest := some v } (by omega)
              ⟨h.flags, h.ttys, ?_, ?_⟩ rfl hc h0r
              (by simp only [List.length_append, List.length_singleton]; omega) hs2
            · exact ⟨stored_new s.mem v, h0 v (by simp)⟩
            · show List.Forall₂ _ s.args c.command
              rw [List.append_assoc]
              exact forall2_mono h.cmd

/-! ## Theorems -/

/-- What a line says, starting from the defaults. -/
def meaning (num : Word → Option Int) (bools : Nat → Bool) (dflt : Int) (line : List Nat) : Cfg :=
  interp num ⟨bools, dflt, none, []⟩ (words line)

theorem init_R (bools : Nat → Bool) (dflt : Int) : R (init bools dflt) ⟨bools, dflt, none, []⟩ :=
  ⟨rfl, rfl, trivial, .nil⟩

theorem map_stored {mem : List Nat} {a : List Nat} {b : List Word}
    (h : List.Forall₂ (fun off w => Stored mem off w ∧ 0 ∉ w) a b) : a.map (cstr mem) = b := by
  induction h with
  | nil => rfl
  | cons h1 _ ih => rw [List.map_cons, ih, stored_read h1.1 h1.2]

theorem run_meaning (num : Word → Option Int) (bools : Nat → Bool) (dflt : Int) (line : List Nat)
    (h0 : 0 ∉ line) (hl : line.length < 4095) (hs : ¬ Stray (words line)) :
    Outcome (run num (init bools dflt) (words line)) (meaning num bools dflt line) := by
  refine sim num _ (words line) _ _ (Nat.le_refl _) (init_R bools dflt) rfl rfl
    (words_nz _ line (Nat.le_refl _) h0) ?_ hs
  have := words_tot _ line (Nat.le_refl _)
  show 0 + _ ≤ _
  omega

/-- **C153.** A command line of less than 4095 characters is understood as its words say. -/
theorem parse_correct_partial (num : Word → Option Int) (sym : Word → Option Nat) (bools : Nat → Bool)
    (dflt : Int) (line : List Nat) (h0 : 0 ∉ line) (hl : line.length < 4095)
    (hs : ¬ Stray (words line)) (hc : (meaning num bools dflt line).command.length ≤ 15)
    (ht : ∀ w, (meaning num bools dflt line).selftest = some w → w.length ≤ 246) :
    parse num sym bools dflt line = .ok (boot sym dflt (meaning num bools dflt line)) := by
  have h := run_meaning num bools dflt line h0 hl hs
  unfold Outcome at h
  rw [if_pos hc] at h
  obtain ⟨s, h1, h2⟩ := h
  rw [parse_eq, h1]
  show finish sym dflt s = _
  generalize meaning num bools dflt line = c at *
  unfold finish boot
  have hcmd : (if s.args = [] then [str "/initrd/bin/init"] else s.args.map (cstr s.mem)) =
      if c.command = [] then [str "/initrd/bin/init"] else c.command := by
    have e := map_stored h2.cmd
    have e2 : s.args = [] ↔ c.command = [] := by
      rw [← e]; simp
    rw [e]; simp only [e2]
  have htt : (if (if s.bools 3 = true then 1 else s.longs 0) ≤ 0 ∨
        9 < (if s.bools 3 = true then 1 else s.longs 0) then dflt
        else (if s.bools 3 = true then 1 else s.longs 0)) =
      if c.flags 3 = true then (1 : Int) else if 1 ≤ c.ttys ∧ c.ttys ≤ 9 then c.ttys else dflt := by
    rw [h2.flags, h2.ttys]
    by_cases hf : c.flags 3 = true
    · rw [if_pos hf, if_pos hf, if_neg (by decide)]
    · rw [if_neg hf, if_neg hf]
      by_cases hr : 1 ≤ c.ttys ∧ c.ttys ≤ 9
      · rw [if_pos hr, if_neg (by omega)]
      · rw [if_neg hr, if_pos (by omega)]
  dsimp only
  rw [hcmd, htt, h2.flags]
  have hte := h2.test
  cases e1 : s.strs 1 with
  | none =>
    rw [e1] at hte
    cases e2 : c.selftest with
    | none => rfl
    | some w => rw [e2] at hte; exact absurd hte (by simp [TestR])
  | some off =>
    rw [e1] at hte
    cases e2 : c.selftest with
    | none => rw [e2] at hte; exact absurd hte (by simp [TestR])
    | some w =>
      rw [e2] at hte
      have hr := stored_read hte.1 hte.2
      dsimp only
      rw [hr]
      have hw := ht w e2
      have h9 : (str "selftest_").length = 9 := by decide +kernel
      rw [if_pos (by rw [h9]; omega)]
      rfl

/-- **C153.** More than 15 words of command stop the kernel. -/
theorem too_many_stops (num : Word → Option Int) (sym : Word → Option Nat) (bools : Nat → Bool)
    (dflt : Int) (line : List Nat) (h0 : 0 ∉ line) (hl : line.length < 4095)
    (hs : ¬ Stray (words line)) (hc : 15 < (meaning num bools dflt line).command.length) :
    parse num sym bools dflt line = .panic := by
  have h := run_meaning num bools dflt line h0 hl hs
  unfold Outcome at h
  rw [if_neg (by omega)] at h
  rw [parse_eq, h]; rfl

/-! ## Safety -/

structure J (s : St) : Prop where
  wait : s.mode = .waiting → s.last ≠ none
  args : s.args.length ≤ 15
  test : ∀ off, s.strs 1 = some off → ∃ w, Stored s.mem off w ∧ w.length ≤ 246

def Fine : Res St → Prop
  | .ok s => J s
  | .panic => True
  | .ub => False

theorem fine_bind {r : Res St} {f : St → Res St} (h : Fine r) (hf : ∀ t, r = .ok t → J t → Fine (f t)) :
    Fine (r.bind f) := by
  cases r with
  | ok t => exact hf t rfl h
  | panic => trivial
  | ub => exact h

theorem handleBool_J {s : St} (h : J s) (i : Nat) (w : Word) :
    J (handleBool s i w) ∧ (handleBool s i w).mode = s.mode ∧ (handleBool s i w).last = s.last := by
  unfold handleBool
  split
  · exact ⟨⟨h.wait, h.args, h.test⟩, rfl, rfl⟩
  · split
    · exact ⟨⟨h.wait, h.args, h.test⟩, rfl, rfl⟩
    · split
      · exact ⟨⟨h.wait, h.args, h.test⟩, rfl, rfl⟩
      · exact ⟨h, rfl, rfl⟩

theorem generic_fine (num : Word → Option Int) {s : St} (h : J s) (o : Nat × Ty) (w : Word)
    (hw : w.length ≤ 246) : Fine (generic num s o w) := by
  unfold generic
  split
  · exact (handleBool_J h _ _).1
  · show J _
    unfold handleLong
    split
    · exact h
    · exact ⟨h.wait, h.args, h.test⟩
  · unfold handleStr
    split
    · exact h
    · next hl =>
      rw [push, if_pos (by omega)]
      refine ⟨h.wait, h.args, ?_⟩
      intro off hoff
      have hoff : upd s.strs o.1 (some s.mem.length) 1 = some off := hoff
      unfold upd at hoff
      by_cases e : 1 = o.1
      · rw [if_pos e] at hoff
        have := Option.some.inj hoff
        subst this
        exact ⟨w, stored_new s.mem w, hw⟩
      · rw [if_neg e] at hoff
        obtain ⟨v, g1, g2⟩ := h.test off hoff
        refine ⟨v, ?_, g2⟩
        show Stored (s.mem ++ w ++ [0]) off v
        rw [List.append_assoc]
        exact stored_mono _ g1

theorem useArg_fine (num : Word → Option Int) {s : St} (h : J s) (w : Word) (hw : w.length ≤ 246) :
    Fine (useArg num s w) := by
  unfold useArg
  split
  · unfold cmdArg
    split
    · trivial
    · split
      · trivial
      · next h1 h2 =>
        rw [push, if_pos (by omega)]
        show Fine (if s.args.length < 16 then _ else _)
        have := h.args
        rw [if_pos (by omega)]
        refine ⟨h.wait, by simp only [List.length_append, List.length_singleton]; omega, ?_⟩
        intro off hoff
        obtain ⟨v, g1, g2⟩ := h.test off hoff
        refine ⟨v, ?_, g2⟩
        show Stored (s.mem ++ w ++ [0]) off v
        rw [List.append_assoc]
        exact stored_mono _ g1
  · next hm =>
    split
    · next hn => exact absurd hn (h.wait hm)
    · exact fine_bind (generic_fine num h _ w hw) fun t _ ht => ⟨by simp, ht.args, ht.test⟩
  · next hm =>
    split
    · split
      · exact fine_bind (generic_fine num h _ w hw) fun t e ht => by
          refine ⟨?_, ht.args, ht.test⟩
          intro hmt
          have hmt : t.mode = .waiting := hmt
          have e := Res.ok.inj (show Res.ok (handleBool s _ w) = Res.ok t from e)
          rw [← e, (handleBool_J h _ w).2.1, hm] at hmt
          exact absurd hmt (by simp)
      · exact h
    · split
      · exact ⟨by simp, h.args, h.test⟩
      · split
        · exact h
        · split
          · exact generic_fine num (s := { s with last := some (_, _) })
              ⟨fun _ => Option.some_ne_none _, h.args, h.test⟩ _ w hw
          · exact ⟨by simp, h.args, h.test⟩

theorem run_fine (num : Word → Option Int) (ws : List Word) : ∀ (s : St), J s →
    (∀ w ∈ ws, w.length ≤ 246) → Fine (run num s ws) := by
  induction ws with
  | nil => intro s h _; exact h
  | cons w r ih =>
    intro s h hw
    exact fine_bind (useArg_fine num h w (hw w (by simp))) fun t _ ht =>
      ih t ht fun v hv => hw v (List.mem_cons_of_mem _ hv)

/-- **C154.** Whatever the command line, nothing is written outside of a buffer, if no word of it is
longer than 246 characters. -/
theorem safe_partial (num : Word → Option Int) (sym : Word → Option Nat) (bools : Nat → Bool)
    (dflt : Int) (line : List Nat) (hw : ∀ w ∈ words line, w.length ≤ 246) :
    parse num sym bools dflt line ≠ .ub := by
  rw [parse_eq]
  have h := run_fine num (words line) (init bools dflt)
    ⟨by simp [init], by simp [init], by simp [init]⟩ hw
  cases e : run num (init bools dflt) (words line) with
  | ub => rw [e] at h; exact absurd h (by simp [Fine])
  | panic => simp [Res.bind]
  | ok s =>
    rw [e] at h
    have h : J s := h
    show finish sym dflt s ≠ .ub
    unfold finish
    dsimp only
    cases e1 : s.strs 1 with
    | none => simp
    | some off =>
      obtain ⟨w, g1, g2⟩ := h.test off e1
      have h9 : (str "selftest_").length = 9 := by decide +kernel
      have := stored_len g1
      dsimp only
      rw [h9, if_pos (by omega)]
      simp

def isUb {α : Type} : Res α → Bool
  | .ub => true
  | _ => false

def longName : List Nat := str "-selftest " ++ List.replicate 247 97

/-- **C154 (violated).** The name of a self test of 247 characters is written behind the end of a buffer
on the stack. -/
theorem selftest_overflow_violated (num : Word → Option Int) (sym : Word → Option Nat)
    (bools : Nat → Bool) (dflt : Int) : parse num sym bools dflt longName = .ub := by
  have hw : words longName = [str "-selftest", List.replicate 247 97] := by
    unfold longName
    have e : str "-selftest " ++ List.replicate 247 97
      = [45, 115, 101, 108, 102, 116, 101, 115, 116, 32] ++ List.replicate 247 97 := by decide +kernel
    rw [e]
    show words (45 :: _) = _
    rw [words_cons (by decide)]
    have t1 : ((45 : Nat) :: List.takeWhile (fun x => decide (x ≠ 32)) ([115, 101, 108, 102, 116, 101, 115,
      116, 32] ++ List.replicate 247 97)).take 255 = str "-selftest" := by decide +kernel
    have t2 : List.dropWhile (fun x => decide (x ≠ 32)) ([115, 101, 108, 102, 116, 101, 115,
      116, 32] ++ List.replicate 247 97) = 32 :: 97 :: List.replicate 246 97 := by decide +kernel
    have e1 := congrArg₂ (fun a b => a :: words b) t1 t2
    refine e1.trans ?_
    show str "-selftest" :: words _ = _
    rw [words_space, words_cons (by decide)]
    have t3 : ((97 : Nat) :: List.takeWhile (fun x => decide (x ≠ 32)) (List.replicate 246 97)).take 255 =
      List.replicate 247 97 := by decide +kernel
    have t4 : List.dropWhile (fun x => decide (x ≠ 32)) (List.replicate 246 (97 : Nat)) = [] := by
      decide +kernel
    rw [t3, t4, words_nil]
  rw [parse_eq, hw]
  have hk : key (str "-selftest") = some .selftest := by decide +kernel
  rw [run, use_valued num (s := init bools dflt) rfl (by decide +kernel) hk (by simp [toOpt])]
  rw [ok_bind, run, useArg]
  dsimp only
  show (((((handleStr _ 1 _).bind _).bind _).bind _)) = Res.ub
  have h247 : (List.replicate 247 97).length = 247 := by decide +kernel
  generalize hx : List.replicate 247 97 = x at *
  rw [handleStr, if_neg (by show ¬ 4096 ≤ 0 + x.length + 1; omega), push,
    if_pos (by show 0 + x.length + 1 ≤ 4096; omega)]
  rw [ok_bind, ok_bind, ok_bind, run, ok_bind]
  have hl : (cstr ([] ++ x ++ [0]) 0).length = 247 := by
    subst hx; decide +kernel
  have h9 : (str "selftest_").length = 9 := by decide +kernel
  unfold finish
  show (if (str "selftest_").length + (cstr ([] ++ x ++ [0]) 0).length + 1 ≤ 256
    then _ else Res.ub) = _
  rw [hl, h9]; rfl

/-- The line `-pk x false`. -/
def staleLine : List Nat := str "-pk x false"

def flagOf : Res Boot → Option Bool
  | .ok b => some (b.flags 8)
  | _ => none

/-- **C155 (violated).** A value that does not belong to any option changes the option before: in
`-pk x false` the word `x` is not understood, `false` is a stray value, and yet the flag is off. -/
theorem stale_option_violated (num : Word → Option Int) (sym : Word → Option Nat) (dflt : Int) :
    flagOf (parse num sym (fun _ => false) dflt staleLine) = some false ∧
    (meaning num (fun _ => false) dflt staleLine).flags 8 = true := by
  have hw : words staleLine = [str "-pk", str "x", str "false"] := by
    have e : staleLine = [45, 112, 107, 32, 120, 32, 102, 97, 108, 115, 101] := by decide +kernel
    rw [e, words_cons (by decide)]
    show _ :: words (32 :: 120 :: _) = _
    rw [words_space, words_cons (by decide)]
    show _ :: _ :: words (32 :: 102 :: _) = _
    rw [words_space, words_cons (by decide)]
    show _ :: _ :: _ :: words [] = _
    rw [words_nil]
    decide +kernel
  have k1 : key (str "-pk") = some (.flag 8) := by decide +kernel
  have k2 : key (str "x") = none := by decide +kernel
  have k3 : key (str "false") = none := by decide +kernel
  have m1 : ¬ Marks (str "-pk") := by decide +kernel
  have m2 : ¬ Marks (str "x") := by decide +kernel
  have q1 : truth (str "x") = none := by decide +kernel
  have q2 : truth (str "-pk") = none := by decide +kernel
  have q3 : truth (str "false") = some false := by decide +kernel
  constructor
  · rw [parse_eq, hw, run, use_flag num (s := init (fun _ => false) dflt) rfl q2 k1]
    rw [ok_bind, run, use_none num rfl q1 k2 m2]
    rw [ok_bind, run, use_truth num rfl rfl q3]
    rfl
  · unfold meaning
    rw [hw, interp, if_neg m1, k1]
    dsimp only
    rw [q1]
    dsimp only
    rw [interp, if_neg m2, k2]
    dsimp only
    rw [interp, k3]
    rfl

/-- A line with options and a command. -/
example : meaning (fun w => if w = str "4" then some 4 else none) (fun _ => false) 2
      (str "tilck -pk -ttys 4  -cmd /bin/sh -c") =
    ⟨fun j => if j = 8 then true else false, 4, none, [str "/bin/sh", str "-c"]⟩ ∧
    ¬ Stray (words (str "tilck -pk -ttys 4  -cmd /bin/sh -c")) := by
  have hw : words (str "tilck -pk -ttys 4  -cmd /bin/sh -c") =
      [str "tilck", str "-pk", str "-ttys", str "4", str "-cmd", str "/bin/sh", str "-c"] := by
    decide +kernel
  have k0 : key (str "tilck") = none := by decide +kernel
  have k1 : key (str "-pk") = some (.flag 8) := by decide +kernel
  have k2 : key (str "-ttys") = some .ttys := by decide +kernel
  have m0 : ¬ Marks (str "tilck") := by decide +kernel
  have m1 : ¬ Marks (str "-pk") := by decide +kernel
  have m2 : ¬ Marks (str "-ttys") := by decide +kernel
  have m3 : Marks (str "-cmd") := by decide +kernel
  have q0 : truth (str "tilck") = none := by decide +kernel
  have q1 : truth (str "-pk") = none := by decide +kernel
  have q2 : truth (str "-ttys") = none := by decide +kernel
  constructor
  · unfold meaning
    rw [hw, interp, if_neg m0, k0]; dsimp only
    rw [interp, if_neg m1, k1]; dsimp only
    rw [q2]; dsimp only
    rw [interp, if_neg m2, k2]; dsimp only
    rw [interp, if_pos m3, if_pos rfl]; rfl
  · rw [hw, Stray, if_neg m0, k0, q0]; simp only [ne_eq, not_true_eq_false, false_or]
    rw [Stray, if_neg m1, k1, q1]; simp only [ne_eq, not_true_eq_false, false_or]
    rw [q2]; dsimp only
    rw [Stray, if_neg m2, k2, q2]; simp only [ne_eq, not_true_eq_false, false_or]
    rw [Stray, if_pos m3]; exact fun h => h


end Verif.Cmdline
