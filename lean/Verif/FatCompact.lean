import Verif.Fat

/-!
# Compaction of a FAT volume

Model of `fat_compact_clusters`, `fat_compact_walk_cb` and of `fat_walk` as it uses it
(common/fat32_base.c:245-342 and 754-838).

The volume is its first FAT, a function from cluster numbers to the values of the entries (reading and
writing them is the subject of `Verif.Fat`), and the contents of its clusters. What a cluster's bytes are
is left open: a type `C` with the two things the code does with them, reading them as directory entries and
changing the first cluster of an entry (`Fmt`). Cluster number 0, which holds no data, stands for the fixed
root directory of FAT16. Simplifications: only the first FAT exists (the code never writes the others);
reading the FAT beyond its end, which the code does when no cluster is free, stops the search there: the
code only uses the result if it is below a cluster in use.
-/

namespace Verif.FatCompact

/-- How `fat_walk` and the callback classify a slot of a directory (fat32_base.c:281-295, 772-778): entries
that are skipped (long names, labels, deleted), the end mark, `.` and `..`, and the rest. -/
inductive Kind | skip | last | dot | normal
deriving DecidableEq, Repr

/-- `struct fat_entry` (fat32_base.h:76-102); `info` stands for the name, size, dates and so on. -/
structure Ent where
  info : Nat
  kind : Kind
  dir : Bool
  first : Nat
deriving DecidableEq, Repr

/-- Clusters as directories: the entries in one, `fat_get_first_cluster` and `fat_set_first_cluster`
(fat32_base.h:187-196). -/
structure Fmt (C : Type) where
  ents : C → List Ent
  setFirst : C → Nat → Nat → C
  law : ∀ c i v, ents (setFirst c i v) = (ents c).modify i (fun e => { e with first := v })

/-- The volume and `compact_ctx.ffc` (fat32_base.c:754-758). -/
structure St (C : Type) where
  fat : Nat → Nat
  data : Nat → C
  ffc : Nat

def upd {A : Type} (f : Nat → A) (k : Nat) (v : A) : Nat → A := fun x => if x = k then v else f x

/-- `while (fat_read_fat_entry(ffc)) ffc++` (fat32_base.c:785-787) and the loop of lines 824-827, looking
at no more than `k` entries. -/
def scan (fat : Nat → Nat) : Nat → Nat → Nat
  | 0, f => f
  | k + 1, f => if fat f = 0 then f else scan fat k (f + 1)

section
variable {C : Type} (o : Fmt C) (eoc : Nat → Bool) (lim : Nat)

/-- The body of `if (clu > ctx->ffc)` (fat32_base.c:789-803), for the entry in slot `i` of cluster `cM`. -/
def move (cM i first last clu f : Nat) (s : St C) : St C :=
  let next := s.fat clu
  let data1 := upd s.data f (s.data clu)
  let data2 := if clu = first then upd data1 cM (o.setFirst (data1 cM) i f) else data1
  let fat1 := if clu = first then s.fat else upd s.fat last f
  { fat := upd (upd fat1 f next) clu 0, data := data2, ffc := f + 1 }

/-- The loop over the clusters of a file (fat32_base.c:780-808); `k` bounds their number. `lim` is one
more than the highest cluster number. -/
def chainLoop (cM i first : Nat) : Nat → Nat → Nat → St C → St C
  | 0, _, _, s => s
  | k + 1, last, clu, s =>
    let next := s.fat clu
    let f := scan s.fat (lim - s.ffc) s.ffc
    if clu > f then
      if eoc next then move o cM i first last clu f s
      else chainLoop cM i first k f next (move o cM i first last clu f s)
    else
      if eoc next then { s with ffc := f }
      else chainLoop cM i first k clu next { s with ffc := f }

/-- Slot `i` of the entries `l`. -/
def slot (l : List Ent) (i : Nat) : Ent := l.getD i ⟨0, .skip, false, 0⟩

/-- `fat_compact_walk_cb` (fat32_base.c:760-816) for the entry in slot `i` of cluster `cM`; `walkF` is
`fat_walk`. -/
def cb (walkF : Nat → St C → St C) (cM i : Nat) (s : St C) : St C :=
  let e := slot (o.ents (s.data cM)) i
  if e.kind = .dot then s
  else
    let s1 := chainLoop o eoc lim cM i e.first lim 0 e.first s
    if e.dir then walkF (slot (o.ents (s1.data cM)) i).first s1 else s1

/-- The loop of `fat_walk` over the slots of a cluster (fat32_base.c:279-317), `k` of them from `i` on; the
flag tells whether the end mark was found. The callback always returns 0. -/
def walkEnts (cbF : Nat → Nat → St C → St C) (cM : Nat) : Nat → Nat → St C → St C × Bool
  | 0, _, s => (s, false)
  | k + 1, i, s =>
    match (slot (o.ents (s.data cM)) i).kind with
    | .skip => walkEnts cbF cM k (i + 1) s
    | .last => (s, true)
    | .dot => walkEnts cbF cM k (i + 1) (cbF cM i s)
    | .normal => walkEnts cbF cM k (i + 1) (cbF cM i s)

/-- The loop of `fat_walk` over the clusters of a directory (fat32_base.c:264-339); `k` bounds their
number. -/
def walkChain (cbF : Nat → Nat → St C → St C) : Nat → Nat → St C → St C
  | 0, _, s => s
  | k + 1, cM, s =>
    match walkEnts o cbF cM (o.ents (s.data cM)).length 0 s with
    | (s', true) => s'
    | (s', false) =>
      if cM = 0 then s'
      else if eoc (s'.fat cM) then s'
      else walkChain cbF k (s'.fat cM) s'

/-- `fat_walk` with `fat_compact_walk_cb` (they call each other); `d` bounds the depth of the recursion. -/
def walk : Nat → Nat → St C → St C
  | 0 => walkChain o eoc (cb o eoc lim (fun _ s => s)) lim
  | d + 1 => walkChain o eoc (cb o eoc lim (walk d)) lim

/-- `fat_compact_clusters` (fat32_base.c:818-838); `root` is the first cluster of the root directory, or 0
on FAT16. -/
def compact (d root : Nat) (fat : Nat → Nat) (data : Nat → C) : St C :=
  walk o eoc lim d root { fat := fat, data := data, ffc := scan fat (lim - 2) 0 }

end

/-! ### Specification: the tree of files stored in a volume -/

/-- Files with their contents, directories with what is in them. -/
inductive Tree (C : Type)
  | file (info : Nat) (content : List C)
  | dir (info : Nat) (kids : List (Tree C))

/-- The files and directories among the slots of a cluster, and whether the end mark is among them. -/
def visC : List Ent → List Ent × Bool
  | [] => ([], false)
  | e :: l =>
    match e.kind with
    | .skip => visC l
    | .dot => visC l
    | .last => ([], true)
    | .normal => (e :: (visC l).1, (visC l).2)

/-- The files and directories in a directory stored in the clusters `cs`. -/
def visOf {C : Type} (o : Fmt C) (data : Nat → C) : List Nat → List Ent
  | [] => []
  | c :: cs =>
    if (visC (o.ents (data c))).2 then (visC (o.ents (data c))).1
    else (visC (o.ents (data c))).1 ++ visOf o data cs

/-- The clusters of the list are linked in this order, and the last one is marked as such. -/
def Links (eoc : Nat → Bool) (lim : Nat) (fat : Nat → Nat) : List Nat → Prop
  | [] => False
  | [c] => 2 ≤ c ∧ c < lim ∧ eoc (fat c) = true
  | c :: d :: l => 2 ≤ c ∧ c < lim ∧ eoc (fat c) = false ∧ fat c = d ∧ Links eoc lim fat (d :: l)

/-- `cs` is the chain of clusters that begins with `v`. -/
def Chain (eoc : Nat → Bool) (lim : Nat) (fat : Nat → Nat) (v : Nat) (cs : List Nat) : Prop :=
  cs.head? = some v ∧ Links eoc lim fat cs

/-- The entries of the first list store the files and directories of the second, nested at most `d` deep,
in the clusters of the third. -/
inductive Rep {C : Type} (o : Fmt C) (eoc : Nat → Bool) (lim : Nat) (fat : Nat → Nat) (data : Nat → C) :
    Nat → List Ent → List (Tree C) → List Nat → Prop
  | nil {d} : Rep o eoc lim fat data d [] [] []
  | empty {d e es ts cl} : e.dir = false → e.first = 0 → Rep o eoc lim fat data d es ts cl →
      Rep o eoc lim fat data d (e :: es) (.file e.info [] :: ts) cl
  | file {d e es ts cl cs} : e.dir = false → Chain eoc lim fat e.first cs → Rep o eoc lim fat data d es ts cl →
      Rep o eoc lim fat data d (e :: es) (.file e.info (cs.map data) :: ts) (cs ++ cl)
  | dir {d e es ts cl cs kids ck} : e.dir = true → Chain eoc lim fat e.first cs →
      Rep o eoc lim fat data d (visOf o data cs) kids ck → Rep o eoc lim fat data (d + 1) es ts cl →
      Rep o eoc lim fat data (d + 1) (e :: es) (.dir e.info kids :: ts) ((cs ++ ck) ++ cl)

/-! ### Frames -/

section
variable {C : Type} {o : Fmt C} {eoc : Nat → Bool} {lim : Nat}

theorem upd_same {A : Type} (f : Nat → A) (k : Nat) (v : A) : upd f k v k = v := if_pos rfl
theorem upd_other {A : Type} {f : Nat → A} {k x : Nat} {v : A} (h : x ≠ k) : upd f k v x = f x := if_neg h

theorem links_congr {fat fat' : Nat → Nat} : ∀ {l : List Nat}, (∀ c ∈ l, fat' c = fat c) →
    Links eoc lim fat l → Links eoc lim fat' l
  | [], _, h => h
  | [c], hc, h => by
    have e := hc c (by simp)
    unfold Links at *
    rw [e]; exact h
  | c :: d :: l, hc, h => by
    have e := hc c (by simp)
    unfold Links at *
    rw [e]
    exact ⟨h.1, h.2.1, h.2.2.1, h.2.2.2.1, links_congr (fun x hx => hc x (by simp [hx])) h.2.2.2.2⟩

theorem chain_congr {fat fat' : Nat → Nat} {v : Nat} {l : List Nat} (hc : ∀ c ∈ l, fat' c = fat c)
    (h : Chain eoc lim fat v l) : Chain eoc lim fat' v l := ⟨h.1, links_congr hc h.2⟩

theorem visOf_congr {data data' : Nat → C} : ∀ {cs : List Nat}, (∀ c ∈ cs, data' c = data c) →
    visOf o data' cs = visOf o data cs
  | [], _ => rfl
  | c :: cs, h => by
    unfold visOf
    rw [h c (by simp), visOf_congr (fun x hx => h x (by simp [hx]))]

/-- What is stored depends only on the clusters it is stored in. -/
theorem rep_congr {fat fat' : Nat → Nat} {data data' : Nat → C} {d es ts cl}
    (h : Rep o eoc lim fat data d es ts cl) :
    (∀ c ∈ cl, fat' c = fat c ∧ data' c = data c) → Rep o eoc lim fat' data' d es ts cl := by
  induction h with
  | nil => intro _; exact .nil
  | empty h1 h2 _ ih => intro hc; exact .empty h1 h2 (ih hc)
  | @file d e es ts cl cs h1 h2 _ ih =>
    intro hc
    have e : cs.map data = cs.map data' :=
      List.map_congr_left (fun c hm => ((hc c (by simp [hm])).2).symm)
    rw [e]
    exact .file h1 (chain_congr (fun c hm => (hc c (by simp [hm])).1) h2) (ih (fun c hm => hc c (by simp [hm])))
  | @dir d e es ts cl cs kids ck h1 h2 _ _ ih1 ih2 =>
    intro hc
    have ev : visOf o data' cs = visOf o data cs := visOf_congr (fun c hm => (hc c (by simp [hm])).2)
    refine .dir h1 (chain_congr (fun c hm => (hc c (by simp [hm])).1) h2) ?_ (ih2 (fun c hm => hc c (by simp [hm])))
    rw [ev]
    exact ih1 (fun c hm => hc c (by simp [hm]))

theorem rep_cons {fat : Nat → Nat} {data : Nat → C} {d e es t ts cl}
    (h : Rep o eoc lim fat data d (e :: es) (t :: ts) cl) :
    ∃ c1 c2, cl = c1 ++ c2 ∧ Rep o eoc lim fat data d [e] [t] c1 ∧ Rep o eoc lim fat data d es ts c2 := by
  cases h with
  | empty h1 h2 h3 => exact ⟨[], cl, rfl, .empty h1 h2 .nil, h3⟩
  | @file _ _ _ _ cl' cs h1 h2 h3 =>
    exact ⟨cs, cl', rfl, by simpa using Rep.file (data := data) h1 h2 .nil, h3⟩
  | @dir _ _ _ _ cl' cs kids ck h1 h2 h3 h4 =>
    exact ⟨cs ++ ck, cl', rfl, by simpa using Rep.dir h1 h2 h3 (.nil (d := _ + 1)), h4⟩

theorem rep_join {fat : Nat → Nat} {data : Nat → C} {d e es t ts c1 c2}
    (h1 : Rep o eoc lim fat data d [e] [t] c1) (h2 : Rep o eoc lim fat data d es ts c2) :
    Rep o eoc lim fat data d (e :: es) (t :: ts) (c1 ++ c2) := by
  cases h1 with
  | empty a b c => cases c; exact .empty a b h2
  | file a b c => cases c; simpa using Rep.file (data := data) a b h2
  | dir a b c e => cases e; simpa using Rep.dir a b c h2

theorem rep_nonempty {fat : Nat → Nat} {data : Nat → C} {d e es ts cl}
    (h : Rep o eoc lim fat data d (e :: es) ts cl) : ∃ t ts', ts = t :: ts' := by
  cases h <;> exact ⟨_, _, rfl⟩

theorem links_used {fat : Nat → Nat} (h0 : eoc 0 = false) : ∀ {l : List Nat}, Links eoc lim fat l →
    ∀ c ∈ l, 2 ≤ c ∧ c < lim ∧ fat c ≠ 0
  | [], h, _, _ => h.elim
  | [c], h, x, hx => by
    simp at hx; subst hx
    refine ⟨h.1, h.2.1, ?_⟩
    intro e
    have := h.2.2
    rw [e, h0] at this; cases this
  | c :: d :: l, h, x, hx => by
    have ih := links_used h0 h.2.2.2.2
    rcases List.mem_cons.mp hx with rfl | hx
    · refine ⟨h.1, h.2.1, ?_⟩
      have := ih d (by simp)
      rw [h.2.2.2.1]
      omega
    · exact ih x hx

theorem rep_used {fat : Nat → Nat} {data : Nat → C} {d es ts cl} (h0 : eoc 0 = false)
    (h : Rep o eoc lim fat data d es ts cl) : ∀ c ∈ cl, 2 ≤ c ∧ c < lim ∧ fat c ≠ 0 := by
  induction h with
  | nil => intro c hc; cases hc
  | empty _ _ _ ih => exact ih
  | file _ h2 _ ih =>
    intro c hc
    rcases List.mem_append.mp hc with hc | hc
    · exact links_used h0 h2.2 c hc
    · exact ih c hc
  | dir _ h2 _ _ ih1 ih2 =>
    intro c hc
    rcases List.mem_append.mp hc with hc | hc
    · rcases List.mem_append.mp hc with hc | hc
      · exact links_used h0 h2.2 c hc
      · exact ih1 c hc
    · exact ih2 c hc

/-! ### What a part of the compaction may do -/

/-- The FAT's reserved entries, and everything below the first free cluster is in use. -/
structure Good (eoc : Nat → Bool) (lim : Nat) (s : St C) : Prop where
  eoc0 : eoc (s.fat 0) = true
  z1 : s.fat 1 ≠ 0
  ffc : s.ffc ≤ lim
  below : ∀ c, c < s.ffc → s.fat c ≠ 0

/-- From `s` to `s'`, something stored in the clusters `cl` has moved to `cl'`; nothing else has changed but
entries in the directory clusters `D`. -/
structure Post (eoc : Nat → Bool) (lim : Nat) (D : List Nat) (s s' : St C) (cl cl' : List Nat) : Prop where
  good : Good eoc lim s'
  ffc : s.ffc ≤ s'.ffc
  nodup : cl'.Nodup
  frame : ∀ c, c ∉ cl → c ∉ cl' → s'.fat c = s.fat c ∧ (c ∉ D → s.fat c ≠ 0 → s'.data c = s.data c)
  freed : ∀ c, c ∈ cl → c ∉ cl' → s'.fat c = 0
  fresh : ∀ c, c ∈ cl' → c ∈ cl ∨ s.fat c = 0

theorem post_refl {D : List Nat} {s : St C} {cl : List Nat} (hg : Good eoc lim s) (hn : cl.Nodup) :
    Post eoc lim D s s cl cl :=
  ⟨hg, Nat.le_refl _, hn, fun _ _ _ => ⟨rfl, fun _ _ => rfl⟩, fun _ h1 h2 => absurd h1 h2, fun _ h => Or.inl h⟩

/-- One thing after another: they do not get in each other's way. -/
theorem post_seq {D1 D2 D : List Nat} {s s1 s2 : St C} {a a' b b' : List Nat}
    (p1 : Post eoc lim D1 s s1 a a') (p2 : Post eoc lim D2 s1 s2 b b')
    (hD1 : ∀ c ∈ D1, c ∈ D ∨ c ∈ a ∨ c ∈ a') (hD2 : ∀ c ∈ D2, c ∈ D ∨ c ∈ a ∨ c ∈ a')
    (hua : ∀ c ∈ a, s.fat c ≠ 0) (hub : ∀ c ∈ b, s.fat c ≠ 0) (hua' : ∀ c ∈ a', s1.fat c ≠ 0)
    (hdis : ∀ c ∈ a, c ∉ b) : Post eoc lim D s s2 (a ++ b) (a' ++ b') := by
  have hab : ∀ c ∈ a', c ∉ b := by
    intro c hc hb
    rcases p1.fresh c hc with h | h
    · exact hdis c h hb
    · exact hub c hb h
  have hab' : ∀ c ∈ a', c ∉ b' := by
    intro c hc hb
    rcases p2.fresh c hb with h | h
    · exact hab c hc h
    · exact hua' c hc h
  refine ⟨p2.good, Nat.le_trans p1.ffc p2.ffc, ?_, ?_, ?_, ?_⟩
  · exact List.nodup_append.mpr ⟨p1.nodup, p2.nodup, fun x hx y hy e => hab' x hx (e ▸ hy)⟩
  · intro c h1 h2
    simp only [List.mem_append, not_or] at h1 h2
    obtain ⟨f1, d1⟩ := p1.frame c h1.1 h2.1
    obtain ⟨f2, d2⟩ := p2.frame c h1.2 h2.2
    refine ⟨by rw [f2, f1], ?_⟩
    intro hD hu
    rw [d2 _ (by rw [f1]; exact hu), d1 _ hu]
    · intro hm
      rcases hD1 c hm with h | h | h
      · exact hD h
      · exact h1.1 h
      · exact h2.1 h
    · intro hm
      rcases hD2 c hm with h | h | h
      · exact hD h
      · exact h1.1 h
      · exact h2.1 h
  · intro c h1 h2
    simp only [List.mem_append, not_or] at h1 h2
    by_cases hb : c ∈ b
    · exact p2.freed c hb h2.2
    · have ha : c ∈ a := h1.resolve_right hb
      rw [(p2.frame c hb h2.2).1]
      exact p1.freed c ha h2.1
  · intro c hc
    rcases List.mem_append.mp hc with hc | hc
    · rcases p1.fresh c hc with h | h
      · exact Or.inl (by simp [h])
      · exact Or.inr h
    · rcases p2.fresh c hc with h | h
      · exact Or.inl (by simp [h])
      · by_cases ha : c ∈ a
        · exact Or.inl (by simp [ha])
        · by_cases ha' : c ∈ a'
          · exact absurd hc (hab' c ha')
          · rw [(p1.frame c ha ha').1] at h
            exact Or.inr h

theorem scan_spec (fat : Nat → Nat) : ∀ (k f : Nat), f ≤ scan fat k f ∧ scan fat k f ≤ f + k ∧
    (∀ c, f ≤ c → c < scan fat k f → fat c ≠ 0) ∧ (scan fat k f < f + k → fat (scan fat k f) = 0)
  | 0, f => ⟨Nat.le_refl _, Nat.le_refl _, fun c h1 h2 => by unfold scan at h2; omega, fun h => by unfold scan at h; omega⟩
  | k + 1, f => by
    unfold scan
    split
    · rename_i h0
      exact ⟨Nat.le_refl _, by omega, fun c h1 h2 => by omega, fun _ => h0⟩
    · rename_i h0
      obtain ⟨h1, h2, h3, h4⟩ := scan_spec fat k (f + 1)
      refine ⟨by omega, by omega, ?_, fun h => h4 (by omega)⟩
      intro c hc1 hc2
      rcases Nat.eq_or_lt_of_le hc1 with rfl | hlt
      · exact h0
      · exact h3 c hlt hc2

/-! ### Moving a cluster -/

theorem links_replace {fat fat' : Nat → Nat} {x y : Nat} {R : List Nat} (hy2 : 2 ≤ y) (hyl : y < lim)
    (hyE : eoc y = false) (hfy : fat' y = fat x) (hR : ∀ c ∈ R, fat' c = fat c) :
    ∀ {P : List Nat} {last : Nat}, (P ≠ [] → P.getLast? = some last) → P.Nodup →
      (P ≠ [] → fat' last = y) → (∀ c ∈ P, c ≠ last → fat' c = fat c) →
      Links eoc lim fat (P ++ x :: R) → Links eoc lim fat' (P ++ y :: R)
  | [], last, _, _, _, _, h => by
    rw [List.nil_append] at *
    cases R with
    | nil => exact ⟨hy2, hyl, by rw [hfy]; exact h.2.2⟩
    | cons d l =>
      refine ⟨hy2, hyl, by rw [hfy]; exact h.2.2.1, by rw [hfy]; exact h.2.2.2.1, ?_⟩
      exact links_congr hR h.2.2.2.2
  | [p], last, hl, hnd, hfl, hP, h => by
    have e : p = last := by simpa using hl (by simp)
    subst e
    have h' : Links eoc lim fat (p :: x :: R) := h
    show Links eoc lim fat' (p :: y :: R)
    have hp := hfl (by simp)
    refine ⟨h'.1, h'.2.1, by rw [hp]; exact hyE, hp, ?_⟩
    exact links_replace hy2 hyl hyE hfy hR (P := []) (last := p) (fun h => absurd rfl h) List.nodup_nil
      (fun h => absurd rfl h) (fun c hc => by cases hc) h'.2.2.2.2
  | p :: q :: P, last, hl, hnd, hfl, hP, h => by
    have h' : Links eoc lim fat (p :: q :: (P ++ x :: R)) := h
    show Links eoc lim fat' (p :: q :: (P ++ y :: R))
    have hlast : (q :: P).getLast? = some last := by
      have := hl (by simp)
      rwa [List.getLast?_cons_cons] at this
    have hpl : p ≠ last := by
      intro e
      have hm : last ∈ q :: P := List.mem_of_getLast? hlast
      exact (List.nodup_cons.mp hnd).1 (e ▸ hm)
    have hp := hP p (by simp) hpl
    refine ⟨h'.1, h'.2.1, by rw [hp]; exact h'.2.2.1, by rw [hp]; exact h'.2.2.2.1, ?_⟩
    exact links_replace hy2 hyl hyE hfy hR (P := q :: P) (last := last) (fun _ => hlast)
      (List.nodup_cons.mp hnd).2 (fun _ => hfl (by simp)) (fun c hc => hP c (by simp [List.mem_cons.mp hc]))
      h'.2.2.2.2

theorem post_trans {D : List Nat} {s s1 s2 : St C} {a b c : List Nat}
    (p1 : Post eoc lim D s s1 a b) (p2 : Post eoc lim D s1 s2 b c) : Post eoc lim D s s2 a c := by
  refine ⟨p2.good, Nat.le_trans p1.ffc p2.ffc, p2.nodup, ?_, ?_, ?_⟩
  · intro x h1 h2
    by_cases hb : x ∈ b
    · have h0 : s.fat x = 0 := (p1.fresh x hb).resolve_left h1
      have h0' := p2.freed x hb h2
      exact ⟨by rw [h0, h0'], fun _ hu => absurd h0 hu⟩
    · obtain ⟨f1, d1⟩ := p1.frame x h1 hb
      obtain ⟨f2, d2⟩ := p2.frame x hb h2
      exact ⟨by rw [f2, f1], fun hD hu => by rw [d2 hD (by rw [f1]; exact hu), d1 hD hu]⟩
  · intro x h1 h2
    by_cases hb : x ∈ b
    · exact p2.freed x hb h2
    · rw [(p2.frame x hb h2).1]
      exact p1.freed x h1 hb
  · intro x hx
    rcases p2.fresh x hx with h | h
    · exact p1.fresh x h
    · by_cases ha : x ∈ a
      · exact Or.inl ha
      · by_cases hb : x ∈ b
        · exact p1.fresh x hb
        · rw [(p1.frame x ha hb).1] at h
          exact Or.inr h

/-- Changing where an entry begins. -/
def setF (v : Nat) (e : Ent) : Ent := { e with first := v }

theorem modify_modify (L : List Ent) (i v w : Nat) :
    (L.modify i (setF v)).modify i (setF w) = L.modify i (setF w) := by
  rw [List.modify_modify_eq]
  rfl

/-- One turn of the loop that moves the clusters of a file. -/
theorem move_ok (hE : ∀ c, c < lim → eoc c = false) (hlim : 2 ≤ lim) {cM i first last x f v : Nat} {L : List Ent}
    {P R : List Nat} {s : St C} (hg : Good eoc lim s) (hch : Chain eoc lim s.fat v (P ++ x :: R))
    (hnd : (P ++ x :: R).Nodup) (hl : P ≠ [] → P.getLast? = some last)
    (hP0 : P = [] → x = first) (hP1 : P ≠ [] → x ≠ first)
    (hcM : cM ∉ P ++ x :: R) (huM : s.fat cM ≠ 0) (hents : o.ents (s.data cM) = L.modify i (setF v))
    (hf : f = scan s.fat (lim - s.ffc) s.ffc) (hx : x > f) :
    ∃ v', Chain eoc lim (move o cM i first last x f s).fat v' (P ++ f :: R) ∧
      (P ++ f :: R).map (move o cM i first last x f s).data = (P ++ x :: R).map s.data ∧
      o.ents ((move o cM i first last x f s).data cM) = L.modify i (setF v') ∧
      Post eoc lim [cM] s (move o cM i first last x f s) (P ++ x :: R) (P ++ f :: R) := by
  have h0 : eoc 0 = false := hE 0 (by omega)
  have hused := links_used h0 hch.2
  obtain ⟨hx2, hxl, hxu⟩ := hused x (by simp)
  obtain ⟨s1, s2, s3, s4⟩ := scan_spec s.fat (lim - s.ffc) s.ffc
  rw [← hf] at s1 s2 s3 s4
  have hgf := hg.ffc
  have hf0 : s.fat f = 0 := s4 (by omega)
  have hf2 : 2 ≤ f := by
    rcases Nat.lt_or_ge f 2 with h | h
    · have : f = 0 ∨ f = 1 := by omega
      rcases this with e | e
      · rw [e] at hf0
        have := hg.eoc0
        rw [hf0, h0] at this; cases this
      · rw [e] at hf0
        exact absurd hf0 hg.z1
    · exact h
  have hfn : f ∉ P ++ x :: R := fun hm => (hused f hm).2.2 hf0
  have hfM : cM ≠ f := fun e => huM (e ▸ hf0)
  have hxM : cM ≠ x := fun e => hcM (by simp [e])
  simp only [List.mem_append, List.mem_cons, not_or] at hfn hcM
  rw [List.nodup_append] at hnd
  obtain ⟨hndP, hndR, hdis⟩ := hnd
  obtain ⟨hxR, hndR'⟩ := List.nodup_cons.mp hndR
  have hxP : x ∉ P := fun hm => hdis x hm x (by simp) rfl
  have hlastP : P ≠ [] → last ∈ P := fun h => List.mem_of_getLast? (hl h)
  -- the new FAT
  have ft_f : (move o cM i first last x f s).fat f = s.fat x := by
    show upd (upd _ f _) x 0 f = _
    rw [upd_other (by omega), upd_same]
  have ft_x : (move o cM i first last x f s).fat x = 0 := by
    show upd (upd _ f _) x 0 x = _
    rw [upd_same]
  have ft_o : ∀ c, c ≠ f → c ≠ x → (P ≠ [] → c ≠ last) → (move o cM i first last x f s).fat c = s.fat c := by
    intro c h1 h2 h3
    show upd (upd (if x = first then s.fat else upd s.fat last f) f _) x 0 c = _
    rw [upd_other h2, upd_other h1]
    split
    · rfl
    · rename_i hne
      have : P ≠ [] := fun e => hne (hP0 e)
      rw [upd_other (h3 this)]
  have ft_l : P ≠ [] → (move o cM i first last x f s).fat last = f := by
    intro hP
    have hm := hlastP hP
    show upd (upd (if x = first then s.fat else upd s.fat last f) f _) x 0 last = _
    have e1 : last ≠ x := fun e => hxP (e ▸ hm)
    have e2 : last ≠ f := fun e => hfn.1 (e ▸ hm)
    rw [upd_other e1, upd_other e2, if_neg (hP1 hP), upd_same]
  -- the new data
  have dt_f : (move o cM i first last x f s).data f = s.data x := by
    show (if x = first then upd (upd s.data f _) cM _ else upd s.data f _) f = _
    split
    · rw [upd_other (Ne.symm hfM), upd_same]
    · rw [upd_same]
  have dt_o : ∀ c, c ≠ f → c ≠ cM → (move o cM i first last x f s).data c = s.data c := by
    intro c h1 h2
    show (if x = first then upd (upd s.data f _) cM _ else upd s.data f _) c = _
    split
    · rw [upd_other h2, upd_other h1]
    · rw [upd_other h1]
  have hmapP : ∀ l : List Nat, (∀ c ∈ l, c ≠ f ∧ c ≠ cM) →
      l.map (move o cM i first last x f s).data = l.map s.data := fun l h =>
    List.map_congr_left (fun c hc => dt_o c (h c hc).1 (h c hc).2)
  have hlinks : Links eoc lim (move o cM i first last x f s).fat (P ++ f :: R) := by
    refine links_replace hf2 (by omega) (hE f (by omega)) ft_f ?_ hl hndP ft_l ?_ hch.2
    · intro c hc
      refine ft_o c (fun e => hfn.2.2 (e ▸ hc)) (fun e => hxR (e ▸ hc)) ?_
      intro hP e
      exact hdis last (hlastP hP) c (by simp [hc]) e.symm
    · intro c hc hne
      exact ft_o c (fun e => hfn.1 (e ▸ hc)) (fun e => hxP (e ▸ hc)) (fun _ => hne)
  have hpost : Post eoc lim [cM] s (move o cM i first last x f s) (P ++ x :: R) (P ++ f :: R) := by
    refine ⟨⟨?_, ?_, ?_, ?_⟩, ?_, ?_, ?_, ?_, ?_⟩
    · rw [ft_o 0 (by omega) (by omega) (fun hP e => by
        have := (hused last (by simp [hlastP hP])).1; omega)]
      exact hg.eoc0
    · rw [ft_o 1 (by omega) (by omega) (fun hP e => by
        have := (hused last (by simp [hlastP hP])).1; omega)]
      exact hg.z1
    · show f + 1 ≤ lim; omega
    · intro c hc
      have hc : c < f + 1 := hc
      by_cases e1 : c = f
      · rw [e1, ft_f]; exact hxu
      · by_cases e2 : P ≠ [] ∧ c = last
        · rw [e2.2, ft_l e2.1]; omega
        · rw [ft_o c e1 (by omega) (fun hP e => e2 ⟨hP, e⟩)]
          rcases Nat.lt_or_ge c s.ffc with h | h
          · exact hg.below c h
          · exact s3 c h (by omega)
    · show s.ffc ≤ f + 1; omega
    · rw [List.nodup_append]
      refine ⟨hndP, List.nodup_cons.mpr ⟨hfn.2.2, hndR'⟩, ?_⟩
      intro a ha b hb e
      rcases List.mem_cons.mp hb with rfl | hb
      · exact hfn.1 (e ▸ ha)
      · exact hdis a ha b (by simp [hb]) e
    · intro c h1 h2
      simp only [List.mem_append, List.mem_cons, not_or] at h1 h2
      refine ⟨ft_o c h2.2.1 h1.2.1 (fun hP e => h1.1 (e ▸ hlastP hP)), ?_⟩
      intro hD _
      exact dt_o c h2.2.1 (by simpa using hD)
    · intro c h1 h2
      simp only [List.mem_append, List.mem_cons, not_or] at h1 h2
      have : c = x := by
        rcases h1 with h | h | h
        · exact absurd h h2.1
        · exact h
        · exact absurd h h2.2.2
      rw [this]; exact ft_x
    · intro c hc
      simp only [List.mem_append, List.mem_cons] at hc ⊢
      rcases hc with h | h | h
      · exact Or.inl (Or.inl h)
      · exact Or.inr (h ▸ hf0)
      · exact Or.inl (Or.inr (Or.inr h))
  have hmap : (P ++ f :: R).map (move o cM i first last x f s).data = (P ++ x :: R).map s.data := by
    rw [List.map_append, List.map_append, List.map_cons, List.map_cons, dt_f,
      hmapP P (fun c hc => ⟨fun e => hfn.1 (e ▸ hc), fun e => hcM.1 (e ▸ hc)⟩),
      hmapP R (fun c hc => ⟨fun e => hfn.2.2 (e ▸ hc), fun e => hcM.2.2 (e ▸ hc)⟩)]
  by_cases hP : P = []
  · subst hP
    have hxf := hP0 rfl
    refine ⟨f, ⟨rfl, hlinks⟩, hmap, ?_, hpost⟩
    have : (move o cM i first last x f s).data cM = o.setFirst (s.data cM) i f := by
      show (if x = first then upd (upd s.data f _) cM _ else _) cM = _
      rw [if_pos hxf, upd_same, upd_other hfM]
    rw [this, o.law, hents]
    exact modify_modify L i v f
  · have hxf := hP1 hP
    refine ⟨v, ⟨?_, hlinks⟩, hmap, ?_, hpost⟩
    · have := hch.1
      cases P with
      | nil => exact absurd rfl hP
      | cons p P => exact this
    · have : (move o cM i first last x f s).data cM = s.data cM := by
        show (if x = first then _ else upd s.data f _) cM = _
        rw [if_neg hxf, upd_other hfM]
      rw [this, hents]

theorem links_tail {fat : Nat → Nat} : ∀ {P R : List Nat}, R ≠ [] → Links eoc lim fat (P ++ R) → Links eoc lim fat R
  | [], _, _, h => h
  | [p], r :: R, _, h => h.2.2.2.2
  | p :: q :: P, R, hR, h => links_tail (P := q :: P) hR h.2.2.2.2
  | [p], [], hR, _ => absurd rfl hR

/-- Moving all the clusters of a file. -/
theorem chain_ok (hE : ∀ c, c < lim → eoc c = false) (hlim : 2 ≤ lim) {cM i first : Nat} {L : List Ent} :
    ∀ (R : List Nat) (k : Nat) (P : List Nat) (last x v : Nat) (s : St C), R.length + 1 ≤ k →
      Good eoc lim s → Chain eoc lim s.fat v (P ++ x :: R) → (P ++ x :: R).Nodup →
      (P ≠ [] → P.getLast? = some last) → (P = [] → x = first) → (P ≠ [] → first ∉ x :: R) →
      (∀ c ∈ P, c < s.ffc) → cM ∉ P ++ x :: R → s.fat cM ≠ 0 → o.ents (s.data cM) = L.modify i (setF v) →
      ∃ R' v', Chain eoc lim (chainLoop o eoc lim cM i first k last x s).fat v' (P ++ R') ∧
        (P ++ R').map (chainLoop o eoc lim cM i first k last x s).data = (P ++ x :: R).map s.data ∧
        o.ents ((chainLoop o eoc lim cM i first k last x s).data cM) = L.modify i (setF v') ∧
        Post eoc lim [cM] s (chainLoop o eoc lim cM i first k last x s) (P ++ x :: R) (P ++ R') ∧
        (∀ c ∈ P ++ R', c < (chainLoop o eoc lim cM i first k last x s).ffc) := by
  intro R
  induction R with
  | nil =>
    intro k P last x v s hk hg hch hnd hl hP0 hP1 hlow hcM huM hents
    obtain ⟨k, rfl⟩ : ∃ k', k = k' + 1 := ⟨k - 1, by simp at hk; omega⟩
    have hxl := links_tail (R := [x]) (by simp) hch.2
    have he : eoc (s.fat x) = true := hxl.2.2
    unfold chainLoop
    dsimp only
    rw [he, if_pos rfl, if_pos rfl]
    generalize hf : scan s.fat (lim - s.ffc) s.ffc = f
    obtain ⟨s1, s2, s3, s4⟩ := scan_spec s.fat (lim - s.ffc) s.ffc
    rw [hf] at s1 s2 s3 s4
    have hgf := hg.ffc
    by_cases hx : x > f
    · rw [if_pos hx]
      obtain ⟨v', m1, m2, m3, m4⟩ := move_ok hE hlim hg hch hnd hl hP0 (fun h e => hP1 h (by simp [e])) hcM huM hents
        hf.symm hx
      refine ⟨[f], v', m1, m2, m3, m4, ?_⟩
      intro c hc
      show c < f + 1
      rcases List.mem_append.mp hc with hc | hc
      · have := hlow c hc; omega
      · simp at hc; omega
    · rw [if_neg hx]
      have hxu : s.fat x ≠ 0 := (links_used (hE 0 (by omega)) hxl x (by simp)).2.2
      have hxlt : x < f := by
        rcases Nat.lt_or_ge f lim with h | h
        · have := s4 (by omega)
          have : x ≠ f := fun e => hxu (by rw [e]; assumption)
          omega
        · have := hxl.2.1; omega
      refine ⟨[x], v, hch, rfl, hents, ⟨⟨hg.eoc0, hg.z1, by show f ≤ lim; omega, ?_⟩, s1, hnd, fun _ _ _ => ⟨rfl, fun _ _ => rfl⟩,
        fun _ h1 h2 => absurd h1 h2, fun _ h => Or.inl h⟩, ?_⟩
      · intro c hc
        rcases Nat.lt_or_ge c s.ffc with h | h
        · exact hg.below c h
        · exact s3 c h hc
      · intro c hc
        show c < f
        rcases List.mem_append.mp hc with hc | hc
        · have := hlow c hc; omega
        · simp at hc; omega
  | cons r R ih =>
    intro k P last x v s hk hg hch hnd hl hP0 hP1 hlow hcM huM hents
    obtain ⟨k, rfl⟩ : ∃ k', k = k' + 1 := ⟨k - 1, by simp at hk; omega⟩
    have hxl := links_tail (R := x :: r :: R) (by simp) hch.2
    have he : eoc (s.fat x) = false := hxl.2.2.1
    have hnext : s.fat x = r := hxl.2.2.2.1
    unfold chainLoop
    dsimp only
    have her : eoc r = false := by rw [← hnext]; exact he
    simp only [hnext, her, Bool.false_eq_true, if_false]
    generalize hf : scan s.fat (lim - s.ffc) s.ffc = f
    obtain ⟨s1, s2, s3, s4⟩ := scan_spec s.fat (lim - s.ffc) s.ffc
    rw [hf] at s1 s2 s3 s4
    have hgf := hg.ffc
    have hfirst : first ∉ r :: R := by
      by_cases hP : P = []
      · subst hP
        rw [← hP0 rfl]
        exact (List.nodup_cons.mp hnd).1
      · exact fun hm => hP1 hP (List.mem_cons_of_mem _ hm)
    have hxu : s.fat x ≠ 0 := (links_used (hE 0 (by omega)) hxl x (by simp)).2.2
    by_cases hx : x > f
    · rw [if_pos hx]
      obtain ⟨v', m1, m2, m3, m4⟩ := move_ok hE hlim hg hch hnd hl hP0 (fun h e => hP1 h (by simp [e])) hcM huM hents
        hf.symm hx
      generalize hs1 : move o cM i first last x f s = s' at *
      have e1 : P ++ f :: r :: R = (P ++ [f]) ++ r :: R := by simp
      have hffc : s'.ffc = f + 1 := by rw [← hs1]; rfl
      have hf0 : s.fat f = 0 := s4 (by have := hxl.2.1; omega)
      have hcM' : cM ∉ P ++ f :: r :: R := by
        simp only [List.mem_append, List.mem_cons, not_or] at hcM ⊢
        exact ⟨hcM.1, fun e => huM (e ▸ hf0), hcM.2.2⟩
      have huM' : s'.fat cM ≠ 0 := by
        rw [(m4.frame cM hcM hcM').1]; exact huM
      rw [e1] at m1 hcM'
      have hnd' := m4.nodup
      rw [e1] at hnd'
      obtain ⟨R', w, k1, k2, k3, k4, k5⟩ := ih k (P ++ [f]) f r v' s' (by simp at hk ⊢; omega) m4.good m1 hnd' (fun _ => by simp)
        (fun h => by simp at h) (fun _ => hfirst) (by
          intro c hc
          rw [hffc]
          rcases List.mem_append.mp hc with hc | hc
          · have := hlow c hc; omega
          · simp at hc; omega) hcM' huM' m3
      have e2 : (P ++ [f]) ++ R' = P ++ f :: R' := by simp
      rw [e2] at k1 k2 k4 k5
      rw [← e1] at k2 k4
      exact ⟨f :: R', w, k1, by rw [k2, m2], k3, post_trans m4 k4, k5⟩
    · rw [if_neg hx]
      have hxlt : x < f := by
        rcases Nat.lt_or_ge f lim with h | h
        · have := s4 (by omega)
          have : x ≠ f := fun e => hxu (by rw [e]; assumption)
          omega
        · have := hxl.2.1; omega
      have e1 : P ++ x :: r :: R = (P ++ [x]) ++ r :: R := by simp
      have hg' : Good eoc lim { s with ffc := f } := by
        refine ⟨hg.eoc0, hg.z1, by show f ≤ lim; omega, ?_⟩
        intro c hc
        rcases Nat.lt_or_ge c s.ffc with h | h
        · exact hg.below c h
        · exact s3 c h hc
      have hpost : Post eoc lim [cM] s { s with ffc := f } (P ++ x :: r :: R) (P ++ x :: r :: R) :=
        ⟨hg', s1, hnd, fun _ _ _ => ⟨rfl, fun _ _ => rfl⟩, fun _ h1 h2 => absurd h1 h2, fun _ h => Or.inl h⟩
      obtain ⟨R', w, k1, k2, k3, k4, k5⟩ := ih k (P ++ [x]) x r v { s with ffc := f } (by simp at hk ⊢; omega) hg'
        (by rw [← e1]; exact hch) (by rw [← e1]; exact hnd) (fun _ => by simp)
        (fun h => by simp at h) (fun _ => hfirst) (by
          intro c hc
          show c < f
          rcases List.mem_append.mp hc with hc | hc
          · have := hlow c hc; omega
          · simp at hc; omega) (by rw [← e1]; exact hcM) huM hents
      have e2 : (P ++ [x]) ++ R' = P ++ x :: R' := by simp
      rw [e2] at k1 k2 k4 k5
      rw [← e1] at k2 k4
      exact ⟨x :: R', w, k1, k2, k3, post_trans hpost k4, k5⟩

/-! ### Walking the directories -/

theorem post_mono {D D' : List Nat} {s s' : St C} {a b : List Nat} (p : Post eoc lim D s s' a b)
    (h : ∀ c ∈ D, c ∈ D') : Post eoc lim D' s s' a b :=
  ⟨p.good, p.ffc, p.nodup, fun c h1 h2 => ⟨(p.frame c h1 h2).1, fun hD => (p.frame c h1 h2).2 (fun hm => hD (h c hm))⟩,
    p.freed, p.fresh⟩

theorem post_used_notin {D : List Nat} {s s' : St C} {b b' : List Nat} (p : Post eoc lim D s s' b b') {c : Nat}
    (hb : c ∉ b) (hu : s.fat c ≠ 0) : c ∉ b' := by
  intro h
  rcases p.fresh c h with h | h
  · exact hb h
  · exact hu h

/-- What one part stored stays while another is moved. -/
theorem rep_frame (h0 : eoc 0 = false) {D : List Nat} {s s' : St C} {b b' : List Nat} {d es ts a}
    (p : Post eoc lim D s s' b b') (h : Rep o eoc lim s.fat s.data d es ts a) (hb : ∀ c ∈ a, c ∉ b)
    (hD : ∀ c ∈ a, c ∉ D) : Rep o eoc lim s'.fat s'.data d es ts a := by
  refine rep_congr h ?_
  intro c hc
  have hu := (rep_used h0 h c hc).2.2
  obtain ⟨f1, f2⟩ := p.frame c (hb c hc) (post_used_notin p (hb c hc) hu)
  exact ⟨f1, f2 (hD c hc) hu⟩

theorem visOf_map {data data' : Nat → C} : ∀ {cs cs' : List Nat}, cs'.map data' = cs.map data →
    visOf o data' cs' = visOf o data cs
  | [], [], _ => rfl
  | [], c' :: cs', h => by simp at h
  | c :: cs, [], h => by simp at h
  | c :: cs, c' :: cs', h => by
    rw [List.map_cons, List.map_cons, List.cons.injEq] at h
    unfold visOf
    rw [h.1, visOf_map h.2]

theorem slot_modify {l : List Ent} {i : Nat} (hi : i < l.length) (f : Ent → Ent) :
    slot (l.modify i f) i = f (slot l i) := by
  unfold slot
  simp [List.getD_eq_getElem?_getD, List.getElem?_modify, hi]

/-- What walking a directory stored in the clusters `cs` must do. -/
def WalkOk (o : Fmt C) (eoc : Nat → Bool) (lim : Nat) (d : Nat) (walkF : Nat → St C → St C) : Prop :=
  ∀ (s : St C) (cs : List Nat) (v : Nat) (kids : List (Tree C)) (ck : List Nat), Good eoc lim s →
    (Chain eoc lim s.fat v cs ∨ (v = 0 ∧ cs = [0])) → Rep o eoc lim s.fat s.data d (visOf o s.data cs) kids ck →
    (cs ++ ck).Nodup →
    ∃ ck', Rep o eoc lim (walkF v s).fat (walkF v s).data d (visOf o (walkF v s).data cs) kids ck' ∧
      Post eoc lim cs s (walkF v s) ck ck' ∧ (∀ c ∈ ck', c < (walkF v s).ffc)

theorem length_le_of_subset {L M : List Nat} (hn : L.Nodup) (h : ∀ x ∈ L, x ∈ M) : L.length ≤ M.length := by
  induction L generalizing M with
  | nil => simp
  | cons x L ih =>
    obtain ⟨hx, hn'⟩ := List.nodup_cons.mp hn
    have hm := h x (by simp)
    have := ih (M := M.erase x) hn' (by
      intro y hy
      have hyx : y ≠ x := fun e => hx (e ▸ hy)
      exact (List.mem_erase_of_ne hyx).mpr (h y (by simp [hy])))
    rw [List.length_erase_of_mem hm] at this
    have hp := List.length_pos_of_mem hm
    simp only [List.length_cons]
    omega

theorem length_le_of_nodup {l : List Nat} (hn : l.Nodup) (h : ∀ c ∈ l, c < lim) : l.length ≤ lim := by
  have := length_le_of_subset (M := List.range lim) hn (fun c hc => List.mem_range.mpr (h c hc))
  simpa using this

theorem cb_ok (hE : ∀ c, c < lim → eoc c = false) (hlim : 2 ≤ lim) {walkF : Nat → St C → St C} {d : Nat}
    (hw : ∀ d', d = d' + 1 → WalkOk o eoc lim d' walkF) {cM i : Nat} {s : St C} {t : Tree C} {cl : List Nat} {L : List Ent}
    (hL : o.ents (s.data cM) = L) (hi : i < L.length) (hk : (slot L i).kind = .normal)
    (hg : Good eoc lim s) (hr : Rep o eoc lim s.fat s.data d [slot L i] [t] cl) (hnd : cl.Nodup) (hcM : cM ∉ cl)
    (huM : s.fat cM ≠ 0) :
    ∃ v' cl', o.ents ((cb o eoc lim walkF cM i s).data cM) = L.modify i (setF v') ∧
      Rep o eoc lim (cb o eoc lim walkF cM i s).fat (cb o eoc lim walkF cM i s).data d [setF v' (slot L i)] [t] cl' ∧
      Post eoc lim [cM] s (cb o eoc lim walkF cM i s) cl cl' ∧ (∀ c ∈ cl', c < (cb o eoc lim walkF cM i s).ffc) := by
  have h0 : eoc 0 = false := hE 0 (by omega)
  have hmod : L = L.modify i (setF (slot L i).first) := by
    apply List.ext_getElem?
    intro j
    rw [List.getElem?_modify]
    by_cases hj : i = j
    · subst hj
      simp [slot, hi, setF]
    · simp [hj]
  unfold cb
  rw [hL]
  generalize he : slot L i = e at *
  dsimp only
  rw [if_neg (by rw [hk]; decide)]
  cases hr with
  | empty h1 h2 h3 =>
    cases h3
    rw [h1, if_neg (by decide), h2]
    obtain ⟨k, hk'⟩ : ∃ k, lim = k + 1 := ⟨lim - 1, by omega⟩
    obtain ⟨s1, s2, s3, s4⟩ := scan_spec s.fat (lim - s.ffc) s.ffc
    have hc : chainLoop o eoc lim cM i 0 lim 0 0 s = { s with ffc := scan s.fat (lim - s.ffc) s.ffc } := by
      have : chainLoop o eoc lim cM i 0 (k + 1) 0 0 s = { s with ffc := scan s.fat (lim - s.ffc) s.ffc } := by
        unfold chainLoop
        dsimp only
        rw [if_neg (by omega), hg.eoc0, if_pos rfl]
      rw [← hk'] at this
      exact this
    rw [hc]
    have hgf := hg.ffc
    refine ⟨0, [], by rw [← h2]; exact hL.trans hmod, ?_, ⟨⟨hg.eoc0, hg.z1, ?_, ?_⟩, s1, hnd, fun _ _ _ => ⟨rfl, fun _ _ => rfl⟩,
        fun _ h1 h2 => absurd h1 h2, fun _ h => Or.inl h⟩, fun c hc => by cases hc⟩
    · exact Rep.empty (e := setF 0 e) h1 rfl .nil
    · show scan s.fat (lim - s.ffc) s.ffc ≤ lim
      omega
    · intro c hc
      rcases Nat.lt_or_ge c s.ffc with h | h
      · exact hg.below c h
      · exact s3 c h hc
  | @file _ _ _ _ _ cs h1 h2 h3 =>
    cases h3
    rw [h1, if_neg (by decide)]
    rw [List.append_nil] at *
    have hne : cs ≠ [] := by intro e; subst e; exact h2.2
    obtain ⟨x, R, rfl⟩ := List.exists_cons_of_ne_nil hne
    have hx : x = e.first := by simpa using h2.1
    have hlen := length_le_of_nodup (lim := lim) hnd (fun c hc => (links_used h0 h2.2 c hc).2.1)
    obtain ⟨R', v', k1, k2, k3, k4, k5⟩ := chain_ok (o := o) hE hlim (cM := cM) (i := i) (first := e.first) (L := L) R lim [] 0 x
      e.first s (by simpa using hlen) hg h2 hnd (fun h => absurd rfl h) (fun _ => hx) (fun h => absurd rfl h)
      (fun c hc => by cases hc) hcM huM (hL.trans hmod)
    rw [hx] at k1 k2 k3 k4 k5
    rw [List.nil_append] at *
    refine ⟨v', R', k3, ?_, ?_, k5⟩
    · rw [List.nil_append] at k2
      rw [hx, ← k2]
      have := Rep.file (o := o) (e := setF v' e) (data := (chainLoop o eoc lim cM i e.first lim 0 e.first s).data) (d := d) h1 k1 .nil
      rw [List.append_nil] at this
      exact this
    · rw [hx]; exact k4
  | @dir d' _ _ _ _ cs kids ck h1 h2 h3 h4 =>
    cases h4
    rw [h1, if_pos rfl]
    rw [List.append_nil] at *
    obtain ⟨hnd1, hnd2, hdis⟩ := List.nodup_append.mp hnd
    have hcM1 : cM ∉ cs := fun h => hcM (by simp [h])
    have hcM2 : cM ∉ ck := fun h => hcM (by simp [h])
    have hne : cs ≠ [] := by intro e; subst e; exact h2.2
    obtain ⟨x, R, hcs⟩ := List.exists_cons_of_ne_nil hne
    have hx : x = e.first := by have := h2.1; rw [hcs] at this; simpa using this
    have hlen := length_le_of_nodup (lim := lim) hnd1 (fun c hc => (links_used h0 h2.2 c hc).2.1)
    obtain ⟨R', v', k1, k2, k3, k4, k5⟩ := chain_ok (o := o) hE hlim (cM := cM) (i := i) (first := e.first) (L := L) R lim [] 0 x
      e.first s (by rw [hcs] at hlen; simpa using hlen) hg (by rw [List.nil_append, ← hcs]; exact h2)
      (by rw [List.nil_append, ← hcs]; exact hnd1) (fun h => absurd rfl h) (fun _ => hx) (fun h => absurd rfl h)
      (fun c hc => by cases hc) (by rw [List.nil_append, ← hcs]; exact hcM1) huM (hL.trans hmod)
    rw [List.nil_append, List.nil_append, ← hcs] at k2 k4
    rw [List.nil_append] at k1 k5
    rw [hx] at k1 k2 k3 k4 k5
    generalize hs1 : chainLoop o eoc lim cM i e.first lim 0 e.first s = s1 at *
    have hv : (slot (o.ents (s1.data cM)) i).first = v' := by
      rw [k3, slot_modify hi]; rfl
    rw [hv]
    have hck : ∀ c ∈ ck, c ∉ cs := fun c hc hm => hdis c hm c hc rfl
    have r1 : Rep o eoc lim s1.fat s1.data d' (visOf o s1.data R') kids ck := by
      rw [visOf_map k2]
      exact rep_frame h0 k4 h3 hck (fun c hc hm => hcM2 (by simp at hm; rw [← hm]; exact hc))
    have hckR : ∀ c ∈ ck, c ∉ R' := fun c hc => post_used_notin k4 (hck c hc) (rep_used h0 h3 c hc).2.2
    have hcMR : cM ∉ R' := post_used_notin k4 hcM1 huM
    obtain ⟨ck', w1, w2, w3⟩ := hw d' rfl s1 R' v' kids ck k4.good (Or.inl k1) r1
      (List.nodup_append.mpr ⟨k4.nodup, hnd2, fun a ha b hb e => hckR b hb (e ▸ ha)⟩)
    have hdata : (walkF v' s1).data cM = s1.data cM := by
      have hu1 : s1.fat cM ≠ 0 := by rw [(k4.frame cM hcM1 hcMR).1]; exact huM
      exact (w2.frame cM hcM2 (post_used_notin w2 hcM2 hu1)).2 hcMR hu1
    refine ⟨v', R' ++ ck', by rw [hdata]; exact k3, ?_, ?_, ?_⟩
    · have hch : Chain eoc lim (walkF v' s1).fat v' R' := by
        refine chain_congr (fun c hc => ?_) k1
        have hcck : c ∉ ck := fun hm => hckR c hm hc
        exact (w2.frame c hcck (post_used_notin w2 hcck (links_used h0 k1.2 c hc).2.2)).1
      have := Rep.dir (o := o) (e := setF v' e) h1 hch w1 (.nil (d := d' + 1))
      rw [List.append_nil] at this
      exact this
    · exact post_seq k4 w2 (fun c hc => Or.inl hc) (fun c hc => Or.inr (Or.inr hc))
        (fun c hc => (links_used h0 h2.2 c hc).2.2) (fun c hc => (rep_used h0 h3 c hc).2.2)
        (fun c hc => (links_used h0 k1.2 c hc).2.2) (fun c hc hm => hck c hm hc)
    · intro c hc
      rcases List.mem_append.mp hc with hc | hc
      · exact Nat.lt_of_lt_of_le (k5 c hc) w2.ffc
      · exact w3 c hc

theorem visC_drop_kind {E : List Ent} {i : Nat} (hi : i < E.length) :
    visC (E.drop i) = match (slot E i).kind with
      | .skip => visC (E.drop (i + 1))
      | .dot => visC (E.drop (i + 1))
      | .last => ([], true)
      | .normal => (slot E i :: (visC (E.drop (i + 1))).1, (visC (E.drop (i + 1))).2) := by
  have e : E.drop i = slot E i :: E.drop (i + 1) := by
    rw [List.drop_eq_getElem_cons hi]
    simp [slot, hi]
  rw [e]
  rfl

theorem take_succ_eq {E E' : List Ent} {i : Nat} (hlen : E'.length = E.length) (h : E'.take (i + 1) = E.take (i + 1)) :
    E'.take i = E.take i ∧ (i < E.length → slot E' i = slot E i) := by
  constructor
  · have := congrArg (List.take i) h
    rwa [List.take_take, List.take_take, Nat.min_eq_left (by omega)] at this
  · intro hi
    have := congrArg (fun l => l[i]?) h
    simp only [List.getElem?_take, show i < i + 1 from by omega, if_true] at this
    unfold slot
    rw [List.getD_eq_getElem?_getD, List.getD_eq_getElem?_getD, this]

theorem rep_append_split {fat : Nat → Nat} {data : Nat → C} {d} : ∀ {es1 es2 : List Ent} {ts cl},
    Rep o eoc lim fat data d (es1 ++ es2) ts cl → ∃ t1 t2 c1 c2, ts = t1 ++ t2 ∧ cl = c1 ++ c2 ∧
      Rep o eoc lim fat data d es1 t1 c1 ∧ Rep o eoc lim fat data d es2 t2 c2
  | [], es2, ts, cl, h => ⟨[], ts, [], cl, rfl, rfl, .nil, h⟩
  | e :: es1, es2, ts, cl, h => by
    obtain ⟨t, ts', rfl⟩ := rep_nonempty h
    obtain ⟨c1, c2, rfl, h1, h2⟩ := rep_cons h
    obtain ⟨t1, t2, c3, c4, rfl, rfl, h3, h4⟩ := rep_append_split h2
    exact ⟨t :: t1, t2, c1 ++ c3, c4, rfl, by simp, rep_join h1 h3, h4⟩

theorem rep_length {fat : Nat → Nat} {data : Nat → C} {d es ts cl} (h : Rep o eoc lim fat data d es ts cl) :
    es.length = ts.length := by
  induction h <;> simp_all

theorem rep_append_join {fat : Nat → Nat} {data : Nat → C} {d} : ∀ {es1 es2 : List Ent} {t1 t2 c1 c2},
    Rep o eoc lim fat data d es1 t1 c1 → Rep o eoc lim fat data d es2 t2 c2 →
      Rep o eoc lim fat data d (es1 ++ es2) (t1 ++ t2) (c1 ++ c2)
  | [], es2, _, t2, _, c2, h1, h2 => by cases h1; exact h2
  | e :: es1, es2, t1, t2, c1, c2, h1, h2 => by
    obtain ⟨t, ts', rfl⟩ := rep_nonempty h1
    obtain ⟨c3, c4, rfl, h3, h4⟩ := rep_cons h1
    have := rep_join h3 (rep_append_join h4 h2)
    simpa using this

/-- Walking the slots of one cluster. -/
theorem walkEnts_ok (hE : ∀ c, c < lim → eoc c = false) (hlim : 2 ≤ lim) {walkF : Nat → St C → St C} {d : Nat}
    (hw : ∀ d', d = d' + 1 → WalkOk o eoc lim d' walkF) {cM : Nat} :
    ∀ (k i : Nat) (s : St C) (ts : List (Tree C)) (cl : List Nat) (E : List Ent), o.ents (s.data cM) = E →
      i + k = E.length → Good eoc lim s → Rep o eoc lim s.fat s.data d (visC (E.drop i)).1 ts cl → cl.Nodup →
      cM ∉ cl → s.fat cM ≠ 0 →
      ∃ s' E' cl', walkEnts o (cb o eoc lim walkF) cM k i s = (s', (visC (E.drop i)).2) ∧
        o.ents (s'.data cM) = E' ∧ E'.length = E.length ∧ E'.take i = E.take i ∧
        (visC (E'.drop i)).2 = (visC (E.drop i)).2 ∧
        Rep o eoc lim s'.fat s'.data d (visC (E'.drop i)).1 ts cl' ∧ Post eoc lim [cM] s s' cl cl' ∧
        (∀ c ∈ cl', c < s'.ffc) := by
  have h0 : eoc 0 = false := hE 0 (by omega)
  intro k
  induction k with
  | zero =>
    intro i s ts cl E hEq hik hg hr hnd hcM huM
    have hd : E.drop i = [] := List.drop_eq_nil_of_le (by omega)
    rw [hd] at hr ⊢
    have hcl : cl = [] := by
      have : Rep o eoc lim s.fat s.data d [] ts cl := hr
      cases this; rfl
    refine ⟨s, E, cl, rfl, hEq, rfl, rfl, by rw [hd], by rw [hd]; exact hr, post_refl hg hnd, ?_⟩
    intro c hc; rw [hcl] at hc; cases hc
  | succ k ih =>
    intro i s ts cl E hEq hik hg hr hnd hcM huM
    have hi : i < E.length := by omega
    unfold walkEnts
    rw [hEq]
    rw [visC_drop_kind hi] at hr ⊢
    cases hk : (slot E i).kind with
    | skip =>
      rw [hk] at hr
      dsimp only at hr ⊢
      obtain ⟨s', E', cl', w1, w2, w3, w4, w5, w6, w7, w8⟩ := ih (i + 1) s ts cl E hEq (by omega) hg hr hnd hcM huM
      obtain ⟨t1, t2⟩ := take_succ_eq w3 w4
      have t2 := t2 hi
      refine ⟨s', E', cl', w1, w2, w3, t1, ?_, ?_, w7, w8⟩
      · rw [visC_drop_kind (by omega), t2, hk]; exact w5
      · rw [visC_drop_kind (by omega), t2, hk]; exact w6
    | last =>
      rw [hk] at hr
      dsimp only at hr ⊢
      have hcl : cl = [] := by
        have : Rep o eoc lim s.fat s.data d [] ts cl := hr
        cases this; rfl
      refine ⟨s, E, cl, rfl, hEq, rfl, rfl, ?_, ?_, post_refl hg hnd, ?_⟩
      · rw [visC_drop_kind hi, hk]
      · rw [visC_drop_kind hi, hk]; exact hr
      · intro c hc; rw [hcl] at hc; cases hc
    | dot =>
      rw [hk] at hr
      dsimp only at hr ⊢
      have hcb : cb o eoc lim walkF cM i s = s := by
        unfold cb
        dsimp only
        rw [hEq, if_pos hk]
      rw [hcb]
      obtain ⟨s', E', cl', w1, w2, w3, w4, w5, w6, w7, w8⟩ := ih (i + 1) s ts cl E hEq (by omega) hg hr hnd hcM huM
      obtain ⟨t1, t2⟩ := take_succ_eq w3 w4
      have t2 := t2 hi
      refine ⟨s', E', cl', w1, w2, w3, t1, ?_, ?_, w7, w8⟩
      · rw [visC_drop_kind (by omega), t2, hk]; exact w5
      · rw [visC_drop_kind (by omega), t2, hk]; exact w6
    | normal =>
      rw [hk] at hr
      dsimp only at hr ⊢
      obtain ⟨t, ts', rfl⟩ := rep_nonempty hr
      obtain ⟨c1, c2, rfl, r1, r2⟩ := rep_cons hr
      obtain ⟨n1, n2, hdis⟩ := List.nodup_append.mp hnd
      have hcM1 : cM ∉ c1 := fun h => hcM (by simp [h])
      have hcM2 : cM ∉ c2 := fun h => hcM (by simp [h])
      obtain ⟨v', c1', b1, b2, b3, b4⟩ := cb_ok hE hlim hw hEq hi hk hg r1 n1 hcM1 huM
      generalize hs1 : cb o eoc lim walkF cM i s = s1 at *
      have hcM1' : cM ∉ c1' := post_used_notin b3 hcM1 huM
      have huM1 : s1.fat cM ≠ 0 := by rw [(b3.frame cM hcM1 hcM1').1]; exact huM
      have hdrop : (E.modify i (setF v')).drop (i + 1) = E.drop (i + 1) := by
        apply List.ext_getElem?
        intro j
        rw [List.getElem?_drop, List.getElem?_drop, List.getElem?_modify]
        have hne : ¬ i = i + 1 + j := by omega
        cases E[i + 1 + j]? <;> simp [hne]
      have htake : (E.modify i (setF v')).take i = E.take i := by
        apply List.ext_getElem?
        intro j
        rw [List.getElem?_take, List.getElem?_take, List.getElem?_modify]
        split
        · have hne : ¬ i = j := by omega
          cases E[j]? <;> simp [hne]
        · rfl
      have hlen1 : (E.modify i (setF v')).length = E.length := List.length_modify ..
      have r2' : Rep o eoc lim s1.fat s1.data d (visC ((E.modify i (setF v')).drop (i + 1))).1 ts' c2 := by
        rw [hdrop]
        exact rep_frame h0 b3 r2 (fun c hc hm => hdis c hm c hc rfl)
          (fun c hc hm => hcM2 (by simp at hm; rw [← hm]; exact hc))
      obtain ⟨s', E', c2', w1, w2, w3, w4, w5, w6, w7, w8⟩ := ih (i + 1) s1 ts' c2 _ b1 (by omega) b3.good r2' n2 hcM2 huM1
      obtain ⟨t1, t2⟩ := take_succ_eq w3 w4
      have t2 := t2 (by omega)
      rw [slot_modify hi] at t2
      have hk' : (slot E' i).kind = .normal := by rw [t2]; exact hk
      rw [hdrop] at w1 w5
      have hdisj : ∀ c ∈ c1', c ∉ c2 := by
        intro c hc hm
        rcases b3.fresh c hc with h | h
        · exact hdis c h c hm rfl
        · exact (rep_used h0 r2 c hm).2.2 h
      refine ⟨s', E', c1' ++ c2', w1, w2, by omega, by rw [t1, htake], ?_, ?_, ?_, ?_⟩
      · rw [visC_drop_kind (by omega), hk']; exact w5
      · rw [visC_drop_kind (by omega), hk']
        dsimp only
        rw [t2]
        exact rep_join (rep_frame h0 w7 b2 hdisj (fun c hc hm => hcM1' (by simp at hm; rw [← hm]; exact hc))) w6
      · exact post_seq b3 w7 (fun c hc => Or.inl hc) (fun c hc => Or.inl hc)
          (fun c hc => (rep_used h0 r1 c hc).2.2) (fun c hc => (rep_used h0 r2 c hc).2.2)
          (fun c hc => (rep_used h0 b2 c hc).2.2) (fun c hc hm => hdis c hc c hm rfl)
      · intro c hc
        rcases List.mem_append.mp hc with hc | hc
        · exact Nat.lt_of_lt_of_le (b4 c hc) w7.ffc
        · exact w8 c hc

/-- Walking the clusters of one directory. -/
theorem walkChain_ok (hE : ∀ c, c < lim → eoc c = false) (hlim : 2 ≤ lim) {walkF : Nat → St C → St C} {d : Nat}
    (hw : ∀ d', d = d' + 1 → WalkOk o eoc lim d' walkF) :
    ∀ (cs : List Nat) (k : Nat) (s : St C) (v : Nat) (ts : List (Tree C)) (ck : List Nat), cs.length ≤ k →
      Good eoc lim s → (Chain eoc lim s.fat v cs ∨ (v = 0 ∧ cs = [0])) →
      Rep o eoc lim s.fat s.data d (visOf o s.data cs) ts ck → (cs ++ ck).Nodup →
      ∃ s' ck', walkChain o eoc (cb o eoc lim walkF) k v s = s' ∧
        Rep o eoc lim s'.fat s'.data d (visOf o s'.data cs) ts ck' ∧ Post eoc lim cs s s' ck ck' ∧
        (∀ c ∈ ck', c < s'.ffc) := by
  have h0 : eoc 0 = false := hE 0 (by omega)
  intro cs
  induction cs with
  | nil =>
    intro k s v ts ck _ _ hch _ _
    rcases hch with h | h
    · exact h.2.elim
    · cases h.2
  | cons cM rest ih =>
    intro k s v ts ck hk hg hch hr hnd
    obtain ⟨k, rfl⟩ : ∃ k', k = k' + 1 := ⟨k - 1, by simp at hk; omega⟩
    have hv : v = cM := by
      rcases hch with h | h
      · have := h.1; simp at this; exact this.symm
      · have := h.2; simp at this; rw [this.1]; exact h.1
    subst hv
    have huM : s.fat v ≠ 0 := by
      rcases hch with h | h
      · exact (links_used h0 h.2 v (by simp)).2.2
      · intro e; have := hg.eoc0; rw [← h.1, e, h0] at this; cases this
    have hvck : v ∉ ck := by
      have := (List.nodup_cons.mp hnd).1
      exact fun h => this (by simp [h])
    have hndk : ck.Nodup := (List.nodup_append.mp hnd).2.1
    unfold walkChain
    unfold visOf at hr
    by_cases hfl : (visC (o.ents (s.data v))).2 = true
    · rw [if_pos hfl] at hr
      obtain ⟨s', E', cl', w1, w2, w3, w4, w5, w6, w7, w8⟩ := walkEnts_ok hE hlim hw (cM := v)
        (o.ents (s.data v)).length 0 s ts ck _ rfl (by omega) hg (by simpa using hr) hndk hvck huM
      rw [List.drop_zero, hfl] at w1
      rw [List.drop_zero, List.drop_zero, hfl] at w5
      rw [List.drop_zero] at w6
      rw [w1]
      refine ⟨s', cl', rfl, ?_, post_mono w7 (fun c hc => by simp at hc; simp [hc]), w8⟩
      unfold visOf
      rw [w2, if_pos w5]
      exact w6
    · rw [if_neg hfl] at hr
      have hfl' : (visC (o.ents (s.data v))).2 = false := by simpa using hfl
      obtain ⟨t1, t2, c1, c2, rfl, rfl, r1, r2⟩ := rep_append_split hr
      obtain ⟨n1, n2, hdis⟩ := List.nodup_append.mp hndk
      have hv1 : v ∉ c1 := fun h => hvck (by simp [h])
      have hv2 : v ∉ c2 := fun h => hvck (by simp [h])
      obtain ⟨s1, E', c1', w1, w2, w3, w4, w5, w6, w7, w8⟩ := walkEnts_ok hE hlim hw (cM := v)
        (o.ents (s.data v)).length 0 s t1 c1 _ rfl (by omega) hg (by simpa using r1) n1 hv1 huM
      rw [List.drop_zero, hfl'] at w1
      rw [List.drop_zero, List.drop_zero, hfl'] at w5
      rw [List.drop_zero] at w6
      rw [w1]
      dsimp only
      have hv1' : v ∉ c1' := post_used_notin w7 hv1 huM
      have hfatv : s1.fat v = s.fat v := (w7.frame v hv1 hv1').1
      cases rest with
      | nil =>
        have hr2 : Rep o eoc lim s.fat s.data d [] t2 c2 := r2
        have ht2 : t2 = [] ∧ c2 = [] := by cases hr2; exact ⟨rfl, rfl⟩
        obtain ⟨rfl, rfl⟩ := ht2
        have hres : (if v = 0 then s1 else if eoc (s1.fat v) = true then s1
            else walkChain o eoc (cb o eoc lim walkF) k (s1.fat v) s1) = s1 := by
          rcases hch with h | h
          · have he : eoc (s1.fat v) = true := by rw [hfatv]; exact h.2.2.2
            rw [if_pos he]; split <;> rfl
          · rw [if_pos h.1]
        rw [hres]
        refine ⟨s1, c1', rfl, ?_, ?_, w8⟩
        · unfold visOf
          rw [w2, w5, if_neg (by decide)]
          unfold visOf
          rw [List.append_nil, List.append_nil]
          exact w6
        · rw [List.append_nil]
          exact w7
      | cons r rest =>
        have hl : Links eoc lim s.fat (v :: r :: rest) := by
          rcases hch with h | h
          · exact h.2
          · have := h.2; simp at this
        have hv0 : v ≠ 0 := by have := hl.1; omega
        have he : eoc (s1.fat v) = false := by rw [hfatv]; exact hl.2.2.1
        have hnx : s1.fat v = r := by rw [hfatv]; exact hl.2.2.2.1
        rw [if_neg hv0, he, if_neg (by decide), hnx]
        have hnd' := (List.nodup_cons.mp hnd)
        obtain ⟨m1, m2, m3⟩ := List.nodup_append.mp hnd'.2
        have hrest : ∀ c ∈ r :: rest, c ∉ c1 ∧ c ∉ c1' ∧ c ≠ v ∧ s.fat c ≠ 0 := by
          intro c hc
          have hu := (links_used h0 hl.2.2.2.2 c hc).2.2
          have h1 : c ∉ c1 := fun h => m3 c hc c (by simp [h]) rfl
          exact ⟨h1, post_used_notin w7 h1 hu, fun e => hnd'.1 (by rw [← e]; exact List.mem_append_left _ hc), hu⟩
        have hdat : ∀ c ∈ r :: rest, s1.fat c = s.fat c ∧ s1.data c = s.data c := by
          intro c hc
          obtain ⟨a1, a2, a3, a4⟩ := hrest c hc
          obtain ⟨f1, f2⟩ := w7.frame c a1 a2
          exact ⟨f1, f2 (by simp [a3]) a4⟩
        have hvis : visOf o s1.data (r :: rest) = visOf o s.data (r :: rest) :=
          visOf_congr (fun c hc => (hdat c hc).2)
        have hch' : Chain eoc lim s1.fat r (r :: rest) := ⟨rfl, links_congr (fun c hc => (hdat c hc).1) hl.2.2.2.2⟩
        have r2' : Rep o eoc lim s1.fat s1.data d (visOf o s1.data (r :: rest)) t2 c2 := by
          rw [hvis]
          exact rep_frame h0 w7 r2 (fun c hc hm => hdis c hm c hc rfl)
            (fun c hc hm => hv2 (by simp at hm; rw [← hm]; exact hc))
        obtain ⟨s', c2', z1, z2, z3, z4⟩ := ih k s1 r t2 c2 (by simp at hk ⊢; omega) w7.good (Or.inl hch') r2'
          (List.nodup_append.mpr ⟨m1, n2, fun a ha b hb => m3 a ha b (by simp [hb])⟩)
        have huM1 : s1.fat v ≠ 0 := by rw [hfatv]; exact huM
        have hv2' : v ∉ c2' := post_used_notin z3 hv2 huM1
        have hvrest : v ∉ r :: rest := fun h => hnd'.1 (List.mem_append_left _ h)
        have hdv : s'.data v = s1.data v := (z3.frame v hv2 hv2').2 hvrest huM1
        have hdisj : ∀ c ∈ c1', c ∉ c2 := by
          intro c hc hm
          rcases w7.fresh c hc with h | h
          · exact hdis c h c hm rfl
          · exact (rep_used h0 r2 c hm).2.2 h
        refine ⟨s', c1' ++ c2', z1, ?_, ?_, ?_⟩
        · unfold visOf
          rw [hdv, w2, w5, if_neg (by decide)]
          exact rep_append_join (rep_frame h0 z3 w6 hdisj (fun c hc hm => (hrest c hm).2.1 hc)) z2
        · exact post_seq w7 z3 (fun c hc => Or.inl (by simp at hc; simp [hc])) (fun c hc => Or.inl (List.mem_cons_of_mem _ hc))
            (fun c hc => (rep_used h0 r1 c hc).2.2) (fun c hc => (rep_used h0 r2 c hc).2.2)
            (fun c hc => (rep_used h0 w6 c hc).2.2) (fun c hc hm => hdis c hc c hm rfl)
        · intro c hc
          rcases List.mem_append.mp hc with hc | hc
          · exact Nat.lt_of_lt_of_le (w8 c hc) z3.ffc
          · exact z4 c hc

theorem walk_ok (hE : ∀ c, c < lim → eoc c = false) (hlim : 2 ≤ lim) :
    ∀ d, WalkOk o eoc lim d (walk o eoc lim d) := by
  have h0 : eoc 0 = false := hE 0 (by omega)
  have key : ∀ (d : Nat) (walkF : Nat → St C → St C), (∀ d', d = d' + 1 → WalkOk o eoc lim d' walkF) →
      WalkOk o eoc lim d (walkChain o eoc (cb o eoc lim walkF) lim) := by
    intro d walkF hw s cs v kids ck hg hch hr hnd
    have hlen : cs.length ≤ lim := by
      rcases hch with h | h
      · exact length_le_of_nodup (List.nodup_append.mp hnd).1 (fun c hc => (links_used h0 h.2 c hc).2.1)
      · rw [h.2]; simp; omega
    obtain ⟨s', ck', w1, w2, w3, w4⟩ := walkChain_ok hE hlim hw cs lim s v kids ck hlen hg hch hr hnd
    exact ⟨ck', by rw [w1]; exact w2, by rw [w1]; exact w3, by rw [w1]; exact w4⟩
  intro d
  induction d with
  | zero => exact key 0 _ (fun d' h => by omega)
  | succ d ih =>
    refine key (d + 1) _ (fun d' h => ?_)
    have : d' = d := by omega
    subst this
    exact ih

end

/-! ### Theorems -/

/-- A volume: the clusters `rc` hold the root directory (just cluster 0, which stands for the fixed root
directory, on FAT16), and the clusters `cl` hold the files and directories `tree`. No cluster is used twice.
The entries 0 and 1 of the FAT are the reserved ones. -/
structure Stores {C : Type} (o : Fmt C) (eoc : Nat → Bool) (lim : Nat) (fat : Nat → Nat) (data : Nat → C)
    (d root : Nat) (rc : List Nat) (tree : List (Tree C)) (cl : List Nat) : Prop where
  reserved : eoc (fat 0) = true ∧ fat 1 ≠ 0
  rootAt : Chain eoc lim fat root rc ∨ (root = 0 ∧ rc = [0])
  rep : Rep o eoc lim fat data d (visOf o data rc) tree cl
  disjoint : (rc ++ cl).Nodup

/-- **C44.** Compacting a volume keeps every file and directory: the same names in the same order, the same
contents in the same order of clusters. The root directory stays where it is. Every cluster not used by the
files, before or after, keeps its FAT entry and, if it is in use, its contents. The clusters no longer used
are free. All clusters of files and directories end up below the first free one. Partial: the first entry of
the FAT must be an end mark, see `compact_media_violated`, and the links of directories to themselves and to
their parents are not part of the tree, see `compact_dots_violated`. -/
theorem compact_keeps_files_partial {C : Type} (o : Fmt C) (eoc : Nat → Bool) (lim : Nat)
    (hE : ∀ c, c < lim → eoc c = false) (hlim : 2 ≤ lim) {fat : Nat → Nat} {data : Nat → C} {d root : Nat}
    {rc : List Nat} {tree : List (Tree C)} {cl : List Nat} (h : Stores o eoc lim fat data d root rc tree cl) :
    ∃ cl', Stores o eoc lim (compact o eoc lim d root fat data).fat (compact o eoc lim d root fat data).data d root rc
        tree cl' ∧
      (∀ c, c ∉ cl → c ∉ cl' → (compact o eoc lim d root fat data).fat c = fat c ∧
        (c ∉ rc → fat c ≠ 0 → (compact o eoc lim d root fat data).data c = data c)) ∧
      (∀ c ∈ cl, c ∉ cl' → (compact o eoc lim d root fat data).fat c = 0) ∧
      (∀ c ∈ cl', c ∈ cl ∨ fat c = 0) ∧
      (∀ c ∈ cl', ∀ x, (compact o eoc lim d root fat data).fat x = 0 → c < x) := by
  have h0 : eoc 0 = false := hE 0 (by omega)
  obtain ⟨s1, s2, s3, s4⟩ := scan_spec fat (lim - 2) 0
  have hg : Good eoc lim { fat := fat, data := data, ffc := scan fat (lim - 2) 0 } :=
    ⟨h.reserved.1, h.reserved.2, by show scan fat (lim - 2) 0 ≤ lim; omega, fun c hc => s3 c (by omega) hc⟩
  obtain ⟨cl', w1, w2, w3⟩ := walk_ok (o := o) hE hlim d _ rc root tree cl hg h.rootAt h.rep h.disjoint
  have hrc : ∀ c ∈ rc, fat c ≠ 0 := by
    intro c hc
    rcases h.rootAt with hr | hr
    · exact (links_used h0 hr.2 c hc).2.2
    · rw [hr.2] at hc
      simp at hc
      subst hc
      intro e
      have := h.reserved.1
      rw [e, h0] at this; cases this
  obtain ⟨n1, n2, n3⟩ := List.nodup_append.mp h.disjoint
  have hrcl' : ∀ c ∈ rc, c ∉ cl' := fun c hc =>
    post_used_notin w2 (fun hm => n3 c hc c hm rfl) (hrc c hc)
  refine ⟨cl', ⟨⟨w2.good.eoc0, w2.good.z1⟩, ?_, w1, ?_⟩, w2.frame, w2.freed, w2.fresh, ?_⟩
  · rcases h.rootAt with hr | hr
    · refine Or.inl (chain_congr (fun c hc => ?_) hr)
      exact (w2.frame c (fun hm => n3 c hc c hm rfl) (hrcl' c hc)).1
    · exact Or.inr hr
  · exact List.nodup_append.mpr ⟨n1, w2.nodup, fun a ha b hb e => hrcl' a ha (e ▸ hb)⟩
  · intro c hc x hx
    have := w3 c hc
    rcases Nat.lt_or_ge c x with hlt | hge
    · exact hlt
    · exact absurd hx (w2.good.below x (Nat.lt_of_le_of_lt hge this))

/-! ### A concrete volume -/

/-- Clusters that hold just directory entries; a number in the entry stands for the rest. -/
def listFmt : Fmt (List Ent) := ⟨id, fun c i v => c.modify i (fun e => { e with first := v }), fun _ _ _ => rfl⟩

/-- The end marks of FAT16 (fat32_base.h:198-206). -/
def eoc16 (n : Nat) : Bool := decide (0xFFF8 ≤ n)

/-- A directory (number 1, at cluster 5) with a file (number 3) in clusters 7 and 4, and, in the root
directory, a file (number 2) in clusters 9 and 3 and an empty file (number 4). -/
def exFat : Nat → Nat := fun c =>
  if c = 0 then 0xFFF8 else if c = 1 then 0xFFFF else if c = 5 then 0xFFFF else if c = 7 then 4
  else if c = 4 then 0xFFFF else if c = 9 then 3 else if c = 3 then 0xFFFF else 0

def exData : Nat → List Ent := fun c =>
  if c = 0 then [⟨100, .skip, false, 0⟩, ⟨1, .normal, true, 5⟩, ⟨2, .normal, false, 9⟩, ⟨4, .normal, false, 0⟩,
    ⟨0, .last, false, 0⟩]
  else if c = 5 then [⟨200, .dot, true, 5⟩, ⟨201, .dot, true, 0⟩, ⟨3, .normal, false, 7⟩, ⟨0, .last, false, 0⟩]
  else if c = 7 then [⟨70, .skip, false, 0⟩] else if c = 4 then [⟨40, .skip, false, 0⟩]
  else if c = 9 then [⟨90, .skip, false, 0⟩] else if c = 3 then [⟨30, .skip, false, 0⟩] else []

def exTree : List (Tree (List Ent)) :=
  [.dir 1 [.file 3 [[⟨70, .skip, false, 0⟩], [⟨40, .skip, false, 0⟩]]],
   .file 2 [[⟨90, .skip, false, 0⟩], [⟨30, .skip, false, 0⟩]], .file 4 []]

theorem exStores : Stores listFmt eoc16 10 exFat exData 1 0 [0] exTree [5, 7, 4, 9, 3] := by
  refine ⟨by decide, Or.inr ⟨rfl, rfl⟩, ?_, by decide⟩
  have hv : visOf listFmt exData [0] = [⟨1, .normal, true, 5⟩, ⟨2, .normal, false, 9⟩, ⟨4, .normal, false, 0⟩] := by rfl
  have hv5 : visOf listFmt exData [5] = [⟨3, .normal, false, 7⟩] := by rfl
  rw [hv]
  have k : Rep listFmt eoc16 10 exFat exData 0 (visOf listFmt exData [5])
      [.file 3 ([7, 4].map exData)] ([7, 4] ++ []) := by
    rw [hv5]
    exact .file rfl ⟨rfl, by unfold Links Links; decide⟩ .nil
  have k2 : Rep listFmt eoc16 10 exFat exData 1 [⟨2, .normal, false, 9⟩, ⟨4, .normal, false, 0⟩]
      [.file 2 ([9, 3].map exData), .file 4 []] ([9, 3] ++ []) :=
    .file rfl ⟨rfl, by unfold Links Links; decide⟩ (.empty rfl rfl .nil)
  exact .dir (cs := [5]) rfl ⟨rfl, by unfold Links; decide⟩ k k2

/-- The theorem applies to it, and clusters do move. -/
example : ∃ cl', Stores listFmt eoc16 10 (compact listFmt eoc16 10 1 0 exFat exData).fat
    (compact listFmt eoc16 10 1 0 exFat exData).data 1 0 [0] exTree cl' := by
  obtain ⟨cl', h, _⟩ := compact_keeps_files_partial listFmt eoc16 10
    (fun c hc => by unfold eoc16; simp; omega) (by decide) exStores
  exact ⟨cl', h⟩

example : (List.range 10).map (compact listFmt eoc16 10 1 0 exFat exData).fat
    = [0xFFF8, 0xFFFF, 0xFFFF, 0xFFFF, 0xFFFF, 4, 3, 0, 0, 0] := by decide +kernel

/-- A volume where everything is in use below the first free cluster is left as it is. -/
example : (List.range 10).map (compact listFmt eoc16 10 1 0
    (compact listFmt eoc16 10 1 0 exFat exData).fat (compact listFmt eoc16 10 1 0 exFat exData).data).fat
    = (List.range 10).map (compact listFmt eoc16 10 1 0 exFat exData).fat := by decide +kernel

/-- **C44, violated for directories.** The directory of the volume above began at cluster 5 and its `.` entry
says so. After compaction it begins at cluster 2, but its `.` entry still says 5, and cluster 5 belongs to a
file. -/
theorem compact_dots_violated :
    ∃ (d : Nat) (fat : Nat → Nat) (data : Nat → List Ent) (tree : List (Tree (List Ent))) (cl : List Nat),
      Stores listFmt eoc16 10 fat data d 0 [0] tree cl ∧
      (slot (data 0) 1).dir = true ∧ slot (data (slot (data 0) 1).first) 0 = ⟨200, .dot, true, (slot (data 0) 1).first⟩ ∧
      slot ((compact listFmt eoc16 10 d 0 fat data).data (slot ((compact listFmt eoc16 10 d 0 fat data).data 0) 1).first) 0
        = ⟨200, .dot, true, (slot (data 0) 1).first⟩ ∧
      (slot ((compact listFmt eoc16 10 d 0 fat data).data 0) 1).first ≠ (slot (data 0) 1).first :=
  ⟨1, exFat, exData, exTree, _, exStores, by decide, by decide, by decide +kernel, by decide +kernel⟩

/-- The volume above, with an empty file only, on a medium of type F0. What is in memory at entry FFF0, far
behind the FAT's 10 entries, happens to look like an end mark. -/
def f0Fat : Nat → Nat := fun c => if c = 0 then 0xFFF0 else if c = 1 then 0xFFFF else if c = 0xFFF0 then 0xFFFF else 0

def f0Data : Nat → List Ent := fun c => if c = 0 then [⟨4, .normal, false, 0⟩, ⟨0, .last, false, 0⟩] else []

/-- **C44, violated.** For an empty file the code follows the FAT from entry 0, which holds the medium's type.
If that is F0 (floppy disks) it is no end mark: the code goes on at entry FFF0 outside the FAT, overwrites
entry 0 and occupies a cluster for nothing. -/
theorem compact_media_violated :
    Rep listFmt eoc16 10 f0Fat f0Data 0 (visOf listFmt f0Data [0]) [.file 4 []] [] ∧
    (compact listFmt eoc16 10 0 0 f0Fat f0Data).fat 0 = 2 ∧
    (compact listFmt eoc16 10 0 0 f0Fat f0Data).fat 2 = 0xFFFF ∧
    (compact listFmt eoc16 10 0 0 f0Fat f0Data).fat 0xFFF0 = 0 := by
  refine ⟨?_, by decide +kernel, by decide +kernel, by decide +kernel⟩
  have hv : visOf listFmt f0Data [0] = [⟨4, .normal, false, 0⟩] := by rfl
  rw [hv]
  exact .empty rfl rfl .nil

/-- A volume whose root directory (FAT32) continues in cluster 8 because a file was created when it was
full: clusters 3 and 4 belong to the file, 8 to the root directory. -/
def rootFat : Nat → Nat := fun c =>
  if c = 0 then 0xFFF8 else if c = 1 then 0xFFFF else if c = 2 then 8 else if c = 8 then 0xFFFF
  else if c = 3 then 0xFFFF else 0

def rootData : Nat → List Ent := fun c =>
  if c = 2 then [⟨1, .normal, false, 3⟩] else if c = 8 then [⟨0, .last, false, 0⟩] else []

/-- **The boot loaders' check after compaction, violated.** They compact the ramdisk because its used bytes
do not end at its first free cluster, and stop with an error if they still do not. The clusters of the root
directory are never moved, so this happens with any volume whose root directory does not lie below the first
free cluster. -/
theorem compact_root_violated :
    ∃ tree cl, Stores listFmt eoc16 10 rootFat rootData 0 2 [2, 8] tree cl ∧
      (compact listFmt eoc16 10 0 2 rootFat rootData).fat 4 = 0 ∧
      (compact listFmt eoc16 10 0 2 rootFat rootData).fat 8 ≠ 0 := by
  refine ⟨[.file 1 ([3].map rootData)], [3] ++ [], ⟨by decide, Or.inl ⟨rfl, by unfold Links Links; decide⟩, ?_, by decide⟩,
    by decide +kernel, by decide +kernel⟩
  have hv : visOf listFmt rootData [2, 8] = [⟨1, .normal, false, 3⟩] := by rfl
  rw [hv]
  exact .file rfl ⟨rfl, by unfold Links; decide⟩ .nil

end Verif.FatCompact
