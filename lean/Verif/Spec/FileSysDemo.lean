import Verif.Lemmas.Script

/-! An operating system as `FileSys.Unix` asks: an executable instance. -/

namespace Verif
namespace FileSys

open Mem (Details)
open Stdos (Host)
open DiskClient (Io)
open Script (Writes)

/-- The files, the paths where there may be some, the number of the next open file and the open files. -/
structure Machine where
  files : Fs
  paths : List (List Str)
  next : Nat
  inp : Nat → Option (List Str × Nat)
  out : Nat → Option (List Str)

/-- Nothing but the root. -/
def Machine.empty : Machine where
  files := fun q => if q = [] then some .dir else none
  paths := [[]]
  next := 3
  inp := fun _ => none
  out := fun _ => none

/-- The paths on the way. -/
def prefixes (es : List Str) : List (List Str) := (List.range (es.length + 1)).map fun n => es.take n

theorem mem_prefixes {es q : List Str} : q ∈ prefixes es ↔ q <+: es := by
  unfold prefixes
  rw [List.mem_map]
  constructor
  · rintro ⟨n, _, rfl⟩; exact List.take_prefix _ _
  · intro h
    refine ⟨q.length, ?_, (List.prefix_iff_eq_take.mp h).symm⟩
    rw [List.mem_range]
    have := h.length_le
    omega

/-- Is it a regular file? -/
def isFile : Option Entry → Bool
  | some (.file _) => true
  | _ => false

theorem isFile_iff {e : Option Entry} : isFile e = true ↔ ∃ b, e = some (.file b) := by
  cases e with
  | none => simp [isFile]
  | some e => cases e <;> simp [isFile]

/-- `OverFile`, computed. -/
def overFile (fs : Fs) (es : List Str) : Bool := (prefixes es).any fun a => isFile (fs a)

theorem overFile_iff {fs : Fs} {es : List Str} : overFile fs es = true ↔ OverFile fs es := by
  unfold overFile OverFile
  rw [List.any_eq_true]
  constructor
  · rintro ⟨a, h1, h2⟩
    obtain ⟨b, h2⟩ := isFile_iff.mp h2
    exact ⟨a, b, mem_prefixes.mp h1, h2⟩
  · rintro ⟨a, b, h1, h2⟩
    exact ⟨a, mem_prefixes.mpr h1, isFile_iff.mpr ⟨b, h2⟩⟩

/-- `BelowFile`, computed. -/
def belowFile (fs : Fs) (es : List Str) : Bool := (prefixes es).any fun a => !decide (a = es) && isFile (fs a)

theorem belowFile_iff {fs : Fs} {es : List Str} : belowFile fs es = true ↔ BelowFile fs es := by
  unfold belowFile BelowFile
  rw [List.any_eq_true]
  constructor
  · rintro ⟨a, h1, h2⟩
    rw [Bool.and_eq_true] at h2
    obtain ⟨b, h3⟩ := isFile_iff.mp h2.2
    exact ⟨a, b, mem_prefixes.mp h1, by simpa using h2.1, h3⟩
  · rintro ⟨a, b, h1, h2, h3⟩
    exact ⟨a, mem_prefixes.mpr h1, by rw [Bool.and_eq_true]; exact ⟨by simpa using h2, isFile_iff.mpr ⟨b, h3⟩⟩⟩

/-- One more path. -/
def insertPath (a : List Str) (l : List (List Str)) : List (List Str) := if a ∈ l then l else a :: l

theorem mem_insertPath {a b : List Str} {l : List (List Str)} : b ∈ insertPath a l ↔ b = a ∨ b ∈ l := by
  unfold insertPath
  split
  · constructor
    · exact Or.inr
    · rintro (h | h)
      · subst h; assumption
      · exact h
  · simp

theorem nodup_insertPath {a : List Str} {l : List (List Str)} (h : l.Nodup) : (insertPath a l).Nodup := by
  unfold insertPath
  split
  · exact h
  · exact List.nodup_cons.mpr ⟨by assumption, h⟩

/-- More paths. -/
def insertPaths (as : List (List Str)) (l : List (List Str)) : List (List Str) := as.foldr insertPath l

theorem mem_insertPaths {as : List (List Str)} {b : List Str} {l : List (List Str)} : b ∈ insertPaths as l ↔ b ∈ as ∨ b ∈ l := by
  induction as with
  | nil => simp [insertPaths]
  | cons a as ih =>
    rw [show insertPaths (a :: as) l = insertPath a (insertPaths as l) from rfl, mem_insertPath, ih, List.mem_cons, or_assoc]

theorem nodup_insertPaths {as : List (List Str)} {l : List (List Str)} (h : l.Nodup) : (insertPaths as l).Nodup := by
  induction as with
  | nil => exact h
  | cons a as ih => exact nodup_insertPath ih

/-- The paths in a directory. -/
def Machine.within (s : Machine) (es : List Str) : List (List Str) :=
  s.paths.filter fun q => !decide (q = []) && decide (q.dropLast = es) && (s.files q).isSome

theorem mem_within {s : Machine} {es q : List Str} : q ∈ s.within es ↔ q ∈ s.paths ∧ s.files q ≠ none ∧ ∃ x, q = es ++ [x] := by
  unfold Machine.within
  rw [List.mem_filter, Bool.and_eq_true, Bool.and_eq_true]
  constructor
  · rintro ⟨h1, ⟨h2, h3⟩, h4⟩
    have hne : q ≠ [] := by simpa using h2
    refine ⟨h1, fun h => (by rw [h] at h4; cases h4), q.getLast hne, ?_⟩
    have h3 : q.dropLast = es := by simpa using h3
    rw [← h3, List.dropLast_concat_getLast]
  · rintro ⟨h1, h2, x, rfl⟩
    refine ⟨h1, ⟨by simp, by simp⟩, ?_⟩
    cases h : s.files (es ++ [x]) with
    | none => exact absurd h h2
    | some e => rfl

/-- What the system says about an entry. -/
def tell (q : List Str) (e : Entry) : Details where
  name := q.getLast?.getD []
  size := match e with
    | .dir => 4096
    | .file b => b.length
  mode := match e with
    | .dir => 0o20000000755
    | .file _ => 0o644
  modTime := 0
  isDir := e.isDir

theorem told_tell (q : List Str) (e : Entry) : Told (tell q e) e := by
  refine ⟨rfl, ?_⟩
  rintro b rfl
  rfl

/-- The calls. -/
def machine : Host Machine where
  create p s :=
    let es := GoPath.elems p
    if s.files es.dropLast = some .dir ∧ s.files es ≠ some .dir then
      ({ s with files := s.files.set es (.file []), paths := insertPath es s.paths, next := s.next + 1,
                out := fun g => if g = s.next then some es else s.out g }, .ok s.next)
    else (s, .error (.pathError (.other 20)))
  openFile p s :=
    match s.files (GoPath.elems p) with
    | some _ => ({ s with next := s.next + 1, inp := fun g => if g = s.next then some (GoPath.elems p, 0) else s.inp g }, .ok s.next)
    | none => (s, .error (.pathError .notExist))
  fstat fd s :=
    match s.inp fd with
    | some (es, _) => (s, .ok (tell es ((s.files es).getD .dir)))
    | none =>
      match s.out fd with
      | some es => (s, .ok (tell es ((s.files es).getD .dir)))
      | none => (s, .error (.other 20))
  readdir fd _ s :=
    match s.inp fd with
    | some (es, _) =>
      if s.files es = some .dir then (s, .ok ((s.within es).map fun q => tell q ((s.files q).getD .dir)))
      else (s, .error (.pathError (.other 20)))
    | none => (s, .error (.other 20))
  close fd s :=
    ({ s with inp := fun g => if g = fd then none else s.inp g, out := fun g => if g = fd then none else s.out g }, none)
  stat p s :=
    match s.files (GoPath.elems p) with
    | some e => (s, .ok (tell (GoPath.elems p) e))
    | none => (s, .error (.pathError .notExist))
  mkdirAll p _ s :=
    let es := GoPath.elems p
    if overFile s.files es then (s, some (.pathError (.other 20)))
    else ({ s with files := s.files.mkdirs es, paths := insertPaths (prefixes es) s.paths }, none)
  remove p s :=
    let es := GoPath.elems p
    if s.files es = none ∨ s.within es ≠ [] then (s, some (.pathError (.other 20)))
    else ({ s with files := s.files.unset es }, none)
  removeAll p s :=
    let es := GoPath.elems p
    if belowFile s.files es then (s, some (.pathError (.other 20)))
    else ({ s with files := s.files.prune es }, none)
  tree _ s := (s, .error (.other 20))
  package _ s := (s, .error (.other 20))

/-- The calls on an open file; at most three bytes are read at a time. -/
def machineIo : Io Machine where
  read fd n s :=
    match s.inp fd with
    | some (es, p) =>
      match s.files es with
      | some (.file b) =>
        if p < b.length then
          ({ s with inp := fun g => if g = fd then some (es, p + min (min n 3) (b.length - p)) else s.inp g },
            (b.drop p).take (min (min n 3) (b.length - p)), none)
        else (s, [], some .eof)
      | _ => (s, [], some (.pathError (.other 20)))
    | none => (s, [], some (.other 20))
  seek _ _ _ s := (s, 0, some (.other 20))

/-- Writing. -/
def machineWrites : Writes Machine where
  write fd c s :=
    match s.out fd with
    | some es =>
      match s.files es with
      | some (.file b) => ({ s with files := s.files.set es (.file (b ++ c)) }, c.length, none)
      | _ => (s, 0, some (.other 20))
    | none => (s, 0, some (.other 20))

/-- The files are a tree, and are found. -/
structure Machine.Ok (s : Machine) : Prop where
  tree : Tree s.files
  found : ∀ q, s.files q ≠ none → q ∈ s.paths
  nodup : s.paths.Nodup

theorem within_full {s : Machine} (hs : s.Ok) {es : List Str} : s.within es ≠ [] ↔ Full s.files es := by
  constructor
  · intro h
    obtain ⟨q, hq⟩ := List.exists_mem_of_ne_nil _ h
    obtain ⟨_, h2, x, rfl⟩ := mem_within.mp hq
    exact ⟨x, h2⟩
  · rintro ⟨x, hx⟩ h
    have : es ++ [x] ∈ s.within es := mem_within.mpr ⟨hs.found _ hx, hx, x, rfl⟩
    rw [h] at this
    cases this

theorem empty_ok : Machine.empty.Ok where
  tree := by
    refine ⟨by simp [Machine.empty], ?_, ?_⟩
    · intro es x h; simp [Machine.empty] at h
    · intro es h
      by_cases he : es = []
      · subst he; intro x hx; cases hx
      · simp [Machine.empty, he] at h
  found := by
    intro q h
    by_cases he : q = []
    · simp [Machine.empty, he]
    · simp [Machine.empty, he] at h
  nodup := by simp [Machine.empty]

/-- It is as assumed. -/
def unix : Unix machine machineIo machineWrites where
  ok := Machine.Ok
  fs := Machine.files
  inp := Machine.inp
  out := Machine.out
  tree := fun _ h => h.tree
  openThere := by
    intro s es e hok hg he
    refine ⟨_, _, by simp only [machine, GoPath.elems_mk hg, he]; rfl, ?_, ?_, ?_⟩
    · exact ⟨hok.tree, hok.found, hok.nodup⟩
    · rfl
    · simp
  openAbsent := by
    intro s es hok hg he
    exact ⟨s, _, by simp only [machine, GoPath.elems_mk hg, he]; rfl, hok, rfl⟩
  create := by
    intro s es hok hg hne h1 h2
    refine ⟨_, _, by simp only [machine, GoPath.elems_mk hg, h1, if_pos (show True ∧ s.files es ≠ some .dir from ⟨trivial, h2⟩)]; rfl, ⟨?_, ?_, ?_⟩, ?_, ?_⟩
    · have := Does.put (fs := s.files) es [] h1 h2
      exact this.tree hok.tree hne hg
    · intro q hq
      rw [mem_insertPath]
      by_cases h : q = es
      · exact Or.inl h
      · right; refine hok.found q ?_; simpa [Fs.set, h] using hq
    · exact nodup_insertPath hok.nodup
    · rfl
    · simp
  createFails := by
    intro s es hok hg hne h
    have : ¬ (s.files es.dropLast = some .dir ∧ s.files es ≠ some .dir) := by
      rintro ⟨h1, h2⟩
      rcases h with h | h
      · exact h h1
      · exact h2 h
    exact ⟨s, _, by simp only [machine, GoPath.elems_mk hg, if_neg this]; rfl, hok, rfl⟩
  fstatIn := by
    intro s fd es p e hok h1 h2
    refine ⟨s, tell es e, by simp only [machine, h1, h2, Option.getD_some], told_tell _ _, hok, rfl, h1⟩
  fstatOut := by
    intro s fd es hok h1
    cases h : s.inp fd with
    | none => exact ⟨s, _, by simp only [machine, h, h1]; rfl, hok, rfl, h1⟩
    | some x => exact ⟨s, _, by simp only [machine, h]; rfl, hok, rfl, h1⟩
  write := by
    intro s fd es b c hok h1 h2
    refine ⟨_, by simp only [machineWrites, h1, h2]; rfl, ⟨?_, ?_, ?_⟩, ?_, ?_⟩
    · have ht := hok.tree
      refine ⟨?_, ?_, ?_⟩
      · have : es ≠ [] := by rintro rfl; rw [ht.root] at h2; cases h2
        simp [Fs.set, Ne.symm this, ht.root]
      · intro q x hq
        have : s.files q = some .dir := by
          by_cases h : q ++ [x] = es
          · exact ht.up q x (by rw [h, h2]; simp)
          · exact ht.up q x (by simpa [Fs.set, h] using hq)
        have hne : q ≠ es := by rintro rfl; rw [this] at h2; cases h2
        simp [Fs.set, hne, this]
      · intro q hq
        by_cases h : q = es
        · subst h; exact ht.good _ (by rw [h2]; simp)
        · exact ht.good _ (by simpa [Fs.set, h] using hq)
    · intro q hq
      by_cases h : q = es
      · subst h; exact hok.found _ (by rw [h2]; simp)
      · exact hok.found _ (by simpa [Fs.set, h] using hq)
    · exact hok.nodup
    · rfl
    · exact h1
  read := by
    intro s fd es p b n hok h1 h2 hn hp
    refine ⟨_, min (min n 3) (b.length - p), by simp only [machineIo, h1, h2, if_pos hp]; rfl, by omega, by omega, by omega,
      ?_, ?_, ?_⟩
    · exact ⟨hok.tree, hok.found, hok.nodup⟩
    · rfl
    · simp
  readEnd := by
    intro s fd es p b n hok h1 h2 hn hp
    exact ⟨s, by simp only [machineIo, h1, h2, if_neg hp], hok, rfl, h1⟩
  readDir := by
    intro s fd es p n hok h1 h2 hn
    exact ⟨s, .pathError (.other 20), by simp only [machineIo, h1, h2], by simp, hok, rfl, h1⟩
  readdir := by
    intro s fd es hok h1 h2
    refine ⟨s, _, 0, by simp only [machine, h1, h2, if_true]; rfl, ?_, ?_, hok, rfl, h1⟩
    · rw [List.map_map, List.Nodup, List.pairwise_map]
      refine List.Pairwise.imp_of_mem ?_ (hok.nodup.filter _ : (s.within es).Nodup)
      intro a b ha hb hab he
      obtain ⟨_, _, x, rfl⟩ := mem_within.mp ha
      obtain ⟨_, _, y, rfl⟩ := mem_within.mp hb
      simp [tell] at he
      exact hab (by rw [he])
    · intro x b
      constructor
      · rintro ⟨d, hd, e1, e2⟩
        obtain ⟨q, hq, rfl⟩ := List.mem_map.mp hd
        obtain ⟨_, h4, y, rfl⟩ := mem_within.mp hq
        have hy : y = x := by simpa [tell] using e1
        subst hy
        cases hf : s.files (es ++ [y]) with
        | none => exact absurd hf h4
        | some e =>
          rw [hf] at e2
          exact ⟨e, rfl, e2⟩
      · rintro ⟨e, h3, h4⟩
        refine ⟨_, List.mem_map.mpr ⟨es ++ [x], mem_within.mpr ⟨hok.found _ (by rw [h3]; simp), by rw [h3]; simp, x, rfl⟩, rfl⟩, ?_, ?_⟩
        · simp [tell]
        · rw [h3]; exact h4
  readdirFails := by
    intro s fd es b hok h1 h2
    exact ⟨s, _, 0, by simp only [machine, h1, h2]; rfl, hok, rfl, h1⟩
  close := by
    intro s fd hok _
    exact ⟨_, rfl, ⟨hok.tree, hok.found, hok.nodup⟩, rfl⟩
  stat := by
    intro s es e hok hg he
    exact ⟨s, tell es e, by simp only [machine, GoPath.elems_mk hg, he], told_tell _ _, hok, rfl⟩
  statFails := by
    intro s es hok hg he
    exact ⟨s, _, by simp only [machine, GoPath.elems_mk hg, he]; rfl, hok, rfl⟩
  mkdirAll := by
    intro s es perm hok hg h
    have hb : overFile s.files es = false := by
      cases hb : overFile s.files es with
      | false => rfl
      | true => exact absurd (overFile_iff.mp hb) h
    refine ⟨_, by simp only [machine, GoPath.elems_mk hg, hb]; rfl, ⟨?_, ?_, ?_⟩, ?_⟩
    · by_cases hne : es = []
      · subst hne
        have : s.files.mkdirs [] = s.files := by
          funext q
          simp only [Fs.mkdirs, List.prefix_nil]
          split
          · rename_i hq; rw [hq, hok.tree.root]
          · rfl
        show Tree (s.files.mkdirs [])
        rw [this]
        exact hok.tree
      · exact (Does.mkdirAll (fs := s.files) es perm h).tree hok.tree hne hg
    · intro q hq
      rw [mem_insertPaths, mem_prefixes]
      by_cases hp : q <+: es
      · exact Or.inl hp
      · right; exact hok.found q (by simpa [Fs.mkdirs, hp] using hq)
    · exact nodup_insertPaths hok.nodup
    · rfl
  mkdirAllFails := by
    intro s es perm hok hg h
    exact ⟨s, _, by simp only [machine, GoPath.elems_mk hg, overFile_iff.mpr h, if_true]; rfl, hok, rfl⟩
  remove := by
    intro s es hok hg hne h1 h2
    have : ¬ (s.files es = none ∨ s.within es ≠ []) := by
      rintro (h | h)
      · exact h1 h
      · exact h2 ((within_full hok).mp h)
    refine ⟨_, by simp only [machine, GoPath.elems_mk hg, if_neg this]; rfl, ⟨?_, ?_, ?_⟩, ?_⟩
    · exact (Does.remove (fs := s.files) es h1 h2).tree hok.tree hne hg
    · intro q hq
      refine hok.found q ?_
      intro h
      apply hq
      simp [Fs.unset, h]
    · exact hok.nodup
    · rfl
  removeFails := by
    intro s es hok hg hne h
    have : s.files es = none ∨ s.within es ≠ [] := by
      rcases h with h | h
      · exact Or.inl h
      · exact Or.inr ((within_full hok).mpr h)
    exact ⟨s, _, by simp only [machine, GoPath.elems_mk hg, if_pos this]; rfl, hok, rfl⟩
  removeAll := by
    intro s es hok hg hne h
    have hb : belowFile s.files es = false := by
      cases hb : belowFile s.files es with
      | false => rfl
      | true => exact absurd (belowFile_iff.mp hb) h
    refine ⟨_, by simp only [machine, GoPath.elems_mk hg, hb]; rfl, ⟨?_, ?_, ?_⟩, ?_⟩
    · exact (Does.removeAll (fs := s.files) es h).tree hok.tree hne hg
    · intro q hq
      refine hok.found q ?_
      intro h
      apply hq
      simp [Fs.prune, h]
    · exact hok.nodup
    · rfl
  removeAllFails := by
    intro s es hok hg hne h
    exact ⟨s, _, by simp only [machine, GoPath.elems_mk hg, belowFile_iff.mpr h, if_true]; rfl, hok, rfl⟩

end FileSys
end Verif
