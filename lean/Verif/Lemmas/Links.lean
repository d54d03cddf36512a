import Verif.Model.Links
import Verif.Lemmas.Stuff

/-! Packaging with symbolic links that lead to regular files is adding the files they lead to. -/

namespace Verif
namespace Links

open Disk (Node)
open Mem
open Parser (File Decl)

/-! ### A tree with the bytes the links lead to -/

/-- The bytes found by opening a path. -/
def bytesAt (O : OS) (path : Str) : Str :=
  match O.stat path with
  | .ok t => t.data
  | .error _ => []

mutual
/-- The tree `filepath.Walk` sees, with the bytes found by opening the paths. -/
def mark (O : OS) (path : Str) : Node → Node
  | .file d _ => .file d (bytesAt O path)
  | .dir d kids => .dir d (markKids O path kids)

/-- `mark` of the children. -/
def markKids (O : OS) (path : Str) : List (Str × Node) → List (Str × Node)
  | [] => []
  | (name, n) :: rest => (name, mark O (GoPath.join2 path name) n) :: markKids O path rest
end

theorem mark_isDir (O : OS) (path : Str) (n : Node) : (mark O path n).isDir = n.isDir := by cases n <;> simp [mark, Node.isDir]

theorem mark_details (O : OS) (path : Str) (n : Node) : (mark O path n).details = n.details := by
  cases n <;> simp [mark, Node.details]

theorem mark_data (O : OS) (path : Str) (n : Node) :
    (mark O path n).data = if n.isDir then [] else bytesAt O path := by cases n <;> simp [mark, Node.data, Node.isDir]

theorem markKids_find (O : OS) (path w : Str) : ∀ kids : List (Str × Node),
    (markKids O path kids).find? (fun e => e.1 == w) =
      (kids.find? (fun e => e.1 == w)).map fun e => (e.1, mark O (GoPath.join2 path e.1) e.2)
  | [] => by simp [markKids]
  | (name, n) :: rest => by
    simp only [markKids, List.find?_cons]
    cases h : name == w with
    | true => simp
    | false => simpa using markKids_find O path w rest

theorem mark_find (O : OS) : ∀ (cs : List Str) (path : Str) (n : Node),
    (mark O path n).find cs = (n.find cs).map (mark O (Disk.joinAll path cs)) := by
  intro cs
  induction cs with
  | nil => intro path n; cases n <;> simp [Node.find, mark, Disk.joinAll]
  | cons c cs ih =>
    intro path n
    cases n with
    | file d b => simp [Node.find, mark]
    | dir d kids =>
      simp only [mark, Node.find, markKids_find]
      cases h : kids.find? (fun e => e.1 == c) with
      | none => simp
      | some e =>
        obtain ⟨a, k⟩ := e
        have ha : a = c := by have := List.find?_some h; simpa using this
        simp only [Option.map_some]
        rw [ih, ha]
        rfl

theorem markKids_names (O : OS) (path : Str) : ∀ kids : List (Str × Node),
    (markKids O path kids).map (·.1) = kids.map (·.1)
  | [] => rfl
  | (name, n) :: rest => by simp [markKids, markKids_names O path rest]

mutual
theorem mark_wf (O : OS) : ∀ (path : Str) (n : Node), n.WF → (mark O path n).WF
  | _, .file d b, _ => trivial
  | path, .dir d kids, h => ⟨by rw [markKids_names]; exact h.1, markKids_wf O path kids h.2⟩
theorem markKids_wf (O : OS) : ∀ (path : Str) (kids : List (Str × Node)), Node.WFKids kids → Node.WFKids (markKids O path kids)
  | _, [], _ => trivial
  | path, (name, n) :: rest, h => ⟨h.1, mark_wf O _ n h.2.1, markKids_wf O path rest h.2.2⟩
end

/-! ### Walking -/

/-- Every path of the tree can be opened, and those that are no directories lead to regular files. -/
def Leads (O : OS) (l : List (Str × Node)) : Prop :=
  ∀ e ∈ l, ∃ t, O.stat e.1 = .ok t ∧ (e.2.isDir = false → t.isDir = false)

theorem addWalkFn_mark {E : Env} {O : OS} {path : Str} {n : Node} {t : Node} (h : O.stat path = .ok t)
    (hd : n.isDir = false → t.isDir = false) (w : World) :
    (∀ d kids kids', n = .dir d kids → addWalkFn E O path n w = Mem.addWalkFn E path (.dir d kids') w) ∧
    (∀ d b, n = .file d b → addWalkFn E O path n w = Mem.addWalkFn E path (mark O path n) w) := by
  constructor
  · rintro d kids kids' rfl
    unfold addWalkFn Mem.addWalkFn
    simp only [h]
    cases Mem.parse E w path with
    | error e => rfl
    | ok pt =>
      simp only
      cases E.pkgInfo pt.pkg with
      | error e => rfl
      | ok her => simp [Node.isDir, addNode, addedObj, Node.details]
  · rintro d b rfl
    unfold addWalkFn Mem.addWalkFn
    have ht := hd rfl
    simp only [h]
    cases Mem.parse E w path with
    | error e => rfl
    | ok pt =>
      simp only
      cases E.pkgInfo pt.pkg with
      | error e => rfl
      | ok her =>
        have hf : (Node.file d b).isDir = false := rfl
        simp [hf, ht, mark, bytesAt, h, Node.details]

mutual
theorem walkNode_mark {E : Env} {O : OS} : ∀ (path : Str) (n : Node) (w : World),
    Leads O (Disk.visits (fun _ => false) path n) →
    Disk.walkNode (addWalkFn E O) path n w = Disk.walkNode (Mem.addWalkFn E) path (mark O path n) w
  | path, .file d b, w, h => by
    obtain ⟨t, h1, h2⟩ := h (path, .file d b) (by simp [Disk.visits])
    simp only [Disk.walkNode, mark]
    exact (addWalkFn_mark h1 h2 w).2 d b rfl
  | path, .dir d kids, w, h => by
    obtain ⟨t, h1, h2⟩ := h (path, .dir d kids) (by simp [Disk.visits])
    simp only [Disk.walkNode, mark]
    rw [(addWalkFn_mark h1 h2 w).1 d kids (markKids O path kids) rfl]
    generalize Mem.addWalkFn E path (.dir d (markKids O path kids)) w = m
    obtain ⟨w1, r⟩ := m
    cases r with
    | some e => rfl
    | none => exact walkKids_mark path kids w1 (fun e he => h e (by simp [Disk.visits, he]))
theorem walkKids_mark {E : Env} {O : OS} : ∀ (path : Str) (kids : List (Str × Node)) (w : World),
    Leads O (Disk.visitsKids (fun _ => false) path kids) →
    Disk.walkKids (addWalkFn E O) path kids w = Disk.walkKids (Mem.addWalkFn E) path (markKids O path kids) w
  | path, [], w, _ => by simp [Disk.walkKids, markKids]
  | path, (name, n) :: rest, w, h => by
    simp only [Disk.walkKids, markKids]
    rw [walkNode_mark (GoPath.join2 path name) n w (fun e he => h e (by simp [Disk.visitsKids, he]))]
    generalize Disk.walkNode (Mem.addWalkFn E) (GoPath.join2 path name) (mark O (GoPath.join2 path name) n) w = m
    obtain ⟨w1, r⟩ := m
    have ih := fun w => walkKids_mark (E := E) (O := O) path rest w (fun e he => h e (by simp [Disk.visitsKids, he]))
    cases r with
    | none => exact ih w1
    | some e =>
      simp only [mark_isDir]
      split
      · exact ih w1
      · rfl
end

/-! ### What is added -/

/-- What `Add` makes of a file opened as `name`: the file itself, or the directory with the bytes its entries lead to. -/
inductive Shown (O : OS) (name : Str) : Node → Prop where
  /-- a regular file, perhaps at the end of a link -/
  | file {t : Node} : O.stat name = .ok t → t.isDir = false → Shown O name t
  /-- a directory, in which every link leads to a regular file -/
  | dir {t n : Node} : O.stat name = .ok t → t.isDir = true → O.lstat name = .ok n → n.isDir = true →
      Leads O (Disk.visits (fun _ => false) name n) → Shown O name (mark O name n)

theorem addOne_shown {E : Env} {O : OS} {name : Str} {v : Node} (h : Shown O name v) (w : World) :
    ∃ t, O.stat name = .ok t ∧ addOne E O w name t = Mem.addOne E w ⟨name, v⟩ := by
  cases h with
  | file h1 h2 =>
    refine ⟨v, h1, ?_⟩
    unfold addOne Mem.addOne
    simp only [h2]
    rfl
  | @dir t n h1 h2 h3 h4 h5 =>
    refine ⟨t, h1, ?_⟩
    unfold addOne Mem.addOne
    simp only [h2, h3, mark_isDir, h4, if_true]
    have : Disk.walk (addWalkFn E O) name n w = Disk.walk (Mem.addWalkFn E) name (mark O name n) w := by
      unfold Disk.walk
      rw [walkNode_mark name n w h5]
    rw [this]
    cases Mem.parse E w name with
    | error e => rfl
    | ok pt => cases E.dirInfo name <;> rfl

/-- The files given to `Add`, with what it makes of them. -/
inductive Sources (O : OS) : List File → List OsFile → Prop where
  | nil : Sources O [] []
  | skip {f : File} {fs : List File} {os : List OsFile} : Str.hasSuffix f.abs Pack.tmp = true → Sources O fs os →
      Sources O (f :: fs) os
  | keep {f : File} {fs : List File} {v : Node} {os : List OsFile} : Str.hasSuffix f.abs Pack.tmp = false →
      Shown O f.abs v → Sources O fs os → Sources O (f :: fs) (⟨f.abs, v⟩ :: os)

theorem stuffLoop_sources {E : Env} {O : OS} {fs : List File} {os : List OsFile} (h : Sources O fs os) :
    ∀ w, stuffLoop E O fs w = Mem.add E w os := by
  induction h with
  | nil => intro w; rfl
  | skip h1 _ ih => intro w; simp only [stuffLoop, h1, if_true]; exact ih w
  | @keep f fs v os h1 h2 _ ih =>
    intro w
    obtain ⟨t, h3, h4⟩ := addOne_shown (E := E) h2 w
    simp only [stuffLoop, h1, Bool.false_eq_true, if_false, h3, h4, Mem.add]
    generalize Mem.addOne E w ⟨f.abs, v⟩ = m
    obtain ⟨w1, r⟩ := m
    cases r with
    | ok u => exact ih w1
    | err e => rfl
    | panic => rfl

theorem sources_exist {O : OS} : ∀ {fs : List File},
    (∀ f ∈ fs, Str.hasSuffix f.abs Pack.tmp = false → ∃ v, Shown O f.abs v) → ∃ os, Sources O fs os := by
  intro fs
  induction fs with
  | nil => intro _; exact ⟨[], .nil⟩
  | cons f fs ih =>
    intro h
    obtain ⟨os, hos⟩ := ih fun g hg => h g (by simp [hg])
    cases ht : Str.hasSuffix f.abs Pack.tmp with
    | true => exact ⟨os, .skip ht hos⟩
    | false =>
      obtain ⟨v, hv⟩ := h f (by simp) ht
      exact ⟨_, .keep ht hv hos⟩

theorem sources_mem {O : OS} {fs : List File} {os : List OsFile} (h : Sources O fs os) :
    (∀ o ∈ os, ∃ f ∈ fs, Str.hasSuffix f.abs Pack.tmp = false ∧ f.abs = o.name ∧ Shown O f.abs o.node) := by
  induction h with
  | nil => intro o ho; cases ho
  | skip h1 _ ih =>
    intro o ho
    obtain ⟨f, h2, h3⟩ := ih o ho
    exact ⟨f, by simp [h2], h3⟩
  | @keep f fs v os h1 h2 _ ih =>
    intro o ho
    rcases List.mem_cons.mp ho with rfl | ho
    · exact ⟨f, by simp, h1, rfl, h2⟩
    · obtain ⟨g, h3, h4⟩ := ih o ho
      exact ⟨g, by simp [h3], h4⟩

/-- The files before and after a listed one. -/
theorem sources_split {O : OS} : ∀ {pre post : List File} {f : File} {os : List OsFile},
    Sources O (pre ++ f :: post) os → Str.hasSuffix f.abs Pack.tmp = false →
    ∃ opre v opost, os = opre ++ ⟨f.abs, v⟩ :: opost ∧ Sources O pre opre ∧ Shown O f.abs v ∧ Sources O post opost := by
  intro pre
  induction pre with
  | nil =>
    intro post f os h ht
    cases h with
    | skip h1 _ => rw [ht] at h1; cases h1
    | keep h1 h2 h3 => exact ⟨[], _, _, rfl, .nil, h2, h3⟩
  | cons g pre ih =>
    intro post f os h ht
    cases h with
    | skip h1 h2 =>
      obtain ⟨opre, v, opost, h3, h4, h5, h6⟩ := ih h2 ht
      exact ⟨opre, v, opost, h3, .skip h1 h4, h5, h6⟩
    | keep h1 h2 h3 =>
      obtain ⟨opre, v, opost, rfl, h5, h6, h7⟩ := ih h3 ht
      exact ⟨_, v, opost, rfl, .keep h1 h2 h5, h6, h7⟩

/-- Later entries count. -/
theorem lastFor_append {E : Env} {here : Info} {q : Path} : ∀ {a b : List (Str × Node)},
    lastFor E here q (a ++ b) = (match lastFor E here q b with | some n => some n | none => lastFor E here q a) := by
  intro a b
  induction a with
  | nil => cases h : lastFor E here q b <;> simp [lastFor, h]
  | cons e a ih =>
    obtain ⟨p, n⟩ := e
    simp only [List.cons_append, lastFor, ih]
    cases lastFor E here q b <;> rfl

end Links
end Verif
