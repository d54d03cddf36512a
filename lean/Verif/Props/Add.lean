import Verif.Lemmas.Add
import Verif.Lemmas.Mkdir
import Verif.Spec.Reach
import Verif.Spec.ParserDemo

/-! C58: adding files and directories from disk to an in-memory Pkger. -/

namespace Verif
namespace Props

open Mem
open Disk (Node)

/-- Two entries of the tree below `f` that designate the same package path are the same entry. -/
def Distinct (E : Env) (here : Info) (f : OsFile) : Prop :=
  ∀ cs n cs' n' pt, f.node.find cs = some n → f.node.find cs' = some n' →
    E.parse here (Disk.joinAll f.name cs) = .ok pt → E.parse here (Disk.joinAll f.name cs') = .ok pt → cs = cs'

/-- **C58** in full: after a successful `Add` of one opened file or directory, opening any entry of its tree gives
the entry's details and exactly its bytes. -/
def C58_statement : Prop :=
  ∀ (E : Env) (i : Info) (w w' : World) (f : OsFile), ParseLaws E i → NoSkip E → Reached E i w → f.node.WF →
    add E w [f] = (w', .ok ()) → ∀ cs n, f.node.find cs = some n → ∀ name pt,
      E.parse i (Disk.joinAll f.name cs) = .ok pt → E.parse i name = .ok pt →
      statView E w' name = .ok n.details ∧ openView E w' name = .ok (n.details, n.data)

theorem mem_entries {f : OsFile} (hn : f.node.WF) {p : Str} {n : Node} :
    (p, n) ∈ f.entries ↔ ∃ cs, f.node.find cs = some n ∧ p = Disk.joinAll f.name cs := by
  unfold OsFile.entries
  rw [List.mem_map]
  constructor
  · rintro ⟨⟨cs, m⟩, h1, h2⟩
    injection h2 with h2 h3
    subst h3
    exact ⟨cs, (Disk.mem_tree_iff cs f.node m hn).mp h1, h2.symm⟩
  · rintro ⟨cs, h1, rfl⟩
    exact ⟨(cs, n), (Disk.mem_tree_iff cs f.node n hn).mpr h1, rfl⟩

theorem added_views {E : Env} {w' : World} {her : Info} {pt : Path} {n : Node} {name : Str}
    (hl : lookup w' pt = some (addedObj her pt n)) (hp : E.parse w'.here name = .ok pt) :
    statView E w' name = .ok n.details ∧ openView E w' name = .ok (n.details, n.data) := by
  rw [statView_eq, openView_eq, hp]
  simp only [hl, addedObj, newFileInfo, FileObj.bytes]
  refine ⟨trivial, ?_⟩
  cases n <;> rfl

/-- **C58** where different entries have different package paths (missing: trees in which two names designate the
same package path, for which C58 is false, see `C58_refuted`): every entry of the tree can be opened afterwards, and
gives the details and exactly the bytes it has on disk. -/
theorem C58_entries_partial {E : Env} (hs : NoSkip E) {i : Info} {w w' : World} (hr : Reached E i w) {f : OsFile}
    (hn : f.node.WF) (hd : Distinct E i f) (h : add E w [f] = (w', .ok ())) {cs : List Str} {n : Node}
    (hf : f.node.find cs = some n) {name : Str} {pt : Path}
    (hp : E.parse i (Disk.joinAll f.name cs) = .ok pt) (hname : E.parse i name = .ok pt) :
    statView E w' name = .ok n.details ∧ openView E w' name = .ok (n.details, n.data) := by
  have ha := add_added hs h
  have hh : w.here = i := hr.here
  simp only [List.flatMap_cons, List.flatMap_nil, List.append_nil] at ha
  have hlast : lastFor E i pt f.entries = some n := by
    refine lastFor_unique ((mem_entries hn).mpr ⟨cs, hf, rfl⟩) hp ?_
    rintro ⟨p, m⟩ he hpe
    obtain ⟨cs', h1, rfl⟩ := (mem_entries hn).mp he
    have := hd cs n cs' m pt hf h1 hp hpe
    subst this
    rw [hf] at h1
    injection h1 with h1
    exact h1.symm
  have hl := ha.lookup hr.inv.wf pt
  rw [hh, hlast] at hl
  obtain ⟨her, _, hl⟩ := hl
  exact added_views hl (by rw [ha.here, hh]; exact hname)

/-- **C58** (nothing else): `Add` leaves every name alone that designates no entry of the added trees. -/
theorem C58_others_untouched {E : Env} (hs : NoSkip E) {i : Info} {w w' : World} (hr : Reached E i w)
    {fs : List OsFile} (hn : ∀ f ∈ fs, f.node.WF) (h : add E w fs = (w', .ok ())) {name : Str}
    (hno : ∀ f ∈ fs, ∀ cs n pt, f.node.find cs = some n → E.parse i (Disk.joinAll f.name cs) = .ok pt →
      E.parse i name ≠ .ok pt) : SameAt E w w' name := by
  have ha := add_added hs h
  have hh : w.here = i := hr.here
  refine sameAt_of_lookup ha.here ?_
  intro pt hp
  have hl := ha.lookup hr.inv.wf pt
  rw [lastFor_none] at hl
  · exact hl
  · rintro ⟨p, n⟩ he hpe
    obtain ⟨f, hf, he⟩ := List.mem_flatMap.mp he
    obtain ⟨cs, h1, rfl⟩ := (mem_entries (hn f hf)).mp he
    rw [hh] at hp hpe
    exact hno f hf cs n pt h1 hpe hp

/-- **C58** (idempotence): adding the same files a second time succeeds as well and changes nothing a caller can see. -/
theorem C58_idempotent {E : Env} (hs : NoSkip E) {i : Info} {w w' : World} (hr : Reached E i w) {fs : List OsFile}
    (h : add E w fs = (w', .ok ())) : ∃ w'', add E w' fs = (w'', .ok ()) ∧ SameView E w' w'' := by
  have ha := add_added hs h
  have he := add_err (E := E) fs (w := w) (w' := w') ha.here
  rw [h] at he
  generalize h2 : add E w' fs = m at he
  obtain ⟨w'', r⟩ := m
  simp only at he
  subst he
  refine ⟨w'', rfl, ?_⟩
  have ha2 := add_added hs h2
  intro name
  unfold SameAt
  rw [statView_eq, statView_eq, openView_eq, openView_eq, ha2.here]
  cases hp : E.parse w'.here name with
  | error e => exact ⟨rfl, rfl⟩
  | ok pt =>
    simp only
    have hl := ha.lookup hr.inv.wf pt
    have hl2 := ha2.lookup (ha.wf hr.inv.wf) pt
    rw [ha.here] at hl2
    cases hlast : lastFor E w.here pt (fs.flatMap OsFile.entries) with
    | none => rw [hlast] at hl2; simp only at hl2; simp [hl2]
    | some n =>
      rw [hlast] at hl hl2
      obtain ⟨her, _, hl⟩ := hl
      obtain ⟨her2, _, hl2⟩ := hl2
      simp [hl, hl2, addedObj, FileObj.bytes]

/-- An opened file or directory at the elements `rel` inside the directory of the package `i`, whose tree has names
without a special meaning to `Parse`, and whose package the Go tool knows. -/
structure Inside (E : Env) (i : Info) (rel : List Str) (f : OsFile) : Prop where
  name : f.name = GoPath.join2 i.dir (GoPath.mk rel)
  dir : i.dir ≠ []
  wf : f.node.WF
  plain : ∀ cs n, f.node.find cs = some n → Plain (rel ++ cs)
  clear : ∀ cs n, f.node.find cs = some n → Clear i (GoPath.mk (rel ++ cs))
  pkg : ∃ j, E.pkgInfo i.module.path = .ok j
  owner : ∃ j, E.dirInfo (if f.node.isDir then f.name else GoPath.dir f.name) = .ok j

theorem Inside.path {E : Env} {i : Info} (ho : InfoOk i) {rel : List Str} {f : OsFile}
    (hi : Inside E i rel f) {cs : List Str} {n : Node} (hf : f.node.find cs = some n) :
    Disk.joinAll f.name cs = GoPath.join2 i.dir (GoPath.mk (rel ++ cs)) := by
  rcases ho.dirOk with h | ⟨ds, hd, hp, he⟩
  · exact absurd h hi.dir
  · have hg := plain_append.mp (hi.plain cs n hf)
    rw [hi.name, he, GoPath.join2_mk hp.good hg.1.good, Disk.joinAll_mk ?_ hg.2.good,
      GoPath.join2_mk hp.good (hi.plain cs n hf).good, List.append_assoc]
    rw [GoPath.good_append]
    exact ⟨hp.good, hg.1.good⟩

theorem Inside.parse {E : Env} {i : Info} (hl : ParseLaws E i) (ho : InfoOk i) {rel : List Str} {f : OsFile}
    (hi : Inside E i rel f) {cs : List Str} {n : Node} (hf : f.node.find cs = some n) :
    E.parse i (Disk.joinAll f.name cs) = .ok ⟨i.module.path, GoPath.mk (rel ++ cs)⟩ := by
  rw [hi.path ho hf]
  exact hl.absolute _ hi.dir (hi.plain cs n hf) (hi.clear cs n hf)

theorem plain_parse {E : Env} {i : Info} (hl : ParseLaws E i) {cs : List Str} (hp : Plain cs)
    (hc : Clear i (GoPath.mk cs)) : E.parse i (GoPath.mk cs) = .ok ⟨i.module.path, GoPath.mk cs⟩ := by
  have ho : Ord cs := fun w hw => ⟨(hp w hw).1, (hp w hw).2.1, (hp w hw).2.2.1, (hp w hw).2.2.2.2⟩
  rw [(ordinary_mk ho hc).parse hl, GoPath.rootedElems_mk hp.good]

/-- `Add` of a file or directory inside the package's directory succeeds. -/
theorem add_inside {E : Env} {i : Info} (hl : ParseLaws E i) (ho : InfoOk i) {rel : List Str} {f : OsFile}
    (hi : Inside E i rel f) {w : World} (hh : w.here = i) : ∃ w', add E w [f] = (w', .ok ()) := by
  obtain ⟨j, hj⟩ := hi.pkg
  obtain ⟨k, hk⟩ := hi.owner
  have hroot : E.parse i f.name = .ok ⟨i.module.path, GoPath.mk rel⟩ := by
    have := hi.parse hl ho (cs := []) (n := f.node) (by simp [Disk.Node.find])
    simpa [Disk.joinAll] using this
  have hb : Disk.Behaves (addWalkFn E) (fun _ => false) (fun w => w.here = i)
      (fun e => ∃ cs, f.node.find cs = some e.2 ∧ e.1 = Disk.joinAll f.name cs) := by
    constructor
    · rintro p n s hs ⟨cs, h1, h2⟩
      simp only at h1 h2
      subst h2
      simp [addWalkFn, Mem.parse, hs, hi.parse hl ho h1, hj]
    · rintro p n s hs ⟨cs, h1, h2⟩
      rw [here_addWalkFn]
      exact hs
  simp only [add, addOne, Mem.parse, hh, hroot, hk]
  by_cases hd : f.node.isDir = true
  · rw [if_pos hd]
    rw [Disk.walk_visits hb f.name f.node w hh ?_]
    · exact ⟨_, rfl⟩
    · rw [Disk.visits_tree]
      rintro ⟨p, n⟩ he
      exact (mem_entries hi.wf).mp he
  · rw [if_neg hd]
    exact ⟨_, rfl⟩

/-- **C58** for a file or directory inside the package's own directory with plain names (missing: directories outside
the package's directory and names with a special meaning): `Add` succeeds; every entry of the tree is then found
under its path relative to the package directory, with its details and exactly its bytes; different entries are found
under different paths; and every name designating no entry is left alone. -/
theorem C58_inside_partial {E : Env} (hs : NoSkip E) {i : Info} (hl : ParseLaws E i) (ho : InfoOk i)
    {rel : List Str} {f : OsFile} (hi : Inside E i rel f) {w : World} (hr : Reached E i w) :
    ∃ w', add E w [f] = (w', .ok ()) ∧
      (∀ cs n, f.node.find cs = some n →
        statView E w' (GoPath.mk (rel ++ cs)) = .ok n.details ∧
        openView E w' (GoPath.mk (rel ++ cs)) = .ok (n.details, n.data)) ∧
      (∀ name, (∀ cs n, f.node.find cs = some n → E.parse i name ≠ .ok ⟨i.module.path, GoPath.mk (rel ++ cs)⟩) →
        SameAt E w w' name) := by
  obtain ⟨w', h⟩ := add_inside hl ho hi (w := w) hr.here
  refine ⟨w', h, ?_, ?_⟩
  · intro cs n hf
    have hd : Distinct E i f := by
      intro cs n cs' n' pt h1 h2 h3 h4
      rw [hi.parse hl ho h1] at h3
      rw [hi.parse hl ho h2] at h4
      injection h3 with h3
      injection h4 with h4
      rw [← h4] at h3
      injection h3 with _ h5
      exact List.append_cancel_left (GoPath.mk_injective (hi.plain _ _ h1).good (hi.plain _ _ h2).good h5)
    exact C58_entries_partial hs hr hi.wf hd h hf (hi.parse hl ho hf)
      (plain_parse hl (hi.plain cs n hf) (hi.clear cs n hf))
  · intro name hno
    refine C58_others_untouched hs hr (by simpa using hi.wf) h ?_
    intro g hg cs n pt hf hp
    simp only [List.mem_singleton] at hg
    subst hg
    rw [hi.parse hl ho hf] at hp
    injection hp with hp
    rw [← hp]
    exact hno cs n hf

/-- The demo environment never answers with `SkipDir`. -/
theorem demo_noSkip : NoSkip Demo.env where
  parse := by
    intro i p h
    change HereParse.parse i p = _ at h
    unfold HereParse.parse at h
    simp only at h
    split at h
    · cases h
    · split at h <;> cases h
  pkgInfo := by
    intro p h
    change Demo.pkgInfo p = _ at h
    unfold Demo.pkgInfo at h
    split at h
    · cases h
    · split at h <;> cases h

/-- The directory `/src/app/assets` of the demo disk. -/
def demoAssets : OsFile :=
  ⟨b! "/src/app/assets", (Demo.dirNode (b! "assets")
    [Demo.fileNode (b! "a.txt") (b! "aaa"), Demo.fileNode (b! "b.txt") (b! "bbb")]).2⟩

theorem demoAssets_find : ∀ cs n, demoAssets.node.find cs = some n → (cs, n) ∈ demoAssets.node.tree :=
  fun cs n h => (Disk.mem_tree_iff cs _ n (by decide +kernel)).mpr h

theorem demoAssets_inside : Inside Demo.env Demo.info [b! "assets"] demoAssets where
  name := by decide +kernel
  dir := by decide
  wf := by decide +kernel
  plain := by
    intro cs n h
    have : ∀ e ∈ demoAssets.node.tree, Plain ([b! "assets"] ++ e.1) := by decide +kernel
    exact this _ (demoAssets_find cs n h)
  clear := by
    intro cs n h
    have : ∀ e ∈ demoAssets.node.tree, Clear Demo.info (GoPath.mk ([b! "assets"] ++ e.1)) := by decide +kernel
    exact this _ (demoAssets_find cs n h)
  pkg := ⟨Demo.info, by decide +kernel⟩
  owner := ⟨Demo.info, by decide +kernel⟩

/-- A concrete case: the hypotheses hold of the demo module's assets, and `/assets/b.txt` then reads `bbb`. -/
example : ∃ w', add Demo.env Demo.w0 [demoAssets] = (w', .ok ()) ∧
    openView Demo.env w' (b! "/assets/b.txt") = .ok (⟨b! "b.txt", 3, 420, 0, false⟩, b! "bbb") := by
  obtain ⟨w', h1, h2, _⟩ := C58_inside_partial demo_noSkip Demo.laws Demo.info_ok demoAssets_inside
    (w := Demo.w0) (Reached.ofNew 1000 [] (by simp))
  exact ⟨w', h1, (h2 [b! "b.txt"] _ rfl).2⟩

/-- Concrete cases of `C58_idempotent` and `C58_others_untouched`: adding the assets twice, and a file that was there
before. -/
example : ∃ w' w'', add Demo.env (Demo.after [.create (b! "/other")]) [demoAssets] = (w', .ok ()) ∧
    add Demo.env w' [demoAssets] = (w'', .ok ()) ∧ SameView Demo.env w' w'' ∧
    SameAt Demo.env (Demo.after [.create (b! "/other")]) w' (b! "/other") := by
  have hr : Reached Demo.env Demo.info (Demo.after [.create (b! "/other")]) := Reached.ofNew 1000 [.create (b! "/other")] (by simp [Op.HostOk])
  obtain ⟨w', h1, _, _⟩ := C58_inside_partial demo_noSkip Demo.laws Demo.info_ok demoAssets_inside hr
  obtain ⟨w'', h2, h3⟩ := C58_idempotent demo_noSkip hr h1
  refine ⟨w', w'', h1, h2, h3, ?_⟩
  refine C58_others_untouched demo_noSkip hr (by decide +kernel) h1 ?_
  intro f hf cs n pt hn hp
  rw [List.mem_singleton] at hf
  subst hf
  have : ∀ e ∈ demoAssets.node.tree, Demo.env.parse Demo.info (Disk.joinAll demoAssets.name e.1) ≠
      Demo.env.parse Demo.info (b! "/other") := by decide +kernel
  intro ho
  exact this _ (demoAssets_find cs n hn) (hp.trans ho.symm)

/-- A directory with two files whose names differ in trailing white space only. -/
def spaced : OsFile :=
  ⟨b! "/src/app/d", (Demo.dirNode (b! "d") [Demo.fileNode (b! "a") (b! "1"), Demo.fileNode (b! "a ") (b! "2")]).2⟩

/-- **C58** is false of the code (given the reconstruction of `Parse`, which trims white space): of two files whose
names differ in trailing white space only, one is lost. -/
theorem C58_refuted : ¬ C58_statement := by
  intro h
  have hok : (add Demo.env Demo.w0 [spaced]).2 = .ok () := by decide +kernel
  have := h Demo.env Demo.info Demo.w0 (add Demo.env Demo.w0 [spaced]).1 spaced Demo.laws demo_noSkip
    (Reached.ofNew 1000 [] (by simp)) (by decide +kernel) (by rw [← hok]) [b! "a"] _ rfl (b! "/d/a") ⟨b! "app", b! "/d/a"⟩
    (by decide +kernel) (by decide +kernel)
  have h2 := this.2
  have h3 : (match openView Demo.env (add Demo.env Demo.w0 [spaced]).1 (b! "/d/a") with
      | .ok (_, b) => b == b! "1"
      | _ => true) = false := by decide +kernel
  rw [h2] at h3
  exact absurd h3 (by decide)

end Props
end Verif
