import Verif.Props.Files
import Verif.Lemmas.DiskSkip
import Verif.Spec.ParserDemo

/-! C39 (refutation), C60: the files of a directory declaration. -/

namespace Verif
namespace Props

open Parser Spec
open Disk (Node)
open Disk.Node (tree WF)

/-- **C39** in full: for the declarations found in any program, the list of files does not depend on the order in
which Go ranges over the map. -/
def C39_statement : Prop :=
  ∀ (E : Env) (G : GoTool) (disk : Node) (her : Info) (includes : List Str) (ds : List Decl)
    (sort sort' : List File → List File), AnyOrder G → Sorts sort → Sorts sort' →
    Parser.decls E G disk her includes = .ok ds → files E disk sort ds = files E disk sort' ds

/-- The program `pkger.Dir("/")`. -/
def dirRoot : Ast := Demo.program [Demo.callLit (b! "Dir") (b! "\"/\"")]

/-- **C39** is false of the code: with a nested module two different files can be given the same package path (see
C60), and then the order of their entries is accidental. -/
theorem C39_nested_module_refuted : ¬ C39_statement := by
  intro h
  have h2 : ∀ ds, Parser.decls Demo.env2 (Demo.tool dirRoot) Demo.disk2 Demo.info [] = .ok ds →
      files Demo.env2 Demo.disk2 Demo.sortFiles ds = files Demo.env2 Demo.disk2 Demo.sortFilesRev ds :=
    fun ds hds => h _ _ _ _ _ ds _ _ (Demo.tool_anyOrder _) Demo.sortFiles_sorts Demo.sortFilesRev_sorts hds
  have h3 : (match Parser.decls Demo.env2 (Demo.tool dirRoot) Demo.disk2 Demo.info [] with
      | .ok ds => decide (files Demo.env2 Demo.disk2 Demo.sortFiles ds = files Demo.env2 Demo.disk2 Demo.sortFilesRev ds)
      | _ => true) = false := by decide +kernel
  split at h3
  · rename_i ds hds
    exact absurd (h2 ds hds) (by simpa using h3)
  · cases h3

/-- The name of an entry relative to the module directory, as `WalkDecl.Files` computes it: empty for the module
directory itself. -/
def relName (cs : List Str) : Str := if cs = [] then [] else GoPath.mk cs

theorem trimPrefix_relName {m : List Str} (hm : m ≠ []) (cs : List Str) :
    Str.trimPrefix (GoPath.mk (m ++ cs)) (GoPath.mk m) = relName cs := by
  unfold relName
  by_cases h : cs = []
  · subst h
    have := Str.trimPrefix_append (GoPath.mk m) []
    simpa using this
  · rw [GoPath.mk_append hm h, Str.trimPrefix_append, if_neg h]

/-- Every directory of the tree `n`, found at the elements `m ++ rel`, belongs to the module `mod`, and the names in
the tree have no special meaning to `Parse`. -/
structure OneModule (E : Env) (mod : Module) (m rel : List Str) (n : Node) : Prop where
  dirs : ∀ cs k, (cs, k) ∈ tree n → k.isDir = true → ∃ i, E.dirInfo (GoPath.mk (m ++ rel ++ cs)) = .ok i ∧
    i.module = mod ∧ ParseLaws E i ∧ ∀ cs' k', (cs', k') ∈ tree n → Clear i (GoPath.mk (rel ++ cs'))
  plain : ∀ cs k, (cs, k) ∈ tree n → Plain (rel ++ cs)

theorem parse_relName {E : Env} {i : Info} (hl : ParseLaws E i) {cs : List Str} (hp : Plain cs)
    (hc : Clear i (GoPath.mk cs)) : E.parse i (relName cs) = .ok ⟨i.module.path, GoPath.mk cs⟩ := by
  unfold relName
  by_cases h : cs = []
  · subst h
    simp only [if_true]
    exact hl.empty hc
  · rw [if_neg h]
    have := hl.rooted (GoPath.mk cs) (GoPath.rooted_mk cs) ?_ (by rw [GoPath.clean_mk hp.good]; exact hc)
    · rw [this, GoPath.clean_mk hp.good]
    · intro w hw
      have : GoPath.splitSlash (GoPath.mk cs) = [] :: cs := by
        unfold GoPath.mk
        rw [GoPath.splitSlash_slash, GoPath.splitSlash_joinSlash h (fun w hw => (hp w hw).1.2.1)]
      rw [this] at hw
      rcases List.mem_cons.mp hw with rfl | hw
      · exact ⟨by simp, by simp, Str.not_endsInSpace_nil⟩
      · have := hp w hw
        exact ⟨this.2.1, this.2.2.1, this.2.2.2.2⟩

/-- The entry at the elements `rel ++ cs` is neither a path the program creates nor below one. -/
def listed (virt : Str → Bool) (rel cs : List Str) : Bool :=
  (List.range (cs.length + 1)).all fun k => !virt (relName (rel ++ cs.take k))

/-- What a directory declaration should list: every entry of the tree not created by the program, under its name on
disk and its path in the module. -/
def listing (virt : Str → Bool) (mod : Module) (m rel : List Str) (n : Node) : List (Str × Path) :=
  ((tree n).filter fun e => listed virt rel e.1).map fun e =>
    (GoPath.mk (m ++ rel ++ e.1), ⟨mod.path, GoPath.mk (rel ++ e.1)⟩)

theorem listed_iff {virt : Str → Bool} {m rel cs : List Str} (hm : m ≠ []) (hg : GoPath.Good (m ++ rel))
    (hc : GoPath.Good cs) :
    listed virt rel cs = true ↔
      Disk.openTo (fun p => virt (Str.trimPrefix p (GoPath.mk m))) (GoPath.mk (m ++ rel)) cs = true ∧
        virt (relName (rel ++ cs)) = false := by
  rw [Disk.openTo_mk hg hc]
  unfold listed
  rw [List.all_eq_true]
  simp only [List.mem_range, Bool.not_eq_true']
  constructor
  · intro h
    refine ⟨?_, ?_⟩
    · intro es he _
      have hk := h es.length (by have := he.length_le; omega)
      rw [List.append_assoc, trimPrefix_relName hm]
      rw [← List.prefix_iff_eq_take.mp he] at hk
      exact hk
    · have hk := h cs.length (by omega)
      rw [List.take_length] at hk
      exact hk
  · rintro ⟨h1, h2⟩ k _
    by_cases hk : cs.take k = cs
    · rw [hk]; exact h2
    · have := h1 (cs.take k) (List.take_prefix k cs) hk
      rw [List.append_assoc, trimPrefix_relName hm] at this
      exact this

theorem walk_dir_congr {S : Type} {cb : Disk.WalkFn S} {root : Str} {d : Mem.Details} {kids : List (Str × Node)} {s s' : S}
    (h : cb root (.dir d kids) s = cb root (.dir d kids) s') :
    Disk.walk cb root (.dir d kids) s = Disk.walk cb root (.dir d kids) s' := by
  unfold Disk.walk
  simp only [Disk.walkNode, h]

/-- **C60** for a tree of one module (missing: trees with nested modules). A directory declaration lists every entry of
the tree that is not created by the program, each once, under its name on disk and its path in the module. -/
theorem C60_directory_listing_partial {E : Env} {disk : Node} (hw : WF disk) {virt : Str → Bool} {d : Decl}
    {m rel : List Str} {n : Node} (hm : m ≠ []) (hg : GoPath.Good (m ++ rel))
    (hdir : d.file.here.module.dir = GoPath.mk m) (hname : d.file.path.name = GoPath.mk rel)
    (hn : osStat disk (GoPath.mk (m ++ rel)) = some n) (hnd : n.isDir = true)
    (hone : OneModule E d.file.here.module m rel n) :
    ∃ fs, walkFiles E disk virt d = .ok fs ∧
      fs.map (fun f => (f.abs, f.path)) = listing virt d.file.here.module m rel n ∧
      ∀ f ∈ fs, f.here.module = d.file.here.module := by
  generalize hmod : d.file.here.module = mod at *
  have hgm := (GoPath.good_append.mp hg).1
  have hgr := (GoPath.good_append.mp hg).2
  have hroot : GoPath.join2 mod.dir d.file.path.name = GoPath.mk (m ++ rel) := by
    rw [hdir, hname, GoPath.join2_mk hgm hgr]
  have hwn : WF n := Disk.find_wf _ hw hn
  -- infos that may be in force during the walk
  let Ok : Info → Prop := fun i => i.module = mod ∧
    ∀ cs k, (cs, k) ∈ tree n → E.parse i (relName (rel ++ cs)) = .ok ⟨mod.path, GoPath.mk (rel ++ cs)⟩
  have hok : ∀ cs k, (cs, k) ∈ tree n → k.isDir = true →
      ∃ i, E.dirInfo (GoPath.mk (m ++ rel ++ cs)) = .ok i ∧ Ok i := by
    intro cs k hck hkd
    obtain ⟨i, h1, h2, h3, h4⟩ := hone.dirs cs k hck hkd
    refine ⟨i, h1, h2, ?_⟩
    intro cs' k' hck'
    rw [← h2]
    exact parse_relName h3 (hone.plain cs' k' hck') (h4 cs' k' hck')
  -- one step of the callback
  have hstep : ∀ cs k (s : Info × List File), (cs, k) ∈ tree n → (k.isDir = false → Ok s.1) →
      ∃ i, Ok i ∧ walkFn E virt (GoPath.mk (m ++ rel ++ cs)) k s =
        if virt (relName (rel ++ cs)) then ((i, s.2), if k.isDir = true then some .skipDir else none)
        else ((i, s.2 ++ [⟨GoPath.mk (m ++ rel ++ cs), ⟨mod.path, GoPath.mk (rel ++ cs)⟩, i⟩]), none) := by
    intro cs k s hck hs
    have key : ∀ i, Ok i → (if k.isDir then E.dirInfo (GoPath.mk (m ++ rel ++ cs)) else .ok s.1) = .ok i →
        walkFn E virt (GoPath.mk (m ++ rel ++ cs)) k s =
        if virt (relName (rel ++ cs)) then ((i, s.2), if k.isDir = true then some .skipDir else none)
        else ((i, s.2 ++ [⟨GoPath.mk (m ++ rel ++ cs), ⟨mod.path, GoPath.mk (rel ++ cs)⟩, i⟩]), none) := by
      intro i hi he
      unfold walkFn
      simp only [he]
      rw [hi.1, hdir, List.append_assoc, trimPrefix_relName hm]
      rw [hi.2 cs k hck]
    by_cases hk : k.isDir = true
    · obtain ⟨i, h1, h2⟩ := hok cs k hck hk
      exact ⟨i, h2, key i h2 (by rw [if_pos hk, h1])⟩
    · have hk' : k.isDir = false := by simpa using hk
      exact ⟨s.1, hs hk', key s.1 (hs hk') (by rw [if_neg hk])⟩
  let skip : Str → Bool := fun p => virt (Str.trimPrefix p (GoPath.mk m))
  let V : Str × Node → Prop := fun e => ∃ cs, (cs, e.2) ∈ tree n ∧ e.1 = GoPath.mk (m ++ rel ++ cs)
  have hskip : ∀ cs, skip (GoPath.mk (m ++ rel ++ cs)) = virt (relName (rel ++ cs)) := by
    intro cs
    simp only [skip]
    rw [List.append_assoc, trimPrefix_relName hm]
  have hb : Disk.Behaves (walkFn E virt) skip (fun s => Ok s.1) V := by
    constructor
    · rintro p k s hs ⟨cs, hck, hp⟩
      simp only at hck hp
      subst hp
      obtain ⟨i, hi, he⟩ := hstep cs k s hck (fun _ => hs)
      rw [he, hskip]
      cases virt (relName (rel ++ cs)) <;> simp
    · rintro p k s hs ⟨cs, hck, hp⟩
      simp only at hck hp
      subst hp
      obtain ⟨i, hi, he⟩ := hstep cs k s hck (fun _ => hs)
      rw [he]
      cases virt (relName (rel ++ cs)) <;> exact hi
  have hvis : Disk.visits skip (GoPath.mk (m ++ rel)) n =
      ((tree n).filter fun e => Disk.openTo skip (GoPath.mk (m ++ rel)) e.1).map
        fun e => (GoPath.mk (m ++ rel ++ e.1), e.2) := by
    rw [Disk.visits_open]
    apply List.map_congr_left
    intro e he
    rw [Disk.joinAll_mk hg (Disk.tree_good n hwn e (List.mem_filter.mp he).1)]
  have hV : ∀ e ∈ Disk.visits skip (GoPath.mk (m ++ rel)) n, V e := by
    intro e he
    rw [hvis] at he
    obtain ⟨x, hx, rfl⟩ := List.mem_map.mp he
    exact ⟨x.1, (List.mem_filter.mp hx).1, rfl⟩
  -- the accumulated files
  have hrun : ∀ (l : List (List Str × Node)) (s : Info × List File), (∀ e ∈ l, e ∈ tree n) → Ok s.1 →
      ((Disk.runCb (walkFn E virt) (l.map fun e => (GoPath.mk (m ++ rel ++ e.1), e.2)) s).2.map fun f => (f.abs, f.path)) =
        s.2.map (fun f => (f.abs, f.path)) ++
          (l.filter fun e => !virt (relName (rel ++ e.1))).map fun e =>
            (GoPath.mk (m ++ rel ++ e.1), (⟨mod.path, GoPath.mk (rel ++ e.1)⟩ : Path)) := by
    intro l
    induction l with
    | nil => intro s _ _; simp [Disk.runCb]
    | cons e l ih =>
      intro s hl hs
      obtain ⟨i, hi, he⟩ := hstep e.1 e.2 s (hl e (by simp)) (fun _ => hs)
      simp only [Disk.runCb, List.map_cons, List.foldl_cons, he]
      have := ih (walkFn E virt (GoPath.mk (m ++ rel ++ e.1)) e.2 s).1 (fun x hx => hl x (by simp [hx])) (by
        rw [he]; cases virt (relName (rel ++ e.1)) <;> exact hi)
      rw [he] at this
      simp only [Disk.runCb] at this
      rw [this]
      cases hv : virt (relName (rel ++ e.1)) <;> simp [hv]
  have hmods : ∀ (l : List (List Str × Node)) (s : Info × List File), (∀ e ∈ l, e ∈ tree n) → Ok s.1 →
      (∀ f ∈ s.2, f.here.module = mod) →
      ∀ f ∈ (Disk.runCb (walkFn E virt) (l.map fun e => (GoPath.mk (m ++ rel ++ e.1), e.2)) s).2, f.here.module = mod := by
    intro l
    induction l with
    | nil => intro s _ _ h; exact h
    | cons e l ih =>
      intro s hl hs h
      obtain ⟨i, hi, he⟩ := hstep e.1 e.2 s (hl e (by simp)) (fun _ => hs)
      refine ih (walkFn E virt (GoPath.mk (m ++ rel ++ e.1)) e.2 s).1 (fun x hx => hl x (by simp [hx])) ?_ ?_
      · rw [he]; cases virt (relName (rel ++ e.1)) <;> exact hi
      · rw [he]
        cases virt (relName (rel ++ e.1))
        · intro f hf
          rcases List.mem_append.mp hf with hf | hf
          · exact h f hf
          · simp at hf; subst hf; exact hi.1
        · exact h
  -- the root sets the info
  obtain ⟨d0, kids, hnk⟩ : ∃ d0 kids, n = .dir d0 kids := by
    cases n with
    | file d b => cases hnd
    | dir d0 kids => exact ⟨d0, kids, rfl⟩
  have hrootmem : (([], n) : List Str × Node) ∈ tree n := (Disk.mem_tree_iff _ _ _ hwn).mpr (by cases n <;> rfl)
  obtain ⟨i0, hi0, hi0ok⟩ := hok [] n hrootmem hnd
  rw [List.append_nil] at hi0
  have hstart : Disk.walk (walkFn E virt) (GoPath.mk (m ++ rel)) n (d.file.here, []) =
      Disk.walk (walkFn E virt) (GoPath.mk (m ++ rel)) n (i0, []) := by
    subst hnk
    apply walk_dir_congr
    unfold walkFn
    simp only [Disk.Node.isDir, if_true, hi0]
  have hwalk := Disk.walk_visits hb (GoPath.mk (m ++ rel)) n (i0, []) hi0ok hV
  unfold walkFiles
  simp only [hmod, hroot, hn, hstart, hwalk]
  refine ⟨_, rfl, ?_, ?_⟩
  · rw [hvis, hrun _ _ (fun e he => (List.mem_filter.mp he).1) hi0ok]
    unfold listing
    rw [List.filter_filter]
    simp only [List.map_nil, List.nil_append]
    congr 1
    apply List.filter_congr
    intro e he
    have := listed_iff (virt := virt) hm hg (Disk.tree_good n hwn e he)
    rw [Bool.eq_iff_iff, this, Bool.and_eq_true, Bool.not_eq_true', And.comm]
  · rw [hvis]
    exact hmods _ _ (fun e he => (List.mem_filter.mp he).1) hi0ok (by simp)

/-- **C60** in full: for the declarations found in any program, every listed file is at the place its package path
stands for. -/
def C60_statement : Prop :=
  ∀ (E : Env) (G : GoTool) (disk : Node) (her : Info) (includes : List Str) (ds : List Decl)
    (sort : List File → List File), AnyOrder G → Sorts sort → (∀ p i, E.dirInfo p = .ok i → ParseLaws E i) →
    Parser.decls E G disk her includes = .ok ds → ∀ fs, files E disk sort ds = .ok fs →
    ∀ f ∈ fs, GoPath.join2 f.here.module.dir f.path.name = f.abs

theorem demo2_laws : ∀ p i, Demo.env2.dirInfo p = .ok i → ParseLaws Demo.env2 i := by
  intro p i h
  have : i = Demo.subInfo ∨ i = Demo.libInfo ∨ i = Demo.info := by
    change Demo.dirInfo2 p = .ok i at h
    unfold Demo.dirInfo2 Demo.dirInfo at h
    split at h
    · cases h; simp
    · split at h
      · cases h; simp
      · split at h
        · cases h; simp
        · cases h
  rcases this with rfl | rfl | rfl
  · exact HereParse.lawful ⟨by decide, Or.inr ⟨[b! "src", b! "app", b! "sub"], by decide, by decide, by decide⟩⟩ _ _ _ _
  · exact HereParse.lawful ⟨by decide, Or.inr ⟨[b! "src", b! "lib"], by decide, by decide, by decide⟩⟩ _ _ _ _
  · exact HereParse.lawful Demo.info_ok _ _ _ _

/-- **C60** is false of the code: in a directory that contains a nested module, the entries after it are listed as if
they belonged to the nested module. Here `/src/app/z` is listed as `sub:/src/app/z`. -/
theorem C60_nested_module_refuted : ¬ C60_statement := by
  intro h
  have h3 : (match Parser.decls Demo.env2 (Demo.tool dirRoot) Demo.disk2 Demo.info [] with
      | .ok ds =>
        match files Demo.env2 Demo.disk2 Demo.sortFiles ds with
        | .ok fs => fs.all fun f => GoPath.join2 f.here.module.dir f.path.name = f.abs
        | _ => true
      | _ => true) = false := by decide +kernel
  split at h3
  · rename_i ds hds
    split at h3
    · rename_i fs hfs
      have := h _ _ _ _ _ ds _ (Demo.tool_anyOrder _) Demo.sortFiles_sorts demo2_laws hds fs hfs
      rw [List.all_eq_false] at h3
      obtain ⟨f, hf, hne⟩ := h3
      exact hne (by simpa using this f hf)
    · cases h3
  · cases h3

/-- The declaration `pkger.Dir("/")` in the demo module. -/
def demoDir : Decl := ⟨.dir, ⟨b! "/src/app", ⟨b! "app", b! "/"⟩, Demo.info⟩, b! "/"⟩

/-- The hypotheses are met by the demo module without the nested module, with one path created by the program. -/
example :
    WF Demo.disk1 ∧
    ∃ n, osStat Demo.disk1 (GoPath.mk ([b! "src", b! "app"] ++ [])) = some n ∧ n.isDir = true ∧
      OneModule Demo.env demoDir.file.here.module [b! "src", b! "app"] [] n ∧
      listing (fun x => x == b! "/assets") demoDir.file.here.module [b! "src", b! "app"] [] n =
        [(b! "/src/app", ⟨b! "app", b! "/"⟩), (b! "/src/app/main.go", ⟨b! "app", b! "/main.go"⟩),
         (b! "/src/app/readme", ⟨b! "app", b! "/readme"⟩)] := by
  refine ⟨by decide +kernel, _, rfl, rfl, ⟨?_, ?_⟩, by decide +kernel⟩
  · intro cs k hck hk
    refine ⟨Demo.info, ?_, rfl, Demo.laws, ?_⟩
    · have : ∀ e ∈ tree (Disk.Node.dir ⟨b! "app", 4096, 2147484141, 0, true⟩
          [Demo.dirNode (b! "assets") [Demo.fileNode (b! "a.txt") (b! "aaa"), Demo.fileNode (b! "b.txt") (b! "bbb")],
            Demo.fileNode (b! "main.go") (b! "package main"), Demo.fileNode (b! "readme") (b! "hello")]),
          e.2.isDir = true → Demo.env.dirInfo (GoPath.mk ([b! "src", b! "app"] ++ [] ++ e.1)) = .ok Demo.info := by
        decide +kernel
      exact this (cs, k) hck hk
    · intro cs' k' hck'
      have : ∀ e ∈ tree (Disk.Node.dir ⟨b! "app", 4096, 2147484141, 0, true⟩
          [Demo.dirNode (b! "assets") [Demo.fileNode (b! "a.txt") (b! "aaa"), Demo.fileNode (b! "b.txt") (b! "bbb")],
            Demo.fileNode (b! "main.go") (b! "package main"), Demo.fileNode (b! "readme") (b! "hello")]),
          Clear Demo.info (GoPath.mk ([] ++ e.1)) := by decide +kernel
      exact this (cs', k') hck'
  · intro cs k hck
    have : ∀ e ∈ tree (Disk.Node.dir ⟨b! "app", 4096, 2147484141, 0, true⟩
        [Demo.dirNode (b! "assets") [Demo.fileNode (b! "a.txt") (b! "aaa"), Demo.fileNode (b! "b.txt") (b! "bbb")],
          Demo.fileNode (b! "main.go") (b! "package main"), Demo.fileNode (b! "readme") (b! "hello")]),
        Plain ([] ++ e.1) := by decide +kernel
    exact this (cs, k) hck

end Props
end Verif
