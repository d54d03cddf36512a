import Verif.Spec.Scan
import Verif.Lemmas.Scan
import Verif.Spec.ParserDemo

/-! C43: which directories are scanned. -/

namespace Verif
namespace Props

open Parser Spec
open Disk (Node)
open Disk.Node (tree WF)

/-- **C43** in full: the declarations of a module are the included ones and those of every directory on whose way from
the root of the module there is no ignored directory, in order. -/
def C43_statement : Prop :=
  ∀ (E : Env) (G : GoTool) (disk : Node) (her : Info) (includes : List Str) (m : DeclMap) (root : List Str) (n : Node),
    WF disk → GoPath.Good root → her.dir = GoPath.mk root → disk.find root = some n →
    parse E G disk her includes = .ok m →
    ∃ inc, IncludesDeclare E her includes inc ∧
      ∃ f : List Str × Node → DeclMap,
        (∀ e ∈ scannedDirs IgnoredName n, DirDeclares E G (GoPath.mk (root ++ e.1)) e.2 (f e)) ∧
        ∀ k, m k = onlyIncludes inc k ++ (scannedDirs IgnoredName n).flatMap fun e => f e k

theorem ignored_iff {a : List Str} {c : Str} (hc : GoPath.GoodElem c) :
    ignored (GoPath.mk (a ++ [c])) = true ↔ IgnoredPrefix c := by
  unfold ignored ignoredFolders IgnoredPrefix
  rw [GoPath.base_mk_snoc hc]
  simp only [List.any_cons, List.any_nil, Bool.or_false, Bool.or_eq_true, Str.hasPrefix_iff]
  have h1 : ([46] : Str) <+: c ↔ c.head? = some 46 := by cases c <;> simp [eq_comm]
  have h2 : ([95] : Str) <+: c ↔ c.head? = some 95 := by cases c <;> simp [eq_comm]
  rw [h1, h2]
  constructor
  · rintro (h | h | h | h | h) <;> simp [h]
  · rintro (h | h | h | h | h) <;> simp [h]

theorem scanFn_skip {E : Env} {G : GoTool} (p : Str) (n : Node) (s : Scan) :
    (scanFn (visitDir E G) p n s).2 = some .skipDir ↔ n.isDir = true ∧ ignored p = true := by
  unfold scanFn
  by_cases hd : n.isDir = false
  · simp [hd]
  · have hd' : n.isDir = true := by simpa using hd
    rw [if_neg hd]
    by_cases hi : ignored p = true
    · simp [hi, hd']
    · rw [if_neg hi]
      simp only [hd', hi, and_false, iff_false, Bool.false_eq_true]
      unfold visitDir
      split
      · simp
      · split
        · simp
        · split <;> simp

theorem parseFiles_ok {G : GoTool} {abs : Str} {pt : Path} {her : Info} : ∀ {kids : List (Str × Node)} {srcs : List Source},
    parseFiles G abs pt her kids = .ok srcs ↔ ∃ ast : Str × Str → Ast × (Nat → Obj),
      (∀ e ∈ goFiles kids, G.parse (GoPath.join2 abs e.1) e.2 = .ok (ast e)) ∧
      srcs = (goFiles kids).map fun e => ⟨GoPath.join2 abs e.1, pt, her, (ast e).1, (ast e).2⟩ := by
  intro kids
  induction kids with
  | nil =>
    intro srcs
    simp only [parseFiles, goFiles, List.filterMap_nil, List.not_mem_nil, false_implies, implies_true, List.map_nil,
      true_and, Except.ok.injEq]
    exact ⟨fun h => ⟨fun _ => (.other [], fun _ => ⟨false, none⟩), h.symm⟩, fun ⟨_, h⟩ => h.symm⟩
  | cons e kids ih =>
    intro srcs
    obtain ⟨name, node⟩ := e
    cases node with
    | dir d k =>
      have hg : goFiles ((name, .dir d k) :: kids) = goFiles kids := by simp [goFiles]
      rw [hg]
      simp only [parseFiles]
      exact ih
    | file d data =>
      by_cases hs : b! ".go" <:+ name
      · have hg : goFiles ((name, .file d data) :: kids) = (name, data) :: goFiles kids := by simp [goFiles, hs]
        rw [hg]
        have hs' : Str.hasSuffix name (b! ".go") = true := (Str.hasSuffix_iff _ _).mpr hs
        simp only [parseFiles, hs', if_true]
        constructor
        · intro h
          split at h
          · cases h
          · rename_i a o hp
            split at h
            · cases h
            · rename_i rest hr
              cases h
              obtain ⟨ast, h1, h2⟩ := ih.mp hr
              classical
              refine ⟨fun e => if e = (name, data) then (a, o) else ast e, ?_, ?_⟩
              · intro e he
                by_cases hee : e = (name, data)
                · subst hee; simpa using hp
                · rcases List.mem_cons.mp he with rfl | he
                  · exact absurd rfl hee
                  · simp only [hee, if_false]; exact h1 e he
              · simp only [List.map_cons, if_true, List.cons.injEq, true_and]
                rw [h2]
                apply List.map_congr_left
                intro e he
                by_cases hee : e = (name, data)
                · subst hee
                  have := h1 _ he
                  simp only at this
                  rw [hp] at this
                  injection this with this
                  simp [← this]
                · simp [hee]
        · rintro ⟨ast, h1, rfl⟩
          have h0 := h1 (name, data) (by simp)
          simp only at h0
          rw [h0]
          have := ih.mpr ⟨ast, fun e he => h1 e (by simp [he]), rfl⟩
          simp only [this, List.map_cons]
      · have hg : goFiles ((name, .file d data) :: kids) = goFiles kids := by simp [goFiles, hs]
        rw [hg]
        have hs' : ¬ Str.hasSuffix name (b! ".go") = true := fun h => hs ((Str.hasSuffix_iff _ _).mp h)
        simp only [parseFiles, hs', if_false, Bool.false_eq_true]
        exact ih

theorem parseDir_sources {E : Env} {G : GoTool} {path : Str} {kids : List (Str × Node)} {srcs : List Source} :
    parseDir E G path kids = .ok srcs ↔ Sources E G path kids srcs := by
  unfold parseDir Sources
  constructor
  · intro h
    split at h
    · cases h
    · rename_i her h1
      split at h
      · cases h
      · rename_i pt h2
        split at h
        · cases h
        · rename_i l h3
          cases h
          obtain ⟨ast, h4, h5⟩ := parseFiles_ok.mp h3
          exact ⟨her, pt, ast, h1, h2, h4, by rw [h5]⟩
  · rintro ⟨her, pt, ast, h1, h2, h3, rfl⟩
    simp only [h1, h2, parseFiles_ok.mpr ⟨ast, h3, rfl⟩]

theorem newInclude_iff {E : Env} {her : Info} {inc : Str} {d : Decl} :
    newInclude E her inc = .ok d ↔ IncludeDeclares E her inc d := by
  unfold newInclude IncludeDeclares
  constructor
  · intro h
    split at h
    · cases h
    · rename_i pt hp
      by_cases hc : pt.pkg = her.importPath
      · simp only [hc, ne_eq, not_true_eq_false, if_false, Except.ok.injEq] at h
        exact ⟨pt, her, hp, by rw [if_pos hc], by rw [← h]⟩
      · simp only [ne_eq, hc, not_false_eq_true, if_true] at h
        split at h
        · cases h
        · rename_i o ho
          cases h
          exact ⟨pt, o, hp, by rw [if_neg hc]; exact ho, rfl⟩
  · rintro ⟨pt, o, hp, ho, rfl⟩
    rw [hp]
    by_cases hc : pt.pkg = her.importPath
    · rw [if_pos hc] at ho
      subst ho
      simp [hc]
    · rw [if_neg hc] at ho
      simp [hc, ho]

theorem parseIncludes_declare {E : Env} {her : Info} : ∀ {incs : List Str} {m inc : DeclMap},
    parseIncludes E her incs m = .ok inc →
    ∃ l, IncludesDeclare E her incs l ∧ ∀ k, inc k = m k ++ onlyIncludes l k := by
  intro incs
  induction incs with
  | nil =>
    intro m inc h
    cases h
    exact ⟨[], .nil, by intro k; simp [onlyIncludes]⟩
  | cons i is ih =>
    intro m inc h
    simp only [parseIncludes] at h
    split at h
    · cases h
    · rename_i d hd
      obtain ⟨l, h1, h2⟩ := ih h
      refine ⟨d :: l, .cons (newInclude_iff.mp hd) h1, ?_⟩
      intro k
      rw [h2]
      unfold DeclMap.append onlyIncludes
      by_cases hk : k = .include <;> simp [hk]

theorem visitDir_declares {E : Env} {G : GoTool} {p : Str} {n : Node} {s s' : Scan} {r : Option Err}
    (hd : n.isDir = true) (h : visitDir E G p n s = (s', r)) (hr : r = none ∨ r = some .skipDir) :
    ∃ dm, DirDeclares E G p n dm ∧ ∀ k, s'.decls k = s.decls k ++ dm k := by
  unfold visitDir at h
  cases n with
  | file d b => cases hd
  | dir d kids =>
    simp only at h
    split at h
    · simp only [Prod.mk.injEq] at h
      rw [← h.2] at hr
      rcases hr with hr | hr <;> cases hr
    · rename_i srcs hp
      split at h
      · rename_i m hm
        simp only [Prod.mk.injEq] at h
        obtain ⟨f, hf, hj⟩ := addSources_joins srcs _ _ hm
        exact ⟨fun k => srcs.flatMap fun src => f src k, ⟨d, kids, srcs, rfl, parseDir_sources.mp hp, f, hf, fun k => rfl⟩, by
          intro k
          rw [← h.1]
          exact hj k⟩
      · simp only [Prod.mk.injEq] at h
        rw [← h.2] at hr
        rcases hr with hr | hr <;> cases hr
      · simp only [Prod.mk.injEq] at h
        rw [← h.2] at hr
        rcases hr with hr | hr <;> cases hr

theorem dirDeclares_unique {E : Env} {G : GoTool} {p : Str} {n : Node} {a b : DeclMap} (ha : DirDeclares E G p n a)
    (hb : DirDeclares E G p n b) : ∀ k, a k = b k := by
  obtain ⟨d, kids, srcs, rfl, hp, f, hf, hk⟩ := ha
  obtain ⟨d', kids', srcs', he, hp', f', hf', hk'⟩ := hb
  cases he
  rw [← parseDir_sources] at hp hp'
  rw [hp] at hp'
  cases hp'
  intro k
  rw [hk, hk', List.flatMap_def, List.flatMap_def]
  congr 1
  apply List.map_congr_left
  intro x hx
  have := hf x hx
  rw [hf' x hx] at this
  simp only [Res.ok.injEq, Prod.mk.injEq, and_true] at this
  rw [this]

/-- The scan over a list of visits. -/
theorem steps_declares {E : Env} {G : GoTool} {l : List (Str × Node)} {s s' : Scan}
    (h : Disk.Steps (scanFn (visitDir E G)) l s s') :
    ∃ f : Str × Node → DeclMap,
      (∀ e ∈ l.filter (fun e => e.2.isDir && !ignored e.1), DirDeclares E G e.1 e.2 (f e)) ∧
      ∀ k, s'.decls k = s.decls k ++ (l.filter fun e => e.2.isDir && !ignored e.1).flatMap fun e => f e k := by
  induction h with
  | nil s => exact ⟨fun _ => DeclMap.empty, by simp, by simp⟩
  | @cons p n l s s1 s2 r hcb hr _ ih =>
    obtain ⟨f, hf, hk⟩ := ih
    unfold scanFn at hcb
    by_cases hd : n.isDir = false
    · rw [if_pos hd] at hcb
      cases hcb
      refine ⟨f, ?_, ?_⟩
      · simpa [List.filter_cons, hd] using hf
      · simpa [List.filter_cons, hd] using hk
    · have hd' : n.isDir = true := by simpa using hd
      rw [if_neg hd] at hcb
      by_cases hi : ignored p = true
      · rw [if_pos hi] at hcb
        cases hcb
        refine ⟨f, ?_, ?_⟩
        · simpa [List.filter_cons, hi] using hf
        · simpa [List.filter_cons, hi] using hk
      · rw [if_neg hi] at hcb
        have hi' : ignored p = false := by simpa using hi
        obtain ⟨dm, hdm, hj⟩ := visitDir_declares hd' hcb hr
        classical
        have key : ∀ e ∈ l.filter (fun e => e.2.isDir && !ignored e.1), ∀ k,
            (if e.1 = p ∧ DirDeclares E G e.1 e.2 dm then dm else f e) k = f e k := by
          intro e he k
          split
          · rename_i hc
            exact dirDeclares_unique hc.2 (hf e he) k
          · rfl
        refine ⟨fun e => if e.1 = p ∧ DirDeclares E G e.1 e.2 dm then dm else f e, ?_, ?_⟩
        · intro e he
          rw [List.filter_cons, if_pos (by simp [hd', hi'])] at he
          rcases List.mem_cons.mp he with rfl | he
          · simp only [hdm, and_self, if_true]
          · have := hf e he
            simp only
            split
            · rename_i hc; exact hc.2
            · exact this
        · intro k
          rw [hk k, hj k, List.filter_cons, if_pos (by simp [hd', hi']), List.flatMap_cons, List.append_assoc]
          simp only [hdm, and_self, if_true]
          congr 2
          rw [List.flatMap_def, List.flatMap_def]
          congr 1
          apply List.map_congr_left
          intro e he
          exact (key e he k).symm

/-- **C43** with the names the code ignores (missing: the exact names, and roots with an ignored name; both are refuted
below). The declarations of a module are the included ones and those of every directory on whose way from the root there
is no directory with an ignored prefix, in order. -/
theorem C43_scan_partial {E : Env} {G : GoTool} {disk : Node} {her : Info} {includes : List Str} {m : DeclMap}
    {root : List Str} {n : Node} (hw : WF disk) (hg : GoPath.Good root) (hdir : her.dir = GoPath.mk root)
    (hn : disk.find root = some n) (hroot : ∀ w, root.getLast? = some w → ¬ IgnoredPrefix w)
    (h : parse E G disk her includes = .ok m) :
    ∃ inc, IncludesDeclare E her includes inc ∧
      ∃ f : List Str × Node → DeclMap,
        (∀ e ∈ scannedDirs IgnoredPrefix n, DirDeclares E G (GoPath.mk (root ++ e.1)) e.2 (f e)) ∧
        ∀ k, m k = onlyIncludes inc k ++ (scannedDirs IgnoredPrefix n).flatMap fun e => f e k := by
  have hrootok : ignored (GoPath.mk root) = false := by
    rcases List.eq_nil_or_concat root with rfl | ⟨a, c, rfl⟩
    · decide
    · have hc : GoPath.GoodElem c := hg c (by simp)
      have := hroot c (by simp)
      rw [← ignored_iff (a := a) hc] at this
      simpa using this
  unfold parse at h
  split at h
  · cases h
  · rename_i inc hinc
    obtain ⟨l, hl, hinc⟩ := parseIncludes_declare hinc
    refine ⟨l, hl, ?_⟩
    have hst : osStat disk her.dir = some n := by
      unfold osStat
      rw [hdir, GoPath.elems_mk hg]
      exact hn
    rw [hst] at h
    cases n with
    | file d b => cases h
    | dir d kids =>
      simp only at h
      have hwn : WF (.dir d kids) := Disk.find_wf _ hw hn
      split at h
      · rename_i s hs
        cases h
        have hsteps := Disk.walk_steps (skip := ignored) (fun p n s => scanFn_skip p n s) hs
        obtain ⟨f, hf, hk⟩ := steps_declares hsteps
        have hvis : (Disk.visits ignored her.dir (.dir d kids)).filter (fun e => e.2.isDir && !ignored e.1) =
            (scannedDirs IgnoredPrefix (.dir d kids)).map fun e => (GoPath.mk (root ++ e.1), e.2) := by
          rw [Disk.visits_open, List.filter_map, List.filter_filter, hdir]
          have hmap : ∀ e ∈ tree (.dir d kids), Disk.joinAll (GoPath.mk root) e.1 = GoPath.mk (root ++ e.1) :=
            fun e he => Disk.joinAll_mk hg (Disk.tree_good _ hwn e he)
          have hfil : (tree (.dir d kids)).filter (fun e =>
              ((fun e : Str × Node => e.2.isDir && !ignored e.1) ∘ fun e : List Str × Node =>
                (Disk.joinAll (GoPath.mk root) e.1, e.2)) e && Disk.openTo ignored (GoPath.mk root) e.1) =
              scannedDirs IgnoredPrefix (.dir d kids) := by
            unfold scannedDirs
            apply List.filter_congr
            intro e he
            have hge := Disk.tree_good _ hwn e he
            rw [Bool.eq_iff_iff]
            simp only [Function.comp_apply, Bool.and_eq_true, Bool.not_eq_true', decide_eq_true_eq]
            rw [hmap e he, Disk.openTo_mk hg hge]
            constructor
            · rintro ⟨⟨h1, h2⟩, h3⟩
              refine ⟨h1, ?_⟩
              intro w hwm hiw
              obtain ⟨a, b, hab⟩ := List.append_of_mem hwm
              have hgw := hge w hwm
              have hpre : a ++ [w] <+: e.1 := ⟨b, by simp [hab]⟩
              have hign : ignored (GoPath.mk (root ++ (a ++ [w]))) = true := by
                rw [← List.append_assoc]
                exact (ignored_iff hgw).mpr hiw
              by_cases heq : a ++ [w] = e.1
              · rw [heq] at hign; rw [hign] at h2; cases h2
              · rw [h3 _ hpre heq] at hign; cases hign
            · rintro ⟨h1, h2⟩
              have hall : ∀ es, es <+: e.1 → ignored (GoPath.mk (root ++ es)) = false := by
                intro es hes
                rcases List.eq_nil_or_concat es with rfl | ⟨a, c, rfl⟩
                · simpa using hrootok
                · have hcm : c ∈ e.1 := hes.subset (by simp)
                  have := h2 c hcm
                  rw [← ignored_iff (a := root ++ a) (hge c hcm)] at this
                  rw [List.append_assoc] at this
                  simpa using this
              exact ⟨⟨h1, hall _ (List.prefix_refl _)⟩, fun es hes _ => hall es hes⟩
          rw [hfil]
          apply List.map_congr_left
          intro e he
          rw [hmap e (List.mem_filter.mp he).1]
        refine ⟨fun e => f (GoPath.mk (root ++ e.1), e.2), ?_, ?_⟩
        · intro e he
          exact hf (GoPath.mk (root ++ e.1), e.2) (by rw [hvis]; exact List.mem_map.mpr ⟨e, he, rfl⟩)
        · intro k
          rw [hk k, hvis, List.flatMap_map]
          simp only [hinc, DeclMap.empty, List.nil_append]
      · split at h <;> cases h

/-- The module `/src/app` with a Go file in the directory `name`. -/
def subDisk (name : Str) : Node :=
  Demo.disk [Demo.dirNode (b! "src") [Demo.dirNode (b! "app") [Demo.dirNode name [Demo.fileNode (b! "x.go") (b! "package x")]]]]

/-- The directory `name`. -/
def subNode (name : Str) : Node := (Demo.dirNode name [Demo.fileNode (b! "x.go") (b! "package x")]).2

/-- A program with one declaration in every Go file. -/
def openTool : GoTool := Demo.tool (Demo.program [Demo.callLit (b! "Open") (b! "\"/readme\"")])

theorem one_decl {E : Env} {G : GoTool} {p : Str} {n : Node} {dm : DeclMap} (hd : n.isDir = true)
    (h : DirDeclares E G p n dm)
    (hc : (match visitDir E G p n ⟨DeclMap.empty, false⟩ with
      | (s, none) => (s.decls .open).length == 1
      | _ => false) = true) : (dm .open).length = 1 := by
  generalize hv : visitDir E G p n ⟨DeclMap.empty, false⟩ = r at hc
  obtain ⟨s, r⟩ := r
  cases r with
  | some e => cases hc
  | none =>
    obtain ⟨dm', hdm', hk⟩ := visitDir_declares hd hv (Or.inl rfl)
    have := hk .open
    rw [dirDeclares_unique h hdm' .open]
    simp only [DeclMap.empty, List.nil_append] at this
    rw [← this]
    simpa using hc

/-- **C43** is false of the code: a directory is ignored if its name starts with an ignored name, like `vendored`. -/
theorem C43_prefix_refuted : ¬ C43_statement := by
  intro h
  have h1 : (match parse Demo.env openTool (subDisk (b! "vendored")) Demo.info [] with
    | .ok m => (m .open).length == 0
    | _ => false) = true := by decide +kernel
  split at h1
  · rename_i m hm
    obtain ⟨inc, _, f, hf, hk⟩ := h Demo.env openTool _ Demo.info [] m [b! "src", b! "app"] _ (by decide +kernel)
      (by decide) rfl rfl hm
    have hmem : (([b! "vendored"], subNode (b! "vendored")) : List Str × Node) ∈ scannedDirs IgnoredName
        (Demo.dirNode (b! "app") [Demo.dirNode (b! "vendored") [Demo.fileNode (b! "x.go") (b! "package x")]]).2 := by
      refine List.mem_filter.mpr ⟨by simp [Demo.dirNode, tree, Disk.Node.treeKids, subNode], by decide⟩
    have h2 := one_decl rfl (hf _ hmem) (by decide +kernel)
    have h3 := hk .open
    have h4 : m .open = [] := by simpa using h1
    rw [h4] at h3
    have h5 := List.append_eq_nil_iff.mp h3.symm
    have h6 := List.flatMap_eq_nil_iff.mp h5.2 _ hmem
    rw [h6] at h2
    cases h2
  · cases h1

/-- A module in a directory whose name starts with `_`. -/
def hiddenInfo : Info :=
  { dir := b! "/src/_app", importPath := b! "app", name := b! "app",
    module := { path := b! "app", main := true, dir := b! "/src/_app", goMod := b! "/src/_app/go.mod",
                goVersion := b! "1.13" } }

def hiddenEnv : Env :=
  HereParse.env (fun _ => .ok hiddenInfo) (fun _ => .ok hiddenInfo) Demo.gzip Demo.gunzip

def hiddenDisk : Node :=
  Demo.disk [Demo.dirNode (b! "src") [Demo.dirNode (b! "_app") [Demo.fileNode (b! "x.go") (b! "package x")]]]

/-- **C43** is false of the code: if the module's own directory has an ignored name, nothing at all is scanned. -/
theorem C43_root_refuted : ¬ C43_statement := by
  intro h
  have h1 : (match parse hiddenEnv openTool hiddenDisk hiddenInfo [] with
    | .ok m => (m .open).length == 0
    | _ => false) = true := by decide +kernel
  split at h1
  · rename_i m hm
    obtain ⟨inc, _, f, hf, hk⟩ := h hiddenEnv openTool _ hiddenInfo [] m [b! "src", b! "_app"] _ (by decide +kernel)
      (by decide) rfl rfl hm
    have hmem : (([], subNode (b! "_app")) : List Str × Node) ∈ scannedDirs IgnoredName (subNode (b! "_app")) := by
      refine List.mem_filter.mpr ⟨by simp [Demo.dirNode, tree, subNode], by decide⟩
    have h2 := one_decl rfl (hf _ hmem) (by decide +kernel)
    have h3 := hk .open
    have h4 : m .open = [] := by simpa using h1
    rw [h4] at h3
    have h5 := List.append_eq_nil_iff.mp h3.symm
    have h6 := List.flatMap_eq_nil_iff.mp h5.2 _ hmem
    rw [h6] at h2
    cases h2
  · cases h1

/-- A concrete case of C43: a scanned directory, an ignored one, and a root that is not ignored. -/
example : WF (subDisk (b! "pkg")) ∧ (∀ w, [b! "src", b! "app"].getLast? = some w → ¬ IgnoredPrefix w) ∧
    (match parse Demo.env openTool (subDisk (b! "pkg")) Demo.info [] with
      | .ok m => (m .open).length == 1
      | _ => false) = true ∧
    (match parse Demo.env openTool (subDisk (b! "vendor")) Demo.info [] with
      | .ok m => (m .open).length == 0
      | _ => false) = true := by
  refine ⟨by decide +kernel, ?_, by decide +kernel, by decide +kernel⟩
  intro w h
  cases h
  decide

end Props
end Verif
